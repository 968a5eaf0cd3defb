import Verif.Model.History
import Verif.Proofs.Fuel
import Verif.Spec.Expand

/-!
# What a caller observes

The model's calls take a bound on the call depth; these definitions say what an
unbounded call does.
-/

namespace CMacro

/-- The call returns `r`: with enough stack depth the bounded call (for instance
`MacroSet.expand`, /repo/src/macro_set/mod.rs:861-870) finishes with `r`. -/
def Returns {α : Type} (call : Nat → Res α) (r : Res α) : Prop :=
  r ≠ .error .diverge ∧ ∃ n, call n = r

/-- The call never returns: no stack depth is enough
(/repo/src/macro_set/mod.rs:464,474: the recursive calls). -/
def NeverReturns {α : Type} (call : Nat → Res α) : Prop := ∀ n, call n = .error .diverge

/-- The identifier a spelling denotes during expansion
(/repo/src/macro_set/mod.rs:190-206, `Token::from_str`). -/
def nameOf (E : Env) (s : Str) : Option Str :=
  if s = c!"__VA_ARGS__" then none else identTryFrom E s

/-- The token a spelling becomes when it is returned unchanged
(/repo/src/macro_set/mod.rs:190-206 followed by 234-247); `none` if it is not a C token. -/
def classify (E : Env) (s : Str) : Option MacroToken :=
  match (Token.fromStr E s).detokenize 0 with
  | .ok m => m
  | .error _ => none

/-- The token returned for an item of the specification
(/repo/src/macro_set/mod.rs:234-247). -/
def itemResult (E : Env) : Spec.Item → Option MacroToken
  | .name id _ => some (.ident id)
  | .other s => classify E s

/-- All items, `none` if one is not a C token (/repo/src/macro_set/mod.rs:387-389). -/
def results (E : Env) : List Spec.Item → Option (List MacroToken)
  | [] => some []
  | i :: is => match itemResult E i, results E is with
    | some m, some ms => some (m :: ms)
    | _, _ => none

/-- A call returns at most one thing. -/
theorem Returns.unique {α : Type} {call : Nat → Res α}
    (mono : ∀ n m, n ≤ m → Res.Le (call n) (call m)) {r r' : Res α}
    (h : Returns call r) (h' : Returns call r') : r = r' := by
  obtain ⟨hd, n, hn⟩ := h
  obtain ⟨hd', n', hn'⟩ := h'
  have a := (mono n (max n n') (Nat.le_max_left _ _)).eq (by rw [hn]; exact hd)
  have b := (mono n' (max n n') (Nat.le_max_right _ _)).eq (by rw [hn']; exact hd')
  rw [← hn, ← hn', ← a, ← b]

/-- `expand` returns at most one thing. -/
theorem expand_unique {E : Env} {ms : MacroSet} {body : List Str} {r r' : Res (List MacroToken)}
    (h : Returns (fun n => ms.expand E n body) r) (h' : Returns (fun n => ms.expand E n body) r') :
    r = r' :=
  h.unique (fun _ _ hnm => expand_le E ms hnm body) h'

end CMacro
