import Verif.Props.Inline
import Verif.Model.Pipeline

/-!
# C113: the code generated after writing out a macro by hand
-/

namespace CMacro
open Spec (Op Def Table Item Expands Uses ArgText)

theorem pipeVar_same {C : Ctx} {h h' : List Op} {n : Str}
    (hr : ∃ r, Returns (fun k => (MacroSet.run h).expandVar C.env k n) r ∧ Returns (fun k => (MacroSet.run h').expandVar C.env k n) r) :
    ∃ N, ∀ k ≥ N, pipeVar k C h' n = pipeVar k C h n := by
  obtain ⟨r, ⟨h1, n1, h2⟩, _, n2, h3⟩ := hr
  refine ⟨max n1 n2, fun k hk => ?_⟩
  have e1 : (MacroSet.run h).expandVar C.env k n = r := by
    rw [← h2]; exact (expandVar_le C.env _ (show n1 ≤ k by omega) n).eq (fun he => h1 (h2.symm.trans he))
  have e2 : (MacroSet.run h').expandVar C.env k n = r := by
    rw [← h3]; exact (expandVar_le C.env _ (show n2 ≤ k by omega) n).eq (fun he => h1 (h3.symm.trans he))
  simp only [pipeVar, e1, e2]

theorem pipeFn_same {C : Ctx} {h h' : List Op} {n : Str}
    (hr : ∃ r, Returns (fun k => (MacroSet.run h).expandFn C.env k n) r ∧ Returns (fun k => (MacroSet.run h').expandFn C.env k n) r) :
    ∃ N, ∀ k ≥ N, pipeFn k C h' n = pipeFn k C h n := by
  obtain ⟨r, ⟨h1, n1, h2⟩, _, n2, h3⟩ := hr
  refine ⟨max n1 n2, fun k hk => ?_⟩
  have e1 : (MacroSet.run h).expandFn C.env k n = r := by
    rw [← h2]; exact (expandFn_le C.env _ (show n1 ≤ k by omega) n).eq (fun he => h1 (h2.symm.trans he))
  have e2 : (MacroSet.run h').expandFn C.env k n = r := by
    rw [← h3]; exact (expandFn_le C.env _ (show n2 ≤ k by omega) n).eq (fun he => h1 (h3.symm.trans he))
  simp only [pipeFn, e1, e2]

/-- **C113** for the code of variable-like macros: writing out the macro `x` in the definition of `n` leaves the code that is generated for `n`, or
the error that is reported, as it is. -/
theorem C113_code_var (C : Ctx) (L : C.env.Lawful) (h h' : List Op) (hP : Spec.Plain (nameOf C.env) (Table.run h))
    (hP' : Spec.Plain (nameOf C.env) (Table.run h')) (x n : Str) (b body : List Str) (hne : x ≠ n)
    (hd : Table.run h x = some (.var b)) (hb : ArgText (b.map (Spec.item (nameOf C.env)))) (hu : ¬ Uses (nameOf C.env) (Table.run h) x x)
    (hn : Table.run h n = some (.var body)) (hn' : Table.run h' n = some (.var (Spec.writeOut (nameOf C.env) x b body)))
    (hsame : ∀ y, y ≠ n → Table.run h' y = Table.run h y) (out : List Item)
    (hx : Expands (nameOf C.env) (Table.run h) [n] (body.map (Spec.item (nameOf C.env))) out) :
    ∃ N, ∀ k ≥ N, pipeVar k C h' n = pipeVar k C h n :=
  pipeVar_same (C113_var C.env L h h' hP hP' x n b body hne hd hb hu hn hn' hsame out hx)

/-- **C113** for the code of function-like macros. -/
theorem C113_code_fn (C : Ctx) (L : C.env.Lawful) (h h' : List Op) (hP : Spec.Plain (nameOf C.env) (Table.run h))
    (hP' : Spec.Plain (nameOf C.env) (Table.run h')) (x n : Str) (b xs body : List Str) (variadic : Bool) (hne : x ≠ n) (hell : c!"..." ∉ xs)
    (hd : Table.run h x = some (.var b)) (hb : ArgText (b.map (Spec.item (nameOf C.env)))) (hu : ¬ Uses (nameOf C.env) (Table.run h) x x)
    (hn : Table.run h n = some (.fn (xs ++ if variadic then [c!"..."] else []) body))
    (hn' : Table.run h' n = some (.fn (xs ++ if variadic then [c!"..."] else []) (Spec.writeOut (nameOf C.env) x b body)))
    (hsame : ∀ y, y ≠ n → Table.run h' y = Table.run h y) (hxs : ∀ p ∈ xs, nameOf C.env p ≠ some x) (hbx : ∀ w ∈ b, w ∉ xs) (out : List Item)
    (hx : Expands (nameOf C.env) (Table.run h) [n] (Spec.openBody (nameOf C.env) xs body) out) :
    ∃ N, ∀ k ≥ N, pipeFn k C h' n = pipeFn k C h n :=
  pipeFn_same (C113_fn C.env L h h' hP hP' x n b xs body variadic hne hell hd hb hu hn hn' hsame hxs hbx out hx)

/-- `#define LIMIT 100`, `#define TWICE LIMIT + LIMIT` and `#define ADD(x) x + LIMIT`. -/
def limitHistory : List Op :=
  [.defineVar c!"LIMIT" [c!"100"], .defineVar c!"TWICE" [c!"LIMIT", c!"+", c!"LIMIT"], .defineFn c!"ADD" [c!"x"] [c!"x", c!"+", c!"LIMIT"]]

theorem limitHistory_unused : ¬ Uses (nameOf asciiEnv) (Table.run limitHistory) c!"LIMIT" c!"LIMIT" := by
  intro h
  have key : ∀ {x y}, Uses (nameOf asciiEnv) (Table.run limitHistory) x y → x ≠ c!"LIMIT" := by
    intro x y h
    induction h with
    | @word x d w y hd hw hy =>
      rintro rfl
      have h1 : Table.run limitHistory c!"LIMIT" = some (.var [c!"100"]) := rfl
      rw [h1] at hd
      cases hd
      obtain rfl := List.mem_singleton.1 hw
      have : nameOf asciiEnv c!"100" = none := by decide +kernel
      rw [this] at hy
      cases hy
    | trans _ _ ih _ => exact ih
  exact key h rfl

/-- The code for `TWICE` is that for `#define TWICE 100 + 100`. -/
example : ∃ N, ∀ k ≥ N, pipeVar k (Ctx.unit asciiEnv) (limitHistory ++ [.defineVar c!"TWICE" [c!"100", c!"+", c!"100"]]) c!"TWICE" =
    pipeVar k (Ctx.unit asciiEnv) limitHistory c!"TWICE" := by
  refine C113_code_var (Ctx.unit asciiEnv) asciiEnv_lawful _ _ (plain_of_check (by decide +kernel)) (plain_of_check (by decide +kernel))
    c!"LIMIT" c!"TWICE" [c!"100"] [c!"LIMIT", c!"+", c!"LIMIT"] (by decide) rfl ?_ limitHistory_unused rfl (by decide +kernel) ?_
    [.other c!"100", .other c!"+", .other c!"100"] ?_
  · exact hundred_item ▸ argText_iff.2 (by decide)
  · intro y hy
    simp only [limitHistory, Table.run, List.foldl, List.cons_append, List.nil_append, Table.step, Table.set, if_neg hy]
  · have e : [c!"LIMIT", c!"+", c!"LIMIT"].map (Spec.item (nameOf asciiEnv)) = [.name c!"LIMIT" false, .other c!"+", .name c!"LIMIT" false] := by
      decide +kernel
    exact e ▸ .object (b := [.other c!"100"]) (by decide) rfl (hundred_item ▸ .other .nil)
      (.other (.object (b := [.other c!"100"]) (out := []) (by decide) rfl (hundred_item ▸ .other .nil) .nil))

/-- The code for `ADD` is that for `#define ADD(x) x + 100`. -/
example : ∃ N, ∀ k ≥ N, pipeFn k (Ctx.unit asciiEnv) (limitHistory ++ [.defineFn c!"ADD" [c!"x"] [c!"x", c!"+", c!"100"]]) c!"ADD" =
    pipeFn k (Ctx.unit asciiEnv) limitHistory c!"ADD" := by
  refine C113_code_fn (Ctx.unit asciiEnv) asciiEnv_lawful _ _ (plain_of_check (by decide +kernel)) (plain_of_check (by decide +kernel))
    c!"LIMIT" c!"ADD" [c!"100"] [c!"x"] [c!"x", c!"+", c!"LIMIT"] false (by decide) (by decide) rfl ?_ limitHistory_unused rfl
    (by decide +kernel) ?_ (by decide +kernel) (by decide) [.other c!"x", .other c!"+", .other c!"100"] ?_
  · exact hundred_item ▸ argText_iff.2 (by decide)
  · intro y hy
    simp only [limitHistory, Table.run, List.foldl, List.cons_append, List.nil_append, Table.step, Table.set, if_neg hy]
  · have e : Spec.openBody (nameOf asciiEnv) [c!"x"] [c!"x", c!"+", c!"LIMIT"] = [.other c!"x", .other c!"+", .name c!"LIMIT" false] := by
      decide +kernel
    exact e ▸ .other (.other (.object (b := [.other c!"100"]) (out := []) (by decide) rfl (hundred_item ▸ .other .nil) .nil))

/-- Code is generated for both, and the code for `TWICE` is the number 200. -/
example : (match pipeVar 40 (Ctx.unit asciiEnv) limitHistory c!"TWICE", pipeFn 40 (Ctx.unit asciiEnv) limitHistory c!"ADD" with
    | .gen (.ok ([.int 200 []], _)), .gen (.ok (.macro _ _ _)) => true
    | _, _ => false) = true := by decide +kernel

end CMacro
