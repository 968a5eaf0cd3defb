import Verif.Props.Bare
import Verif.Props.FnExpand

/-!
# C108 for function-like macros
-/

namespace CMacro
open Spec (Op Def Table Item Expands BlockComment bareText)

variable {E : Env}

/-- The parameters and the body without comments. -/
def Spec.bareFnResult : Res (List MacroToken × List MacroToken) → Res (List MacroToken × List MacroToken)
  | .ok (ps, ts) => .ok (ps, Spec.uncomment ts)
  | .error e => .error e

theorem openBody_bare (L : E.Lawful) {xs : List Str} (hx : ∀ x ∈ xs, ¬ BlockComment x) : ∀ body : List Str,
    Spec.openBody (nameOf E) xs (Spec.withoutComments body) = bareText (Spec.openBody (nameOf E) xs body)
  | [] => rfl
  | s :: body => by
    have ih := openBody_bare L hx body
    rw [withoutComments_cons_if]
    simp only [Spec.openBody, List.map_cons] at ih ⊢
    split
    · next h =>
      have : s ∉ xs := fun hm => hx s hm h
      rw [if_neg this, item_comment L h, bare_comment h, ih]
    · next h =>
      rw [List.map_cons, ih]
      split
      · rw [bare_other h]
      · rw [bare_item h]

theorem detokenize_bareIn (L : E.Lawful) (ps : Params E) (n : Nat) : ∀ out : List Item,
    detokenize n ((bareText out).map (tokIn ps)) = Spec.bareResult (detokenize n (out.map (tokIn ps))) := by
  have hps : ∀ s, BlockComment s → s ∉ ps.names := by
    intro s hs hm
    have := ps.named s hm
    rw [nameOf_comment L hs] at this
    cases this
  intro out
  induction out with
  | nil => rfl
  | cons i out ih =>
    have hkeep : ∀ m : Option MacroToken, (tokIn ps i).detokenize n = .ok m → (∀ x ∈ m, Spec.isRemark x = false) →
        detokenize n ((i :: bareText out).map (tokIn ps)) = Spec.bareResult (detokenize n ((i :: out).map (tokIn ps))) := by
      intro m hm hx
      simp only [List.map_cons, detokenize, hm, bind, Except.bind]
      rw [ih]
      cases detokenize n (out.map (tokIn ps)) with
      | error e => rfl
      | ok ms =>
        cases m with
        | none => rfl
        | some x =>
          simp only [Spec.bareResult, Spec.uncomment, Option.toList, List.nil_append, List.cons_append]
          rw [List.filter_cons_of_pos]
          simp [hx x rfl]
    cases i with
    | name id p =>
      rw [bare_name]
      refine hkeep (some (.ident id)) (by cases p <;> rfl) ?_
      rintro _ ⟨⟩; rfl
    | other s =>
      by_cases hc : BlockComment s
      · rw [bare_comment hc, ih]
        have hn := hps s hc
        obtain ⟨t, rfl, ht⟩ := hc
        have h1 : (tokIn ps (.other (c!"/*" ++ t ++ c!"*/"))).detokenize n = .ok (some (.comment t)) := by
          simp only [tokIn, paramIndex_none.2 hn]
          rw [fromStr_comment L ht]; rfl
        simp only [List.map_cons, detokenize, bind, Except.bind]
        rw [h1]
        cases detokenize n (out.map (tokIn ps)) with
        | error e => rfl
        | ok ms => rfl
      · rw [bare_other hc]
        cases hd : (tokIn ps (.other s)).detokenize n with
        | error e =>
          simp only [List.map_cons, detokenize, bind, Except.bind]
          rw [hd]
          rfl
        | ok m =>
          refine hkeep m hd ?_
          rintro x rfl
          have hf : ∀ c, tokIn ps (.other s) ≠ .comment c := by
            intro c e
            simp only [tokIn] at e
            split at e
            · cases e
            · exact hc (comment_only e)
          have hr : ∀ t, tokIn ps (.other s) ≠ .nonRepl t := by
            intro t e
            simp only [tokIn] at e
            split at e
            · cases e
            · exact fromStr_ne_nonRepl E s t e
          revert hd
          cases hq : tokIn ps (.other s) with
          | comment c => exact absurd hq (hf c)
          | nonRepl x => exact absurd hq (hr x)
          | varArgs =>
            intro hd
            simp only [Token.detokenize] at hd
            split at hd <;> cases hd
            all_goals rfl
          | plain s => intro hd; cases hd
          | placemarker => intro hd; cases hd
          | _ => intro hd; cases hd; rfl

/-- **C108** for `expand_fn_macro`: comments may stand anywhere in the bodies but between the name of a function-like macro and its
arguments, and as the only thing in the parentheses of a call without arguments. -/
theorem C108_fn_partial (E : Env) (L : E.Lawful) (h : List Op) (hP : Spec.Plain (nameOf E) (Table.run h)) (f : Str) (xs body : List Str)
    (variadic : Bool) (hf : Table.run h f = some (.fn (xs ++ if variadic then [c!"..."] else []) body)) (hell : c!"..." ∉ xs)
    (out : List Item) (hout : Expands (nameOf E) (Table.run h) [f] (Spec.openBody (nameOf E) xs body) out)
    (r : Res (List MacroToken × List MacroToken)) :
    Returns (fun k => (MacroSet.run h).expandFn E k f) r →
    Returns (fun k => (MacroSet.run (h.map Op.bare)).expandFn E k f) (Spec.bareFnResult r) := by
  intro hr
  have hx := expands_bare L (table_bare h) hP hout
  have hP' := plain_bare (table_bare h) hP
  obtain ⟨P, N, hPn, _, _, hN⟩ := expandFn_runs L (agrees_run h) hP hf hell hout
  have hxs : ∀ x ∈ xs, ¬ BlockComment x := by
    intro x hx hc
    have := P.named x (hPn ▸ hx)
    rw [nameOf_comment L hc] at this
    cases this
  rw [← openBody_bare L hxs] at hx
  have hf' : Table.run (h.map Op.bare) f = some (.fn (xs ++ if variadic then [c!"..."] else []) (Spec.withoutComments body)) := by
    rw [table_bare, hf]; rfl
  obtain ⟨Q, M, hQn, _, _, hM⟩ := expandFn_runs L (agrees_run _) hP' hf' hell hx
  have ht : tokIn Q = tokIn P := by
    funext t
    cases t with
    | name id p => cases p <;> rfl
    | other s => simp only [tokIn, hPn, hQn]
  rw [ht, detokenize_bareIn L] at hM
  have hdiv : detokenize (xs.length + if variadic = true then 1 else 0) (out.map (tokIn P)) ≠ .error .diverge := detokenize_ne_diverge _ _
  generalize detokenize (xs.length + if variadic = true then 1 else 0) (out.map (tokIn P)) = d at hN hM hdiv
  have hu : ∀ r', r' ≠ .error .diverge → (MacroSet.run h).expandFn E N f = r' → r = r' := fun r' h1 h2 =>
    hr.unique (fun _ _ hnm => expandFn_le E _ hnm f) ⟨h1, N, h2⟩
  cases d with
  | error e =>
    have hne : e ≠ .diverge := by rintro rfl; exact hdiv rfl
    rw [hu (.error e) (by simpa using hne) hN]
    exact ⟨by simpa [Spec.bareFnResult] using hne, M, hM⟩
  | ok ts =>
    rw [hu _ (by simp) hN]
    exact ⟨by simp [Spec.bareFnResult], M, hM⟩

/-- `#define TWICE(x) /* a */ x + /* b */ x`. -/
example : Returns (fun k => (MacroSet.run [.defineFn c!"TWICE" [c!"x"] [c!"x", c!"+", c!"x"]]).expandFn asciiEnv k c!"TWICE")
    (.ok ([.ident c!"x"], [.arg 0, .punct c!"+", .arg 0])) := by
  have e : Spec.openBody (nameOf asciiEnv) [c!"x"] [c!"/* a */", c!"x", c!"+", c!"/* b */", c!"x"] =
    [.other c!"/* a */", .other c!"x", .other c!"+", .other c!"/* b */", .other c!"x"] := by decide +kernel
  have hx : Expands (nameOf asciiEnv) (Table.run [.defineFn c!"TWICE" [c!"x"] [c!"/* a */", c!"x", c!"+", c!"/* b */", c!"x"]]) [c!"TWICE"]
      (Spec.openBody (nameOf asciiEnv) [c!"x"] [c!"/* a */", c!"x", c!"+", c!"/* b */", c!"x"])
      [.other c!"/* a */", .other c!"x", .other c!"+", .other c!"/* b */", .other c!"x"] := by
    rw [e]
    exact .other (.other (.other (.other (.other .nil))))
  exact C108_fn_partial asciiEnv asciiEnv_lawful [.defineFn c!"TWICE" [c!"x"] [c!"/* a */", c!"x", c!"+", c!"/* b */", c!"x"]]
    (plain_of_check (by decide +kernel)) c!"TWICE" [c!"x"] _ false rfl (by decide) _ hx
    (.ok ([.ident c!"x"], [.comment c!" a ", .arg 0, .punct c!"+", .comment c!" b ", .arg 0])) ⟨by simp, 6, by decide +kernel⟩

end CMacro
