import Verif.Props.InvalidFn
import Verif.Proofs.FnExpand

/-!
# C107: one text after another
-/

namespace CMacro
open Spec (Op Def Table Item Expands Complete)

/-- The result of two texts one after the other, from the results of the two: the first error, or all tokens. -/
def Spec.oneAfterOther : Res (List MacroToken) → Res (List MacroToken) → Res (List MacroToken)
  | .error e, _ => .error e
  | .ok _, .error e => .error e
  | .ok x, .ok y => .ok (x ++ y)

theorem detokenize_two (n : Nat) (a b : List Token) :
    detokenize n (a ++ b) = Spec.oneAfterOther (detokenize n a) (detokenize n b) := by
  cases ha : detokenize n a with
  | ok x =>
    cases hb : detokenize n b with
    | ok y => exact detokenize_append ha hb
    | error e => exact detokenize_append_error ha hb
  | error e =>
    show _ = (Except.error e : Res (List MacroToken))
    induction a with
    | nil => cases ha
    | cons t ts ih =>
      simp only [List.cons_append, detokenize, bind, Except.bind] at ha ⊢
      cases ht : t.detokenize n with
      | error e' => rw [ht] at ha; exact ha
      | ok m =>
        rw [ht] at ha
        dsimp only at ha ⊢
        cases hd : detokenize n ts with
        | error e' => rw [hd] at ha; rw [ih (by rw [hd]; exact ha)]
        | ok ms => rw [hd] at ha; cases ha

theorem returns_of_expands {E : Env} (L : E.Lawful) {h : List Op} (hP : Spec.Plain (nameOf E) (Table.run h)) {ts : List Str}
    (hts : PlainInput ts) {out : List Item} (hx : Expands (nameOf E) (Table.run h) [] (ts.map (Spec.item (nameOf E))) out) :
    Returns (fun k => (MacroSet.run h).expand E k ts) (detokenize 0 (out.map (tokOf E))) := by
  obtain ⟨_, _, h3⟩ := expands_good L (agrees_run h) hP hx _ sameHidden_top hts.ok
  obtain ⟨N, hN⟩ := h3.nil_pre
  refine ⟨detokenize_ne_diverge _ _, N, ?_⟩
  simp only [MacroSet.expand, expandVarMacroBody_plain hts, hN N (Nat.le_refl _)]

theorem PlainInput.append {a b : List Str} (ha : PlainInput a) (hb : PlainInput b) : PlainInput (a ++ b) := by
  refine ⟨fun s hs => ?_, fun h => ?_⟩
  · exact (List.mem_append.1 hs).elim (ha.1 s) (hb.1 s)
  · exact (List.mem_append.1 h).elim ha.2 hb.2

/-- Two texts that have an expansion by the textbook rules, one after the other: `expand` returns the tokens of the first and then those
of the second, or the error of the first that has one. -/
theorem C107_expands (E : Env) (L : E.Lawful) (h : List Op) (hP : Spec.Plain (nameOf E) (Table.run h)) (a b : List Str)
    (ha : PlainInput a) (hb : PlainInput b) (oa ob : List Item)
    (hxa : Expands (nameOf E) (Table.run h) [] (a.map (Spec.item (nameOf E))) oa)
    (hxb : Expands (nameOf E) (Table.run h) [] (b.map (Spec.item (nameOf E))) ob) (ra rb : Res (List MacroToken))
    (hra : Returns (fun k => (MacroSet.run h).expand E k a) ra) (hrb : Returns (fun k => (MacroSet.run h).expand E k b) rb) :
    Returns (fun k => (MacroSet.run h).expand E k (a ++ b)) (Spec.oneAfterOther ra rb) := by
  rw [expand_unique hra (returns_of_expands L hP ha hxa), expand_unique hrb (returns_of_expands L hP hb hxb)]
  have hx := Expands.append' hxa hxb
  rw [← List.map_append] at hx
  have := returns_of_expands L hP (ha.append hb) hx
  rw [List.map_append, detokenize_two] at this
  exact this

/-- **C107**: complete texts over well-nested definitions (every name of a function-like macro has its argument list behind it) can be
expanded one by one. -/
theorem C107 (E : Env) (L : E.Lawful) (h : List Op) (hP : Spec.Plain (nameOf E) (Table.run h))
    (hW : Spec.WellNested (nameOf E) (Table.run h)) (a b : List Str) (ha : PlainInput a) (hb : PlainInput b)
    (hca : Complete (Table.run h) (a.map (Spec.item (nameOf E)))) (hcb : Complete (Table.run h) (b.map (Spec.item (nameOf E))))
    (r : Res (List MacroToken)) :
    Returns (fun k => (MacroSet.run h).expand E k (a ++ b)) r ↔
      ∃ ra rb, Returns (fun k => (MacroSet.run h).expand E k a) ra ∧ Returns (fun k => (MacroSet.run h).expand E k b) rb ∧
        r = Spec.oneAfterOther ra rb := by
  obtain ⟨oa, hoa⟩ := expands_total hW (agrees_finite (agrees_run h)) _ [] _ (Nat.lt_succ_self _) hca
  obtain ⟨ob, hob⟩ := expands_total hW (agrees_finite (agrees_run h)) _ [] _ (Nat.lt_succ_self _) hcb
  have key := C107_expands E L h hP a b ha hb oa ob hoa hob
  constructor
  · intro hr
    refine ⟨_, _, returns_of_expands L hP ha hoa, returns_of_expands L hP hb hob, ?_⟩
    exact expand_unique hr (key _ _ (returns_of_expands L hP ha hoa) (returns_of_expands L hP hb hob))
  · rintro ⟨ra, rb, hra, hrb, rfl⟩
    exact key ra rb hra hrb

/-- **C107** with object-like macros only: any texts, recursive definitions included. -/
theorem C107_objects (E : Env) (L : E.Lawful) (h : List Op) (hvar : ∀ n d, Table.run h n = some d → ∃ b, d = .var b)
    (hP : Spec.Plain (nameOf E) (Table.run h)) (a b : List Str) (ha : PlainInput a) (hb : PlainInput b) (r : Res (List MacroToken)) :
    Returns (fun k => (MacroSet.run h).expand E k (a ++ b)) r ↔
      ∃ ra rb, Returns (fun k => (MacroSet.run h).expand E k a) ra ∧ Returns (fun k => (MacroSet.run h).expand E k b) rb ∧
        r = Spec.oneAfterOther ra rb := by
  obtain ⟨oa, hoa⟩ := expands_total_var (nameOf := nameOf E) (agrees_finite (agrees_run h)) hvar _ [] (a.map (Spec.item (nameOf E))) (Nat.le_refl _)
  obtain ⟨ob, hob⟩ := expands_total_var (nameOf := nameOf E) (agrees_finite (agrees_run h)) hvar _ [] (b.map (Spec.item (nameOf E))) (Nat.le_refl _)
  have key := C107_expands E L h hP a b ha hb oa ob hoa hob
  constructor
  · intro hr
    refine ⟨_, _, returns_of_expands L hP ha hoa, returns_of_expands L hP hb hob, ?_⟩
    exact expand_unique hr (key _ _ (returns_of_expands L hP ha hoa) (returns_of_expands L hP hb hob))
  · rintro ⟨ra, rb, hra, hrb, rfl⟩
    exact key ra rb hra hrb

/-- `f(2)` and then `+ g(x)`, with the mutually recursive macros of `nestedHistory`. -/
example (ra rb : Res (List MacroToken))
    (hra : Returns (fun k => (MacroSet.run nestedHistory).expand asciiEnv k [c!"f", c!"(", c!"2", c!")"]) ra)
    (hrb : Returns (fun k => (MacroSet.run nestedHistory).expand asciiEnv k [c!"+", c!"g", c!"(", c!"x", c!")"]) rb) :
    Returns (fun k => (MacroSet.run nestedHistory).expand asciiEnv k [c!"f", c!"(", c!"2", c!")", c!"+", c!"g", c!"(", c!"x", c!")"])
      (Spec.oneAfterOther ra rb) := by
  refine (C107 asciiEnv asciiEnv_lawful nestedHistory nestedHistory_plain nestedHistory_wellNested [c!"f", c!"(", c!"2", c!")"]
    [c!"+", c!"g", c!"(", c!"x", c!")"] (by decide) (by decide) ?_ ?_ _).2 ⟨ra, rb, hra, hrb, rfl⟩
  · rw [show [c!"f", c!"(", c!"2", c!")"].map (Spec.item (nameOf asciiEnv)) =
      [.name c!"f" false, .other c!"(", .other c!"2", .other c!")"] from by decide +kernel]
    refine .call (args := [[.other c!"2"]]) rfl ⟨by simp, ?_, rfl⟩ (.inl rfl) ?_ .nil
    all_goals
      intro a ha
      simp only [List.mem_singleton] at ha
      subst ha
      first | exact .other .nil | exact argText_iff.2 (by decide)
  · rw [show [c!"+", c!"g", c!"(", c!"x", c!")"].map (Spec.item (nameOf asciiEnv)) =
      [.other c!"+", .name c!"g" false, .other c!"(", .name c!"x" false, .other c!")"] from by decide +kernel]
    refine .other (.call (args := [[.name c!"x" false]]) rfl ⟨by simp, ?_, rfl⟩ (.inl rfl) ?_ .nil)
    all_goals
      intro a ha
      simp only [List.mem_singleton] at ha
      subst ha
      first | exact .name (by simp [nestedHistory, Table.run, Table.step, Table.set, Table.empty]) .nil | exact argText_iff.2 (by decide)

/-- Both parts succeed. -/
example : (MacroSet.run nestedHistory).expand asciiEnv 12 [c!"+", c!"g", c!"(", c!"x", c!")"] =
    .ok [.punct c!"+", .punct c!"(", .ident c!"x", .punct c!"*", .ident c!"g", .punct c!"(", .lit (.int ⟨1, none⟩), .punct c!")",
      .punct c!"+", .ident c!"f", .punct c!"(", .lit (.int ⟨1, none⟩), .punct c!")", .punct c!")"] := by decide +kernel

/-- The name of a function-like macro at the end of a text finds its arguments in the next one. -/
example : (MacroSet.run nestedHistory).expand asciiEnv 12 ([c!"g"] ++ [c!"(", c!"x", c!")"]) ≠
    Spec.oneAfterOther ((MacroSet.run nestedHistory).expand asciiEnv 12 [c!"g"])
      ((MacroSet.run nestedHistory).expand asciiEnv 12 [c!"(", c!"x", c!")"]) := by decide +kernel

end CMacro
