import Verif.Proofs.Terminate
import Verif.Props.Store

/-!
# Properties C05, C06, C07, C08, C09, C10, C11: expansion

`Returns call r` says that the call, run with enough stack, returns `r`.
-/

namespace CMacro
open Spec (Op Def Table Item Expands)

/-! ## C05 -/

/-- **C05**: if two histories leave every name with the same meaning, all three expansion
calls behave the same on the two macro sets. -/
theorem C05_only_definitions_matter (E : Env) (h h' : List Op)
    (same : ∀ n, Table.run h n = Table.run h' n) :
    (∀ fuel ts, (MacroSet.run h).expand E fuel ts = (MacroSet.run h').expand E fuel ts) ∧
    (∀ fuel n, (MacroSet.run h).expandVar E fuel n = (MacroSet.run h').expandVar E fuel n) ∧
    (∀ fuel n, (MacroSet.run h).expandFn E fuel n = (MacroSet.run h').expandFn E fuel n) := by
  have hs : SameAnswers (MacroSet.run h) (MacroSet.run h') := by
    intro n
    have h1 := agrees_run h n
    have h2 := agrees_run h' n
    rw [same n] at h1
    exact ⟨h1.1.trans h2.1.symm, h1.2.trans h2.2.symm⟩
  exact ⟨expand_congr E hs, expandVar_congr E hs, expandFn_congr E hs⟩

/-- **C05**, consequence: calls about different names commute. -/
theorem C05_definition_order (E : Env) (h t : List Op) (a b : Op) (hab : a.name ≠ b.name) :
    ∀ fuel ts, (MacroSet.run (h ++ a :: b :: t)).expand E fuel ts =
      (MacroSet.run (h ++ b :: a :: t)).expand E fuel ts := by
  refine (C05_only_definitions_matter E _ _ fun n => ?_).1
  have : ∀ (x y : Op), x.name ≠ y.name → ∀ (T : Table) m,
      (T.step x).step y m = if m = y.name then T.step y m else T.step x m := by
    intro x y hxy T m
    have hy : (T.step x) y.name = T y.name := step_other T x y.name hxy
    split
    · rename_i hm
      subst hm
      generalize T.step x = T' at hy ⊢
      cases y with
      | defineVar k _ => simp [Table.step, Table.set, Op.name]
      | defineFn k _ _ => simp [Table.step, Table.set, Op.name]
      | undefineVar k =>
        simp only [Op.name] at hy ⊢
        simp only [Table.step, hy]
        cases hd : T k with
        | none => simp only; rw [hy, hd]
        | some d => cases d with
          | var b => simp [Table.set]
          | fn p b => simp only; rw [hy, hd]
      | undefineFn k =>
        simp only [Op.name] at hy ⊢
        simp only [Table.step, hy]
        cases hd : T k with
        | none => simp only; rw [hy, hd]
        | some d => cases d with
          | fn p b => simp [Table.set]
          | var b => simp only; rw [hy, hd]
    · rename_i hm
      exact step_other _ y m (fun hc => hm hc.symm)
  have e : ∀ T : Table, (T.step a).step b = (T.step b).step a := by
    intro T
    funext m
    rw [this a b hab, this b a (Ne.symm hab)]
    by_cases hb : m = b.name
    · rw [if_pos hb, if_neg (by rw [hb]; exact Ne.symm hab)]
    · by_cases ha : m = a.name
      · rw [if_neg hb, if_pos ha]
      · rw [if_neg hb, if_neg ha, step_other T a m (fun hc => ha hc.symm),
          step_other T b m (fun hc => hb hc.symm)]
  simp only [Table.run, List.foldl_append, List.foldl_cons, e]

/-- Non-vacuity: two different histories with the same outcome. -/
example :
    let h : List Op := [.defineVar c!"A" [c!"B"], .defineFn c!"B" [] [], .defineVar c!"B" [c!"1"]]
    let h' : List Op := [.defineVar c!"B" [c!"1"], .defineVar c!"A" [c!"2"], .undefineVar c!"A",
      .defineVar c!"A" [c!"B"]]
    (∀ n, Table.run h n = Table.run h' n) ∧ (MacroSet.run h).expand asciiEnv 5 [c!"A", c!"+", c!"A"] =
      .ok [.lit (.int ⟨1, none⟩), .punct c!"+", .lit (.int ⟨1, none⟩)] := by
  refine ⟨fun n => ?_, by decide +kernel⟩
  simp only [Table.run, List.foldl, Table.step, Table.set, Table.empty]
  by_cases h1 : n = c!"A" <;> by_cases h2 : n = c!"B" <;> simp_all [Table.set, Table.empty]

/-! ## C06 -/

/-- Failures other than `MacroNotFound`. -/
def NotMissing (f : Fail) : Prop := f ≠ .err .macroNotFound

theorem concat_notMissing (E : Env) (a b : Token) :
    (a.concat E b).Sat (fun _ => True) NotMissing := by
  cases h : a.concat E b with
  | ok c => trivial
  | error e =>
    show e ≠ _
    rintro rfl
    unfold Token.concat concatCore concatPunctLit concatIdentLit concatGeneral at h
    repeat' split at h
    all_goals simp at h
    all_goals (split at h <;> simp at h)

theorem notMissing_stepInv (E : Env) (ms : MacroSet) : StepInv E ms (fun _ => True) NotMissing where
  diverge := by simp [NotMissing]
  concatBegin := by simp [NotMissing]
  concatEnd := by simp [NotMissing]
  nonVariadic := by simp [NotMissing]
  arity := by simp [NotMissing]
  nonUnique := by simp [NotMissing]
  strNonArg := by simp [NotMissing]
  argName := by simp [NotMissing]
  paint := fun _ _ => trivial
  concat := fun _ a b _ _ _ => concat_notMissing E a b
  placemarker := trivial
  comma := trivial
  stringify := fun _ _ _ _ _ _ => trivial
  fnBody := fun _ _ _ _ _ _ _ _ => .inr trivial
  varBody := fun _ _ _ _ _ => .inr trivial
  select := by
    intro id as b names args t _ _ _ _ _ _ _
    cases hs : selectArg (names.filter Token.isNotComment) args t with
    | ok a => trivial
    | error e =>
      show e ≠ _
      rintro rfl
      unfold selectArg at hs
      repeat' split at hs
      all_goals simp at hs

theorem detokenize_notMissing (k : Nat) (ts : List Token) :
    detokenize k ts ≠ .error (.err .macroNotFound) := by
  have one : ∀ t : Token, t.detokenize k ≠ .error (.err .macroNotFound) := by
    intro t
    induction t with
    | nonRepl t ih => exact ih
    | varArgs => simp only [Token.detokenize]; split <;> simp
    | _ => simp [Token.detokenize]
  induction ts with
  | nil => simp [detokenize]
  | cons t ts ih =>
    simp only [detokenize]
    cases h : t.detokenize k with
    | error e => intro hc; exact one t (by rw [h]; simpa [bind, Except.bind] using hc)
    | ok m =>
      cases h' : detokenize k ts with
      | error e => intro hc; exact ih (by rw [h']; simpa [bind, Except.bind] using hc)
      | ok ms => simp [bind, Except.bind]

/-- **C06**, variable-like macros: `MacroNotFound` is returned exactly when the name is not
currently a variable-like macro. -/
theorem C06_var_not_found (E : Env) (h : List Op) (n : Str) :
    Returns (fun k => (MacroSet.run h).expandVar E k n) (.error (.err .macroNotFound)) ↔
      ∀ b, Table.run h n ≠ some (.var b) := by
  have ha := (agrees_run h n).1
  constructor
  · rintro ⟨_, k, hk⟩ b hb
    rw [hb] at ha
    simp only [MacroSet.expandVar, ha] at hk
    have := expandVarMacroBody_sat (notMissing_stepInv E (MacroSet.run h))
      (rec := expandMacroBody E (MacroSet.run h) k)
      (fun S ts h' => expandMacroBody_sat (notMissing_stepInv E _) k S ts h') (names := [])
      (name := n) (b := b) (fun _ _ => .inr trivial)
    split at hk
    · rename_i e he
      rw [he] at this
      simp only [Except.error.injEq] at hk
      exact this hk
    · exact detokenize_notMissing _ _ hk
  · intro hb
    refine ⟨by simp, 0, ?_⟩
    have : (MacroSet.run h).var.get n = none := by
      rw [ha]
      split
      · rename_i b hb'; exact absurd hb' (hb b)
      · rfl
    simp only [MacroSet.expandVar, this]

/-- **C06**, function-like macros. -/
theorem C06_fn_not_found (E : Env) (h : List Op) (n : Str) :
    Returns (fun k => (MacroSet.run h).expandFn E k n) (.error (.err .macroNotFound)) ↔
      ∀ p b, Table.run h n ≠ some (.fn p b) := by
  have ha := (agrees_run h n).2
  constructor
  · rintro ⟨_, k, hk⟩ p b hb
    rw [hb] at ha
    simp only [MacroSet.expandFn, ha] at hk
    split at hk
    · rename_i e he
      simp only [Except.error.injEq] at hk
      subst hk
      rcases tokenizeArgNamesGo_error _ _ _ _ _ he with h | ⟨s, h⟩ <;> simp at h
    · rename_i names _
      have := expandFnMacroBody_none_sat (notMissing_stepInv E (MacroSet.run h)) (n := k)
        (names := []) (name := n) (argNames := names) (b := tokenize E names b)
        (fun _ _ _ => trivial)
      split at hk
      · rename_i e he
        rw [he] at this
        simp only [Except.error.injEq] at hk
        exact this hk
      · split at hk
        · rename_i e he
          simp only [Except.error.injEq] at hk
          subst hk
          exact detokenize_notMissing _ _ he
        · split at hk
          · rename_i e he
            simp only [Except.error.injEq] at hk
            subst hk
            exact detokenize_notMissing _ _ he
          · simp at hk
  · intro hb
    refine ⟨by simp, 0, ?_⟩
    have : (MacroSet.run h).fn.get n = none := by
      rw [ha]
      split
      · rename_i p b hb'; exact absurd hb' (hb p b)
      · rfl
    simp only [MacroSet.expandFn, this]

/-- **C06**, `expand` never answers `MacroNotFound`. -/
theorem C06_expand_never_not_found (E : Env) (ms : MacroSet) (ts : List Str) :
    ¬ Returns (fun k => ms.expand E k ts) (.error (.err .macroNotFound)) := by
  rintro ⟨_, k, hk⟩
  have := expandVarMacroBody_sat (notMissing_stepInv E ms)
    (rec := expandMacroBody E ms k)
    (fun S ts h' => expandMacroBody_sat (notMissing_stepInv E _) k S ts h') (names := [])
    (name := []) (b := ts) (fun _ _ => .inr trivial)
  simp only [MacroSet.expand] at hk
  split at hk
  · rename_i e he
    rw [he] at this
    simp only [Except.error.injEq] at hk
    exact this hk
  · exact detokenize_notMissing _ _ hk

example : Returns (fun k => (MacroSet.run exampleHistory).expandVar asciiEnv k c!"B")
    (.error (.err .macroNotFound)) :=
  (C06_var_not_found asciiEnv exampleHistory c!"B").2 (by
    intro b
    rw [show Table.run exampleHistory c!"B" = none from by decide]
    simp)
example : ¬ Returns (fun k => (MacroSet.run exampleHistory).expandVar asciiEnv k c!"A")
    (.error (.err .macroNotFound)) := fun h =>
  (C06_var_not_found asciiEnv exampleHistory c!"A").1 h [c!"3"] (by decide)

/-! ## C07 -/

/-- **C07**, the full statement: every call returns. -/
def C07_statement : Prop :=
  ∀ (E : Env), E.Lawful → ∀ (h : List Op),
    (∀ ts, ∃ r, Returns (fun k => (MacroSet.run h).expand E k ts) r) ∧
    (∀ n, ∃ r, Returns (fun k => (MacroSet.run h).expandVar E k n) r) ∧
    (∀ n, ∃ r, Returns (fun k => (MacroSet.run h).expandFn E k n) r)

/-- **C07**, the counterexample: with `#define f() h g (`, `#define g() ( ) ( ) )`,
`#define h() f`, expanding `f ( ) )` never returns: the three macros rebuild the input. -/
theorem C07_loop_never_returns :
    NeverReturns fun k => (MacroSet.run loopHistory).expand asciiEnv k
      [c!"f", c!"(", c!")", c!")"] := by
  intro n
  have h := (loop_diverges n).1
  have ht : removePlacemarkers (tokenize asciiEnv [] [c!"f", c!"(", c!")", c!")"]) =
      [.ident c!"f", .punct c!"(", .punct c!")", .punct c!")"] := by decide +kernel
  have hv : containsVarArgs (tokenize asciiEnv [] [c!"f", c!"(", c!")", c!")"]) = false := by
    decide +kernel
  have hc : expandConcat asciiEnv (tokenize asciiEnv [] [c!"f", c!"(", c!")", c!")"]) =
      .ok (tokenize asciiEnv [] [c!"f", c!"(", c!")", c!")"]) := by decide +kernel
  simp only [MacroSet.expand, expandVarMacroBody, hv, hc, ht, Bool.false_eq_true, if_false]
  rw [show setInsert [] [] = [[]] from rfl, h]

/-- **C07** is false. -/
theorem C07_false : ¬ C07_statement := by
  intro hs
  obtain ⟨r, hr, n, hn⟩ := (hs asciiEnv asciiEnv_lawful loopHistory).1 [c!"f", c!"(", c!")", c!")"]
  rw [C07_loop_never_returns n] at hn
  exact hr hn.symm

/-- **C07**, what holds: with only variable-like macros defined — any bodies, including
`##`, self-reference and mutual recursion — every call returns.  Missing from the full
statement: sets with function-like macros (see the next theorem for a class of those). -/
theorem C07_var_macros_terminate_partial (E : Env) (h : List Op)
    (hvar : ∀ n p b, Table.run h n ≠ some (.fn p b)) :
    (∀ ts, ∃ r, Returns (fun k => (MacroSet.run h).expand E k ts) r) ∧
    (∀ n, ∃ r, Returns (fun k => (MacroSet.run h).expandVar E k n) r) ∧
    (∀ n, ∃ r, Returns (fun k => (MacroSet.run h).expandFn E k n) r) := by
  have hfn : ∀ id, (MacroSet.run h).fn.get id = none := by
    intro id
    rw [(agrees_run h id).2]
    split
    · rename_i p b hb; exact absurd hb (hvar id p b)
    · rfl
  refine ⟨fun ts => ?_, fun n => ?_, fun n => ?_⟩
  · obtain ⟨r, hr, N, hN⟩ := expandVarMacroBody_settles (E := E) hfn [] [] ts
    cases r with
    | error e => exact ⟨.error e, fun hc => hr (by simpa using hc), N, by
        simp only [MacroSet.expand, hN]⟩
    | ok out => exact ⟨detokenize 0 out, detokenize_ne_diverge 0 out, N, by
        simp only [MacroSet.expand, hN]⟩
  · cases hv : (MacroSet.run h).var.get n with
    | none => exact ⟨.error (.err .macroNotFound), by simp, 0, by simp only [MacroSet.expandVar, hv]⟩
    | some b =>
      obtain ⟨r, hr, N, hN⟩ := expandVarMacroBody_settles (E := E) hfn [] n b
      cases r with
      | error e => exact ⟨.error e, fun hc => hr (by simpa using hc), N, by
          simp only [MacroSet.expandVar, hv, hN]⟩
      | ok out => exact ⟨detokenize 0 out, detokenize_ne_diverge 0 out, N, by
          simp only [MacroSet.expandVar, hv, hN]⟩
  · exact ⟨.error (.err .macroNotFound), by simp, 0, by simp only [MacroSet.expandFn, hfn n]⟩

/-- Non-vacuity: two mutually recursive macros, one of them pasting. -/
def mutualHistory : List Op :=
  [.defineVar c!"A" [c!"B", c!"+", c!"x", c!"##", c!"1"], .defineVar c!"B" [c!"A", c!"*", c!"B"]]

example : (∀ n p b, Table.run mutualHistory n ≠ some (.fn p b)) ∧
    (MacroSet.run mutualHistory).expand asciiEnv 6 [c!"A"] =
      .ok [.ident c!"A", .punct c!"*", .ident c!"B", .punct c!"+", .ident c!"x1"] := by
  refine ⟨fun n p b => ?_, by decide +kernel⟩
  simp only [mutualHistory, Table.run, List.foldl, Table.step, Table.set, Table.empty]
  split <;> simp

/-- **C07**, with function-like macros: if definitions are free of `#`/`##` and well nested
(bodies have matching brackets, no comma outside brackets, and every function-like name in
them is directly followed by a call of the right arity) then expanding complete text
returns.  Recursion is allowed. -/
theorem C07_nested_calls_terminate_partial (E : Env) (L : E.Lawful) (h : List Op)
    (hP : Spec.Plain (nameOf E) (Table.run h)) (hW : Spec.WellNested (nameOf E) (Table.run h))
    (ts : List Str) (hts : PlainInput ts)
    (hc : Spec.Complete (Table.run h) (ts.map (Spec.item (nameOf E)))) :
    ∃ r, Returns (fun k => (MacroSet.run h).expand E k ts) r := by
  obtain ⟨out, hout⟩ := expands_total hW (agrees_finite (agrees_run h)) _ [] _
    (Nat.lt_succ_self _) hc
  obtain ⟨_, _, h3⟩ := expands_good L (agrees_run h) hP hout _ sameHidden_top hts.ok
  obtain ⟨N, hN⟩ := h3.nil_pre
  refine ⟨detokenize 0 (out.map (tokOf E)), detokenize_ne_diverge _ _, N, ?_⟩
  simp only [MacroSet.expand, expandVarMacroBody_plain hts, hN N (Nat.le_refl _)]

/-- Two mutually recursive function-like macros:
`#define f(x) g(x) + f(x)`, `#define g(y) (y * f(1))`. -/
def nestedHistory : List Op :=
  [.defineFn c!"f" [c!"x"] [c!"g", c!"(", c!"x", c!")", c!"+", c!"f", c!"(", c!"x", c!")"],
   .defineFn c!"g" [c!"y"] [c!"(", c!"y", c!"*", c!"f", c!"(", c!"1", c!")", c!")"]]

theorem nestedHistory_defs {n : Str} {d : Def} (h : Table.run nestedHistory n = some d) :
    (n = c!"f" ∧ d = .fn [c!"x"] [c!"g", c!"(", c!"x", c!")", c!"+", c!"f", c!"(", c!"x", c!")"]) ∨
    (n = c!"g" ∧ d = .fn [c!"y"] [c!"(", c!"y", c!"*", c!"f", c!"(", c!"1", c!")", c!")"]) := by
  simp only [nestedHistory, Table.run, List.foldl, Table.step, Table.set, Table.empty] at h
  split at h
  · rename_i hn; simp only [Option.some.injEq] at h; exact .inr ⟨hn, h.symm⟩
  · split at h
    · rename_i hn; simp only [Option.some.injEq] at h; exact .inl ⟨hn, h.symm⟩
    · simp at h

theorem nestedHistory_plain : Spec.Plain (nameOf asciiEnv) (Table.run nestedHistory) where
  var := by
    intro id body h
    rcases nestedHistory_defs h with ⟨_, h⟩ | ⟨_, h⟩ <;> simp at h
  fn := by
    intro id params body h
    rcases nestedHistory_defs h with ⟨_, h⟩ | ⟨_, h⟩ <;>
    · simp only [Def.fn.injEq] at h
      obtain ⟨rfl, rfl⟩ := h
      refine ⟨by decide, by decide, _, .inl rfl, by decide, by decide +kernel⟩

theorem nestedHistory_wellNested :
    Spec.WellNested (nameOf asciiEnv) (Table.run nestedHistory) where
  var := by
    intro id body h
    rcases nestedHistory_defs h with ⟨_, h⟩ | ⟨_, h⟩ <;> simp at h
  fn := by
    intro id params body h
    rcases nestedHistory_defs h with ⟨_, h⟩ | ⟨_, h⟩
    · simp only [Def.fn.injEq] at h
      obtain ⟨rfl, rfl⟩ := h
      rw [show Spec.placeholders (nameOf asciiEnv) [c!"x"] [c!"g", c!"(", c!"x", c!")", c!"+", c!"f",
        c!"(", c!"x", c!")"] = [.name c!"g" false, .other c!"(", .name c!"x" true, .other c!")",
        .other c!"+", .name c!"f" false, .other c!"(", .name c!"x" true, .other c!")"] from by
          decide +kernel]
      refine ⟨by decide, ?_, argText_iff.2 (by decide)⟩
      have hx : Spec.Complete (Table.run nestedHistory) [.name c!"x" true] := .painted .nil
      refine .call (args := [[.name c!"x" true]]) rfl ⟨by simp, ?_, rfl⟩ (.inl rfl) ?_
        (.other (.call (args := [[.name c!"x" true]]) rfl ⟨by simp, ?_, rfl⟩ (.inl rfl) ?_ .nil))
      all_goals
        intro a ha
        simp only [List.mem_singleton] at ha
        subst ha
        first | exact hx | exact .name .nil
    · simp only [Def.fn.injEq] at h
      obtain ⟨rfl, rfl⟩ := h
      rw [show Spec.placeholders (nameOf asciiEnv) [c!"y"] [c!"(", c!"y", c!"*", c!"f", c!"(", c!"1",
        c!")", c!")"] = [.other c!"(", .name c!"y" true, .other c!"*", .name c!"f" false,
        .other c!"(", .other c!"1", .other c!")", .other c!")"] from by decide +kernel]
      refine ⟨by decide, ?_, argText_iff.2 (by decide)⟩
      refine .other (.painted (.other (.call (args := [[.other c!"1"]]) rfl
        ⟨by simp, ?_, rfl⟩ (.inl rfl) ?_ (.other .nil))))
      all_goals
        intro a ha
        simp only [List.mem_singleton] at ha
        subst ha
        first | exact .other .nil | exact argText_iff.2 (by decide)

/-- Non-vacuity: the set is recursive, and `f(2) + 1` is complete; what it returns. -/
example : ∃ r, Returns (fun k => (MacroSet.run nestedHistory).expand asciiEnv k
    [c!"f", c!"(", c!"2", c!")", c!"+", c!"1"]) r := by
  refine C07_nested_calls_terminate_partial asciiEnv asciiEnv_lawful nestedHistory
    nestedHistory_plain nestedHistory_wellNested _ (by decide) ?_
  rw [show [c!"f", c!"(", c!"2", c!")", c!"+", c!"1"].map (Spec.item (nameOf asciiEnv)) =
    [.name c!"f" false, .other c!"(", .other c!"2", .other c!")", .other c!"+", .other c!"1"] from by
      decide +kernel]
  refine .call (args := [[.other c!"2"]]) rfl ⟨by simp, ?_, rfl⟩ (.inl rfl) ?_
    (.other (.other .nil))
  all_goals
    intro a ha
    simp only [List.mem_singleton] at ha
    subst ha
    first | exact .other .nil | exact argText_iff.2 (by decide)

/-! ## C08 -/

/-- Every spelling in the definitions and in the text is a C token. -/
def AllTokens (E : Env) (D : Table) (ts : List Str) : Prop :=
  (∀ s ∈ ts, classify E s ≠ none) ∧
  (∀ n b, D n = some (.var b) → ∀ s ∈ b, classify E s ≠ none) ∧
  ∀ n p b, D n = some (.fn p b) → ∀ s ∈ b, s ≠ c!"__VA_ARGS__" → classify E s ≠ none

theorem classify_comma {E : Env} (L : E.Lawful) : classify E c!"," ≠ none := by
  have hs : E.xidStart ',' = false := by rw [L.startAscii ',' (by decide)]; decide
  have hc : E.xidContinue ',' = false := by rw [L.contAscii ',' (by decide)]; decide
  have hid : identTryFrom E c!"," = none := by
    simp [identTryFrom, Parser.allConsuming, identParseStr, Parser.or, identPlain, isIdentStart, hs,
      identEscaped, Parser.map, Parser.seq, Parser.mapOpt, identChar, Parser.preceded, Parser.tag,
      Parser.satisfy]
  have hic : identContTryFrom E c!"," = none := by
    simp [identContTryFrom, Parser.allConsuming, identContParseStr, Parser.or, Parser.takeWhile1, hc,
      Parser.many1, Parser.many0, Parser.many0F, Parser.mapOpt, identChar, Parser.map, Parser.seq,
      Parser.preceded, Parser.tag, Parser.satisfy]
  have hl : Lit.tryFrom c!"," = none := by decide +kernel
  have hp : punctTryFrom c!"," = some c!"," := by decide
  have : Token.fromStr E c!"," = .punct c!"," := by
    unfold Token.fromStr
    rw [if_neg (by decide), hid, hl, hic, hp]
  simp [classify, this, Token.detokenize]

/-- Expanding such text gives C tokens only. -/
theorem results_of_allTokens {E : Env} (L : E.Lawful) {D : Table} {ts : List Str} {H : List Str}
    (hP : Spec.Plain (nameOf E) D) (hA : AllTokens E D ts) {out : List Item}
    (h : Expands (nameOf E) D H (ts.map (Spec.item (nameOf E))) out) :
    ∃ toks, results E out = some toks := by
  refine results_some (expands_inv (fun t => itemResult E t ≠ none) (by simp [itemResult])
    (classify_comma L) ?_ ?_ h ?_)
  · intro id d hd s hs
    cases d with
    | var b => exact .inl (itemResult_item (hA.2.1 id b hd s hs))
    | fn p b =>
      by_cases hva : s = c!"__VA_ARGS__"
      · exact .inr ⟨p, b, rfl, hva⟩
      · exact .inl (itemResult_item (hA.2.2 id p b hd s hs hva))
  · intro id p b hd hva
    exact (hP.fn id p b hd).2.1 hva
  · intro t ht
    obtain ⟨s, hs, rfl⟩ := List.mem_map.1 ht
    exact itemResult_item (hA.1 s hs)

/-- **C08**: with only variable-like macros defined (no `##` or `#` in bodies), `expand`
returns what textbook expansion gives, and textbook expansion gives something. -/
theorem C08_var_expansion_is_textbook (E : Env) (L : E.Lawful) (h : List Op)
    (hvar : ∀ n d, Table.run h n = some d → ∃ b, d = .var b)
    (hP : Spec.Plain (nameOf E) (Table.run h)) (ts : List Str) (hts : PlainInput ts)
    (hA : AllTokens E (Table.run h) ts) :
    ∃ out toks, Expands (nameOf E) (Table.run h) [] (ts.map (Spec.item (nameOf E))) out ∧
      results E out = some toks ∧
      Returns (fun k => (MacroSet.run h).expand E k ts) (.ok toks) := by
  obtain ⟨out, ho⟩ := expands_total_var (nameOf := nameOf E)
    (agrees_finite (agrees_run h)) hvar _ [] (ts.map (Spec.item (nameOf E))) (Nat.le_refl _)
  obtain ⟨toks, ht⟩ := results_of_allTokens L hP hA ho
  exact ⟨out, toks, ho, ht, expand_of_expands L (agrees_run h) hP hts ho ht⟩

/-- **C08** for `expand_var_macro`: the body, expanded with the macro itself hidden. -/
theorem C08_expand_var_macro_is_textbook (E : Env) (L : E.Lawful) (h : List Op)
    (hvar : ∀ n d, Table.run h n = some d → ∃ b, d = .var b)
    (hP : Spec.Plain (nameOf E) (Table.run h)) (n : Str) (b : List Str)
    (hn : Table.run h n = some (.var b)) (hA : AllTokens E (Table.run h) b) :
    ∃ out toks, Expands (nameOf E) (Table.run h) [n] (b.map (Spec.item (nameOf E))) out ∧
      results E out = some toks ∧
      Returns (fun k => (MacroSet.run h).expandVar E k n) (.ok toks) := by
  obtain ⟨out, ho⟩ := expands_total_var (nameOf := nameOf E)
    (agrees_finite (agrees_run h)) hvar _ [n] (b.map (Spec.item (nameOf E))) (Nat.le_refl _)
  obtain ⟨toks, ht⟩ := results_of_allTokens L hP hA ho
  exact ⟨out, toks, ho, ht, expandVar_of_expands L (agrees_run h) hP hn ho ht⟩

/-- `#define A B + A`, `#define B A * 2`. -/
def cyclicHistory : List Op :=
  [.defineVar c!"A" [c!"B", c!"+", c!"A"], .defineVar c!"B" [c!"A", c!"*", c!"2"]]

theorem cyclicHistory_defs {n : Str} {d : Def} (h : Table.run cyclicHistory n = some d) :
    (n = c!"A" ∧ d = .var [c!"B", c!"+", c!"A"]) ∨ (n = c!"B" ∧ d = .var [c!"A", c!"*", c!"2"]) := by
  simp only [cyclicHistory, Table.run, List.foldl, Table.step, Table.set, Table.empty] at h
  split at h
  · rename_i hn; simp only [Option.some.injEq] at h; exact .inr ⟨hn, h.symm⟩
  · split at h
    · rename_i hn; simp only [Option.some.injEq] at h; exact .inl ⟨hn, h.symm⟩
    · simp at h

theorem cyclicHistory_plain : Spec.Plain (nameOf asciiEnv) (Table.run cyclicHistory) where
  var := by
    intro id body h
    rcases cyclicHistory_defs h with ⟨_, h⟩ | ⟨_, h⟩ <;>
    · simp only [Def.var.injEq] at h
      subst h
      exact ⟨by decide, by decide⟩
  fn := by
    intro id params body h
    rcases cyclicHistory_defs h with ⟨_, h⟩ | ⟨_, h⟩ <;> simp at h

theorem cyclicHistory_tokens (ts : List Str) (h : ∀ s ∈ ts, classify asciiEnv s ≠ none) :
    AllTokens asciiEnv (Table.run cyclicHistory) ts := by
  refine ⟨h, ?_, ?_⟩
  · intro n b hd
    rcases cyclicHistory_defs hd with ⟨_, h⟩ | ⟨_, h⟩ <;>
    · simp only [Def.var.injEq] at h
      subst h
      decide +kernel
  · intro n p b hd
    rcases cyclicHistory_defs hd with ⟨_, h⟩ | ⟨_, h⟩ <;> simp at h

/-- Non-vacuity: the hypotheses hold for a cyclic set; the expansion itself is derived by
hand from the relation. -/
example : (∀ n d, Table.run cyclicHistory n = some d → ∃ b, d = .var b) ∧
    AllTokens asciiEnv (Table.run cyclicHistory) [c!"B"] ∧
    Expands (nameOf asciiEnv) (Table.run cyclicHistory) [] [.name c!"B" false]
      [.name c!"B" true, .other c!"+", .name c!"A" true, .other c!"*", .other c!"2"] ∧
    (MacroSet.run cyclicHistory).expand asciiEnv 5 [c!"B"] =
      .ok [.ident c!"B", .punct c!"+", .ident c!"A", .punct c!"*", .lit (.int ⟨2, none⟩)] := by
  refine ⟨?_, cyclicHistory_tokens _ (by decide +kernel), ?_, by decide +kernel⟩
  · intro n d h
    rcases cyclicHistory_defs h with ⟨_, h⟩ | ⟨_, h⟩ <;> exact ⟨_, h⟩
  · refine .object (b := [.name c!"B" true, .other c!"+", .name c!"A" true, .other c!"*",
      .other c!"2"]) (body := [c!"A", c!"*", c!"2"]) (by simp) (by decide) ?_ .nil
    rw [show [c!"A", c!"*", c!"2"].map (Spec.item (nameOf asciiEnv)) =
      [.name c!"A" false, .other c!"*", .other c!"2"] from by decide +kernel]
    refine .object (b := [.name c!"B" true, .other c!"+", .name c!"A" true])
      (body := [c!"B", c!"+", c!"A"]) (by decide) (by decide) ?_ (.other (.other .nil))
    rw [show [c!"B", c!"+", c!"A"].map (Spec.item (nameOf asciiEnv)) =
      [.name c!"B" false, .other c!"+", .name c!"A" false] from by decide +kernel]
    exact .hidden (by decide) (.other (.hidden (by decide) .nil))

/-! ## C09 -/

/-- **C09**: expanding a variable-like macro gives the same as expanding its body in the
macro set from which the macro has been removed — for every set reachable by a history, all
bodies (with `#`, `##`, function-like macros), and down to the depth of the call stack. -/
theorem C09_own_definition_not_consulted (E : Env) (h : List Op) (n : Str) (hn : n ≠ [])
    (b : List Str) (hb : Table.run h n = some (.var b)) (fuel : Nat) :
    (MacroSet.run h).expandVar E fuel n =
      (MacroSet.run (h ++ [.undefineVar n])).expand E fuel b := by
  have ha := agrees_run h n
  rw [hb] at ha
  have hrun : MacroSet.run (h ++ [.undefineVar n]) = ((MacroSet.run h).undefineVar n).1 := by
    simp [MacroSet.run, MacroSet.apply]
  have hT : Twin n (setInsert [] n) (setInsert [] []) :=
    { mem := by simp [setInsert]
      notMem := by simp [setInsert, hn]
      other := by intro id h1 h2; simp [setInsert, h1, h2]
      length := by simp [setInsert]
      empty := by simp [setInsert, Ne.symm hn]
      empty' := by simp [setInsert] }
  have hsim := expandVarMacroBody_unpaint (E := E) (n := n)
    (rec := expandMacroBody E (MacroSet.run h) fuel)
    (rec' := expandMacroBody E ((MacroSet.run h).undefineVar n).1 fuel) (S := []) (S' := [])
    (id := n) (id' := [])
    (fun ts hts => expandMacroBody_unpaint (ms' := ((MacroSet.run h).undefineVar n).1) ha.2 rfl
      (fun id hid => by simp [MacroSet.undefineVar, Map.get_remove, hid])
      (by simp [MacroSet.undefineVar, Map.get_remove]) fuel _ _ ts hT hts) b
  rw [hrun]
  simp only [MacroSet.expandVar, MacroSet.expand, ha.1, hsim]
  cases expandVarMacroBody E (expandMacroBody E (MacroSet.run h) fuel) [] n (tokenize E [] b) with
  | error e => rfl
  | ok ts => exact (detokenize_unpaint 0 ts).symm

/-- Non-vacuity: `A` refers to itself directly and through `B`. -/
example : Table.run cyclicHistory c!"A" = some (.var [c!"B", c!"+", c!"A"]) ∧
    (MacroSet.run cyclicHistory).expandVar asciiEnv 5 c!"A" =
      .ok [.ident c!"A", .punct c!"*", .lit (.int ⟨2, none⟩), .punct c!"+", .ident c!"A"] := by
  decide +kernel

/-! ## C10 -/

/-- **C10**: with only variable-like macros defined, no `##`, and a ranking that every macro
in a body decreases (so no macro reaches itself), no identifier in the result of `expand`
is the name of a macro. -/
theorem C10_no_macro_name_survives (E : Env) (L : E.Lawful) (h : List Op) (rank : Str → Nat)
    (hvar : ∀ n d, Table.run h n = some d → ∃ b, d = .var b)
    (hrank : ∀ n b, Table.run h n = some (.var b) → ∀ s ∈ b, ∀ m, nameOf E s = some m →
      Table.run h m ≠ none → rank m < rank n)
    (hP : Spec.Plain (nameOf E) (Table.run h)) (ts : List Str) (hts : PlainInput ts)
    (hA : AllTokens E (Table.run h) ts) :
    ∃ toks, Returns (fun k => (MacroSet.run h).expand E k ts) (.ok toks) ∧
      ∀ id, MacroToken.ident id ∈ toks → Table.run h id = none := by
  obtain ⟨out, toks, ho, ht, hr⟩ := C08_var_expansion_is_textbook E L h hvar hP ts hts hA
  refine ⟨toks, hr, fun id hid => ?_⟩
  have hac := expands_acyclic rank hvar hrank ho (by simp) (by
    intro i p hi
    obtain ⟨s, _, hs⟩ := List.mem_map.1 hi
    unfold Spec.item at hs
    split at hs
    · simp only [Item.name.injEq] at hs; exact ⟨hs.2.symm, by simp⟩
    · simp at hs)
  have hna : ∀ s, Item.other s ∈ out → nameOf E s = none ∧ s ≠ c!"__VA_ARGS__" := by
    intro s hs
    have := expands_inv (Q := fun t => ∀ s, t = .other s → nameOf E s = none ∧ s ≠ c!"__VA_ARGS__")
      (by simp) (by
        intro s hs
        simp only [Item.other.injEq] at hs
        subst hs
        refine ⟨?_, by decide⟩
        have hsx : E.xidStart ',' = false := by rw [L.startAscii ',' (by decide)]; decide
        simp [nameOf, identTryFrom, Parser.allConsuming, identParseStr, Parser.or, identPlain,
          isIdentStart, hsx, identEscaped, Parser.map, Parser.seq, Parser.mapOpt, identChar,
          Parser.preceded, Parser.tag, Parser.satisfy])
      (by
        intro i d hd s hs
        obtain ⟨b, rfl⟩ := hvar i d hd
        refine .inl ?_
        intro s' hs'
        unfold Spec.item at hs'
        split at hs'
        · simp at hs'
        · simp only [Item.other.injEq] at hs'
          subst hs'
          exact ⟨by assumption, fun hc => (hP.var i b hd).2 (hc ▸ hs)⟩)
      (by
        intro i p b hd
        obtain ⟨b', hb'⟩ := hvar i _ hd
        simp at hb') ho (by
        intro t ht s' hs'
        obtain ⟨s0, hs0, rfl⟩ := List.mem_map.1 ht
        unfold Spec.item at hs'
        split at hs'
        · simp at hs'
        · simp only [Item.other.injEq] at hs'
          subst hs'
          exact ⟨by assumption, fun hc => hts.2 (hc ▸ hs0)⟩)
    exact this _ hs s rfl
  obtain ⟨t, htm, hti⟩ := results_mem ht _ hid
  cases t with
  | name id' p =>
    simp only [itemResult, Option.some.injEq, MacroToken.ident.injEq] at hti
    subst hti
    exact hac id' p htm
  | other s =>
    exfalso
    obtain ⟨hns, hva⟩ := hna s htm
    simp only [itemResult, classify] at hti
    cases hf : Token.fromStr E s with
    | ident i =>
      have := fromStr_ident.1 hf
      simp [nameOf, hva, this.2] at hns
    | nonRepl t => exact fromStr_ne_nonRepl E s t hf
    | varArgs => rw [hf] at hti; simp [Token.detokenize] at hti
    | _ => rw [hf] at hti; simp [Token.detokenize] at hti

/-- Non-vacuity: a chain of two macros with its ranking. -/
example :
    let h : List Op := [.defineVar c!"A" [c!"B", c!"+", c!"x"], .defineVar c!"B" [c!"y", c!"*", c!"2"]]
    let rank : Str → Nat := fun n => if n = c!"A" then 1 else 0
    (∀ n d, Table.run h n = some d → ∃ b, d = .var b) ∧
    (∀ n b, Table.run h n = some (.var b) → ∀ s ∈ b, ∀ m, nameOf asciiEnv s = some m →
      Table.run h m ≠ none → rank m < rank n) ∧
    Spec.Plain (nameOf asciiEnv) (Table.run h) ∧ AllTokens asciiEnv (Table.run h) [c!"A"] ∧
    (MacroSet.run h).expand asciiEnv 5 [c!"A"] = .ok [.ident c!"y", .punct c!"*",
      .lit (.int ⟨2, none⟩), .punct c!"+", .ident c!"x"] := by
  intro h rank
  have hd : ∀ {n d}, Table.run h n = some d → (n = c!"A" ∧ d = .var [c!"B", c!"+", c!"x"]) ∨
      (n = c!"B" ∧ d = .var [c!"y", c!"*", c!"2"]) := by
    intro n d hn
    simp only [h, Table.run, List.foldl, Table.step, Table.set, Table.empty] at hn
    split at hn
    · rename_i hn'; simp only [Option.some.injEq] at hn; exact .inr ⟨hn', hn.symm⟩
    · split at hn
      · rename_i hn'; simp only [Option.some.injEq] at hn; exact .inl ⟨hn', hn.symm⟩
      · simp at hn
  have hne : ∀ {m}, Table.run h m ≠ none → m = c!"A" ∨ m = c!"B" := by
    intro m hm
    cases hr : Table.run h m with
    | none => exact absurd hr hm
    | some d => rcases hd hr with ⟨h, _⟩ | ⟨h, _⟩ <;> simp [h]
  refine ⟨?_, ?_, ⟨?_, ?_⟩, ⟨by decide +kernel, ?_, ?_⟩, by decide +kernel⟩
  · intro n d h; rcases hd h with ⟨_, h⟩ | ⟨_, h⟩ <;> exact ⟨_, h⟩
  · intro n b hn s hs m hm hmm
    rcases hd hn with ⟨rfl, hb⟩ | ⟨rfl, hb⟩ <;> simp only [Def.var.injEq] at hb <;> subst hb
    · have : ∀ s ∈ [c!"B", c!"+", c!"x"], nameOf asciiEnv s ≠ some c!"A" := by decide +kernel
      rcases hne hmm with rfl | rfl
      · exact absurd hm (this s hs)
      · decide
    · have : ∀ s ∈ [c!"y", c!"*", c!"2"], nameOf asciiEnv s ≠ some c!"A" ∧
          nameOf asciiEnv s ≠ some c!"B" := by decide +kernel
      rcases hne hmm with rfl | rfl
      · exact absurd hm (this s hs).1
      · exact absurd hm (this s hs).2
  · intro n b hn
    rcases hd hn with ⟨_, hb⟩ | ⟨_, hb⟩ <;> simp only [Def.var.injEq] at hb <;> subst hb <;>
      exact ⟨by decide, by decide⟩
  · intro n p b hn; rcases hd hn with ⟨_, hb⟩ | ⟨_, hb⟩ <;> simp at hb
  · intro n b hn
    rcases hd hn with ⟨_, hb⟩ | ⟨_, hb⟩ <;> simp only [Def.var.injEq] at hb <;> subst hb <;>
      decide +kernel
  · intro n p b hn; rcases hd hn with ⟨_, hb⟩ | ⟨_, hb⟩ <;> simp at hb

/-! ## C11 -/

/-- No macro is referred to: no name of a variable-like macro, and names of function-like
macros are not followed by `(`. -/
def Untouched (E : Env) (D : Table) : List Str → Prop
  | [] => True
  | s :: ts => (∀ id, nameOf E s = some id → (∀ b, D id ≠ some (.var b)) ∧
      ((∃ p b, D id = some (.fn p b)) → ts.head?.bind (classify E) ≠ some (.punct c!"("))) ∧
      Untouched E D ts

theorem classify_fromStr_punct {E : Env} {s p : Str} (h : Token.fromStr E s = .punct p) :
    classify E s = some (.punct p) := by
  simp [classify, h, Token.detokenize]

theorem scan_untouched {E : Env} {h : List Op} {S : List Str} (hS : ∀ x ∈ S, x = []) :
    ∀ {ts : List Str}, Untouched E (Table.run h) ts →
    scan (MacroSet.run h) S (ts.map (Token.fromStr E)) = .done (ts.map (Token.fromStr E)) := by
  intro ts
  induction ts with
  | nil => intro _; rfl
  | cons s ts ih =>
    intro hu
    have ih := ih hu.2
    rw [List.map_cons]
    by_cases hi : ∃ id, Token.fromStr E s = .ident id
    · obtain ⟨id, hid⟩ := hi
      obtain ⟨hva, hid'⟩ := fromStr_ident.1 hid
      have hname : nameOf E s = some id := by simp [nameOf, hva, hid']
      obtain ⟨h1, h2⟩ := hu.1 id hname
      have hag := agrees_run h id
      have hnS : id ∉ S := fun hc => identTryFrom_ne_nil hid' (hS id hc)
      have hvar : (MacroSet.run h).var.get id = none := by
        rw [hag.1]
        split
        · rename_i b hb; exact absurd hb (h1 b)
        · rfl
      have hfn : fnCallAt (MacroSet.run h) id (ts.map (Token.fromStr E)) = none := by
        unfold fnCallAt
        split
        · rename_i hp
          cases hf : (MacroSet.run h).fn.get id with
          | none => rfl
          | some d =>
            exfalso
            rw [hag.2] at hf
            split at hf
            · rename_i p b hb
              refine h2 ⟨p, b, hb⟩ ?_
              cases ts with
              | nil => simp at hp
              | cons s' ts =>
                simp only [List.map_cons, List.head?_cons, Option.some.injEq] at hp
                simp [classify_fromStr_punct hp]
            · simp at hf
        · rfl
      rw [hid]
      simp only [scan, if_neg hnS, hfn, hvar, ih, Scan.push]
    · rw [scan_other S (fun id hc => hi ⟨id, hc⟩), ih]; rfl

theorem detokenize_fromStr {E : Env} : ∀ {ts : List Str} {toks : List MacroToken},
    ts.mapM (classify E) = some toks → detokenize 0 (ts.map (Token.fromStr E)) = .ok toks := by
  intro ts
  induction ts with
  | nil => intro toks h; simp at h; subst h; rfl
  | cons s ts ih =>
    intro toks h
    simp only [List.mapM_cons, Option.pure_def, Option.bind_eq_bind, Option.bind_eq_some_iff,
      Option.some.injEq] at h
    obtain ⟨m, hm, ms, hms, rfl⟩ := h
    simp only [List.map_cons, detokenize, classify_some hm, ih hms]
    rfl

/-- **C11**: text in which nothing refers to a macro (and without `##` and `__VA_ARGS__`)
is returned unchanged, each token classified on its own — whatever is defined. -/
theorem C11_inert_text_unchanged (E : Env) (h : List Op) (ts : List Str) (toks : List MacroToken)
    (hu : Untouched E (Table.run h) ts) (hcls : ts.mapM (classify E) = some toks)
    (hva : c!"__VA_ARGS__" ∉ ts) (hpaste : MacroToken.punct c!"##" ∉ toks) :
    Returns (fun k => (MacroSet.run h).expand E k ts) (.ok toks) := by
  have htok : tokenize E [] ts = ts.map (Token.fromStr E) := by
    simp only [tokenize]
    apply List.map_congr_left
    intro s _
    simp [tokenizeOne]
  have hv : containsVarArgs (ts.map (Token.fromStr E)) = false := by
    have := containsVarArgs_false (E := E) (params := []) (tail := []) (.inl rfl) hva
    simp only [List.map_nil, List.append_nil] at this
    rwa [htok] at this
  have hmem : ∀ {ts : List Str} {toks : List MacroToken}, ts.mapM (classify E) = some toks →
      ∀ s ∈ ts, ∃ m, classify E s = some m ∧ m ∈ toks := by
    intro ts
    induction ts with
    | nil => intro _ _ s hs; simp at hs
    | cons x ts ih =>
      intro toks h s hs
      simp only [List.mapM_cons, Option.pure_def, Option.bind_eq_bind, Option.bind_eq_some_iff,
        Option.some.injEq] at h
      obtain ⟨m, hm, ms, hms, rfl⟩ := h
      rcases List.mem_cons.1 hs with rfl | hs
      · exact ⟨m, hm, List.mem_cons_self⟩
      · obtain ⟨m', h1, h2⟩ := ih hms s hs
        exact ⟨m', h1, List.mem_cons_of_mem _ h2⟩
  have hnp : ∀ t ∈ ts.map (Token.fromStr E), t ≠ Token.punct c!"##" := by
    intro t ht hc
    obtain ⟨s, hs, rfl⟩ := List.mem_map.1 ht
    obtain ⟨m, hm, hmt⟩ := hmem hcls s hs
    rw [classify_fromStr_punct hc] at hm
    simp only [Option.some.injEq] at hm
    subst hm
    exact hpaste hmt
  have hrp : removePlacemarkers (ts.map (Token.fromStr E)) = ts.map (Token.fromStr E) := by
    unfold removePlacemarkers
    rw [List.filter_eq_self]
    intro t ht
    obtain ⟨s, _, rfl⟩ := List.mem_map.1 ht
    simpa using fromStr_ne_placemarker E s
  refine ⟨by simp, 1, ?_⟩
  simp only [MacroSet.expand, expandVarMacroBody, htok, hv, expandConcat_noop hnp, hrp,
    Bool.false_eq_true, if_false, expandMacroBody]
  rw [scan_untouched (by simp [setInsert]) hu]
  exact detokenize_fromStr hcls

/-- Non-vacuity: a function-like macro name without parentheses stays. -/
example : Untouched asciiEnv (Table.run nestedHistory) [c!"f", c!"+", c!"(", c!"g", c!")"] ∧
    [c!"f", c!"+", c!"(", c!"g", c!")"].mapM (classify asciiEnv) =
      some [.ident c!"f", .punct c!"+", .punct c!"(", .ident c!"g", .punct c!")"] := by
  refine ⟨?_, by decide +kernel⟩
  have hv : ∀ id b, Table.run nestedHistory id ≠ some (.var b) := by
    intro id b hc
    rcases nestedHistory_defs hc with ⟨_, h⟩ | ⟨_, h⟩ <;> simp at h
  refine ⟨fun id _ => ⟨hv id, fun _ => by decide +kernel⟩, fun id hid => ?_,
    fun id _ => ⟨hv id, fun _ => by decide +kernel⟩,
    fun id _ => ⟨hv id, fun _ => by decide +kernel⟩,
    fun id _ => ⟨hv id, fun _ => by decide +kernel⟩, trivial⟩
  simp only [show nameOf asciiEnv c!"+" = none from by decide +kernel] at hid
  simp at hid

end CMacro
