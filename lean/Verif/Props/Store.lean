import Verif.Proofs.Store

/-!
# Properties C01, C02, C03, C04, C06 (lookup part): the definition store

Histories are lists of `Spec.Op`; `MacroSet.run h` is the model's macro set after the
history `h`, `Spec.Table.run h` the abstract table.
-/

namespace CMacro
open Spec (Op Def Table)

/-- **C02** (refinement): after any history, the macro set knows exactly what the abstract
table says about every name. -/
theorem C02_store_refines_table (h : List Op) (n : Str) :
    (MacroSet.run h).var.get n = (match Table.run h n with | some (.var b) => some b | _ => none) ∧
    (MacroSet.run h).fn.get n =
      (match Table.run h n with | some (.fn p b) => some (p, b) | _ => none) :=
  agrees_run h n

/-- **C02**, consequence: after a history that ends with defining `n` as a variable-like
macro (later calls only concern other names), `n` has exactly that body, whatever `n` was
before. -/
theorem C02_last_definition_wins (h h' : List Op) (n : Str) (b : List Str)
    (other : ∀ o ∈ h', o.name ≠ n) :
    (MacroSet.run (h ++ .defineVar n b :: h')).var.get n = some b ∧
    (MacroSet.run (h ++ .defineVar n b :: h')).fn.get n = none := by
  have key : Table.run (h ++ .defineVar n b :: h') n = some (.var b) := by
    unfold Table.run
    rw [List.foldl_append, List.foldl_cons, foldl_other _ _ other]
    simp [Table.step, Table.set]
  have := C02_store_refines_table (h ++ .defineVar n b :: h') n
  rw [key] at this
  exact this

/-- **C02**, consequence, for function-like macros. -/
theorem C02_last_definition_wins_fn (h h' : List Op) (n : Str) (p b : List Str)
    (other : ∀ o ∈ h', o.name ≠ n) :
    (MacroSet.run (h ++ .defineFn n p b :: h')).fn.get n = some (p, b) ∧
    (MacroSet.run (h ++ .defineFn n p b :: h')).var.get n = none := by
  have key : Table.run (h ++ .defineFn n p b :: h') n = some (.fn p b) := by
    unfold Table.run
    rw [List.foldl_append, List.foldl_cons, foldl_other _ _ other]
    simp [Table.step, Table.set]
  have := C02_store_refines_table (h ++ .defineFn n p b :: h') n
  rw [key] at this
  exact this.symm

/-- **C02**, consequence: a call about one name leaves what is known about every other name
unchanged. -/
theorem C02_other_names_untouched (h : List Op) (o : Op) (n : Str) (ho : o.name ≠ n) :
    (MacroSet.run (h ++ [o])).var.get n = (MacroSet.run h).var.get n ∧
    (MacroSet.run (h ++ [o])).fn.get n = (MacroSet.run h).fn.get n := by
  have key : Table.run (h ++ [o]) n = Table.run h n := by
    unfold Table.run
    rw [List.foldl_append, List.foldl_cons, List.foldl_nil, step_other _ _ _ ho]
  have h1 := C02_store_refines_table (h ++ [o]) n
  have h2 := C02_store_refines_table h n
  rw [key] at h1
  exact ⟨h1.1.trans h2.1.symm, h1.2.trans h2.2.symm⟩

/-- A history with a name that changes kind twice and another one that is removed. -/
def exampleHistory : List Op :=
  [.defineVar c!"A" [c!"1"], .defineFn c!"B" [c!"x"] [c!"x"], .defineFn c!"A" [] [c!"2"],
   .undefineVar c!"B", .undefineVar c!"A", .defineVar c!"A" [c!"3"], .undefineFn c!"B"]

example : Table.run exampleHistory c!"A" = some (.var [c!"3"]) ∧
    Table.run exampleHistory c!"B" = none := by decide
example : (MacroSet.run exampleHistory).var.get c!"A" = some [c!"3"] := by decide

/-- **C01**: after any history, for any name, at least one of `expand_var_macro` and
`expand_fn_macro` answers `MacroNotFound`. -/
theorem C01_never_both_kinds (E : Env) (h : List Op) (n : Str) (fuel : Nat) :
    (MacroSet.run h).expandVar E fuel n = .error (.err .macroNotFound) ∨
    (MacroSet.run h).expandFn E fuel n = .error (.err .macroNotFound) := by
  have := C02_store_refines_table h n
  unfold MacroSet.expandVar MacroSet.expandFn
  cases ht : Table.run h n with
  | none => rw [ht] at this; simp [this.1]
  | some d => cases d with
    | var b => rw [ht] at this; right; simp [this.2]
    | fn p b => rw [ht] at this; left; simp [this.1]

/-- Non-vacuity: both alternatives occur, with the other call finding the macro. -/
example : (MacroSet.run exampleHistory).expandVar asciiEnv 3 c!"A" =
      .ok [.lit (.int ⟨3, none⟩)] ∧
    (MacroSet.run exampleHistory).expandFn asciiEnv 3 c!"A" = .error (.err .macroNotFound) := by
  decide +kernel

/-- **C04**: `undefine_var_macro` returns true exactly when the name currently is a
variable-like macro, `undefine_fn_macro` exactly when it is a function-like macro. -/
theorem C04_undefine_reports (h : List Op) (n : Str) :
    ((MacroSet.run h).undefineVar n).2 = (match Table.run h n with
      | some (.var _) => true | _ => false) ∧
    ((MacroSet.run h).undefineFn n).2 = (match Table.run h n with
      | some (.fn _ _) => true | _ => false) := by
  have := C02_store_refines_table h n
  unfold MacroSet.undefineVar MacroSet.undefineFn
  rw [this.1, this.2]
  cases Table.run h n with
  | none => simp
  | some d => cases d <;> simp

/-- **C04**, second half: repeating the call returns false and changes nothing. -/
theorem C04_undefine_twice (h : List Op) (n : Str) :
    (((MacroSet.run h).undefineVar n).1.undefineVar n).2 = false ∧
    (((MacroSet.run h).undefineFn n).1.undefineFn n).2 = false := by
  simp [MacroSet.undefineVar, MacroSet.undefineFn, Map.get_remove]

example : ((MacroSet.run exampleHistory).undefineVar c!"A").2 = true ∧
    ((MacroSet.run exampleHistory).undefineFn c!"A").2 = false := by decide

/-- **C03**, the full statement: defining reports a redefinition exactly when the new
definition differs from the current one. -/
def C03_statement : Prop :=
  ∀ (h : List Op) (n : Str),
    (∀ b, ((MacroSet.run h).defineVar n b).2 = Spec.redefines (Table.run h n) (.var b)) ∧
    (∀ p b, ((MacroSet.run h).defineFn n p b).2 = Spec.redefines (Table.run h n) (.fn p b))

/-- **C03** is false: after `#define A 1`, `#define A 1 + 2` is not reported as a
redefinition, because the comparison stops at the end of the shorter body. -/
theorem C03_false : ¬ C03_statement := by
  intro hs
  have := (hs [.defineVar c!"A" [c!"1"]] c!"A").1 [c!"1", c!"+", c!"2"]
  revert this
  decide +kernel

/-- **C03**, what holds: the report is exact except that two definitions of the same kind of
which one is a prefix of the other (white space aside; parameters and body separately) are
treated as equal.  Missing from the full statement: proper prefixes. -/
theorem C03_redefinition_report_partial (h : List Op) (n : Str) :
    (∀ b, ((MacroSet.run h).defineVar n b).2 = true ↔
      match Table.run h n with
      | none => False
      | some (.fn _ _) => True
      | some (.var o) => ¬ (Spec.meaningful o <+: Spec.meaningful b) ∧
          ¬ (Spec.meaningful b <+: Spec.meaningful o)) ∧
    (∀ p b, ((MacroSet.run h).defineFn n p b).2 = true ↔
      match Table.run h n with
      | none => False
      | some (.var _) => True
      | some (.fn op ob) =>
          (¬ (Spec.meaningful op <+: Spec.meaningful p) ∧
            ¬ (Spec.meaningful p <+: Spec.meaningful op)) ∨
          (¬ (Spec.meaningful ob <+: Spec.meaningful b) ∧
            ¬ (Spec.meaningful b <+: Spec.meaningful ob))) := by
  have := C02_store_refines_table h n
  constructor
  · intro b
    unfold MacroSet.defineVar
    rw [this.1, this.2]
    cases Table.run h n with
    | none => simp
    | some d => cases d with
      | fn p o => simp
      | var o =>
        have hz := zipAllEq_iff (Spec.meaningful o) (Spec.meaningful b)
        simp only [significant_eq_meaningful, Bool.not_eq_true', ← Bool.not_eq_true, hz, not_or]
  · intro p b
    unfold MacroSet.defineFn
    rw [this.1, this.2]
    cases Table.run h n with
    | none => simp
    | some d => cases d with
      | var o => simp
      | fn op ob =>
        have hz := zipAllEq_iff (Spec.meaningful ob) (Spec.meaningful b)
        have hz' := zipAllEq_iff (Spec.meaningful op) (Spec.meaningful p)
        simp only [significant_eq_meaningful, Bool.not_eq_true', ← Bool.not_eq_true,
          Bool.and_eq_true, hz, hz', Classical.not_and_iff_not_or_not, not_or]

/-- **C03**, corollary: when old and new have equally many meaningful tokens the report is
exactly right. -/
theorem C03_equal_length_partial (h : List Op) (n : Str) (o b : List Str)
    (hn : Table.run h n = some (.var o))
    (hl : (Spec.meaningful o).length = (Spec.meaningful b).length) :
    ((MacroSet.run h).defineVar n b).2 = Spec.redefines (Table.run h n) (.var b) := by
  have key := (C03_redefinition_report_partial h n).1 b
  rw [hn] at key ⊢
  have e : (Spec.meaningful o <+: Spec.meaningful b) ↔ Spec.meaningful o = Spec.meaningful b :=
    ⟨fun hp => hp.eq_of_length hl, fun he => he ▸ List.prefix_rfl⟩
  have e' : (Spec.meaningful b <+: Spec.meaningful o) ↔ Spec.meaningful o = Spec.meaningful b :=
    ⟨fun hp => (hp.eq_of_length hl.symm).symm, fun he => he ▸ List.prefix_rfl⟩
  simp only [e, e', and_self] at key
  rw [Bool.eq_iff_iff, key]
  simp [Spec.redefines, Def.same]

/-- Non-vacuity: comments and blanks are ignored, a real change is reported. -/
example :
    let h : List Op := [.defineVar c!"A" [c!"1", c!" ", c!"+", c!"/* c */", c!"2"]]
    ((MacroSet.run h).defineVar c!"A" [c!"1", c!"+", c!"2"]).2 = false ∧
    ((MacroSet.run h).defineVar c!"A" [c!"1", c!"-", c!"2"]).2 = true ∧
    ((MacroSet.run h).defineFn c!"A" [] [c!"1"]).2 = true := by decide +kernel

end CMacro
