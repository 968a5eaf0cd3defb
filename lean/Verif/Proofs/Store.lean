import Verif.Model.History

/-! # Lemmas about the definition store -/

namespace CMacro
open Spec (Op Def Table)

namespace Map
variable {α : Type}

@[simp] theorem get_nil (k : Str) : Map.get ([] : Map α) k = none := rfl

theorem get_cons (a : Str) (v : α) (m : Map α) (k : Str) :
    Map.get ((a, v) :: m) k = if k = a then some v else Map.get m k := by
  unfold Map.get
  rw [List.lookup_cons]
  by_cases h : k = a
  · subst h; simp
  · have : (k == a) = false := by simp [h]
    rw [this]; simp [h]

theorem get_remove (m : Map α) (k k' : Str) :
    (m.remove k).get k' = if k' = k then none else m.get k' := by
  induction m with
  | nil => simp [remove]
  | cons e m ih =>
    obtain ⟨a, v⟩ := e
    simp only [remove, List.filter_cons] at ih ⊢
    by_cases ha : a = k
    · simp only [ha, ne_eq, not_true_eq_false, decide_false, Bool.false_eq_true, if_false, ih]
      by_cases hk : k' = k
      · simp [hk]
      · simp [hk, get_cons]
    · simp only [ne_eq, ha, not_false_eq_true, decide_true, if_true, get_cons, ih]
      by_cases hk : k' = a
      · subst hk; simp [ha]
      · simp [hk]

theorem get_insert (m : Map α) (k k' : Str) (v : α) :
    (m.insert k v).get k' = if k' = k then some v else m.get k' := by
  unfold insert
  rw [get_cons, get_remove]
  by_cases h : k' = k <;> simp [h]

end Map

/-- What the two maps say about a name, for a given abstract meaning. -/
def Agrees (ms : MacroSet) (t : Table) : Prop :=
  ∀ n, ms.var.get n = (match t n with | some (.var b) => some b | _ => none) ∧
       ms.fn.get n = (match t n with | some (.fn p b) => some (p, b) | _ => none)

theorem agrees_apply {ms : MacroSet} {t : Table} (h : Agrees ms t) (o : Op) :
    Agrees (ms.apply o).1 (t.step o) := by
  intro k
  have hk := h k
  cases o with
  | defineVar n b =>
    have hn := h n
    simp only [MacroSet.apply, MacroSet.defineVar, Table.step, Table.set]
    cases hv : ms.var.get n with
    | some old =>
      rw [hv] at hn
      have hfn : ms.fn.get n = none := by
        rw [hn.2]; cases ht : t n with
        | none => rfl
        | some d => cases d with
          | var _ => rfl
          | fn _ _ => simp [ht] at hn
      simp only [Map.get_insert, Map.get_remove]
      by_cases hkn : k = n
      · subst hkn; simp [hfn]
      · simp [hkn, hk]
    | none =>
      simp only [Map.get_insert, Map.get_remove]
      by_cases hkn : k = n
      · subst hkn; simp
      · simp [hkn, hk]
  | defineFn n p b =>
    have hn := h n
    simp only [MacroSet.apply, MacroSet.defineFn, Table.step, Table.set]
    cases hv : ms.fn.get n with
    | some old =>
      obtain ⟨op, ob⟩ := old
      rw [hv] at hn
      have hvar : ms.var.get n = none := by
        rw [hn.1]; cases ht : t n with
        | none => rfl
        | some d => cases d with
          | fn _ _ => rfl
          | var _ => simp [ht] at hn
      simp only [Map.get_insert, Map.get_remove]
      by_cases hkn : k = n
      · subst hkn; simp [hvar]
      · simp [hkn, hk]
    | none =>
      simp only [Map.get_insert, Map.get_remove]
      by_cases hkn : k = n
      · subst hkn; simp
      · simp [hkn, hk]
  | undefineVar n =>
    have hn := h n
    simp only [MacroSet.apply, MacroSet.undefineVar, Table.step]
    by_cases hkn : k = n
    · subst hkn
      cases ht : t k with
      | none => simp_all [Map.get_remove]
      | some d => cases d <;> simp_all [Map.get_remove, Table.set]
    · cases ht : t n with
      | none => simp_all [Map.get_remove]
      | some d => cases d <;> simp_all [Map.get_remove, Table.set]
  | undefineFn n =>
    have hn := h n
    simp only [MacroSet.apply, MacroSet.undefineFn, Table.step]
    by_cases hkn : k = n
    · subst hkn
      cases ht : t k with
      | none => simp_all [Map.get_remove]
      | some d => cases d <;> simp_all [Map.get_remove, Table.set]
    · cases ht : t n with
      | none => simp_all [Map.get_remove]
      | some d => cases d <;> simp_all [Map.get_remove, Table.set]

theorem agrees_foldl (h : List Op) : ∀ {ms : MacroSet} {t : Table}, Agrees ms t →
    Agrees (h.foldl (fun ms o => (ms.apply o).1) ms) (h.foldl Table.step t) := by
  induction h with
  | nil => intro ms t hm; exact hm
  | cons o h ih => intro ms t hm; exact ih (agrees_apply hm o)

theorem agrees_run (h : List Op) : Agrees (MacroSet.run h) (Table.run h) :=
  agrees_foldl h (fun _ => ⟨rfl, rfl⟩)

theorem step_other (t : Table) (o : Op) (n : Str) (h : o.name ≠ n) : t.step o n = t n := by
  cases o with
  | defineVar m b => simp only [Op.name] at h; simp [Table.step, Table.set, Ne.symm h]
  | defineFn m p b => simp only [Op.name] at h; simp [Table.step, Table.set, Ne.symm h]
  | undefineVar m =>
    simp only [Op.name] at h
    unfold Table.step
    cases hm : t m with
    | none => simp [hm]
    | some d => cases d <;> simp [hm, Table.set, Ne.symm h]
  | undefineFn m =>
    simp only [Op.name] at h
    unfold Table.step
    cases hm : t m with
    | none => simp [hm]
    | some d => cases d <;> simp [hm, Table.set, Ne.symm h]

theorem foldl_other (h : List Op) (n : Str) (ho : ∀ o ∈ h, o.name ≠ n) (t : Table) :
    h.foldl Table.step t n = t n := by
  induction h generalizing t with
  | nil => rfl
  | cons o h ih =>
    rw [List.foldl_cons, ih (fun o' ho' => ho o' (by simp [ho'])), step_other _ _ _ (ho o (by simp))]

theorem significant_eq_meaningful (ts : List Str) :
    MacroSet.significant ts = Spec.meaningful ts := by
  unfold MacroSet.significant Spec.meaningful
  congr 1
  funext t
  unfold isWhitespace Spec.blankToken isComment
  cases h : trim t with
  | nil => simp
  | cons c cs => simp [Bool.or_comm]

theorem zipAllEq_iff (a b : List Str) : MacroSet.zipAllEq a b = true ↔ a <+: b ∨ b <+: a := by
  induction a generalizing b with
  | nil => simp [MacroSet.zipAllEq]
  | cons x a ih =>
    cases b with
    | nil => simp [MacroSet.zipAllEq]
    | cons y b =>
      have := ih b
      simp only [MacroSet.zipAllEq, List.zip_cons_cons, List.all_cons] at this ⊢
      rw [Bool.and_eq_true, this, List.cons_prefix_cons, List.cons_prefix_cons]
      simp only [decide_eq_true_eq]
      constructor
      · rintro ⟨rfl, h | h⟩
        · exact .inl ⟨rfl, h⟩
        · exact .inr ⟨rfl, h⟩
      · rintro (⟨rfl, h⟩ | ⟨h', h⟩)
        · exact ⟨rfl, .inl h⟩
        · exact ⟨h'.symm, .inr h⟩

end CMacro
