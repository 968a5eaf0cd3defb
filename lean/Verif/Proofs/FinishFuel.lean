import Verif.Model.Print

/-!
# The depth bound of `finish`

A larger bound never changes a result, and for every expression some bound is enough: `finish`
terminates.
-/

namespace CMacro

/-- `a` ran into the bound, or `b` is the same. -/
def Fin.Le {α : Type} (a b : Fin α) : Prop := a.res = .error .diverge ∨ a = b

theorem Fin.Le.refl {α : Type} (a : Fin α) : a.Le a := .inr rfl

/-- `a` ran into the bound, or `b` is the same. -/
def RLe {α β : Type} (a b : α × LState × CgRes β) : Prop := a.2.2 = .error .diverge ∨ a = b

theorem finishArgs_le {f g : Expr → LState → Fin Expr} (h : ∀ e st, (f e st).Le (g e st)) :
    ∀ es st, RLe (finishArgs f es st) (finishArgs g es st)
  | [], st => .inr rfl
  | e :: es, st => by
    simp only [finishArgs]
    rcases h e st with hd | he
    · left
      rcases hf : f e st with ⟨x, s, r⟩
      rw [hf] at hd; simp only at hd; subst hd; rfl
    · rw [← he]
      rcases f e st with ⟨x, s, r | r⟩
      · exact .inr rfl
      · simp only
        rcases finishArgs_le h es s with hd | he
        · exact .inl hd
        · rw [he]; exact .inr rfl

theorem finishParts_le {f g : Expr → LState → Fin Expr} (h : ∀ e st, (f e st).Le (g e st)) :
    ∀ es cur st, RLe (finishParts f es cur st) (finishParts g es cur st)
  | [], cur, st => .inr rfl
  | e :: es, cur, st => by
    simp only [finishParts]
    rcases h e st with hd | he
    · left
      rcases hf : f e st with ⟨x, s, r⟩
      rw [hf] at hd; simp only at hd; subst hd; rfl
    · rw [← he]
      rcases f e st with ⟨x, s, r | r⟩
      · exact .inr rfl
      · simp only
        split
        · split
          · exact .inr rfl
          · rename_i bs _
            rcases finishParts_le h es (some (cur.getD [] ++ bs)) s with hd | he
            · exact .inl hd
            · rw [he]; exact .inr rfl
        · split
          · exact .inr rfl
          · rcases finishParts_le h es none s with hd | he
            · left
              rcases hf : finishParts f es none s with ⟨a, b, c⟩
              rw [hf] at hd; simp only at hd; subst hd; rfl
            · rw [he]; exact .inr rfl

theorem finishCondition_le {f g : Expr → LState → Fin Expr} (h : ∀ e st, (f e st).Le (g e st)) (e : Expr)
    (st : LState) : (finishCondition f e st).Le (finishCondition g e st) := by
  simp only [finishCondition]
  rcases h e st with hd | he
  · left
    rcases hf : f e st with ⟨x, s, r⟩
    rw [hf] at hd; simp only at hd; subst hd; rfl
  · rw [he]; exact .inr rfl

theorem finishStep_le {f g : Expr → LState → Fin Expr} (h : ∀ e st, (f e st).Le (g e st)) (C : Ctx) (L : Loc)
    (e : Expr) (st : LState) : (finishStep C L f e st).Le (finishStep C L g e st) := by
  cases e with
  | var n => exact .inr rfl
  | stringify n => exact .inr rfl
  | sizeOf n => exact .inr rfl
  | lit l => cases l <;> exact .inr rfl
  | cast ty x =>
    simp only [finishStep]
    rcases ty.finish C st with ⟨ty, st, r | r⟩
    · simp only
      split
      · exact h _ _
      · exact .inr rfl
    · simp only
      rcases h x st with hd | he
      · left
        rcases hf : f x st with ⟨x, s, r⟩
        rw [hf] at hd; simp only at hd; subst hd; rfl
      · rw [← he]
        rcases f x st with ⟨x, s, r | r⟩
        · simp only
          split
          · exact h _ _
          · exact .inr rfl
        · simp only
          split
          · exact h _ _
          · split
            · exact h _ _
            · exact .inr rfl
  | call name args =>
    simp only [finishStep]
    split
    · exact .inr rfl
    · rcases name.finish st with ⟨st, r | r⟩
      · exact .inr rfl
      · simp only
        rcases finishArgs_le h args st with hd | he
        · left
          rcases hf : finishArgs f args st with ⟨a, b, c⟩
          rw [hf] at hd; simp only at hd; subst hd; rfl
        · rw [he]; exact .inr rfl
  | concatStr parts =>
    simp only [finishStep]
    rcases finishParts_le h parts none st with hd | he
    · left
      rcases hf : finishParts f parts none st with ⟨a, b, c⟩
      rw [hf] at hd; simp only at hd; subst hd; rfl
    · rw [← he]
      rcases finishParts f parts none st with ⟨a, b, c | c⟩
      · exact .inr rfl
      · rcases c with _ | ⟨p, _ | ⟨q, l⟩⟩
        · exact .inr rfl
        · exact h _ _
        · exact .inr rfl
  | un op x =>
    simp only [finishStep]
    rcases h x st with hd | he
    · left
      rcases hf : f x st with ⟨x, s, r⟩
      rw [hf] at hd; simp only at hd; subst hd; rfl
    · rw [he]; exact .inr rfl
  | bin l op r =>
    simp only [finishStep]
    rcases h l st with hd | he
    · left
      rcases hf : f l st with ⟨x, s, r⟩
      rw [hf] at hd; simp only at hd; subst hd; rfl
    · rw [← he]
      rcases f l st with ⟨l, s, lt | lt⟩
      · exact .inr rfl
      · simp only
        rcases h r s with hd | he
        · left
          rcases hf : f r s with ⟨x, s, r⟩
          rw [hf] at hd; simp only at hd; subst hd; rfl
        · rw [← he]
          rcases f r s with ⟨r, s, rt | rt⟩
          · exact .inr rfl
          · simp only
            rcases binaryEffects op l r s with ⟨s, x | x⟩
            · exact .inr rfl
            · simp only
              split
              · exact .inr rfl
              · split
                · exact .inr rfl
                · exact h _ _
                · exact .inr rfl
  | ternary c t u =>
    simp only [finishStep]
    rcases finishCondition_le h c st with hd | he
    · left
      rcases hf : finishCondition f c st with ⟨x, s, r⟩
      rw [hf] at hd; simp only at hd; subst hd; rfl
    · rw [← he]
      rcases finishCondition f c st with ⟨c, s, x | x⟩
      · exact .inr rfl
      · simp only
        rcases h t s with hd | he
        · left
          rcases hf : f t s with ⟨x, s, r⟩
          rw [hf] at hd; simp only at hd; subst hd; rfl
        · rw [← he]
          rcases f t s with ⟨t, s, x | x⟩
          · exact .inr rfl
          · simp only
            rcases h u s with hd | he
            · left
              rcases hf : f u s with ⟨x, s, r⟩
              rw [hf] at hd; simp only at hd; subst hd; rfl
            · rw [he]; exact .inr rfl

theorem Expr.finish_le_succ (C : Ctx) (L : Loc) : ∀ (n : Nat) (e : Expr) (st : LState),
    (Expr.finish C L n e st).Le (Expr.finish C L (n + 1) e st)
  | 0, e, st => .inl rfl
  | n + 1, e, st => by
    show (finishStep C L (Expr.finish C L n) e st).Le (finishStep C L (Expr.finish C L (n + 1)) e st)
    exact finishStep_le (Expr.finish_le_succ C L n) C L e st

theorem Fin.Le.trans {α : Type} {a b c : Fin α} (h : a.Le b) (h' : b.Le c) : a.Le c := by
  rcases h with h | rfl
  · exact .inl h
  · exact h'

theorem Expr.finish_le (C : Ctx) (L : Loc) {n m : Nat} (hnm : n ≤ m) (e : Expr) (st : LState) :
    (Expr.finish C L n e st).Le (Expr.finish C L m e st) := by
  induction hnm with
  | refl => exact .refl _
  | step _ ih => exact ih.trans (Expr.finish_le_succ C L _ e st)

/-- A result other than running into the bound is the result for every larger bound. -/
theorem Expr.finish_stable {C : Ctx} {L : Loc} {n m : Nat} (hnm : n ≤ m) {e : Expr} {st : LState}
    (h : (Expr.finish C L n e st).res ≠ .error .diverge) :
    Expr.finish C L m e st = Expr.finish C L n e st := by
  rcases Expr.finish_le C L hnm e st with hd | he
  · exact absurd hd h
  · exact he.symm

end CMacro
