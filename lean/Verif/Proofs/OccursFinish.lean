import Verif.Proofs.OccursStmt

/-!
# Finishing keeps how often a name occurs
-/

namespace CMacro
open Spec

section
variable {w : Str} {ps : List Str} {C : Ctx} {L : Loc} {f : Expr → LState → Fin Expr}

theorem finishArgs_count (h : KeepsCount w ps f) : ∀ (es : List Expr) (st : LState), ExprsOnce w ps es →
    ExprsOnce w ps (finishArgs f es st).1 ∧ leafCount w ps (exprsLeaves (finishArgs f es st).1) = leafCount w ps (exprsLeaves es)
  | [], _, _ => ⟨trivial, rfl⟩
  | e :: es, st, ho => by
    have he := h e st ho.1
    rw [finishArgs]
    generalize f e st = R at *
    rcases R with ⟨x, s, r | r⟩
    · exact ⟨⟨he.1, ho.2⟩, by simp only [exprsLeaves, lc_append, he.2]⟩
    · have ih := finishArgs_count h es s ho.2
      exact ⟨⟨he.1, ih.1⟩, by simp only [exprsLeaves, lc_append, he.2, ih.2]⟩

theorem exprsOnce_append : ∀ {as bs : List Expr}, ExprsOnce w ps as → ExprsOnce w ps bs → ExprsOnce w ps (as ++ bs)
  | [], _, _, h => h
  | _ :: _, _, h, h' => ⟨h.1, exprsOnce_append h.2 h'⟩

theorem lc_exprs_append : ∀ as bs : List Expr,
    leafCount w ps (exprsLeaves (as ++ bs)) = leafCount w ps (exprsLeaves as) + leafCount w ps (exprsLeaves bs)
  | [], _ => by simp [exprsLeaves, lc_nil]
  | a :: as, bs => by simp only [List.cons_append, exprsLeaves, lc_append, lc_exprs_append as bs]; omega

theorem flush_count (cur : Option (List UInt8)) : ExprsOnce w ps (flush cur) ∧ leafCount w ps (exprsLeaves (flush cur)) = 0 := by
  cases cur with
  | none => exact ⟨trivial, rfl⟩
  | some bs => exact ⟨⟨trivial, trivial⟩, by simp only [flush, exprsLeaves, exprLeaves, lc_append, lc_lit, lc_nil]⟩

theorem finishParts_count (h : KeepsCount w ps f) : ∀ (es : List Expr) (cur : Option (List UInt8)) (st : LState), ExprsOnce w ps es →
    (ExprsOnce w ps (finishParts f es cur st).1 ∧
      leafCount w ps (exprsLeaves (finishParts f es cur st).1) = leafCount w ps (exprsLeaves es)) ∧
    ∀ new, (finishParts f es cur st).2.2 = .ok new →
      ExprsOnce w ps new ∧ leafCount w ps (exprsLeaves new) = leafCount w ps (exprsLeaves es)
  | [], cur, st, _ => ⟨⟨trivial, rfl⟩, fun new hn => by
      simp only [finishParts] at hn
      cases hn; exact flush_count cur⟩
  | e :: es, cur, st, ho => by
    have he := h e st ho.1
    simp only [finishParts]
    generalize f e st = R at *
    rcases R with ⟨x, s, r | r⟩
    · exact ⟨⟨⟨he.1, ho.2⟩, by simp only [exprsLeaves, lc_append, he.2]⟩, by simp⟩
    · simp only at he ⊢
      split
      · have h0 := lc_lit (w := w) (ps := ps)
        simp only [exprLeaves, lc_lit] at he
        split
        · exact ⟨⟨⟨trivial, ho.2⟩, by simp only [exprsLeaves, exprLeaves, lc_append, lc_lit, ← he.2]⟩, by simp⟩
        · rename_i bs _
          have ih := finishParts_count h es (some (cur.getD [] ++ bs)) s ho.2
          generalize finishParts f es (some (cur.getD [] ++ bs)) s = R at *
          rcases R with ⟨q, s', r⟩
          refine ⟨⟨⟨trivial, ih.1.1⟩, by simp only [exprsLeaves, exprLeaves, lc_append, lc_lit, ← he.2, ih.1.2]⟩, fun new hn => ?_⟩
          have := ih.2 new hn
          exact ⟨this.1, by simp only [exprsLeaves, lc_append, ← he.2, this.2]; omega⟩
      · split
        · exact ⟨⟨⟨he.1, ho.2⟩, by simp only [exprsLeaves, lc_append, he.2]⟩, by simp⟩
        · have ih := finishParts_count h es none s ho.2
          generalize finishParts f es none s = R at *
          rcases R with ⟨q, s', r | r⟩
          · exact ⟨⟨⟨he.1, ih.1.1⟩, by simp only [exprsLeaves, lc_append, he.2, ih.1.2]⟩, by simp⟩
          · refine ⟨⟨⟨he.1, ih.1.1⟩, by simp only [exprsLeaves, lc_append, he.2, ih.1.2]⟩, fun new hn => ?_⟩
            cases hn
            have := ih.2 r rfl
            have hf := flush_count (w := w) (ps := ps) cur
            exact ⟨exprsOnce_append hf.1 ⟨he.1, this.1⟩, by
              rw [lc_exprs_append]; simp only [exprsLeaves, lc_append, he.2, this.2, hf.2]; omega⟩

theorem finishCondition_count (h : KeepsCount w ps f) : KeepsCount w ps (finishCondition f) := by
  intro e st ho
  have he := h e st ho
  simp only [finishCondition]
  generalize f e st = R at *
  rcases R with ⟨x, s, r | r⟩
  · exact he
  · simp only at he ⊢
    split
    · exact ⟨⟨by simp [yields], he.1, trivial⟩, by simp only [exprLeaves, lc_append, lc_lit, he.2]; omega⟩
    · exact he

theorem foldUnary_count {op : UnOp} {x e : Expr} {t : Option Ty} (h : foldUnary C op x t = .ok e) (hx : ExprOnce w ps (.un op x)) :
    ExprOnce w ps e ∧ leafCount w ps (exprLeaves e) = leafCount w ps (exprLeaves x) := by
  unfold foldUnary at h
  split at h
  all_goals first
    | (cases h; first | exact ⟨trivial, by simp only [exprLeaves, lc_lit]⟩ | exact ⟨hx, rfl⟩)
    | (split at h <;> (cases h; first | exact ⟨hx, rfl⟩ | refine ⟨⟨by simp [yields], hx.2, ?_⟩, ?_⟩)
       · unfold zeroOf; split <;> trivial
       · simp only [exprLeaves, lc_append]; unfold zeroOf; split <;> simp only [exprLeaves, lc_lit] <;> omega)
    | cases h

theorem maxTyCast_count {e : Expr} {t : Ty} (h : maxTyCast e = some t) : TyOnce w ps t ∧ leafCount w ps (tyLeaves t) = 0 := by
  unfold maxTyCast at h
  repeat' split at h
  all_goals first
    | (cases h; exact ⟨trivial, rfl⟩)
    | cases h

theorem adjustOperands_count (op : BinOp) {l r : Expr} (lt rt : Option Ty) (hl : ExprOnce w ps l) (hr : ExprOnce w ps r) :
    (ExprOnce w ps (adjustOperands op l r lt rt).1 ∧
      leafCount w ps (exprLeaves (adjustOperands op l r lt rt).1) = leafCount w ps (exprLeaves l)) ∧
    ExprOnce w ps (adjustOperands op l r lt rt).2.1 ∧
      leafCount w ps (exprLeaves (adjustOperands op l r lt rt).2.1) = leafCount w ps (exprLeaves r) := by
  unfold adjustOperands
  repeat' split
  all_goals first
    | exact ⟨⟨hl, rfl⟩, hr, rfl⟩
    | exact ⟨⟨trivial, by simp only [exprLeaves, lc_lit]⟩, hr, rfl⟩
    | exact ⟨⟨hl, rfl⟩, trivial, by simp only [exprLeaves, lc_lit]⟩
    | (rename_i hm
       have := maxTyCast_count (w := w) (ps := ps) hm
       first
         | exact ⟨⟨⟨this.1, hl⟩, by simp only [exprLeaves, lc_append, this.2]; omega⟩, hr, rfl⟩
         | exact ⟨⟨hl, rfl⟩, ⟨this.1, hr⟩, by simp only [exprLeaves, lc_append, this.2]; omega⟩)

theorem foldBinary_count {op : BinOp} {l r e : Expr} (h : foldBinary op l r = some (.ok e)) :
    ExprOnce w ps e ∧ leafCount w ps (exprLeaves e) = 0 ∧ leafCount w ps (exprLeaves l) = 0 ∧ leafCount w ps (exprLeaves r) = 0 := by
  unfold foldBinary at h
  repeat' split at h
  all_goals first
    | (cases h; exact ⟨trivial, lc_lit _, lc_lit _, lc_lit _⟩)
    | cases h

theorem castAsProduct_count {ty : Ty} {x e : Expr} (h : castAsProduct ty x = some e) (ho : ExprOnce w ps (.cast ty x)) :
    ExprOnce w ps e ∧ leafCount w ps (exprLeaves e) = leafCount w ps (exprLeaves (.cast ty x)) := by
  unfold castAsProduct at h
  split at h
  · split at h
    · cases h
      simp only [ExprOnce] at ho ⊢
      exact ⟨⟨by simp [yields], ⟨ho.1, trivial⟩, ho.2.2.2⟩, by simp only [exprLeaves, tyLeaves, lc_append]; omega⟩
    · cases h
  · cases h

theorem castAsBinary_count {ty : Ty} {x e : Expr} (h : castAsBinary C ty x = some e) (ho : ExprOnce w ps (.cast ty x)) :
    ExprOnce w ps e ∧ leafCount w ps (exprLeaves e) = leafCount w ps (exprLeaves (.cast ty x)) := by
  unfold castAsBinary at h
  split at h
  · rename_i op _
    split at h
    · cases op <;> cases h
      all_goals
        simp only [ExprOnce] at ho ⊢
        exact ⟨⟨by simp [yields], trivial, ho.2.2⟩, by simp only [exprLeaves, tyLeaves, lc_append]⟩
    · cases h
  · cases h

theorem litChar_count (hw : Unbuilt C w) {c : LitChar} {st : LState} {t : Ty} (h : c.finish C st = .ok t) :
    leafCount w ps (tyLeaves t) = 0 := by
  cases c <;> simp only [LitChar.finish] at h
  case wide c =>
    have h1 := (ty_finish_count (ps := ps) hw wcharTy st).1 (lc_names (xs := [c!"wchar_t"]) (by
      simp only [List.mem_singleton]; exact fun h => hw.wchar h))
    unfold finishWchar at h
    split at h
    · cases h; rename_i hf; rw [hf] at h1; exact h1
    · cases h
  all_goals cases h; rfl

theorem finishStep_count (hw : Unbuilt C w) (h : KeepsCount w ps f) : KeepsCount w ps (finishStep C L f) := by
  intro e st ho
  cases e with
  | var n => exact ⟨ho, rfl⟩
  | stringify n => exact ⟨ho, rfl⟩
  | sizeOf n =>
    have := (ty_finish_count (ps := ps) hw n st).2 ho
    simp only [finishStep]
    generalize n.finish C st = R at *
    rcases R with ⟨ty, s, r | r⟩ <;> exact this
  | lit l =>
    cases l with
    | char c =>
      simp only [finishStep]
      split
      · rename_i t ht
        have h0 := litChar_count (ps := ps) hw ht
        exact ⟨⟨tyOnce_zero h0, trivial⟩, by simp only [exprLeaves, lc_append, h0]; omega⟩
      · exact ⟨ho, rfl⟩
    | _ => exact ⟨ho, rfl⟩
  | cast ty x =>
    have ht := (ty_finish_count (ps := ps) hw ty st).2 ho.1
    simp only [finishStep]
    generalize ty.finish C st = R at *
    rcases R with ⟨ty', s, r | r⟩
    · simp only at ht ⊢
      split
      · rename_i e _ hc
        have h1 := castAsProduct_count hc ⟨ht.1, ho.2⟩
        have h2 := h e s h1.1
        exact ⟨h2.1, by rw [h2.2, h1.2]; simp only [exprLeaves, lc_append, ht.2]⟩
      · exact ⟨⟨ht.1, ho.2⟩, by simp only [exprLeaves, lc_append, ht.2]⟩
    · simp only at ht ⊢
      have hx := h x s ho.2
      generalize f x s = R at *
      rcases R with ⟨x', s', r | r⟩
      · simp only at hx ⊢
        split
        · rename_i e _ hc
          have h1 := castAsProduct_count hc ⟨ht.1, hx.1⟩
          have h2 := h e s' h1.1
          exact ⟨h2.1, by rw [h2.2, h1.2]; simp only [exprLeaves, lc_append, ht.2, hx.2]⟩
        · exact ⟨⟨ht.1, hx.1⟩, by simp only [exprLeaves, lc_append, ht.2, hx.2]⟩
      · simp only at hx ⊢
        split
        · rename_i e hc
          have h1 := castAsBinary_count hc ⟨ht.1, hx.1⟩
          have h2 := h e s' h1.1
          exact ⟨h2.1, by rw [h2.2, h1.2]; simp only [exprLeaves, lc_append, ht.2, hx.2]⟩
        · split
          · rename_i hc
            have h2 := h x' s' hx.1
            refine ⟨h2.1, ?_⟩
            have : leafCount w ps (tyLeaves ty') = 0 := by
              unfold castOfString at hc
              split at hc
              · rfl
              · cases hc
            rw [h2.2, hx.2]; simp only [exprLeaves, lc_append, ← ht.2, this]; omega
          · exact ⟨⟨ht.1, hx.1⟩, by simp only [exprLeaves, lc_append, ht.2, hx.2]⟩
  | call name args =>
    simp only [finishStep]
    split
    · exact ⟨ho, rfl⟩
    · generalize name.finish st = R
      rcases R with ⟨s, r | r⟩
      · exact ⟨ho, rfl⟩
      · simp only
        have ha := finishArgs_count h args s ho
        generalize finishArgs f args s = R at *
        rcases R with ⟨as, s', z | z⟩
        · exact ⟨ha.1, by simp only [exprLeaves, lc_append, ha.2]⟩
        · exact ⟨ha.1, by simp only [exprLeaves, lc_append, ha.2]⟩
  | concatStr parts =>
    simp only [finishStep]
    have := finishParts_count h parts none st ho
    generalize finishParts f parts none st = R at *
    rcases R with ⟨x, y, z | z⟩
    · exact this.1
    · have hz := this.2 z rfl
      rcases z with _ | ⟨q, _ | ⟨q', l⟩⟩
      · exact hz
      · have h2 := h q y hz.1.1
        exact ⟨h2.1, by rw [h2.2]; have := hz.2; simpa only [exprsLeaves, exprLeaves, lc_append, lc_nil, Nat.add_zero] using this⟩
      · exact hz
  | un op x =>
    simp only [finishStep]
    have hx := h x st ho.2
    generalize f x st = R at *
    rcases R with ⟨x', s, r | r⟩
    · exact ⟨⟨fun hc => hx.2.trans (ho.1 hc), hx.1⟩, hx.2⟩
    · have h1 : ExprOnce w ps (.un op x') := ⟨fun hc => hx.2.trans (ho.1 hc), hx.1⟩
      simp only at hx ⊢
      split
      · exact ⟨h1, hx.2⟩
      · split
        · exact ⟨h1, hx.2⟩
        · rename_i he
          have := foldUnary_count he h1
          exact ⟨this.1, this.2.trans hx.2⟩
  | bin l op r =>
    simp only [finishStep]
    have hl := h l st ho.2.1
    generalize f l st = R at *
    rcases R with ⟨l', s, lt | lt⟩
    · exact ⟨⟨fun hc => hl.2.trans (ho.1 hc), hl.1, ho.2.2⟩, by simp only [exprLeaves, lc_append, hl.2]⟩
    · simp only at hl ⊢
      have hr := h r s ho.2.2
      generalize f r s = R at *
      rcases R with ⟨r', s1, rt | rt⟩
      · exact ⟨⟨fun hc => hl.2.trans (ho.1 hc), hl.1, hr.1⟩, by simp only [exprLeaves, lc_append, hl.2, hr.2]⟩
      · simp only at hr ⊢
        generalize binaryEffects op l' r' s1 = R
        rcases R with ⟨s2, x | x⟩
        · exact ⟨⟨fun hc => hl.2.trans (ho.1 hc), hl.1, hr.1⟩, by simp only [exprLeaves, lc_append, hl.2, hr.2]⟩
        · simp only
          have ha := adjustOperands_count op lt rt hl.1 hr.1
          generalize adjustOperands op l' r' lt rt = R at *
          rcases R with ⟨l2, r2, lt2, rt2⟩
          simp only at ha ⊢
          have h1 : ExprOnce w ps (.bin l2 op r2) ∧
              leafCount w ps (exprLeaves (.bin l2 op r2)) = leafCount w ps (exprLeaves (.bin l op r)) :=
            ⟨⟨fun hc => (ha.1.2.trans hl.2).trans (ho.1 hc), ha.1.1, ha.2.1⟩, by simp only [exprLeaves, lc_append, hl.2, hr.2, ha.1.2, ha.2.2]⟩
          split
          · exact h1
          · split
            · exact h1
            · rename_i e he
              have h2 := foldBinary_count (w := w) (ps := ps) he
              have h3 := h e s2 h2.1
              refine ⟨h3.1, ?_⟩
              rw [h3.2, h2.2.1, ← h1.2]
              simp only [exprLeaves, lc_append, h2.2.2.1, h2.2.2.2]
            · exact h1
  | ternary c t u =>
    simp only [finishStep]
    have hc := finishCondition_count h c st ho.1
    generalize finishCondition f c st = R at *
    rcases R with ⟨c', s, x | x⟩
    · exact ⟨⟨hc.1, ho.2⟩, by simp only [exprLeaves, lc_append, hc.2]⟩
    · simp only at hc ⊢
      have ht := h t s ho.2.1
      generalize f t s = R at *
      rcases R with ⟨t', s1, x | x⟩
      · exact ⟨⟨hc.1, ht.1, ho.2.2⟩, by simp only [exprLeaves, lc_append, hc.2, ht.2]⟩
      · simp only at ht ⊢
        have hu := h u s1 ho.2.2
        generalize f u s1 = R at *
        rcases R with ⟨u', s2, x | x⟩ <;>
          exact ⟨⟨hc.1, ht.1, hu.1⟩, by simp only [exprLeaves, lc_append, hc.2, ht.2, hu.2]⟩

theorem expr_finish_count (hw : Unbuilt C w) : ∀ n, KeepsCount w ps (Expr.finish C L n)
  | 0 => fun _ _ ho => ⟨ho, rfl⟩
  | n + 1 => finishStep_count hw (expr_finish_count hw n)

/-! ## Statements -/

theorem once_cons {α : Type} {p : α → Prop} {a b : α} {as bs : List α} (h : ∀ o ∈ a :: as, p o) (hb : p b) (hs : (∀ o ∈ as, p o) → ∀ o ∈ bs, p o) :
    ∀ o ∈ b :: bs, p o := by
  intro o hm
  rcases List.mem_cons.1 hm with rfl | hm
  · exact hb
  · exact hs (fun o ho => h o (List.mem_cons_of_mem _ ho)) o hm

theorem finishOutputs_count (h : KeepsCount w ps f) : ∀ (es : List (Dir × RegConstraint × Expr)) (st : LState),
    (∀ o ∈ es, ExprOnce w ps o.2.2) →
    (∀ o ∈ (finishOutputs f es st).1, ExprOnce w ps o.2.2) ∧
      leafCount w ps ((finishOutputs f es st).1.flatMap fun o => exprLeaves o.2.2) = leafCount w ps (es.flatMap fun o => exprLeaves o.2.2)
  | [], _, _ => ⟨by simp [finishOutputs], rfl⟩
  | (d, c, e) :: es, st, ho => by
    have he := h e st (ho (d, c, e) (by simp))
    simp only [finishOutputs]
    generalize f e st = R at *
    rcases R with ⟨x, s, r | r⟩
    · exact ⟨once_cons ho he.1 id, by simp only [List.flatMap_cons, lc_append, he.2]⟩
    · have ih := finishOutputs_count h es s fun o hm => ho o (by simp [hm])
      exact ⟨once_cons ho he.1 fun _ => ih.1, by simp only [List.flatMap_cons, lc_append, he.2, ih.2]⟩

theorem finishInputs_count (h : KeepsCount w ps f) : ∀ (es : List (RegConstraint × Expr)) (st : LState),
    (∀ o ∈ es, plainConstraint o.1 ∧ ExprOnce w ps o.2) →
    (∀ o ∈ (finishInputs f es st).1, plainConstraint o.1 ∧ ExprOnce w ps o.2) ∧
      leafCount w ps ((finishInputs f es st).1.flatMap fun o => exprLeaves o.2) = leafCount w ps (es.flatMap fun o => exprLeaves o.2)
  | [], _, _ => ⟨by simp [finishInputs], rfl⟩
  | (c, e) :: es, st, ho => by
    have hh := ho (c, e) (by simp)
    have he := h e st hh.2
    simp only [finishInputs]
    generalize f e st = R at *
    rcases R with ⟨x, s, r | r⟩
    · exact ⟨once_cons ho ⟨hh.1, he.1⟩ id, by simp only [List.flatMap_cons, lc_append, he.2]⟩
    · have ih := finishInputs_count h es s fun o hm => ho o (by simp [hm])
      exact ⟨once_cons ho ⟨hh.1, he.1⟩ fun _ => ih.1, by simp only [List.flatMap_cons, lc_append, he.2, ih.2]⟩

theorem asm_finish_count (h : KeepsCount w ps f) (a : Asm) (st : LState) (ho : StmtOnce w ps (.asm a)) :
    StmtOnce w ps (.asm (a.finish f st).1) ∧ leafCount w ps (asmLeaves (a.finish f st).1) = leafCount w ps (asmLeaves a) := by
  have h1 := finishOutputs_count h a.outputs st ho.1
  simp only [Asm.finish]
  generalize finishOutputs f a.outputs st = R at *
  rcases R with ⟨os, s, r | r⟩
  · exact ⟨⟨h1.1, ho.2⟩, by simp only [asmLeaves, lc_append, h1.2]⟩
  · simp only at h1 ⊢
    have h2 := finishInputs_count h a.inputs s ho.2
    generalize finishInputs f a.inputs s = R at *
    rcases R with ⟨is, s', r | r⟩ <;> exact ⟨⟨h1.1, h2.1⟩, by simp only [asmLeaves, lc_append, h1.2, h2.2]⟩

theorem declArgs_count (hw : Unbuilt C w) : ∀ (as : List (Ty × IdentExpr)) (st : LState), (∀ a ∈ as, TyOnce w ps a.1) →
    (∀ a ∈ (finishDeclArgs C as st).1, TyOnce w ps a.1) ∧
      leafCount w ps ((finishDeclArgs C as st).1.flatMap fun a => tyLeaves a.1 ++ nameLeaves a.2) =
        leafCount w ps (as.flatMap fun a => tyLeaves a.1 ++ nameLeaves a.2)
  | [], _, _ => ⟨by simp [finishDeclArgs], rfl⟩
  | (t, n) :: as, st, ho => by
    have ht := (ty_finish_count (ps := ps) hw t st).2 (ho (t, n) (by simp))
    simp only [finishDeclArgs]
    generalize t.finish C st = R at *
    rcases R with ⟨t', s, r | r⟩
    · exact ⟨once_cons ho ht.1 id, by simp only [List.flatMap_cons, lc_append, ht.2]⟩
    · have ih := declArgs_count hw as s fun o hm => ho o (by simp [hm])
      exact ⟨once_cons ho ht.1 fun _ => ih.1, by simp only [List.flatMap_cons, lc_append, ht.2, ih.2]⟩

theorem fnDecl_finish_count (hw : Unbuilt C w) (d : FunctionDecl) (st : LState) (ho : StmtOnce w ps (.fnDecl d)) :
    StmtOnce w ps (.fnDecl (d.finish C st).1) ∧
      leafCount w ps (stmtLeaves (.fnDecl (d.finish C st).1)) = leafCount w ps (stmtLeaves (.fnDecl d)) := by
  have ht := (ty_finish_count (ps := ps) hw d.retTy st).2 ho.1
  unfold FunctionDecl.finish
  generalize d.retTy.finish C st = R at *
  rcases R with ⟨t', s, r | r⟩
  · exact ⟨⟨ht.1, ho.2⟩, by simp only [stmtLeaves, lc_append, ht.2]⟩
  · simp only at ht ⊢
    split
    · exact ⟨⟨ht.1, ho.2⟩, by simp only [stmtLeaves, lc_append, ht.2]⟩
    · rename_i s' _
      have ha := declArgs_count (ps := ps) hw d.args s' ho.2
      exact ⟨⟨ht.1, ha.1⟩, by simp only [stmtLeaves, lc_append, ht.2, ha.2]⟩

theorem varDecl_finish_count (hw : Unbuilt C w) (h : KeepsCount w ps f) (d : VarDecl) (st : LState) (ho : StmtOnce w ps (.varDecl d)) :
    StmtOnce w ps (.varDecl (d.finish C f st).1) ∧
      leafCount w ps (stmtLeaves (.varDecl (d.finish C f st).1)) = leafCount w ps (stmtLeaves (.varDecl d)) := by
  have ht := (ty_finish_count (ps := ps) hw d.ty st).2 ho.1
  simp only [VarDecl.finish]
  generalize d.ty.finish C st = R at *
  rcases R with ⟨t, s, r | r⟩
  · exact ⟨⟨ht.1, ho.2⟩, by simp only [stmtLeaves, lc_append, ht.2]⟩
  · simp only at ht ⊢
    generalize d.name.finish s = R
    rcases R with ⟨s', r | r⟩
    · exact ⟨⟨ht.1, ho.2⟩, by simp only [stmtLeaves, lc_append, ht.2]⟩
    · simp only
      have he := h d.rhs s' ho.2
      generalize f d.rhs s' = R at *
      rcases R with ⟨x, s2, z | z⟩ <;> exact ⟨⟨ht.1, he.1⟩, by simp only [stmtLeaves, lc_append, ht.2, he.2]⟩

mutual
theorem stmt_finish_count (hw : Unbuilt C w) (h : KeepsCount w ps f) : ∀ (s : Stmt) (st : LState), StmtOnce w ps s →
    StmtOnce w ps (s.finish C f st).1 ∧ leafCount w ps (stmtLeaves (s.finish C f st).1) = leafCount w ps (stmtLeaves s)
  | .asm a, st, ho => by
    have := asm_finish_count h a st ho
    rwa [Stmt.finish]
  | .expr e, st, ho => by
    have he := h e st ho
    simp only [Stmt.finish]
    generalize f e st = R at *
    rcases R with ⟨x, s, r | r⟩ <;> exact he
  | .fnDecl d, st, ho => by
    have := fnDecl_finish_count hw d st ho
    rwa [Stmt.finish]
  | .varDecl d, st, ho => by
    have := varDecl_finish_count hw h d st ho
    rwa [Stmt.finish]
  | .block ss, st, ho => by
    have := stmts_finish_count hw h ss st ho
    rwa [Stmt.finish]
  | .ite c t u, st, ho => by
    simp only [Stmt.finish]
    have hc := finishCondition_count h c st ho.1
    generalize finishCondition f c st = R at *
    rcases R with ⟨c', s, x | x⟩
    · exact ⟨⟨hc.1, ho.2⟩, by simp only [stmtLeaves, lc_append, hc.2]⟩
    · simp only at hc ⊢
      have ht := stmts_finish_count hw h t s ho.2.1
      generalize Stmt.finishL C f t s = R at *
      rcases R with ⟨t', s1, y | y⟩
      · exact ⟨⟨hc.1, ht.1, ho.2.2⟩, by simp only [stmtLeaves, lc_append, hc.2, ht.2]⟩
      · simp only at ht ⊢
        have hu := stmts_finish_count hw h u s1 ho.2.2
        exact ⟨⟨hc.1, ht.1, hu.1⟩, by simp only [stmtLeaves, lc_append, hc.2, ht.2, hu.2]⟩
  | .doWhile b c, st, ho => by
    simp only [Stmt.finish]
    have ht := stmts_finish_count hw h b st ho.1
    generalize Stmt.finishL C f b st = R at *
    rcases R with ⟨t', s1, y | y⟩
    · exact ⟨⟨ht.1, ho.2⟩, by simp only [stmtLeaves, lc_append, ht.2]⟩
    · simp only at ht ⊢
      have hc := finishCondition_count h c s1 ho.2
      generalize finishCondition f c s1 = R at *
      rcases R with ⟨c', s, x | x⟩ <;> exact ⟨⟨ht.1, hc.1⟩, by simp only [stmtLeaves, lc_append, hc.2, ht.2]⟩
theorem stmts_finish_count (hw : Unbuilt C w) (h : KeepsCount w ps f) : ∀ (ss : List Stmt) (st : LState), StmtsOnce w ps ss →
    StmtsOnce w ps (Stmt.finishL C f ss st).1 ∧ leafCount w ps (stmtsLeaves (Stmt.finishL C f ss st).1) = leafCount w ps (stmtsLeaves ss)
  | [], _, _ => ⟨trivial, rfl⟩
  | s :: ss, st, ho => by
    simp only [Stmt.finishL]
    have hs := stmt_finish_count hw h s st ho.1
    generalize Stmt.finish C f s st = R at *
    rcases R with ⟨s', s1, y | y⟩
    · exact ⟨⟨hs.1, ho.2⟩, by simp only [stmtsLeaves, lc_append, hs.2]⟩
    · simp only at hs ⊢
      have hr := stmts_finish_count hw h ss s1 ho.2
      exact ⟨⟨hs.1, hr.1⟩, by simp only [stmtsLeaves, lc_append, hs.2, hr.2]⟩
end

theorem body_finish_count (hw : Unbuilt C w) (h : KeepsCount w ps f) (b : MacroBody) (st : LState) (ho : BodyOnce w ps b) :
    BodyOnce w ps (b.finish C f st).tree ∧ leafCount w ps (bodyLeaves (b.finish C f st).tree) = leafCount w ps (bodyLeaves b) := by
  cases b with
  | stmt s =>
    simp only [MacroBody.finish]
    have hs := stmt_finish_count hw h s st ho
    generalize Stmt.finish C f s st = R at *
    rcases R with ⟨s', s1, y | y⟩ <;> exact hs
  | expr e => exact h e st ho

end

end CMacro
