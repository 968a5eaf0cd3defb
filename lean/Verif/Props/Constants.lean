import Verif.Props.Codegen
import Verif.Proofs.FinishInv

/-!
# What becomes a constant
-/

namespace CMacro

/-! ## C43 -/

/-- An identifier the context knows to be a constant: a variant of an enumeration, or one of the
limits of the compiler. -/
def Spec.KnownConst (C : Ctx) (id : Str) : Prop :=
  (C.resolveEnumVariant id).isSome = true ∨
    id ∈ [c!"__SCHAR_MAX__", c!"__SHRT_MAX__", c!"__INT_MAX__", c!"__LONG_MAX__", c!"__LONG_LONG_MAX__"]

/-- A type all of whose names the context knows. -/
def Spec.KnownTy (C : Ctx) : Ty → Prop
  | .builtIn _ => True
  | .ident (.plain id) _ => (C.resolveTy id).isSome = true
  | .ident _ _ => False
  | .path _ _ => True
  | .ptr t => Spec.KnownTy C t
  | .qualified t _ => Spec.KnownTy C t

mutual
/-- A constant expression: no call, no dereference, no assignment, no unknown name. -/
def Spec.Constant (C : Ctx) : Expr → Prop
  | .lit _ => True
  | .var (.plain id) => Spec.KnownConst C id
  | .var _ => False
  | .call _ _ => False
  | .stringify _ => False
  | .cast ty x => Spec.KnownTy C ty ∧ Spec.Constant C x
  | .sizeOf ty => Spec.KnownTy C ty
  | .concatStr ps => Spec.ConstantL C ps
  | .un op x => op ∉ [.deref, .inc, .dec, .postInc, .postDec] ∧ Spec.Constant C x
  | .bin l op r =>
    op ∉ [.assign, .addAssign, .subAssign, .mulAssign, .divAssign, .remAssign, .shlAssign, .shrAssign,
      .bitAndAssign, .bitXorAssign, .bitOrAssign] ∧ Spec.Constant C l ∧ Spec.Constant C r
  | .ternary c t f => Spec.Constant C c ∧ Spec.Constant C t ∧ Spec.Constant C f
/-- All of the expressions are constant. -/
def Spec.ConstantL (C : Ctx) : List Expr → Prop
  | [] => True
  | e :: es => Spec.Constant C e ∧ Spec.ConstantL C es
end

/-- **C43**, the full statement: constants are generated for constant expressions only. -/
def C43_statement : Prop :=
  ∀ (C : Ctx) (name : Str) (e : Expr) (out : List RTok × Option (List RTok)),
    VarMacro.Generates C ⟨name, .expr e⟩ (.ok out) → Spec.Constant C e

/-- A context with one enumeration variant. -/
def variantCtx : Ctx :=
  { Ctx.unit asciiEnv with
    resolveEnumVariant := fun id => if id = c!"E" then some (.path .plain ⟨false, [c!"c_uint"]⟩, q!"en :: E") else none }

/-- **C43** is false of the code: `#define M E = 1` becomes `const M: c_uint = { en::E = 1; en::E };`. -/
theorem C43_false : ¬ C43_statement := by
  intro h
  have hg := varGenerates_of 5 variantCtx c!"M" (.bin (.var (.plain c!"E")) .assign (.lit (.int ⟨1, none⟩))) (by decide +kernel)
  have he : VarMacro.generate 5 variantCtx ⟨c!"M", .expr (.bin (.var (.plain c!"E")) .assign (.lit (.int ⟨1, none⟩)))⟩ =
      .ok (q!"{ en :: E =" ++ [.int 1 []] ++ q!"; en :: E }", some q!"c_uint") := by decide +kernel
  rw [he] at hg
  have := h _ _ _ _ hg
  exact this.1 (by simp)

/-- Types without parameters and `##`. -/
def Spec.PlainTy : Ty → Prop
  | .ident n _ => ∃ id, n = .plain id
  | .ptr t => Spec.PlainTy t
  | .qualified t _ => Spec.PlainTy t
  | _ => True

/-- Nothing is dereferenced here. -/
def Spec.NotDeref : Expr → Prop
  | .un .deref _ => False
  | _ => True

/-- Nothing is assigned here, no name is made by `##`, types are named by names, and no `*` occurs
inside the operand of a cast (there it may be read as a product). -/
def Spec.NoWrite : Expr → Prop
  | .un op _ => op ∉ [.inc, .dec, .postInc, .postDec]
  | .bin _ op _ => op.isAssignment = false
  | .var (.concat _) => False
  | .cast ty x => Spec.PlainTy ty ∧ x.All Spec.NotDeref
  | .sizeOf ty => Spec.PlainTy ty
  | _ => True

mutual
theorem Expr.All_and {p q : Expr → Prop} : ∀ {e : Expr}, e.All p → e.All q → e.All fun e => p e ∧ q e
  | .var _, h, h' | .lit _, h, h' | .stringify _, h, h' | .sizeOf _, h, h' => ⟨h, h'⟩
  | .cast _ e, h, h' => ⟨⟨h.1, h'.1⟩, Expr.All_and h.2 h'.2⟩
  | .un _ e, h, h' => ⟨⟨h.1, h'.1⟩, Expr.All_and h.2 h'.2⟩
  | .bin _ _ _, h, h' => ⟨⟨h.1, h'.1⟩, Expr.All_and h.2.1 h'.2.1, Expr.All_and h.2.2 h'.2.2⟩
  | .ternary _ _ _, h, h' =>
    ⟨⟨h.1, h'.1⟩, Expr.All_and h.2.1 h'.2.1, Expr.All_and h.2.2.1 h'.2.2.1, Expr.All_and h.2.2.2 h'.2.2.2⟩
  | .call _ _, h, h' => ⟨⟨h.1, h'.1⟩, Expr.AllL_and h.2 h'.2⟩
  | .concatStr _, h, h' => ⟨⟨h.1, h'.1⟩, Expr.AllL_and h.2 h'.2⟩
theorem Expr.AllL_and {p q : Expr → Prop} : ∀ {es : List Expr}, Expr.AllL p es → Expr.AllL q es → Expr.AllL (fun e => p e ∧ q e) es
  | [], _, _ => trivial
  | _ :: _, h, h' => ⟨Expr.All_and h.1 h'.1, Expr.AllL_and h.2 h'.2⟩
end

/-! ### Nothing comes to be dereferenced -/

section
variable {C : Ctx} {L : Loc}

/-- Trees without `*` stay without. -/
def KeepsND (f : Expr → LState → Fin Expr) : Prop := ∀ e st, e.All Spec.NotDeref → (f e st).tree.All Spec.NotDeref

theorem finishArgs_nd {f : Expr → LState → Fin Expr} (h : KeepsND f) : ∀ (es : List Expr) (st : LState),
    Expr.AllL Spec.NotDeref es → Expr.AllL Spec.NotDeref (finishArgs f es st).1
  | [], _, _ => trivial
  | e :: es, st, ha => by
    have he := h e st ha.1
    simp only [finishArgs]
    generalize f e st = R at *
    rcases R with ⟨x, s, r | r⟩
    · exact ⟨he, ha.2⟩
    · exact ⟨he, finishArgs_nd h es s ha.2⟩

theorem finishParts_nd {f : Expr → LState → Fin Expr} (h : KeepsND f) : ∀ (es : List Expr) (cur : Option (List UInt8)) (st : LState),
    Expr.AllL Spec.NotDeref es → Expr.AllL Spec.NotDeref (finishParts f es cur st).1 ∧
      ∀ new, (finishParts f es cur st).2.2 = .ok new → Expr.AllL Spec.NotDeref new
  | [], cur, _, _ => by
    refine ⟨trivial, fun new hn => ?_⟩
    cases cur <;> cases hn <;> first | exact trivial | exact ⟨trivial, trivial⟩
  | e :: es, cur, st, ha => by
    have he := h e st ha.1
    simp only [finishParts]
    generalize f e st = R at *
    rcases R with ⟨x, s, r | r⟩
    · exact ⟨⟨he, ha.2⟩, by simp⟩
    · simp only at he ⊢
      split
      · split
        · exact ⟨⟨he, ha.2⟩, by simp⟩
        · rename_i bs _
          have ih := finishParts_nd h es (some (cur.getD [] ++ bs)) s ha.2
          exact ⟨⟨he, ih.1⟩, ih.2⟩
      · split
        · exact ⟨⟨he, ha.2⟩, by simp⟩
        · have ih := finishParts_nd h es none s ha.2
          generalize finishParts f es none s = R at *
          rcases R with ⟨q, s', r | r⟩
          · exact ⟨⟨he, ih.1⟩, by simp⟩
          · refine ⟨⟨he, ih.1⟩, fun new hn => ?_⟩
            cases hn
            refine Expr.AllL.append ?_ ⟨he, ih.2 r rfl⟩
            cases cur <;> first | exact trivial | exact ⟨trivial, trivial⟩

theorem foldUnary_nd {op : UnOp} {x e : Expr} {t : Option Ty} (h : foldUnary C op x t = .ok e) (hop : op ≠ .deref)
    (hx : x.All Spec.NotDeref) : e.All Spec.NotDeref := by
  have hun : Spec.NotDeref (.un op x) := by cases op <;> simp [Spec.NotDeref] at hop ⊢
  unfold foldUnary at h
  split at h
  all_goals first
    | (cases h; first | exact trivial | exact ⟨hun, hx⟩)
    | (split at h <;> (cases h; first | exact ⟨hun, hx⟩ | refine ⟨trivial, hx, ?_⟩)
       unfold zeroOf; split <;> exact trivial)
    | cases h

theorem adjustOperands_nd (op : BinOp) {l r : Expr} (lt rt : Option Ty)
    (hl : l.All Spec.NotDeref) (hr : r.All Spec.NotDeref) :
    (adjustOperands op l r lt rt).1.All Spec.NotDeref ∧ (adjustOperands op l r lt rt).2.1.All Spec.NotDeref := by
  unfold adjustOperands
  repeat' split
  all_goals first
    | exact ⟨hl, hr⟩ | exact ⟨trivial, hr⟩ | exact ⟨hl, trivial⟩ | exact ⟨⟨trivial, hl⟩, hr⟩ | exact ⟨hl, trivial, hr⟩

theorem castAsProduct_nd {ty : Ty} {x : Expr} (hx : x.All Spec.NotDeref) : castAsProduct ty x = none := by
  unfold castAsProduct
  split
  · exact hx.2.1.elim
  · rfl

theorem finishStep_nd {f : Expr → LState → Fin Expr} (h : KeepsND f) : KeepsND (finishStep C L f) := by
  intro e st ha
  cases e with
  | var n => exact trivial
  | stringify n => exact trivial
  | sizeOf n =>
    simp only [finishStep]
    split <;> exact trivial
  | lit l =>
    cases l with
    | char c =>
      simp only [finishStep]
      split <;> first | exact trivial | exact ⟨trivial, trivial⟩
    | _ => exact trivial
  | cast ty x =>
    simp only [finishStep]
    generalize ty.finish C st = R
    rcases R with ⟨ty, s, r | r⟩
    · simp only [castAsProduct_nd ha.2]
      split
      · simp_all
      · exact ⟨trivial, ha.2⟩
    · simp only
      have hx := h x s ha.2
      generalize f x s = R at *
      rcases R with ⟨x', s', r | r⟩
      · simp only [castAsProduct_nd hx]
        split
        · simp_all
        · exact ⟨trivial, hx⟩
      · simp only at hx ⊢
        split
        · rename_i e hc
          apply h
          unfold castAsBinary at hc
          split at hc
          · split at hc
            · simp only [Option.map_eq_some_iff] at hc
              obtain ⟨o, _, rfl⟩ := hc
              exact ⟨trivial, trivial, hx.2⟩
            · cases hc
          · cases hc
        · split
          · exact h x' s' hx
          · exact ⟨trivial, hx⟩
  | call name args =>
    simp only [finishStep]
    split
    · exact ha
    · split
      · exact ha
      · rename_i s _
        have hh := finishArgs_nd h args s ha.2
        generalize finishArgs f args s = R at *
        rcases R with ⟨as, s', z | z⟩
        · exact ⟨trivial, hh⟩
        · exact ⟨trivial, hh⟩
  | concatStr parts =>
    simp only [finishStep]
    have := finishParts_nd h parts none st ha.2
    generalize finishParts f parts none st = R at *
    rcases R with ⟨x, y, z | z⟩
    · exact ⟨trivial, this.1⟩
    · rcases z with _ | ⟨q, _ | ⟨q', l⟩⟩
      · exact ⟨trivial, trivial⟩
      · exact h q y (this.2 _ rfl).1
      · exact ⟨trivial, this.2 _ rfl⟩
  | un op x =>
    simp only [finishStep]
    have hx := h x st ha.2
    have hop : op ≠ .deref := by rintro rfl; exact ha.1
    have hun : ∀ x, Spec.NotDeref (.un op x) := by intro x; cases op <;> simp [Spec.NotDeref] at hop ⊢
    generalize f x st = R at *
    rcases R with ⟨x', s, r | r⟩
    · exact ⟨hun _, hx⟩
    · simp only at hx ⊢
      split
      · exact ⟨hun _, hx⟩
      · split
        · exact ⟨hun _, hx⟩
        · rename_i hf
          exact foldUnary_nd hf hop hx
  | bin l op r =>
    simp only [finishStep]
    have hl := h l st ha.2.1
    generalize f l st = R at *
    rcases R with ⟨l', s, z | z⟩
    · exact ⟨trivial, hl, ha.2.2⟩
    · simp only at hl ⊢
      have hr := h r s ha.2.2
      generalize f r s = R at *
      rcases R with ⟨r', s', z' | z'⟩
      · exact ⟨trivial, hl, hr⟩
      · simp only at hr ⊢
        generalize binaryEffects op l' r' s' = B
        rcases B with ⟨s2, z2 | z2⟩
        · exact ⟨trivial, hl, hr⟩
        · simp only
          have := adjustOperands_nd op z z' hl hr
          generalize adjustOperands op l' r' z z' = A at *
          rcases A with ⟨l2, r2, a, b⟩
          simp only at this ⊢
          split
          · exact ⟨trivial, this.1, this.2⟩
          · split
            · exact ⟨trivial, this.1, this.2⟩
            · rename_i e he
              apply h
              unfold foldBinary at he
              repeat' split at he
              all_goals cases he
              all_goals exact trivial
            · exact ⟨trivial, this.1, this.2⟩
  | ternary c t u =>
    simp only [finishStep]
    have hc : (finishCondition f c st).tree.All Spec.NotDeref := by
      have := h c st ha.2.1
      simp only [finishCondition]
      generalize f c st = R at *
      rcases R with ⟨x, s, r | r⟩
      · exact this
      · simp only at this ⊢
        split
        · exact ⟨trivial, this, trivial⟩
        · exact this
    generalize finishCondition f c st = R at *
    rcases R with ⟨c', s, r | r⟩
    · exact ⟨trivial, hc, ha.2.2.1, ha.2.2.2⟩
    · simp only at hc ⊢
      have ht := h t s ha.2.2.1
      generalize f t s = R at *
      rcases R with ⟨t', s, r | r⟩
      · exact ⟨trivial, hc, ht, ha.2.2.2⟩
      · simp only at ht ⊢
        have hu := h u s ha.2.2.2
        generalize f u s = R at *
        rcases R with ⟨u', s, r | r⟩
        · exact ⟨trivial, hc, ht, hu⟩
        · exact ⟨trivial, hc, ht, hu⟩

theorem finish_nd : ∀ n, KeepsND (Expr.finish C L n)
  | 0 => fun _ _ h => h
  | n + 1 => finishStep_nd (finish_nd n)

/-! ### The constants -/

theorem tyFinish_known : ∀ {ty : Ty} {st : LState} {t : Option Ty}, Spec.PlainTy ty →
    (ty.finish C st).res = .ok t → Spec.KnownTy C ty
  | .builtIn _, _, _, _, _ => trivial
  | .path _ _, _, _, _, _ => trivial
  | .ident n s, st, t, hp, h => by
    obtain ⟨id, rfl⟩ := hp
    simp only [Ty.finish, IdentExpr.finish] at h
    split at h
    · cases h
    · simp [Spec.KnownTy, *]
  | .ptr ty, st, t, hp, h => tyFinish_known (ty := ty) hp h
  | .qualified ty q, st, t, hp, h => tyFinish_known (ty := ty) hp h

/-- An evaluation that succeeds without asking for a macro was that of a constant. -/
def FindsConst (C : Ctx) (f : Expr → LState → Fin Expr) : Prop :=
  ∀ e st t, st.argTypes = [] → e.All Spec.NoWrite → (f e st).res = .ok t → (f e st).st.exportAsMacro = false → Spec.Constant C e

theorem le_nil {st st' : LState} (h : st.Le st') (he : st.argTypes = []) : st'.argTypes = [] := by
  have := h.1
  rw [he] at this
  exact List.eq_nil_of_length_eq_zero this

theorem le_noExport {st st' : LState} (h : st.Le st') (he : st'.exportAsMacro = false) : st.exportAsMacro = false := by
  have := h.2.2
  cases hs : st.exportAsMacro
  · rfl
  · simp_all

theorem finishVar_const {n : IdentExpr} {st : LState} {t : Option Ty} (ha : st.argTypes = []) (hw : Spec.NoWrite (.var n))
    (h : (finishVar C n st).2 = .ok t) (hx : (finishVar C n st).1.exportAsMacro = false) : Spec.Constant C (.var n) := by
  cases n with
  | arg i => simp [finishVar, IdentExpr.finish, LState.argTy, ha] at h
  | concat ids => exact hw.elim
  | plain id =>
    simp only [finishVar, IdentExpr.finish] at h hx
    simp only [Spec.Constant, Spec.KnownConst]
    split at hx
    · simp [LState.export] at hx
    · split at hx
      · simp [LState.export] at hx
      · split at hx
        · rename_i b hb
          right
          unfold limitTy at hb
          repeat' split at hb
          all_goals simp_all
        · split at hx
          · left; simp [*]
          · simp [LState.export] at hx

variable (hL : L.isVar = true)
include hL

theorem finishStringify_notConst {n : IdentExpr} {st : LState} {t : Option Ty} (ha : st.argTypes = [])
    (h : (finishStringify n st).2 = .ok t) (hx : (finishStringify n st).1.exportAsMacro = false) : False := by
  cases n with
  | arg i => simp [finishStringify, LState.argTy, ha] at h
  | concat ids => simp [finishStringify] at h
  | plain id =>
    simp only [finishStringify] at h hx
    split at hx
    · simp [LState.export] at hx
    · rename_i hc
      simp [hc] at h


theorem finishParts_const {f : Expr → LState → Fin Expr} (h : FindsConst C f) (hi : Inv (fun _ _ => True) f) :
    ∀ (es : List Expr) (cur : Option (List UInt8)) (st : LState) (new : List Expr), st.argTypes = [] →
    Expr.AllL Spec.NoWrite es → (finishParts f es cur st).2.2 = .ok new → (finishParts f es cur st).2.1.exportAsMacro = false →
    Spec.ConstantL C es
  | [], _, _, _, _, _, _, _ => trivial
  | e :: es, cur, st, new, ha, hw, hr, hx => by
    have he := h e st
    have hle := (hi e st).1
    simp only [finishParts] at hr hx
    generalize f e st = R at *
    rcases R with ⟨x, s, r | r⟩
    · simp at hr
    · simp only at he hr hx hle
      have hN : NodeInv C L (fun _ _ => True) := by constructor <;> intros <;> trivial
      have hs := le_nil hle ha
      split at hr
      · split at hr
        · cases hr
        · rename_i bs hbs
          simp only [hbs] at hx
          have hm := (finishParts_inv hN hi es (some (cur.getD [] ++ bs)) s).1
          generalize hq : finishParts f es (some (cur.getD [] ++ bs)) s = Q at *
          rcases Q with ⟨q, s', r'⟩
          simp only at hr hx hm
          exact ⟨he r ha hw.1 rfl (le_noExport hm hx),
            finishParts_const h hi es _ s new hs hw.2 (by rw [hq]; exact hr) (by rw [hq]; exact hx)⟩
      · rename_i hp
        split at hr
        · cases hr
        · rename_i hb
          have hm := (finishParts_inv hN hi es none s).1
          generalize hq : finishParts f es none s = Q at *
          rcases Q with ⟨q, s', r' | r'⟩
          · cases hr
          · split at hx
            · exact (hp _ rfl).elim
            · simp only [hb, if_false] at hx
              exact ⟨he r ha hw.1 rfl (le_noExport hm (by simpa using hx)),
                finishParts_const h hi es _ s r' hs hw.2 (by rw [hq]) (by rw [hq]; simpa using hx)⟩

theorem finishStep_const {f : Expr → LState → Fin Expr} (h : FindsConst C f) (hi : Inv (fun _ _ => True) f) (hn : KeepsND f) :
    FindsConst C (finishStep C L f) := by
  intro e st t ha hw hr hx
  cases e with
  | var n => exact finishVar_const ha hw hr hx
  | stringify n => exact (finishStringify_notConst hL ha hr hx).elim
  | lit l => trivial
  | sizeOf ty =>
    simp only [finishStep] at hr
    have := fun t => tyFinish_known (C := C) (ty := ty) (st := st) (t := t) hw
    generalize ty.finish C st = R at *
    rcases R with ⟨ty', s, r | r⟩
    · cases hr
    · exact this _ rfl
  | call name args =>
    simp [finishStep, hL] at hr
  | cast ty x =>
    simp only [finishStep] at hr hx
    have hk := fun t => tyFinish_known (C := C) (ty := ty) (st := st) (t := t) hw.1.1
    have hle := ty.finish_st C st
    generalize ty.finish C st = R at *
    rcases R with ⟨ty', s, r | r⟩
    · simp only [castAsProduct_nd hw.1.2] at hr
      split at hr
      · simp_all
      · cases hr
    · simp only at hr hx hk hle
      refine ⟨hk _ rfl, ?_⟩
      have hf := h x s
      have hd := hn x s hw.1.2
      generalize f x s = R at *
      rcases R with ⟨x', s', r' | r'⟩
      · simp only [castAsProduct_nd hd] at hr
        split at hr
        · simp_all
        · cases hr
      · simp only at hr hx hf
        refine hf r' (le_nil hle ha) hw.2 rfl ?_
        split at hx
        · exact le_noExport (hi _ s').1 hx
        · split at hx
          · exact le_noExport (hi _ s').1 hx
          · exact hx
  | concatStr ps =>
    simp only [finishStep] at hr hx
    have hc := finishParts_const hL h hi ps none st
    generalize finishParts f ps none st = R at *
    rcases R with ⟨x, y, z | z⟩
    · cases hr
    · refine hc z ha hw.2 rfl ?_
      rcases z with _ | ⟨q, _ | ⟨q', l⟩⟩
      · exact hx
      · exact le_noExport (hi q y).1 hx
      · exact hx
  | un op x =>
    simp only [finishStep] at hr hx
    have hf := h x st
    generalize f x st = R at *
    rcases R with ⟨x', s, r | r⟩
    · cases hr
    · simp only at hr hx hf
      split at hr
      · cases hr
      · rename_i t' hu
        simp only [hu] at hx
        split at hr
        · cases hr
        · rename_i e' hfo
          simp only [hfo] at hx
          refine ⟨?_, hf r ha hw.2 rfl hx⟩
          have hw1 := hw.1
          simp only [Spec.NoWrite] at hw1
          intro hm
          have : op = .deref := by
            simp only [List.mem_cons, List.not_mem_nil, or_false] at hm hw1
            rcases hm with hm | hm
            · exact hm
            · exact absurd hm hw1
          subst this
          simp [unaryTy, hL] at hu
  | bin l op r =>
    simp only [finishStep] at hr hx
    have hl := h l st
    have hll := (hi l st).1
    generalize f l st = R at *
    rcases R with ⟨l', s, z | z⟩
    · cases hr
    · simp only at hl hll hr hx
      have hr' := h r s
      have hrl := (hi r s).1
      generalize f r s = R at *
      rcases R with ⟨r', s', z' | z'⟩
      · cases hr
      · simp only at hr' hrl hr hx
        have hbe := binaryEffects_st op l' r' s'
        generalize binaryEffects op l' r' s' = B at *
        rcases B with ⟨s2, z2 | z2⟩
        · cases hr
        · simp only at hbe hr hx
          have hfin : s2.exportAsMacro = false := by
            generalize adjustOperands op l' r' z z' = A at *
            rcases A with ⟨l2, r2, a, b⟩
            simp only at hx
            split at hx
            · exact hx
            · split at hx
              · exact hx
              · exact le_noExport (hi _ s2).1 hx
              · exact hx
          have h2 := le_noExport hbe hfin
          refine ⟨?_, hl z ha hw.2.1 rfl (le_noExport hrl h2), hr' z' (le_nil hll ha) hw.2.2 rfl h2⟩
          have := hw.1
          simp only [Spec.NoWrite] at this
          cases op <;> simp_all [BinOp.isAssignment]
  | ternary c t' u =>
    simp only [finishStep] at hr hx
    have hc := h c st
    have hcl := (hi c st).1
    have hcond : ∀ x, (finishCondition f c st).res = .ok x → (finishCondition f c st).st = (f c st).st ∧ ∃ y, (f c st).res = .ok y := by
      intro x
      simp only [finishCondition]
      generalize f c st = R
      rcases R with ⟨x, s, r | r⟩
      · simp
      · simp only
        split <;> simp
    generalize finishCondition f c st = R at *
    rcases R with ⟨c', s, r | r⟩
    · cases hr
    · obtain ⟨hs, y, hy⟩ := hcond r rfl
      simp only at hs
      subst hs
      simp only at hr hx
      have ht := h t' (f c st).st
      have htl := (hi t' (f c st).st).1
      generalize f t' (f c st).st = R at *
      rcases R with ⟨t2, s, r | r⟩
      · cases hr
      · simp only at ht htl hr hx
        have hu := h u s
        have hul := (hi u s).1
        generalize f u s = R at *
        rcases R with ⟨u2, s2, r2 | r2⟩
        · cases hr
        · simp only at hu hul hr hx
          have h1 := le_noExport hul hx
          exact ⟨hc y ha hw.2.1 hy (le_noExport htl h1), ht r (le_nil hcl ha) hw.2.2.1 rfl h1,
            hu r2 (le_nil htl (le_nil hcl ha)) hw.2.2.2 rfl hx⟩

theorem finish_const : ∀ n, FindsConst C (Expr.finish C L n)
  | 0 => fun _ _ _ _ _ h _ => by cases h
  | n + 1 => finishStep_const hL (finish_const n)
      (Expr.finish_inv (by constructor <;> intros <;> trivial) n) (finish_nd n)

end

/-- **C43** for expressions without assignments and `##`, and without `*` inside the operand of a
cast: if a constant is generated, the expression calls no function, dereferences no pointer and
mentions only names and types the context knows. -/
theorem C43_constants_partial (C : Ctx) (name : Str) (e : Expr) (out : List RTok × Option (List RTok))
    (hw : e.All Spec.NoWrite) (h : VarMacro.Generates C ⟨name, .expr e⟩ (.ok out)) : Spec.Constant C e := by
  obtain ⟨r, hr⟩ := finish_ends C (varLoc C) e .init
  have := (varGenerates (name := name) hr).unique h
  rcases r with ⟨e', st, r | r⟩
  · cases this
  · obtain ⟨_, N, hN⟩ := hr
    have hN := hN N (Nat.le_refl _)
    have hx : st.exportAsMacro = false := by
      simp only [varOut] at this
      cases hs : st.exportAsMacro
      · rfl
      · simp only [hs, if_true] at this
        repeat' split at this
        all_goals cases this
    exact finish_const (L := varLoc C) rfl N e .init r rfl hw (by rw [hN]) (by rw [hN]; exact hx)

/-- `#define M (E + __INT_MAX__) * 2`: a constant; `f(E)`, `X` and `*E` give none. -/
example : (VarMacro.generate 6 variantCtx ⟨c!"M", .expr (.bin (.bin (.var (.plain c!"E")) .add (.var (.plain c!"__INT_MAX__"))) .mul
      (.lit (.int ⟨2, none⟩)))⟩ = .ok (q!"( en :: E + c_int :: MAX ) *" ++ [.int 2 []], none)) ∧
    VarMacro.generate 6 variantCtx ⟨c!"M", .expr (.call (.plain c!"f") [.var (.plain c!"E")])⟩ =
      .error (unsupported c!"function call in variable-like macro") ∧
    VarMacro.generate 6 variantCtx ⟨c!"M", .expr (.var (.plain c!"X"))⟩ = .error (.err .nonConstantVarMacro) ∧
    VarMacro.generate 6 variantCtx ⟨c!"M", .expr (.un .deref (.var (.plain c!"E")))⟩ =
      .error (unsupported c!"dereference in variable-like macro") := by
  decide +kernel

example : (Expr.bin (.bin (.var (.plain c!"E")) .add (.var (.plain c!"__INT_MAX__"))) .mul (.lit (.int ⟨2, none⟩))).All Spec.NoWrite := by
  simp [Expr.All, Spec.NoWrite, BinOp.isAssignment]

end CMacro
