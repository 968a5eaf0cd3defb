import Verif.Proofs.Generate

/-!
# Invariants of `finish`

How the local context changes while a body is finished, and what holds of every node of a tree
that was finished without an error.
-/

namespace CMacro

/-! ## The context -/

/-- A parameter that needs a macro. -/
def ArgTy.isMarked : ArgTy → Bool
  | .ident | .expr | .ty | .tt => true
  | _ => false

/-- How the type of a parameter may change. -/
def ArgTy.Le : ArgTy → ArgTy → Prop
  | .unknown, _ => True
  | .known t, b => b = .known t ∨ b.isMarked = true
  | .ident, b => b = .ident
  | _, b => b.isMarked = true

theorem ArgTy.Le.refl (a : ArgTy) : a.Le a := by cases a <;> simp [ArgTy.Le, ArgTy.isMarked]

theorem ArgTy.Le.trans {a b c : ArgTy} (h : a.Le b) (h' : b.Le c) : a.Le c := by
  cases a <;> cases b <;> cases c <;> simp_all [ArgTy.Le, ArgTy.isMarked]

theorem ArgTy.le_ident (a : ArgTy) : a.Le .ident := by cases a <;> simp [ArgTy.Le, ArgTy.isMarked]

theorem ArgTy.le_marked {a b : ArgTy} (ha : a ≠ .ident) (h : b.isMarked = true) : a.Le b := by
  cases a <;> simp_all [ArgTy.Le]

/-- How the context may change. -/
def LState.Le (st st' : LState) : Prop :=
  st'.argTypes.length = st.argTypes.length ∧
  (∀ (i : Nat) (a : ArgTy), st.argTypes[i]? = some a → ∃ b, st'.argTypes[i]? = some b ∧ a.Le b) ∧
  (st.exportAsMacro = true → st'.exportAsMacro = true)

theorem LState.Le.refl (st : LState) : st.Le st := ⟨rfl, fun _ a h => ⟨a, h, .refl a⟩, id⟩

theorem LState.Le.trans {a b c : LState} (h : a.Le b) (h' : b.Le c) : a.Le c := by
  refine ⟨h'.1.trans h.1, fun i x hx => ?_, fun hx => h'.2.2 (h.2.2 hx)⟩
  obtain ⟨y, hy, hxy⟩ := h.2.1 i x hx
  obtain ⟨z, hz, hyz⟩ := h'.2.1 i y hy
  exact ⟨z, hz, hxy.trans hyz⟩

theorem LState.le_export (st : LState) : st.Le st.export :=
  ⟨rfl, fun _ a h => ⟨a, h, .refl a⟩, fun _ => rfl⟩

theorem LState.le_setArg {st : LState} {i : Nat} {a b : ArgTy} (h : st.argTy i = some a) (hab : a.Le b) :
    st.Le (st.setArg i b) := by
  refine ⟨by simp [LState.setArg], fun j c hc => ?_, id⟩
  simp only [LState.setArg, LState.argTy] at h ⊢
  by_cases hij : i = j
  · subst hij
    rw [h] at hc; cases hc
    have hl : i < st.argTypes.length := by
      rw [List.getElem?_eq_some_iff] at h; exact h.1
    exact ⟨b, by simp [hl], hab⟩
  · exact ⟨c, by simp [List.getElem?_set, hij, hc], .refl c⟩

theorem finishConcat_st : ∀ (ids : List IdentCont) (st : LState), st.Le (finishConcat ids st).1
  | [], st => .refl st
  | .plain _ :: ids, st => finishConcat_st ids st
  | .int n :: ids, st => by simp only [finishConcat]; split <;> exact .refl st
  | .arg i :: ids, st => by
    simp only [finishConcat]
    split
    · exact .refl st
    · rename_i a h
      exact (LState.le_setArg h (ArgTy.le_ident a)).trans (finishConcat_st ids _)

theorem IdentExpr.finish_st (n : IdentExpr) (st : LState) : st.Le (n.finish st).1 := by
  cases n with
  | concat ids => exact finishConcat_st ids st
  | _ => exact .refl st

theorem Ty.finish_st (C : Ctx) : ∀ (t : Ty) (st : LState), st.Le (t.finish C st).st
  | .builtIn _, st => .refl st
  | .path _ _, st => .refl st
  | .ptr t, st => Ty.finish_st C t st
  | .qualified t q, st => Ty.finish_st C t st
  | .ident name s, st => by
    have := name.finish_st st
    simp only [Ty.finish]
    generalize name.finish st = R at *
    rcases R with ⟨s', r | r⟩
    · exact this
    · simp only at this ⊢
      repeat' split
      all_goals exact this

theorem finishVar_st (C : Ctx) (n : IdentExpr) (st : LState) : st.Le (finishVar C n st).1 := by
  have := n.finish_st st
  simp only [finishVar]
  generalize n.finish st = R at *
  rcases R with ⟨s', r | r⟩
  · exact this
  · simp only at this ⊢
    repeat' split
    all_goals first | exact this | exact this.trans (LState.le_export _)

theorem inferArgs_st (C : Ctx) : ∀ (es : List Expr) (ts : List RTy) (st : LState), st.Le (inferArgs C es ts st).1
  | [], _, st => .refl st
  | _ :: _, [], st => .refl st
  | a :: as, t :: ts, st => by
    simp only [inferArgs]
    split
    · exact inferArgs_st C as ts st
    · split
      · exact .refl st
      · rename_i h
        split
        · rename_i u _
          exact (LState.le_setArg h (b := .known u) trivial).trans (inferArgs_st C as ts _)
        · exact .refl st
      · exact inferArgs_st C as ts st

theorem offsetofArg_st (a : Expr) (t : ArgTy) (st : LState) : st.Le (offsetofArg a t st).1 := by
  unfold offsetofArg
  repeat' split
  all_goals first | exact .refl st | exact LState.le_setArg (a := .unknown) (by assumption) trivial

theorem finishCallee_st (C : Ctx) (n : IdentExpr) (es : List Expr) (st : LState) : st.Le (finishCallee C n es st).1 := by
  cases n with
  | plain id =>
    simp only [finishCallee]
    split
    · split
      · split
        · exact .refl st
        · have := inferArgs_st C es (by assumption) st
          generalize inferArgs C es _ st = R at *
          rcases R with ⟨s, r | r⟩ <;> exact this
      · exact .refl st
    · have he := LState.le_export st
      split
      · split
        · rename_i a b
          have h1 := offsetofArg_st a .ty st.export
          generalize offsetofArg a .ty st.export = R at *
          rcases R with ⟨s, r | r⟩
          · exact he.trans h1
          · have h2 := offsetofArg_st b .tt s
            simp only at h2 ⊢
            generalize offsetofArg b .tt s = R at *
            rcases R with ⟨s', r | r⟩ <;> exact (he.trans h1).trans h2
        · exact he
      · exact he
  | _ => exact .refl st

theorem finishStringify_st (n : IdentExpr) (st : LState) : st.Le (finishStringify n st).1 := by
  unfold finishStringify
  repeat' split
  all_goals first | exact .refl st | exact LState.le_export st | exact LState.le_setArg (by assumption) (ArgTy.le_marked (by assumption) rfl)

theorem binaryEffects_st (op : BinOp) (l r : Expr) (st : LState) : st.Le (binaryEffects op l r st).1 := by
  unfold binaryEffects
  dsimp only
  split
  · rename_i s x h
    repeat' split at h
    all_goals first | (cases h; exact .refl st) | (cases h; done)
  · rename_i s h
    have : st.Le s := by
      repeat' split at h
      all_goals first | (cases h; exact .refl st) | (cases h; exact LState.le_setArg (by assumption) (ArgTy.le_ident _)) | (cases h; done)
    split
    · exact this.trans (LState.le_export _)
    · exact this

theorem binaryEffects_assigns {op : BinOp} {l r : Expr} {st st' : LState} (h : binaryEffects op l r st = (st', .ok ()))
    (h1 : op.isAssignment = true) (h2 : l.asArg.isSome = true) : st'.exportAsMacro = true := by
  unfold binaryEffects at h
  dsimp only at h
  split at h
  · cases h
  · rw [if_pos ⟨h1, h2⟩] at h
    cases h
    rfl

theorem adjustOperands_arg (op : BinOp) (l r : Expr) (lt rt : Option Ty) (h : (adjustOperands op l r lt rt).1.asArg.isSome = true) :
    l.asArg.isSome = true := by
  unfold adjustOperands at h
  repeat' split at h
  all_goals first | exact h | cases h

/-! ## Every node of a finished tree -/

mutual
/-- `p` holds for every subexpression. -/
def Expr.All (p : Expr → Prop) : Expr → Prop
  | .var n => p (.var n)
  | .lit l => p (.lit l)
  | .stringify n => p (.stringify n)
  | .sizeOf t => p (.sizeOf t)
  | .call n as => p (.call n as) ∧ Expr.AllL p as
  | .cast t e => p (.cast t e) ∧ e.All p
  | .concatStr ps => p (.concatStr ps) ∧ Expr.AllL p ps
  | .un op e => p (.un op e) ∧ e.All p
  | .bin l op r => p (.bin l op r) ∧ l.All p ∧ r.All p
  | .ternary c t f => p (.ternary c t f) ∧ c.All p ∧ t.All p ∧ f.All p
/-- `p` holds for every subexpression of every element. -/
def Expr.AllL (p : Expr → Prop) : List Expr → Prop
  | [] => True
  | e :: es => e.All p ∧ Expr.AllL p es
end

mutual
theorem Expr.All.mono {p q : Expr → Prop} (h : ∀ e, p e → q e) : ∀ e : Expr, e.All p → e.All q
  | .var _, hp | .lit _, hp | .stringify _, hp | .sizeOf _, hp => h _ hp
  | .call _ as, hp => ⟨h _ hp.1, Expr.AllL.mono h as hp.2⟩
  | .cast _ e, hp => ⟨h _ hp.1, Expr.All.mono h e hp.2⟩
  | .concatStr ps, hp => ⟨h _ hp.1, Expr.AllL.mono h ps hp.2⟩
  | .un _ e, hp => ⟨h _ hp.1, Expr.All.mono h e hp.2⟩
  | .bin l _ r, hp => ⟨h _ hp.1, Expr.All.mono h l hp.2.1, Expr.All.mono h r hp.2.2⟩
  | .ternary c t f, hp => ⟨h _ hp.1, Expr.All.mono h c hp.2.1, Expr.All.mono h t hp.2.2.1, Expr.All.mono h f hp.2.2.2⟩
theorem Expr.AllL.mono {p q : Expr → Prop} (h : ∀ e, p e → q e) : ∀ es : List Expr, Expr.AllL p es → Expr.AllL q es
  | [], _ => trivial
  | e :: es, hp => ⟨Expr.All.mono h e hp.1, Expr.AllL.mono h es hp.2⟩
end

theorem Expr.All.self {p : Expr → Prop} {e : Expr} (h : e.All p) : p e := by
  cases e <;> first | exact h | exact h.1

theorem Expr.AllL.append {p : Expr → Prop} : ∀ {a b : List Expr}, Expr.AllL p a → Expr.AllL p b → Expr.AllL p (a ++ b)
  | [], _, _, h => h
  | _ :: _, _, h, h' => ⟨h.1, h.2.append h'⟩

/-- What has to be shown of single nodes. -/
structure NodeInv (C : Ctx) (L : Loc) (p : LState → Expr → Prop) : Prop where
  mono : ∀ {st st' e}, st.Le st' → p st e → p st' e
  var : ∀ {n st st' t}, finishVar C n st = (st', .ok t) → p st' (.var n)
  call : ∀ {n args st st' s s' t}, L.isVar = false → n.finish st = (st', .ok ()) → st'.Le s →
    finishCallee C n args s = (s', .ok t) → p s' (.call n args)
  stringify : ∀ {n st st' t}, finishStringify n st = (st', .ok t) → p st' (.stringify n)
  cast : ∀ {ty x st}, p st (.cast ty x)
  lit : ∀ {l st}, (∃ s t, Lit.finish C s l = .ok t) → p st (.lit l)
  concat : ∀ {ps st}, p st (.concatStr ps)
  sizeOf : ∀ {t st}, p st (.sizeOf t)
  un : ∀ {op x st t t'}, unaryTy L op t = .ok t' → p st (.un op x)
  bin : ∀ {l op r st}, (op.isAssignment = true → l.asArg.isSome = true → st.exportAsMacro = true) → p st (.bin l op r)
  ternary : ∀ {c t u st}, p st (.ternary c t u)

/-- The invariant of a function like `finish`. -/
def Inv (p : LState → Expr → Prop) (f : Expr → LState → Fin Expr) : Prop :=
  ∀ e st, st.Le (f e st).st ∧ (∀ t, (f e st).res = .ok t → (f e st).tree.All (p (f e st).st))

section
variable {C : Ctx} {L : Loc} {p : LState → Expr → Prop}

theorem NodeInv.up (N : NodeInv C L p) {st st' : LState} (h : st.Le st') {e : Expr} (he : e.All (p st)) : e.All (p st') :=
  Expr.All.mono (fun _ => N.mono h) e he

theorem NodeInv.upL (N : NodeInv C L p) {st st' : LState} (h : st.Le st') {es : List Expr} (he : Expr.AllL (p st) es) :
    Expr.AllL (p st') es :=
  Expr.AllL.mono (fun _ => N.mono h) es he

theorem finishArgs_inv (N : NodeInv C L p) {f : Expr → LState → Fin Expr} (h : Inv p f) : ∀ (es : List Expr) (st : LState),
    st.Le (finishArgs f es st).2.1 ∧
      ((finishArgs f es st).2.2 = .ok () → Expr.AllL (p (finishArgs f es st).2.1) (finishArgs f es st).1)
  | [], st => ⟨.refl st, fun _ => trivial⟩
  | e :: es, st => by
    have he := h e st
    simp only [finishArgs]
    generalize f e st = R at *
    rcases R with ⟨x, s, r | r⟩
    · exact ⟨he.1, by simp⟩
    · have ih := finishArgs_inv N h es s
      simp only at he ⊢
      exact ⟨he.1.trans ih.1, fun hr => ⟨N.up ih.1 (he.2 _ rfl), ih.2 hr⟩⟩

theorem allL_flush (N : NodeInv C L p) (cur : Option (List UInt8)) (st : LState) : Expr.AllL (p st) (flush cur) := by
  cases cur with
  | none => exact trivial
  | some b => exact ⟨N.lit ⟨st, _, rfl⟩, trivial⟩

theorem finishParts_inv (N : NodeInv C L p) {f : Expr → LState → Fin Expr} (h : Inv p f) :
    ∀ (es : List Expr) (cur : Option (List UInt8)) (st : LState),
    st.Le (finishParts f es cur st).2.1 ∧
      ∀ new, (finishParts f es cur st).2.2 = .ok new → Expr.AllL (p (finishParts f es cur st).2.1) new
  | [], cur, st => ⟨.refl st, fun new hn => by
      simp only [finishParts] at hn
      cases hn; exact allL_flush N cur st⟩
  | e :: es, cur, st => by
    have he := h e st
    simp only [finishParts]
    generalize f e st = R at *
    rcases R with ⟨x, s, r | r⟩
    · exact ⟨he.1, by simp⟩
    · simp only at he ⊢
      split
      · split
        · exact ⟨he.1, by simp⟩
        · rename_i bs _
          have ih := finishParts_inv N h es (some (cur.getD [] ++ bs)) s
          generalize finishParts f es (some (cur.getD [] ++ bs)) s = R at *
          rcases R with ⟨q, s', r⟩
          exact ⟨he.1.trans ih.1, ih.2⟩
      · split
        · exact ⟨he.1, by simp⟩
        · have ih := finishParts_inv N h es none s
          generalize finishParts f es none s = R at *
          rcases R with ⟨q, s', r | r⟩
          · exact ⟨he.1.trans ih.1, by simp⟩
          · refine ⟨he.1.trans ih.1, fun new hn => ?_⟩
            cases hn
            exact (allL_flush N cur s').append ⟨N.up ih.1 (he.2 _ rfl), ih.2 r rfl⟩

theorem finishCondition_inv (N : NodeInv C L p) {f : Expr → LState → Fin Expr} (h : Inv p f) : Inv p (finishCondition f) := by
  intro e st
  have he := h e st
  simp only [finishCondition]
  generalize f e st = R at *
  rcases R with ⟨x, s, r | r⟩
  · exact ⟨he.1, by simp⟩
  · simp only at he ⊢
    split
    · exact ⟨he.1, fun _ _ => ⟨N.bin nofun, he.2 _ rfl, N.lit ⟨s, _, rfl⟩⟩⟩
    · exact ⟨he.1, fun _ _ => he.2 _ rfl⟩

theorem foldUnary_inv (N : NodeInv C L p) {op : UnOp} {x e : Expr} {t t' t'' : Option Ty} {st : LState}
    (ht : unaryTy L op t = .ok t') (h : foldUnary C op x t'' = .ok e) (hx : x.All (p st)) : e.All (p st) := by
  unfold foldUnary at h
  split at h
  all_goals first
    | (cases h; first | exact N.lit ⟨st, _, rfl⟩ | exact ⟨N.un ht, hx⟩)
    | (split at h <;> (cases h; first | exact ⟨N.un ht, hx⟩ | refine ⟨N.bin nofun, hx, ?_⟩)
       unfold zeroOf; split <;> exact N.lit ⟨st, _, rfl⟩)
    | cases h

theorem adjustOperands_inv (N : NodeInv C L p) (op : BinOp) {l r : Expr} (lt rt : Option Ty) {st : LState}
    (hl : l.All (p st)) (hr : r.All (p st)) :
    (adjustOperands op l r lt rt).1.All (p st) ∧ (adjustOperands op l r lt rt).2.1.All (p st) := by
  unfold adjustOperands
  repeat' split
  all_goals first
    | exact ⟨hl, hr⟩ | exact ⟨N.lit ⟨st, _, rfl⟩, hr⟩ | exact ⟨hl, N.lit ⟨st, _, rfl⟩⟩ | exact ⟨⟨N.cast, hl⟩, hr⟩ | exact ⟨hl, N.cast, hr⟩

theorem finishStep_inv (N : NodeInv C L p) {f : Expr → LState → Fin Expr} (h : Inv p f) : Inv p (finishStep C L f) := by
  intro e st
  cases e with
  | var n =>
    have := finishVar_st C n st
    simp only [finishStep]
    rcases hv : finishVar C n st with ⟨s, r⟩
    rw [hv] at this
    exact ⟨this, fun t ht => N.var (t := t) (by rw [hv]; simpa using ht)⟩
  | stringify n =>
    have := finishStringify_st n st
    simp only [finishStep]
    rcases hv : finishStringify n st with ⟨s, r⟩
    rw [hv] at this
    exact ⟨this, fun t ht => N.stringify (t := t) (by rw [hv]; simpa using ht)⟩
  | sizeOf n =>
    have := n.finish_st C st
    simp only [finishStep]
    generalize n.finish C st = R at *
    rcases R with ⟨ty, s, r | r⟩
    · exact ⟨this, by simp⟩
    · exact ⟨this, fun _ _ => N.sizeOf⟩
  | lit l =>
    cases l with
    | char c =>
      simp only [finishStep]
      split
      · rename_i t ht
        exact ⟨.refl st, fun _ _ => ⟨N.cast, N.lit ⟨st, some t, by simp [Lit.finish, ht]⟩⟩⟩
      · exact ⟨.refl st, by simp⟩
    | _ => exact ⟨.refl st, fun t ht => N.lit ⟨st, t, ht⟩⟩
  | cast ty x =>
    have ht := ty.finish_st C st
    simp only [finishStep]
    generalize ty.finish C st = R at *
    rcases R with ⟨ty, s, r | r⟩
    · simp only at ht ⊢
      split
      · rename_i e _ hc
        exact ⟨ht.trans (h e s).1, (h e s).2⟩
      · exact ⟨ht, by simp⟩
    · simp only at ht ⊢
      have hx := h x s
      generalize f x s = R at *
      rcases R with ⟨x', s', r | r⟩
      · simp only at hx ⊢
        split
        · rename_i e _ hc
          exact ⟨(ht.trans hx.1).trans (h e s').1, (h e s').2⟩
        · exact ⟨ht.trans hx.1, by simp⟩
      · simp only at hx ⊢
        split
        · rename_i e hc
          exact ⟨(ht.trans hx.1).trans (h e s').1, (h e s').2⟩
        · split
          · exact ⟨(ht.trans hx.1).trans (h x' s').1, (h x' s').2⟩
          · exact ⟨ht.trans hx.1, fun _ _ => ⟨N.cast, hx.2 _ rfl⟩⟩
  | call name args =>
    simp only [finishStep]
    split
    · exact ⟨.refl st, by simp⟩
    · rename_i hv
      have hn := name.finish_st st
      rcases hnf : name.finish st with ⟨s, r | r⟩
      · rw [hnf] at hn
        exact ⟨hn, by simp⟩
      · rw [hnf] at hn
        simp only
        have ha := finishArgs_inv N h args s
        generalize finishArgs f args s = R at *
        rcases R with ⟨as, s', z | z⟩
        · exact ⟨hn.trans ha.1, by simp⟩
        · simp only at ha ⊢
          have hc := finishCallee_st C name as s'
          rcases hcf : finishCallee C name as s' with ⟨s2, r⟩
          rw [hcf] at hc
          exact ⟨(hn.trans ha.1).trans hc, fun _ hr =>
            ⟨N.call (by simpa using hv) hnf ha.1 (hcf.trans (by rw [← hr])), N.upL hc (ha.2 trivial)⟩⟩
  | concatStr parts =>
    simp only [finishStep]
    have := finishParts_inv N h parts none st
    generalize finishParts f parts none st = R at *
    rcases R with ⟨x, y, z | z⟩
    · exact ⟨this.1, by simp⟩
    · rcases z with _ | ⟨q, _ | ⟨q', l⟩⟩
      · exact ⟨this.1, fun _ _ => ⟨N.concat, trivial⟩⟩
      · exact ⟨this.1.trans (h q y).1, (h q y).2⟩
      · exact ⟨this.1, fun _ _ => ⟨N.concat, this.2 _ rfl⟩⟩
  | un op x =>
    simp only [finishStep]
    have hx := h x st
    generalize f x st = R at *
    rcases R with ⟨x', s, r | r⟩
    · exact ⟨hx.1, by simp⟩
    · simp only at hx ⊢
      split
      · exact ⟨hx.1, by simp⟩
      · rename_i ht
        split
        · exact ⟨hx.1, by simp⟩
        · rename_i he
          exact ⟨hx.1, fun _ _ => foldUnary_inv N ht he (hx.2 _ rfl)⟩
  | bin l op r =>
    simp only [finishStep]
    have hl := h l st
    generalize f l st = R at *
    rcases R with ⟨l', s, lt | lt⟩
    · exact ⟨hl.1, by simp⟩
    · simp only at hl ⊢
      have hr := h r s
      generalize f r s = R at *
      rcases R with ⟨r', s1, rt | rt⟩
      · exact ⟨hl.1.trans hr.1, by simp⟩
      · simp only at hr ⊢
        have hb := binaryEffects_st op l' r' s1
        have he := fun s2 => binaryEffects_assigns (op := op) (l := l') (r := r') (st := s1) (st' := s2)
        generalize binaryEffects op l' r' s1 = R at *
        rcases R with ⟨s2, x | x⟩
        · exact ⟨(hl.1.trans hr.1).trans hb, by simp⟩
        · simp only at hb ⊢
          have hst := (hl.1.trans hr.1).trans hb
          have ha := adjustOperands_inv N op lt rt (N.up (hr.1.trans hb) (hl.2 _ rfl)) (N.up hb (hr.2 _ rfl))
          have hl2 := adjustOperands_arg op l' r' lt rt
          generalize adjustOperands op l' r' lt rt = R at *
          rcases R with ⟨l2, r2, lt2, rt2⟩
          simp only at ha hl2 ⊢
          have hex := fun h1 h2 => he s2 rfl h1 (hl2 h2)
          split
          · exact ⟨hst, fun _ _ => ⟨N.bin hex, ha⟩⟩
          · split
            · exact ⟨hst, by simp⟩
            · rename_i e _
              exact ⟨hst.trans (h e s2).1, (h e s2).2⟩
            · exact ⟨hst, fun _ _ => ⟨N.bin hex, ha⟩⟩
  | ternary c t u =>
    simp only [finishStep]
    have hc := finishCondition_inv N h c st
    generalize finishCondition f c st = R at *
    rcases R with ⟨c', s, x | x⟩
    · exact ⟨hc.1, by simp⟩
    · simp only at hc ⊢
      have ht := h t s
      generalize f t s = R at *
      rcases R with ⟨t', s1, x | x⟩
      · exact ⟨hc.1.trans ht.1, by simp⟩
      · simp only at ht ⊢
        have hu := h u s1
        generalize f u s1 = R at *
        rcases R with ⟨u', s2, x | x⟩
        · exact ⟨(hc.1.trans ht.1).trans hu.1, by simp⟩
        · exact ⟨(hc.1.trans ht.1).trans hu.1, fun _ _ => ⟨N.ternary, N.up (ht.1.trans hu.1) (hc.2 _ rfl),
            N.up hu.1 (ht.2 _ rfl), hu.2 _ rfl⟩⟩

theorem Expr.finish_inv (N : NodeInv C L p) : ∀ n, Inv p (Expr.finish C L n)
  | 0 => fun e st => ⟨.refl st, by simp [Expr.finish]⟩
  | n + 1 => finishStep_inv N (Expr.finish_inv N n)

/-! ## Statements -/

/-- `p` holds for all expressions in an `asm`. -/
def Asm.All (p : Expr → Prop) (a : Asm) : Prop :=
  (∀ o ∈ a.outputs, o.2.2.All p) ∧ ∀ i ∈ a.inputs, i.2.All p

mutual
/-- `p` holds for all expressions in a statement. -/
def Stmt.All (p : Expr → Prop) : Stmt → Prop
  | .asm a => a.All p
  | .expr e => e.All p
  | .fnDecl _ => True
  | .varDecl d => d.rhs.All p
  | .block ss => Stmt.AllL p ss
  | .ite c t f => c.All p ∧ Stmt.AllL p t ∧ Stmt.AllL p f
  | .doWhile b c => Stmt.AllL p b ∧ c.All p
/-- `p` holds for all expressions in the statements. -/
def Stmt.AllL (p : Expr → Prop) : List Stmt → Prop
  | [] => True
  | s :: ss => s.All p ∧ Stmt.AllL p ss
end

/-- `p` holds for all expressions in the body. -/
def MacroBody.All (p : Expr → Prop) : MacroBody → Prop
  | .stmt s => s.All p
  | .expr e => e.All p

mutual
theorem Stmt.All.mono {p q : Expr → Prop} (h : ∀ e, p e → q e) : ∀ s : Stmt, s.All p → s.All q
  | .asm a, hp => ⟨fun o ho => Expr.All.mono h _ (hp.1 o ho), fun o ho => Expr.All.mono h _ (hp.2 o ho)⟩
  | .expr e, hp => Expr.All.mono h e hp
  | .fnDecl _, _ => trivial
  | .varDecl d, hp => Expr.All.mono h d.rhs hp
  | .block ss, hp => Stmt.AllL.mono h ss hp
  | .ite c t f, hp => ⟨Expr.All.mono h c hp.1, Stmt.AllL.mono h t hp.2.1, Stmt.AllL.mono h f hp.2.2⟩
  | .doWhile b c, hp => ⟨Stmt.AllL.mono h b hp.1, Expr.All.mono h c hp.2⟩
theorem Stmt.AllL.mono {p q : Expr → Prop} (h : ∀ e, p e → q e) : ∀ s : List Stmt, Stmt.AllL p s → Stmt.AllL q s
  | [], _ => trivial
  | s :: ss, hp => ⟨Stmt.All.mono h s hp.1, Stmt.AllL.mono h ss hp.2⟩
end

theorem finishOutputs_inv (N : NodeInv C L p) {f : Expr → LState → Fin Expr} (h : Inv p f) :
    ∀ (es : List (Dir × RegConstraint × Expr)) (st : LState), st.Le (finishOutputs f es st).2.1 ∧
      ((finishOutputs f es st).2.2 = .ok () →
        ∀ o ∈ (finishOutputs f es st).1, o.2.2.All (p (finishOutputs f es st).2.1))
  | [], st => ⟨.refl st, fun _ => by simp [finishOutputs]⟩
  | (d, c, e) :: es, st => by
    have he := h e st
    simp only [finishOutputs]
    generalize f e st = R at *
    rcases R with ⟨x, s, r | r⟩
    · exact ⟨he.1, by simp⟩
    · have ih := finishOutputs_inv N h es s
      simp only at he ⊢
      refine ⟨he.1.trans ih.1, fun hr o ho => ?_⟩
      rcases List.mem_cons.1 ho with rfl | ho
      · exact N.up ih.1 (he.2 _ rfl)
      · exact ih.2 hr o ho

theorem finishInputs_inv (N : NodeInv C L p) {f : Expr → LState → Fin Expr} (h : Inv p f) :
    ∀ (es : List (RegConstraint × Expr)) (st : LState), st.Le (finishInputs f es st).2.1 ∧
      ((finishInputs f es st).2.2 = .ok () →
        ∀ o ∈ (finishInputs f es st).1, o.2.All (p (finishInputs f es st).2.1))
  | [], st => ⟨.refl st, fun _ => by simp [finishInputs]⟩
  | (c, e) :: es, st => by
    have he := h e st
    simp only [finishInputs]
    generalize f e st = R at *
    rcases R with ⟨x, s, r | r⟩
    · exact ⟨he.1, by simp⟩
    · have ih := finishInputs_inv N h es s
      simp only at he ⊢
      refine ⟨he.1.trans ih.1, fun hr o ho => ?_⟩
      rcases List.mem_cons.1 ho with rfl | ho
      · exact N.up ih.1 (he.2 _ rfl)
      · exact ih.2 hr o ho

theorem Asm.finish_inv (N : NodeInv C L p) {f : Expr → LState → Fin Expr} (h : Inv p f) (a : Asm) (st : LState) :
    st.Le (a.finish f st).2.1 ∧ ((a.finish f st).2.2 = .ok () → (a.finish f st).1.All (p (a.finish f st).2.1)) := by
  have ho := finishOutputs_inv N h a.outputs st
  simp only [Asm.finish]
  generalize finishOutputs f a.outputs st = R at *
  rcases R with ⟨os, s, r | r⟩
  · exact ⟨ho.1, by simp⟩
  · simp only at ho ⊢
    have hi := finishInputs_inv N h a.inputs s
    generalize finishInputs f a.inputs s = R at *
    rcases R with ⟨is, s', r | r⟩
    · exact ⟨ho.1.trans hi.1, by simp⟩
    · simp only at hi ⊢
      have hs : s'.Le (if a.isGlobal then s'.export else s') := by
        split
        · exact LState.le_export s'
        · exact .refl s'
      exact ⟨(ho.1.trans hi.1).trans hs, fun _ =>
        ⟨fun o hm => N.up (hi.1.trans hs) (ho.2 trivial o hm), fun o hm => N.up hs (hi.2 trivial o hm)⟩⟩

theorem finishDeclArgs_st (C : Ctx) : ∀ (as : List (Ty × IdentExpr)) (st : LState), st.Le (finishDeclArgs C as st).2.1
  | [], st => .refl st
  | (t, n) :: as, st => by
    have ht := Ty.finish_st C t st
    simp only [finishDeclArgs]
    generalize t.finish C st = R at *
    rcases R with ⟨t', s, r | r⟩
    · exact ht
    · exact ht.trans (finishDeclArgs_st C as s)

theorem FunctionDecl.finish_st (C : Ctx) (d : FunctionDecl) (st : LState) : st.Le (d.finish C st).2.1 := by
  unfold FunctionDecl.finish
  have ht := Ty.finish_st C d.retTy st
  generalize d.retTy.finish C st = R at *
  rcases R with ⟨t', s, r | r⟩
  · exact ht
  · simp only at ht ⊢
    split
    · rename_i s' x hx
      split at hx
      · split at hx <;> cases hx
        exact ht
      · cases hx
    · rename_i s' hx
      refine LState.Le.trans ?_ (finishDeclArgs_st C d.args s')
      split at hx
      · split at hx <;> cases hx
        exact ht.trans (LState.le_setArg (by assumption) (ArgTy.le_ident _))
      · cases hx
        exact ht

theorem VarDecl.finish_inv {f : Expr → LState → Fin Expr} (h : Inv p f) (d : VarDecl) (st : LState) :
    st.Le (d.finish C f st).2.1 ∧
      ((d.finish C f st).2.2 = .ok () → (d.finish C f st).1.rhs.All (p (d.finish C f st).2.1)) := by
  have ht := Ty.finish_st C d.ty st
  simp only [VarDecl.finish]
  generalize d.ty.finish C st = R at *
  rcases R with ⟨t, s, r | r⟩
  · exact ⟨ht, by simp⟩
  · simp only at ht ⊢
    have hn := d.name.finish_st s
    generalize d.name.finish s = R at *
    rcases R with ⟨s', r | r⟩
    · exact ⟨ht.trans hn, by simp⟩
    · simp only at hn ⊢
      have he := h d.rhs s'
      generalize f d.rhs s' = R at *
      rcases R with ⟨x, s2, z | z⟩
      · exact ⟨(ht.trans hn).trans he.1, by simp⟩
      · exact ⟨(ht.trans hn).trans he.1, fun _ => he.2 _ rfl⟩

mutual
theorem Stmt.finish_inv (N : NodeInv C L p) {f : Expr → LState → Fin Expr} (h : Inv p f) : ∀ (s : Stmt) (st : LState),
    st.Le (s.finish C f st).2.1 ∧ ((s.finish C f st).2.2 = .ok () → (s.finish C f st).1.All (p (s.finish C f st).2.1))
  | .asm a, st => by
    have := a.finish_inv N h st
    simpa only [Stmt.finish, Stmt.All] using this
  | .expr e, st => by
    have he := h e st
    simp only [Stmt.finish]
    generalize f e st = R at *
    rcases R with ⟨x, s, r | r⟩
    · exact ⟨he.1, by simp⟩
    · exact ⟨he.1, fun _ => he.2 _ rfl⟩
  | .fnDecl d, st => by
    have := d.finish_st C st
    simp only [Stmt.finish]
    exact ⟨this, fun _ => trivial⟩
  | .varDecl d, st => by
    have := d.finish_inv (C := C) h st
    simpa only [Stmt.finish, Stmt.All] using this
  | .block ss, st => by
    have := Stmt.finishL_inv N h ss st
    simpa only [Stmt.finish, Stmt.All] using this
  | .ite c t u, st => by
    simp only [Stmt.finish]
    have hc := finishCondition_inv N h c st
    generalize finishCondition f c st = R at *
    rcases R with ⟨c', s, x | x⟩
    · exact ⟨hc.1, by simp⟩
    · simp only at hc ⊢
      have ht := Stmt.finishL_inv N h t s
      generalize Stmt.finishL C f t s = R at *
      rcases R with ⟨t', s1, y | y⟩
      · exact ⟨hc.1.trans ht.1, by simp⟩
      · simp only at ht ⊢
        have hu := Stmt.finishL_inv N h u s1
        generalize Stmt.finishL C f u s1 = R at *
        rcases R with ⟨u', s2, z⟩
        exact ⟨(hc.1.trans ht.1).trans hu.1, fun hz => ⟨N.up (ht.1.trans hu.1) (hc.2 _ rfl),
          Stmt.AllL.mono (fun _ => N.mono hu.1) _ (ht.2 trivial), hu.2 hz⟩⟩
  | .doWhile b c, st => by
    simp only [Stmt.finish]
    have ht := Stmt.finishL_inv N h b st
    generalize Stmt.finishL C f b st = R at *
    rcases R with ⟨t', s1, y | y⟩
    · exact ⟨ht.1, by simp⟩
    · simp only at ht ⊢
      have hc := finishCondition_inv N h c s1
      generalize finishCondition f c s1 = R at *
      rcases R with ⟨c', s, x | x⟩
      · exact ⟨ht.1.trans hc.1, by simp⟩
      · exact ⟨ht.1.trans hc.1, fun _ => ⟨Stmt.AllL.mono (fun _ => N.mono hc.1) _ (ht.2 trivial), hc.2 _ rfl⟩⟩
theorem Stmt.finishL_inv (N : NodeInv C L p) {f : Expr → LState → Fin Expr} (h : Inv p f) : ∀ (s : List Stmt) (st : LState),
    st.Le (Stmt.finishL C f s st).2.1 ∧
      ((Stmt.finishL C f s st).2.2 = .ok () → Stmt.AllL (p (Stmt.finishL C f s st).2.1) (Stmt.finishL C f s st).1)
  | [], st => ⟨.refl st, fun _ => trivial⟩
  | s :: ss, st => by
    simp only [Stmt.finishL]
    have hs := Stmt.finish_inv N h s st
    generalize Stmt.finish C f s st = R at *
    rcases R with ⟨s', s1, y | y⟩
    · exact ⟨hs.1, by simp⟩
    · simp only at hs ⊢
      have hr := Stmt.finishL_inv N h ss s1
      generalize Stmt.finishL C f ss s1 = R at *
      rcases R with ⟨ss', s2, z⟩
      exact ⟨hs.1.trans hr.1, fun hz => ⟨Stmt.All.mono (fun _ => N.mono hr.1) _ (hs.2 trivial), hr.2 hz⟩⟩
end

theorem MacroBody.finish_inv (N : NodeInv C L p) {f : Expr → LState → Fin Expr} (h : Inv p f) (b : MacroBody) (st : LState) :
    st.Le (b.finish C f st).st ∧ ∀ t, (b.finish C f st).res = .ok t → (b.finish C f st).tree.All (p (b.finish C f st).st) := by
  cases b with
  | stmt s =>
    simp only [MacroBody.finish]
    have hs := Stmt.finish_inv N h s st
    generalize Stmt.finish C f s st = R at *
    rcases R with ⟨s', s1, y | y⟩
    · exact ⟨hs.1, by simp⟩
    · exact ⟨hs.1, fun _ _ => hs.2 rfl⟩
  | expr e => exact h e st

end

end CMacro
