import Verif.Proofs.ConstCast
import Verif.Spec.RustTypes

/-! # The type that `finish` finds is the type of the printed expression -/

namespace CMacro
open Spec

theorem int_noFloat {pre : Option RPath} {τ : List RTok} (h : IntText pre τ) : ¬ FloatText τ := by
  have key : ∀ x : Str, τ.getLast? = some (.id x) → FloatText τ → x = c!"f32" ∨ x = c!"f64" := by
    rintro x hx (rfl | rfl)
    · simp at hx; exact .inl hx.symm
    · simp at hx; exact .inr hx.symm
  rcases h with ⟨x, hx, h⟩ | ⟨x, hx, h⟩
  · intro hf
    have h1 : τ.getLast? = some (.id x) := by rw [h]; unfold ffiText; simp
    rcases key x h1 hf with rfl | rfl <;> exact absurd hx (by decide)
  · intro hf
    have h1 : τ.getLast? = some (.id x) := by rw [h]; simp
    rcases key x h1 hf with rfl | rfl <;> exact absurd hx (by decide)

theorem bool_noFloat : ¬ FloatText boolText := by rintro (h | h) <;> exact absurd h (by decide)

section
variable {Fin : LitFloat → Prop} {pre : Option RPath} {Γ : List RTok → Option (List RTok)}

/-- What the type of a binary operation says of its operands. -/
theorem bin_type {op : BinOp} {o : Str} {l r : RExpr} {τ : List RTok} (ho : rustOp op = some o)
    (h : HasType Fin pre Γ (.bin o l r) τ) :
    (op.isBool = true → τ = boolText) ∧
    (op ∈ plainOps → op.isBool = false → HasType Fin pre Γ l τ ∧ HasType Fin pre Γ r τ ∧
      ∀ k, FloatText τ → FloatText k → HasType Fin pre Γ l k → HasType Fin pre Γ r k → HasType Fin pre Γ (.bin o l r) k) ∧
    (op = .shl ∨ op = .shr → HasType Fin pre Γ l τ ∧ IntText pre τ) := by
  cases h with
  | arith hm hk hl hr =>
    refine ⟨?_, fun _ _ => ⟨hl, hr, fun k _ hk' h1 h2 => .arith hm (.inr hk') h1 h2⟩, ?_⟩
    · cases op <;> first | (cases ho; done) | (cases ho; intro h; cases h; done) | (cases ho; exact absurd hm (by decide))
    · rintro (rfl | rfl) <;> (cases ho; exact absurd hm (by decide))
  | bits hm hk hl hr =>
    refine ⟨?_, fun _ _ => ⟨hl, hr, fun k h => ?_⟩, ?_⟩
    · cases op <;> first | (cases ho; done) | (cases ho; intro h; cases h; done) | (cases ho; exact absurd hm (by decide))
    · rcases hk with hk | rfl
      · exact absurd h (int_noFloat hk)
      · exact absurd h bool_noFloat
    · rintro (rfl | rfl) <;> (cases ho; exact absurd hm (by decide))
  | shift hm hk hs hl hr =>
    refine ⟨?_, fun h _ => ?_, fun _ => ⟨hl, hk⟩⟩
    · cases op <;> first | (cases ho; done) | (cases ho; intro h; cases h; done) | (cases ho; exact absurd hm (by decide))
    · cases op <;> first | (cases ho; done) | (cases ho; exact absurd hm (by decide)) | (exact absurd h (by decide))
  | compare hm hk hl hr =>
    refine ⟨fun _ => rfl, fun _ h => ?_, ?_⟩
    · cases op <;> first | (cases ho; done) | (cases h; done) | (cases ho; exact absurd hm (by decide))
    · rintro (rfl | rfl) <;> (cases ho; exact absurd hm (by decide))
  | logic hm hl hr =>
    refine ⟨fun _ => rfl, fun _ h => ?_, ?_⟩
    · cases op <;> first | (cases ho; done) | (cases h; done) | (cases ho; exact absurd hm (by decide))
    · rintro (rfl | rfl) <;> (cases ho; exact absurd hm (by decide))

end

/-- What is known of a finished expression: it keeps its shape, all its floating types can be `k`, and the type found for it is
its type in Rust. -/
structure TypeSound (Fin : LitFloat → Prop) (P : PCtx) (Γ : List RTok → Option (List RTok)) (k : List RTok) (e e' : Expr) (ty : Option Ty) : Prop where
  ends : endsCast e' = endsCast e
  cast : isCast e' = isCast e
  begins : beginsBlock e' = beginsBlock e
  tern : isBlockLike e' = isBlockLike e
  maxTy : maxTyCast e' = none
  sep : Separated e'
  cond : isCondition e = true → ty = some (.builtIn .bool) ∧ ∀ l, e' ≠ .lit l
  const : constant e = true → ty = none ∧ ∃ i, e' = .lit (.int i)
  lit : ∀ l, e' = .lit l → (∃ i, l = .int i ∧ ty = none) ∨ ∃ f, l = .float f ∧ floatText f = k ∧ ty = some f.ty
  tree : ∃ u, RustTree P e' u ∧ (∀ τ, HasType Fin P.C.ffiPrefix Γ u τ → FloatText τ → HasType Fin P.C.ffiPrefix Γ u k) ∧
    ∀ τ T, HasType Fin P.C.ffiPrefix Γ u τ → ty = some T → T.toks P = τ ∨ FloatText τ ∧ T.toks P = k

/-- The types of the parameters are known. -/
def KnownParams (P : PCtx) (st : LState) (Γ : List RTok → Option (List RTok)) (k : List RTok) : Prop :=
  P.asMacro = false ∧ ∀ i t, st.argTy i = some t → ∃ τ x, t = .known τ ∧ P.L.argNames[i]? = some x ∧ x ≠ c!"..." ∧ x ∉ rustKeywords ∧
    Γ [.id x] = some (τ.toks P) ∧ (FloatText (τ.toks P) → τ.toks P = k)

theorem floatTy_text (P : PCtx) (f : LitFloat) : f.ty.toks P = floatText f := by cases f <;> rfl

section
variable {Fin : LitFloat → Prop} {P : PCtx} {Γ : List RTok → Option (List RTok)} {k : List RTok} {L : Loc}

theorem sound_int (i : LitInt) (e : Expr) (hc : endsCast e = false ∧ isCast e = false ∧ beginsBlock e = false ∧ isBlockLike e = false ∧ isCondition e = false) :
    TypeSound Fin P Γ k e (.lit (.int i)) none := by
  refine ⟨hc.1.symm, hc.2.1.symm, hc.2.2.1.symm, hc.2.2.2.1.symm, rfl, trivial, fun h => ?_, fun _ => ⟨rfl, i, rfl⟩, ?_, _, .int, ?_, ?_⟩
  · rw [hc.2.2.2.2] at h; cases h
  · rintro l ⟨⟩; exact .inl ⟨i, rfl, rfl⟩
  · intro τ h hf
    unfold rInt at h
    split at h
    · cases h with
      | neg _ h =>
        cases h with
        | num h => exact absurd hf (int_noFloat h)
        | suffixed h => exact absurd h (by decide)
    · cases h with
      | num h => exact absurd hf (int_noFloat h)
      | suffixed h => exact absurd h (by decide)
  · intro τ T _ h; cases h

theorem sound_float (f : LitFloat) (hk : floatText f = k) (e : Expr) (hc : endsCast e = false ∧ isCast e = false ∧ beginsBlock e = false ∧ isBlockLike e = false ∧ isCondition e = false ∧ constant e = false) :
    TypeSound Fin P Γ k e (.lit (.float f)) (some f.ty) := by
  refine ⟨hc.1.symm, hc.2.1.symm, hc.2.2.1.symm, hc.2.2.2.1.symm, rfl, trivial, fun h => ?_, fun h => ?_, ?_, _, .float, ?_, ?_⟩
  · rw [hc.2.2.2.2.1] at h; cases h
  · rw [hc.2.2.2.2.2] at h; cases h
  · rintro l ⟨⟩; exact .inr ⟨f, rfl, hk, rfl⟩
  · intro τ h hf
    exact .float (.inl hk.symm)
  · rintro τ T h ⟨⟩
    rw [floatTy_text, hk]
    cases h with
    | float h =>
      rcases h with rfl | ⟨_, h⟩
      · exact .inl hk.symm
      · exact .inr ⟨h, rfl⟩


/-- The type of two operands is that of one of them. -/
theorem joinTy_or {a b : Option Ty} {T : Ty} (h : joinTy a b = some T) : a = some T ∨ b = some T := by
  unfold joinTy at h
  split at h
  · exact .inl h
  · split at h
    · exact .inl h
    · exact .inr h
    · cases h

theorem joinTy_ne {a b T : Ty} (h : joinTy (some a) (some b) = some T) : a = T ∧ b = T := by
  unfold joinTy at h
  split at h
  · next hab => injection h with h; injection hab with hab; exact ⟨h, hab ▸ h⟩
  · cases h

theorem finish_un {C : Ctx} {n : Nat} {op : UnOp} {x e' : Expr} {st st' : LState} {ty : Option Ty}
    (hf : Expr.finish C L n (.un op x) st = ⟨e', st', .ok ty⟩) :
    ∃ m x' tx, Expr.finish C L m x st = ⟨x', st', .ok tx⟩ ∧ unaryTy L op tx = .ok ty ∧ foldUnary C op x' ty = .ok e' := by
  cases n with
  | zero => cases hf
  | succ m =>
    rw [Expr.finish, finishStep] at hf
    cases hx : Expr.finish C L m x st with
    | mk x' sx res =>
      rw [hx] at hf
      cases res with
      | error => cases hf
      | ok tx =>
        dsimp only at hf
        cases hu : unaryTy L op tx with
        | error => rw [hu] at hf; cases hf
        | ok t =>
          rw [hu] at hf
          dsimp only at hf
          cases hfo : foldUnary C op x' t with
          | error => rw [hfo] at hf; cases hf
          | ok z =>
            rw [hfo] at hf
            injection hf with h1 h2 h3
            injection h3 with h3
            subst h1 h2 h3
            exact ⟨m, x', tx, hx, hu, hfo⟩

theorem finish_binary {C : Ctx} {n : Nat} {l r e' : Expr} {op : BinOp} {st st' : LState} {ty : Option Ty}
    (hop : pureOp op = true) (hf : Expr.finish C L n (.bin l op r) st = ⟨e', st', .ok ty⟩) :
    ∃ m l' r' sl sr lt rt l2 r2 lt2 rt2, Expr.finish C L m l st = ⟨l', sl, .ok lt⟩ ∧ Expr.finish C L m r sl = ⟨r', sr, .ok rt⟩ ∧
      adjustOperands op l' r' lt rt = (l2, r2, lt2, rt2) ∧
      ((∃ z, foldBinary op l2 r2 = some (.ok z) ∧ Expr.finish C L m z sr = ⟨e', st', .ok ty⟩) ∨
        foldBinary op l2 r2 = none ∧ e' = .bin l2 op r2 ∧ st' = sr ∧ ty = if op.isBool then some (.builtIn .bool) else joinTy lt2 rt2) := by
  cases n with
  | zero => cases hf
  | succ m =>
    rw [Expr.finish, finishStep] at hf
    cases hl : Expr.finish C L m l st with
    | mk l' sl resl =>
      rw [hl] at hf
      cases resl with
      | error => cases hf
      | ok lt =>
        dsimp only at hf
        cases hr : Expr.finish C L m r sl with
        | mk r' sr resr =>
          rw [hr] at hf
          cases resr with
          | error => cases hf
          | ok rt =>
            simp only [pureOp, Bool.and_eq_true, Bool.not_eq_true', decide_eq_false_iff_not] at hop
            have hbe : binaryEffects op l' r' sr = (sr, .ok ()) := by simp [binaryEffects, hop.2, hop.1]
            obtain ⟨l2, r2, lt2, rt2, ha⟩ : ∃ a b c d, adjustOperands op l' r' lt rt = (a, b, c, d) := ⟨_, _, _, _, rfl⟩
            refine ⟨m, l', r', sl, sr, lt, rt, l2, r2, lt2, rt2, hl, hr, ha, ?_⟩
            simp only [hbe, ha, if_neg hop.2] at hf
            cases hfo : foldBinary op l2 r2 with
            | none =>
              rw [hfo] at hf
              injection hf with h1 h2 h3
              injection h3 with h3
              exact .inr ⟨rfl, h1.symm, h2.symm, h3.symm⟩
            | some z =>
              cases z with
              | error => rw [hfo] at hf; cases hf
              | ok z => rw [hfo] at hf; exact .inl ⟨z, rfl, hf⟩

theorem finish_lit {C : Ctx} {n : Nat} {l : Lit} (hl : ∀ c, l ≠ .char c) {st st' : LState} {e' : Expr} {ty : Option Ty}
    (hf : Expr.finish C L n (.lit l) st = ⟨e', st', .ok ty⟩) : e' = .lit l ∧ st' = st ∧ l.finish C st = .ok ty := by
  cases n with
  | zero => cases hf
  | succ n =>
    rw [Expr.finish, finishStep] at hf
    · injection hf with h1 h2 h3
      exact ⟨h1.symm, h2.symm, h3⟩
    · rintro c ⟨⟩; exact hl c rfl

/-- What is tried first is never a cast to a named type. -/
theorem plain_noCast {C : Ctx} {e : Expr} (h : PlainTypes P k e) : ∀ n st x s y, (Expr.finish C L n e st).tree ≠ .cast (.ident x s) y := by
  induction h with
  | int => exact fun n st x s y => lit_noCast C L n _ (by rintro c ⟨⟩) _ _ y
  | float => exact fun n st x s y => lit_noCast C L n _ (by rintro c ⟨⟩) _ _ y
  | param =>
    intro n st x s y
    cases n with
    | zero => rintro ⟨⟩
    | succ n => rw [Expr.finish, finishStep]; rintro ⟨⟩
  | un => exact fun n st x s y => un_noCast C L n _ _ _ _ y
  | not => exact fun n st x s y => un_noCast C L n _ _ _ _ y
  | bin => exact fun n st x s y => bin_noCast C L n _ _ _ _ _ y
  | shift => exact fun n st x s y => bin_noCast C L n _ _ _ _ _ y
  | ternary => exact fun n st x s y => ternary_noCast C L n _ _ _ _ _ y
  | @cast b e _ _ _ _ ih =>
    intro n st x s y
    cases n with
    | zero => rintro ⟨⟩
    | succ n =>
      have hx := ih n st
      rw [Expr.finish, finishStep]
      simp only [Ty.finish]
      generalize Expr.finish C L n e st = R at *
      rcases R with ⟨z, sz, er | ok⟩
      · have hp : castAsProduct (.builtIn b) z = none := by
          unfold castAsProduct
          split
          · exact absurd rfl (hx _ _ _)
          · rfl
        dsimp only
        rw [hp]
        split <;> first | (rintro ⟨⟩; done) | (next h => cases h)
      · dsimp only
        simp only [castAsBinary, castOfString, Bool.false_eq_true, if_false]
        rintro ⟨⟩

theorem finish_cast {C : Ctx} {n : Nat} {b : BuiltInType} {x e' : Expr} {st st' : LState} {ty : Option Ty}
    (hn : ∀ m s y, (Expr.finish C L m x st).tree ≠ .cast (.ident s false) y)
    (hf : Expr.finish C L n (.cast (.builtIn b) x) st = ⟨e', st', .ok ty⟩) :
    ∃ m x' tx, Expr.finish C L m x st = ⟨x', st', .ok tx⟩ ∧ e' = .cast (.builtIn b) x' ∧ ty = some (.builtIn b) := by
  cases n with
  | zero => cases hf
  | succ m =>
    rw [Expr.finish, finishStep] at hf
    simp only [Ty.finish] at hf
    cases ex : Expr.finish C L m x st with
    | mk y s res =>
      rw [ex] at hf
      have hn := hn m
      rw [ex] at hn
      cases res with
      | error e =>
        have hcp : castAsProduct (.builtIn b) y = none := by
          unfold castAsProduct
          split
          · exact absurd rfl (hn _ _)
          · rfl
        dsimp only at hf
        rw [hcp] at hf
        split at hf
        · next h => cases h
        · injection hf with _ _ hf; cases hf
      | ok t =>
        dsimp only at hf
        simp only [castAsBinary, castOfString, Bool.false_eq_true, if_false] at hf
        injection hf with h1 h2 h3
        injection h3 with h3
        subst h1 h2 h3
        exact ⟨m, y, t, ex, rfl, rfl⟩

/-- A prefix operator that is kept. -/
theorem sound_un {op : UnOp} {x x' : Expr} {tx ty : Option Ty} (hk : FloatText k) (ho : op = .minus ∨ op = .comp ∨ op = .not)
    (h : TypeSound Fin P Γ k x x' tx) (hc : constant (.un op x) = false) (hcond : isCondition (.un op x) = true → ty = some (.builtIn .bool))
    (hty : ty = tx) : TypeSound Fin P Γ k (.un op x) (.un op x') ty := by
  obtain ⟨o, hro, hoo⟩ : ∃ o, rustPrefix op = some o ∧ (o = c!"-" ∨ o = c!"!") := by
    rcases ho with rfl | rfl | rfl
    · exact ⟨_, rfl, .inl rfl⟩
    · exact ⟨_, rfl, .inr rfl⟩
    · exact ⟨_, rfl, .inr rfl⟩
  obtain ⟨u, h1, h2, h3⟩ := h.tree
  have inv : ∀ τ, HasType Fin P.C.ffiPrefix Γ (.un o u) τ → HasType Fin P.C.ffiPrefix Γ u τ ∧
      (FloatText τ → HasType Fin P.C.ffiPrefix Γ u k → HasType Fin P.C.ffiPrefix Γ (.un o u) k) := by
    intro τ h
    cases h with
    | neg _ h => exact ⟨h, fun _ h => .neg (.inr hk) h⟩
    | not hi h => exact ⟨h, fun hf => by
        rcases hi with hi | rfl
        · exact absurd hf (int_noFloat hi)
        · exact absurd hf bool_noFloat⟩
  refine ⟨rfl, rfl, rfl, rfl, rfl, ⟨fun hd => ?_, h.sep⟩, fun h => ⟨hcond h, by rintro l ⟨⟩⟩, fun h => ?_, by rintro l ⟨⟩, _, .un hro h1, ?_, ?_⟩
  · subst hd; rcases ho with h | h | h <;> cases h
  · rw [hc] at h; cases h
  · intro τ h hf
    exact (inv τ h).2 hf (h2 τ (inv τ h).1 hf)
  · intro τ T h hT
    exact h3 τ T (inv τ h).1 (hty ▸ hT)

end

section
variable {Fin : LitFloat → Prop} {P : PCtx} {Γ : List RTok → Option (List RTok)} {k : List RTok} {L : Loc}

/-- The two ways in which the operands are prepared. -/
theorem adjust_cases {op : BinOp} {l r l2 r2 : Expr} {lt rt lt2 rt2 : Option Ty} (hl : maxTyCast l = none) (hr : maxTyCast r = none)
    (h : adjustOperands op l r lt rt = (l2, r2, lt2, rt2)) :
    (l2 = l ∧ r2 = r ∧ lt2 = lt ∧ rt2 = rt) ∨
    (∃ v f, l = .lit (.int ⟨v, none⟩) ∧ r = .lit (.float f) ∧ l2 = .lit (.float (intAsFloat v)) ∧ r2 = r ∧
      lt2 = some (.builtIn .float) ∧ rt2 = rt) ∨
    (∃ v f, l = .lit (.float f) ∧ r = .lit (.int ⟨v, none⟩) ∧ l2 = l ∧ r2 = .lit (.float (intAsFloat v)) ∧
      lt2 = lt ∧ rt2 = some (.builtIn .float)) := by
  unfold adjustOperands at h
  split at h
  · cases h; exact .inr (.inl ⟨_, _, rfl, rfl, rfl, rfl, rfl, rfl⟩)
  · cases h; exact .inr (.inr ⟨_, _, rfl, rfl, rfl, rfl, rfl, rfl⟩)
  · rw [hl] at h
    split at h <;> (cases h; exact .inl ⟨rfl, rfl, rfl, rfl⟩)
  · rw [hr] at h
    split at h <;> (cases h; exact .inl ⟨rfl, rfl, rfl, rfl⟩)
  · cases h; exact .inl ⟨rfl, rfl, rfl, rfl⟩

theorem floatText_is (f : LitFloat) : FloatText (floatText f) := by cases f <;> first | exact .inl rfl | exact .inr rfl

theorem floatText_op (op : BinOp) (a b : LitFloat) : floatText (LitFloat.op op a b)
    = if floatText a = [.id c!"f32"] ∧ floatText b = [.id c!"f32"] then [.id c!"f32"] else [.id c!"f64"] := by
  cases a <;> cases b <;> rfl

/-- The type of a floating literal is a floating type. -/
theorem float_type {pre : Option RPath} {f : LitFloat} {τ : List RTok} (h : HasType Fin pre Γ (.float f) τ) : FloatText τ := by
  cases h with
  | float h => rcases h with rfl | h
               · exact floatText_is f
               · exact h.2

/-- Folding gives a literal of the right type. -/
theorem sound_folded {e : Expr} {op : BinOp} {l2 r2 z e' : Expr} {C : Ctx} {n : Nat} {st st' : LState} {ty : Option Ty}
    (hz : foldBinary op l2 r2 = some (.ok z)) (hf : Expr.finish C L n z st = ⟨e', st', .ok ty⟩)
    (hfl : ∀ a b, l2 = .lit (.float a) → r2 = .lit (.float b) → constant e = false ∧ floatText (LitFloat.op op a b) = k)
    (hc : endsCast e = false ∧ isCast e = false ∧ beginsBlock e = false ∧ isBlockLike e = false ∧ isCondition e = false) :
    st' = st ∧ TypeSound Fin P Γ k e e' ty := by
  unfold foldBinary at hz
  split at hz
  · split at hz
    · split at hz
      · cases hz
        obtain ⟨rfl, rfl, h⟩ := finish_lit (by rintro c ⟨⟩) hf
        injection h with h
        subst h
        exact ⟨rfl, sound_int _ e hc⟩
      · cases hz
    · cases hz
  · next a b =>
    split at hz
    · cases hz
      obtain ⟨rfl, rfl, h⟩ := finish_lit (by rintro c ⟨⟩) hf
      injection h with h
      subst h
      obtain ⟨h1, h2⟩ := hfl a b rfl rfl
      exact ⟨rfl, sound_float _ h2 e ⟨hc.1, hc.2.1, hc.2.2.1, hc.2.2.2.1, hc.2.2.2.2, h1⟩⟩
    · cases hz
  · cases hz

theorem folds_noCond {op : BinOp} {l2 r2 l r : Expr} {z : CgRes Expr} (h : foldBinary op l2 r2 = some z) : isCondition (.bin l op r) = false := by
  unfold foldBinary at h
  split at h
  · split at h
    · next h' => cases op <;> first | rfl | cases h'
    · cases h
  · split at h
    · next h' => cases op <;> first | rfl | cases h'
    · cases h
  · cases h

theorem folds_lits {op : BinOp} {l r : Expr} {z : CgRes Expr} (h : foldBinary op l r = some z) : (∃ a, l = .lit a) ∧ ∃ b, r = .lit b := by
  unfold foldBinary at h
  split at h
  · exact ⟨⟨_, rfl⟩, _, rfl⟩
  · exact ⟨⟨_, rfl⟩, _, rfl⟩
  · cases h

theorem constant_folds {op : BinOp} {l r : Expr} (h : constant (.bin l op r) = true) :
    op.foldsInt = true ∧ constant l = true ∧ constant r = true := by
  simp only [constant, Bool.and_eq_true] at h
  refine ⟨?_, h.1.2, h.2⟩
  have := h.1.1
  cases op <;> first | rfl | (simp [arithmetic] at this)

/-- A binary operator. -/
theorem sound_bin {C : Ctx} {n : Nat} {l r e' : Expr} {op : BinOp} {st st' : LState} {ty : Option Ty} (hk : FloatText k)
    (hFin : ∀ v, Fin (intAsFloat v))
    (hop : op ∈ plainOps ∨ (op = .shl ∨ op = .shr) ∧ constant r = true) (hs : Separated (.bin l op r))
    (hf : Expr.finish C L n (.bin l op r) st = ⟨e', st', .ok ty⟩)
    (ihl : ∀ {m e' st' ty}, Expr.finish C L m l st = ⟨e', st', .ok ty⟩ → st' = st ∧ TypeSound Fin P Γ k l e' ty)
    (ihr : ∀ {m e' st' ty}, Expr.finish C L m r st = ⟨e', st', .ok ty⟩ → st' = st ∧ TypeSound Fin P Γ k r e' ty) :
    st' = st ∧ TypeSound Fin P Γ k (.bin l op r) e' ty := by
  have hpure : pureOp op = true := by
    rcases hop with h | ⟨rfl | rfl, _⟩
    · cases op <;> first | rfl | exact absurd h (by decide)
    · rfl
    · rfl
  obtain ⟨o, ho⟩ : ∃ o, rustOp op = some o := by
    rcases hop with h | ⟨rfl | rfl, _⟩
    · cases op <;> first | exact ⟨_, rfl⟩ | exact absurd h (by decide)
    · exact ⟨_, rfl⟩
    · exact ⟨_, rfl⟩
  obtain ⟨m, l', r', sl, sr, lt, rt, l2, r2, lt2, rt2, hl, hr, ha, hz⟩ := finish_binary hpure hf
  obtain ⟨rfl, sL⟩ := ihl hl
  obtain ⟨rfl, sR⟩ := ihr hr
  have hadj := adjust_cases sL.maxTy sR.maxTy ha
  -- the constants are integers
  have noConst : ∀ f, l' = .lit (.float f) ∨ r' = .lit (.float f) → constant (.bin l op r) = false := by
    intro f h
    cases hc : constant (.bin l op r) with
    | false => rfl
    | true =>
      obtain ⟨_, h1, h2⟩ := constant_folds hc
      obtain ⟨i, h1⟩ := (sL.const h1).2
      obtain ⟨j, h2⟩ := (sR.const h2).2
      rcases h with h | h
      · rw [h1] at h; cases h
      · rw [h2] at h; cases h
  have isK : ∀ f, l' = .lit (.float f) ∨ r' = .lit (.float f) → floatText f = k := by
    rintro f (h | h)
    · rcases sL.lit _ h with ⟨i, hi, _⟩ | ⟨g, hg, h, _⟩
      · cases hi
      · cases hg; exact h
    · rcases sR.lit _ h with ⟨i, hi, _⟩ | ⟨g, hg, h, _⟩
      · cases hi
      · cases hg; exact h
  rcases hz with ⟨z, hz, hfz⟩ | ⟨hz, rfl, rfl, hty⟩
  · have hc : endsCast (.bin l op r) = false ∧ isCast (.bin l op r) = false ∧ beginsBlock (.bin l op r) = false ∧
        isBlockLike (.bin l op r) = false ∧ isCondition (.bin l op r) = false := by
      have hlits : (∃ a, l' = .lit a) ∧ ∃ b, r' = .lit b := by
        rcases hadj with ⟨rfl, rfl, _⟩ | ⟨v, f, rfl, rfl, _⟩ | ⟨v, f, rfl, rfl, _⟩
        · exact folds_lits hz
        · exact ⟨⟨_, rfl⟩, _, rfl⟩
        · exact ⟨⟨_, rfl⟩, _, rfl⟩
      obtain ⟨⟨a, rfl⟩, b, rfl⟩ := hlits
      exact ⟨by rw [endsCast, ← sR.ends]; rfl, rfl, by rw [beginsBlock, ← sL.begins, rustOp_noBlock ho]; rfl,
        by rw [isBlockLike, rustOp_noBlock ho], folds_noCond hz⟩
    refine sound_folded hz hfz ?_ hc
    intro a b hla hrb
    rw [floatText_op]
    have h32 : ∀ v, floatText (intAsFloat v) = [.id c!"f32"] := fun v => rfl
    rcases hadj with ⟨rfl, rfl, _⟩ | ⟨v, f, h1, h2, rfl, rfl, _⟩ | ⟨v, f, h1, h2, rfl, rfl, _⟩
    · refine ⟨noConst a (.inl hla), ?_⟩
      rw [isK a (.inl hla), isK b (.inr hrb)]
      rcases hk with rfl | rfl <;> decide
    · cases hla
      refine ⟨noConst b (.inr hrb), ?_⟩
      rw [h32, isK b (.inr hrb)]
      rcases hk with rfl | rfl <;> decide
    · cases hrb
      refine ⟨noConst a (.inl hla), ?_⟩
      rw [h32, isK a (.inl hla)]
      rcases hk with rfl | rfl <;> decide
  · refine ⟨rfl, ?_⟩
    have hcond : isCondition (.bin l op r) = true → ty = some (.builtIn .bool) := by
      intro h
      rw [hty, if_pos]
      cases op <;> first | rfl | cases h
    -- operands of the types of C that are kept
    rcases hadj with ⟨rfl, rfl, rfl, rfl⟩ | hfl
    · have hconst : constant (.bin l op r) = false := by
        cases hc : constant (.bin l op r) with
        | false => rfl
        | true =>
          obtain ⟨h0, h1, h2⟩ := constant_folds hc
          obtain ⟨i, rfl⟩ := (sL.const h1).2
          obtain ⟨j, rfl⟩ := (sR.const h2).2
          simp only [foldBinary, h0, if_true] at hz
          split at hz <;> cases hz
      obtain ⟨u, u1, u2, u3⟩ := sL.tree
      obtain ⟨w, w1, w2, w3⟩ := sR.tree
      refine ⟨by rw [endsCast, endsCast, sR.ends], rfl, by rw [beginsBlock, beginsBlock, sL.begins], rfl, rfl, ?_,
        fun h => ⟨hcond h, by rintro l ⟨⟩⟩, fun h => (by rw [hconst] at h; cases h), by rintro l ⟨⟩, _, .bin ho u1 w1, ?_, ?_⟩
      · obtain ⟨s1, s2, s3, _, _⟩ := hs
        refine ⟨fun h => by rw [sL.ends]; exact s1 h, fun h h' => by rw [sL.cast]; rw [sL.ends] at h'; exact s2 h h', fun h => ?_, sL.sep, sR.sep⟩
        subst h
        cases hpure
      · intro τ h hft
        obtain ⟨b1, b2, b3⟩ := bin_type ho h
        rcases hop with hop | ⟨hop, _⟩
        · cases hb : op.isBool with
          | true => rw [b1 hb] at hft; exact absurd hft bool_noFloat
          | false =>
            obtain ⟨c1, c2, c3⟩ := b2 hop hb
            exact c3 k hft hk (u2 τ c1 hft) (w2 τ c2 hft)
        · exact absurd hft (int_noFloat (b3 hop).2)
      · intro τ T h hT
        obtain ⟨b1, b2, b3⟩ := bin_type ho h
        rw [hty] at hT
        cases hb : op.isBool with
        | true =>
          rw [if_pos hb] at hT
          cases hT
          exact .inl (b1 hb).symm
        | false =>
          rw [hb] at hT
          rcases hop with hop | ⟨hop, hcr⟩
          · obtain ⟨c1, c2, _⟩ := b2 hop hb
            rcases joinTy_or hT with hT | hT
            · exact u3 τ T c1 hT
            · exact w3 τ T c2 hT
          · have hT : joinTy lt2 rt2 = some T := hT
            rw [(sR.const hcr).1, (joinTy_none _).1] at hT
            exact u3 τ T (b3 hop).1 hT
    · -- an integer was turned into a floating literal
      obtain ⟨f, g, rfl, rfl, htys, hor, hfk, hgk⟩ : ∃ f g, l2 = .lit (.float f) ∧ r2 = .lit (.float g) ∧
          (lt2 = some f.ty ∧ rt2 = some g.ty) ∧ (∃ x, l' = .lit (.float x) ∨ r' = .lit (.float x)) ∧
          (floatText f = k ∨ Fin f) ∧ (floatText g = k ∨ Fin g) := by
        rcases hfl with ⟨v, f, h1, h2, rfl, rfl, rfl, rfl⟩ | ⟨v, f, h1, h2, rfl, rfl, rfl, rfl⟩
        · refine ⟨_, f, rfl, h2, ⟨rfl, ?_⟩, ⟨f, .inr h2⟩, .inr (hFin v), .inl (isK f (.inr h2))⟩
          rcases sR.lit _ h2 with ⟨i, hi, _⟩ | ⟨g, hg, _, h⟩
          · cases hi
          · cases hg; exact h
        · refine ⟨f, _, h1, rfl, ⟨?_, rfl⟩, ⟨f, .inl h1⟩, .inl (isK f (.inl h1)), .inr (hFin v)⟩
          rcases sL.lit _ h1 with ⟨i, hi, _⟩ | ⟨g, hg, _, h⟩
          · cases hi
          · cases hg; exact h
      have hL : ∃ a, l' = .lit a := by
        rcases hfl with ⟨v, f, h1, _⟩ | ⟨v, f, h1, _⟩ <;> exact ⟨_, h1⟩
      have hR : ∃ b, r' = .lit b := by
        rcases hfl with ⟨v, f, _, h2, _⟩ | ⟨v, f, _, h2, _⟩ <;> exact ⟨_, h2⟩
      obtain ⟨x, hx⟩ := hor
      have toK : ∀ f, floatText f = k ∨ Fin f → HasType Fin P.C.ffiPrefix Γ (.float f) k := by
        rintro f (h | h)
        · exact .float (.inl h.symm)
        · exact .float (.inr ⟨h, hk⟩)
      refine ⟨?_, rfl, ?_, rfl, rfl, ⟨fun _ => rfl, fun _ h => ?_, fun _ => rfl, trivial, trivial⟩,
        fun h => ⟨hcond h, by rintro l ⟨⟩⟩, fun h => (by rw [noConst x hx] at h; cases h), by rintro l ⟨⟩, _, .bin ho .float .float, ?_, ?_⟩
      · obtain ⟨b, rfl⟩ := hR
        rw [endsCast, endsCast, ← sR.ends]; rfl
      · obtain ⟨a, rfl⟩ := hL
        rw [beginsBlock, beginsBlock, ← sL.begins]; rfl
      · cases h
      · intro τ h hft
        obtain ⟨b1, b2, b3⟩ := bin_type ho h
        rcases hop with hop | ⟨hop, _⟩
        · cases hb : op.isBool with
          | true => rw [b1 hb] at hft; exact absurd hft bool_noFloat
          | false => exact (b2 hop hb).2.2 k hft hk (toK f hfk) (toK g hgk)
        · exact absurd hft (int_noFloat (b3 hop).2)
      · intro τ T h hT
        obtain ⟨b1, b2, b3⟩ := bin_type ho h
        rw [hty] at hT
        cases hb : op.isBool with
        | true =>
          rw [if_pos hb] at hT
          cases hT
          exact .inl (b1 hb).symm
        | false =>
          rw [hb, htys.1, htys.2] at hT
          obtain ⟨hT1, hT2⟩ := joinTy_ne hT
          rcases hop with hop | ⟨hop, hcr⟩
          · obtain ⟨c1, _, _⟩ := b2 hop hb
            refine .inr ⟨float_type c1, ?_⟩
            rcases hfl with ⟨v, f', h1, h2, e1, e2, _⟩ | ⟨v, f', h1, h2, e1, e2, _⟩
            · have : r' = .lit (.float g) := e2.symm
              rw [← hT2, floatTy_text, isK g (.inr this)]
            · have : l' = .lit (.float f) := e1.symm
              rw [← hT1, floatTy_text, isK f (.inl this)]
          · exact absurd (float_type (b3 hop).1) (int_noFloat (b3 hop).2)

/-- The type found for an expression is its type in Rust, if it has one. -/
theorem plain_sound {C : Ctx} {st : LState} (hk : FloatText k) (hFin : ∀ v, Fin (intAsFloat v)) (hst : KnownParams P st Γ k) {e : Expr}
    (h : PlainTypes P k e) : Separated e → ∀ {n e' st' ty}, Expr.finish C L n e st = ⟨e', st', .ok ty⟩ →
      st' = st ∧ TypeSound Fin P Γ k e e' ty := by
  induction h with
  | int =>
    intro _ n e' st' ty hf
    obtain ⟨rfl, rfl, h⟩ := finish_lit (by rintro c ⟨⟩) hf
    injection h with h
    subst h
    exact ⟨rfl, sound_int _ _ ⟨rfl, rfl, rfl, rfl, rfl⟩⟩
  | float hfk =>
    intro _ n e' st' ty hf
    obtain ⟨rfl, rfl, h⟩ := finish_lit (by rintro c ⟨⟩) hf
    injection h with h
    subst h
    exact ⟨rfl, sound_float _ hfk _ ⟨rfl, rfl, rfl, rfl, rfl, rfl⟩⟩
  | @param i =>
    intro _ n e' st' ty hf
    cases n with
    | zero => cases hf
    | succ n =>
      rw [Expr.finish, finishStep] at hf
      simp only [finishVar, IdentExpr.finish] at hf
      cases ht : st.argTy i with
      | none => rw [ht] at hf; cases hf
      | some t =>
        obtain ⟨τ, x, rfl, h1, h2, h3, h4, h5⟩ := hst.2 i t ht
        rw [ht] at hf
        injection hf with e1 e2 e3
        injection e3 with e3
        subst e1 e2 e3
        have inv : ∀ σ, HasType Fin P.C.ffiPrefix Γ (.name [.id x]) σ → σ = τ.toks P := by
          intro σ h
          cases h with
          | name h => rw [h4] at h; exact (Option.some.inj h).symm
        refine ⟨rfl, rfl, rfl, rfl, rfl, rfl, trivial, fun h => (by cases h), fun h => (by cases h), by rintro l ⟨⟩, _, .param h1 h2 hst.1 h3, ?_, ?_⟩
        · intro σ h hft
          have := inv σ h
          subst this
          rw [← h5 hft]
          exact h
        · rintro σ T h ⟨⟩
          exact .inl (inv σ h).symm
  | @un op x ho _ ih =>
    intro hs n e' st' ty hf
    obtain ⟨m, x', tx, hx, hu, hfo⟩ := finish_un hf
    obtain ⟨rfl, sX⟩ := ih hs.2 hx
    have hty : ty = tx := by rcases ho with rfl | rfl <;> (cases hu; rfl)
    refine ⟨rfl, ?_⟩
    have hsh : (∃ i, x' = .lit (.int i) ∧ tx = none) ∨ (∃ f, x' = .lit (.float f) ∧ floatText f = k ∧ tx = some f.ty) ∨ ∀ l, x' ≠ .lit l := by
      cases x' with
      | lit l =>
        rcases sX.lit l rfl with ⟨i, rfl, h⟩ | ⟨f, rfl, h⟩
        · exact .inl ⟨i, rfl, h⟩
        · exact .inr (.inl ⟨f, rfl, h⟩)
      | _ => exact .inr (.inr (by rintro l ⟨⟩))
    rcases hsh with ⟨i, rfl, rfl⟩ | ⟨f, rfl, hfk, rfl⟩ | hnl
    · rcases ho with rfl | rfl
      · cases hfo
        subst hty
        exact sound_int _ _ ⟨rfl, rfl, rfl, rfl, rfl⟩
      · cases hfo
        exact sound_un hk (.inr (.inl rfl)) sX rfl (by rintro ⟨⟩) hty
    · rcases ho with rfl | rfl
      · cases hfo
        subst hty
        have hneg : f.neg.ty = f.ty ∧ floatText f.neg = floatText f := by cases f <;> exact ⟨rfl, rfl⟩
        rw [← hneg.1]
        refine sound_float _ (hneg.2.trans hfk) _ ⟨rfl, rfl, rfl, rfl, rfl, ?_⟩
        cases hc : constant x with
        | false => simp [constant, hc]
        | true => obtain ⟨i, hi⟩ := (sX.const hc).2; cases hi
      · cases hfo
    · have he : e' = .un op x' := by
        rcases ho with rfl | rfl
        · unfold foldUnary at hfo
          split at hfo <;> first | (exact absurd rfl (hnl _)) | (simp_all; done) | (cases hfo; rfl)
        · unfold foldUnary at hfo
          split at hfo <;> first | (exact absurd rfl (hnl _)) | (simp_all; done) | (cases hfo; rfl)
      subst he
      refine sound_un hk (ho.elim .inl fun h => .inr (.inl h)) sX ?_ (by rcases ho with rfl | rfl <;> rintro ⟨⟩) hty
      cases hc : constant x with
      | false => simp [constant, hc]
      | true => obtain ⟨i, hi⟩ := (sX.const hc).2; exact absurd hi (hnl _)
  | @not x hcx _ ih =>
    intro hs n e' st' ty hf
    obtain ⟨m, x', tx, hx, hu, hfo⟩ := finish_un hf
    obtain ⟨rfl, sX⟩ := ih hs.2 hx
    obtain ⟨rfl, hnl⟩ := sX.cond hcx
    cases hu
    have : e' = .un .not x' := by
      unfold foldUnary at hfo
      split at hfo <;> first | (exact absurd rfl (hnl _)) | (next h1 h2 => cases h1; done) | skip
      all_goals simp_all
    subst this
    exact ⟨rfl, sound_un hk (.inr (.inr rfl)) sX rfl (fun _ => rfl) rfl⟩
  | bin hop _ _ ihl ihr =>
    intro hs n e' st' ty hf
    exact sound_bin hk hFin (.inl hop) hs hf (ihl hs.2.2.2.1) (ihr hs.2.2.2.2)
  | shift hop hc _ _ ihl ihr =>
    intro hs n e' st' ty hf
    exact sound_bin hk hFin (.inr ⟨hop, hc⟩) hs hf (ihl hs.2.2.2.1) (ihr hs.2.2.2.2)
  | @cast b x hb ht hfl hx ih =>
    intro hs n e' st' ty hf
    obtain ⟨m, x', tx, hx', rfl, rfl⟩ := finish_cast (fun m s y => plain_noCast hx m st _ _ y) hf
    obtain ⟨rfl, sX⟩ := ih hs hx'
    obtain ⟨u, u1, u2, u3⟩ := sX.tree
    have hpc : ∀ z, PlainCast (.builtIn b) z := fun z => ⟨by simpa using hb, .inr ⟨by rintro t ⟨⟩, by rintro t q ⟨⟩⟩⟩
    obtain ⟨w, hw⟩ : ∃ w, RustTree P (.cast (.builtIn b) x') (.cast w ((Ty.builtIn b).toks P)) := by
      cases x' with
      | lit l =>
        cases l with
        | int i => exact ⟨_, .castInt (hpc _) ht⟩
        | _ => exact ⟨u, .cast (hpc _) ht (by rintro i ⟨⟩) u1⟩
      | _ => exact ⟨u, .cast (hpc _) ht (by rintro i ⟨⟩) u1⟩
    have inv : ∀ τ, HasType Fin P.C.ffiPrefix Γ (.cast w ((Ty.builtIn b).toks P)) τ → τ = (Ty.builtIn b).toks P := by
      intro τ h
      cases h
      rfl
    refine ⟨rfl, rfl, rfl, ?_, rfl, rfl, sX.sep, fun h => (by cases h), fun h => (by cases h), by rintro l ⟨⟩, _, hw, ?_, ?_⟩
    · rw [beginsBlock, beginsBlock, sX.begins]
    · intro τ h hft
      have := inv τ h
      subst this
      rw [hfl hft] at h ⊢
      exact h
    · rintro τ T h ⟨⟩
      exact .inl (inv τ h).symm
  | @ternary c x y _ _ _ ihc ihx ihy =>
    intro hs n e' st' ty hf
    obtain ⟨m, c', x', y', sc, sx, sy, tc, tx, ty', h1, h2, h3, rfl, rfl, rfl⟩ := finish_ternary hf
    obtain ⟨f1, f2, s1, s2, s3⟩ := hs
    obtain ⟨rfl, sC⟩ := ihc s1 h1
    obtain ⟨rfl, sX⟩ := ihx s2 h2
    obtain ⟨rfl, sY⟩ := ihy s3 h3
    obtain ⟨uc, c1, c2, c3⟩ := sC.tree
    obtain ⟨ux, x1, x2, x3⟩ := sX.tree
    obtain ⟨uy, y1, y2, y3⟩ := sY.tree
    obtain ⟨d, hd⟩ : ∃ d, RustTree P (if tc ≠ some (.builtIn .bool) then .bin c' .neq (.lit (.int ⟨0, none⟩)) else c') d := by
      split
      · exact ⟨_, .bin (op := .neq) rfl c1 .int⟩
      · exact ⟨_, c1⟩
    refine ⟨rfl, rfl, rfl, rfl, rfl, rfl, ⟨?_, ?_, ?_, sX.sep, sY.sep⟩, fun h => (by cases h), fun h => (by cases h), by rintro l ⟨⟩, _, .ternary hd x1 y1, ?_, ?_⟩
    · unfold FitsBlock; rw [sX.begins, sX.tern]; exact f1
    · unfold FitsBlock; rw [sY.begins, sY.tern]; exact f2
    · split
      · exact ⟨by rintro ⟨⟩, by rintro ⟨⟩, by rintro ⟨⟩, sC.sep, trivial⟩
      · exact sC.sep
    · intro τ h hft
      cases h with
      | ite h1 h2 h3 => exact .ite h1 (x2 τ h2 hft) (y2 τ h3 hft)
    · intro τ T h hT
      cases h with
      | ite h1 h2 h3 =>
        rcases joinTy_or hT with hT | hT
        · exact x3 τ T h2 hT
        · exact y3 τ T h3 hT

end

end CMacro
