import Verif.Spec.FnValue
import Verif.Props.CInt
import Verif.Props.RustSyntax

/-!
# Finishing keeps what a function computes
-/

namespace CMacro
open Spec

variable {W : Widths}

theorem typed_constant {wrap : Prop} {e : Expr} {t : IntTy} {v : Int} (h : TypedValue W wrap e t v) : constant e = true := by
  induction h with
  | lit _ => rfl
  | plus _ ih => simp [constant, ih]
  | neg _ _ ih => simp [constant, ih]
  | bin ha _ _ _ _ _ _ ihl ihr => simp [constant, ha, ihl, ihr]
  | shl _ _ _ _ _ ihl ihr => simp [constant, ihl, ihr]
  | shr _ _ _ _ ihl ihr => simp [constant, ihl, ihr]

theorem constant_endsCast : ∀ e : Expr, constant e = true → endsCast e = false ∧ isCast e = false
  | .bin l op r, h => by
    simp only [constant, Bool.and_eq_true] at h
    exact ⟨(constant_endsCast r h.2).1, rfl⟩
  | .lit _, _ => ⟨rfl, rfl⟩
  | .un _ _, _ => ⟨rfl, rfl⟩
  | .var _, h | .call _ _, h | .cast _ _, h | .stringify _, h | .concatStr _, h | .sizeOf _, h | .ternary _ _ _, h => by
    simp [constant] at h

theorem const_finish {C : Ctx} {L : Loc} {e e' : Expr} {t : IntTy} {v : Int} {n : Nat} {st st' : LState} {ty : Option Ty}
    (h : TypedValue W False e t v) (hf : Expr.finish C L n e st = ⟨e', st', .ok ty⟩) :
    ∃ c : LitInt, c.value.toInt = v ∧ e' = .lit (.int c) ∧ st' = st ∧ ty = none := by
  obtain ⟨c, hc, _, N, hN⟩ := fold_value (C := C) (L := L) (typed_exact h).1 st
  refine ⟨c, hc, ?_⟩
  have h1 := Expr.finish_stable (Nat.le_max_left n N) (C := C) (L := L) (e := e) (st := st) (by rw [hf]; simp)
  rw [hN _ (Nat.le_max_right n N), hf] at h1
  injection h1 with h1 h2 h3
  exact ⟨h1.symm, h2.symm, by injection h3 with h3; exact h3.symm⟩

theorem tyText_is (P : PCtx) (t : IntTy) : (Ty.builtIn t.cType).toks P = tyText P.C.ffiPrefix t := by
  cases t <;> exact prefixed_toks _ _

theorem tyText_text (pre : Option RPath) (t : IntTy) : TypeText (tyText pre t) := by
  have key : ∀ (x : Str) (segs : List Str), ∃ y ts, (segs.flatMap fun s => [RTok.id s, .punct c!"::"]) ++ [RTok.id x] = .id y :: ts ∧
      TypeText (.id y :: ts) := by
    intro x segs
    induction segs with
    | nil => exact ⟨x, [], rfl, .name⟩
    | cons a segs ih =>
      obtain ⟨y, ts, h1, h2⟩ := ih
      exact ⟨a, _, by rw [List.flatMap_cons, List.append_assoc, h1]; rfl, .seg h2⟩
  unfold tyText
  cases pre with
  | none => exact .name
  | some p =>
    obtain ⟨y, ts, h1, h2⟩ := key t.rustName p.segs
    dsimp only
    rw [List.append_assoc, h1]
    split
    · exact .root h2
    · exact h2

theorem holds_wrap {t : IntTy} {v v' : Int} {wrap : Prop} (h : Wraps W wrap t v v') : t.Holds W v' ∧ (2 : Int) ^ t.width W ∣ v - v' := by
  cases h with
  | fits h => exact ⟨h, by simp⟩
  | wraps _ hu =>
    have hp : (0 : Int) < 2 ^ t.width W := Int.pow_pos (by decide)
    refine ⟨?_, Int.dvd_self_sub_emod⟩
    rw [IntTy.Holds, if_pos hu]
    exact ⟨Int.emod_nonneg _ (by omega), Int.emod_lt_of_pos _ hp⟩

theorem eval_int {pre : Option RPath} {env : List RTok → Option (IntTy × Int)} {t : IntTy} {v : Int} (h : t.Holds W v) :
    RustEval W pre env (rInt v) (.int t v) := by
  unfold rInt
  split
  · next hv =>
    have hu : t.unsigned = false := by
      cases hu : t.unsigned with
      | false => rfl
      | true => rw [IntTy.Holds, if_pos hu] at h; omega
    have e : v = -(v.natAbs : Int) := by omega
    have := RustEval.negNum (W := W) (pre := pre) (env := env) (n := v.natAbs) hu (by rw [← e]; exact h)
    rw [← e] at this
    exact this
  · next hv =>
    have e : v = (v.natAbs : Int) := by omega
    have := RustEval.num (W := W) (pre := pre) (env := env) (n := v.natAbs) (t := t) (by rw [← e]; exact h)
    rw [← e] at this
    exact this

theorem castSuffix_holds {v : Int} (h : I128 v) : castSuffix v ≠ [] ∧ rustRange (castSuffix v) v := by
  unfold I128 at h
  unfold castSuffix rustRange
  repeat' split
  all_goals refine ⟨by simp, ?_⟩
  all_goals simp only [true_and, false_and, false_or, or_false, List.cons.injEq, and_false, reduceCtorEq, Char.reduceEq, and_true, and_self]
  all_goals omega

theorem eval_castLit {pre : Option RPath} {env : List RTok → Option (IntTy × Int)} {t : IntTy} {v v' : Int} (hv : I128 v)
    (h1 : t.Holds W v') (h2 : (2 : Int) ^ t.width W ∣ v - v') :
    RustEval W pre env (.cast (rInt v (castSuffix v)) (tyText pre t)) (.int t v') := by
  obtain ⟨g1, g2⟩ := castSuffix_holds hv
  generalize castSuffix v = s at *
  unfold rInt
  split
  · next h =>
    have e : -(v.natAbs : Int) = v := by omega
    exact .castNegLit (by omega) g1 (by rw [e]; exact g2) h1 (by rw [e]; exact h2)
  · next h =>
    have e : (v.natAbs : Int) = v := by omega
    exact .castLit g1 (by rw [e]; exact g2) h1 (by rw [e]; exact h2)

theorem common_self {t : IntTy} (h : t.promote W = t) : common W t t = t := by simp [common, commonWide, h]

theorem shift_held {t : IntTy} {k : Nat} (h : k < t.width W) : IntTy.Holds W .int k := by
  have h1 := (width_bounds (W := W) t).2
  have h2 := W.short_ge
  have h2' := W.int_ge
  have h3 := two_pow_mono (show 15 ≤ IntTy.width W .int - 1 by simp only [IntTy.width]; omega)
  rw [IntTy.Holds, if_neg (by decide)]
  omega

/-- The type given to an expression agrees with what it yields. -/
def TyFits (P : PCtx) (ty : Option Ty) : Outcome → Prop
  | .int t _ => ty = none ∨ ∃ τ, ty = some τ ∧ τ.toks P = tyText P.C.ffiPrefix t
  | .truth _ => ty = some (.builtIn .bool)

/-- A number has a type of its own. -/
def OwnType (u : RExpr) : Outcome → Prop
  | .int _ _ => typed u = true
  | .truth _ => True

/-- What is known of a finished operand. -/
structure Kept (W : Widths) (P : PCtx) (env : List RTok → Option (IntTy × Int)) (e e' : Expr) (ty : Option Ty) (o : Outcome) :
    Prop where
  ty : TyFits P ty o
  lit : ∀ l, e' ≠ .lit l
  maxTy : isLimit e = false → maxTyCast e' = none
  ends : endsCast e' = endsCast e
  cast : isCast e' = isCast e
  begins : beginsBlock e' = beginsBlock e
  tern : isBlockLike e' = isBlockLike e
  sep : Separated e'
  tree : ∃ u, RustTree P e' u ∧ OwnType u o ∧ RustEval W P.C.ffiPrefix env u o

theorem Kept.fits {P : PCtx} {env : List RTok → Option (IntTy × Int)} {e e' : Expr} {ty : Option Ty} {o : Outcome}
    (h : Kept W P env e e' ty o) (hb : FitsBlock e) : FitsBlock e' := by
  unfold FitsBlock
  rw [h.begins, h.tern]
  exact hb

theorem adjust_left {op : BinOp} {l : Expr} {i : LitInt} {lt rt : Option Ty} (hl : ∀ l', l ≠ .lit l') (hm : op = .mul ∨ op = .add → maxTyCast l = none) :
    adjustOperands op l (.lit (.int i)) lt rt = (l, .lit (.int i), lt, rt) := by
  unfold adjustOperands
  split <;> first | (exact absurd rfl (hl _)) | (split <;> simp_all; done) | (simp_all; done)

theorem adjust_right {op : BinOp} {r : Expr} {i : LitInt} {lt rt : Option Ty} (hr : ∀ l', r ≠ .lit l') (hm : op = .mul ∨ op = .add → maxTyCast r = none) :
    adjustOperands op (.lit (.int i)) r lt rt = (.lit (.int i), r, lt, rt) := by
  unfold adjustOperands
  split <;> first | (exact absurd rfl (hr _)) | (split <;> simp_all; done) | (simp_all; done)

theorem adjust_both {op : BinOp} {l r : Expr} {lt rt : Option Ty} (hl : ∀ l', l ≠ .lit l') (hr : ∀ l', r ≠ .lit l') :
    adjustOperands op l r lt rt = (l, r, lt, rt) := by
  unfold adjustOperands
  split <;> first | (exact absurd rfl (hl _)) | (exact absurd rfl (hr _)) | rfl

theorem fold_none {op : BinOp} {l r : Expr} (h : (∀ l', l ≠ .lit l') ∨ ∀ l', r ≠ .lit l') : foldBinary op l r = none := by
  unfold foldBinary
  split
  · rcases h with h | h <;> exact absurd rfl (h _)
  · rcases h with h | h <;> exact absurd rfl (h _)
  · rfl

/-- Neither a member access nor an assignment. -/
def pureOp (op : BinOp) : Bool := !op.isAssignment && !(op = .memberAccess : Bool)

theorem arith_pure {op : BinOp} (h : (arithmetic op || (op = .shl ∨ op = .shr : Bool)) = true) : pureOp op = true ∧ op.isBool = false := by
  cases op <;> first | exact ⟨rfl, rfl⟩ | (simp [arithmetic] at h)

theorem cmp_pure {op : BinOp} {f : Int → Int → Bool} (h : comparison op = some f) : pureOp op = true ∧ op.isBool = true := by
  cases op <;> first | exact ⟨rfl, rfl⟩ | (simp [comparison] at h)

/-- An operator that is not folded. -/
theorem finish_bin {C : Ctx} {L : Loc} {n : Nat} {l r e' : Expr} {op : BinOp} {st st' : LState} {ty : Option Ty}
    (hop : pureOp op = true) (hf : Expr.finish C L n (.bin l op r) st = ⟨e', st', .ok ty⟩) :
    ∃ m l' r' sl sr lt rt, Expr.finish C L m l st = ⟨l', sl, .ok lt⟩ ∧ Expr.finish C L m r sl = ⟨r', sr, .ok rt⟩ ∧
      (adjustOperands op l' r' lt rt = (l', r', lt, rt) → foldBinary op l' r' = none →
        e' = .bin l' op r' ∧ ty = if op.isBool then some (.builtIn .bool) else joinTy lt rt) := by
  cases n with
  | zero => cases hf
  | succ m =>
    rw [Expr.finish, finishStep] at hf
    cases hl : Expr.finish C L m l st with
    | mk l' sl resl =>
      rw [hl] at hf
      cases resl with
      | error => cases hf
      | ok lt =>
        dsimp only at hf
        cases hr : Expr.finish C L m r sl with
        | mk r' sr resr =>
          rw [hr] at hf
          cases resr with
          | error => cases hf
          | ok rt =>
            refine ⟨m, l', r', sl, sr, lt, rt, hl, hr, fun ha hb => ?_⟩
            simp only [pureOp, Bool.and_eq_true, Bool.not_eq_true', decide_eq_false_iff_not] at hop
            have hbe : binaryEffects op l' r' sr = (sr, .ok ()) := by simp [binaryEffects, hop.2, hop.1]
            simp only [hbe, ha, if_neg hop.2, hb] at hf
            injection hf with h1 h2 h3
            exact ⟨h1.symm, by injection h3 with h3; exact h3.symm⟩

theorem join_kept {lt rt : Option Ty} {Q : Ty → Prop} (hl : lt = none ∨ ∃ τ, lt = some τ ∧ Q τ)
    (hr : rt = none ∨ ∃ τ, rt = some τ ∧ Q τ) : joinTy lt rt = none ∨ ∃ τ, joinTy lt rt = some τ ∧ Q τ := by
  unfold joinTy
  split
  · exact hl
  · rcases hl with rfl | ⟨τ, rfl, h⟩ <;> rcases hr with rfl | ⟨τ', rfl, h'⟩
    · exact .inl rfl
    · exact .inr ⟨_, rfl, h'⟩
    · exact .inr ⟨_, rfl, h⟩
    · exact .inl rfl

theorem rustOp_of {op : BinOp} (h : (arithmetic op || (op = .shl ∨ op = .shr : Bool)) = true) : ∃ o, rustOp op = some o := by
  cases op <;> first | exact ⟨_, rfl⟩ | (simp [arithmetic] at h)

theorem typed_bin {o : Str} {l r : RExpr} (h : typed l = true ∨ typed r = true ∧ o ≠ c!"<<" ∧ o ≠ c!">>") : typed (.bin o l r) = true := by
  rw [typed]
  rcases h with h | ⟨h, h1, h2⟩
  · rw [h]; simp
  · simp [h1, h2, h]

theorem arith_noShift {op : BinOp} {o : Str} (h : arithmetic op = true) (ho : rustOp op = some o) : o ≠ c!"<<" ∧ o ≠ c!">>" := by
  cases op <;> first | (simp [arithmetic] at h; done) | (cases ho; exact ⟨by decide, by decide⟩)

/-- An operand is folded to a literal, or keeps its value. -/
theorem operand {ρ : Nat → Option (IntTy × Int)} {P : PCtx} {env : List RTok → Option (IntTy × Int)} {C : Ctx} {L : Loc} {st : LState}
    {e e' : Expr} {t : IntTy} {v : Int} {n : Nat} {st' : LState} {ty : Option Ty} (h : FnValue W False False ρ e (.int t v))
    (hf : Expr.finish C L n e st = ⟨e', st', .ok ty⟩) (ih : constant e = false → Kept W P env e e' ty (.int t v)) :
    (constant e = true ∧ ty = none ∧ t.Holds W v ∧ ∃ c : LitInt, c.value.toInt = v ∧ e' = .lit (.int c))
      ∨ (constant e = false ∧ Kept W P env e e' ty (.int t v)) := by
  cases hc : constant e with
  | false => exact .inr ⟨rfl, ih hc⟩
  | true =>
    have ht : TypedValue W False e t v := by
      cases h with
      | const h => exact h
      | param => simp [constant] at hc
      | limit => simp [constant] at hc
      | neg h => simp [constant, h] at hc
      | comp => simp [constant] at hc
      | bin _ h => rw [h] at hc; cases hc
      | widened => simp [constant] at hc
      | shl h => rw [h] at hc; cases hc
      | shr h => rw [h] at hc; cases hc
      | cast => simp [constant] at hc
      | condTrue => simp [constant] at hc
      | condFalse => simp [constant] at hc
      | number h => exact h.elim
    obtain ⟨c, h1, h2, h3, h4⟩ := const_finish ht hf
    exact .inl ⟨rfl, h4, (typed_exact ht).2, c, h1, h2⟩

theorem lit_noCast (C : Ctx) (L : Loc) (n : Nat) (l : Lit) (hl : ∀ c, l ≠ .char c) (st : LState) (T : Ty) (y : Expr) :
    (Expr.finish C L n (.lit l) st).tree ≠ .cast T y := by
  cases n with
  | zero => rintro ⟨⟩
  | succ n =>
    rw [Expr.finish, finishStep]
    · rintro ⟨⟩
    · rintro c ⟨⟩; exact hl c rfl

theorem un_noCast (C : Ctx) (L : Loc) (n : Nat) (op : UnOp) (x : Expr) (st : LState) (T : Ty) (y : Expr) :
    (Expr.finish C L n (.un op x) st).tree ≠ .cast T y := by
  cases n with
  | zero => rintro ⟨⟩
  | succ n =>
    rw [Expr.finish, finishStep]
    split
    · rintro ⟨⟩
    · split
      · rintro ⟨⟩
      · split
        · rintro ⟨⟩
        · next t _ e hf =>
          rintro rfl
          unfold foldUnary at hf
          split at hf <;> first | cases hf | (split at hf <;> cases hf)

theorem bin_noCast (C : Ctx) (L : Loc) (n : Nat) (l r : Expr) (op : BinOp) (st : LState) (T : Ty) (y : Expr) :
    (Expr.finish C L n (.bin l op r) st).tree ≠ .cast T y := by
  cases n with
  | zero => rintro ⟨⟩
  | succ n =>
    rw [Expr.finish, finishStep]
    split
    · rintro ⟨⟩
    · split
      · rintro ⟨⟩
      · split
        · rintro ⟨⟩
        · split
          split
          · rintro ⟨⟩
          · split
            · rintro ⟨⟩
            · next e hf =>
              unfold foldBinary at hf
              split at hf
              · split at hf
                · split at hf
                  · cases hf; exact lit_noCast C L n _ (by rintro c ⟨⟩) _ T y
                  · cases hf
                · cases hf
              · split at hf
                · cases hf; exact lit_noCast C L n _ (by rintro c ⟨⟩) _ T y
                · cases hf
              · cases hf
            · rintro ⟨⟩

theorem ternary_noCast (C : Ctx) (L : Loc) (n : Nat) (c a b : Expr) (st : LState) (T : Ty) (y : Expr) :
    (Expr.finish C L n (.ternary c a b) st).tree ≠ .cast T y := by
  cases n with
  | zero => rintro ⟨⟩
  | succ n =>
    rw [Expr.finish, finishStep]
    split
    · rintro ⟨⟩
    · split
      · rintro ⟨⟩
      · split <;> rintro ⟨⟩

/-- What is tried first is never a cast to a named type. -/
theorem noIdentCast {wrap mixed : Prop} {ρ : Nat → Option (IntTy × Int)} {C : Ctx} {L : Loc} {e : Expr} {o : Outcome}
    (h : FnValue W wrap mixed ρ e o) : ∀ n st x s y, (Expr.finish C L n e st).tree ≠ .cast (.ident x s) y := by
  induction h with
  | const h =>
    intro n st x s y
    cases h with
    | lit => exact lit_noCast C L n _ (by rintro c ⟨⟩) _ _ y
    | plus => exact un_noCast C L n _ _ _ _ y
    | neg => exact un_noCast C L n _ _ _ _ y
    | bin => exact bin_noCast C L n _ _ _ _ _ y
    | shl => exact bin_noCast C L n _ _ _ _ _ y
    | shr => exact bin_noCast C L n _ _ _ _ _ y
  | param =>
    intro n st x s y
    cases n with
    | zero => rintro ⟨⟩
    | succ n => rw [Expr.finish, finishStep]; rintro ⟨⟩
  | limit =>
    intro n st x s y
    cases n with
    | zero => rintro ⟨⟩
    | succ n => rw [Expr.finish, finishStep]; rintro ⟨⟩
  | neg => exact fun n st x s y => un_noCast C L n _ _ _ _ y
  | comp => exact fun n st x s y => un_noCast C L n _ _ _ _ y
  | bin => exact fun n st x s y => bin_noCast C L n _ _ _ _ _ y
  | widened => exact fun n st x s y => bin_noCast C L n _ _ _ _ _ y
  | shl => exact fun n st x s y => bin_noCast C L n _ _ _ _ _ y
  | shr => exact fun n st x s y => bin_noCast C L n _ _ _ _ _ y
  | cmp => exact fun n st x s y => bin_noCast C L n _ _ _ _ _ y
  | not => exact fun n st x s y => un_noCast C L n _ _ _ _ y
  | andFalse => exact fun n st x s y => bin_noCast C L n _ _ _ _ _ y
  | andTrue => exact fun n st x s y => bin_noCast C L n _ _ _ _ _ y
  | orTrue => exact fun n st x s y => bin_noCast C L n _ _ _ _ _ y
  | orFalse => exact fun n st x s y => bin_noCast C L n _ _ _ _ _ y
  | condTrue => exact fun n st x s y => ternary_noCast C L n _ _ _ _ _ y
  | condFalse => exact fun n st x s y => ternary_noCast C L n _ _ _ _ _ y
  | number _ _ ih => exact ih
  | nonzero _ _ ih => exact ih
  | @cast _ e _ t _ _ _ _ ih =>
    intro n st x s y
    cases n with
    | zero => rintro ⟨⟩
    | succ n =>
      have hx := ih n st
      rw [Expr.finish, finishStep]
      simp only [Ty.finish]
      generalize Expr.finish C L n e st = R at *
      rcases R with ⟨z, sz, er | ok⟩
      · have hp : castAsProduct (.builtIn t.cType) z = none := by
          unfold castAsProduct
          split
          · exact absurd rfl (hx _ _ _)
          · rfl
        dsimp only
        rw [hp]
        split <;> first | (rintro ⟨⟩; done) | (next h => cases h)
      · dsimp only
        simp only [castAsBinary, castOfString, Bool.false_eq_true, if_false]
        rintro ⟨⟩

theorem lit_state {C : Ctx} {L : Loc} {n : Nat} {l : Lit} (hl : ∀ c, l ≠ .char c) {st st' : LState} {e' : Expr} {ty : Option Ty}
    (hf : Expr.finish C L n (.lit l) st = ⟨e', st', .ok ty⟩) : st' = st := by
  cases n with
  | zero => cases hf
  | succ n =>
    rw [Expr.finish, finishStep] at hf
    · injection hf with _ h _
      exact h.symm
    · rintro c ⟨⟩; exact hl c rfl

theorem un_state {C : Ctx} {L : Loc} {n : Nat} {op : UnOp} {x : Expr} {st st' : LState} {e' : Expr} {ty : Option Ty}
    (ih : ∀ m x' sx tx, Expr.finish C L m x st = ⟨x', sx, .ok tx⟩ → sx = st)
    (hf : Expr.finish C L n (.un op x) st = ⟨e', st', .ok ty⟩) : st' = st := by
  cases n with
  | zero => cases hf
  | succ n =>
    rw [Expr.finish, finishStep] at hf
    have ih := ih n
    generalize Expr.finish C L n x st = R at *
    rcases R with ⟨z, sz, er | ok⟩
    · cases hf
    · obtain rfl := ih _ _ _ rfl
      dsimp only at hf
      split at hf
      · cases hf
      · split at hf
        · cases hf
        · injection hf with _ h _
          exact h.symm

theorem bin_state {C : Ctx} {L : Loc} {n : Nat} {op : BinOp} {l r : Expr} {st st' : LState} {e' : Expr} {ty : Option Ty}
    (hop : pureOp op = true)
    (ihl : ∀ m x' sx tx, Expr.finish C L m l st = ⟨x', sx, .ok tx⟩ → sx = st)
    (ihr : ∀ m x' sx tx, Expr.finish C L m r st = ⟨x', sx, .ok tx⟩ → sx = st)
    (hf : Expr.finish C L n (.bin l op r) st = ⟨e', st', .ok ty⟩) : st' = st := by
  cases n with
  | zero => cases hf
  | succ n =>
    rw [Expr.finish, finishStep] at hf
    cases hl : Expr.finish C L n l st with
    | mk l' sl resl =>
      rw [hl] at hf
      cases resl with
      | error => cases hf
      | ok lt =>
        obtain rfl := ihl _ _ _ _ hl
        dsimp only at hf
        cases hr : Expr.finish C L n r sl with
        | mk r' sr resr =>
          rw [hr] at hf
          cases resr with
          | error => cases hf
          | ok rt =>
            obtain rfl := ihr _ _ _ _ hr
            simp only [pureOp, Bool.and_eq_true, Bool.not_eq_true', decide_eq_false_iff_not] at hop
            have hbe : binaryEffects op l' r' sr = (sr, .ok ()) := by simp [binaryEffects, hop.2, hop.1]
            simp only [hbe, if_neg hop.2] at hf
            split at hf
            · cases hf
            · next e hfo =>
              unfold foldBinary at hfo
              split at hfo
              · split at hfo
                · split at hfo
                  · cases hfo; exact lit_state (by rintro c ⟨⟩) hf
                  · cases hfo
                · cases hfo
              · split at hfo
                · cases hfo; exact lit_state (by rintro c ⟨⟩) hf
                · cases hfo
              · cases hfo
            · injection hf with _ h _
              exact h.symm

/-- A conditional expression: a condition that is no `bool` is compared with zero. -/
theorem finish_ternary {C : Ctx} {L : Loc} {n : Nat} {c x y e' : Expr} {st st' : LState} {ty : Option Ty}
    (hf : Expr.finish C L n (.ternary c x y) st = ⟨e', st', .ok ty⟩) :
    ∃ m c' x' y' sc sx sy tc tx ty', Expr.finish C L m c st = ⟨c', sc, .ok tc⟩ ∧ Expr.finish C L m x sc = ⟨x', sx, .ok tx⟩ ∧
      Expr.finish C L m y sx = ⟨y', sy, .ok ty'⟩ ∧
      e' = .ternary (if tc ≠ some (.builtIn .bool) then .bin c' .neq (.lit (.int ⟨0, none⟩)) else c') x' y' ∧ st' = sy ∧
      ty = joinTy tx ty' := by
  cases n with
  | zero => cases hf
  | succ m =>
    rw [Expr.finish, finishStep] at hf
    simp only [finishCondition] at hf
    cases hc : Expr.finish C L m c st with
    | mk c' sc resc =>
      rw [hc] at hf
      cases resc with
      | error => cases hf
      | ok tc =>
        have key : ∀ d, (match Expr.finish C L m x sc with
            | ⟨t, st, .error err⟩ => (⟨.ternary d t y, st, .error err⟩ : Fin Expr)
            | ⟨t, st, .ok tt⟩ =>
              match Expr.finish C L m y st with
              | ⟨u, st, .error err⟩ => ⟨.ternary d t u, st, .error err⟩
              | ⟨u, st, .ok ut⟩ => ⟨.ternary d t u, st, .ok (joinTy tt ut)⟩) = ⟨e', st', .ok ty⟩ →
            ∃ x' y' sx sy tx ty', Expr.finish C L m x sc = ⟨x', sx, .ok tx⟩ ∧ Expr.finish C L m y sx = ⟨y', sy, .ok ty'⟩ ∧
              e' = .ternary d x' y' ∧ st' = sy ∧ ty = joinTy tx ty' := by
          intro d hf
          cases hx : Expr.finish C L m x sc with
          | mk x' sx resx =>
            rw [hx] at hf
            cases resx with
            | error => cases hf
            | ok tx =>
              dsimp only at hf
              cases hy : Expr.finish C L m y sx with
              | mk y' sy resy =>
                rw [hy] at hf
                cases resy with
                | error => cases hf
                | ok ty' =>
                  injection hf with h1 h2 h3
                  injection h3 with h3
                  exact ⟨_, _, _, _, _, _, rfl, hy, h1.symm, h2.symm, h3.symm⟩
        dsimp only at hf
        by_cases hb : tc ≠ some (.builtIn .bool)
        · rw [if_pos hb] at hf
          obtain ⟨x', y', sx, sy, tx, ty', h1, h2, h3, h4, h5⟩ := key _ hf
          exact ⟨m, c', x', y', sc, sx, sy, tc, tx, ty', hc, h1, h2, by rw [if_pos hb]; exact h3, h4, h5⟩
        · rw [if_neg hb] at hf
          obtain ⟨x', y', sx, sy, tx, ty', h1, h2, h3, h4, h5⟩ := key _ hf
          exact ⟨m, c', x', y', sc, sx, sy, tc, tx, ty', hc, h1, h2, by rw [if_neg hb]; exact h3, h4, h5⟩

/-- Finishing does not change what is known of the parameters. -/
theorem limit_finish {C : Ctx} {st : LState} {id : Str} {b : BuiltInType} (h : limitOf id = some b) :
    finishVar C (.plain id) st = (st, .ok (some (.builtIn b))) := by
  have := limit_cases h
  simp only [List.mem_cons, Prod.mk.injEq, List.not_mem_nil, or_false] at this
  rcases this with ⟨rfl, rfl⟩ | ⟨rfl, rfl⟩ | ⟨rfl, rfl⟩ | ⟨rfl, rfl⟩ | ⟨rfl, rfl⟩ <;> rfl

theorem limit_unsigned {id : Str} {s : IntTy} (h : limitOf id = some s.cType) :
    maxTyCast (.var (.plain id)) = some (.builtIn s.toUnsigned.cType) ∧ s.unsigned = false := by
  have := limit_cases h
  simp only [List.mem_cons, Prod.mk.injEq, List.not_mem_nil, or_false] at this
  rcases this with ⟨rfl, h⟩ | ⟨rfl, h⟩ | ⟨rfl, h⟩ | ⟨rfl, h⟩ | ⟨rfl, h⟩ <;> cases s <;> first | (cases h; done) | exact ⟨rfl, rfl⟩

/-- A limit and a constant. -/
theorem widened_finish {C : Ctx} {L : Loc} {n : Nat} {id : Str} {r e' : Expr} {op : BinOp} {s t : IntTy} {b : Int} {st st' : LState} {ty : Option Ty}
    (hop : op = .mul ∨ op = .add) (hl : limitOf id = some s.cType) (hr : TypedValue W False r t b)
    (hf : Expr.finish C L n (.bin (.var (.plain id)) op r) st = ⟨e', st', .ok ty⟩) :
    ∃ c : LitInt, c.value.toInt = b ∧ e' = .bin (.cast (.builtIn s.toUnsigned.cType) (.var (.plain id))) op (.lit (.int c)) ∧ st' = st ∧
      ty = some (.builtIn s.toUnsigned.cType) := by
  cases n with
  | zero => cases hf
  | succ m =>
    rw [Expr.finish, finishStep] at hf
    cases m with
    | zero => cases hf
    | succ m =>
      rw [show Expr.finish C L (m + 1) (.var (.plain id)) st = ⟨.var (.plain id), st, .ok (some (.builtIn s.cType))⟩ by
        rw [Expr.finish, finishStep, limit_finish hl]] at hf
      dsimp only at hf
      cases hx : Expr.finish C L (m + 1) r st with
      | mk r' sr resr =>
        rw [hx] at hf
        cases resr with
        | error => cases hf
        | ok rt =>
          obtain ⟨c, h1, rfl, rfl, rfl⟩ := const_finish hr hx
          refine ⟨c, h1, ?_⟩
          have hp : pureOp op = true ∧ op.isBool = false := by rcases hop with rfl | rfl <;> exact ⟨rfl, rfl⟩
          have hp' := hp.1
          simp only [pureOp, Bool.and_eq_true, Bool.not_eq_true', decide_eq_false_iff_not] at hp'
          have hbe : binaryEffects op (.var (.plain id)) (.lit (.int c)) sr = (sr, .ok ()) := by simp [binaryEffects, hp'.2, hp'.1]
          have ha : adjustOperands op (.var (.plain id)) (.lit (.int c)) (some (.builtIn s.cType)) none =
              (.cast (.builtIn s.toUnsigned.cType) (.var (.plain id)), .lit (.int c), some (.builtIn s.toUnsigned.cType), none) := by
            simp only [adjustOperands, if_pos hop, (limit_unsigned hl).1]
          have hb : foldBinary op (.cast (.builtIn s.toUnsigned.cType) (.var (.plain id))) (.lit (.int c)) = none := fold_none (.inl (by rintro l ⟨⟩))
          simp only [hbe, ha, if_neg hp'.2, hb, hp.2] at hf
          injection hf with e1 e2 e3
          injection e3 with e3
          exact ⟨e1.symm, e2.symm, e3.symm⟩

theorem fn_state {ρ : Nat → Option (IntTy × Int)} {C : Ctx} {L : Loc} {e : Expr} {o : Outcome} {st : LState}
    (h : FnValue W False False ρ e o) : ∀ {n e' st' ty}, Expr.finish C L n e st = ⟨e', st', .ok ty⟩ → st' = st := by
  induction h with
  | const h => intro n e' st' ty hf; exact (const_finish h hf).choose_spec.2.2.1
  | @param _ i =>
    intro n e' st' ty hf
    cases n with
    | zero => cases hf
    | succ n =>
      rw [Expr.finish, finishStep] at hf
      simp only [finishVar, IdentExpr.finish] at hf
      split at hf <;> (injection hf with _ h _; exact h.symm)
  | neg _ _ _ _ ih => exact fun hf => un_state (fun _ _ _ _ => ih) hf
  | comp _ _ ih => exact fun hf => un_state (fun _ _ _ _ => ih) hf
  | limit hl =>
    intro n e' st' ty hf
    cases n with
    | zero => cases hf
    | succ n =>
      rw [Expr.finish, finishStep, limit_finish hl] at hf
      injection hf with _ h _
      exact h.symm
  | widened hop hl _ hr =>
    intro n e' st' ty hf
    obtain ⟨_, _, _, h, _⟩ := widened_finish hop hl hr hf
    exact h
  | bin hop _ _ _ _ _ _ _ _ _ _ ihl ihr =>
    exact fun hf => bin_state (arith_pure (by rw [hop]; rfl)).1 (fun _ _ _ _ => ihl) (fun _ _ _ _ => ihr) hf
  | shl _ _ _ _ _ _ _ ihl ihr => exact fun hf => bin_state rfl (fun _ _ _ _ => ihl) (fun _ _ _ _ => ihr) hf
  | shr _ _ _ _ _ _ ihl ihr => exact fun hf => bin_state rfl (fun _ _ _ _ => ihl) (fun _ _ _ _ => ihr) hf
  | cmp hop _ _ _ _ _ ihl ihr => exact fun hf => bin_state (cmp_pure hop).1 (fun _ _ _ _ => ihl) (fun _ _ _ _ => ihr) hf
  | not _ ih => exact fun hf => un_state (fun _ _ _ _ => ih) hf
  | andFalse _ _ _ ihl ihr => exact fun hf => bin_state rfl (fun _ _ _ _ => ihl) (fun _ _ _ _ => ihr) hf
  | andTrue _ _ ihl ihr => exact fun hf => bin_state rfl (fun _ _ _ _ => ihl) (fun _ _ _ _ => ihr) hf
  | orTrue _ _ _ ihl ihr => exact fun hf => bin_state rfl (fun _ _ _ _ => ihl) (fun _ _ _ _ => ihr) hf
  | orFalse _ _ ihl ihr => exact fun hf => bin_state rfl (fun _ _ _ _ => ihl) (fun _ _ _ _ => ihr) hf
  | condTrue _ _ _ _ _ _ _ _ ihc ihx ihy =>
    intro n e' st' ty hf
    obtain ⟨m, c0, x', y', sc, sx, sy, tc, tx, ty', h1, h2, h3, _, rfl, _⟩ := finish_ternary hf
    obtain rfl := ihc h1
    obtain rfl := ihx h2
    exact ihy h3
  | condFalse _ _ _ _ _ _ _ _ ihc ihx ihy =>
    intro n e' st' ty hf
    obtain ⟨m, c0, x', y', sc, sx, sy, tc, tx, ty', h1, h2, h3, _, rfl, _⟩ := finish_ternary hf
    obtain rfl := ihc h1
    obtain rfl := ihx h2
    exact ihy h3
  | number h => exact h.elim
  | nonzero h => exact h.elim
  | @cast _ e _ t _ _ he _ ih =>
    intro n e' st' ty hf
    cases n with
    | zero => cases hf
    | succ n =>
      rw [Expr.finish, finishStep] at hf
      simp only [Ty.finish] at hf
      have hx := noIdentCast (C := C) (L := L) he n st
      have ih := @ih n
      generalize Expr.finish C L n e st = R at *
      rcases R with ⟨z, sz, er | ok⟩
      · have hp : castAsProduct (.builtIn t.cType) z = none := by
          unfold castAsProduct
          split
          · exact absurd rfl (hx _ _ _)
          · rfl
        dsimp only at hf
        rw [hp] at hf
        split at hf
        · next h => cases h
        · cases hf
      · obtain rfl := ih rfl
        dsimp only at hf
        simp only [castAsBinary, castOfString, Bool.false_eq_true, if_false] at hf
        injection hf with _ h _
        exact h.symm

/-! ## The types of values -/

theorem tyText_int (pre : Option RPath) (t : IntTy) : IntText pre (tyText pre t) :=
  .inl ⟨t.rustName, by cases t <;> decide, rfl⟩

theorem getLast_ffi (pre : Option RPath) (x : Str) : (ffiText pre x).getLast? = some (.id x) := by unfold ffiText; simp

theorem tyText_signed {pre : Option RPath} {t : IntTy} (h : t.unsigned = false) : SignedText pre (tyText pre t) := by
  refine ⟨tyText_int pre t, fun x hx => ?_⟩
  have hl : (tyText pre t).getLast? = some (.id t.rustName) := getLast_ffi pre t.rustName
  have hne : x ≠ t.rustName := by
    rintro rfl
    revert hx h
    cases t <;> decide
  constructor
  · intro he
    rw [he, getLast_ffi] at hl
    injection hl with hl
    injection hl with hl
    exact hne hl
  · intro he
    rw [he] at hl
    simp at hl
    exact hne hl

theorem suffix_signed {pre : Option RPath} {s : Str} (h : s ∈ [c!"i8", c!"i16", c!"i32", c!"i64", c!"i128"]) : SignedText pre [.id s] := by
  refine ⟨.inr ⟨s, ?_, rfl⟩, fun x hx => ?_⟩
  · simp only [List.mem_cons, List.not_mem_nil, or_false] at h
    rcases h with rfl | rfl | rfl | rfl | rfl <;> decide
  · have hne : s ≠ x := by
      rintro rfl
      simp only [List.mem_cons, List.not_mem_nil, or_false] at h
      rcases h with rfl | rfl | rfl | rfl | rfl <;> exact absurd hx (by decide)
    constructor
    · intro he
      have := getLast_ffi pre x
      rw [← he] at this
      simp at this
      exact hne this
    · intro he
      injection he with he _
      injection he with he
      exact hne he

/-- The type of what an expression yields. -/
def Spec.outcomeText (pre : Option RPath) : Outcome → List RTok
  | .int t _ => tyText pre t
  | .truth _ => boolText

theorem hasType_mono {Fin Fin' : LitFloat → Prop} {pre : Option RPath} {Γ : List RTok → Option (List RTok)} {u : RExpr} {τ : List RTok}
    (hF : ∀ f, Fin f → Fin' f) (h : HasType Fin pre Γ u τ) : HasType Fin' pre Γ u τ := by
  induction h with
  | name h => exact .name h
  | num h => exact .num h
  | max h => exact .max h
  | suffixed h => exact .suffixed h
  | float h => exact .float (h.imp_right fun h => ⟨hF _ h.1, h.2⟩)
  | neg h _ ih => exact .neg h ih
  | not h _ ih => exact .not h ih
  | arith h h' _ _ ihl ihr => exact .arith h h' ihl ihr
  | bits h h' _ _ ihl ihr => exact .bits h h' ihl ihr
  | shift h h' h'' _ _ ihl ihr => exact .shift h h' h'' ihl ihr
  | compare h h' _ _ ihl ihr => exact .compare h h' ihl ihr
  | logic h _ _ ihl ihr => exact .logic h ihl ihr
  | cast h _ ih => exact .cast h ih
  | ite _ _ _ ihc iht ihf => exact .ite ihc iht ihf

/-- An expression that has a value has the type of that value. -/
theorem eval_hasType (Fin : LitFloat → Prop) {W : Widths} {pre : Option RPath} {env : List RTok → Option (IntTy × Int)} {u : RExpr} {o : Outcome}
    (h : RustEval W pre env u o) : HasType Fin pre (typesIn pre env) u (outcomeText pre o) := by
  have any : ∀ {u τ}, HasType (fun _ => False) pre (typesIn pre env) u τ → HasType Fin pre (typesIn pre env) u τ :=
    fun h => hasType_mono (fun _ h => h.elim) h
  induction h with
  | name h => exact .name (by rw [typesIn, h]; rfl)
  | num _ => exact .num (tyText_int _ _)
  | max => exact .max (tyText_int _ _)
  | negNum h _ => exact .neg (.inl (tyText_signed h)) (.num (tyText_int _ _))
  | neg h _ _ ih => exact .neg (.inl (tyText_signed h)) ih
  | comp _ ih => exact .not (.inl (tyText_int _ _)) ih
  | @bin op o _ _ _ _ _ _ ha ho _ _ _ _ _ ihl ihr =>
    cases op <;> first | (cases ha; done) | (cases ho; exact .arith (by decide) (.inl (tyText_int _ _)) ihl ihr) | (cases ho; exact .bits (by decide) (.inl (tyText_int _ _)) ihl ihr)
  | shl _ _ _ _ _ _ ihl ihr => exact .shift (by decide) (tyText_int _ _) (tyText_int _ _) ihl ihr
  | shr _ _ _ _ ihl ihr => exact .shift (by decide) (tyText_int _ _) (tyText_int _ _) ihl ihr
  | cast _ _ _ _ ih => exact .cast (.inl ⟨.inl (tyText_int _ _), .inl (tyText_int _ _)⟩) ih
  | castNum _ => exact .cast (.inl ⟨.inl (tyText_int pre .int), .inl (tyText_int _ _)⟩) (.num (tyText_int _ _))
  | castComp _ =>
    exact .cast (.inl ⟨.inl (tyText_int pre .int), .inl (tyText_int _ _)⟩) (.not (.inl (tyText_int _ _)) (.num (tyText_int _ _)))
  | @castLit n s _ _ _ hr _ _ =>
    have hs : s ∈ rustInts := by
      unfold rustRange at hr
      rcases hr with ⟨rfl, _⟩ | ⟨rfl, _⟩ | ⟨rfl, _⟩ | ⟨rfl, _⟩ | ⟨rfl, _⟩ | ⟨rfl, _⟩ | ⟨rfl, _⟩ | ⟨rfl, _⟩ | ⟨rfl, _⟩ | ⟨rfl, _⟩ <;> decide
    exact .cast (.inl ⟨.inl (.inr ⟨s, hs, rfl⟩), .inl (tyText_int _ _)⟩) (.suffixed hs)
  | @castNegLit n s _ _ hn _ hr _ _ =>
    have hs : s ∈ [c!"i8", c!"i16", c!"i32", c!"i64", c!"i128"] := by
      unfold rustRange at hr
      rcases hr with ⟨rfl, _⟩ | ⟨_, h, _⟩ | ⟨rfl, _⟩ | ⟨_, h, _⟩ | ⟨rfl, _⟩ | ⟨_, h, _⟩ | ⟨rfl, _⟩ | ⟨_, h, _⟩ | ⟨rfl, _⟩ | ⟨_, h, _⟩ <;>
        first | decide | omega
    have hi : s ∈ rustInts := by
      simp only [List.mem_cons, List.not_mem_nil, or_false] at hs
      rcases hs with rfl | rfl | rfl | rfl | rfl <;> decide
    exact .cast (.inl ⟨.inl (.inr ⟨s, hi, rfl⟩), .inl (tyText_int _ _)⟩) (.neg (.inl (suffix_signed hs)) (.suffixed hi))
  | @cmp op f o _ _ _ _ _ hc ho _ _ _ ihl ihr =>
    cases op <;> first | (cases hc; done) | (cases ho; exact .compare (by decide) (.inl (tyText_int _ _)) ihl ihr)
  | not _ ih => exact .not (.inr rfl) ih
  | andFalse _ hr ihl => exact .logic (by decide) ihl (any hr)
  | andTrue _ _ ihl ihr => exact .logic (by decide) ihl ihr
  | orTrue _ hr ihl => exact .logic (by decide) ihl (any hr)
  | orFalse _ _ ihl ihr => exact .logic (by decide) ihl ihr
  | iteTrue _ _ hy ihc ihx => exact .ite ihc ihx (any hy)
  | iteFalse _ hx _ ihc ihy => exact .ite ihc (any hx) ihy

theorem sameTypes_in {pre : Option RPath} {env env' : List RTok → Option (IntTy × Int)} (h : SameTypes env env') : typesIn pre env' = typesIn pre env := by
  funext x
  have := h x
  unfold typesIn
  cases h1 : env x <;> cases h2 : env' x <;> rw [h1, h2] at this <;> simp_all

/-- The types do not depend on the values of the variables. -/
theorem eval_type {W : Widths} {pre : Option RPath} {env env' : List RTok → Option (IntTy × Int)} {u : RExpr} {o : Outcome} (hs : SameTypes env env')
    (h : RustEval W pre env' u o) : HasType (fun _ => False) pre (typesIn pre env) u (outcomeText pre o) := by
  have := eval_hasType (fun _ => False) h
  rw [sameTypes_in hs] at this
  exact this

/-! ## Finishing keeps the value -/

/-- How a parameter is written. -/
def paramToks (P : PCtx) (i : Nat) : Option (List RTok) :=
  P.L.argNames[i]?.map fun x => if P.asMacro then [.punct c!"$", .id x] else [.id x]

/-- If the types of the parameters are known, they are those of their values, and their values are the same in C and in Rust. -/
structure Link (P : PCtx) (st : LState) (ρ : Nat → Option (IntTy × Int)) (env : List RTok → Option (IntTy × Int)) : Prop where
  ty : ∀ i t v, ρ i = some (t, v) → ∃ a, st.argTy i = some a ∧ ∀ τ, a = .known τ → τ.toks P = tyText P.C.ffiPrefix t
  name : ∀ i x p, ρ i = some p → paramToks P i = some x → env x = some p
  inj : ∀ i j x p q, ρ i = some p → ρ j = some q → paramToks P i = some x → paramToks P j = some x → i = j
  root : Rooted P.C.ffiPrefix
  plain : ∀ i p, ρ i = some p → ∃ x, P.L.argNames[i]? = some x ∧ x ≠ c!"..." ∧ (P.asMacro = false → x ∉ rustKeywords)

theorem sameTypes_some {α : Type} {ρ ρ' : α → Option (IntTy × Int)} (h : SameTypes ρ ρ') {x : α} {p : IntTy × Int} (hp : ρ' x = some p) :
    ∃ q, ρ x = some q ∧ q.1 = p.1 := by
  have := h x
  rw [hp] at this
  cases hq : ρ x with
  | none => rw [hq] at this; cases this
  | some q => rw [hq] at this; exact ⟨q, rfl, by simpa using this⟩

open Classical in
/-- Other values of the same types, in C and in Rust. -/
theorem Link.other {P : PCtx} {st : LState} {ρ ρ' : Nat → Option (IntTy × Int)} {env : List RTok → Option (IntTy × Int)} (h : Link P st ρ env)
    (hs : SameTypes ρ ρ') : ∃ env', SameTypes env env' ∧ Link P st ρ' env' := by
  let env' : List RTok → Option (IntTy × Int) := fun x =>
    if hx : ∃ p i, ρ' i = some p ∧ paramToks P i = some x then some hx.choose else env x
  have hn : ∀ i x p, ρ' i = some p → paramToks P i = some x → env' x = some p := by
    intro i x p hp hx
    have he : ∃ p i, ρ' i = some p ∧ paramToks P i = some x := ⟨p, i, hp, hx⟩
    obtain ⟨j, h1, h2⟩ := he.choose_spec
    obtain ⟨q, hq, _⟩ := sameTypes_some hs hp
    obtain ⟨q', hq', _⟩ := sameTypes_some hs h1
    obtain rfl := h.inj i j x q q' hq hq' hx h2
    rw [hp] at h1
    injection h1 with h1
    show (if hx : ∃ p i, ρ' i = some p ∧ paramToks P i = some x then some hx.choose else env x) = some p
    rw [dif_pos he, ← h1]
  refine ⟨env', fun x => ?_, fun i t v hi => ?_, hn, fun i j x p q hp hq => ?_, h.root, fun i p hp => ?_⟩
  · by_cases hx : ∃ p i, ρ' i = some p ∧ paramToks P i = some x
    · obtain ⟨p, i, h1, h2⟩ := hx
      obtain ⟨q, hq, hqp⟩ := sameTypes_some hs h1
      rw [hn i x p h1 h2, h.name i x q hq h2]
      simp [hqp]
    · show _ = Option.map _ (if hx : ∃ p i, ρ' i = some p ∧ paramToks P i = some x then some hx.choose else env x)
      rw [dif_neg hx]
  · obtain ⟨q, hq, hqp⟩ := sameTypes_some hs hi
    have := h.ty i q.1 q.2 hq
    rw [hqp] at this
    exact this
  · obtain ⟨p', hp', _⟩ := sameTypes_some hs hp
    obtain ⟨q', hq', _⟩ := sameTypes_some hs hq
    exact h.inj i j x p' q' hp' hq'
  · obtain ⟨p', hp', _⟩ := sameTypes_some hs hp
    exact h.plain i p' hp'

/-- A finished operand that is used as a number of the type `t`. -/
structure Ready (W : Widths) (P : PCtx) (env : List RTok → Option (IntTy × Int)) (e e' : Expr) (ty : Option Ty) (t : IntTy) (v : Int) : Prop where
  ty : ty = none ∨ ∃ τ, ty = some τ ∧ τ.toks P = tyText P.C.ffiPrefix t
  ends : endsCast e' = endsCast e
  begins : beginsBlock e' = beginsBlock e
  fits : FitsBlock e → FitsBlock e'
  sep : Separated e'
  tree : ∃ u, RustTree P e' u ∧ (constant e = false → typed u = true) ∧ RustEval W P.C.ffiPrefix env u (.int t v)

theorem constant_begins : ∀ e : Expr, constant e = true → beginsBlock e = false
  | .bin l op r, h => by
    simp only [constant, Bool.and_eq_true] at h
    rw [beginsBlock, constant_begins l h.1.2]
    cases op <;> first | rfl | (exact absurd h.1.1 (by decide))
  | .lit _, _ => rfl
  | .un op _, h => by
    simp only [constant, Bool.and_eq_true] at h
    cases op <;> first | rfl | (exact absurd h.1 (by decide))
  | .var _, h | .call _ _, h | .cast _ _, h | .stringify _, h | .concatStr _, h | .sizeOf _, h | .ternary _ _ _, h => by
    simp [constant] at h

/-- An operand is ready to be used as a number of the common type. -/
theorem ready {P : PCtx} {env : List RTok → Option (IntTy × Int)} {e e' : Expr} {t T : IntTy} {v : Int} {ty : Option Ty}
    (h : (constant e = true ∧ ty = none ∧ t.Holds W v ∧ ∃ c : LitInt, c.value.toInt = v ∧ e' = .lit (.int c))
      ∨ (constant e = false ∧ Kept W P env e e' ty (.int t v)))
    (hc : constant e = true → T.Holds W v) (hn : constant e = false → t = T) : Ready W P env e e' ty T v := by
  rcases h with ⟨h1, rfl, _, c, rfl, rfl⟩ | ⟨h1, k⟩
  · exact ⟨.inl rfl, (constant_endsCast e h1).1.symm, (constant_begins e h1).symm, fun _ => .inr rfl, trivial, _, .int,
      fun h => (by rw [h1] at h; cases h), eval_int (hc h1)⟩
  · obtain rfl := hn h1
    obtain ⟨u, g1, g2, g3⟩ := k.tree
    exact ⟨k.ty, k.ends, k.begins, k.fits, k.sep, u, g1, fun _ => g2, g3⟩

theorem bool_noText {P : PCtx} {t : IntTy} : (Ty.builtIn .bool).toks P ≠ tyText P.C.ffiPrefix t := by
  intro h
  have h1 := congrArg List.getLast? h
  rw [show (tyText P.C.ffiPrefix t).getLast? = some (.id t.rustName) by simp [tyText],
    show ((Ty.builtIn .bool).toks P).getLast? = some (.id c!"bool") from rfl] at h1
  cases t <;> exact absurd h1 (by decide)

/-- The condition of a conditional expression. -/
theorem condition_kept {P : PCtx} {env : List RTok → Option (IntTy × Int)} {c c' : Expr} {tc : Option Ty} {o : Outcome}
    (hz : ∀ t v, o = .int t v → IntTy.Holds W t 0) (k : Kept W P env c c' tc o) :
    ∃ u, RustTree P (if tc ≠ some (.builtIn .bool) then .bin c' .neq (.lit (.int ⟨0, none⟩)) else c') u ∧
      Separated (if tc ≠ some (.builtIn .bool) then .bin c' .neq (.lit (.int ⟨0, none⟩)) else c') ∧
      RustEval W P.C.ffiPrefix env u (.truth o.met) := by
  obtain ⟨u, g1, g2, g3⟩ := k.tree
  cases o with
  | truth b =>
    have : tc = some (.builtIn .bool) := k.ty
    rw [if_neg (by simp [this])]
    exact ⟨u, g1, k.sep, g3⟩
  | int t v =>
    have : tc ≠ some (.builtIn .bool) := by
      rcases k.ty with h | ⟨τ, h, h'⟩
      · rw [h]; rintro ⟨⟩
      · rw [h]
        rintro ⟨⟩
        exact bool_noText h'
    rw [if_pos this]
    refine ⟨.bin c!"!=" u (rInt 0), .bin rfl g1 .int, ⟨by rintro ⟨⟩, by rintro ⟨⟩, by rintro ⟨⟩, k.sep, trivial⟩, ?_⟩
    exact .cmp (op := .neq) rfl rfl (by rw [show typed u = true from g2]; rfl) g3 (eval_int (hz t v rfl))

theorem holds_zero (t : IntTy) : t.Holds W 0 := by
  have h : (0 : Int) < 2 ^ t.width W := Int.pow_pos (by decide)
  have h' : (0 : Int) < 2 ^ (t.width W - 1) := Int.pow_pos (by decide)
  unfold IntTy.Holds
  split <;> omega

theorem rustOp_arith {op : BinOp} (h : arithmetic op = true) : ∃ o, rustOp op = some o := by
  cases op <;> first | exact ⟨_, rfl⟩ | (simp [arithmetic] at h)

theorem rustOp_cmp {op : BinOp} {f : Int → Int → Bool} (h : comparison op = some f) : ∃ o, rustOp op = some o := by
  cases op <;> first | exact ⟨_, rfl⟩ | (simp [comparison] at h)

theorem join_common {s t T : IntTy} {cl cr : Bool} (hT : T = common W s t) (hc : (cl && cr) = false)
    (hm : s = t ∧ s.promote W = s ∨ cl = true ∧ common W s t = t ∨ cr = true ∧ common W s t = s) :
    (cl = false → s = T) ∧ (cr = false → t = T) := by
  subst hT
  rcases hm with ⟨rfl, h⟩ | ⟨rfl, h⟩ | ⟨rfl, h⟩
  · rw [common_self h]; exact ⟨fun _ => rfl, fun _ => rfl⟩
  · exact ⟨by rintro ⟨⟩, fun _ => h.symm⟩
  · exact ⟨fun _ => h.symm, by rintro ⟨⟩⟩

theorem wraps_exact {t : IntTy} {v v' : Int} (h : Wraps W False t v v') : v' = v ∧ t.Holds W v := by
  cases h with
  | fits h => exact ⟨rfl, h⟩
  | wraps h => exact h.elim

/-- Operands of which one is no literal are neither adjusted nor folded. -/
theorem unfolded {P : PCtx} {env env' : List RTok → Option (IntTy × Int)} {op : BinOp} {l l' r r' : Expr} {lt rt : Option Ty} {s t : IntTy} {a b : Int}
    (hc : (constant l && constant r) = false)
    (hx : op = .mul ∨ op = .add → ¬ (constant l = true ∧ isLimit r = true) ∧ ¬ (constant r = true ∧ isLimit l = true))
    (kl : (constant l = true ∧ lt = none ∧ s.Holds W a ∧ ∃ c : LitInt, c.value.toInt = a ∧ l' = .lit (.int c))
      ∨ (constant l = false ∧ Kept W P env l l' lt (.int s a)))
    (kr : (constant r = true ∧ rt = none ∧ t.Holds W b ∧ ∃ c : LitInt, c.value.toInt = b ∧ r' = .lit (.int c))
      ∨ (constant r = false ∧ Kept W P env' r r' rt (.int t b))) :
    adjustOperands op l' r' lt rt = (l', r', lt, rt) ∧ foldBinary op l' r' = none := by
  rcases kl with ⟨cl, rfl, _, c, _, rfl⟩ | ⟨cl, kl⟩ <;> rcases kr with ⟨cr, rfl, _, d, _, rfl⟩ | ⟨cr, kr⟩
  · rw [cl, cr] at hc; cases hc
  · exact ⟨adjust_right kr.lit fun ho => kr.maxTy (by simpa [cl] using (hx ho).1), fold_none (.inr kr.lit)⟩
  · exact ⟨adjust_left kl.lit fun ho => kl.maxTy (by simpa [cr] using (hx ho).2), fold_none (.inl kl.lit)⟩
  · exact ⟨adjust_both kl.lit kr.lit, fold_none (.inl kl.lit)⟩

/-- The unsigned type holds the greatest number of the signed type. -/
theorem greatest_unsigned {s : IntTy} (h : s.unsigned = false) : s.toUnsigned.Holds W (s.greatest W) := by
  have h1 : s.toUnsigned.unsigned = true := by cases s <;> rfl
  have h2 : s.toUnsigned.width W = s.width W := by cases s <;> rfl
  have h3 : (0 : Int) < 2 ^ (s.width W - 1) := Int.pow_pos (by decide)
  have h4 : (2 : Int) ^ (s.width W - 1) ≤ 2 ^ s.width W := by
    have := Nat.pow_le_pow_right (n := 2) (by decide) (Nat.sub_le (s.width W) 1)
    exact_mod_cast this
  simp only [IntTy.Holds, IntTy.greatest, h, h1, h2, if_true, Bool.false_eq_true, if_false]
  omega

/-- A finished number is folded or keeps its value; a finished condition keeps its answer. -/
def KeptOut (W : Widths) (P : PCtx) (env : List RTok → Option (IntTy × Int)) (e e' : Expr) (ty : Option Ty) : Outcome → Prop
  | .int t v => constant e = false → Kept W P env e e' ty (.int t v)
  | .truth b => Kept W P env e e' ty (.truth b)

theorem KeptOut.kept {P : PCtx} {env : List RTok → Option (IntTy × Int)} {e e' : Expr} {ty : Option Ty} {o : Outcome}
    (h : KeptOut W P env e e' ty o) (hc : constant e = false) : Kept W P env e e' ty o := by
  cases o with
  | int => exact h hc
  | truth => exact h

/-- `&&` and `||`. -/
theorem logical {P : PCtx} {L : Loc} {st st' : LState} {ρ ρ' : Nat → Option (IntTy × Int)} {env env' : List RTok → Option (IntTy × Int)}
    {l r e' : Expr} {op : BinOp} {a b : Bool} {n : Nat} {ty : Option Ty} (hop : op = .and ∨ op = .or)
    (hl : FnValue W False False ρ l (.truth a)) (_hr : FnValue W False False ρ' r (.truth b))
    (hf : Expr.finish P.C L n (.bin l op r) st = ⟨e', st', .ok ty⟩) (hs : Separated (.bin l op r))
    (ihl : ∀ m l' sl lt, Expr.finish P.C L m l st = ⟨l', sl, .ok lt⟩ → Separated l → KeptOut W P env l l' lt (.truth a))
    (ihr : ∀ m r' sr rt, Expr.finish P.C L m r st = ⟨r', sr, .ok rt⟩ → Separated r → KeptOut W P env' r r' rt (.truth b)) :
    ∃ u v l' r' lt rt, e' = .bin l' op r' ∧ ty = some (.builtIn .bool) ∧ Kept W P env l l' lt (.truth a) ∧ Kept W P env' r r' rt (.truth b) ∧
      RustTree P l' u ∧ True ∧ RustEval W P.C.ffiPrefix env u (.truth a) ∧ RustTree P r' v ∧ RustEval W P.C.ffiPrefix env' v (.truth b) ∧
      Separated (.bin l' op r') := by
  have hpu : pureOp op = true ∧ op.isBool = true ∧ op ≠ .lt ∧ op ≠ .shl ∧ op ≠ .memberAccess := by
    rcases hop with rfl | rfl <;> decide
  obtain ⟨m, l', r', sl, sr, lt, rt, h1, h2, h3⟩ := finish_bin hpu.1 hf
  rw [Separated] at hs
  obtain rfl := fn_state hl h1
  have kl : Kept W P env l l' lt (.truth a) := ihl m l' sl lt h1 hs.2.2.2.1
  have kr : Kept W P env' r r' rt (.truth b) := ihr m r' sr rt h2 hs.2.2.2.2
  obtain ⟨rfl, rfl⟩ := h3 (adjust_both kl.lit kr.lit) (fold_none (.inl kl.lit))
  obtain ⟨y, g1, g2, g3⟩ := kl.tree
  obtain ⟨z, f1, f2, f3⟩ := kr.tree
  rw [hpu.2.1, if_pos rfl]
  exact ⟨y, z, l', r', lt, rt, rfl, rfl, kl, kr, g1, trivial, g3, f1, f3,
    ⟨fun h => absurd h hpu.2.2.1, fun h => absurd h hpu.2.2.2.1, fun h => absurd h hpu.2.2.2.2, kl.sep, kr.sep⟩⟩

/-- Finishing keeps what an expression yields, and its type is the one C gives it. -/
theorem fn_finish {P : PCtx} {L : Loc} {st : LState} {ρ : Nat → Option (IntTy × Int)}
    {e : Expr} {o : Outcome} (h : FnValue W False False ρ e o) : ∀ env n e' st' ty, Link P st ρ env →
    Expr.finish P.C L n e st = ⟨e', st', .ok ty⟩ → Separated e → KeptOut W P env e e' ty o := by
  induction h with
  | const h => intro env n e' st' ty _ _ _ hc; rw [typed_constant h] at hc; cases hc
  | @param ρ i t v hi =>
    intro env n e' st' ty hp hf _ _
    obtain ⟨a, h1, h2⟩ := hp.ty i t v hi
    obtain ⟨x, hx1, hx2, hx3⟩ := hp.plain i _ hi
    have ht : ∃ y, RustTree P (.var (.arg i)) (.name y) ∧ env y = some (t, v) := by
      cases ha : P.asMacro with
      | false => exact ⟨_, .param hx1 hx2 ha (hx3 ha), hp.name i _ _ hi (by simp [paramToks, hx1, ha])⟩
      | true => exact ⟨_, .metavar hx1 hx2 ha, hp.name i _ _ hi (by simp [paramToks, hx1, ha])⟩
    obtain ⟨y, ht, hy⟩ := ht
    cases n with
    | zero => cases hf
    | succ n =>
      rw [Expr.finish, finishStep] at hf
      have : ∃ ty, finishVar P.C (.arg i) st = (st, .ok ty) ∧ (ty = none ∨ ∃ τ, ty = some τ ∧ τ.toks P = tyText P.C.ffiPrefix t) := by
        simp only [finishVar, IdentExpr.finish, h1]
        cases a with
        | known τ => exact ⟨_, rfl, .inr ⟨τ, rfl, h2 τ rfl⟩⟩
        | _ => exact ⟨_, rfl, .inl rfl⟩
      obtain ⟨ty', this, hty⟩ := this
      rw [this] at hf
      dsimp only at hf
      injection hf with e1 e2 e3
      subst e1 e2
      injection e3 with e3
      subst e3
      exact ⟨hty, by rintro l ⟨⟩, fun _ => rfl, rfl, rfl, rfl, rfl, trivial, _, ht, rfl, .name hy⟩
  | @limit ρ id t hl hpr =>
    intro env n e' st' ty hp hf _ _
    rw [hpr.resolve_left fun h => h]
    cases n with
    | zero => cases hf
    | succ n =>
      rw [Expr.finish, finishStep, limit_finish hl] at hf
      dsimp only at hf
      injection hf with e1 e2 e3
      subst e1 e2
      injection e3 with e3
      subst e3
      refine ⟨.inr ⟨_, rfl, tyText_is P t⟩, by rintro l ⟨⟩, fun h => by simp [isLimit, hl] at h, rfl, rfl, rfl, rfl, trivial, _, .limit hl hp.root, rfl, ?_⟩
      rw [tyText_is]
      exact .max
  | @neg ρ e t v v' hc he hu hw ih =>
    intro env n e' st' ty hp hf hs _
    cases n with
    | zero => cases hf
    | succ n =>
      rw [Expr.finish, finishStep] at hf
      cases hx : Expr.finish P.C L n e st with
      | mk x sx rx =>
        rw [hx] at hf
        cases rx with
        | error => cases hf
        | ok tx =>
          have k := ih env n x sx tx hp hx hs.2 hc
          have hfo : foldUnary P.C .minus x tx = .ok (.un .minus x) := by
            unfold foldUnary
            split <;> first | rfl | (exact absurd rfl (k.lit _)) | (simp_all; done)
          simp only [unaryTy, hfo] at hf
          injection hf with e1 e2 e3
          subst e1 e2
          injection e3 with e3
          subst e3
          obtain ⟨y, h1, h2, h3⟩ := k.tree
          obtain ⟨hu, hpr⟩ := hu.resolve_left id
          rw [hpr] at hw ⊢
          cases hw with
          | wraps hw => exact hw.elim
          | fits hw =>
            exact ⟨k.ty, by rintro l ⟨⟩, fun _ => rfl, rfl, rfl, rfl, rfl, ⟨by rintro ⟨⟩, k.sep⟩, _, .un rfl h1, h2,
              .neg hu h3 hw⟩
  | @comp ρ e t v he hpr ih =>
    intro env n e' st' ty hp hf hs _
    obtain ⟨hc, hpr⟩ := hpr.resolve_left id
    rw [hpr]
    cases n with
    | zero => cases hf
    | succ n =>
      rw [Expr.finish, finishStep] at hf
      cases hx : Expr.finish P.C L n e st with
      | mk x sx rx =>
        rw [hx] at hf
        cases rx with
        | error => cases hf
        | ok tx =>
          have k := ih env n x sx tx hp hx hs.2 hc
          have hfo : foldUnary P.C .comp x tx = .ok (.un .comp x) := by
            unfold foldUnary
            split <;> first | rfl | (exact absurd rfl (k.lit _)) | (simp_all; done)
          simp only [unaryTy, hfo] at hf
          injection hf with e1 e2 e3
          subst e1 e2
          injection e3 with e3
          subst e3
          obtain ⟨y, h1, h2, h3⟩ := k.tree
          exact ⟨k.ty, by rintro l ⟨⟩, fun _ => rfl, rfl, rfl, rfl, rfl, ⟨by rintro ⟨⟩, k.sep⟩, _, .un rfl h1, h2, .comp h3⟩
  | @bin ρ l r op s t a b a' b' v v' hop hcc hl hr hm ha' hb' hv hq hv' hlim ihl ihr =>
    intro env n e' st' ty hp hf hs hc
    obtain ⟨hpu, hnb⟩ := arith_pure (op := op) (by rw [hop]; rfl)
    obtain ⟨m, l', r', sl, sr, lt, rt, h1, h2, h3⟩ := finish_bin hpu hf
    obtain ⟨o, ho⟩ := rustOp_arith hop
    rw [Separated] at hs
    obtain rfl := fn_state hl h1
    obtain rfl := fn_state hr h2
    have kl := operand (P := P) (env := env) hl h1 (ihl env m l' _ lt hp h1 hs.2.2.2.1)
    have kr := operand (P := P) (env := env) hr h2 (ihr env m r' _ rt hp h2 hs.2.2.2.2)
    have hne : op ≠ .memberAccess := by rintro rfl; simp [arithmetic] at hop
    have hnl : op ≠ .lt := by rintro rfl; simp [arithmetic] at hop
    have hns : op ≠ .shl := by rintro rfl; simp [arithmetic] at hop
    have hcc' : (constant l && constant r) = false := by simpa [constant, hop] using hc
    obtain ⟨rfl, ha'⟩ := wraps_exact ha'
    obtain ⟨rfl, hb'⟩ := wraps_exact hb'
    obtain ⟨rfl, hv'⟩ := wraps_exact hv'
    have hT := join_common (W := W) rfl hcc' (hm.resolve_left id)
    have rl := ready kl (fun _ => ha') hT.1
    have rr := ready kr (fun _ => hb') hT.2
    have hun : adjustOperands op l' r' lt rt = (l', r', lt, rt) ∧ foldBinary op l' r' = none := unfolded hcc' (hlim.resolve_left id) kl kr
    obtain ⟨rfl, rfl⟩ := h3 hun.1 hun.2
    obtain ⟨y, g1, g2, g3⟩ := rl.tree
    obtain ⟨z, f1, f2, f3⟩ := rr.tree
    refine ⟨?_, by rintro l ⟨⟩, fun _ => rfl, rr.ends, rfl, by rw [beginsBlock, beginsBlock, rl.begins], rfl,
      ⟨fun h => absurd h hnl, fun h => absurd h hns, fun h => absurd h hne, rl.sep, rr.sep⟩, _, .bin ho g1 f1, ?_,
      .bin hop ho g3 f3 hv hq hv'⟩
    · rw [hnb, if_neg (by decide)]
      exact join_kept rl.ty rr.ty
    · show typed _ = true
      cases hx : constant l with
      | false => exact typed_bin (.inl (g2 hx))
      | true =>
        rw [hx] at hcc'
        exact typed_bin (.inr ⟨f2 hcc', arith_noShift hop ho⟩)
  | @widened ρ id op r s t b b' v v' hop hl hpr hr hcm hb' hv hv' =>
    intro env n e' st' ty hp hf hs hc
    obtain ⟨c, hcb, rfl, rfl, rfl⟩ := widened_finish hop hl hr hf
    obtain ⟨rfl, hb'⟩ := wraps_exact hb'
    obtain ⟨rfl, hv'⟩ := wraps_exact hv'
    obtain ⟨har, hns, hnl, hne⟩ : arithmetic op = true ∧ op ≠ .shl ∧ op ≠ .lt ∧ op ≠ .memberAccess := by
      rcases hop with rfl | rfl <;> exact ⟨rfl, by decide, by decide, by decide⟩
    obtain ⟨o, ho⟩ := rustOp_arith har
    have ht : RustTree P (.cast (.builtIn s.toUnsigned.cType) (.var (.plain id))) _ :=
      .cast ⟨by cases s <;> rintro ⟨⟩, .inl (by rintro i ⟨⟩)⟩ (by rw [tyText_is]; exact tyText_text _ _) (by rintro i ⟨⟩) (.limit hl hp.root)
    refine ⟨.inr ⟨_, rfl, tyText_is P _⟩, by rintro l ⟨⟩, fun _ => rfl, (constant_endsCast r (typed_constant hr)).1.symm, rfl, rfl, rfl,
      ⟨fun h => absurd h hnl, fun h => absurd h hns, fun h => absurd h hne, trivial, trivial⟩, _, .bin ho ht .int, typed_bin (.inl rfl), ?_⟩
    refine .bin har ho ?_ (by rw [hcb]; exact eval_int hb') hv (by rcases hop with rfl | rfl <;> rintro ⟨⟩) hv'
    rw [tyText_is, tyText_is]
    exact .cast rfl .max (greatest_unsigned (limit_unsigned hl).2) (by simp)
  | @shl ρ l r s t a v' k hcc hl hr hm hk h0 hv ihl ihr =>
    intro env n e' st' ty hp hf hs hc
    obtain ⟨m, l', r', sl, sr, lt, rt, h1, h2, h3⟩ := finish_bin rfl hf
    rw [Separated] at hs
    obtain rfl := fn_state hl h1
    obtain rfl := fn_state hr h2
    obtain ⟨cl, hm, hpr⟩ := hm.resolve_left id
    have kl := ihl env m l' _ lt hp h1 hs.2.2.2.1 cl
    have kr := operand (P := P) (env := env) hr h2 (ihr env m r' _ rt hp h2 hs.2.2.2.2)
    obtain ⟨y, g1, g2, g3⟩ := kl.tree
    have hsh : BinOp.shl = .shl → endsCast l' = true → isCast l' = true := by
      rw [kl.ends, kl.cast]; exact hs.2.1
    rw [hpr] at hk hv ⊢
    obtain ⟨hv1, hv2⟩ := holds_wrap hv
    have hun := unfolded (op := .shl) (by rw [cl]; rfl) (by rintro (h | h) <;> cases h) (.inr ⟨cl, kl⟩) kr
    obtain ⟨rfl, rfl⟩ := h3 hun.1 hun.2
    rcases kr with ⟨cr, rfl, hkt, d, hd, rfl⟩ | ⟨cr, kr⟩
    · exact ⟨join_kept kl.ty (.inl rfl), by rintro l ⟨⟩, fun _ => rfl, (constant_endsCast r cr).1.symm, rfl, kl.begins, rfl,
        ⟨by rintro ⟨⟩, hsh, by rintro ⟨⟩, kl.sep, trivial⟩, _, .bin rfl g1 .int,
        typed_bin (.inl g2), .shl g3 (.inr rfl) (by rw [hd]; exact eval_int (shift_held hk)) hk hv1 hv2⟩
    · rcases hm with rfl | h
      · obtain ⟨z, f1, f2, f3⟩ := kr.tree
        exact ⟨join_kept kl.ty kr.ty, by rintro l ⟨⟩, fun _ => rfl, kr.ends, rfl, kl.begins, rfl,
          ⟨by rintro ⟨⟩, hsh, by rintro ⟨⟩, kl.sep, kr.sep⟩, _, .bin rfl g1 f1,
          typed_bin (.inl g2), .shl g3 (.inl f2) f3 hk hv1 hv2⟩
      · rw [cr] at h; cases h
  | @shr ρ l r s t a k hcc hl hr hm hk h0 ihl ihr =>
    intro env n e' st' ty hp hf hs hc
    obtain ⟨m, l', r', sl, sr, lt, rt, h1, h2, h3⟩ := finish_bin rfl hf
    rw [Separated] at hs
    obtain rfl := fn_state hl h1
    obtain rfl := fn_state hr h2
    obtain ⟨cl, hm, hpr⟩ := hm.resolve_left id
    have kl := ihl env m l' _ lt hp h1 hs.2.2.2.1 cl
    have kr := operand (P := P) (env := env) hr h2 (ihr env m r' _ rt hp h2 hs.2.2.2.2)
    obtain ⟨y, g1, g2, g3⟩ := kl.tree
    rw [hpr] at hk ⊢
    have hun := unfolded (op := .shr) (by rw [cl]; rfl) (by rintro (h | h) <;> cases h) (.inr ⟨cl, kl⟩) kr
    obtain ⟨rfl, rfl⟩ := h3 hun.1 hun.2
    rcases kr with ⟨cr, rfl, hkt, d, hd, rfl⟩ | ⟨cr, kr⟩
    · exact ⟨join_kept kl.ty (.inl rfl), by rintro l ⟨⟩, fun _ => rfl, (constant_endsCast r cr).1.symm, rfl, kl.begins, rfl,
        ⟨by rintro ⟨⟩, by rintro ⟨⟩, by rintro ⟨⟩, kl.sep, trivial⟩, _, .bin rfl g1 .int,
        typed_bin (.inl g2), .shr g3 (.inr rfl) (by rw [hd]; exact eval_int (shift_held hk)) hk⟩
    · rcases hm with rfl | h
      · obtain ⟨z, f1, f2, f3⟩ := kr.tree
        exact ⟨join_kept kl.ty kr.ty, by rintro l ⟨⟩, fun _ => rfl, kr.ends, rfl, kl.begins, rfl,
          ⟨by rintro ⟨⟩, by rintro ⟨⟩, by rintro ⟨⟩, kl.sep, kr.sep⟩, _, .bin rfl g1 f1,
          typed_bin (.inl g2), .shr g3 (.inl f2) f3 hk⟩
      · rw [cr] at h; cases h
  | @cmp ρ l r op f s t a b a' b' hop hl hr hm ha' hb' ihl ihr =>
    intro env n e' st' ty hp hf hs
    obtain ⟨hpu, hib⟩ := cmp_pure hop
    obtain ⟨m, l', r', sl, sr, lt, rt, h1, h2, h3⟩ := finish_bin hpu hf
    obtain ⟨o, ho⟩ := rustOp_cmp hop
    rw [Separated] at hs
    obtain rfl := fn_state hl h1
    obtain rfl := fn_state hr h2
    have kl := operand (P := P) (env := env) hl h1 (ihl env m l' _ lt hp h1 hs.2.2.2.1)
    have kr := operand (P := P) (env := env) hr h2 (ihr env m r' _ rt hp h2 hs.2.2.2.2)
    have hne : op ≠ .memberAccess := by rintro rfl; simp [comparison] at hop
    have hns : op ≠ .shl := by rintro rfl; simp [comparison] at hop
    obtain ⟨hcc, c, hm⟩ := hm.resolve_left id
    obtain ⟨rfl, _⟩ := wraps_exact ha'
    obtain ⟨rfl, _⟩ := wraps_exact hb'
    have rl := ready (T := c) kl (fun _ => hm.2.2.1) fun h => hm.1.resolve_right (by rw [h]; decide)
    have rr := ready (T := c) kr (fun _ => hm.2.2.2) fun h => hm.2.1.resolve_right (by rw [h]; decide)
    have hun : adjustOperands op l' r' lt rt = (l', r', lt, rt) ∧ foldBinary op l' r' = none := unfolded hcc (by rintro (rfl | rfl) <;> cases hop) kl kr
    obtain ⟨rfl, rfl⟩ := h3 hun.1 hun.2
    obtain ⟨y, g1, g2, g3⟩ := rl.tree
    obtain ⟨z, f1, f2, f3⟩ := rr.tree
    refine ⟨by rw [hib, if_pos rfl]; rfl, by rintro l ⟨⟩, fun _ => rfl, rr.ends, rfl, by rw [beginsBlock, beginsBlock, rl.begins], rfl,
      ⟨fun h => by rw [rl.ends]; exact hs.1 h, fun h => absurd h hns, fun h => absurd h hne, rl.sep, rr.sep⟩, _, .bin ho g1 f1, trivial,
      .cmp hop ho ?_ g3 f3⟩
    rw [Bool.or_eq_true]
    cases hx : constant l with
    | false => exact .inl (g2 hx)
    | true =>
      rw [hx] at hcc
      exact .inr (f2 hcc)
  | @not ρ e b he ih =>
    intro env n e' st' ty hp hf hs
    cases n with
    | zero => cases hf
    | succ n =>
      rw [Expr.finish, finishStep] at hf
      cases hx : Expr.finish P.C L n e st with
      | mk x sx rx =>
        rw [hx] at hf
        cases rx with
        | error => cases hf
        | ok tx =>
          have k := ih env n x sx tx hp hx hs.2
          have hfo : foldUnary P.C .not x (some (.builtIn .bool)) = .ok (.un .not x) := by
            unfold foldUnary
            split <;> first | rfl | (exact absurd rfl (k.lit _)) | (simp_all; done)
          simp only [unaryTy, hfo] at hf
          injection hf with e1 e2 e3
          subst e1 e2
          injection e3 with e3
          subst e3
          obtain ⟨y, h1, h2, h3⟩ := k.tree
          exact ⟨rfl, by rintro l ⟨⟩, fun _ => rfl, rfl, rfl, rfl, rfl, ⟨by rintro ⟨⟩, k.sep⟩, _, .un rfl h1, trivial, .not h3⟩
  | @andFalse ρ ρ' l r b hl hst hr ihl ihr =>
    intro env n e' st' ty hp hf hs
    obtain ⟨env', hst', hp'⟩ := hp.other hst
    obtain ⟨u, v, l', r', lt, rt, rfl, rfl, kl, kr, h1, _, h2, h3, _, h4⟩ :=
      logical (.inl rfl) hl hr hf hs (fun m l' sl lt => ihl env m l' sl lt hp) fun m r' sr rt => ihr env' m r' sr rt hp'
    exact ⟨rfl, by rintro l ⟨⟩, fun _ => rfl, kr.ends, rfl, kl.begins, rfl, h4, _, .bin rfl h1 h3, trivial, .andFalse h2 (eval_type hst' ‹_›)⟩
  | @andTrue ρ l r b hl hr ihl ihr =>
    intro env n e' st' ty hp hf hs
    obtain ⟨u, v, l', r', lt, rt, rfl, rfl, kl, kr, h1, _, h2, h3, _, h4⟩ :=
      logical (.inl rfl) hl hr hf hs (fun m l' sl lt => ihl env m l' sl lt hp) fun m r' sr rt => ihr env m r' sr rt hp
    exact ⟨rfl, by rintro l ⟨⟩, fun _ => rfl, kr.ends, rfl, kl.begins, rfl, h4, _, .bin rfl h1 h3, trivial, .andTrue h2 ‹_›⟩
  | @orTrue ρ ρ' l r b hl hst hr ihl ihr =>
    intro env n e' st' ty hp hf hs
    obtain ⟨env', hst', hp'⟩ := hp.other hst
    obtain ⟨u, v, l', r', lt, rt, rfl, rfl, kl, kr, h1, _, h2, h3, _, h4⟩ :=
      logical (.inr rfl) hl hr hf hs (fun m l' sl lt => ihl env m l' sl lt hp) fun m r' sr rt => ihr env' m r' sr rt hp'
    exact ⟨rfl, by rintro l ⟨⟩, fun _ => rfl, kr.ends, rfl, kl.begins, rfl, h4, _, .bin rfl h1 h3, trivial, .orTrue h2 (eval_type hst' ‹_›)⟩
  | @orFalse ρ l r b hl hr ihl ihr =>
    intro env n e' st' ty hp hf hs
    obtain ⟨u, v, l', r', lt, rt, rfl, rfl, kl, kr, h1, _, h2, h3, _, h4⟩ :=
      logical (.inr rfl) hl hr hf hs (fun m l' sl lt => ihl env m l' sl lt hp) fun m r' sr rt => ihr env m r' sr rt hp
    exact ⟨rfl, by rintro l ⟨⟩, fun _ => rfl, kr.ends, rfl, kl.begins, rfl, h4, _, .bin rfl h1 h3, trivial, .orFalse h2 ‹_›⟩
  | @condTrue ρ ρ' c x y o s t v w v' hc hco hmet hx hst hy hm hw ihc ihx ihy =>
    intro env n e' st' ty hp hf hs _
    obtain ⟨env', hst', hp'⟩ := hp.other hst
    obtain ⟨m, c', x', y', sc, sx, sy, tc, tx, ty', h1, h2, h3, rfl, rfl, rfl⟩ := finish_ternary hf
    obtain rfl := fn_state hco h1
    obtain rfl := fn_state hx h2
    obtain rfl := fn_state hy h3
    rw [Separated] at hs
    have kc := (ihc env m c' _ tc hp h1 hs.2.2.1).kept hc
    have kx := operand (P := P) (env := env) hx h2 (ihx env m x' _ tx hp h2 hs.2.2.2.1)
    have ky := operand (P := P) (env := env') hy h3 (ihy env' m y' _ ty' hp' h3 hs.2.2.2.2)
    obtain ⟨hcc, hm⟩ := hm.resolve_left id
    obtain ⟨rfl, hw⟩ := wraps_exact hw
    have hT := join_common (W := W) rfl hcc (hm.imp_right (.imp_right fun h => ⟨h.1, h.2.1⟩))
    have rx := ready kx (fun _ => hw) hT.1
    have ry := ready ky (fun hcy => (by
      rcases hm with ⟨rfl, hpr⟩ | ⟨h, _⟩ | ⟨_, _, h⟩
      · rw [common_self hpr]
        rcases ky with ⟨_, _, h, _⟩ | ⟨h, _⟩
        · exact h
        · rw [hcy] at h; cases h
      · rw [h, hcy] at hcc; cases hcc
      · exact h)) hT.2
    obtain ⟨d, d1, d2, d3⟩ := condition_kept (fun t _ _ => holds_zero t) kc
    rw [hmet] at d3
    obtain ⟨ux', g1, g2, g3⟩ := rx.tree
    obtain ⟨uy', f1, f2, f3⟩ := ry.tree
    refine ⟨join_kept rx.ty ry.ty, by rintro l ⟨⟩, fun _ => rfl, rfl, rfl, rfl, rfl,
      ⟨rx.fits hs.1, ry.fits hs.2.1, d2, rx.sep, ry.sep⟩, _, .ternary d1 g1 f1, ?_, .iteTrue d3 g3 (eval_type hst' f3)⟩
    show (typed _ || typed _) = true
    rw [Bool.or_eq_true]
    cases hx : constant x with
    | false => exact .inl (g2 hx)
    | true => rw [hx] at hcc; exact .inr (f2 hcc)
  | @condFalse ρ ρ' c x y o s t v w w' hc hco hmet hst hx hy hm hw ihc ihx ihy =>
    intro env n e' st' ty hp hf hs _
    obtain ⟨env', hst', hp'⟩ := hp.other hst
    obtain ⟨m, c', x', y', sc, sx, sy, tc, tx, ty', h1, h2, h3, rfl, rfl, rfl⟩ := finish_ternary hf
    obtain rfl := fn_state hco h1
    obtain rfl := fn_state hx h2
    obtain rfl := fn_state hy h3
    rw [Separated] at hs
    have kc := (ihc env m c' _ tc hp h1 hs.2.2.1).kept hc
    have kx := operand (P := P) (env := env') hx h2 (ihx env' m x' _ tx hp' h2 hs.2.2.2.1)
    have ky := operand (P := P) (env := env) hy h3 (ihy env m y' _ ty' hp h3 hs.2.2.2.2)
    obtain ⟨hcc, hm⟩ := hm.resolve_left id
    obtain ⟨rfl, hw⟩ := wraps_exact hw
    have hT := join_common (W := W) rfl hcc (hm.imp_right (.imp_left fun h => ⟨h.1, h.2.1⟩))
    have rx := ready kx (fun hcx => (by
      rcases hm with ⟨rfl, hpr⟩ | ⟨_, _, h⟩ | ⟨h, _⟩
      · rw [common_self hpr]
        rcases kx with ⟨_, _, h, _⟩ | ⟨h, _⟩
        · exact h
        · rw [hcx] at h; cases h
      · exact h
      · rw [h, hcx] at hcc; cases hcc)) hT.1
    have ry := ready ky (fun _ => hw) hT.2
    obtain ⟨d, d1, d2, d3⟩ := condition_kept (fun t _ _ => holds_zero t) kc
    rw [hmet] at d3
    obtain ⟨ux', g1, g2, g3⟩ := rx.tree
    obtain ⟨uy', f1, f2, f3⟩ := ry.tree
    refine ⟨join_kept rx.ty ry.ty, by rintro l ⟨⟩, fun _ => rfl, rfl, rfl, rfl, rfl,
      ⟨rx.fits hs.1, ry.fits hs.2.1, d2, rx.sep, ry.sep⟩, _, .ternary d1 g1 f1, ?_, .iteFalse d3 (eval_type hst' g3) f3⟩
    show (typed _ || typed _) = true
    rw [Bool.or_eq_true]
    cases hx : constant x with
    | false => exact .inl (g2 hx)
    | true => rw [hx] at hcc; exact .inr (f2 hcc)
  | number h => exact h.elim
  | nonzero h => exact h.elim
  | @cast ρ e s t v v' he hw ih =>
    intro env n e' st' ty hp hf hs _
    cases n with
    | zero => cases hf
    | succ n =>
      rw [Expr.finish, finishStep] at hf
      simp only [Ty.finish] at hf
      have htt : TypeText ((Ty.builtIn t.cType).toks P) := by rw [tyText_is]; exact tyText_text _ t
      cases hx : Expr.finish P.C L n e st with
      | mk x sx rx =>
        rw [hx] at hf
        cases rx with
        | error er =>
          dsimp only at hf
          have hni := noIdentCast (C := P.C) (L := L) he n st
          rw [hx] at hni
          have hcp : castAsProduct (.builtIn t.cType) x = none := by
            unfold castAsProduct
            split
            · exact absurd rfl (hni _ _ _)
            · rfl
          rw [hcp] at hf
          split at hf
          · next h => cases h
          · cases hf
        | ok tx =>
          dsimp only at hf
          have hcb : castAsBinary P.C (.builtIn t.cType) x = none := rfl
          have hcs : castOfString (.builtIn t.cType) x = false := rfl
          rw [hcb, hcs] at hf
          simp only [Bool.false_eq_true, if_false] at hf
          injection hf with e1 e2 e3
          subst e1 e2
          injection e3 with e3
          subst e3
          have k := operand (P := P) (env := env) he hx (ih env n x sx tx hp hx hs)
          have hpc' : ∀ x', PlainCast (.builtIn t.cType) x' := fun x' =>
            ⟨by cases t <;> simp [IntTy.cType], .inr ⟨fun τ => by rintro ⟨⟩, fun τ q => by rintro ⟨⟩⟩⟩
          obtain ⟨hv1, hv2⟩ := holds_wrap hw
          refine ⟨.inr ⟨_, rfl, tyText_is P t⟩, by rintro l ⟨⟩, fun _ => rfl, rfl, rfl, ?_, rfl, ?_, ?_⟩
          · rcases k with ⟨cc, _, _, c, _, rfl⟩ | ⟨_, k⟩
            · exact (constant_begins e cc).symm
            · exact k.begins
          · rcases k with ⟨_, _, _, c, _, rfl⟩ | ⟨_, k⟩
            · trivial
            · exact k.sep
          rcases k with ⟨cc, rfl, hh, c, rfl, rfl⟩ | ⟨cc, k⟩
          · refine ⟨_, .castInt (hpc' _) htt, rfl, ?_⟩
            rw [tyText_is]
            exact eval_castLit (toInt_I128 c.value) hv1 hv2
          · obtain ⟨y, g1, g2, g3⟩ := k.tree
            refine ⟨_, .cast (hpc' _) htt (fun i => k.lit _) g1, rfl, ?_⟩
            rw [tyText_is]
            exact .cast g2 g3 hv1 hv2

end CMacro
