import Verif.Spec.Arith
import Verif.Proofs.FinishEnd

/-!
# Constant folding
-/

namespace CMacro
open Spec

theorem toInt_I128 (x : BitVec 128) : I128 x.toInt := by
  have h1 := BitVec.le_toInt x
  have h2 := BitVec.toInt_lt (x := x)
  simp at h1 h2
  exact ⟨h1, h2⟩

theorem bmod_I128 {v : Int} (h : I128 v) : v.bmod (2 ^ 128) = v := by
  obtain ⟨h1, h2⟩ := h
  apply Int.bmod_eq_of_le
  · exact h1
  · exact h2

theorem I128.ext {x y : BitVec 128} (h : x.toInt = y.toInt) : x = y := BitVec.toInt_inj.1 h

theorem bit_toInt (x : BitVec 128) (i : Nat) : bit x.toInt i ↔ (if i < 128 then x.getLsbD i else x.msb) = true := by
  have h1 : x.toInt / 2 ^ i = (x.sshiftRight i).toInt := by
    rw [BitVec.toInt_sshiftRight, Int.shiftRight_eq_div_pow]; simp
  have h2 := BitVec.getLsbD_sshiftRight x i 0
  rw [show (!decide (128 ≤ 0)) = true from rfl, Bool.true_and, Nat.add_zero] at h2
  have h3 : ∀ y : BitVec 128, y.toInt % 2 = 1 ↔ y.getLsbD 0 = true := by
    intro y
    have : y.toInt % 2 = (y.toNat % 2 : Nat) := by
      rw [BitVec.toInt_eq_toNat_cond]
      split <;> omega
    rw [this, BitVec.getLsbD, Nat.testBit_zero]
    simp
    omega
  unfold bit
  rw [h1, h3, h2]

theorem bit_ext {a b : Int} (ha : I128 a) (hb : I128 b) (h : ∀ i, bit a i ↔ bit b i) : a = b := by
  have ea : (BitVec.ofInt 128 a).toInt = a := by rw [BitVec.toInt_ofInt]; exact bmod_I128 ha
  have eb : (BitVec.ofInt 128 b).toInt = b := by rw [BitVec.toInt_ofInt]; exact bmod_I128 hb
  have : BitVec.ofInt 128 a = BitVec.ofInt 128 b := by
    apply BitVec.eq_of_getLsbD_eq
    intro i hi
    have := h i
    rw [← ea, ← eb, bit_toInt, bit_toInt, if_pos hi, if_pos hi] at this
    exact Bool.eq_iff_iff.2 this
  rw [← ea, ← eb, this]

theorem shiftAmount_eq {y : BitVec 128} {k : Nat} (h : y.toInt = k) (hk : k < 128) : shiftAmount y = k := by
  have hn : y.toNat = k := by
    have := y.isLt
    rw [BitVec.toInt_eq_toNat_cond] at h
    split at h <;> omega
  unfold shiftAmount
  have : y.sle (BitVec.ofNat 128 4294967295) = true := by
    rw [BitVec.sle_iff_toInt_le, h]
    have : (BitVec.ofNat 128 4294967295).toInt = 4294967295 := by decide
    rw [this]; omega
  rw [this]
  simp [hn]; omega

theorem tdiv_unique {a b q r : Int} (hb : b ≠ 0) (h : a = b * q + r) (hr : r.natAbs < b.natAbs)
    (hs : r = 0 ∨ (0 < r ↔ 0 < a)) : a.tdiv b = q ∧ a.tmod b = r := by
  have h1 := Int.mul_tdiv_add_tmod a b
  have h2 : (a.tmod b).natAbs < b.natAbs := by
    rw [Int.natAbs_tmod]; exact Nat.mod_lt _ (by omega)
  have h3 : 0 ≤ a → 0 ≤ a.tmod b := fun h => Int.tmod_nonneg b h
  have h4 : a ≤ 0 → a.tmod b ≤ 0 := by
    intro h
    have := Int.tmod_nonneg b (a := -a) (by omega)
    rw [Int.neg_tmod] at this; omega
  have key : b * (a.tdiv b - q) = r - a.tmod b := by
    rw [Int.mul_sub]; omega
  have hlt : (r - a.tmod b).natAbs < b.natAbs := by
    rcases Int.lt_trichotomy a 0 with ha | ha | ha
    · have := h4 (by omega)
      have : r ≤ 0 := by
        rcases hs with hs | hs
        · omega
        · have := mt hs.1 (by omega); omega
      omega
    · have e1 := h4 (by omega)
      have e2 := h3 (by omega)
      have : r ≤ 0 := by
        rcases hs with hs | hs
        · omega
        · have := mt hs.1 (by omega); omega
      omega
    · have := h3 (by omega)
      have : 0 ≤ r := by
        rcases hs with hs | hs
        · omega
        · have := hs.2 ha; omega
      omega
  have hz : a.tdiv b - q = 0 := by
    rw [← key, Int.natAbs_mul] at hlt
    rcases Nat.eq_zero_or_pos (a.tdiv b - q).natAbs with h | h
    · omega
    · have := Nat.le_mul_of_pos_right b.natAbs h
      omega
  rw [hz] at key
  simp at key
  constructor <;> omega

theorem I128.tdiv_ok {a b q r : Int} (h : BinValue .div a b q) : b ≠ 0 ∧ a.tdiv b = q := by
  cases h with
  | div hb h1 h2 h3 => exact ⟨hb, (tdiv_unique hb h1 h2 h3).1⟩

/-- The operators of `LitInt` compute the value. -/
theorem LitInt.op_value {op : BinOp} {a b : LitInt} {v : Int} (h : BinValue op a.value.toInt b.value.toInt v)
    (hv : I128 v) : op.foldsInt = true ∧ ∃ c, LitInt.op op a b = some c ∧ c.value.toInt = v := by
  generalize ha : a.value.toInt = x at h
  generalize hb : b.value.toInt = y at h
  cases h with
  | add =>
    refine ⟨rfl, _, rfl, ?_⟩
    simp only [BitVec.toInt_add, ha, hb]; exact bmod_I128 hv
  | sub =>
    refine ⟨rfl, _, rfl, ?_⟩
    simp only [BitVec.toInt_sub, ha, hb]; exact bmod_I128 hv
  | mul =>
    refine ⟨rfl, _, rfl, ?_⟩
    simp only [BitVec.toInt_mul, ha, hb]; exact bmod_I128 hv
  | div h0 h1 h2 h3 =>
    have hz : b.value ≠ 0 := by
      intro h; rw [h] at hb; simp at hb; exact h0 hb.symm
    refine ⟨rfl, ⟨a.value.sdiv b.value, mergeSuffix a.suffix b.suffix⟩, by simp only [LitInt.op, if_neg hz], ?_⟩
    simp only [BitVec.toInt_sdiv, ha, hb, (tdiv_unique h0 h1 h2 h3).1]; exact bmod_I128 hv
  | rem h0 h1 h2 h3 =>
    have hz : b.value ≠ 0 := by
      intro h; rw [h] at hb; simp at hb; exact h0 hb.symm
    refine ⟨rfl, ⟨a.value.srem b.value, mergeSuffix a.suffix b.suffix⟩, by simp only [LitInt.op, if_neg hz], ?_⟩
    simp only [BitVec.toInt_srem, ha, hb, (tdiv_unique h0 h1 h2 h3).2]
  | shl hk =>
    refine ⟨rfl, _, rfl, ?_⟩
    simp only [shiftAmount_eq hb hk]
    rw [← bmod_I128 hv, ← ha, BitVec.toInt_shiftLeft, BitVec.toInt_eq_toNat_bmod, Int.bmod_mul_bmod]
    congr 1
    rw [Nat.shiftLeft_eq]; simp
  | shr hk =>
    refine ⟨rfl, _, rfl, ?_⟩
    simp only [shiftAmount_eq hb hk, BitVec.toInt_sshiftRight, ha, Int.shiftRight_eq_div_pow]; simp
  | and hbits =>
    refine ⟨rfl, _, rfl, ?_⟩
    apply bit_ext (toInt_I128 _) hv
    intro i
    rw [hbits i, ← ha, ← hb, bit_toInt, bit_toInt, bit_toInt]
    split <;> simp
  | or hbits =>
    refine ⟨rfl, _, rfl, ?_⟩
    apply bit_ext (toInt_I128 _) hv
    intro i
    rw [hbits i, ← ha, ← hb, bit_toInt, bit_toInt, bit_toInt]
    split <;> simp
  | xor hbits =>
    refine ⟨rfl, _, rfl, ?_⟩
    apply bit_ext (toInt_I128 _) hv
    intro i
    rw [hbits i, ← ha, ← hb, bit_toInt, bit_toInt, bit_toInt]
    split <;> simp [Bool.eq_not]

theorem ev_int {C : Ctx} {L : Loc} (n : LitInt) (st : LState) :
    Ev C L (.lit (.int n)) st ⟨.lit (.int n), st, .ok none⟩ :=
  .step (by simp) 0 fun _ _ => rfl

theorem LitInt.op_suffix {op : BinOp} {a b c : LitInt} (h : LitInt.op op a b = some c) :
    c.suffix = mergeSuffix a.suffix b.suffix := by
  unfold LitInt.op at h
  split at h <;> first | (cases h; rfl) | (split at h <;> cases h; rfl) | cases h

/-- `finish` folds an integer constant expression to its value. -/
theorem fold_value_suffix {C : Ctx} {L : Loc} {e : Expr} {v : Int} (h : Value e v) : ∀ st,
    ∃ c : LitInt, c.value.toInt = v ∧ (Spec.Unsuffixed e → c.suffix = none) ∧
      Ev C L e st ⟨.lit (.int c), st, .ok none⟩ := by
  induction h with
  | @lit n => exact fun st => ⟨n, rfl, fun h => h, ev_int n st⟩
  | plus _ ih =>
    intro st
    obtain ⟨c, hc, hs, hd, N, hN⟩ := ih st
    exact ⟨c, hc, hs, .step (by simp) N fun k hk => by simp only [finishStep, hN k hk, unaryTy, foldUnary]⟩
  | @neg e v _ hv ih =>
    intro st
    obtain ⟨c, hc, hs, hd, N, hN⟩ := ih st
    refine ⟨⟨-c.value, negSuffix c.suffix⟩, ?_, fun h => by rw [hs h]; rfl, .step (by simp) N fun k hk => by
      simp only [finishStep, hN k hk, unaryTy, foldUnary]⟩
    simp only [BitVec.toInt_neg, hc]; exact bmod_I128 hv
  | @bin l r op a b v _ _ hop hv ihl ihr =>
    intro st
    obtain ⟨cl, hl, hsl, _, N, hN⟩ := ihl st
    obtain ⟨cr, hr, hsr, _, M, hM⟩ := ihr st
    subst hl hr
    obtain ⟨hf, c, hc, hcv⟩ := LitInt.op_value hop hv
    refine ⟨c, hcv, fun h => ?_, .step' (ev_int c st) (max N M) fun k hk => ?_⟩
    · rw [LitInt.op_suffix hc, hsl h.1, hsr h.2]; rfl
    have hne : op ≠ .memberAccess := by rintro rfl; cases hf
    have hna : op.isAssignment = false := by cases op <;> first | rfl | cases hf
    have hadj : adjustOperands op (.lit (.int cl)) (.lit (.int cr)) none none
        = (.lit (.int cl), .lit (.int cr), none, none) := by
      simp [adjustOperands, maxTyCast]
    have hb : binaryEffects op (.lit (.int cl)) (.lit (.int cr)) st = (st, .ok ()) := by
      simp [binaryEffects, hne, hna]
    simp only [finishStep, hN k (by omega), hM k (by omega), hb, hadj, if_neg hne, foldBinary, hf, if_true, hc]

/-- `finish` folds an integer constant expression to its value. -/
theorem fold_value {C : Ctx} {L : Loc} {e : Expr} {v : Int} (h : Value e v) (st : LState) :
    ∃ c : LitInt, c.value.toInt = v ∧ Ev C L e st ⟨.lit (.int c), st, .ok none⟩ :=
  let ⟨c, hc, _, hev⟩ := fold_value_suffix h st
  ⟨c, hc, hev⟩

end CMacro
