import Verif.Spec.CInt
import Verif.Props.Value

/-!
# Property C63: constants with the integer types of C
-/

namespace CMacro
open Spec

section
variable {W : Widths}

theorem width_bounds (t : IntTy) : 8 ≤ t.width W ∧ t.width W ≤ 64 := by
  have := W.short_ge; have := W.int_ge; have := W.long_ge; have := W.llong_ge; have := W.llong_le
  cases t <;> simp only [IntTy.width] <;> omega

theorem two_pow_mono {m n : Nat} (h : m ≤ n) : (2 : Int) ^ m ≤ 2 ^ n := by
  have := Nat.pow_le_pow_right (n := 2) (by decide) h
  exact_mod_cast this

theorem holds_i128 {t : IntTy} {v : Int} (h : t.Holds W v) : I128 v := by
  have hw := width_bounds (W := W) t
  have h1 : (2 : Int) ^ t.width W ≤ 2 ^ 64 := two_pow_mono hw.2
  have h2 : (2 : Int) ^ (t.width W - 1) ≤ 2 ^ 64 := two_pow_mono (by omega)
  unfold IntTy.Holds at h
  unfold I128
  split at h <;> omega

/-- Without wrapping around, the value is that of ordinary arithmetic. -/
theorem typed_exact {e : Expr} {t : IntTy} {v : Int} (h : TypedValue W False e t v) : Value e v ∧ t.Holds W v := by
  have same : ∀ {t : IntTy} {v v' : Int}, Wraps W False t v v' → v' = v ∧ t.Holds W v := by
    intro t v v' h
    cases h with
    | fits h => exact ⟨rfl, h⟩
    | wraps h _ => exact h.elim
  induction h with
  | lit h =>
    obtain ⟨_, _, _, _, _, h⟩ := h
    exact ⟨.lit, h⟩
  | plus _ ih => exact ⟨.plus ih.1, ih.2⟩
  | neg _ hw ih =>
    obtain ⟨rfl, hh⟩ := same hw
    exact ⟨.neg ih.1 (holds_i128 hh), hh⟩
  | bin _ _ _ ha hb hv hw ihl ihr =>
    obtain ⟨rfl, _⟩ := same ha
    obtain ⟨rfl, _⟩ := same hb
    obtain ⟨rfl, hh⟩ := same hw
    exact ⟨.bin ihl.1 ihr.1 hv (holds_i128 hh), hh⟩
  | @shl l r s t a v' k _ _ hk h0 hw ihl ihr =>
    obtain ⟨rfl, hh⟩ := same hw
    have := width_bounds (W := W) s
    exact ⟨.bin ihl.1 ihr.1 (.shl (by omega)) (holds_i128 hh), hh⟩
  | @shr l r s t a k _ _ hk h0 ihl ihr =>
    have hs := width_bounds (W := W) s
    have hh : s.Holds W (a / 2 ^ k) := by
      have h1 : 0 ≤ a / 2 ^ k := Int.ediv_nonneg h0 (Int.pow_nonneg (by decide))
      have h2 : a / 2 ^ k ≤ a := Int.ediv_le_self _ h0
      have := ihl.2
      unfold IntTy.Holds at this ⊢
      split
      · rename_i hu; rw [if_pos hu] at this; omega
      · rename_i hu; rw [if_neg hu] at this; omega
    exact ⟨.bin ihl.1 ihr.1 (.shr (by omega)) (holds_i128 hh), hh⟩

theorem promote_signed {t : IntTy} (h : t.unsigned = false) : (t.promote W).unsigned = false := by
  cases t <;> first | rfl | cases h

theorem common_signed {s t : IntTy} (hs : s.unsigned = false) (ht : t.unsigned = false) : (common W s t).unsigned = false := by
  have hs := promote_signed (W := W) hs
  have ht := promote_signed (W := W) ht
  unfold common commonWide
  rw [hs, ht, if_pos rfl]
  split <;> assumption

/-- Signed values never wrap around. -/
theorem signed_exact {e : Expr} {t : IntTy} {v : Int} (h : TypedValue W True e t v) (hs : SignedOnly W e) :
    TypedValue W False e t v ∧ t.unsigned = false := by
  have same : ∀ {t : IntTy} {v v' : Int}, t.unsigned = false → Wraps W True t v v' → Wraps W False t v v' := by
    intro t v v' ht h
    cases h with
    | fits h => exact .fits h
    | wraps _ h => rw [ht] at h; cases h
  induction h with
  | lit h => exact ⟨.lit h, hs _ h⟩
  | plus _ ih => exact ⟨.plus (ih hs).1, (ih hs).2⟩
  | neg _ hw ih => exact ⟨.neg (ih hs).1 (same (ih hs).2 hw), (ih hs).2⟩
  | bin ho _ _ ha hb hv hw ihl ihr =>
    have hc := common_signed (W := W) (ihl hs.1).2 (ihr hs.2).2
    exact ⟨.bin ho (ihl hs.1).1 (ihr hs.2).1 (same hc ha) (same hc hb) hv (same hc hw), hc⟩
  | shl _ _ hk h0 hw ihl ihr => exact ⟨.shl (ihl hs.1).1 (ihr hs.2).1 hk h0 (same (ihl hs.1).2 hw), (ihl hs.1).2⟩
  | shr _ _ hk h0 ihl ihr => exact ⟨.shr (ihl hs.1).1 (ihr hs.2).1 hk h0, (ihl hs.1).2⟩

end

/-- C63: a variable-like macro whose body is an integer constant expression with the value `v`, by the types and conversions
of C, generates the constant `v`. -/
def C63_statement : Prop :=
  ∀ (W : Widths) (C : Ctx) (name : Str) (e : Expr) (t : IntTy) (v : Int), TypedValue W True e t v →
    VarMacro.Generates C ⟨name, .expr e⟩ (.ok ([.int v []], none))

/-- C63, when no value wraps around. -/
theorem C63_no_wrap_partial (W : Widths) (C : Ctx) (name : Str) (e : Expr) (t : IntTy) (v : Int) (h : TypedValue W False e t v) :
    VarMacro.Generates C ⟨name, .expr e⟩ (.ok ([.int v []], none)) :=
  C26_folding_exact C name e v (typed_exact h).1

/-- C63, when all constants have signed types. -/
theorem C63_signed_partial (W : Widths) (C : Ctx) (name : Str) (e : Expr) (t : IntTy) (v : Int) (h : TypedValue W True e t v)
    (hs : SignedOnly W e) : VarMacro.Generates C ⟨name, .expr e⟩ (.ok ([.int v []], none)) :=
  C63_no_wrap_partial W C name e t v (signed_exact h hs).1

/-- C63 from the definitions on (see C59), when no value wraps around. -/
theorem C63_text_partial (W : Widths) (C : Ctx) (L : C.env.Lawful) (h : List Op) (name : Str) (body : List Str)
    (hn : IsIdent C.env.xidStart C.env.xidContinue name)
    (hP : Spec.Plain (Spec.cName C.env) (Table.run h)) (hB : Spec.NoBackslash (Table.run h))
    (hdef : Table.run h name = some (.var body)) (ss : List Str)
    (hx : Expands (Spec.cName C.env) (Table.run h) [name] (body.map (Spec.item (Spec.cName C.env))) (Spec.others ss))
    (ts : List MacroToken) (ht : CText C.env ss ts) (e : Expr) (hg : Gram 12 ts e) (t : IntTy) (v : Int)
    (hv : TypedValue W False e t v) : MakesConst C h name [.int v []] none :=
  C59_constant_has_c_value C L h name body hn hP hB hdef ss hx ts ht e hg v (typed_exact hv).1

/-! ## Examples -/

/-- `10UL - 3 << 2`, of the type `unsigned long`, is 28. -/
example (C : Ctx) : VarMacro.Generates C ⟨c!"M", .expr (.bin (.bin (.lit (.int ⟨10, some .uLong⟩)) .sub (.lit (.int ⟨3, none⟩))) .shl
    (.lit (.int ⟨2, none⟩)))⟩ (.ok ([.int 28 []], none)) := by
  have h10 : TypedValue .lp64 False (.lit (.int ⟨10, some .uLong⟩)) .ulong 10 :=
    .lit ⟨true, [], _, rfl, by simp, by decide⟩
  have h3 : TypedValue .lp64 False (.lit (.int ⟨3, none⟩)) .int 3 := .lit ⟨true, [], _, rfl, by simp, by decide⟩
  have h2 : TypedValue .lp64 False (.lit (.int ⟨2, none⟩)) .int (2 : Nat) := .lit ⟨true, [], _, rfl, by simp, by decide⟩
  have hd := TypedValue.bin (W := .lp64) (op := .sub) rfl h10 h3 (.fits (by decide)) (.fits (by decide)) .sub (.fits (by decide))
  exact C63_no_wrap_partial .lp64 C _ _ _ _ (.shl hd h2 (by decide) (by decide) (.fits (by decide)))

/-- `-7 / 2L`, of the type `long`, is -3. -/
example (C : Ctx) : VarMacro.Generates C ⟨c!"M", .expr (.bin (.un .minus (.lit (.int ⟨7, none⟩))) .div (.lit (.int ⟨2, some .long⟩)))⟩
    (.ok ([.int (-3) []], none)) := by
  have h7 : TypedValue .lp64 True (.lit (.int ⟨7, none⟩)) .int 7 := .lit ⟨true, [], _, rfl, by simp, by decide⟩
  have h2 : TypedValue .lp64 True (.lit (.int ⟨2, some .long⟩)) .long 2 := .lit ⟨true, [], _, rfl, by simp, by decide⟩
  have hm := TypedValue.neg h7 (.fits (by decide))
  have hd := TypedValue.bin (W := .lp64) (op := .div) rfl hm h2 (.fits (by decide)) (.fits (by decide))
    (.div (q := -3) (r := -1) (by decide) (by decide) (by decide) (.inr (by decide))) (.fits (by decide))
  refine C63_signed_partial .lp64 C _ _ _ _ hd ⟨?_, ?_⟩
  · rintro t ⟨d, pre, post, hc, hb, _⟩
    cases d <;> rcases pre with _ | ⟨p, pre⟩ <;> simp only [candidates, if_true, Bool.false_eq_true, if_false, List.nil_append, List.cons_append, List.cons.injEq] at hc
    all_goals obtain ⟨rfl, _⟩ := hc
    all_goals first | rfl | exact absurd (by decide) (hb .int (by simp))
  · rintro t ⟨d, pre, post, hc, hb, _⟩
    cases d <;> rcases pre with _ | ⟨p, pre⟩ <;> simp only [candidates, if_true, Bool.false_eq_true, if_false, List.nil_append, List.cons_append, List.cons.injEq] at hc
    all_goals obtain ⟨rfl, _⟩ := hc
    all_goals first | rfl | exact absurd (by decide) (hb .long (by simp))

/-! ## The full claim is false -/

/-- The full claim is false: `1U - 2` is 4294967295 in C, but the constant is -1. -/
theorem C63_false : ¬ C63_statement := by
  intro h
  have h1 : TypedValue .lp64 True (.lit (.int ⟨1, some .uInt⟩)) .uint 1 := .lit ⟨true, [], _, rfl, by simp, by decide⟩
  have h2 : TypedValue .lp64 True (.lit (.int ⟨2, none⟩)) .int 2 := .lit ⟨true, [], _, rfl, by simp, by decide⟩
  have hd := TypedValue.bin (W := .lp64) (op := .sub) rfl h1 h2 (.fits (by decide)) (.fits (by decide)) .sub (.wraps trivial rfl)
  have hg := h .lp64 (.unit asciiEnv) c!"M" _ _ _ hd
  have hg' := C26_folding_exact (.unit asciiEnv) c!"M" _ (-1) (.bin (.lit (n := ⟨1, some .uInt⟩)) (.lit (n := ⟨2, none⟩)) .sub (by unfold I128; decide))
  exact absurd (VarMacro.Generates.unique hg hg') (by decide)

end CMacro
