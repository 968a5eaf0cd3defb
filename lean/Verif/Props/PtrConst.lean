import Verif.Spec.PtrConst
import Verif.Props.Pointers
import Verif.Props.Codegen

/-!
# C101: constants that are pointers
-/

namespace CMacro
open Parser Spec

theorem no_type_paren (E : Env) (r : List MacroToken) : parseTy E (.punct c!"(" :: r) = none := rfl

/-- One more pair of parentheses makes no difference, if what stands inside begins with a parenthesis. -/
theorem reads_paren {E : Env} {ts : List MacroToken} {e : Expr} (h : Reads E 12 (.punct c!"(" :: ts) e) :
    Reads E 12 (.punct c!"(" :: (.punct c!"(" :: ts ++ [.punct c!")"])) e := by
  have h0 : Reads E 0 (.punct c!"(" :: (.punct c!"(" :: ts ++ [.punct c!")"])) e := by
    intro rest _
    have h1 := h (.punct c!")" :: rest) (stop_punct (by decide) _)
    rw [List.cons_append, List.append_assoc, List.singleton_append]
    refine prec1_of (factor_paren E _ ?_ ?_)
    · intro x y h; cases h
    · rw [knot_is]; exact h1
  have hl : ∀ rest, Low E (.punct c!"(" :: (.punct c!"(" :: ts ++ [.punct c!")"]) ++ rest) := fun rest =>
    ⟨by simp only [List.cons_append, parenthesized, delimited, terminated, preceded, map, seq, punct_self, meta_none (noComment_punct _ _), no_type_paren],
      prefixOp_none fun p op r hm h' => by cases h'; simp [prefixOps] at hm⟩
  exact (((((((((((h0.up (by decide) (fun _ => hl)).up (by decide) (fun _ => hl)).up (by decide) (by simp)).up (by decide)
    (by simp)).up (by decide) (by simp)).up (by decide) (by simp)).up (by decide) (by simp)).up (by decide) (by simp)).up (by decide)
    (by simp)).up (by decide) (by simp)).up (by decide) (by simp)).up (by decide) (by simp)

theorem reads_parens {E : Env} {ts : List MacroToken} {e : Expr} (h : Reads E 12 (.punct c!"(" :: ts) e) : ∀ k,
    ∃ us, inParens k (.punct c!"(" :: ts) = .punct c!"(" :: us ∧ Reads E 12 (.punct c!"(" :: us) e
  | 0 => ⟨ts, rfl, h⟩
  | k + 1 => by
    obtain ⟨us, h1, h2⟩ := reads_parens h k
    exact ⟨_, by rw [inParens, h1], reads_paren h2⟩

/-- A cast of a constant to a type that is read is a whole body, also in parentheses. -/
theorem cast_body (E : Env) {ws us : List MacroToken} {t : Ty} {e : Expr} (hw : ∀ rest, parseTy E (ws ++ .punct c!")" :: rest) = some (t, .punct c!")" :: rest))
    (hs : ∀ x r, ws ≠ .comment x :: r) (hg : Gram 2 us e) (k : Nat) :
    MacroBody.parse E (inParens k (.punct c!"(" :: (ws ++ .punct c!")" :: us))) = some (.expr (.cast t e), []) := by
  have hr : Reads E 2 (.punct c!"(" :: (ws ++ .punct c!")" :: us)) (.cast t e) := by
    intro rest hrest
    have h2 : lv E 2 (us ++ rest) = some (e, rest) := hg.reads E rest hrest
    have hk : (knot E).prec2 (us ++ rest) = some (e, rest) := (knot_prec2 E _).trans h2
    have hst : ∀ x r', ws ++ .punct c!")" :: (us ++ rest) ≠ .comment x :: r' := by
      intro x r' h
      cases ws with
      | nil => cases h
      | cons w ws => cases h; exact hs _ _ rfl
    have hp : parenthesized (parseTy E) (.punct c!"(" :: (ws ++ .punct c!")" :: (us ++ rest))) = some (t, us ++ rest) := by
      simp only [parenthesized, delimited, terminated, preceded, map, seq, punct_self, meta_none hst, hw, meta_none (noComment_punct _ _)]
    rw [List.cons_append, List.append_assoc, List.cons_append]
    show prec2 E (knot E) _ = _
    simp only [prec2, Parser.or, map, seq, hp, hk]
  have h12 := ((((((((((hr.up (by decide) (by simp)).up (by decide)
    (by simp)).up (by decide) (by simp)).up (by decide) (by simp)).up (by decide) (by simp)).up (by decide) (by simp)).up (by decide)
    (by simp)).up (by decide) (by simp)).up (by decide) (by simp)).up (by decide) (by simp))
  obtain ⟨vs, h1, h2⟩ := reads_parens h12 k
  have hx := h2 [] (.inl rfl)
  rw [List.append_nil] at hx
  rw [h1]
  have hm : «meta» (.punct c!"(" :: vs) = some ([], .punct c!"(" :: vs) := meta_none (by intro s r e; cases e)
  unfold MacroBody.parse
  rw [hm]
  simp only [Parser.or, allConsuming, map, hx]

/-- How a cast of a number to a pointer type is printed. -/
theorem pointer_const {P : PCtx} (hp : ∀ p, P.C.traitPrefix = some p → p.segs ≠ []) {t x : Ty} (ht : t = .ptr x ∨ ∃ q, t = .qualified (.ptr x) q) (c : LitInt) :
    PointerConst P.C.traitPrefix (castToks P t (.lit (.int c)) (Expr.toks P (.lit (.int c)))) (t.toks P) c.value.toInt := by
  have hz : (Expr.lit (.int c)).isZeroLit = true → c.value.toInt = 0 := by
    simp only [Expr.isZeroLit, decide_eq_true_eq]
    rintro h; rw [h]; rfl
  have hpre : ∀ r : List RTok, prefixToks P.C.traitPrefix ++ ([.id c!"ptr"] ++ r) = foreign P.C.traitPrefix c!"ptr" ++ r := fun r => by
    rw [← foreign_prefix hp c!"ptr", List.append_assoc]
  obtain ⟨s, hs1, hs2⟩ := castLit_range c.value.toInt (toInt_I128 c.value)
  have hcast : t.isVoid = false := by rcases ht with rfl | ⟨q, rfl⟩ <;> rfl
  unfold castToks
  split
  · rename_i h
    simp only [Bool.and_eq_true] at h
    rw [hz h.2]
    rcases ht with rfl | ⟨q, rfl⟩
    · cases h.1
    · have hq : q.isConst = true := h.1
      rw [Ty.toks, if_pos hq, show q!"ptr :: null ( )" = [.id c!"ptr"] ++ q!":: null ( )" from rfl, hpre]
      exact .null
  · split
    · rename_i h
      simp only [Bool.and_eq_true] at h
      rw [hz h.2]
      rcases ht with rfl | ⟨q, rfl⟩
      · rw [Ty.toks, show q!"ptr :: null_mut ( )" = [.id c!"ptr"] ++ q!":: null_mut ( )" from rfl, hpre]
        exact .nullMut
      · cases h.1
    · rw [hcast, if_neg (by simp)]
      simp only [castOperand, hs1]
      exact .address hs2

/-- **C101**: a cast of a constant to a pointer type, also in parentheses, becomes a constant of the pointer type, and points to the address that
is the value of the constant. -/
theorem C101_pointer_constants (C : Ctx) (name : Str) (k : Nat) (q : List Str) (T : Str) (B : List RTok) (q' : List Str) (stars : List (List Str))
    (us : List MacroToken) (e : Expr) (v : Int) (hE : C.env.Lawful) (hC : CalmCtx C) (hn : Word C.env name) (hw : Word C.env T)
    (hst : ∀ R, C.resolveTy T = some R → StableTy C.ffiPrefix R) (hp : ∀ p, C.traitPrefix = some p → p.segs ≠ []) (hB : BaseSpelled C T B)
    (hq : Qualifiers q) (hq' : Qualifiers q') (hs : ∀ s ∈ stars, Qualifiers s) (hne : stars ≠ []) (hg : Gram 2 us e) (hv : Value e v) :
    ∃ m text, VarMacro.parse C.env name (inParens k (.punct c!"(" :: (pointerWords q T q' stars ++ .punct c!")" :: us))) = .ok m ∧
      m.Generates C (.ok (text, some (ownText B stars))) ∧ PointerConst C.traitPrefix text (ownText B stars) v := by
  obtain ⟨t, t', ht, hc, hf, htoks, x, hx⟩ := pointer_type hB 0 hw hst hq hq' hs hne
  obtain ⟨c, rfl, hd, N, hN⟩ := fold_value (C := C) (L := varLoc C) hv .init
  have hev : Ev C (varLoc C) (.cast t e) .init ⟨.cast t' (.lit (.int c)), .init, .ok (some t')⟩ := by
    have hb : castAsBinary C t' (.lit (.int c)) = none := by unfold castAsBinary; split <;> simp_all
    have hs : castOfString t' (.lit (.int c)) = false := by unfold castOfString; split <;> simp_all
    refine .step (by simp) N fun n hn => ?_
    simp only [finishStep, hf, hN n hn, hb, hs, Bool.false_eq_true, if_false]
  have hcalm : varOut C ⟨.cast t' (.lit (.int c)), .init, .ok (some t')⟩ ≠ .error .panic := by
    obtain ⟨M, hM⟩ := varGenerates (name := name) (ev_cast_int (L := varLoc C) c (hf .init))
    rw [← hM M (Nat.le_refl _)]
    exact calm_generate_var hC hE (show CalmBody C.env [] (.expr (.cast t (.lit (.int c)))) from ⟨hc, trivial⟩) M
  have hg' := varGenerates (name := name) hev
  refine ⟨⟨name, .expr (.cast t e)⟩, (Expr.cast t' (.lit (.int c))).toks ⟨C, varLoc C, false⟩, ?_, ?_, ?_⟩
  · simp only [VarMacro.parse, isIdent_iff.2 hn, if_true, cast_body C.env ht (by
      intro x r h
      simp only [pointerWords] at h
      cases q <;> cases h) hg k]
  · have : varOut C ⟨.cast t' (.lit (.int c)), .init, .ok (some t')⟩ = .ok ((Expr.cast t' (.lit (.int c))).toks ⟨C, varLoc C, false⟩, some (ownText B stars)) := by
      simp only [varOut, Option.map_some] at hcalm ⊢
      split at hcalm
      · exact absurd rfl hcalm
      · rename_i h
        rw [if_neg h, htoks _ rfl]
        rfl
    rw [← this]
    exact hg'
  · have := pointer_const (P := ⟨C, varLoc C, false⟩) hp hx c
    rw [htoks _ rfl] at this
    exact this

/-- `#define NULL ((void *)0)` becomes `::std::ptr::null_mut()`, of the type `*mut c_void`: what the theorem says about it. -/
example : ∃ m text, VarMacro.parse asciiEnv c!"NULL" [.punct c!"(", .punct c!"(", .ident c!"void", .punct c!"*", .punct c!")", .lit (.int ⟨0, none⟩), .punct c!")"] = .ok m ∧
    m.Generates (Ctx.unit asciiEnv) (.ok (text, some q!"* mut c_void")) ∧ PointerConst none text q!"* mut c_void" 0 :=
  C101_pointer_constants (Ctx.unit asciiEnv) c!"NULL" 1 [] c!"void" _ [] [[]] [.lit (.int ⟨0, none⟩)] _ _ asciiEnv_lawful (calmCtx_unit _)
    (word_ascii (by decide +kernel)) (word_ascii (by decide +kernel)) (by simp [Ctx.unit]) (by simp [Ctx.unit]) .void (by simp [Qualifiers])
    (by simp [Qualifiers]) (by simp [Qualifiers]) (by simp) (Gram.lit.ups (by omega) (by omega)) .lit

/-- `#define REG (point_t * const * volatile)(0x40000000 + 4 * 3)`, in a context that knows the type. -/
example : ∃ m text, VarMacro.parse asciiEnv c!"REG" [.punct c!"(", .ident c!"point_t", .punct c!"*", .ident c!"const", .punct c!"*", .ident c!"volatile", .punct c!")",
      .punct c!"(", .lit (.int ⟨0x40000000, none⟩), .punct c!"+", .lit (.int ⟨4, none⟩), .punct c!"*", .lit (.int ⟨3, none⟩), .punct c!")"] = .ok m ∧
    m.Generates geoCtx (.ok (text, some q!"* mut * const geo :: Point")) ∧ PointerConst none text q!"* mut * const geo :: Point" 0x4000000C := by
  have mul := Gram.bin (ℓ := 2) (p := c!"*") (op := .mul) (by decide) (Gram.lit (l := .int ⟨4, none⟩) |>.ups (by omega) (by omega))
    (Gram.lit (l := .int ⟨3, none⟩) |>.ups (by omega) (by omega))
  have add := Gram.bin (ℓ := 3) (p := c!"+") (op := .add) (by decide) (Gram.lit (l := .int ⟨0x40000000, none⟩) |>.ups (by omega) (by omega)) mul
  have h := C101_pointer_constants geoCtx c!"REG" 0 [] c!"point_t" _ [] [[c!"const"], [c!"volatile"]]
    [.punct c!"(", .lit (.int ⟨0x40000000, none⟩), .punct c!"+", .lit (.int ⟨4, none⟩), .punct c!"*", .lit (.int ⟨3, none⟩), .punct c!")"]
    (.bin (.lit (.int ⟨0x40000000, none⟩)) .add (.bin (.lit (.int ⟨4, none⟩)) .mul (.lit (.int ⟨3, none⟩)))) 0x4000000C asciiEnv_lawful geoCtx_calm
    (word_ascii (by decide +kernel)) (word_ascii (by decide +kernel)) (fun R => geo_stable _ R) (by intro p h; cases h)
    (.name (id := c!"point_t") (p := ⟨false, [c!"geo", c!"Point"]⟩) (by decide) rfl) (by simp [Qualifiers]) (by simp [Qualifiers]) (by simp [Qualifiers]) (by simp)
    ((Gram.paren (add.ups (by omega) (by omega)) (by simp)).ups (by omega) (by omega))
    (.bin (a := 0x40000000) (b := 12) (.lit (n := ⟨0x40000000, none⟩))
      (.bin (a := 4) (b := 3) (.lit (n := ⟨4, none⟩)) (.lit (n := ⟨3, none⟩)) .mul (by unfold Spec.I128; decide)) .add (by unfold Spec.I128; decide))
  exact h

/-- `#define FAILED ((void *) -1)`: the number is of the signed type, so that all bits of the address are set. -/
example : pipeVar 20 (Ctx.unit asciiEnv) [.defineVar c!"FAILED" [c!"(", c!"(", c!"void", c!"*", c!")", c!"-", c!"1", c!")"]] c!"FAILED" =
    .gen (.ok ([.int (-1) c!"i8"] ++ q!"as * mut c_void", some q!"* mut c_void")) := by decide +kernel

end CMacro
