import Verif.Proofs.FnValue
import Verif.Props.Control

/-!
# Generated functions compute what C computes

Properties C64.
-/

namespace CMacro
open Spec

variable {W : Widths}

/-! ## The values of Rust expressions are unique -/

theorem binValue_unique {op : BinOp} {a b v w : Int} (h : BinValue op a b v) (h' : BinValue op a b w) (hv : I128 v) (hw : I128 w) :
    v = w := by
  cases h with
  | add => cases h'; rfl
  | sub => cases h'; rfl
  | mul => cases h'; rfl
  | div hb h1 h2 h3 =>
    have e1 := (I128.tdiv_ok (q := v) (r := 0) (.div hb h1 h2 h3)).2
    have e2 := (I128.tdiv_ok (q := w) (r := 0) h').2
    omega
  | @rem _ _ q r hb h1 h2 h3 =>
    cases h' with
    | @rem _ _ q' r' hb' g1 g2 g3 =>
      have e1 := (I128.tdiv_ok (q := q) (r := 0) (.div hb h1 h2 h3)).2
      have e2 := (I128.tdiv_ok (q := q') (r := 0) (.div hb g1 g2 g3)).2
      have : q = q' := by omega
      subst this
      omega
  | @shl _ k =>
    generalize hk : (k : Int) = j at h'
    cases h' with
    | @shl _ k' => have : k = k' := by omega
                   subst this; rfl
  | @shr _ k =>
    generalize hk : (k : Int) = j at h'
    cases h' with
    | @shr _ k' => have : k = k' := by omega
                   subst this; rfl
  | and h => cases h' with | and h' => exact bit_ext hv hw fun i => (h i).trans (h' i).symm
  | or h => cases h' with | or h' => exact bit_ext hv hw fun i => (h i).trans (h' i).symm
  | xor h => cases h' with | xor h' => exact bit_ext hv hw fun i => (h i).trans (h' i).symm

theorem tyText_inj {pre : Option RPath} {s t : IntTy} (h : tyText pre s = tyText pre t) : s = t := by
  have h := List.append_cancel_left h
  cases s <;> cases t <;> first | rfl | (exact absurd h (by decide))

theorem held_unique {t : IntTy} {v w : Int} (hv : t.Holds W v) (hw : t.Holds W w) (h : (2 : Int) ^ t.width W ∣ v - w) : v = w := by
  obtain ⟨k, hk⟩ := h
  have h1 := (width_bounds (W := W) t).1
  have h2 : (2 : Int) ^ t.width W = 2 * 2 ^ (t.width W - 1) := by
    rw [show t.width W = (t.width W - 1) + 1 by omega, Int.pow_succ]; simp; omega
  have h3 : (0 : Int) < 2 ^ (t.width W - 1) := Int.pow_pos (by decide)
  have hlt : v - w < 2 ^ t.width W ∧ -(2 ^ t.width W) < v - w := by
    unfold IntTy.Holds at hv hw
    split at hv
    · next hu => rw [if_pos hu] at hw; omega
    · next hu => rw [if_neg hu] at hw; omega
  have : k = 0 := by
    rcases Int.lt_trichotomy k 0 with hk' | hk' | hk'
    · have := Int.mul_le_mul_of_nonneg_left (show k ≤ -1 by omega) (show (0 : Int) ≤ 2 ^ t.width W by omega)
      omega
    · exact hk'
    · have := Int.mul_le_mul_of_nonneg_left (show 1 ≤ k by omega) (show (0 : Int) ≤ 2 ^ t.width W by omega)
      omega
  subst this
  omega

theorem rustOp_inj {op op' : BinOp} {o : Str} (h : rustOp op = some o) (h' : rustOp op' = some o) : op = op' := by
  cases op <;> first | (cases h; done) | (cases h; cases op' <;> first | rfl | (exact absurd h' (by decide)))

/-- Two outcomes of an expression: numbers have the same type if the expression has a name or a cast, and numbers of the same
type and answers are equal. -/
def Agree (e : RExpr) : Outcome → Outcome → Prop
  | .int s v, .int t w => (typed e = true → s = t) ∧ (s = t → v = w)
  | .truth a, .truth b => a = b
  | _, _ => False

theorem apart {o : Str} {l m : List Str} {p : Prop} (h : o ∈ l) (h' : o ∈ m) (hd : l.all (fun x => !m.contains x) = true) : p := by
  have := List.all_eq_true.1 hd o h
  simp [h'] at this

/-- An expression with a name or a cast has one type. -/
theorem hasType_unique {Fin : LitFloat → Prop} {pre : Option RPath} {Γ : List RTok → Option (List RTok)} {e : RExpr} {σ τ : List RTok}
    (h : HasType Fin pre Γ e σ) : HasType Fin pre Γ e τ → typed e = true → σ = τ := by
  have two : ∀ {o l r} {σ : List RTok}, (typed l = true → σ = τ) → (typed r = true → σ = τ) → typed (.bin o l r) = true → σ = τ := by
    intro o l r σ hl hr h
    rw [typed] at h
    split at h
    · exact hl h
    · rw [Bool.or_eq_true] at h
      exact h.elim hl hr
  induction h with
  | name h => intro h' _; cases h' with | name h' => rw [h] at h'; exact Option.some.inj h'
  | max _ => intro h' _; cases h'; rfl
  | num _ => intro _ h; simp [typed] at h
  | suffixed _ => intro _ h; simp [typed] at h
  | float _ => intro _ h; simp [typed] at h
  | neg _ _ ih => intro h' h; cases h' with | neg _ h' => exact ih h' h
  | not _ _ ih => intro h' h; cases h' with | not _ h' => exact ih h' h
  | arith ho _ _ _ ihl ihr =>
    intro h' h
    cases h' with
    | arith _ _ hl hr => exact two (ihl hl) (ihr hr) h
    | bits _ _ hl hr => exact two (ihl hl) (ihr hr) h
    | shift h' => exact apart ho h' (by decide)
    | compare h' => exact apart ho h' (by decide)
    | logic h' => exact apart ho h' (by decide)
  | bits ho _ _ _ ihl ihr =>
    intro h' h
    cases h' with
    | arith _ _ hl hr => exact two (ihl hl) (ihr hr) h
    | bits _ _ hl hr => exact two (ihl hl) (ihr hr) h
    | shift h' => exact apart ho h' (by decide)
    | compare h' => exact apart ho h' (by decide)
    | logic h' => exact apart ho h' (by decide)
  | shift ho _ _ _ _ ihl _ =>
    intro h' h
    rw [typed, if_pos (by simpa using ho)] at h
    cases h' with
    | arith _ _ hl _ => exact ihl hl h
    | bits _ _ hl _ => exact ihl hl h
    | shift _ _ _ hl _ => exact ihl hl h
    | compare h' => exact apart ho h' (by decide)
    | logic h' => exact apart ho h' (by decide)
  | compare ho _ _ _ _ _ =>
    intro h' h
    cases h' with
    | compare => rfl
    | logic => rfl
    | arith h' => exact apart ho h' (by decide)
    | bits h' => exact apart ho h' (by decide)
    | shift h' => exact apart ho h' (by decide)
  | logic ho _ _ _ _ =>
    intro h' h
    cases h' with
    | compare => rfl
    | logic => rfl
    | arith h' => exact apart ho h' (by decide)
    | bits h' => exact apart ho h' (by decide)
    | shift h' => exact apart ho h' (by decide)
  | cast _ _ _ => intro h' _; cases h'; rfl
  | ite _ _ _ _ iht ihf =>
    intro h' h
    cases h' with
    | ite _ ht hf =>
      simp only [typed, Bool.or_eq_true] at h
      exact h.elim (iht ht) (ihf hf)

theorem cmp_op {op : BinOp} {f : Int → Int → Bool} {o : Str} (h : comparison op = some f) (h' : rustOp op = some o) :
    arithmetic op = false ∧ o ≠ c!"<<" ∧ o ≠ c!">>" ∧ o ≠ c!"&&" ∧ o ≠ c!"||" := by
  cases op <;> first | (simp [comparison] at h; done) | (cases h'; decide)

theorem arith_op {op : BinOp} {o : Str} (h : arithmetic op = true) (h' : rustOp op = some o) :
    comparison op = none ∧ o ≠ c!"<<" ∧ o ≠ c!">>" ∧ o ≠ c!"&&" ∧ o ≠ c!"||" := by
  cases op <;> first | (simp [arithmetic] at h; done) | (cases h'; decide)

/-- A Rust expression has one value of each type or one answer, and if it has a name or a cast, only one type. -/
theorem rustEval_agree {pre : Option RPath} {env : List RTok → Option (IntTy × Int)} {e : RExpr} {o : Outcome}
    (h : RustEval W pre env e o) : ∀ {o'}, RustEval W pre env e o' → Agree e o o' := by
  induction h with
  | @name x t v h =>
    intro o' h'
    cases h' with
    | name h' =>
      rw [h] at h'
      cases h'
      exact ⟨fun _ => rfl, fun _ => rfl⟩
  | @max t =>
    intro o' h'
    generalize hg : tyText pre t = τ at h'
    cases h'
    obtain rfl := tyText_inj hg
    exact ⟨fun _ => rfl, fun _ => rfl⟩
  | num _ => intro o' h'; cases h'; exact ⟨fun h => by simp [typed] at h, fun _ => rfl⟩
  | negNum _ _ =>
    intro o' h'
    cases h' with
    | negNum => exact ⟨fun h => by simp [typed] at h, fun _ => rfl⟩
    | neg _ h _ => cases h; exact ⟨fun h => by simp [typed] at h, fun _ => rfl⟩
  | neg _ h0 _ ih =>
    intro o' h'
    cases h' with
    | negNum _ hh =>
      exact ⟨fun h => by simp [typed] at h, fun _ => by cases h0; rfl⟩
    | neg _ h _ => exact ⟨(ih h).1, fun e => by rw [(ih h).2 e]⟩
  | comp _ ih =>
    intro o' h'
    cases h' with
    | comp h => exact ⟨(ih h).1, fun e => by rw [(ih h).2 e, e]⟩
    | not h => exact (ih h).elim
  | not _ ih =>
    intro o' h'
    cases h' with
    | comp h => exact (ih h).elim
    | not h => exact congrArg Bool.not (ih h)
  | @bin op o l r t a b v hop ho _ _ hv _ hh ihl ihr =>
    intro o' h'
    have hns := arith_op hop ho
    cases h' with
    | bin hop' ho' hl hr hv' _ hh' =>
      obtain rfl := rustOp_inj ho ho'
      refine ⟨fun h => ?_, fun e => ?_⟩
      · simp only [typed, hns.2.1, hns.2.2.1, or_self, if_false, Bool.or_eq_true] at h
        rcases h with h | h
        · exact (ihl hl).1 h
        · exact (ihr hr).1 h
      · subst e
        obtain rfl := (ihl hl).2 rfl
        obtain rfl := (ihr hr).2 rfl
        exact binValue_unique hv hv' (holds_i128 hh) (holds_i128 hh')
    | cmp hop' ho' =>
      obtain rfl := rustOp_inj ho ho'
      rw [hns.1] at hop'
      cases hop'
    | shl => exact absurd rfl hns.2.1
    | shr => exact absurd rfl hns.2.2.1
    | andFalse | andTrue => exact absurd rfl hns.2.2.2.1
    | orTrue | orFalse => exact absurd rfl hns.2.2.2.2
  | @shl l r s t a v k _ hr _ hk hv hd ihl ihr =>
    intro o' h'
    generalize ho : c!"<<" = o at h'
    cases h' with
    | bin hop' ho' => exact absurd ho.symm (arith_op hop' ho').2.1
    | cmp hop' ho' => exact absurd ho.symm (cmp_op hop' ho').2.1
    | @shl _ _ s' t' a' w k' hl' hr' hre' hk' hv' hd' =>
      refine ⟨fun h => (ihl hl').1 (by simpa [typed] using h), fun e => ?_⟩
      subst e
      obtain rfl := (ihl hl').2 rfl
      have hss : s = s' := by
        rcases hr with h | rfl
        · exact (ihr hre').1 h
        · rcases hr' with h | rfl
          · exact (ihr hre').1 h
          · rfl
      have := (ihr hre').2 hss
      have : k = k' := by omega
      subst this
      refine held_unique hv hv' ?_
      have := Int.dvd_sub hd' hd
      rw [show a * 2 ^ k - w - (a * 2 ^ k - v) = v - w by omega] at this
      exact this
    | _ => exact absurd ho (by decide)
  | @shr l r s t a k _ hr _ hk ihl ihr =>
    intro o' h'
    generalize ho : c!">>" = o at h'
    cases h' with
    | bin hop' ho' => exact absurd ho.symm (arith_op hop' ho').2.2.1
    | cmp hop' ho' => exact absurd ho.symm (cmp_op hop' ho').2.2.1
    | @shr _ _ s' _ a' k' hl' hr' hre' hk' =>
      refine ⟨fun h => (ihl hl').1 (by simpa [typed] using h), fun e => ?_⟩
      subst e
      obtain rfl := (ihl hl').2 rfl
      have hss : s = s' := by
        rcases hr with h | rfl
        · exact (ihr hre').1 h
        · rcases hr' with h | rfl
          · exact (ihr hre').1 h
          · rfl
      have := (ihr hre').2 hss
      have : k = k' := by omega
      subst this
      rfl
    | _ => exact absurd ho (by decide)
  | @cast e s t v v' hty _ hv hd ih =>
    intro o' h'
    generalize hg : tyText pre t = ts at h'
    cases h' with
    | @cast _ _ _ _ w _ he hv' hd' =>
      obtain rfl := tyText_inj hg
      refine ⟨fun _ => rfl, fun _ => ?_⟩
      obtain rfl := (ih he).2 ((ih he).1 hty)
      refine held_unique hv hv' ?_
      have := Int.dvd_sub hd' hd
      rw [show v - w - (v - v') = v' - w by omega] at this
      exact this
    | castNum => simp [typed] at hty
    | castComp => simp [typed] at hty
    | castLit => simp [typed] at hty
    | castNegLit => simp [typed] at hty
  | @castNum n t _ =>
    intro o' h'
    generalize hg : tyText pre t = ts at h'
    cases h' with
    | cast h => simp [typed] at h
    | castNum => exact ⟨fun _ => tyText_inj hg, fun _ => rfl⟩
    | castLit h => exact absurd rfl h
  | @castComp n t _ =>
    intro o' h'
    generalize hg : tyText pre t = ts at h'
    cases h' with
    | cast h => simp [typed] at h
    | castComp => exact ⟨fun _ => tyText_inj hg, fun h => by rw [h]⟩
  | @castLit n s t v' hn hr hv hd =>
    intro o' h'
    generalize hg : tyText pre t = ts at h'
    cases h' with
    | cast h => simp [typed] at h
    | castNum => exact absurd rfl hn
    | @castLit _ _ _ w _ _ hv' hd' =>
      obtain rfl := tyText_inj hg
      refine ⟨fun _ => rfl, fun _ => held_unique hv hv' ?_⟩
      have := Int.dvd_sub hd' hd
      rw [show (n : Int) - w - (n - v') = v' - w by omega] at this
      exact this
  | @castNegLit n s t v' _ hn hr hv hd =>
    intro o' h'
    generalize hg : tyText pre t = ts at h'
    cases h' with
    | cast h => simp [typed] at h
    | @castNegLit _ _ _ w _ _ _ hv' hd' =>
      obtain rfl := tyText_inj hg
      refine ⟨fun _ => rfl, fun _ => held_unique hv hv' ?_⟩
      have := Int.dvd_sub hd' hd
      rw [show -(n : Int) - w - (-n - v') = v' - w by omega] at this
      exact this
  | @cmp op f o l r t a b hop ho hty _ _ ihl ihr =>
    intro o' h'
    have hns := cmp_op hop ho
    cases h' with
    | bin hop' ho' =>
      obtain rfl := rustOp_inj ho ho'
      rw [hns.1] at hop'
      cases hop'
    | @cmp op' f' _ _ _ t' a' b' hop' ho' _ hl hr =>
      obtain rfl := rustOp_inj ho ho'
      rw [hop] at hop'
      cases hop'
      have ht : t = t' := by
        rw [Bool.or_eq_true] at hty
        exact hty.elim (ihl hl).1 (ihr hr).1
      show _ = _
      rw [(ihl hl).2 ht, (ihr hr).2 ht]
    | shl => exact absurd rfl hns.2.1
    | shr => exact absurd rfl hns.2.2.1
    | andFalse | andTrue => exact absurd rfl hns.2.2.2.1
    | orTrue | orFalse => exact absurd rfl hns.2.2.2.2
  | andFalse _ _ ihl =>
    intro o' h'
    generalize ho : c!"&&" = o at h'
    cases h' with
    | bin hop' ho' => exact absurd ho.symm (arith_op hop' ho').2.2.2.1
    | cmp hop' ho' => exact absurd ho.symm (cmp_op hop' ho').2.2.2.1
    | andFalse => exact rfl
    | andTrue h => exact nomatch ihl h
    | _ => exact absurd ho (by decide)
  | andTrue _ _ ihl ihr =>
    intro o' h'
    generalize ho : c!"&&" = o at h'
    cases h' with
    | bin hop' ho' => exact absurd ho.symm (arith_op hop' ho').2.2.2.1
    | cmp hop' ho' => exact absurd ho.symm (cmp_op hop' ho').2.2.2.1
    | andFalse h => exact nomatch ihl h
    | andTrue _ h => exact ihr h
    | _ => exact absurd ho (by decide)
  | orTrue _ _ ihl =>
    intro o' h'
    generalize ho : c!"||" = o at h'
    cases h' with
    | bin hop' ho' => exact absurd ho.symm (arith_op hop' ho').2.2.2.2
    | cmp hop' ho' => exact absurd ho.symm (cmp_op hop' ho').2.2.2.2
    | orTrue => exact rfl
    | orFalse h => exact nomatch ihl h
    | _ => exact absurd ho (by decide)
  | orFalse _ _ ihl ihr =>
    intro o' h'
    generalize ho : c!"||" = o at h'
    cases h' with
    | bin hop' ho' => exact absurd ho.symm (arith_op hop' ho').2.2.2.2
    | cmp hop' ho' => exact absurd ho.symm (cmp_op hop' ho').2.2.2.2
    | orTrue h => exact nomatch ihl h
    | orFalse _ h => exact ihr h
    | _ => exact absurd ho (by decide)
  | iteTrue h1 h2 h3 ihc ihx =>
    intro o' h'
    have hu := hasType_unique (eval_hasType (fun _ => False) (.iteTrue h1 h2 h3)) (eval_hasType _ h')
    cases h' with
    | iteTrue hc hx _ => exact ⟨fun h => tyText_inj (hu h), (ihx hx).2⟩
    | iteFalse hc => exact nomatch ihc hc
  | iteFalse h1 h2 h3 ihc ihy =>
    intro o' h'
    have hu := hasType_unique (eval_hasType (fun _ => False) (.iteFalse h1 h2 h3)) (eval_hasType _ h')
    cases h' with
    | iteTrue hc => exact nomatch ihc hc
    | iteFalse _ _ hy => exact ⟨fun h => tyText_inj (hu h), (ihy hy).2⟩

/-- A Rust expression has one value of each type, and if it has a name or a cast, only one type. -/
theorem rustEval_unique {pre : Option RPath} {env : List RTok → Option (IntTy × Int)} {e : RExpr} {s t : IntTy} {v w : Int}
    (h : RustEval W pre env e (.int s v)) (h' : RustEval W pre env e (.int t w)) : (typed e = true → s = t) ∧ (s = t → v = w) :=
  rustEval_agree h h'

/-- A Rust expression answers in one way, and a condition is no number. -/
theorem rustEval_answer {pre : Option RPath} {env : List RTok → Option (IntTy × Int)} {e : RExpr} {b : Bool} {o : Outcome}
    (h : RustEval W pre env e (.truth b)) (h' : RustEval W pre env e o) : o = .truth b := by
  have := rustEval_agree h h'
  cases o with
  | int => exact this.elim
  | truth c => rw [show _ = _ from this]

/-! ## The property -/

theorem params_read {P : PCtx} {pre : Option RPath} : ∀ {args : List Str} {tys : List ArgTy} {ps : List (Str × IntTy × Int)},
    fnParams P args tys = paramText pre ps → ∀ (i : Nat) (p : Str × IntTy × Int), ps[i]? = some p →
      args[i]? = some p.1 ∧ ∃ τ, tys[i]? = some (.known τ) ∧ τ.toks P = tyText pre p.2.1
  | _, _, [], _, i, p, hp => by simp at hp
  | [], _, _ :: _, h, _, _, _ => by simp [fnParams, paramText] at h
  | a :: args, [], _ :: _, h, _, _, _ => by simp [fnParams, paramText] at h
  | a :: args, ty :: tys, q :: ps, h, i, p, hp => by
    cases ty with
    | known t =>
      simp only [fnParams, paramText, List.map_cons] at h
      injection h with h1 h2
      cases i with
      | zero =>
        cases hp
        simp only [List.cons_append, List.nil_append] at h1
        injection h1 with h3 h4
        injection h4 with _ h5
        injection h3 with h3
        exact ⟨by rw [h3]; rfl, t, rfl, h5⟩
      | succ i => exact params_read h2 i p (by simpa using hp)
    | _ =>
      simp only [fnParams, paramText, List.map_cons] at h
      injection h with h1 h2
      simp at h1

theorem byName_of : ∀ {ps : List (Str × IntTy × Int)}, (ps.map (·.1)).Nodup → ∀ (i : Nat) (p : Str × IntTy × Int), ps[i]? = some p →
     byName ps [.id p.1] = some p.2
  | [], _, i, p, h => by simp at h
  | (x, q) :: ps, hn, i, p, h => by
    cases i with
    | zero => cases h; simp [byName]
    | succ i =>
      simp only [List.getElem?_cons_succ] at h
      simp only [List.map_cons, List.nodup_cons] at hn
      have hx : (p.1 == x) = false := by
        simp only [beq_eq_false_iff_ne]
        rintro rfl
        exact hn.1 (List.mem_map_of_mem (List.mem_of_getElem? h))
      simp only [byName, List.lookup_cons, hx]
      exact byName_of hn.2 i p h

theorem tyText_noVoid {P : PCtx} {τ : Ty} {t : IntTy} (h : τ.toks P = tyText P.C.ffiPrefix t) : τ.isVoid = false := by
  unfold Ty.isVoid
  split
  · exfalso
    have hl := congrArg List.getLast? h
    have h1 : (tyText P.C.ffiPrefix t).getLast? = some (.id t.rustName) := by simp [tyText]
    have h2 : ((Ty.builtIn .void).toks P).getLast? = some (.id c!"c_void") := by
      simp only [Ty.toks, BuiltInType.toRust]
      cases P.C.ffiPrefix with
      | none => rfl
      | some p => simp only [RTy.prefixed, RTy.toks, RPath.toks, sepToks_last, ← List.append_assoc, List.getLast?_concat]
    rw [h1, h2] at hl
    cases t <;> exact absurd hl (by decide)
  · rfl

/-- The parameters of a macro, by position in C and by their text in Rust. -/
theorem link_of {P : PCtx} {st : LState} {ps : List (Str × IntTy × Int)} {env : List RTok → Option (IntTy × Int)}
    (hnd : (ps.map (·.1)).Nodup)
    (henv : ∀ (i : Nat) (x : List RTok) (p : Str × IntTy × Int), ps[i]? = some p →
      (if P.asMacro then [.punct c!"$", .id p.1] else [.id p.1]) = x → env x = some p.2)
    (hread : ∀ (i : Nat) (p : Str × IntTy × Int), ps[i]? = some p → P.L.argNames[i]? = some p.1 ∧
      ∃ a, st.argTy i = some a ∧ ∀ τ, a = .known τ → τ.toks P = tyText P.C.ffiPrefix p.2.1)
    (hk : ∀ p ∈ ps, p.1 ≠ c!"..." ∧ (P.asMacro = false → p.1 ∉ rustKeywords)) (hroot : Rooted P.C.ffiPrefix) : Link P st (byIndex ps) env := by
  have hp : ∀ i q, byIndex ps i = some q → ∃ p, ps[i]? = some p ∧ p.2 = q := fun i q hi => by simpa [byIndex] using hi
  have htext : ∀ i p x, ps[i]? = some p → paramToks P i = some x → (if P.asMacro then [.punct c!"$", .id p.1] else [.id p.1]) = x := by
    intro i p x h hx
    simpa [paramToks, (hread i p h).1] using hx
  refine ⟨fun i t v hi => ?_, fun i x q hi hx => ?_, fun i j x q q' hi hj hx hx' => ?_, hroot, fun i q hi => ?_⟩
  · obtain ⟨p, hp, hpe⟩ := hp i _ hi
    obtain ⟨ha, a, h1, h2⟩ := hread i p hp
    exact ⟨a, h1, fun τ h => by rw [h2 τ h, hpe]⟩
  · obtain ⟨p, hp, hpe⟩ := hp i _ hi
    rw [henv i x p hp (htext i p x hp hx), hpe]
  · obtain ⟨p, hp1, _⟩ := hp i _ hi
    obtain ⟨p', hp1', _⟩ := hp j _ hj
    have h1 := (htext i p x hp1 hx).trans (htext j p' x hp1' hx').symm
    have h2 : p.1 = p'.1 := by
      split at h1
      · injection h1 with _ h1
        injection h1 with h1
        injection h1
      · injection h1 with h1
        injection h1
    have h3 : (ps.map (·.1))[i]? = some p.1 := by simp [hp1]
    have h4 : (ps.map (·.1))[j]? = some p.1 := by simp [hp1', h2]
    exact (List.getElem?_inj (List.getElem?_eq_some_iff.1 h3).1 hnd).1 (h3.trans h4.symm)
  · obtain ⟨p, hp, hpe⟩ := hp i _ hi
    have := hk p (List.mem_of_getElem? hp)
    exact ⟨_, (hread i p hp).1, this.1, this.2⟩

/-- C64: let a function be generated for a function-like macro, with parameters of integer types, and let the C expression
have the type `t` and the value `v` for some values of the parameters.  Then the function returns `v`, and its return type
is `t`. -/
def C64_statement : Prop :=
  ∀ (W : Widths) (C : Ctx) (m : FnMacro) (e : Expr) (n : Nat) (name : Str) (ret : Option (List RTok)) (code : List RTok)
    (ps : List (Str × IntTy × Int)) (t : IntTy) (v : Int),
    m.body = .expr e → m.generate n C = .ok (.fn name (paramText C.ffiPrefix ps) ret code) → (ps.map (·.1)).Nodup →
    (∀ p ∈ ps, p.2.1.Holds W p.2.2) → FnValue W True True (byIndex ps) e (.int t v) →
    ∃ u, rustBlock code = some u ∧ ret = some (tyText C.ffiPrefix t) ∧ RustEval W C.ffiPrefix (byName ps) u (.int t v)

/-- The generated function: the finished expression, which yields what the C expression yields. -/
theorem fn_generated {W : Widths} {C : Ctx} {m : FnMacro} {e : Expr} {n : Nat} {name : Str} {ret : Option (List RTok)}
    {code : List RTok} {ps : List (Str × IntTy × Int)} {o : Outcome}
    (hb : m.body = .expr e) (hg : m.generate n C = .ok (.fn name (paramText C.ffiPrefix ps) ret code))
    (hnd : (ps.map (·.1)).Nodup) (hv : FnValue W False False (byIndex ps) e o)
    (hk : ∀ p ∈ ps, p.1 ∉ c!"..." :: rustKeywords) (hs : Separated e) (hfit : FitsBlock e) (hroot : Rooted C.ffiPrefix) :
    ∃ u τ, rustBlock code = some u ∧ TyFits ⟨C, fnLoc m.args, false⟩ (some τ) o ∧ ret = retToks ⟨C, fnLoc m.args, false⟩ (some τ) ∧
      RustEval W C.ffiPrefix (byName ps) u o := by
  unfold FnMacro.generate at hg
  rw [hb] at hg
  cases hty : argTypes C m.name m.args with
  | error e => rw [hty] at hg; cases hg
  | ok tys =>
    rw [hty] at hg
    dsimp only at hg
    rw [MacroBody.finish] at hg
    cases hx : Expr.finish C (fnLoc m.args) n e ⟨tys, false⟩ with
    | mk e' st r =>
      rw [hx] at hg
      cases r with
      | error e => cases hg
      | ok ty =>
        dsimp only at hg
        have hret : Option.isNone ty = false → ∃ τ, ty = some τ := by cases ty <;> simp
        generalize hxx : (st.exportAsMacro || (C.function m.name).isSome || namesVariadic m.args || !st.argTypes.all ArgTy.isKnown
          || Option.isNone ty) = x at hg
        cases x <;> simp only [Bool.false_eq_true, if_false, if_true] at hg <;> split at hg <;> try cases hg
        simp only [Bool.or_eq_false_iff] at hxx
        obtain ⟨τ, rfl⟩ := hret hxx.2
        injection hg with hg
        injection hg with g1 g2 g3 g4
        obtain rfl := fn_state hv hx
        have hlink : Link ⟨C, fnLoc m.args, false⟩ ⟨tys, false⟩ (byIndex ps) (byName ps) := by
          refine link_of hnd (fun i x p h hx => ?_) (fun i p hp => ?_) (fun p hp => ?_) hroot
          · cases hx
            exact byName_of hnd i p h
          · obtain ⟨ha, τ', hτ, htx⟩ := params_read g2 i p hp
            refine ⟨ha, _, by simpa [LState.argTy] using hτ, ?_⟩
            rintro _ ⟨⟩
            exact htx
          · have := hk p hp
            simp only [List.mem_cons, not_or] at this
            exact ⟨this.1, fun _ => this.2⟩
        have key := fn_finish (P := ⟨C, fnLoc m.args, false⟩) (L := fnLoc m.args) hv (byName ps) n e' _ (some τ) hlink hx hs
        have k : Kept W ⟨C, fnLoc m.args, false⟩ (byName ps) e e' (some τ) o := by
          cases o with
          | truth b => exact key
          | int t v =>
            refine key ?_
            cases hc : constant e with
            | false => rfl
            | true =>
              exfalso
              rcases operand (P := ⟨C, fnLoc m.args, false⟩) (env := byName ps) hv hx (fun h => by rw [hc] at h; cases h) with ⟨_, h, _⟩ | ⟨h, _⟩
              · cases h
              · rw [hc] at h; cases h
        obtain ⟨w, h1, _, h3⟩ := k.tree
        refine ⟨w, τ, ?_, k.ty, g3.symm, h3⟩
        rw [← g4]
        exact C37_block_partial _ _ _ h1 k.sep (k.fits hfit)

/-- C64, when no operand is converted to the type of the other, no unsigned operation wraps around, numbers are conditions only
in `? :`, and no parameter is named by a Rust keyword. -/
theorem C64_partial (W : Widths) (C : Ctx) (m : FnMacro) (e : Expr) (n : Nat) (name : Str) (ret : Option (List RTok))
    (code : List RTok) (ps : List (Str × IntTy × Int)) (t : IntTy) (v : Int)
    (hb : m.body = .expr e) (hg : m.generate n C = .ok (.fn name (paramText C.ffiPrefix ps) ret code))
    (hnd : (ps.map (·.1)).Nodup) (hv : FnValue W False False (byIndex ps) e (.int t v))
    (hk : ∀ p ∈ ps, p.1 ∉ c!"..." :: rustKeywords) (hs : Separated e) (hfit : FitsBlock e) (hroot : Rooted C.ffiPrefix := by intro p h; cases h) :
    ∃ u, rustBlock code = some u ∧ ret = some (tyText C.ffiPrefix t) ∧ RustEval W C.ffiPrefix (byName ps) u (.int t v) := by
  obtain ⟨u, τ, h1, h2, h3, h4⟩ := fn_generated hb hg hnd hv hk hs hfit hroot
  refine ⟨u, h1, ?_, h4⟩
  rcases h2 with h | ⟨τ', h, h'⟩
  · cases h
  · cases h
    rw [h3, retToks, tyText_noVoid h', if_neg (by decide), h']

/-- C64 for expressions that are conditions: the function returns a `bool`, which is the answer that C gives. -/
theorem C64_bool_partial (W : Widths) (C : Ctx) (m : FnMacro) (e : Expr) (n : Nat) (name : Str) (ret : Option (List RTok))
    (code : List RTok) (ps : List (Str × IntTy × Int)) (b : Bool)
    (hb : m.body = .expr e) (hg : m.generate n C = .ok (.fn name (paramText C.ffiPrefix ps) ret code))
    (hnd : (ps.map (·.1)).Nodup) (hv : FnValue W False False (byIndex ps) e (.truth b))
    (hk : ∀ p ∈ ps, p.1 ∉ c!"..." :: rustKeywords) (hs : Separated e) (hfit : FitsBlock e) (hroot : Rooted C.ffiPrefix := by intro p h; cases h) :
    ∃ u, rustBlock code = some u ∧ ret = some (q!"bool") ∧ RustEval W C.ffiPrefix (byName ps) u (.truth b) := by
  obtain ⟨u, τ, h1, h2, h3, h4⟩ := fn_generated hb hg hnd hv hk hs hfit hroot
  refine ⟨u, h1, ?_, h4⟩
  cases h2
  exact h3

/-! ## Examples -/

theorem bitAnd_value (x y : BitVec 128) : BinValue .bitAnd x.toInt y.toInt (x &&& y).toInt := .and fun i => by
  rw [bit_toInt, bit_toInt, bit_toInt]; split <;> simp

theorem bitXor_value (x y : BitVec 128) : BinValue .bitXor x.toInt y.toInt (x ^^^ y).toInt := .xor fun i => by
  rw [bit_toInt, bit_toInt, bit_toInt]
  split
  · simp only [BitVec.getLsbD_xor]; cases x.getLsbD i <;> cases y.getLsbD i <;> decide
  · simp only [BitVec.msb_xor]; cases x.msb <;> cases y.msb <;> decide

/-- A context in which the parameter `y` is a `c_long` and all others are a `c_uint`. -/
def uintCtx : Ctx :=
  { Ctx.unit asciiEnv with
    macroArgTy := fun _ a => some (.path .plain ⟨false, [if a = c!"y" then c!"c_long" else c!"c_uint"]⟩) }

/-- `( x << 4 ) ^ ( (unsigned int) y & 15U )`. -/
def mixExpr : Expr :=
  .bin (.bin (.var (.arg 0)) .shl (.lit (.int ⟨4, none⟩))) .bitXor
    (.bin (.cast (.builtIn .uInt) (.var (.arg 1))) .bitAnd (.lit (.int ⟨15, some .uInt⟩)))

/-- `#define MIX(x, y) ( x << 4 ) ^ ( (unsigned int) y & 15U )`. -/
def mixMacro : FnMacro := ⟨c!"MIX", [c!"x", c!"y"], .expr mixExpr⟩

/-- `x << 4 ^ y as c_uint & 15`. -/
def mixToks : List RTok := q!"x <<" ++ .int 4 [] :: q!"^ y as c_uint &" ++ [.int 15 []]

/-- `x` and `y` are `0x12345678` and `-3`. -/
def mixParams : List (Str × IntTy × Int) := [(c!"x", .uint, 0x12345678), (c!"y", .long, -3)]

theorem mix_value : FnValue .lp64 False False (byIndex mixParams) mixExpr (.int .uint 0x2345678D) := by
  have l4 : ConstTy .lp64 ⟨4, none⟩ .int := ⟨true, [], _, rfl, by simp, by decide⟩
  have l15 : ConstTy .lp64 ⟨15, some .uInt⟩ .uint := ⟨true, [], _, rfl, by simp, by decide⟩
  have hx : FnValue .lp64 False False (byIndex mixParams) (.var (.arg 0)) (.int .uint 0x12345678) := .param rfl
  have hy : FnValue .lp64 False False (byIndex mixParams) (.var (.arg 1)) (.int .long (-3)) := .param rfl
  have h1 : FnValue .lp64 False False (byIndex mixParams) (.bin (.var (.arg 0)) .shl (.lit (.int ⟨4, none⟩))) (.int .uint 0x23456780) :=
    .shl (k := 4) rfl hx (.const (.lit l4)) (.inr ⟨rfl, .inr rfl, rfl⟩) (by decide) (by decide) (.wraps trivial rfl)
  have h2 : FnValue .lp64 False False (byIndex mixParams) (.cast (.builtIn .uInt) (.var (.arg 1))) (.int .uint 0xFFFFFFFD) :=
    .cast (t := .uint) hy (.wraps trivial rfl)
  have h3 : FnValue .lp64 False False (byIndex mixParams) (.bin (.cast (.builtIn .uInt) (.var (.arg 1))) .bitAnd
      (.lit (.int ⟨15, some .uInt⟩))) (.int .uint 13) :=
    .bin (s := .uint) (t := .uint) rfl rfl h2 (.const (.lit l15)) (.inr (.inl ⟨rfl, rfl⟩)) (.fits (by decide)) (.fits (by decide))
      (bitAnd_value 0xFFFFFFFD#128 15#128) (by rintro ⟨⟩) (.fits (by decide))
  exact .bin (s := .uint) (t := .uint) rfl rfl h1 h3 (.inr (.inl ⟨rfl, rfl⟩)) (.fits (by decide)) (.fits (by decide))
    (bitXor_value 0x23456780#128 13#128) (by rintro ⟨⟩) (.fits (by decide))

/-- `MIX` becomes a function that returns the same value, `0x2345678D`. -/
example : mixMacro.generate 9 uintCtx = .ok (.fn c!"MIX" (paramText none mixParams) (some (q!"c_uint")) mixToks) ∧
    ∃ u, rustBlock mixToks = some u ∧ RustEval .lp64 none (byName mixParams) u (.int .uint 0x2345678D) := by
  have hg : mixMacro.generate 9 uintCtx = .ok (.fn c!"MIX" (paramText none mixParams) (some (q!"c_uint")) mixToks) := rfl
  obtain ⟨u, h1, _, h3⟩ := C64_partial .lp64 uintCtx mixMacro mixExpr 9 _ _ _ mixParams .uint 0x2345678D rfl hg (by decide) mix_value
    (by decide)
    (by simp [mixExpr, Separated, endsCast]) (.inr rfl)
  exact ⟨hg, u, h1, h3⟩

/-- `#define ROOM(y) __LONG_MAX__ - y`. -/
def roomMacro : FnMacro := ⟨c!"ROOM", [c!"y"], .expr (.bin (.var (.plain c!"__LONG_MAX__")) .sub (.var (.arg 0)))⟩

/-- `ROOM` becomes a function that returns `c_long::MAX - y`, for 7 the `c_long` 9223372036854775800. -/
example : roomMacro.generate 9 uintCtx = .ok (.fn c!"ROOM" (paramText none [(c!"y", .long, 7)]) (some (q!"c_long")) (q!"c_long :: MAX - y")) ∧
    ∃ u, rustBlock (q!"c_long :: MAX - y") = some u ∧ RustEval .lp64 none (byName [(c!"y", .long, 7)]) u (.int .long 9223372036854775800) := by
  have hg : roomMacro.generate 9 uintCtx = .ok (.fn c!"ROOM" (paramText none [(c!"y", .long, 7)]) (some (q!"c_long")) (q!"c_long :: MAX - y")) := rfl
  have hm : FnValue .lp64 False False (byIndex [(c!"y", .long, 7)]) (.var (.plain c!"__LONG_MAX__")) (.int .long 9223372036854775807) :=
    .limit (t := .long) rfl (.inr rfl)
  have hy : FnValue .lp64 False False (byIndex [(c!"y", .long, 7)]) (.var (.arg 0)) (.int .long 7) := .param rfl
  obtain ⟨u, h1, _, h3⟩ := C64_partial .lp64 uintCtx roomMacro _ 9 _ _ _ [(c!"y", .long, 7)] .long 9223372036854775800 rfl hg (by decide)
    (.bin (op := .sub) rfl rfl hm hy (.inr (.inl ⟨rfl, rfl⟩)) (.fits (by decide)) (.fits (by decide)) .sub (by rintro ⟨⟩) (.fits (by decide)))
    (by decide) ⟨by simp, by simp, by simp, trivial, trivial⟩ (.inr rfl)
  exact ⟨hg, u, h1, h3⟩

/-- `z ? x / z : 1`. -/
def ratioExpr : Expr := .ternary (.var (.arg 1)) (.bin (.var (.arg 0)) .div (.var (.arg 1))) (.lit (.int ⟨1, none⟩))

/-- `#define RATIO(x, z) z ? x / z : 1`. -/
def ratioMacro : FnMacro := ⟨c!"RATIO", [c!"x", c!"z"], .expr ratioExpr⟩

/-- `if z != 0 { x / z } else { 1 }`. -/
def ratioToks : List RTok := q!"if z !=" ++ .int 0 [] :: q!"{ x / z } else {" ++ .int 1 [] :: q!"}"

/-- The value of `x / z` when `z` is not zero. -/
theorem quotient_value {a b q : Int} (hb : b ≠ 0) (hq : BinValue .div a b q) (ha : IntTy.uint.Holds .lp64 a) (hb' : IntTy.uint.Holds .lp64 b)
    (hh : IntTy.uint.Holds .lp64 q) : FnValue .lp64 False False (byIndex [(c!"x", .uint, a), (c!"z", .uint, b)])
      (.bin (.var (.arg 0)) .div (.var (.arg 1))) (.int .uint q) :=
  have hx : FnValue .lp64 False False (byIndex [(c!"x", .uint, a), (c!"z", .uint, b)]) (.var (.arg 0)) (.int .uint a) := .param rfl
  have hz : FnValue .lp64 False False (byIndex [(c!"x", .uint, a), (c!"z", .uint, b)]) (.var (.arg 1)) (.int .uint b) := .param rfl
  .bin (s := .uint) (t := .uint) rfl rfl hx hz (.inr (.inl ⟨rfl, rfl⟩)) (.fits ha) (.fits hb') hq (by rintro ⟨⟩) (.fits hh)

/-- If `z` is zero, the macro is 1: the quotient is not computed, neither in C nor in Rust. -/
theorem ratio_zero : FnValue .lp64 False False (byIndex [(c!"x", .uint, 7), (c!"z", .uint, 0)]) ratioExpr (.int .uint 1) := by
  have l1 : ConstTy .lp64 ⟨1, none⟩ .int := ⟨true, [], _, rfl, by simp, by decide⟩
  have hst : SameTypes (byIndex [(c!"x", .uint, 7), (c!"z", .uint, 0)]) (byIndex [(c!"x", .uint, 7), (c!"z", .uint, 1)])
    | 0 | 1 | _ + 2 => rfl
  have hz : FnValue .lp64 False False (byIndex [(c!"x", .uint, 7), (c!"z", .uint, 0)]) (.var (.arg 1)) (.int .uint 0) := .param rfl
  have hq := quotient_value (a := 7) (b := 1) (q := 7) (by decide) (.div (r := 0) (by decide) (by decide) (by decide) (by decide)) (by decide)
    (by decide) (by decide)
  exact .condFalse (s := .uint) (t := .int) rfl hz rfl hst hq (.const (.lit l1)) (.inr ⟨rfl, .inr (.inr ⟨rfl, rfl⟩)⟩) (.fits (by decide))

/-- `RATIO` becomes a function, which returns 1 if `z` is zero. -/
example : ratioMacro.generate 9 uintCtx = .ok (.fn c!"RATIO" (paramText none [(c!"x", .uint, 7), (c!"z", .uint, 0)]) (some (q!"c_uint")) ratioToks) ∧
    ∃ u, rustBlock ratioToks = some u ∧ RustEval .lp64 none (byName [(c!"x", .uint, 7), (c!"z", .uint, 0)]) u (.int .uint 1) := by
  have hg : ratioMacro.generate 9 uintCtx
    = .ok (.fn c!"RATIO" (paramText none [(c!"x", .uint, 7), (c!"z", .uint, 0)]) (some (q!"c_uint")) ratioToks) := rfl
  obtain ⟨u, h1, _, h3⟩ := C64_partial .lp64 uintCtx ratioMacro ratioExpr 9 _ _ _ _ .uint 1 rfl hg (by decide) ratio_zero (by decide)
    (by simp [ratioExpr, Separated, endsCast, FitsBlock, beginsBlock, blockOps]) (.inl rfl)
  exact ⟨hg, u, h1, h3⟩

/-- `! ( x < z )` becomes a function that answers like C. -/
example : ∃ u, rustBlock (q!"! ( x < z )") = some u ∧
    RustEval .lp64 none (byName [(c!"x", .uint, 7), (c!"z", .uint, 0)]) u (.truth true) := by
  have hg : (⟨c!"GE", [c!"x", c!"z"], .expr (.un .not (.bin (.var (.arg 0)) .lt (.var (.arg 1))))⟩ : FnMacro).generate 9 uintCtx
    = .ok (.fn c!"GE" (paramText none [(c!"x", .uint, 7), (c!"z", .uint, 0)]) (some (q!"bool")) (q!"! ( x < z )")) := rfl
  have hx : FnValue .lp64 False False (byIndex [(c!"x", .uint, 7), (c!"z", .uint, 0)]) (.var (.arg 0)) (.int .uint 7) := .param rfl
  have hz : FnValue .lp64 False False (byIndex [(c!"x", .uint, 7), (c!"z", .uint, 0)]) (.var (.arg 1)) (.int .uint 0) := .param rfl
  obtain ⟨u, h1, _, h3⟩ := C64_bool_partial .lp64 uintCtx _ _ 9 _ _ _ [(c!"x", .uint, 7), (c!"z", .uint, 0)] true rfl hg (by decide)
    (.not (.cmp (op := .lt) (s := .uint) (t := .uint) rfl hx hz (.inr ⟨rfl, .uint, .inl rfl, .inl rfl, by decide, by decide⟩) (.fits (by decide))
      (.fits (by decide))))
    (by decide)
    (by simp [Separated, endsCast]) (.inr rfl)
  exact ⟨u, h1, h3⟩

/-- A context in which all parameters are a `c_uchar`. -/
def ucharCtx : Ctx := { Ctx.unit asciiEnv with macroArgTy := fun _ _ => some (.path .plain ⟨false, [c!"c_uchar"]⟩) }

/-- `( (unsigned int) x << 8 ) | (unsigned int) z`. -/
def wordExpr : Expr :=
  .bin (.bin (.cast (.builtIn .uInt) (.var (.arg 0))) .shl (.lit (.int ⟨8, none⟩))) .bitOr (.cast (.builtIn .uInt) (.var (.arg 1)))

/-- `( x as c_uint ) << 8 | z as c_uint`. -/
def wordToks : List RTok := q!"( x as c_uint ) <<" ++ .int 8 [] :: q!"| z as c_uint"

theorem bitOr_value (x y : BitVec 128) : BinValue .bitOr x.toInt y.toInt (x ||| y).toInt := .or fun i => by
  rw [bit_toInt, bit_toInt, bit_toInt]; split <;> simp

/-- `#define WORD(x, z) ( (unsigned int) x << 8 ) | (unsigned int) z` for parameters of the type `unsigned char`. -/
example : (⟨c!"WORD", [c!"x", c!"z"], .expr wordExpr⟩ : FnMacro).generate 9 ucharCtx
      = .ok (.fn c!"WORD" (paramText none [(c!"x", .uchar, 0x12), (c!"z", .uchar, 0x34)]) (some (q!"c_uint")) wordToks) ∧
    ∃ u, rustBlock wordToks = some u ∧ RustEval .lp64 none (byName [(c!"x", .uchar, 0x12), (c!"z", .uchar, 0x34)]) u (.int .uint 0x1234) := by
  have hg : (⟨c!"WORD", [c!"x", c!"z"], .expr wordExpr⟩ : FnMacro).generate 9 ucharCtx
    = .ok (.fn c!"WORD" (paramText none [(c!"x", .uchar, 0x12), (c!"z", .uchar, 0x34)]) (some (q!"c_uint")) wordToks) := rfl
  have l8 : ConstTy .lp64 ⟨8, none⟩ .int := ⟨true, [], _, rfl, by simp, by decide⟩
  have hx : FnValue .lp64 False False (byIndex [(c!"x", .uchar, 0x12), (c!"z", .uchar, 0x34)]) (.var (.arg 0)) (.int .uchar 0x12) := .param rfl
  have hz : FnValue .lp64 False False (byIndex [(c!"x", .uchar, 0x12), (c!"z", .uchar, 0x34)]) (.var (.arg 1)) (.int .uchar 0x34) := .param rfl
  have cx := FnValue.cast (t := .uint) hx (.fits (by decide))
  have cz := FnValue.cast (t := .uint) hz (.fits (by decide))
  have hs := FnValue.shl (k := 8) (v' := 0x1200) rfl cx (.const (.lit l8)) (.inr ⟨rfl, .inr rfl, rfl⟩) (by decide) (by decide) (.fits (by decide))
  have hv : FnValue .lp64 False False (byIndex [(c!"x", .uchar, 0x12), (c!"z", .uchar, 0x34)]) wordExpr (.int .uint 0x1234) :=
    .bin (s := .uint) (t := .uint) rfl rfl hs cz (.inr (.inl ⟨rfl, rfl⟩)) (.fits (by decide)) (.fits (by decide))
      (bitOr_value 0x1200#128 0x34#128) (by rintro ⟨⟩) (.fits (by decide))
  obtain ⟨u, h1, _, h3⟩ := C64_partial .lp64 ucharCtx _ wordExpr 9 _ _ _ _ .uint 0x1234 rfl hg (by decide) hv
    (by decide)
    (by simp [wordExpr, Separated, endsCast, isCast]) (.inr rfl)
  exact ⟨hg, u, h1, h3⟩

/-! ## The full claim is false -/

/-- `x + y + x`. -/
def sumExpr : Expr := .bin (.bin (.var (.arg 0)) .add (.var (.arg 1))) .add (.var (.arg 0))

/-- The full claim is false: if `x` is an `unsigned int` and `y` a `long`, then `x + y + x` is a `long` in C.  The function
returns `c_uint`, and its body adds a `c_uint` and a `c_long`, which Rust does not allow. -/
theorem C64_false : ¬ C64_statement := by
  intro h
  have hg : (⟨c!"SUM", [c!"x", c!"y"], .expr sumExpr⟩ : FnMacro).generate 9 uintCtx
      = .ok (.fn c!"SUM" (paramText none [(c!"x", .uint, 1), (c!"y", .long, 2)]) (some (q!"c_uint")) (q!"x + y + x")) := rfl
  have hx : FnValue .lp64 True True (byIndex [(c!"x", .uint, 1), (c!"y", .long, 2)]) (.var (.arg 0)) (.int .uint 1) := .param rfl
  have hy : FnValue .lp64 True True (byIndex [(c!"x", .uint, 1), (c!"y", .long, 2)]) (.var (.arg 1)) (.int .long 2) := .param rfl
  have h1 : FnValue .lp64 True True (byIndex [(c!"x", .uint, 1), (c!"y", .long, 2)]) (.bin (.var (.arg 0)) .add (.var (.arg 1))) (.int .long 3) :=
    .bin (s := .uint) (t := .long) rfl rfl hx hy (.inl trivial) (.fits (by decide)) (.fits (by decide)) .add (by rintro ⟨⟩)
      (.fits (by decide))
  have h2 : FnValue .lp64 True True (byIndex [(c!"x", .uint, 1), (c!"y", .long, 2)]) sumExpr (.int .long 4) :=
    .bin (s := .long) (t := .uint) rfl rfl h1 hx (.inl trivial) (.fits (by decide)) (.fits (by decide)) .add (by rintro ⟨⟩)
      (.fits (by decide))
  obtain ⟨_, _, h, _⟩ := h .lp64 _ _ _ _ _ _ _ [(c!"x", .uint, 1), (c!"y", .long, 2)] _ _ rfl hg (by decide)
    (by intro p hp; simp only [List.mem_cons, List.not_mem_nil, or_false] at hp; rcases hp with rfl | rfl <;> decide) h2
  exact absurd h (by decide)

theorem held_args {a b : Int} (ha : IntTy.uint.Holds .lp64 a) (hb : IntTy.uint.Holds .lp64 b) :
    ∀ p ∈ [(c!"x", IntTy.uint, a), (c!"z", IntTy.uint, b)], p.2.1.Holds .lp64 p.2.2 := by
  intro p hp
  simp only [List.mem_cons, List.not_mem_nil, or_false] at hp
  rcases hp with rfl | rfl
  · exact ha
  · exact hb

/-- A comparison is an `int` in C, but the function returns `bool`. -/
theorem C64_false_bool : ¬ C64_statement := by
  intro h
  have hg : (⟨c!"LT", [c!"x", c!"z"], .expr (.bin (.var (.arg 0)) .lt (.var (.arg 1)))⟩ : FnMacro).generate 9 uintCtx
    = .ok (.fn c!"LT" (paramText none [(c!"x", .uint, 7), (c!"z", .uint, 0)]) (some (q!"bool")) (q!"x < z")) := rfl
  have hx : FnValue .lp64 True True (byIndex [(c!"x", .uint, 7), (c!"z", .uint, 0)]) (.var (.arg 0)) (.int .uint 7) := .param rfl
  have hz : FnValue .lp64 True True (byIndex [(c!"x", .uint, 7), (c!"z", .uint, 0)]) (.var (.arg 1)) (.int .uint 0) := .param rfl
  obtain ⟨_, _, h, _⟩ := h .lp64 _ _ _ _ _ _ _ [(c!"x", .uint, 7), (c!"z", .uint, 0)] _ _ rfl hg (by decide)
    (held_args (by decide) (by decide))
    (.number trivial (.cmp (op := .lt) (s := .uint) (t := .uint) rfl hx hz (.inl trivial) (.fits (by decide)) (.fits (by decide))))
  exact absurd h (by decide)

/-- The operands are not promoted: for `x` of the type `unsigned char`, `x + x` is an `int` in C, 400 if `x` is 200.  The function returns
a `c_uchar`, and the sum overflows. -/
theorem C64_false_promote : ¬ C64_statement := by
  intro h
  have hg : (⟨c!"TWICE", [c!"x"], .expr (.bin (.var (.arg 0)) .add (.var (.arg 0)))⟩ : FnMacro).generate 9 ucharCtx
    = .ok (.fn c!"TWICE" (paramText none [(c!"x", .uchar, 200)]) (some (q!"c_uchar")) (q!"x + x")) := rfl
  have hx : FnValue .lp64 True True (byIndex [(c!"x", .uchar, 200)]) (.var (.arg 0)) (.int .uchar 200) := .param rfl
  obtain ⟨_, _, h, _⟩ := h .lp64 _ _ _ _ _ _ _ [(c!"x", .uchar, 200)] .int 400 rfl hg (by decide)
    (by intro p hp; simp only [List.mem_singleton] at hp; subst hp; decide)
    (.bin (s := .uchar) (t := .uchar) rfl rfl hx hx (.inl trivial) (.fits (by decide)) (.fits (by decide)) .add (by rintro ⟨⟩)
      (.fits (by decide)))
  exact absurd h (by decide)

/-- Rust does not even compute a `c_uchar`: no type has the value that the code yields. -/
theorem twice_overflows (o : Outcome) : ∃ u, rustBlock (q!"x + x") = some u ∧ ¬ RustEval .lp64 none (byName [(c!"x", .uchar, 200)]) u o := by
  refine ⟨.bin c!"+" (.name (q!"x")) (.name (q!"x")), rfl, fun h => ?_⟩
  generalize ho : c!"+" = op at h
  cases h with
  | bin hop ho' hl hr hv _ hh =>
    subst ho
    obtain rfl := rustOp_inj (op' := .add) ho' rfl
    cases hl with
    | name h1 => cases hr with
      | name h2 =>
        cases h1; cases h2; cases hv
        exact absurd hh (by decide)
  | cmp hop ho' => subst ho; obtain rfl := rustOp_inj (op' := .add) ho' rfl; cases hop
  | _ => exact absurd ho (by decide)

/-- `( x ? x : z ) + 1` becomes `if x != 0 { x } else { z } + 1`.  At the start of a block Rust takes the `if` as a statement, so that
this is no expression. -/
theorem C64_false_if : ¬ C64_statement := by
  intro h
  have hg : (⟨c!"INC", [c!"x", c!"z"],
      .expr (.bin (.ternary (.var (.arg 0)) (.var (.arg 0)) (.var (.arg 1))) .add (.lit (.int ⟨1, none⟩)))⟩ : FnMacro).generate 9 uintCtx
    = .ok (.fn c!"INC" (paramText none [(c!"x", .uint, 7), (c!"z", .uint, 0)]) (some (q!"c_uint"))
        (q!"if x !=" ++ .int 0 [] :: q!"{ x } else { z } +" ++ [.int 1 []])) := rfl
  have hx : FnValue .lp64 True True (byIndex [(c!"x", .uint, 7), (c!"z", .uint, 0)]) (.var (.arg 0)) (.int .uint 7) := .param rfl
  have hz : FnValue .lp64 True True (byIndex [(c!"x", .uint, 7), (c!"z", .uint, 0)]) (.var (.arg 1)) (.int .uint 0) := .param rfl
  have l1 : ConstTy .lp64 ⟨1, none⟩ .int := ⟨true, [], _, rfl, by simp, by decide⟩
  have hc : FnValue .lp64 True True (byIndex [(c!"x", .uint, 7), (c!"z", .uint, 0)]) (.ternary (.var (.arg 0)) (.var (.arg 0)) (.var (.arg 1)))
      (.int .uint 7) :=
    .condTrue (s := .uint) (t := .uint) rfl hx rfl hx (fun _ => rfl) hz (.inl trivial) (.fits (by decide))
  obtain ⟨u, h, _⟩ := h .lp64 _ _ _ _ _ _ _ [(c!"x", .uint, 7), (c!"z", .uint, 0)] .uint 8 rfl hg (by decide)
    (held_args (by decide) (by decide))
    (.bin (s := .uint) (t := .int) rfl rfl hc (.const (.lit l1)) (.inl trivial) (.fits (by decide)) (.fits (by decide)) .add (by rintro ⟨⟩)
      (.fits (by decide)))
  rw [show rustBlock (q!"if x !=" ++ .int 0 [] :: q!"{ x } else { z } +" ++ [.int 1 []]) = none by decide +kernel] at h
  cases h

/-- A parameter named by a keyword of Rust: `#define SCALE(type, x) type * x` becomes a function with the body `type * x`. -/
theorem C64_false_keyword : ¬ C64_statement := by
  intro h
  have hg : (⟨c!"SCALE", [c!"type", c!"x"], .expr (.bin (.var (.arg 0)) .mul (.var (.arg 1)))⟩ : FnMacro).generate 9 uintCtx
    = .ok (.fn c!"SCALE" (paramText none [(c!"type", .uint, 7), (c!"x", .uint, 2)]) (some (q!"c_uint")) (q!"type * x")) := rfl
  have hx : FnValue .lp64 True True (byIndex [(c!"type", .uint, 7), (c!"x", .uint, 2)]) (.var (.arg 0)) (.int .uint 7) := .param rfl
  have hz : FnValue .lp64 True True (byIndex [(c!"type", .uint, 7), (c!"x", .uint, 2)]) (.var (.arg 1)) (.int .uint 2) := .param rfl
  obtain ⟨_, h, _⟩ := h .lp64 _ _ _ _ _ _ _ [(c!"type", .uint, 7), (c!"x", .uint, 2)] .uint 14 rfl hg (by decide)
    (by intro p hp; simp only [List.mem_cons, List.not_mem_nil, or_false] at hp; rcases hp with rfl | rfl <;> decide)
    (.bin (s := .uint) (t := .uint) rfl rfl hx hz (.inl trivial) (.fits (by decide)) (.fits (by decide)) .mul (by rintro ⟨⟩)
      (.fits (by decide)))
  rw [show rustBlock (q!"type * x") = none by decide +kernel] at h
  cases h

/-- Unsigned numbers wrap around in C: `x - z` is 4294967295 if `x` is 0 and `z` is 1.  In Rust the subtraction overflows. -/
theorem C64_false_wrap : ¬ C64_statement := by
  intro h
  have hg : (⟨c!"DIFF", [c!"x", c!"z"], .expr (.bin (.var (.arg 0)) .sub (.var (.arg 1)))⟩ : FnMacro).generate 9 uintCtx
    = .ok (.fn c!"DIFF" (paramText none [(c!"x", .uint, 0), (c!"z", .uint, 1)]) (some (q!"c_uint")) (q!"x - z")) := rfl
  have hx : FnValue .lp64 True True (byIndex [(c!"x", .uint, 0), (c!"z", .uint, 1)]) (.var (.arg 0)) (.int .uint 0) := .param rfl
  have hz : FnValue .lp64 True True (byIndex [(c!"x", .uint, 0), (c!"z", .uint, 1)]) (.var (.arg 1)) (.int .uint 1) := .param rfl
  obtain ⟨u, hu, _, h⟩ := h .lp64 _ _ _ _ _ _ _ [(c!"x", .uint, 0), (c!"z", .uint, 1)] .uint 4294967295 rfl hg (by decide)
    (held_args (by decide) (by decide))
    (.bin (s := .uint) (t := .uint) rfl rfl hx hz (.inl trivial) (.fits (by decide)) (.fits (by decide)) .sub (by rintro ⟨⟩)
      (.wraps trivial rfl))
  obtain rfl : u = .bin c!"-" (.name (q!"x")) (.name (q!"z")) := Option.some.inj (hu.symm.trans rfl)
  generalize ho : c!"-" = op, hw : Outcome.int .uint 4294967295 = w at h
  cases h with
  | bin hop ho' hl hr hv _ hh =>
    subst ho
    obtain rfl := rustOp_inj (op' := .sub) ho' rfl
    cases hl with
    | name h1 => cases hr with
      | name h2 => cases h1; cases h2; cases hv; injection hw with _ hw; exact absurd hw (by decide)
  | cmp => cases hw
  | _ => exact absurd ho (by decide)

end CMacro
