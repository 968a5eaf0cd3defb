import Verif.Props.ConstCast
import Verif.Proofs.RustTypes

/-!
# Property C87: the declared types of constants and functions are those of the generated expressions
-/

namespace CMacro
open Spec

/-- Literals of numbers, operators, casts to built-in types, and nothing else. -/
def Spec.numbersOnly : Expr → Bool
  | .lit (.int _) => true
  | .lit (.float _) => true
  | .un _ e => numbersOnly e
  | .bin l _ r => numbersOnly l && numbersOnly r
  | .cast (.builtIn _) e => numbersOnly e
  | .ternary c t f => numbersOnly c && numbersOnly t && numbersOnly f
  | _ => false

/-- C87: a constant made of numbers is an expression of the type that it is declared with. -/
def C87_statement : Prop :=
  ∀ (C : Ctx) (name : Str) (e : Expr) (code τ : List RTok), C.env.Lawful → numbersOnly e = true →
    VarMacro.Generates C ⟨name, .expr e⟩ (.ok (code, some τ)) →
    ∃ u, rustParse code = some u ∧ HasType (fun _ => True) C.ffiPrefix (fun _ => none) u τ

/-- C87, if the expression has a type at all: then it has the declared type.  All floating types are the same, shifts are by
constants, and `!` is applied to conditions (PlainTypes); no cast stands where Rust would read on. -/
theorem C87_const_partial (Fin : LitFloat → Prop) (hFin : ∀ v, Fin (.float (.ofInt v))) (C : Ctx) (name : Str) (e : Expr)
    (code τ k : List RTok) (hk : FloatText k) (h : PlainTypes ⟨C, varLoc C, false⟩ k e) (hs : Separated e)
    (hg : VarMacro.Generates C ⟨name, .expr e⟩ (.ok (code, some τ))) :
    ∃ u, rustParse code = some u ∧
      ∀ σ, HasType Fin C.ffiPrefix (fun _ => none) u σ → HasType Fin C.ffiPrefix (fun _ => none) u τ := by
  obtain ⟨N, hN⟩ := hg
  have hg := hN N (Nat.le_refl _)
  rw [VarMacro.generate_expr] at hg
  cases hx : Expr.finish C (varLoc C) N e .init with
  | mk e' st r =>
    rw [hx] at hg
    cases r with
    | error => cases hg
    | ok ty =>
      obtain ⟨rfl, S⟩ := plain_sound (P := ⟨C, varLoc C, false⟩) (Γ := fun _ => none) hk hFin
        ⟨rfl, fun i t ht => by simp [LState.argTy, LState.init] at ht⟩ h hs hx
      have hout : varOut C ⟨e', .init, .ok ty⟩ = .ok (code, some τ) := hg
      have hl : ∀ s, e' ≠ .lit (.string s) := by
        rintro s rfl
        rcases S.lit _ rfl with ⟨i, hi, _⟩ | ⟨f, hf, _⟩
        · cases hi
        · cases hf
      have hct : code = e'.toks ⟨C, varLoc C, false⟩ ∧ some τ = ty.map (·.toks ⟨C, varLoc C, false⟩) := by
        unfold varOut at hout
        dsimp only [LState.init] at hout
        split at hout
        · exact absurd rfl (hl _)
        · split at hout
          · cases hout
          · rw [if_neg (by decide)] at hout
            injection hout with hout
            injection hout with h1 h2
            exact ⟨h1.symm, h2.symm⟩
      obtain ⟨rfl, hτ⟩ := hct
      cases ty with
      | none => cases hτ
      | some T =>
        cases hτ
        obtain ⟨u, u1, u2, u3⟩ := S.tree
        refine ⟨u, C37_partial _ _ _ u1 S.sep, fun σ hσ => ?_⟩
        rcases u3 σ T hσ rfl with rfl | ⟨h1, h2⟩
        · exact hσ
        · show HasType _ _ _ _ (T.toks _)
          rw [h2]; exact u2 σ hσ h1

/-- The types of the parameters of a function, by name. -/
def Spec.typesOf (ps : List (Str × List RTok)) : List RTok → Option (List RTok)
  | [.id x] => ps.lookup x
  | _ => none

/-- The parameters of a function with these names and types. -/
def Spec.paramTexts (ps : List (Str × List RTok)) : List (List RTok) := ps.map fun p => [.id p.1, .punct c!":"] ++ p.2

theorem typesOf_mem : ∀ {ps : List (Str × List RTok)}, (ps.map (·.1)).Nodup → ∀ (i : Nat) (p : Str × List RTok), ps[i]? = some p →
    typesOf ps [.id p.1] = some p.2
  | [], _, i, p, h => by simp at h
  | (x, q) :: ps, hn, i, p, h => by
    cases i with
    | zero => cases h; simp [typesOf]
    | succ i =>
      simp only [List.getElem?_cons_succ] at h
      simp only [List.map_cons, List.nodup_cons] at hn
      have hx : (p.1 == x) = false := by
        simp only [beq_eq_false_iff_ne]
        rintro rfl
        exact hn.1 (List.mem_map.2 ⟨p, List.mem_of_getElem? h, rfl⟩)
      have := typesOf_mem hn.2 i p h
      simp only [typesOf, List.lookup, hx] at this ⊢
      exact this

theorem paramTexts_read {P : PCtx} : ∀ {args : List Str} {tys : List ArgTy} {ps : List (Str × List RTok)}, args.length = tys.length →
    fnParams P args tys = paramTexts ps → ∀ (i : Nat) (t : ArgTy), tys[i]? = some t →
      ∃ τ p, t = .known τ ∧ ps[i]? = some p ∧ args[i]? = some p.1 ∧ p.2 = τ.toks P
  | _, [], _, _, _, i, t, ht => by simp at ht
  | [], _ :: _, _, h, _, _, _, _ => by simp at h
  | a :: args, t₀ :: tys, [], _, h, _, _, _ => by cases t₀ <;> simp [fnParams, paramTexts] at h
  | a :: args, t₀ :: tys, q :: ps, hlen, h, i, t, ht => by
    cases t₀ with
    | known τ =>
      simp only [fnParams, paramTexts, List.map_cons] at h
      injection h with h1 h2
      cases i with
      | zero =>
        cases ht
        simp only [List.cons_append, List.nil_append] at h1
        injection h1 with h3 h4
        injection h4 with _ h5
        injection h3 with h3
        exact ⟨τ, q, rfl, rfl, by rw [h3]; rfl, h5.symm⟩
      | succ i => exact paramTexts_read (by simpa using hlen) h2 i t (by simpa using ht)
    | _ =>
      simp only [fnParams, paramTexts, List.map_cons] at h
      injection h with h1 h2
      simp at h1

theorem argTypes_sameLength {C : Ctx} {name : Str} : ∀ {as : List Str} {ts : List ArgTy}, argTypes C name as = .ok ts → as.length = ts.length
  | [], ts, h => by cases h; rfl
  | a :: as, ts, h => by
    rw [argTypes] at h
    split at h
    · cases h
    · split at h
      · cases h
      · next ts' h' => cases h; simp [argTypes_sameLength h']

/-- Finishing does not change what is known of the parameters. -/
theorem plain_state {P : PCtx} {k : List RTok} {C : Ctx} {L : Loc} {e : Expr} {st : LState} (h : PlainTypes P k e) :
    ∀ {n e' st' ty}, Expr.finish C L n e st = ⟨e', st', .ok ty⟩ → st' = st := by
  induction h with
  | int => exact fun hf => (finish_lit (by rintro c ⟨⟩) hf).2.1
  | float => exact fun hf => (finish_lit (by rintro c ⟨⟩) hf).2.1
  | param =>
    intro n e' st' ty hf
    cases n with
    | zero => cases hf
    | succ n =>
      rw [Expr.finish, finishStep] at hf
      simp only [finishVar, IdentExpr.finish] at hf
      split at hf <;> (injection hf with _ h _; exact h.symm)
  | un _ _ ih => exact fun hf => un_state (fun _ _ _ _ => ih) hf
  | not _ _ ih => exact fun hf => un_state (fun _ _ _ _ => ih) hf
  | @bin l op r hop _ _ ihl ihr =>
    refine fun hf => bin_state ?_ (fun _ _ _ _ => ihl) (fun _ _ _ _ => ihr) hf
    revert hop; cases op <;> decide
  | shift hop _ _ _ ihl ihr =>
    refine fun hf => bin_state ?_ (fun _ _ _ _ => ihl) (fun _ _ _ _ => ihr) hf
    rcases hop with rfl | rfl <;> rfl
  | @cast b x hb ht hfl hx ih =>
    intro n e' st' ty hf
    obtain ⟨m, x', tx, hx', _⟩ := finish_cast (fun m s y => plain_noCast hx m st _ _ y) hf
    exact ih hx'
  | ternary _ _ _ ihc ihx ihy =>
    intro n e' st' ty hf
    obtain ⟨m, c0, x', y', sc, sx, sy, tc, tx, ty', h1, h2, h3, _, rfl, _⟩ := finish_ternary hf
    obtain rfl := ihc h1
    obtain rfl := ihx h2
    exact ihy h3

/-- The same of functions: if the body has a type at all, for parameters of the declared types, then it has the declared return
type. -/
theorem C87_fn_partial (Fin : LitFloat → Prop) (hFin : ∀ v, Fin (.float (.ofInt v))) (C : Ctx) (m : FnMacro) (e : Expr) (n : Nat)
    (name : Str) (ps : List (Str × List RTok)) (τ code k : List RTok) (hk : FloatText k) (hb : m.body = .expr e)
    (h : PlainTypes ⟨C, fnLoc m.args, false⟩ k e) (hs : Separated e) (hfit : FitsBlock e)
    (hg : m.generate n C = .ok (.fn name (paramTexts ps) (some τ) code)) (hnd : (ps.map (·.1)).Nodup)
    (hw : ∀ p ∈ ps, p.1 ∉ c!"..." :: rustKeywords) (hf : ∀ p ∈ ps, FloatText p.2 → p.2 = k) :
    ∃ u, rustBlock code = some u ∧
      ∀ σ, HasType Fin C.ffiPrefix (typesOf ps) u σ → HasType Fin C.ffiPrefix (typesOf ps) u τ := by
  unfold FnMacro.generate at hg
  rw [hb] at hg
  cases hty : argTypes C m.name m.args with
  | error e => rw [hty] at hg; cases hg
  | ok tys =>
    rw [hty] at hg
    dsimp only at hg
    rw [MacroBody.finish] at hg
    cases hx : Expr.finish C (fnLoc m.args) n e ⟨tys, false⟩ with
    | mk e' st r =>
      rw [hx] at hg
      cases r with
      | error e => cases hg
      | ok ty =>
        dsimp only at hg
        have hret : Option.isNone ty = false → ∃ τ, ty = some τ := by cases ty <;> simp
        generalize hxx : (st.exportAsMacro || (C.function m.name).isSome || namesVariadic m.args || !st.argTypes.all ArgTy.isKnown
          || Option.isNone ty) = x at hg
        cases x <;> simp only [Bool.false_eq_true, if_false, if_true] at hg <;> split at hg <;> try cases hg
        simp only [Bool.or_eq_false_iff] at hxx
        obtain ⟨T, rfl⟩ := hret hxx.2
        injection hg with hg
        injection hg with g1 g2 g3 g4
        -- no parameter gets a type from the body
        have hst : st = ⟨tys, false⟩ := plain_state h hx
        subst hst
        have hkn : KnownParams ⟨C, fnLoc m.args, false⟩ ⟨tys, false⟩ (typesOf ps) k := by
          refine ⟨rfl, fun i t ht => ?_⟩
          obtain ⟨σ, p, rfl, hp, ha, hpt⟩ := paramTexts_read (argTypes_sameLength hty) g2 i t ht
          have hm := List.mem_of_getElem? hp
          have hkw := hw p hm
          simp only [List.mem_cons, not_or] at hkw
          exact ⟨σ, p.1, rfl, ha, hkw.1, hkw.2, by rw [typesOf_mem hnd i p hp, hpt], by rw [← hpt]; exact hf p hm⟩
        obtain ⟨_, S⟩ := plain_sound (P := ⟨C, fnLoc m.args, false⟩) hk hFin hkn h hs hx
        obtain ⟨u, u1, u2, u3⟩ := S.tree
        have hfit' : FitsBlock e' := by unfold FitsBlock; rw [S.begins, S.tern]; exact hfit
        refine ⟨u, ?_, fun σ hσ => ?_⟩
        · rw [← g4]; exact C37_block_partial _ _ _ u1 S.sep hfit'
        · have hτ : τ = T.toks ⟨C, fnLoc m.args, false⟩ := by
            unfold retToks at g3
            split at g3
            · cases g3
            · next t ht =>
              cases ht
              split at g3
              · cases g3
              · injection g3 with g3; exact g3.symm
          rw [hτ]
          rcases u3 σ T hσ rfl with rfl | ⟨h1, h2⟩
          · exact hσ
          · rw [h2]; exact u2 σ hσ h1

/-! ## Well-typed programs -/

/-- C87 for constants that have a value in C without conversions (the domain of C68): the text has the declared type. -/
theorem C87_value_partial (Fin : LitFloat → Prop) (W : Widths) (C : Ctx) (name : Str) (e : Expr) (t : IntTy) (v : Int) (hE : C.env.Lawful)
    (hC : CalmCtx C) (hc : constant e = false) (hv : FnValue W False False (fun _ => none) e (.int t v)) (hs : Separated e)
    (hroot : Rooted C.ffiPrefix := by intro p h; cases h) :
    ∃ code τ u, VarMacro.Generates C ⟨name, .expr e⟩ (.ok (code, some τ)) ∧ rustParse code = some u ∧
      HasType Fin C.ffiPrefix (fun _ => none) u τ := by
  obtain ⟨code, u, h1, h2, h3⟩ := C68_partial W C name e t v hE hC hc hv hs hroot
  exact ⟨code, _, u, h1, h2, eval_hasType Fin h3⟩

/-- Likewise for functions (the domain of C64). -/
theorem C87_fn_value_partial (Fin : LitFloat → Prop) (W : Widths) (C : Ctx) (m : FnMacro) (e : Expr) (n : Nat) (name : Str)
    (ret : Option (List RTok)) (code : List RTok) (ps : List (Str × IntTy × Int)) (t : IntTy) (v : Int)
    (hb : m.body = .expr e) (hg : m.generate n C = .ok (.fn name (paramText C.ffiPrefix ps) ret code))
    (hnd : (ps.map (·.1)).Nodup) (hv : FnValue W False False (byIndex ps) e (.int t v))
    (hk : ∀ p ∈ ps, p.1 ∉ c!"..." :: rustKeywords) (hs : Separated e) (hfit : FitsBlock e)
    (hroot : Rooted C.ffiPrefix := by intro p h; cases h) :
    ∃ u τ, rustBlock code = some u ∧ ret = some τ ∧
      HasType Fin C.ffiPrefix (typesOf (ps.map fun p => (p.1, tyText C.ffiPrefix p.2.1))) u τ := by
  obtain ⟨u, h1, h2, h3⟩ := C64_partial W C m e n name ret code ps t v hb hg hnd hv hk hs hfit hroot
  refine ⟨u, _, h1, h2, ?_⟩
  rw [show typesOf (ps.map fun p => (p.1, tyText C.ffiPrefix p.2.1)) = typesIn C.ffiPrefix (byName ps) from ?_]
  · exact eval_hasType Fin h3
  funext x
  unfold typesOf typesIn byName
  split
  · next x =>
    clear hg hnd hv hk h3
    induction ps with
    | nil => rfl
    | cons p ps ih =>
      obtain ⟨y, q⟩ := p
      simp only [List.map_cons, List.lookup]
      cases x == y
      · exact ih
      · rfl
  · next h => split <;> first | rfl | exact (h _ rfl).elim

/-! ## Disagreements -/

/-- `!0` becomes the constant `1` of the type `bool`. -/
theorem C87_false : ¬ C87_statement := by
  intro h
  obtain ⟨u, hu, ht⟩ := h (.unit asciiEnv) c!"M" (.un .not (.lit (.int ⟨0, none⟩))) _ _ asciiEnv_lawful rfl
    (varGenerates_of 5 (.unit asciiEnv) c!"M" _ (by decide))
  obtain rfl : u = .num 1 := Option.some.inj (hu.symm.trans rfl)
  generalize hτ : ([.id c!"bool"] : List RTok) = τ at ht
  have hτ' : boolText = τ := hτ
  cases ht with
  | num h =>
    subst hτ'
    rcases h with ⟨x, hx, h⟩ | ⟨x, hx, h⟩
    · injection h with h _
      injection h with h
      subst h
      exact absurd hx (by decide)
    · injection h with h _
      injection h with h
      subst h
      exact absurd hx (by decide)

/-- `((int) 1 << (long) 2 * 1) << (char) 3` is declared as `c_char`; it is a `c_int`. -/
theorem C87_false_shift : ¬ C87_statement := by
  intro h
  obtain ⟨u, hu, ht⟩ := h (.unit asciiEnv) c!"M"
    (.bin (.bin (.cast (.builtIn .int) (.lit (.int ⟨1, none⟩))) .shl
      (.bin (.cast (.builtIn .long) (.lit (.int ⟨2, none⟩))) .mul (.lit (.int ⟨1, none⟩)))) .shl (.cast (.builtIn .char) (.lit (.int ⟨3, none⟩))))
    _ (q!"c_char") asciiEnv_lawful rfl (varGenerates_of 8 (.unit asciiEnv) c!"M" _ (by decide))
  obtain rfl : u = .bin c!"<<" (.bin c!"<<" (.cast (.num 1 c!"u8") (q!"c_int")) (.bin c!"*" (.cast (.num 2 c!"u8") (q!"c_long")) (.num 1)))
    (.cast (.num 3 c!"u8") (q!"c_char")) := Option.some.inj (hu.symm.trans rfl)
  have hl : ∀ {l r : RExpr} {τ : List RTok}, HasType (fun _ => True) none (fun _ => none) (.bin c!"<<" l r) τ →
      HasType (fun _ => True) none (fun _ => none) l τ := fun h => ((bin_type (op := .shl) rfl h).2.2 (.inl rfl)).1
  have h1 := hl (hl ht)
  generalize hτ : (q!"c_char" : List RTok) = τ at h1
  generalize hσ : (q!"c_int" : List RTok) = σ at h1
  cases h1 with
  | cast => exact absurd (hτ.trans hσ.symm) (by decide)

/-- `1.5f * (double) 2 * 2.5f` is declared as `f32`; it is an `f64`. -/
theorem C87_false_float : ¬ C87_statement := by
  intro h
  obtain ⟨u, hu, ht⟩ := h (.unit asciiEnv) c!"M"
    (.bin (.bin (.lit (.float (.float (.parse c!"2.5")))) .mul (.cast (.builtIn .double) (.lit (.int ⟨2, none⟩)))) .mul (.lit (.float (.float (.parse c!"2.5")))))
    _ (q!"f32") asciiEnv_lawful rfl (varGenerates_of 8 (.unit asciiEnv) c!"M" _ (by decide))
  obtain rfl : u = .bin c!"*" (.bin c!"*" (.float (.float (.parse c!"2.5"))) (.cast (.num 2 c!"u8") (q!"f64"))) (.float (.float (.parse c!"2.5"))) :=
    Option.some.inj (hu.symm.trans rfl)
  have h1 := ((bin_type (op := .mul) rfl ((bin_type (op := .mul) rfl ht).2.1 (by decide) rfl).1).2.1 (by decide) rfl).2.1
  generalize hτ : (q!"f32" : List RTok) = τ at h1
  generalize hσ : (q!"f64" : List RTok) = σ at h1
  cases h1 with
  | cast => exact absurd (hτ.trans hσ.symm) (by decide)

/-- `-(unsigned int) 1` is declared as `c_uint`, for which Rust has no `-`. -/
theorem C87_false_neg : ¬ C87_statement := by
  intro h
  obtain ⟨u, hu, ht⟩ := h (.unit asciiEnv) c!"M" (.un .minus (.cast (.builtIn .uInt) (.lit (.int ⟨1, none⟩))))
    _ (q!"c_uint") asciiEnv_lawful rfl (varGenerates_of 8 (.unit asciiEnv) c!"M" _ (by decide))
  obtain rfl : u = .un c!"-" (.cast (.num 1 c!"u8") (q!"c_uint")) := Option.some.inj (hu.symm.trans rfl)
  generalize hτ : (q!"c_uint" : List RTok) = τ at ht
  generalize ho : (c!"-" : Str) = o at ht
  cases ht with
  | neg h _ =>
    subst hτ
    rcases h with h | h
    · exact (h.2 c!"c_uint" (by decide)).1 rfl
    · rcases h with h | h <;> exact absurd h (by decide)
  | not => exact absurd ho (by decide)

/-! ## Examples -/

/-- `((unsigned int) 3 << 4 | 1) % 7`. -/
def remExpr : Expr :=
  .bin (.bin (.bin (.cast (.builtIn .uInt) (.lit (.int ⟨3, none⟩))) .shl (.lit (.int ⟨4, none⟩))) .bitOr (.lit (.int ⟨1, none⟩))) .rem
    (.lit (.int ⟨7, none⟩))


/-- The text of the type `unsigned int` (and of others) where nothing is prefixed. -/
theorem unit_text (L : Loc) : TypeText ((Ty.builtIn .uInt).toks ⟨.unit asciiEnv, L, false⟩) ∧ TypeText ((Ty.builtIn .double).toks ⟨.unit asciiEnv, L, false⟩) ∧
    TypeText ((Ty.builtIn .char).toks ⟨.unit asciiEnv, L, false⟩) := ⟨.name, .name, .name⟩

/-- The constant `((3u8 as c_uint) << 4 | 1) % 7` is a `c_uint`. -/
example : ∃ code u, VarMacro.Generates (.unit asciiEnv) ⟨c!"M", .expr remExpr⟩ (.ok (code, some (q!"c_uint"))) ∧ rustParse code = some u ∧
    HasType (fun _ => True) none (fun _ => none) u (q!"c_uint") := by
  have hg : VarMacro.Generates (.unit asciiEnv) ⟨c!"M", .expr remExpr⟩
      (.ok (q!"( (" ++ .int 3 c!"u8" :: q!"as c_uint ) <<" ++ .int 4 [] :: q!"|" ++ .int 1 [] :: q!") %" ++ [.int 7 []], some (q!"c_uint"))) :=
    varGenerates_of 8 _ _ _ (by decide)
  obtain ⟨u, h1, h2⟩ := C87_const_partial (fun _ => True) (fun _ => trivial) (.unit asciiEnv) c!"M" remExpr _ _ (q!"f64") (.inr rfl)
    (.bin (by decide) (.bin (by decide) (.shift (.inl rfl) rfl (.cast (by decide) (unit_text _).1 (by rintro (h | h) <;> exact absurd h (by decide)) .int) .int) .int) .int)
    ⟨by decide, by decide, by decide, ⟨by decide, by decide, by decide, ⟨by decide, by decide, by decide, trivial, trivial⟩, trivial⟩, trivial⟩ hg
  refine ⟨_, u, hg, h1, ?_⟩
  obtain rfl : u = .bin c!"%" (.bin c!"|" (.bin c!"<<" (.cast (.num 3 c!"u8") (q!"c_uint")) (.num 4)) (.num 1)) (.num 7) :=
    Option.some.inj (h1.symm.trans rfl)
  have hu : IntText none (q!"c_uint") := .inl ⟨c!"c_uint", by decide, rfl⟩
  have hb : IntText none (q!"u8") := .inr ⟨c!"u8", by decide, rfl⟩
  exact h2 _ (.arith (by decide) (.inl hu) (.bits (by decide) (.inl hu) (.shift (by decide) hu hb
    (.cast (.inl ⟨.inl hb, .inl hu⟩) (.suffixed (by decide))) (.num hb)) (.num hu)) (.num hu))

/-- `(2.5 < (double) 3) == !(2 < (char) 1) ? (double) 2 * 3.5 : -1.5`. -/
def pickExpr : Expr :=
  .ternary (.bin (.bin (.lit (.float (.double (.parse c!"2.5")))) .lt (.cast (.builtIn .double) (.lit (.int ⟨3, none⟩)))) .eq
      (.un .not (.bin (.lit (.int ⟨2, none⟩)) .lt (.cast (.builtIn .char) (.lit (.int ⟨1, none⟩))))))
    (.bin (.cast (.builtIn .double) (.lit (.int ⟨2, none⟩))) .mul (.lit (.float (.double (.parse c!"3.5")))))
    (.un .minus (.lit (.float (.double (.parse c!"1.5")))))

/-- The constant `if (2.5 < 3u8 as f64) == !(2 < 1u8 as c_char) { 2u8 as f64 * 3.5 } else { -1.5 }` is an `f64`. -/
example : ∃ code u, VarMacro.Generates (.unit asciiEnv) ⟨c!"M", .expr pickExpr⟩ (.ok (code, some (q!"f64"))) ∧ rustParse code = some u ∧
    HasType (fun _ => True) none (fun _ => none) u (q!"f64") := by
  have hg := varGenerates_of 8 (.unit asciiEnv) c!"M" pickExpr (by decide)
  obtain ⟨u, h1, h2⟩ := C87_const_partial (fun _ => True) (fun _ => trivial) (.unit asciiEnv) c!"M" pickExpr _ (q!"f64") (q!"f64") (.inr rfl)
    (.ternary (.bin (by decide) (.bin (by decide) (.float rfl) (.cast (by decide) (unit_text _).2.1 (fun _ => rfl) .int))
      (.not rfl (.bin (by decide) .int (.cast (by decide) (unit_text _).2.2 (by rintro (h | h) <;> exact absurd h (by decide)) .int))))
      (.bin (by decide) (.cast (by decide) (unit_text _).2.1 (fun _ => rfl) .int) (.float rfl)) (.un (.inl rfl) (.float rfl)))
    ⟨by unfold FitsBlock; decide, by unfold FitsBlock; decide, ⟨by decide, by decide, by decide, ⟨by decide, by decide, by decide, trivial, trivial⟩, by decide, by decide, by decide, by decide, trivial, trivial⟩,
      ⟨by decide, by decide, by decide, trivial, trivial⟩, by decide, trivial⟩ hg
  refine ⟨_, u, hg, h1, ?_⟩
  obtain rfl : u = .ite (.bin c!"==" (.bin c!"<" (.float (.double (.parse c!"2.5"))) (.cast (.num 3 c!"u8") (q!"f64")))
      (.un c!"!" (.bin c!"<" (.num 2) (.cast (.num 1 c!"u8") (q!"c_char")))))
    (.bin c!"*" (.cast (.num 2 c!"u8") (q!"f64")) (.float (.double (.parse c!"3.5"))))
    (.float (.double (.neg (.parse c!"1.5")))) := Option.some.inj (h1.symm.trans rfl)
  have hf : FloatText (q!"f64") := .inr rfl
  have hb : IntText none (q!"u8") := .inr ⟨c!"u8", by decide, rfl⟩
  have hc : IntText none (q!"c_char") := .inl ⟨c!"c_char", by decide, rfl⟩
  have hcast : ∀ n, HasType (fun _ => True) none (fun _ => none) (.cast (.num n c!"u8") (q!"f64")) (q!"f64") := fun n =>
    .cast (.inl ⟨.inl hb, .inr hf⟩) (.suffixed (by decide))
  exact h2 _ (.ite (.compare (by decide) (.inr (.inr (.inl rfl))) (.compare (by decide) (.inr (.inl hf)) (.float (.inl rfl)) (hcast 3))
    (.not (.inr rfl) (.compare (by decide) (.inl hc) (.num hc) (.cast (.inl ⟨.inl hb, .inl hc⟩) (.suffixed (by decide))))))
    (.arith (by decide) (.inr hf) (hcast 2) (.float (.inl rfl))) (.float (.inl rfl)))

/-- The function `fn MIX(x: c_uint, y: c_long) -> c_uint { x << 4 ^ y as c_uint & 15 }`. -/
example : ∃ u, rustBlock mixToks = some u ∧
    HasType (fun _ => True) none (typesOf [(c!"x", q!"c_uint"), (c!"y", q!"c_long")]) u (q!"c_uint") := by
  obtain ⟨u, h1, h2⟩ := C87_fn_partial (fun _ => True) (fun _ => trivial) uintCtx mixMacro mixExpr 8 c!"MIX" [(c!"x", q!"c_uint"), (c!"y", q!"c_long")]
    (q!"c_uint") mixToks (q!"f64") (.inr rfl) rfl
    (.bin (by decide) (.shift (.inl rfl) rfl .param .int) (.bin (by decide) (.cast (by decide) .name (by rintro (h | h) <;> exact absurd h (by decide)) .param) .int))
    ⟨by decide, by decide, by decide, ⟨by decide, by decide, by decide, trivial, trivial⟩, by decide, by decide, by decide, trivial, trivial⟩ (by unfold FitsBlock; decide) (by decide)
    (by decide) (by decide) (by intro p hp; simp only [List.mem_cons, List.not_mem_nil, or_false] at hp; rcases hp with rfl | rfl <;> (rintro (h | h) <;> exact absurd h (by decide)))
  refine ⟨u, h1, h2 (q!"c_uint") ?_⟩
  obtain ⟨u', τ, h3, h4, h5⟩ := C87_fn_value_partial (fun _ => True) .lp64 uintCtx mixMacro mixExpr 8 c!"MIX" (some (q!"c_uint")) mixToks mixParams .uint _
    rfl (by decide) (by decide) mix_value (by decide)
    ⟨by decide, by decide, by decide, ⟨by decide, by decide, by decide, trivial, trivial⟩, by decide, by decide, by decide, trivial, trivial⟩ (by unfold FitsBlock; decide)
  obtain rfl := Option.some.inj (h1.symm.trans h3)
  cases h4
  exact h5

/-- The constant `300u16 as c_uchar` of C68. -/
example : ∃ code τ u, VarMacro.Generates (.unit asciiEnv) ⟨c!"M", .expr narrowExpr⟩ (.ok (code, some τ)) ∧ rustParse code = some u ∧
    HasType (fun _ => True) none (fun _ => none) u τ :=
  C87_value_partial (fun _ => True) .lp64 (.unit asciiEnv) c!"M" narrowExpr .uchar 44 asciiEnv_lawful (calmCtx_unit _) rfl
    (.cast (t := .uchar) (.const (.lit ⟨true, [], _, rfl, by simp, by decide⟩)) (.wraps trivial rfl)) trivial

end CMacro
