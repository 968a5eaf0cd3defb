import Verif.Spec.Limits
import Verif.Props.ConstCast

/-!
# Property C96: the limits of the integer types
-/

namespace CMacro
open Spec

variable {W : Widths} {C : Ctx}

/-- What the finished expression is, its type and its tree. -/
structure Limited (W : Widths) (C : Ctx) (e e' : Expr) (t : IntTy) (v : Int) : Prop where
  finish : ∃ n, Expr.finish C (varLoc C) n e .init = ⟨e', .init, .ok (some (.builtIn t.cType))⟩
  lit : ∀ l, e' ≠ .lit l
  nums : Nums 0 e'
  sep : Separated e'
  tree : Rooted C.ffiPrefix → ∃ u, RustTree ⟨C, varLoc C, false⟩ e' u ∧ RustEval W C.ffiPrefix (fun _ => none) u (.int t v)

theorem limit_sets {id : Str} {t : IntTy} (h : limitOf id = some t.cType) :
    (id = c!"__SCHAR_MAX__" ∧ t = .schar) ∨ (id = c!"__SHRT_MAX__" ∧ t = .short) ∨ (id = c!"__INT_MAX__" ∧ t = .int) ∨
      (id = c!"__LONG_MAX__" ∧ t = .long) ∨ (id = c!"__LONG_LONG_MAX__" ∧ t = .llong) := by
  have := limit_cases h
  simp only [List.mem_cons, Prod.mk.injEq, List.not_mem_nil, or_false] at this
  rcases this with ⟨rfl, h⟩ | ⟨rfl, h⟩ | ⟨rfl, h⟩ | ⟨rfl, h⟩ | ⟨rfl, h⟩ <;> cases t <;> first | (cases h; done) | simp

theorem limit_width (W : Widths) (t : IntTy) : (2 : Int) ^ t.width W = 2 * 2 ^ (t.width W - 1) ∧ (1 : Int) < 2 ^ (t.width W - 1) := by
  have h : 8 ≤ t.width W := by
    have := W.short_ge; have := W.int_ge; have := W.long_ge; have := W.llong_ge
    cases t <;> simp only [IntTy.width] <;> omega
  obtain ⟨k, hk⟩ : ∃ k, t.width W = k + 2 := ⟨t.width W - 2, by omega⟩
  have h1 : (0 : Int) < 2 ^ k := Int.pow_pos (by decide)
  rw [hk, Nat.add_sub_assoc (by decide), Int.pow_succ, Int.pow_succ]
  omega

theorem limited {e : Expr} {t : IntTy} {v : Int} (h : Limit W e t v) : ∃ e', Limited W C e e' t v := by
  cases h with
  | @max id _ h =>
    refine ⟨.var (.plain id), ⟨5, ?_⟩, by rintro l ⟨⟩, ?_, trivial, fun hr => ⟨_, .limit h hr, by rw [tyText_is]; exact .max⟩⟩
    · rcases limit_sets h with ⟨rfl, rfl⟩ | ⟨rfl, rfl⟩ | ⟨rfl, rfl⟩ | ⟨rfl, rfl⟩ | ⟨rfl, rfl⟩ <;> rfl
    · show (limitOf _).isSome = true; rw [h]; rfl
  | @min id s _ h =>
    have hu := (limit_unsigned h).2
    obtain ⟨_, hw⟩ := limit_width W t
    refine ⟨.bin (.un .minus (.var (.plain id))) .sub (.lit (.int ⟨1, s⟩)), ⟨5, ?_⟩, by rintro l ⟨⟩, ?_, ?_,
      fun hr => ⟨_, .bin rfl (.un rfl (.limit h hr)) .int, ?_⟩⟩
    · rcases limit_sets h with ⟨rfl, rfl⟩ | ⟨rfl, rfl⟩ | ⟨rfl, rfl⟩ | ⟨rfl, rfl⟩ | ⟨rfl, rfl⟩ <;> rfl
    · exact ⟨rfl, ⟨.inr (.inl rfl), by show (limitOf _).isSome = true; rw [h]; rfl⟩, trivial⟩
    · exact ⟨by rintro ⟨⟩, by rintro ⟨⟩, by rintro ⟨⟩, ⟨by rintro ⟨⟩, trivial⟩, trivial⟩
    · rw [tyText_is]
      have h1 : t.Holds W (-t.greatest W) := by
        simp only [IntTy.Holds, IntTy.greatest, hu, Bool.false_eq_true, if_false]; omega
      have h2 : t.Holds W 1 := by simp only [IntTy.Holds, hu, Bool.false_eq_true, if_false]; omega
      have h3 : t.Holds W (t.least W) := by
        simp only [IntTy.Holds, IntTy.least, hu, Bool.false_eq_true, if_false]; omega
      have h4 : t.least W = -t.greatest W - 1 := by
        simp only [IntTy.greatest, IntTy.least, hu, Bool.false_eq_true, if_false]; omega
      exact .bin (op := .sub) rfl rfl (.neg hu .max h1) (eval_int h2) (h4 ▸ .sub) (by rintro ⟨⟩) h3
  | @umax id s s' t h =>
    have hu := (limit_unsigned h).2
    obtain ⟨hw2, hw⟩ := limit_width W t
    have hu' : t.toUnsigned.unsigned = true := by cases t <;> rfl
    have hw' : t.toUnsigned.width W = t.width W := by cases t <;> rfl
    refine ⟨.bin (.bin (.cast (.builtIn t.toUnsigned.cType) (.var (.plain id))) .mul (.lit (.int ⟨2, s⟩))) .add (.lit (.int ⟨1, s'⟩)),
      ⟨5, ?_⟩, by rintro l ⟨⟩, ?_, ?_, fun hr => ⟨_, .bin rfl (.bin rfl (.cast ⟨?_, .inl (by rintro i ⟨⟩)⟩ (by rw [tyText_is]; exact tyText_text _ _)
        (by rintro i ⟨⟩) (.limit h hr)) .int) .int, ?_⟩⟩
    · rcases limit_sets h with ⟨rfl, rfl⟩ | ⟨rfl, rfl⟩ | ⟨rfl, rfl⟩ | ⟨rfl, rfl⟩ | ⟨rfl, rfl⟩ <;> rfl
    · exact ⟨rfl, ⟨rfl, by show (limitOf _).isSome = true; rw [h]; rfl, trivial⟩, trivial⟩
    · exact ⟨by rintro ⟨⟩, by rintro ⟨⟩, by rintro ⟨⟩, ⟨by rintro ⟨⟩, by rintro ⟨⟩, by rintro ⟨⟩, trivial, trivial⟩, trivial⟩
    · cases t <;> rintro ⟨⟩
    · rw [tyText_is, tyText_is]
      have hh : ∀ v : Int, t.toUnsigned.Holds W v ↔ 0 ≤ v ∧ v < 2 ^ t.width W := fun v => by simp only [IntTy.Holds, hu', hw', if_true]
      have hg : t.greatest W = 2 ^ (t.width W - 1) - 1 := by simp only [IntTy.greatest, hu, Bool.false_eq_true, if_false]
      have hg' : t.toUnsigned.greatest W = t.greatest W * 2 + 1 := by
        rw [hg]; simp only [IntTy.greatest, hu', hw', if_true]; omega
      rw [hg']
      refine .bin (op := .add) rfl rfl (.bin (op := .mul) rfl rfl (.cast rfl .max ((hh _).2 ?_) (by simp)) (eval_int (v := 2) ((hh _).2 ?_)) .mul (by rintro ⟨⟩)
        ((hh _).2 ?_)) (eval_int (v := 1) ((hh _).2 ?_)) .add (by rintro ⟨⟩) ((hh _).2 ?_)
      all_goals omega

/-- **C96**: the limits of the integer types, as `limits.h` writes them, become constants of these types and values, with every width of
the types. -/
theorem C96_limits (W : Widths) (C : Ctx) (name : Str) (e : Expr) (t : IntTy) (v : Int) (hE : C.env.Lawful) (hC : CalmCtx C)
    (hr : Rooted C.ffiPrefix) (h : Limit W e t v) :
    ∃ code u, VarMacro.Generates C ⟨name, .expr e⟩ (.ok (code, some (tyText C.ffiPrefix t))) ∧ rustParse code = some u ∧
      RustEval W C.ffiPrefix (fun _ => none) u (.int t v) := by
  obtain ⟨e', k⟩ := limited (C := C) h
  obtain ⟨n, hf⟩ := k.finish
  obtain ⟨u, h1, h3⟩ := k.tree hr
  have hev : Ev C (varLoc C) e .init ⟨e', .init, .ok (some (.builtIn t.cType))⟩ :=
    ⟨by rintro ⟨⟩, n, fun m hm => (Expr.finish_stable hm (by rw [hf]; simp)).trans hf⟩
  have hg := varGenerates (name := name) hev
  have t1 : toksOk C.env (e'.toks ⟨C, varLoc C, false⟩) = true :=
    nums_ok (ps := []) hC hE rfl (fun s hs => by cases hs) e' k.nums
  have t2 : toksOk C.env ((Ty.builtIn t.cType).toks ⟨C, varLoc C, false⟩) = true :=
    ty_ok (ps := []) hC hE rfl (fun s hs => by cases hs) trivial
  refine ⟨e'.toks ⟨C, varLoc C, false⟩, u, ?_, C37_partial _ _ _ h1 k.sep, h3⟩
  have : varOut C ⟨e', .init, .ok (some (.builtIn t.cType))⟩ = .ok (e'.toks ⟨C, varLoc C, false⟩, some (tyText C.ffiPrefix t)) := by
    have hl := k.lit
    have ht := tyText_is ⟨C, varLoc C, false⟩ t
    unfold varOut
    dsimp only [LState.init]
    split
    · exact absurd rfl (hl _)
    · simp only [Option.map_some, Option.getD_some, t1, t2]
      rw [← ht]
      rfl
  rwa [this] at hg

/-- **C96** from the definitions on. -/
theorem C96_text (W : Widths) (C : Ctx) (L : C.env.Lawful) (hC : CalmCtx C) (hr : Rooted C.ffiPrefix) (h : List Op) (name : Str)
    (body : List Str) (hn : IsIdent C.env.xidStart C.env.xidContinue name)
    (hP : Spec.Plain (Spec.cName C.env) (Table.run h)) (hB : Spec.NoBackslash (Table.run h))
    (hdef : Table.run h name = some (.var body)) (out : List Item)
    (hx : Expands (Spec.cName C.env) (Table.run h) [name] (body.map (Spec.item (Spec.cName C.env))) out)
    (ts : List MacroToken) (ht : ItemText C.env out ts) (e : Expr) (hg : Gram 12 ts e) (t : IntTy) (v : Int) (hl : Limit W e t v) :
    ∃ code u, MakesConst C h name code (some (tyText C.ffiPrefix t)) ∧ rustParse code = some u ∧
      RustEval W C.ffiPrefix (fun _ => none) u (.int t v) := by
  obtain ⟨code, u, h1, h3⟩ := C96_limits W C name e t v L hC hr hl
  exact ⟨code, u, makesConst_of L hn hP hB hdef hx ht hg h1, h3⟩

/-! ## Examples -/

/-- `__INT_MAX__ * 2U + 1U`. -/
def uintMax : Expr :=
  .bin (.bin (.var (.plain c!"__INT_MAX__")) .mul (.lit (.int ⟨2, some .uInt⟩))) .add (.lit (.int ⟨1, some .uInt⟩))

/-- `UINT_MAX` becomes `c_int::MAX as c_uint * 2 + 1`, the `c_uint` 4294967295. -/
example : VarMacro.Generates (.unit asciiEnv) ⟨c!"UINT_MAX", .expr uintMax⟩
      (.ok (q!"c_int :: MAX as c_uint *" ++ .int 2 [] :: q!"+" ++ [.int 1 []], some (q!"c_uint"))) ∧
    ∃ u, rustParse (q!"c_int :: MAX as c_uint *" ++ .int 2 [] :: q!"+" ++ [.int 1 []]) = some u ∧
      RustEval .lp64 none (fun _ => none) u (.int .uint 4294967295) := by
  obtain ⟨code, u, h1, h2, h3⟩ := C96_limits .lp64 (.unit asciiEnv) c!"UINT_MAX" uintMax .uint 4294967295 asciiEnv_lawful (calmCtx_unit _)
    (by intro p h; cases h) (.umax (t := .int) rfl)
  have hg : VarMacro.Generates (.unit asciiEnv) ⟨c!"UINT_MAX", .expr uintMax⟩
      (.ok (q!"c_int :: MAX as c_uint *" ++ .int 2 [] :: q!"+" ++ [.int 1 []], some (q!"c_uint"))) := varGenerates_of 5 _ _ _ (by decide)
  have := VarMacro.Generates.unique h1 hg
  injection this with this
  injection this with this _
  subst this
  exact ⟨hg, u, h2, h3⟩

/-- With the path `::std::os::raw` of the types, `SHRT_MIN` is the `::std::os::raw::c_short` -32768. -/
example : ∃ code u, VarMacro.Generates { Ctx.unit asciiEnv with ffiPrefix := some ⟨true, [c!"std", c!"os", c!"raw"]⟩ }
      ⟨c!"SHRT_MIN", .expr (.bin (.un .minus (.var (.plain c!"__SHRT_MAX__"))) .sub (.lit (.int ⟨1, none⟩)))⟩
      (.ok (code, some (q!":: std :: os :: raw :: c_short"))) ∧ rustParse code = some u ∧
    RustEval .lp64 (some ⟨true, [c!"std", c!"os", c!"raw"]⟩) (fun _ => none) u (.int .short (-32768)) := by
  refine C96_limits .lp64 _ _ _ .short (-32768) asciiEnv_lawful ?_ ?_ (.min (t := .short) rfl)
  · have h := calmCtx_unit asciiEnv
    exact { h with ffi := by rintro p ⟨⟩ s hs; simp at hs; rcases hs with rfl | rfl | rfl <;> exact isIdent_iff.1 (by decide) }
  · rintro p ⟨⟩
    exact ⟨_, _, rfl, by rintro ⟨⟩⟩

end CMacro
