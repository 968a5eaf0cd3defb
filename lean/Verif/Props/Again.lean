import Verif.Model.Again
import Verif.Proofs.Again

/-!
# Properties C80, C81: generating code twice, and casts to types of the context
-/

namespace CMacro

open Spec

/-! ## C80 -/

/-- **C80**, the full statement: a macro for which code was generated gives the same code again. -/
def C80_statement : Prop :=
  ∀ C : Ctx,
    (∀ (m m' : VarMacro) (out : List RTok × Option (List RTok)), m.Generates C (.ok out) → m.Leaves C m' →
      m'.Generates C (.ok out)) ∧
    (∀ (m m' : FnMacro) (out : GenFn), m.Generates C (.ok out) → m.Leaves C m' → m'.Generates C (.ok out))

/-- **C80** for bodies without character constants, whose types are given by names, in which no `*` occurs inside the operand of a
cast, `!` is not applied to a number, conditions are not floating numbers, and strings are put together from strings, names and `#`
(`steadyBody`), and contexts that answer the names of types they answer with by themselves (`Settled`). -/
theorem C80_partial (C : Ctx) (hC : Settled C) :
    (∀ (m m' : VarMacro) (out : List RTok × Option (List RTok)), steadyBody m.body = true → m.Generates C (.ok out) → m.Leaves C m' →
      m'.Generates C (.ok out)) ∧
    (∀ (m m' : FnMacro) (out : GenFn), steadyBody m.body = true → m.Generates C (.ok out) → m.Leaves C m' →
      m'.Generates C (.ok out)) := by
  refine ⟨?_, ?_⟩
  · rintro ⟨name, body⟩ m' out hs ⟨N, hN⟩ ⟨M, hM⟩
    have h1 := hN (max N M) (by omega)
    have h2 := hM (max N M) (by omega)
    cases body with
    | stmt s => cases h1
    | expr e =>
      obtain ⟨⟨e', st', r⟩, hf⟩ : ∃ o, Expr.finish C (varLoc C) (max N M) e .init = o := ⟨_, rfl⟩
      rw [VarMacro.generate_expr, hf] at h1
      simp only [VarMacro.after, hf] at h2
      subst h2
      rcases r with r | t
      · cases h1
      · have := varGenerates (name := name) (finish_again hC _ _ _ _ _ _ hs hf).2
        rwa [h1] at this
  · rintro m m' out hs ⟨N, hN⟩ ⟨M, hM⟩
    have h1 := hN (max N M) (by omega)
    have h2 := hM (max N M) (by omega)
    obtain ⟨tys, ht⟩ := FnMacro.Generates.argTypes (C := C) (m := m) (out := out) ⟨N, hN⟩
    obtain ⟨⟨b, st', r⟩, hf⟩ : ∃ o, m.body.finish C (Expr.finish C (fnLoc m.args) (max N M)) ⟨tys, false⟩ = o := ⟨_, rfl⟩
    rw [FnMacro.generate_eq _ C m ht, hf] at h1
    simp only [FnMacro.after, ht, hf] at h2
    subst h2
    rcases r with r | t
    · cases h1
    · obtain ⟨K, hK⟩ := body_again hC _ _ _ _ _ hs hf
      exact ⟨K, fun n hn => by
        have ht' : argTypes C (FnMacro.mk m.name m.args b).name (FnMacro.mk m.name m.args b).args = .ok tys := ht
        rw [FnMacro.generate_eq _ C _ ht', hK n hn]
        exact h1⟩

/-- What is left when a run stays within its depth bound. -/
theorem varLeaves_of (n : Nat) (C : Ctx) (name : Str) (e : Expr)
    (h : (e.finish C (varLoc C) n .init).res ≠ .error .diverge) :
    VarMacro.Leaves C ⟨name, .expr e⟩ (VarMacro.after n C ⟨name, .expr e⟩) :=
  ⟨n, fun _ hm => by simp only [VarMacro.after, Expr.finish_stable hm h]⟩

/-- What is left when a run stays within its depth bound. -/
theorem fnLeaves_of (n : Nat) (C : Ctx) (name : Str) (args : List Str) (e : Expr) (tys : List ArgTy)
    (ha : argTypes C name args = .ok tys) (h : (e.finish C (fnLoc args) n ⟨tys, false⟩).res ≠ .error .diverge) :
    FnMacro.Leaves C ⟨name, args, .expr e⟩ (FnMacro.after n C ⟨name, args, .expr e⟩) :=
  ⟨n, fun _ hm => by simp only [FnMacro.after, ha, MacroBody.finish, Expr.finish_stable hm h]⟩

/-- For `#define A 'a'` the constant is `'a' as c_char`, the second time `'a' as c_char as c_char`. -/
theorem C80_false : ¬ C80_statement := by
  intro h
  have hg := varGenerates_of 5 (Ctx.unit asciiEnv) c!"A" (.lit (.char (.ordinary 97))) (by decide +kernel)
  have hl := varLeaves_of 5 (Ctx.unit asciiEnv) c!"A" (.lit (.char (.ordinary 97))) (by decide +kernel)
  have he : VarMacro.generate 5 (Ctx.unit asciiEnv) ⟨c!"A", .expr (.lit (.char (.ordinary 97)))⟩ =
      .ok ([.char 'a'] ++ q!"as c_char", some q!"c_char") := by decide +kernel
  rw [he] at hg
  have h2 := (h _).1 _ _ _ hg hl
  have hg2 := varGenerates_of 5 (Ctx.unit asciiEnv) c!"A" (.cast (.builtIn .char) (.lit (.char (.ordinary 97)))) (by decide +kernel)
  have he2 : VarMacro.generate 5 (Ctx.unit asciiEnv) ⟨c!"A", .expr (.cast (.builtIn .char) (.lit (.char (.ordinary 97))))⟩ =
      .ok ([.char 'a'] ++ q!"as c_char as c_char", some q!"c_char") := by decide +kernel
  rw [he2] at hg2
  exact absurd (VarMacro.Generates.unique h2 hg2) (by decide)

/-- For `#define T() !0` a function is generated, the second time a macro: the `1` that is left has no type. -/
theorem C80_false_not : ¬ C80_statement := by
  intro h
  have hg := fnGenerates_of 5 (Ctx.unit asciiEnv) c!"T" [] (.un .not (.lit (.int ⟨0, none⟩))) [] rfl (by decide +kernel)
  have hl := fnLeaves_of 5 (Ctx.unit asciiEnv) c!"T" [] (.un .not (.lit (.int ⟨0, none⟩))) [] rfl (by decide +kernel)
  have he : FnMacro.generate 5 (Ctx.unit asciiEnv) ⟨c!"T", [], .expr (.un .not (.lit (.int ⟨0, none⟩)))⟩ =
      .ok (.fn c!"T" [] (some q!"bool") [.int 1 []]) := by decide +kernel
  rw [he] at hg
  have h2 := (h _).2 _ _ _ hg hl
  have hg2 := fnGenerates_of 5 (Ctx.unit asciiEnv) c!"T" [] (.lit (.int ⟨1, none⟩)) [] rfl (by decide +kernel)
  have he2 : FnMacro.generate 5 (Ctx.unit asciiEnv) ⟨c!"T", [], .expr (.lit (.int ⟨1, none⟩))⟩ =
      .ok (.macro c!"T" [] [.int 1 []]) := by decide +kernel
  rw [he2] at hg2
  exact absurd (FnMacro.Generates.unique h2 hg2) (by decide)

/-- A context that knows the C type `my_t` as the Rust type `MyT`, and knows no type `MyT` of C. -/
def renamingCtx : Ctx :=
  { Ctx.unit asciiEnv with resolveTy := fun s => if s = c!"my_t" then some (.path .plain ⟨false, [c!"MyT"]⟩) else none }

/-- For `#define S() sizeof(my_t)`, in a context that knows `my_t` as the Rust type `MyT`, the second call fails. -/
theorem C80_false_type : ¬ C80_statement := by
  intro h
  have hg := fnGenerates_of 5 renamingCtx c!"S" [] (.sizeOf (.ident (.plain c!"my_t") false)) [] rfl (by decide +kernel)
  have hl := fnLeaves_of 5 renamingCtx c!"S" [] (.sizeOf (.ident (.plain c!"my_t") false)) [] rfl (by decide +kernel)
  have he : FnMacro.generate 5 renamingCtx ⟨c!"S", [], .expr (.sizeOf (.ident (.plain c!"my_t") false))⟩ =
      .ok (.fn c!"S" [] (some q!"c_size_t") q!"mem :: size_of :: < MyT > ( ) as c_size_t") := by decide +kernel
  rw [he] at hg
  have h2 := (h _).2 _ _ _ hg hl
  have hg2 := fnGenerates_of 5 renamingCtx c!"S" [] (.sizeOf (.ident (.plain c!"MyT") false)) [] rfl (by decide +kernel)
  have he2 : FnMacro.generate 5 renamingCtx ⟨c!"S", [], .expr (.sizeOf (.ident (.plain c!"MyT") false))⟩ =
      .error (.err (.unsupportedType c!"MyT")) := by decide +kernel
  rw [he2] at hg2
  exact absurd (FnMacro.Generates.unique h2 hg2) (by decide)

/-- A context in which parameters are `c_int`, and which knows `my_t` and `MyT` as the Rust type `MyT`. -/
def settledCtx : Ctx :=
  { Ctx.unit asciiEnv with
    macroArgTy := fun _ _ => some (.path .plain ⟨false, [c!"c_int"]⟩)
    resolveTy := fun s => if s = c!"my_t" ∨ s = c!"MyT" then some (.path .plain ⟨false, [c!"MyT"]⟩) else none }

theorem settledCtx_settled : Settled settledCtx := by
  intro id t u h hu s hs
  simp only [settledCtx] at h
  split at h
  · cases h
    have : Ty.fromRust settledCtx.ffiPrefix (.path .plain ⟨false, [c!"MyT"]⟩) = .ok (.ident (.plain c!"MyT") false) := rfl
    rw [this] at hu
    cases hu
    simp only [typeNames, List.mem_singleton] at hs
    subst hs
    exact ⟨_, rfl, rfl⟩
  · cases h

/-- `#define F(x) (my_t) -x + (x ? 2 * 3 : sizeof(my_t))`: the second time the types are resolved and the condition compared and
folded already. -/
example : ∃ (out : GenFn) (m' : FnMacro), FnMacro.Generates settledCtx ⟨c!"F", [c!"x"], .expr (.bin (.cast (.ident (.plain c!"my_t") false) (.un .minus (.var (.arg 0)))) .add
      (.ternary (.var (.arg 0)) (.bin (.lit (.int ⟨2, none⟩)) .mul (.lit (.int ⟨3, none⟩))) (.sizeOf (.ident (.plain c!"my_t") false))))⟩ (.ok out) ∧
    m'.body = .expr (.bin (.cast (.ident (.plain c!"MyT") false) (.un .minus (.var (.arg 0)))) .add
      (.ternary (.bin (.var (.arg 0)) .neq (.lit (.int ⟨0, none⟩))) (.lit (.int ⟨6, none⟩)) (.sizeOf (.ident (.plain c!"MyT") false)))) ∧
    m'.Generates settledCtx (.ok out) := by
  have hg := fnGenerates_of 9 settledCtx c!"F" [c!"x"] (.bin (.cast (.ident (.plain c!"my_t") false) (.un .minus (.var (.arg 0)))) .add
      (.ternary (.var (.arg 0)) (.bin (.lit (.int ⟨2, none⟩)) .mul (.lit (.int ⟨3, none⟩))) (.sizeOf (.ident (.plain c!"my_t") false))))
      [.known (.builtIn .int)] rfl (by decide +kernel)
  have hl := fnLeaves_of 9 settledCtx c!"F" [c!"x"] (.bin (.cast (.ident (.plain c!"my_t") false) (.un .minus (.var (.arg 0)))) .add
      (.ternary (.var (.arg 0)) (.bin (.lit (.int ⟨2, none⟩)) .mul (.lit (.int ⟨3, none⟩))) (.sizeOf (.ident (.plain c!"my_t") false))))
      [.known (.builtIn .int)] rfl (by decide +kernel)
  obtain ⟨out, ho⟩ : ∃ out, FnMacro.generate 9 settledCtx ⟨c!"F", [c!"x"], .expr (.bin (.cast (.ident (.plain c!"my_t") false) (.un .minus (.var (.arg 0)))) .add
      (.ternary (.var (.arg 0)) (.bin (.lit (.int ⟨2, none⟩)) .mul (.lit (.int ⟨3, none⟩))) (.sizeOf (.ident (.plain c!"my_t") false))))⟩ = .ok out :=
    ⟨.macro c!"F" [q!"$ x : expr"] (q!"- $ x as MyT + if $ x !=" ++ [.int 0 []] ++ q!"{" ++ [.int 6 []] ++ q!"} else { mem :: size_of :: < MyT > ( ) as c_size_t }"), by decide +kernel⟩
  rw [ho] at hg
  refine ⟨out, _, hg, ?_, (C80_partial _ settledCtx_settled).2 _ _ _ (by decide +kernel) hg hl⟩
  rfl

/-! ## C81 -/

/-- The tokens between the braces. -/
def GenFn.bodyToks : GenFn → List RTok
  | .macro _ _ b => b
  | .fn _ _ _ b => b

/-- **C81**, the full statement: a cast to a type that the context knows by the Rust path `p`, other than one of the built-in types,
is generated as a conversion to `p`. -/
def C81_statement : Prop :=
  ∀ (C : Ctx) (name : Str) (args : List Str) (T : Str) (p : RPath) (x : Expr) (out : GenFn),
    C.resolveTy T = some (.path .plain p) → BuiltInType.fromRust .plain p C.ffiPrefix = none →
    FnMacro.Generates C ⟨name, args, .expr (.cast (.ident (.plain T) false) x)⟩ (.ok out) →
    ∃ operand, out.bodyToks = operand ++ q!"as" ++ (RTy.path .plain p).toks

/-- In a context that knows `my_t` as the Rust type `MyT`, `#define N(x) (my_t) -x` becomes `MyT - $x`: whether `my_t` is a type is
asked under the name `MyT`. -/
theorem C81_false : ¬ C81_statement := by
  intro h
  have hg := fnGenerates_of 9 renamingCtx c!"N" [c!"x"] (.cast (.ident (.plain c!"my_t") false) (.un .minus (.var (.arg 0))))
      [.unknown] rfl (by decide +kernel)
  have he : FnMacro.generate 9 renamingCtx ⟨c!"N", [c!"x"], .expr (.cast (.ident (.plain c!"my_t") false) (.un .minus (.var (.arg 0))))⟩ =
      .ok (.macro c!"N" [q!"$ x : expr"] q!"MyT - $ x") := by decide +kernel
  rw [he] at hg
  obtain ⟨o, ho⟩ := h _ _ _ _ _ _ _ rfl rfl hg
  have : (q!"MyT - $ x").getLast? = (q!"MyT").getLast? := by
    rw [show q!"MyT - $ x" = _ from ho]
    simp [RTy.toks, RPath.toks, sepToks]
  exact absurd this (by decide)

/-- **C81** for contexts that answer the names of types they answer with by themselves (`Settled`), and operands without `*`. -/
theorem C81_partial (C : Ctx) (hC : Settled C) (name : Str) (args : List Str) (T : Str) (p : RPath) (x : Expr) (out : GenFn)
    (hT : C.resolveTy T = some (.path .plain p)) (hp : BuiltInType.fromRust .plain p C.ffiPrefix = none) (hx : noDeref x = true)
    (hg : FnMacro.Generates C ⟨name, args, .expr (.cast (.ident (.plain T) false) x)⟩ (.ok out)) :
    ∃ operand, out.bodyToks = operand ++ q!"as" ++ (RTy.path .plain p).toks := by
  obtain ⟨tys, ht⟩ := hg.argTypes
  obtain ⟨N, hN⟩ := hg
  have h1 := hN (N + 1) (by omega)
  have ht' : argTypes C name args = .ok tys := ht
  rw [FnMacro.generate_eq _ C _ ht] at h1
  have hd := noDeref_all x hx
  obtain ⟨u, hu, htoks, hcast⟩ : ∃ u, Ty.fromRust C.ffiPrefix (.path .plain p) = .ok u ∧
      (∀ P : PCtx, u.toks P = (RTy.path .plain p).toks) ∧
      ∀ x, castOfString u x = false ∧ ∀ (P : PCtx) raw, castToks P u x raw = castOperand x raw ++ q!"as" ++ u.toks P := by
    obtain ⟨lc, segs⟩ := p
    simp only [Ty.fromRust, hp]
    split
    · exact ⟨_, rfl, fun P => rfl, fun x => ⟨rfl, fun P raw => rfl⟩⟩
    · exact ⟨_, rfl, fun P => rfl, fun x => ⟨rfl, fun P raw => rfl⟩⟩
  have hf1 : FixedTy C u := fromRust_fixed _ _ hu (hC _ _ _ hT hu)
  have hf : ∀ st, (Ty.ident (.plain T) false).finish C st = ⟨u, st, .ok none⟩ := fun st => by
    simp only [Ty.finish, IdentExpr.finish, hT, hu]
  have hfin : ∃ x' st' r, MacroBody.finish C (Expr.finish C (fnLoc args) (N + 1)) (.expr (.cast (.ident (.plain T) false) x)) ⟨tys, false⟩ =
      ⟨.expr (.cast u x'), st', r⟩ := by
    have hd1 := finish_nd (C := C) (L := fnLoc args) N x ⟨tys, false⟩ hd
    obtain ⟨⟨x1, s1, rx⟩, h2⟩ : ∃ o, Expr.finish C (fnLoc args) N x ⟨tys, false⟩ = o := ⟨_, rfl⟩
    rw [h2] at hd1
    simp only [MacroBody.finish, Expr.finish, finishStep, hf, h2]
    rcases rx with rx | xt
    · simp only [castAsProduct_nd hd1]
      split
      · contradiction
      · exact ⟨_, _, _, rfl⟩
    · simp only [hf1.cast, (hcast x1).1]
      exact ⟨_, _, _, rfl⟩
  obtain ⟨x', st', r, hr⟩ := hfin
  rw [show (FnMacro.mk name args (.expr (.cast (.ident (.plain T) false) x))).body = .expr (.cast (.ident (.plain T) false) x) from rfl,
    show (FnMacro.mk name args (.expr (.cast (.ident (.plain T) false) x))).args = args from rfl, hr] at h1
  rcases r with r | t
  · cases h1
  · rcases (fnOut_ok h1).2 with ⟨_, rfl⟩ | ⟨_, rfl⟩
    · exact ⟨_, by simp only [GenFn.bodyToks, MacroBody.toks, Expr.toks, (hcast x').2, htoks]; rfl⟩
    · exact ⟨_, by simp only [GenFn.bodyToks, MacroBody.toks, Expr.toks, (hcast x').2, htoks]; rfl⟩

/-- `#define N(x) (my_t) -x`, in a context that knows `my_t` and `MyT` as `MyT`. -/
example : ∃ (out : GenFn) (operand : List RTok),
    FnMacro.Generates settledCtx ⟨c!"N", [c!"x"], .expr (.cast (.ident (.plain c!"my_t") false) (.un .minus (.var (.arg 0))))⟩ (.ok out) ∧
    out.bodyToks = operand ++ q!"as MyT" := by
  have hg := fnGenerates_of 9 settledCtx c!"N" [c!"x"] (.cast (.ident (.plain c!"my_t") false) (.un .minus (.var (.arg 0))))
      [.known (.builtIn .int)] rfl (by decide +kernel)
  have he : FnMacro.generate 9 settledCtx ⟨c!"N", [c!"x"], .expr (.cast (.ident (.plain c!"my_t") false) (.un .minus (.var (.arg 0))))⟩ =
      .ok (.fn c!"N" [q!"x : c_int"] (some q!"MyT") q!"- x as MyT") := by decide +kernel
  rw [he] at hg
  obtain ⟨o, ho⟩ := C81_partial _ settledCtx_settled _ _ _ _ _ _ rfl rfl rfl hg
  exact ⟨_, o, hg, by simpa [RTy.toks, RPath.toks, sepToks] using ho⟩

end CMacro
