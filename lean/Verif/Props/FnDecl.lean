import Verif.Spec.FnDecl
import Verif.Props.Statements
import Verif.Props.Again
import Verif.Props.Wrapper
import Verif.Proofs.FnValue
import Verif.Proofs.Metavar

/-!
# C97: declarations of functions
-/

namespace CMacro
open Parser Spec

/-- **C97**, the full statement: a macro whose body declares a C function becomes code that declares the same function in Rust, with the
same names and the corresponding types in the same order. -/
def C97_statement : Prop :=
  ∀ (C : Ctx) (name : Str) (as : List MacroToken) (xs : List Str) (r ts : List MacroToken) (out : List RTok),
    C.env.Lawful → CalmCtx C → Word C.env name → FnMacro.parseArgs as = some (xs, r) → (∀ x ∈ xs, Word C.env x) →
    (∀ x ∈ xs, C.macroArgTy name x = none) → (∀ s, .ident s ∈ ts → Word C.env s) →
    (∀ id R, .ident id ∈ ts → C.resolveTy id = some R → StableTy C.ffiPrefix R) → FnSpelled C xs ts out →
    ∃ m g, FnMacro.parse C.env name as ts = .ok m ∧ m.Generates C (.ok g) ∧ g.bodyToks = out

theorem pathTy_ok {ffi : Option RPath} {p : RPath} : ∃ t, Ty.fromRust ffi (.path .plain p) = .ok t := by
  simp only [Ty.fromRust]
  split
  · exact ⟨_, rfl⟩
  · split <;> exact ⟨_, rfl⟩

theorem prefixed_foreign (pre : Option RPath) (s : Str) : (RTy.prefixed pre s).toks = foreign pre s := by
  have hsep : ∀ l : List Str, sepToks q!"::" ((l ++ [s]).map fun s => [RTok.id s]) = (l.flatMap fun s => [RTok.id s, .punct c!"::"]) ++ [.id s] := by
    intro l
    induction l with
    | nil => rfl
    | cons a l ih =>
      obtain ⟨b, u, hb⟩ : ∃ b u, l ++ [s] = b :: u := by cases l <;> exact ⟨_, _, rfl⟩
      rw [List.cons_append, List.map_cons]
      rw [hb] at ih ⊢
      rw [List.map_cons] at ih ⊢
      simp only [sepToks] at ih ⊢
      rw [ih]
      simp
  cases pre with
  | none => rfl
  | some p =>
    obtain ⟨lc, l⟩ := p
    simp only [RTy.prefixed, RTy.toks, RPath.toks, foreign, hsep]
    simp

theorem foreign_is (P : PCtx) : (Ty.builtIn .char).toks P = foreign P.C.ffiPrefix c!"c_char" ∧
    (Ty.builtIn .void).toks P = foreign P.C.ffiPrefix c!"c_void" := ⟨prefixed_foreign _ _, prefixed_foreign _ _⟩

/-- The tree of a type, what code generation makes of it, and how that is printed. -/
theorem type_spelled {C : Ctx} {us : List MacroToken} {T : List RTok} (h : TypeSpelled C us T) (n : Nat)
    (hw : ∀ s, .ident s ∈ us → Word C.env s)
    (hst : ∀ id R, .ident id ∈ us → C.resolveTy id = some R → StableTy C.ffiPrefix R) :
    ∃ t t', DeclType us t ∧ CalmTy C.env n t ∧ (∀ st, t.finish C st = ⟨t', st, .ok none⟩) ∧ ∀ P : PCtx, P.C = C → t'.toks P = T := by
  induction h with
  | @int ws t h1 h2 h3 => exact ⟨_, _, .builtIn (.int h1 h2 h3), trivial, fun _ => rfl, fun P hP => by rw [tyText_is, hP]⟩
  | char => exact ⟨.builtIn .char, _, .builtIn (.int (ws := [c!"char"]) ⟨[c!"char"], by decide, .refl _⟩ (by decide) (by decide)), trivial, fun _ => rfl,
      fun P hP => by rw [(foreign_is P).1, hP]⟩
  | bool => exact ⟨_, _, .builtIn .bool, trivial, fun _ => rfl, fun P hP => rfl⟩
  | float => exact ⟨_, _, .builtIn .float, trivial, fun _ => rfl, fun P hP => rfl⟩
  | double => exact ⟨_, _, .builtIn .double, trivial, fun _ => rfl, fun P hP => rfl⟩
  | @name id p h1 h2 =>
    obtain ⟨t, ht⟩ := pathTy_ok (ffi := C.ffiPrefix) (p := p)
    refine ⟨_, t, .name (.ident h1), hw _ (by simp), fun st => ?_, fun P hP => ?_⟩
    · simp only [Ty.finish, IdentExpr.finish, h2, ht]
    · exact stable_toks (hst id _ (by simp) h2) ht P hP
  | voidPtr => exact ⟨.ptr (.builtIn .void), .ptr (.builtIn .void), .ptr (.builtIn .void), trivial, fun _ => rfl, fun P hP => by rw [Ty.toks, (foreign_is P).2, hP]⟩
  | @ptr ts T h ih =>
    obtain ⟨t, t', h1, h2, h3, h4⟩ := ih (fun s hs => hw s (by simp [hs])) (fun s R hs => hst s R (by simp [hs]))
    exact ⟨.ptr t, .ptr t', .ptr h1, h2, fun st => by rw [Ty.finish, h3], fun P hP => by rw [Ty.toks, h4 P hP]⟩

theorem params_spelled {C : Ctx} {vs : List MacroToken} {A : List RTok} (h : ParamsSpelled C vs A) (n : Nat)
    (hw : ∀ s, .ident s ∈ vs → Word C.env s)
    (hst : ∀ id R, .ident id ∈ vs → C.resolveTy id = some R → StableTy C.ffiPrefix R) :
    ∃ ps ps', GParams false vs ps ∧ (∀ a ∈ ps, CalmTy C.env n a.1 ∧ CalmName C.env n a.2) ∧
      (∀ st, finishDeclArgs C ps st = (ps', st, .ok ())) ∧ (vs ≠ [] → ps ≠ [] ∧ ps' ≠ []) ∧
      ∀ P : PCtx, P.C = C → sepToks q!"," (ps'.map fun (t, n) => n.toks P ++ q!":" ++ t.toks P) = A := by
  induction h with
  | nil => exact ⟨[], [], .nil, by simp, fun _ => rfl, by simp, fun _ _ => rfl⟩
  | @one us T x h hx =>
    obtain ⟨t, t', h1, h2, h3, h4⟩ := type_spelled h n (fun s hs => hw s (by simp [hs])) (fun s R hs => hst s R (by simp [hs]))
    refine ⟨[(t, .plain x)], [(t', .plain x)], .one h1 (.ident hx), ?_, fun st => ?_, by simp, fun P hP => ?_⟩
    · intro a ha
      obtain rfl : a = (t, .plain x) := by simpa using ha
      exact ⟨h2, hw x (by simp)⟩
    · simp only [finishDeclArgs, h3]
    · simp only [List.map_cons, List.map_nil, sepToks, IdentExpr.toks, h4 P hP]; rfl
  | @cons us T x vs A h hx hne hv ih =>
    obtain ⟨t, t', h1, h2, h3, h4⟩ := type_spelled h n (fun s hs => hw s (by simp [hs])) (fun s R hs => hst s R (by simp [hs]))
    obtain ⟨ps, ps', g1, g2, g3, g4, g5⟩ := ih (fun s hs => hw s (by simp [hs])) (fun s R hs => hst s R (by simp [hs]))
    obtain ⟨n1, n2⟩ := g4 hne
    obtain ⟨p, ps, rfl⟩ : ∃ p q, ps = p :: q := by cases ps with | nil => exact absurd rfl n1 | cons p q => exact ⟨_, _, rfl⟩
    obtain ⟨p', ps', rfl⟩ : ∃ p q, ps' = p :: q := by cases ps' with | nil => exact absurd rfl n2 | cons p q => exact ⟨_, _, rfl⟩
    refine ⟨(t, .plain x) :: p :: ps, (t', .plain x) :: p' :: ps', .cons h1 (.ident hx) g1, ?_, fun st => ?_, by simp, fun P hP => ?_⟩
    · intro a ha
      rcases List.mem_cons.1 ha with rfl | ha
      · exact ⟨h2, hw x (by simp)⟩
      · exact g2 a ha
    · rw [finishDeclArgs, h3]
      dsimp only
      rw [g3]
    · have := g5 P hP
      rw [List.map_cons] at this ⊢
      rw [List.map_cons, sepToks]
      · rw [← List.map_cons (f := fun (x : Ty × IdentExpr) => x.2.toks P ++ q!":" ++ x.1.toks P)]
        simp only [List.map_cons]
        rw [this, h4 P hP]
        simp [IdentExpr.toks]
      · simp

theorem argTypes_none {C : Ctx} {name : Str} : ∀ {xs : List Str}, (∀ x ∈ xs, C.macroArgTy name x = none) →
    argTypes C name xs = .ok (xs.map fun _ => .unknown)
  | [], _ => rfl
  | x :: xs, h => by
    have := argTypes_none (fun y hy => h y (List.mem_cons_of_mem _ hy))
    simp only [argTypes, h x (List.mem_cons_self ..), this, List.map_cons]

/-- What is generated for a declaration whose type is printed as `T`. -/
theorem decl_generates {C : Ctx} {name : Str} {as : List MacroToken} {xs : List Str} {r us vs : List MacroToken} {x : MacroToken}
    {T N A : List RTok} {t t' : Ty} (s : Bool) (hE : C.env.Lawful) (hC : CalmCtx C) (hn : Word C.env name) (ha : FnMacro.parseArgs as = some (xs, r))
    (hxs : ∀ x ∈ xs, Word C.env x) (hty : ∀ x ∈ xs, C.macroArgTy name x = none)
    (hw : ∀ s, .ident s ∈ us ++ x :: vs → Word C.env s)
    (hst : ∀ id R, .ident id ∈ us ++ x :: vs → C.resolveTy id = some R → StableTy C.ffiPrefix R)
    (h1 : DeclType us t) (h2 : CalmTy C.env xs.length t) (h3 : ∀ st, t.finish C st = ⟨t', st, .ok none⟩)
    (h4 : ∀ P : PCtx, P.C = C → t'.toks P = T) (hx : NameSpelled xs x N) (hA : ParamsSpelled C vs A) :
    ∃ m g, FnMacro.parse C.env name as (staticWord s ++ (us ++ x :: .punct c!"(" :: (vs ++ [.punct c!")", .punct c!";"]))) = .ok m ∧
      m.Generates C (.ok g) ∧ g.bodyToks = externText N A ([.punct c!"->"] ++ T) := by
  obtain ⟨ps, ps', g1, g2, g3, g4, g5⟩ := params_spelled hA xs.length (fun s hs => hw s (by simp [hs])) (fun s R hs => hst s R (by simp [hs]))
  obtain ⟨f, hf⟩ : ∃ f, Name x f := by
    cases hx with
    | ident h => exact ⟨_, .ident h⟩
    | param h => exact ⟨_, .arg⟩
  have hp := C60_partial C.env name as xs r true _ _ (isIdent_iff.2 hn) ha (.last (.fn (D := false) (b := true) (s := s) h1 hf g1)) (.inr (.inl (by simp [semi])))
  have hlt : ∀ i, f = .arg i → ∃ p, xs[i]? = some p ∧ N = [.punct c!"$", .id p] := by
    rintro i rfl
    cases hf
    cases hx with
    | param h => exact ⟨_, h, rfl⟩
  have hcf : CalmName C.env xs.length f := by
    cases hf with
    | ident h => exact hw _ (by simp)
    | @arg i =>
      obtain ⟨p, hp, _⟩ := hlt i rfl
      exact (List.getElem?_eq_some_iff.1 hp).1
  refine ⟨⟨name, xs, .stmt (.fnDecl ⟨t, f, ps⟩)⟩, ?_⟩
  have hcalm := calm_generate_fn (f := ⟨name, xs, .stmt (.fnDecl ⟨t, f, ps⟩)⟩) hC hE hn (.inl hxs) ⟨h2, hcf, g2⟩
  -- the state after `finish`
  have hfin : ∃ st : LState, (st.exportAsMacro = false ∧ ((∃ i, f = .arg i) → st.argTypes.all ArgTy.isKnown = false)) ∧
      ∀ F, (MacroBody.stmt (.fnDecl ⟨t, f, ps⟩)).finish C F ⟨xs.map fun _ => .unknown, false⟩ =
        ⟨.stmt (.fnDecl ⟨t', f, ps'⟩), st, .ok (some (.builtIn .void))⟩ := by
    cases hf with
    | ident h =>
      refine ⟨⟨xs.map fun _ => .unknown, false⟩, ⟨rfl, by rintro ⟨i, h⟩; cases h⟩, fun F => ?_⟩
      simp only [MacroBody.finish, Stmt.finish, FunctionDecl.finish, h3, g3]
    | @arg i =>
      obtain ⟨p, hp, _⟩ := hlt i rfl
      have hi := (List.getElem?_eq_some_iff.1 hp).1
      have hsome : LState.argTy ⟨xs.map fun _ => .unknown, false⟩ i = some .unknown := by
        simp [LState.argTy, hp]
      refine ⟨LState.setArg ⟨xs.map fun _ => .unknown, false⟩ i .ident, ⟨rfl, fun _ => ?_⟩, fun F => ?_⟩
      · rw [List.all_eq_false]
        refine ⟨.ident, ?_, by simp [ArgTy.isKnown]⟩
        simp only [LState.setArg]
        exact List.mem_iff_getElem.2 ⟨i, by simpa using hi, by simp⟩
      · simp only [MacroBody.finish, Stmt.finish, FunctionDecl.finish, h3, hsome, g3]
  obtain ⟨st, ⟨hs1, hs2⟩, hfin⟩ := hfin
  have hgen : ∀ n, FnMacro.generate n C ⟨name, xs, .stmt (.fnDecl ⟨t, f, ps⟩)⟩ =
      fnOut C ⟨name, xs, .stmt (.fnDecl ⟨t, f, ps⟩)⟩ ⟨.stmt (.fnDecl ⟨t', f, ps'⟩), st, .ok (some (.builtIn .void))⟩ := by
    intro n
    rw [FnMacro.generate_eq n C _ (argTypes_none hty), hfin]
  have hbody : ∀ b, ((∃ i, f = .arg i) → b = true) →
      (MacroBody.stmt (.fnDecl ⟨t', f, ps'⟩)).toks ⟨C, fnLoc xs, b⟩ = externText N A ([.punct c!"->"] ++ T) := by
    intro b hb
    have hN : f.toks ⟨C, fnLoc xs, b⟩ = N := by
      cases hf with
      | ident h => cases hx; rfl
      | @arg i =>
        obtain ⟨p, hp, rfl⟩ := hlt i rfl
        have hd : p ≠ c!"..." := by
          rintro rfl
          have : isIdentifier C.env c!"..." = true := isIdent_iff.2 (hxs _ (List.mem_of_getElem? hp))
          rw [dots_not_ident hE] at this
          cases this
        obtain rfl := hb ⟨i, rfl⟩
        simp only [IdentExpr.toks, argToks, fnLoc, hp]
        rw [if_neg hd]
        rfl
    simp only [MacroBody.toks, Stmt.toks, FunctionDecl.toks, hN, g5 ⟨C, fnLoc xs, b⟩ rfl, h4 ⟨C, fnLoc xs, b⟩ rfl, externText]
    simp
  have hcalm0 := hcalm 0
  rw [hgen 0] at hcalm0
  obtain ⟨g, hg, hb⟩ : ∃ g, fnOut C ⟨name, xs, .stmt (.fnDecl ⟨t, f, ps⟩)⟩ ⟨.stmt (.fnDecl ⟨t', f, ps'⟩), st, .ok (some (.builtIn .void))⟩ = .ok g ∧
      g.bodyToks = externText N A ([.punct c!"->"] ++ T) := by
    have hexp : (∃ i, f = .arg i) → (st.exportAsMacro || (C.function name).isSome || namesVariadic xs || !st.argTypes.all ArgTy.isKnown ||
        (some (Ty.builtIn .void)).isNone) = true := fun h => by simp [hs2 h]
    simp only [fnOut] at hcalm0 ⊢
    generalize (st.exportAsMacro || (C.function name).isSome || namesVariadic xs || !st.argTypes.all ArgTy.isKnown ||
        (some (Ty.builtIn .void)).isNone) = b at hexp hcalm0 ⊢
    have hb := hbody b hexp
    generalize hO : (if b = true then GenFn.macro name (macroParams xs st.argTypes)
        (MacroBody.toks ⟨C, fnLoc xs, b⟩ (.stmt (.fnDecl ⟨t', f, ps'⟩)))
      else GenFn.fn name (fnParams ⟨C, fnLoc xs, b⟩ xs st.argTypes) (retToks ⟨C, fnLoc xs, b⟩ (some (Ty.builtIn .void)))
        (MacroBody.toks ⟨C, fnLoc xs, b⟩ (.stmt (.fnDecl ⟨t', f, ps'⟩)))) = O at hcalm0 ⊢
    split at hcalm0
    · rename_i hok
      refine ⟨O, if_pos hok, ?_⟩
      rw [← hb, ← hO]
      cases b <;> rfl
    · exact absurd rfl hcalm0
  exact ⟨g, hp, ⟨0, fun n _ => (hgen n).trans hg⟩, hb⟩

/-- **C97**, for functions with a result and named parameters, with the semicolon.  Missing: results of the type `void`, for which
`-> c_void` is generated, the parameter list `( void )`, which is not read, and declarations without semicolon, which may be taken for
products. -/
theorem C97_partial (C : Ctx) (name : Str) (as : List MacroToken) (xs : List Str) (r us vs : List MacroToken) (x : MacroToken) (T N A : List RTok)
    (hE : C.env.Lawful) (hC : CalmCtx C) (hn : Word C.env name) (ha : FnMacro.parseArgs as = some (xs, r)) (hxs : ∀ x ∈ xs, Word C.env x)
    (hty : ∀ x ∈ xs, C.macroArgTy name x = none) (hw : ∀ s, .ident s ∈ us ++ x :: vs → Word C.env s)
    (hst : ∀ id R, .ident id ∈ us ++ x :: vs → C.resolveTy id = some R → StableTy C.ffiPrefix R)
    (hT : TypeSpelled C us T) (hx : NameSpelled xs x N) (hA : ParamsSpelled C vs A) :
    ∃ m g, FnMacro.parse C.env name as (us ++ x :: .punct c!"(" :: (vs ++ [.punct c!")", .punct c!";"])) = .ok m ∧
      m.Generates C (.ok g) ∧ g.bodyToks = externText N A ([.punct c!"->"] ++ T) := by
  obtain ⟨t, t', h1, h2, h3, h4⟩ := type_spelled hT xs.length (fun s hs => hw s (by simp [hs])) (fun s R hs => hst s R (by simp [hs]))
  exact decl_generates false hE hC hn ha hxs hty hw hst h1 h2 h3 h4 hx hA

/-- The part of the statement that is proved is part of the statement. -/
example (C : Ctx) (xs : List Str) (us vs : List MacroToken) (x : MacroToken) (T N A : List RTok) (hT : TypeSpelled C us T) (hx : NameSpelled xs x N)
    (hA : ParamsSpelled C vs A) : FnSpelled C xs (us ++ x :: .punct c!"(" :: (vs ++ [.punct c!")", .punct c!";"])) (externText N A ([.punct c!"->"] ++ T)) :=
  .value (b := true) hT hx (.inl hA)

/-- A function without a result is declared with the result `c_void`, whatever its parameters. -/
theorem C97_void (C : Ctx) (name : Str) (as : List MacroToken) (xs : List Str) (r vs : List MacroToken) (x : MacroToken) (N A : List RTok)
    (hE : C.env.Lawful) (hC : CalmCtx C) (hn : Word C.env name) (ha : FnMacro.parseArgs as = some (xs, r)) (hxs : ∀ x ∈ xs, Word C.env x)
    (hty : ∀ x ∈ xs, C.macroArgTy name x = none) (hw : ∀ s, .ident s ∈ x :: vs → Word C.env s)
    (hst : ∀ id R, .ident id ∈ .ident c!"void" :: x :: vs → C.resolveTy id = some R → StableTy C.ffiPrefix R)
    (hx : NameSpelled xs x N) (hA : ParamsSpelled C vs A) :
    ∃ m g, FnMacro.parse C.env name as (.ident c!"void" :: x :: .punct c!"(" :: (vs ++ [.punct c!")", .punct c!";"])) = .ok m ∧
      m.Generates C (.ok g) ∧ g.bodyToks = externText N A ([.punct c!"->"] ++ foreign C.ffiPrefix c!"c_void") :=
  decl_generates (us := [.ident c!"void"]) (t := .builtIn .void) (t' := .builtIn .void) false hE hC hn ha hxs hty
    (fun s hs => by
      rcases List.mem_cons.1 hs with h | h
      · cases h; exact asciiWord_word hE (by decide +kernel)
      · exact hw s h) hst (.builtIn .void) trivial (fun _ => rfl) (fun P hP => by rw [(foreign_is P).2, hP]) hx hA

/-- The word `static` changes nothing: a function that only the C file knows is declared as one that the linker finds. -/
theorem C97_static (C : Ctx) (name : Str) (as : List MacroToken) (xs : List Str) (r us vs : List MacroToken) (x : MacroToken) (T N A : List RTok)
    (hE : C.env.Lawful) (hC : CalmCtx C) (hn : Word C.env name) (ha : FnMacro.parseArgs as = some (xs, r)) (hxs : ∀ x ∈ xs, Word C.env x)
    (hty : ∀ x ∈ xs, C.macroArgTy name x = none) (hw : ∀ s, .ident s ∈ us ++ x :: vs → Word C.env s)
    (hst : ∀ id R, .ident id ∈ us ++ x :: vs → C.resolveTy id = some R → StableTy C.ffiPrefix R)
    (hT : TypeSpelled C us T) (hx : NameSpelled xs x N) (hA : ParamsSpelled C vs A) :
    ∃ m g, FnMacro.parse C.env name as (.ident c!"static" :: (us ++ x :: .punct c!"(" :: (vs ++ [.punct c!")", .punct c!";"]))) = .ok m ∧
      m.Generates C (.ok g) ∧ g.bodyToks = externText N A ([.punct c!"->"] ++ T) := by
  obtain ⟨t, t', h1, h2, h3, h4⟩ := type_spelled hT xs.length (fun s hs => hw s (by simp [hs])) (fun s R hs => hst s R (by simp [hs]))
  exact decl_generates true hE hC hn ha hxs hty hw hst h1 h2 h3 h4 hx hA

/-! ## Examples -/

/-- A context in which `point_t` is the Rust type `geo::Point`, and the foreign types are those of `::std::os::raw`. -/
def geoCtx : Ctx := { Ctx.unit asciiEnv with
  ffiPrefix := some ⟨true, [c!"std", c!"os", c!"raw"]⟩,
  resolveTy := fun s => if s = c!"point_t" then some (.path .plain ⟨false, [c!"geo", c!"Point"]⟩) else none }

theorem geoCtx_calm : CalmCtx geoCtx := by
  refine ⟨?_, (by intro p h; cases h), (by intro _ _ _ h; cases h), (by intro _ _ _ h; cases h), ?_, (by intro _ _ _ h; cases h),
    (by intro _ _ _ h; cases h)⟩
  · intro p h s hs
    cases h
    exact word_ascii (List.all_eq_true.1 (by decide +kernel : [c!"std", c!"os", c!"raw"].all (isIdentifier asciiEnv) = true) s hs)
  · intro n t h
    simp only [geoCtx] at h
    split at h
    · cases h
      intro s hs
      exact word_ascii (List.all_eq_true.1 (by decide +kernel : [c!"geo", c!"Point"].all (isIdentifier asciiEnv) = true) s hs)
    · cases h

/-- `#define DECL(f) unsigned long * f(int a, point_t * b);` declares a function with the name that is passed to the macro:
`extern "C" { pub fn $f(a: ::std::os::raw::c_int, b: *mut geo::Point) -> *mut ::std::os::raw::c_ulong; }`. -/
example : ∃ m g, FnMacro.parse asciiEnv c!"DECL" [.ident c!"f"] [.ident c!"unsigned", .ident c!"long", .punct c!"*", .arg 0, .punct c!"(",
      .ident c!"int", .ident c!"a", .punct c!",", .ident c!"point_t", .punct c!"*", .ident c!"b", .punct c!")", .punct c!";"] = .ok m ∧
    m.Generates geoCtx (.ok g) ∧ g.bodyToks = q!"extern" ++ [.str c!"C"] ++ q!"{ pub fn $ f ( a : :: std :: os :: raw :: c_int , b : * mut geo :: Point ) -> * mut :: std :: os :: raw :: c_ulong ; }" :=
  C97_partial geoCtx c!"DECL" [.ident c!"f"] [c!"f"] [] [.ident c!"unsigned", .ident c!"long", .punct c!"*"]
    [.ident c!"int", .ident c!"a", .punct c!",", .ident c!"point_t", .punct c!"*", .ident c!"b"] (.arg 0) _ _ _ asciiEnv_lawful geoCtx_calm
    (word_ascii (by decide +kernel)) (by decide +kernel)
    (by intro x hx; cases List.mem_singleton.1 hx; exact word_ascii (by decide +kernel)) (fun _ _ => rfl)
    (fun s hs => word_ascii (by
      have : ∀ t ∈ [MacroToken.ident c!"unsigned", .ident c!"long", .punct c!"*", .arg 0, .ident c!"int", .ident c!"a", .punct c!",", .ident c!"point_t",
          .punct c!"*", .ident c!"b"], ∀ s, t = .ident s → isIdentifier asciiEnv s = true := by
        intro t ht
        simp only [List.mem_cons, List.not_mem_nil, or_false] at ht
        rcases ht with rfl | rfl | rfl | rfl | rfl | rfl | rfl | rfl | rfl | rfl <;> intro s h <;> cases h <;> decide +kernel
      exact this _ hs s rfl))
    (by
      intro id R _ h
      simp only [geoCtx] at h
      split at h
      · cases h
        exact .other rfl (by simp) (by decide)
      · cases h)
    (.ptr (.int (t := .ulong) (ws := [c!"unsigned", c!"long"]) ⟨_, by decide, .refl _⟩ (by decide) (by decide))) (.param rfl)
    (.cons (us := [.ident c!"int"]) (.int (t := .int) (ws := [c!"int"]) ⟨_, by decide, .refl _⟩ (by decide) (by decide)) (by decide) (by simp)
      (.one (us := [.ident c!"point_t", .punct c!"*"]) (.ptr (ts := [.ident c!"point_t"]) (.name (by decide) rfl)) (by decide)))

/-! ## The full claim is false -/

/-- The full claim is false: `int f ( void ) ;` is not read. -/
theorem C97_false : ¬ C97_statement := by
  intro h
  have hw : ∀ s, .ident s ∈ [MacroToken.ident c!"int", .ident c!"f", .punct c!"(", .ident c!"void", .punct c!")", .punct c!";"] → Word asciiEnv s := by
    intro s hs
    simp at hs
    rcases hs with rfl | rfl | rfl <;> exact word_ascii (by decide +kernel)
  obtain ⟨m, g, hm, _⟩ := h (Ctx.unit asciiEnv) c!"M" [] [] [] _ _ asciiEnv_lawful (calmCtx_unit _) (word_ascii (by decide +kernel)) (by decide +kernel)
    (by simp) (by simp) hw (by intro id R _ h; cases h)
    (.value (b := true) (us := [.ident c!"int"]) (x := .ident c!"f") (.int (t := .int) (ws := [c!"int"]) ⟨_, by decide, .refl _⟩ (by decide) (by decide))
      (.ident (by decide)) (.inr ⟨rfl, rfl⟩))
  have : FnMacro.parse asciiEnv c!"M" [] [.ident c!"int", .ident c!"f", .punct c!"(", .ident c!"void", .punct c!")", .punct c!";"] =
      .error .invalidMacroBody := rfl
  have := this.symm.trans hm
  cases this

/-- `void f ( ) ;` becomes the declaration of a function that returns a `c_void`. -/
theorem C97_false_void : ∃ m g, FnMacro.parse asciiEnv c!"M" [] [.ident c!"void", .ident c!"f", .punct c!"(", .punct c!")", .punct c!";"] = .ok m ∧
    m.Generates (Ctx.unit asciiEnv) (.ok g) ∧ g.bodyToks = q!"extern" ++ [.str c!"C"] ++ q!"{ pub fn f ( ) -> c_void ; }" ∧
    FnSpelled (Ctx.unit asciiEnv) [] [.ident c!"void", .ident c!"f", .punct c!"(", .punct c!")", .punct c!";"]
      (q!"extern" ++ [.str c!"C"] ++ q!"{ pub fn f ( ) ; }") := by
  obtain ⟨m, g, h1, h2, h3⟩ := C97_void (Ctx.unit asciiEnv) c!"M" [] [] [] [] (.ident c!"f") _ _ asciiEnv_lawful (calmCtx_unit _) (word_ascii (by decide +kernel))
    (by decide +kernel) (by simp) (by simp) (by intro s hs; simp at hs; subst hs; exact word_ascii (by decide +kernel)) (by intro id R _ h; cases h)
    (.ident (by decide)) .nil
  exact ⟨m, g, h1, h2, h3, .void (b := true) (vs := []) (.ident (by decide)) (.inl .nil)⟩

/-- Without the semicolon, `int * f ( )` is read as a product. -/
theorem C97_false_product : FnMacro.parse asciiEnv c!"M" [] [.ident c!"int", .punct c!"*", .ident c!"f", .punct c!"(", .punct c!")"] =
      .ok ⟨c!"M", [], .expr (.bin (.var (.plain c!"int")) .mul (.call (.plain c!"f") []))⟩ ∧
    FnSpelled (Ctx.unit asciiEnv) [] [.ident c!"int", .punct c!"*", .ident c!"f", .punct c!"(", .punct c!")"]
      (q!"extern" ++ [.str c!"C"] ++ q!"{ pub fn f ( ) -> * mut c_int ; }") :=
  ⟨rfl, .value (b := false) (us := [.ident c!"int", .punct c!"*"]) (vs := [])
    (.ptr (ts := [.ident c!"int"]) (.int (t := .int) (ws := [c!"int"]) ⟨_, by decide, .refl _⟩ (by decide) (by decide))) (.ident (by decide)) (.inl .nil)⟩

end CMacro
