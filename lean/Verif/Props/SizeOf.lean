import Verif.Spec.SizeOf
import Verif.Props.FnDecl
import Verif.Props.Fragment

/-!
# C99: sizes of types and offsets of members
-/

namespace CMacro
open Parser Spec

/-- **C99**, the full statement: `sizeof ( T )` becomes the size in Rust of the type that corresponds to `T`, with the type that
corresponds to `size_t`, as a constant and in a function-like macro; `__builtin_offsetof ( T , m )` becomes the offset in Rust of the same
member of that type; a parameter of the macro that stands for the type is declared as a type. -/
def C99_statement : Prop :=
  ∀ (C : Ctx) (name : Str), C.env.Lawful → CalmCtx C → Word C.env name →
    (∀ id R, C.resolveTy id = some R → StableTy C.ffiPrefix R) → (∀ p, C.traitPrefix = some p → p.segs ≠ []) →
    (∀ ts T, TypeSpelled C ts T → (∀ s, .ident s ∈ ts → Word C.env s) →
      ∃ m, VarMacro.parse C.env name (sizeOfBody ts) = .ok m ∧ m.Generates C (.ok (sizeOfText C T, some (sizeTypeText C)))) ∧
    ∀ (as : List MacroToken) (xs : List Str) (r : List MacroToken), FnMacro.parseArgs as = some (xs, r) → (∀ x ∈ xs, Word C.env x) →
      (∀ x ∈ xs, C.macroArgTy name x = none) → ∀ ts T, TypeOrParam C xs ts T → (∀ s, .ident s ∈ ts → Word C.env s) →
      (∃ m g, FnMacro.parse C.env name as (sizeOfBody ts) = .ok m ∧ m.Generates C (.ok g) ∧ g.bodyToks = sizeOfText C T ∧
        ∀ i x, ts = [.arg i] → xs[i]? = some x → DeclaredAs g i x c!"ty") ∧
      (C.function c!"__builtin_offsetof" = none → ∀ x X, NameSpelled xs x X → (∀ s, x = .ident s → Word C.env s) →
        ∃ m g, FnMacro.parse C.env name as (offsetOfBody ts x) = .ok m ∧ m.Generates C (.ok g) ∧ g.bodyToks = offsetOfText C T X ∧
        ∀ i x, ts = [.arg i] → xs[i]? = some x → DeclaredAs g i x c!"ty")

theorem declType_close (E : Env) {ts : List MacroToken} {t : Ty} (h : DeclType ts t) (rest : List MacroToken) : ∀ k : Nat,
    parseTy E (ts ++ (List.replicate k (.punct c!"*") ++ .punct c!")" :: rest)) =
      some ((List.replicate k none).foldl Ty.addPtr t, .punct c!")" :: rest) := by
  induction h with
  | builtIn h => exact typeName_aux E h rest
  | @name y m h =>
    intro k
    have close : StarStop (.punct c!")") := ⟨by simp, by decide, by simp, by simp⟩
    have hb : seq (tyBase E) (opt constVolatile) (y :: (List.replicate k (.punct c!"*") ++ .punct c!")" :: rest)) =
        some ((.ident m false, none), List.replicate k (.punct c!"*") ++ .punct c!")" :: rest) := by
      cases k <;> refine tyBase_name' E h ?_ ?_ ?_ ?_ <;> simp [List.replicate_succ, PlainStart]
    simp only [parseTy, List.singleton_append, hb, map, stars k close, Ty.qualifyOpt]
  | @ptr ts t h ih =>
    intro k
    have := ih (k + 1)
    rw [List.replicate_succ, List.cons_append] at this
    rw [List.append_assoc, List.singleton_append, this]
    rfl

theorem Spec.DeclType.start' {ts : List MacroToken} {t : Ty} (h : DeclType ts t) (us : List MacroToken) : PlainStart (ts ++ us) := by
  induction h generalizing us with
  | builtIn h => exact h.start us
  | name h => intro s r e; cases e; cases h
  | ptr h ih => rw [List.append_assoc]; exact ih _

/-- `sizeof ( ts )` is read, for types with names too. -/
theorem sizeOf_body (E : Env) {ts : List MacroToken} {t : Ty} (h : DeclType ts t) :
    MacroBody.parse E (sizeOfBody ts) = some (.expr (.sizeOf t), []) := by
  have hr : Reads E 0 (sizeOfBody ts) (.sizeOf t) := by
    intro rest _
    have h0 := declType_close E h rest 0
    simp only [List.replicate_zero, List.nil_append, List.foldl_nil] at h0
    have hp : parenthesized (parseTy E) (.punct c!"(" :: (ts ++ .punct c!")" :: rest)) = some (t, rest) := by
      simp only [parenthesized, delimited, terminated, preceded, map, seq, punct_self, meta_none (h.start' _), h0,
        meta_none (noComment_punct _ _)]
    rw [sizeOfBody, List.cons_append, List.cons_append, List.append_assoc, List.singleton_append]
    refine prec1_of ?_
    simp only [parseFactor, Parser.or, map, preceded, seq, keyword_self, hp]
  have hl : ∀ rest, Low E (sizeOfBody ts ++ rest) := fun rest => low_other E (by simp) _
  have h12 := ((((((((((((hr.up (by decide) (fun _ => hl)).up (by decide) (fun _ => hl)).up (by decide) (by simp)).up (by decide)
    (by simp)).up (by decide) (by simp)).up (by decide) (by simp)).up (by decide) (by simp)).up (by decide) (by simp)).up (by decide)
    (by simp)).up (by decide) (by simp)).up (by decide) (by simp)).up (by decide) (by simp))
  have hx := h12 [] (.inl rfl)
  rw [List.append_nil] at hx
  have hm : «meta» (sizeOfBody ts) = some ([], sizeOfBody ts) := meta_none (by intro s r e; cases e)
  unfold MacroBody.parse
  rw [hm]
  unfold sizeOfBody at hx ⊢
  simp only [Parser.or, allConsuming, map, hx]

theorem foreign_prefix {pre : Option RPath} (h : ∀ p, pre = some p → p.segs ≠ []) (s : Str) : prefixToks pre ++ [.id s] = foreign pre s := by
  have hsep : ∀ l : List Str, l ≠ [] → sepToks q!"::" (l.map fun s => [RTok.id s]) ++ [.punct c!"::"] = l.flatMap fun s => [RTok.id s, .punct c!"::"] := by
    intro l
    induction l with
    | nil => simp
    | cons a l ih =>
      intro _
      cases l with
      | nil => rfl
      | cons b l =>
        have := ih (by simp)
        rw [List.map_cons] at this ⊢
        rw [List.map_cons]
        simp only [sepToks, List.flatMap_cons] at this ⊢
        rw [List.append_assoc, this]
        simp
  cases pre with
  | none => rfl
  | some p =>
    have := hsep _ (h p rfl)
    simp only [prefixToks, RPath.toks, foreign, ← this]
    simp

theorem sizeType_is (C : Ctx) : (BuiltInType.sizeT.toRust C).toks = sizeTypeText C := by
  unfold sizeTypeText
  simp only [BuiltInType.toRust]
  cases C.resolveTy c!"size_t" with
  | some R => rfl
  | none =>
    cases C.nightly
    · rfl
    · exact prefixed_foreign _ _

/-- How the size of a type is printed. -/
theorem sizeOf_text {C : Ctx} (hp : ∀ p, C.traitPrefix = some p → p.segs ≠ []) {P : PCtx} (hP : P.C = C) {t : Ty} {T : List RTok} (h : t.toks P = T) :
    (Expr.sizeOf t).toks P = sizeOfText C T := by
  subst hP h
  have h1 := foreign_prefix hp c!"mem"
  simp only [Expr.toks, sizeOfText, ← h1, sizeType_is]
  simp [Expr.kids]

/-- **C99**, for constants: `#define N sizeof ( T )` becomes the size of the type that corresponds to `T`, with the type of sizes. -/
theorem C99_partial (C : Ctx) (name : Str) (ts : List MacroToken) (T : List RTok) (hE : C.env.Lawful) (hC : CalmCtx C) (hn : Word C.env name)
    (hst : ∀ id R, .ident id ∈ ts → C.resolveTy id = some R → StableTy C.ffiPrefix R) (hp : ∀ p, C.traitPrefix = some p → p.segs ≠ [])
    (hT : TypeSpelled C ts T) (hw : ∀ s, .ident s ∈ ts → Word C.env s) :
    ∃ m, VarMacro.parse C.env name (sizeOfBody ts) = .ok m ∧ m.Generates C (.ok (sizeOfText C T, some (sizeTypeText C))) := by
  obtain ⟨t, t', h1, h2, h3, h4⟩ := type_spelled hT 0 hw hst
  refine ⟨⟨name, .expr (.sizeOf t)⟩, ?_, 1, ?_⟩
  · simp only [VarMacro.parse, isIdent_iff.2 hn, if_true, sizeOf_body C.env h1]
  · intro n hn
    obtain ⟨n, rfl⟩ : ∃ k, n = k + 1 := ⟨n - 1, by omega⟩
    have hcalm := calm_generate_var (v := ⟨name, .expr (.sizeOf t)⟩) hC hE h2 (n + 1)
    have hf : Expr.finish C (varLoc C) (n + 1) (.sizeOf t) .init = ⟨.sizeOf t', .init, .ok (some (.builtIn .sizeT))⟩ := by
      simp only [Expr.finish, finishStep, h3]
    have ht : (Expr.sizeOf t').toks ⟨C, varLoc C, LState.init.exportAsMacro⟩ = sizeOfText C T := sizeOf_text hp rfl (h4 _ rfl)
    have hs : (Ty.builtIn .sizeT).toks ⟨C, varLoc C, LState.init.exportAsMacro⟩ = sizeTypeText C := sizeType_is C
    simp only [VarMacro.generate, hf, ht, Option.map_some, hs] at hcalm ⊢
    split at hcalm
    · exact absurd rfl hcalm
    · rename_i h
      rw [if_neg h]
      rfl

/-- What is generated for a body that is finished in one step and printed as `out`. -/
theorem generates_of {C : Ctx} {m : FnMacro} {tys : List ArgTy} {N : Nat} {b : MacroBody} {st : LState} {ret : Option Ty} {out : List RTok}
    (ha : argTypes C m.name m.args = .ok tys) (hcalm : ∀ n, m.generate n C ≠ .error .panic)
    (hf : ∀ n ≥ N, m.body.finish C (Expr.finish C (fnLoc m.args) n) ⟨tys, false⟩ = ⟨b, st, .ok ret⟩)
    (ht : ∀ k, (asMacro C m st ret = true → k = true) → b.toks ⟨C, fnLoc m.args, k⟩ = out) :
    ∃ g, m.Generates C (.ok g) ∧ g.bodyToks = out ∧
      (asMacro C m st ret = true → g = .macro m.name (macroParams m.args st.argTypes) out) := by
  have h1 := hcalm N
  rw [FnMacro.generate_eq N C _ ha, hf N (Nat.le_refl _)] at h1
  have : ∃ g, fnOut C m ⟨b, st, .ok ret⟩ = .ok g := by
    have key : ∀ O : GenFn, (if toksOk C.env O.toks = true then Except.ok O else Except.error CgFail.panic : CgRes GenFn) ≠ .error .panic →
        ∃ g, (if toksOk C.env O.toks = true then Except.ok O else Except.error CgFail.panic : CgRes GenFn) = .ok g := by
      intro O h
      split at h
      · rename_i h'
        exact ⟨_, if_pos h'⟩
      · exact absurd rfl h
    exact key _ h1
  obtain ⟨g, hg⟩ := this
  refine ⟨g, ⟨N, fun n hn => by rw [FnMacro.generate_eq n C _ ha, hf n hn, hg]⟩, ?_⟩
  rcases (fnOut_ok hg).2 with ⟨h, rfl⟩ | ⟨h, rfl⟩
  · rw [ht true (fun _ => rfl)]
    exact ⟨rfl, fun _ => rfl⟩
  · rw [ht false (fun h' => by rw [h'] at h; cases h)]
    exact ⟨rfl, fun h' => by rw [h] at h'; cases h'⟩

/-- **C99**, for function-like macros: the same in the generated macro or function, for a type that is not a parameter. -/
theorem C99_fn_partial (C : Ctx) (name : Str) (as : List MacroToken) (xs : List Str) (r ts : List MacroToken) (T : List RTok)
    (hE : C.env.Lawful) (hC : CalmCtx C) (hn : Word C.env name) (ha : FnMacro.parseArgs as = some (xs, r)) (hxs : ∀ x ∈ xs, Word C.env x)
    (hty : ∀ x ∈ xs, C.macroArgTy name x = none)
    (hst : ∀ id R, .ident id ∈ ts → C.resolveTy id = some R → StableTy C.ffiPrefix R) (hp : ∀ p, C.traitPrefix = some p → p.segs ≠ [])
    (hT : TypeSpelled C ts T) (hw : ∀ s, .ident s ∈ ts → Word C.env s) :
    ∃ m g, FnMacro.parse C.env name as (sizeOfBody ts) = .ok m ∧ m.Generates C (.ok g) ∧ g.bodyToks = sizeOfText C T := by
  obtain ⟨t, t', h1, h2, h3, h4⟩ := type_spelled hT xs.length hw hst
  have hcalm := calm_generate_fn (f := ⟨name, xs, .expr (.sizeOf t)⟩) hC hE hn (.inl hxs) h2
  obtain ⟨g, hg, hb, _⟩ := generates_of (m := ⟨name, xs, .expr (.sizeOf t)⟩) (N := 1) (b := .expr (.sizeOf t')) (st := ⟨xs.map fun _ => .unknown, false⟩)
    (ret := some (.builtIn .sizeT)) (out := sizeOfText C T) (argTypes_none hty) hcalm
    (by
      intro n hn
      obtain ⟨n, rfl⟩ : ∃ k, n = k + 1 := ⟨n - 1, by omega⟩
      simp only [MacroBody.finish, Expr.finish, finishStep, h3])
    (fun k _ => by simpa only [MacroBody.toks] using sizeOf_text hp rfl (h4 _ rfl))
  refine ⟨_, g, ?_, hg, hb⟩
  simp only [FnMacro.parse, isIdent_iff.2 hn, if_true, ha, sizeOf_body C.env h1]

/-- **C99**, for offsets: both parameters are handed over in their order, and the first is declared as a type, the second as a
token tree; but the macro of Rust is not named `offsetof`. -/
theorem C99_offset_partial (C : Ctx) (name : Str) (as : List MacroToken) (xs : List Str) (r : List MacroToken) (i j : Nat) (p q : Str)
    (hE : C.env.Lawful) (hC : CalmCtx C) (hn : Word C.env name) (ha : FnMacro.parseArgs as = some (xs, r)) (hxs : ∀ x ∈ xs, Word C.env x)
    (hty : ∀ x ∈ xs, C.macroArgTy name x = none) (hp : ∀ p, C.traitPrefix = some p → p.segs ≠ [])
    (hf : C.function c!"__builtin_offsetof" = none) (hi : xs[i]? = some p) (hj : xs[j]? = some q) (hij : i ≠ j) :
    ∃ m g, FnMacro.parse C.env name as (offsetOfBody [.arg i] (.arg j)) = .ok m ∧ m.Generates C (.ok g) ∧
      g.bodyToks = foreign C.traitPrefix c!"mem" ++ q!":: offsetof ! (" ++ [.punct c!"$", .id p, .punct c!",", .punct c!"$", .id q, .punct c!")"] ∧
      DeclaredAs g i p c!"ty" ∧ DeclaredAs g j q c!"tt" := by
  have hli := (List.getElem?_eq_some_iff.1 hi).1
  have hlj := (List.getElem?_eq_some_iff.1 hj).1
  have hdots : ∀ x ∈ xs, x ≠ c!"..." := by
    rintro x hx rfl
    have : isIdentifier C.env c!"..." = true := isIdent_iff.2 (hxs _ hx)
    rw [dots_not_ident hE] at this
    cases this
  have hg : Gram 12 (offsetOfBody [.arg i] (.arg j)) (.call (.plain c!"__builtin_offsetof") [.var (.arg i), .var (.arg j)]) :=
    (Gram.call (t := .ident c!"__builtin_offsetof") (.ident (by decide))
      (.more (ts := [.arg i]) (us := [.arg j]) ((Gram.name .arg).ups (by omega) (by omega)) (.one ((Gram.name .arg).ups (by omega) (by omega))))).ups
      (by omega) (by omega)
  let e : Expr := .call (.plain c!"__builtin_offsetof") [.var (.arg i), .var (.arg j)]
  let st : LState := (LState.setArg ⟨xs.map fun _ => .unknown, true⟩ i .ty).setArg j .tt
  have hcalm := calm_generate_fn (f := ⟨name, xs, .expr e⟩) hC hE hn (.inl hxs) (by
    exact ⟨asciiWord_word hE (by decide +kernel), hli, hlj, trivial⟩)
  have h1 : LState.argTy ⟨xs.map fun _ => .unknown, false⟩ i = some .unknown := by simp [LState.argTy, hi]
  have h2 : LState.argTy ⟨xs.map fun _ => .unknown, false⟩ j = some .unknown := by simp [LState.argTy, hj]
  have h3 : LState.argTy ⟨xs.map fun _ => .unknown, true⟩ i = some .unknown := by simp [LState.argTy, hi]
  have h4 : LState.argTy (LState.setArg ⟨xs.map fun _ => .unknown, true⟩ i .ty) j = some .unknown := by
    simp [LState.argTy, LState.setArg, hij, hj]
  obtain ⟨g, hg1, hb, hm⟩ := generates_of (m := ⟨name, xs, .expr e⟩) (N := 2) (b := .expr e) (st := st)
    (ret := none) (out := foreign C.traitPrefix c!"mem" ++ q!":: offsetof ! (" ++ [.punct c!"$", .id p, .punct c!",", .punct c!"$", .id q, .punct c!")"])
    (argTypes_none hty) hcalm
    (by
      intro n hn
      obtain ⟨n, rfl⟩ : ∃ k, n = k + 1 + 1 := ⟨n - 2, by omega⟩
      simp only [MacroBody.finish, Expr.finish, finishStep, e, st, finishArgs, finishVar, IdentExpr.finish, h1, h2, finishCallee, hf,
        LState.export, if_true, offsetofArg, Expr.asArg, h3, h4, fnLoc]
      rfl)
    (fun k hk => by
      obtain rfl := hk (by simp [asMacro, st, LState.setArg])
      have := foreign_prefix hp c!"mem"
      simp only [MacroBody.toks, e, Expr.toks, Expr.toksL, callToks, isOffsetof, ← this, List.zipWith, callArgToks, argNameToks, varToks, sepToks, IdentExpr.toks, argToks,
        fnLoc, hi, hj, if_neg (hdots p (List.mem_of_getElem? hi)), if_neg (hdots q (List.mem_of_getElem? hj))]
      simp)
  have hm := hm (by simp [asMacro, st, LState.setArg])
  subst hm
  refine ⟨_, _, C35_fn_grammar C.env (isIdent_iff.2 hn) ha hg, hg1, rfl, ?_, ?_⟩
  · exact ⟨_, _, _, rfl, macroParams_at hi (t := .ty) (by simp [st, LState.setArg, hij.symm, hli]) (hdots p (List.mem_of_getElem? hi))⟩
  · exact ⟨_, _, _, rfl, macroParams_at hj (t := .tt) (by simp [st, LState.setArg, hlj]) (hdots q (List.mem_of_getElem? hj))⟩

/-! ## Examples -/

theorem geo_stable : ∀ id R, geoCtx.resolveTy id = some R → StableTy geoCtx.ffiPrefix R := by
  intro id R h
  simp only [geoCtx] at h
  split at h
  · cases h
    exact .other rfl (by simp) (by decide)
  · cases h

/-- `#define N sizeof(point_t *)` becomes `mem::size_of::<*mut geo::Point>() as ::std::os::raw::c_size_t`. -/
example : ∃ m, VarMacro.parse asciiEnv c!"N" [.ident c!"sizeof", .punct c!"(", .ident c!"point_t", .punct c!"*", .punct c!")"] = .ok m ∧
    m.Generates geoCtx (.ok (q!"mem :: size_of :: < * mut geo :: Point > ( ) as :: std :: os :: raw :: c_size_t",
      some q!":: std :: os :: raw :: c_size_t")) :=
  C99_partial geoCtx c!"N" [.ident c!"point_t", .punct c!"*"] _ asciiEnv_lawful geoCtx_calm (word_ascii (by decide +kernel))
    (fun id R _ => geo_stable id R) (by intro p h; cases h) (.ptr (ts := [.ident c!"point_t"]) (.name (by decide) rfl))
    (by intro s hs; simp at hs; subst hs; exact word_ascii (by decide +kernel))

/-- `#define SIZE(x) sizeof(unsigned long)`, whose parameter is not used. -/
example : ∃ m g, FnMacro.parse asciiEnv c!"SIZE" [.ident c!"x"] [.ident c!"sizeof", .punct c!"(", .ident c!"unsigned", .ident c!"long", .punct c!")"] = .ok m ∧
    m.Generates geoCtx (.ok g) ∧ g.bodyToks = q!"mem :: size_of :: < :: std :: os :: raw :: c_ulong > ( ) as :: std :: os :: raw :: c_size_t" :=
  C99_fn_partial geoCtx c!"SIZE" [.ident c!"x"] [c!"x"] [] [.ident c!"unsigned", .ident c!"long"] _ asciiEnv_lawful geoCtx_calm
    (word_ascii (by decide +kernel)) (by decide +kernel) (by intro x hx; cases List.mem_singleton.1 hx; exact word_ascii (by decide +kernel)) (fun _ _ => rfl)
    (fun id R _ => geo_stable id R) (by intro p h; cases h)
    (.int (t := .ulong) (ws := [c!"unsigned", c!"long"]) ⟨_, by decide, .refl _⟩ (by decide) (by decide))
    (by intro s hs; simp at hs; rcases hs with rfl | rfl <;> exact word_ascii (by decide +kernel))

/-- `#define OFFSET(T, m) __builtin_offsetof(T, m)`. -/
theorem offset_case : ∃ m g, FnMacro.parse asciiEnv c!"OFFSET" [.ident c!"T", .ident c!"m"]
      [.ident c!"__builtin_offsetof", .punct c!"(", .arg 0, .punct c!",", .arg 1, .punct c!")"] = .ok m ∧
    m.Generates geoCtx (.ok g) ∧ g.bodyToks = q!"mem :: offsetof ! ( $ T , $ m )" ∧ DeclaredAs g 0 c!"T" c!"ty" ∧ DeclaredAs g 1 c!"m" c!"tt" :=
  C99_offset_partial geoCtx c!"OFFSET" [.ident c!"T", .ident c!"m"] [c!"T", c!"m"] [] 0 1 c!"T" c!"m" asciiEnv_lawful geoCtx_calm
    (word_ascii (by decide +kernel)) (by decide +kernel)
    (by intro x hx; simp at hx; rcases hx with rfl | rfl <;> exact word_ascii (by decide +kernel)) (fun _ _ => rfl)
    (by intro p h; cases h) rfl rfl rfl (by decide)

/-! ## The full claim is false -/

/-- The full claim is false: Rust has no macro `core::mem::offsetof`. -/
theorem C99_false : ¬ C99_statement := by
  intro h
  obtain ⟨m, g, h1, h2, h3, _⟩ := offset_case
  obtain ⟨_, h5⟩ := h geoCtx c!"OFFSET" asciiEnv_lawful geoCtx_calm (word_ascii (by decide +kernel)) geo_stable (by intro p h; cases h)
  obtain ⟨m', g', g1, g2, g3, _⟩ := (h5 [.ident c!"T", .ident c!"m"] [c!"T", c!"m"] [] (by decide +kernel)
    (by intro x hx; simp at hx; rcases hx with rfl | rfl <;> exact word_ascii (by decide +kernel)) (fun _ _ => rfl) [.arg 0] _ (.param rfl)
    (by simp)).2 rfl (.arg 1) _ (.param rfl) (by simp)
  cases h1.symm.trans g1
  cases h2.unique g2
  exact absurd (h3.symm.trans g3) (by decide +kernel)

/-- `#define SIZE(T) sizeof(T)` makes a macro whose parameter is an expression, which cannot be a type. -/
theorem C99_false_param : ∃ m g, FnMacro.parse asciiEnv c!"SIZE" [.ident c!"T"] [.ident c!"sizeof", .punct c!"(", .arg 0, .punct c!")"] = .ok m ∧
    m.Generates (Ctx.unit asciiEnv) (.ok g) ∧ g.bodyToks = q!"mem :: size_of :: < $ T > ( ) as c_size_t" ∧ DeclaredAs g 0 c!"T" c!"expr" := by
  refine ⟨sizeMacro, _, rfl, size_expr ▸ fnGenerates_of 9 _ _ _ _ [.unknown] rfl (by decide +kernel), rfl, _, _, _, rfl, rfl⟩

/-- `#define OFFSET(m) __builtin_offsetof(point_t, m)` mentions `point_t`, although the type is `geo::Point` in Rust. -/
theorem C99_false_type : ∃ m g, FnMacro.parse asciiEnv c!"OFFSET" [.ident c!"m"]
      [.ident c!"__builtin_offsetof", .punct c!"(", .ident c!"point_t", .punct c!",", .arg 0, .punct c!")"] = .ok m ∧
    m.Generates geoCtx (.ok g) ∧ g.bodyToks = q!"mem :: offsetof ! ( point_t , $ m )" ∧
    TypeSpelled geoCtx [.ident c!"point_t"] q!"geo :: Point" := by
  have h : FnMacro.generate 9 geoCtx ⟨c!"OFFSET", [c!"m"], .expr (.call (.plain c!"__builtin_offsetof") [.var (.plain c!"point_t"), .var (.arg 0)])⟩ =
      .ok (.macro c!"OFFSET" [q!"$ m : tt"] q!"mem :: offsetof ! ( point_t , $ m )") := by decide +kernel
  exact ⟨_, _, rfl, h ▸ fnGenerates_of 9 _ _ _ _ [.unknown] rfl (by decide +kernel), rfl,
    .name (id := c!"point_t") (p := ⟨false, [c!"geo", c!"Point"]⟩) (by decide) rfl⟩

end CMacro
