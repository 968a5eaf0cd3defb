import Verif.Proofs.FinishInv

/-!
# Properties C41 and C42: when a function is generated, and what is in it
-/

namespace CMacro

/-! ## C41 -/

/-- A Rust type that is written back as it was given: built from paths by pointers, where no path is
one of the names that stand for a C type with another Rust spelling. -/
inductive Spec.StableTy (ffi : Option RPath) : RTy → Prop
  | bare {s : Str} : ffi = none → s ≠ c!"f128" → s ≠ c!"c_size_t" → StableTy ffi (.path .plain ⟨false, [s]⟩)
  | path {p : RPath} : ffi = none → 2 ≤ p.segs.length → StableTy ffi (.path .plain p)
  | prefixed {p : RPath} {s : Str} : ffi = some p →
      s ∉ [c!"f32", c!"f64", c!"f128", c!"bool", c!"u8", c!"u16", c!"u32", c!"c_size_t"] →
      StableTy ffi (.path .plain ⟨p.leadingColon, p.segs ++ [s]⟩)
  | other {f p : RPath} : ffi = some f → p.segs ≠ [] → ¬ f.segs <+: p.segs → StableTy ffi (.path .plain p)
  | ptr {m t} : StableTy ffi t → StableTy ffi (.ptr m t)

theorem stripPrefix_append (p s : List Str) : stripPrefixSegs p (p ++ s) = some s := by
  induction p with
  | nil => rfl
  | cons a p ih => simp [stripPrefixSegs, ih]

theorem stripPrefix_none : ∀ {p s : List Str}, ¬ p <+: s → stripPrefixSegs p s = none
  | [], s, h => absurd (List.nil_prefix) h
  | a :: p, [], _ => rfl
  | a :: p, b :: s, h => by
    simp only [stripPrefixSegs]
    split
    · rename_i hab
      subst hab
      exact stripPrefix_none (fun hp => h ((List.prefix_cons_inj _).2 hp))
    · rfl

theorem RTy.toks_prefixed (C : Ctx) (s : Str) (p : RPath) (h : C.ffiPrefix = some p) :
    (RTy.prefixed C.ffiPrefix s).toks = (RTy.path .plain ⟨p.leadingColon, p.segs ++ [s]⟩).toks := by
  simp [RTy.prefixed, h, RTy.toks]

theorem unresolved_toks {P : PCtx} {p : RPath} (hs : p.segs ≠ []) {T : Ty} (ht : (match p.leadingColon, p.segs with
      | false, [s] => (.ok (.ident (.plain s) false) : CgRes Ty)
      | lc, segs => .ok (.path lc segs)) = .ok T) : T.toks P = p.toks := by
  obtain ⟨lc, segs⟩ := p
  split at ht
  · cases ht
    simp_all [Ty.toks, IdentExpr.toks, RPath.toks, sepToks]
  · cases ht
    simp [Ty.toks, RPath.toks]

theorem ite_cases {p : Prop} [Decidable p] {α : Type} {a b r : α} (h : (if p then a else b) = r) : (p ∧ a = r) ∨ b = r := by
  by_cases hp : p
  · exact .inl ⟨hp, by rwa [if_pos hp] at h⟩
  · exact .inr (by rwa [if_neg hp] at h)

/-- The names of the built-in types. -/
def rustNames : List (Str × BuiltInType) :=
  [(c!"f32", .float), (c!"f64", .double), (c!"f128", .longDouble), (c!"bool", .bool), (c!"c_char", .char),
    (c!"c_schar", .sChar), (c!"c_uchar", .uChar), (c!"u8", .char8T), (c!"u16", .char16T), (c!"u32", .char32T),
    (c!"c_short", .short), (c!"c_ushort", .uShort), (c!"c_int", .int), (c!"c_uint", .uInt), (c!"c_long", .long),
    (c!"c_ulong", .uLong), (c!"c_longlong", .longLong), (c!"c_ulonglong", .uLongLong), (c!"c_size_t", .sizeT),
    (c!"c_ssize_t", .sSizeT), (c!"c_void", .void)]

theorem ofRustName_some {s : Str} {b : BuiltInType} (h : BuiltInType.ofRustName s = some b) : (s, b) ∈ rustNames := by
  unfold BuiltInType.ofRustName at h
  iterate 21
    rcases ite_cases h with ⟨rfl, h'⟩ | h'
    · cases h'; decide
    replace h := h'
  cases h

theorem stable_toks {C : Ctx} {t : RTy} (h : Spec.StableTy C.ffiPrefix t) : ∀ {T : Ty}, Ty.fromRust C.ffiPrefix t = .ok T →
    ∀ P : PCtx, P.C = C → T.toks P = t.toks := by
  induction h with
  | @bare s hf h1 h2 =>
    rintro T ht P rfl
    simp only [Ty.fromRust, BuiltInType.fromRust, hf] at ht
    simp only [PathKind.hasSelf, Bool.false_eq_true, if_false] at ht
    split at ht
    · rename_i b hb
      cases ht
      have hb := ofRustName_some hb
      simp only [rustNames, List.mem_cons, List.not_mem_nil, or_false, Prod.mk.injEq] at hb
      rcases hb with ⟨rfl, rfl⟩ | ⟨rfl, rfl⟩ | ⟨rfl, rfl⟩ | ⟨rfl, rfl⟩ | ⟨rfl, rfl⟩ | ⟨rfl, rfl⟩ | ⟨rfl, rfl⟩ | ⟨rfl, rfl⟩ | ⟨rfl, rfl⟩ | ⟨rfl, rfl⟩ | ⟨rfl, rfl⟩ | ⟨rfl, rfl⟩ | ⟨rfl, rfl⟩ | ⟨rfl, rfl⟩ | ⟨rfl, rfl⟩ | ⟨rfl, rfl⟩ | ⟨rfl, rfl⟩ | ⟨rfl, rfl⟩ | ⟨rfl, rfl⟩ | ⟨rfl, rfl⟩ | ⟨rfl, rfl⟩
      all_goals simp_all [Ty.toks, BuiltInType.toRust, RTy.prefixed]
    · cases ht
      simp [Ty.toks, IdentExpr.toks, RTy.toks, RPath.toks, sepToks]
  | @path p hf h2 =>
    rintro T ht P rfl
    simp only [Ty.fromRust, BuiltInType.fromRust, hf] at ht
    simp only [PathKind.hasSelf, Bool.false_eq_true, if_false] at ht
    split at ht
    · rename_i b hb
      split at hb
      · rename_i hs
        simp only [Option.some.injEq] at hs
        rw [hs] at h2; simp at h2
      · cases hb
    · exact unresolved_toks (by rintro h; rw [h] at h2; simp at h2) ht
  | @prefixed p s hf h1 =>
    rintro T ht P rfl
    simp only [Ty.fromRust, BuiltInType.fromRust, hf] at ht
    simp only [PathKind.hasSelf, Bool.false_eq_true, if_false, if_true, stripPrefix_append] at ht
    split at ht
    · rename_i b hb
      cases ht
      have hb := ofRustName_some hb
      simp only [rustNames, List.mem_cons, List.not_mem_nil, or_false, Prod.mk.injEq] at hb
      rcases hb with ⟨rfl, rfl⟩ | ⟨rfl, rfl⟩ | ⟨rfl, rfl⟩ | ⟨rfl, rfl⟩ | ⟨rfl, rfl⟩ | ⟨rfl, rfl⟩ | ⟨rfl, rfl⟩ | ⟨rfl, rfl⟩ | ⟨rfl, rfl⟩ | ⟨rfl, rfl⟩ | ⟨rfl, rfl⟩ | ⟨rfl, rfl⟩ | ⟨rfl, rfl⟩ | ⟨rfl, rfl⟩ | ⟨rfl, rfl⟩ | ⟨rfl, rfl⟩ | ⟨rfl, rfl⟩ | ⟨rfl, rfl⟩ | ⟨rfl, rfl⟩ | ⟨rfl, rfl⟩ | ⟨rfl, rfl⟩
      all_goals first
        | exact RTy.toks_prefixed _ _ _ hf
        | exact absurd (by simp) h1
    · exact unresolved_toks (by simp) ht
  | @other f p hf hs hn =>
    rintro T ht P rfl
    simp only [Ty.fromRust, BuiltInType.fromRust, hf] at ht
    simp only [Bool.false_eq_true, if_false, stripPrefix_none hn, ite_self] at ht
    exact unresolved_toks hs ht
  | @ptr m t _ ih =>
    rintro T ht P rfl
    simp only [Ty.fromRust] at ht
    split at ht
    · rename_i t' ht'
      cases ht
      cases m <;> simp [Ty.toks, RTy.toks, ih ht' P rfl, Qualifier.isConst]
    · cases ht

/-- No node condition. -/
theorem NodeInv.triv (C : Ctx) (L : Loc) : NodeInv C L fun _ _ => True := by
  constructor <;> simp

theorem fnParams_get {P : PCtx} : ∀ {as : List Str} {ts : List ArgTy}, as.length = ts.length →
    (∀ t ∈ ts, t.isKnown = true) → (fnParams P as ts).length = as.length ∧
      ∀ (i : Nat) (a : Str), as[i]? = some a → ∃ T, ts[i]? = some (.known T) ∧
        (fnParams P as ts)[i]? = some ([.id a] ++ q!":" ++ T.toks P)
  | [], [], _, _ => by simp [fnParams]
  | a :: as, t :: ts, hl, hk => by
    have := hk t (by simp)
    cases t with
    | known T =>
      have ih := fnParams_get (P := P) (as := as) (ts := ts) (by simpa using hl) fun t ht => hk t (by simp [ht])
      refine ⟨by simp [fnParams, ih.1], fun i b hb => ?_⟩
      cases i with
      | zero => simp at hb; subst hb; exact ⟨T, by simp, by simp [fnParams]⟩
      | succ i => simpa [fnParams] using ih.2 i b (by simpa using hb)
    | _ => cases this
  | [], _ :: _, hl, _ | _ :: _, [], hl, _ => by simp at hl

theorem argTypes_get {C : Ctx} {name : Str} : ∀ {as : List Str} {ts : List ArgTy}, argTypes C name as = .ok ts →
    ts.length = as.length ∧ ∀ (i : Nat) (a : Str) (t : RTy), as[i]? = some a → C.macroArgTy name a = some t →
      ∃ T, Ty.fromRust C.ffiPrefix t = .ok T ∧ ts[i]? = some (.known T)
  | [], ts, h => by cases h; simp
  | a :: as, ts, h => by
    simp only [argTypes] at h
    split at h
    · cases h
    · rename_i u hu
      split at h
      · cases h
      · rename_i us hus
        cases h
        have ih := argTypes_get hus
        refine ⟨by simp [ih.1], fun i b t hb ht => ?_⟩
        cases i with
        | zero =>
          simp at hb; subst hb
          rw [ht] at hu
          simp only at hu
          split at hu
          · cases hu
            exact ⟨_, by assumption, by simp⟩
          · cases hu
        | succ i => simpa using ih.2 i b t (by simpa using hb) ht

/-- The finished body behind a generated item. -/
theorem FnMacro.Generates.finished {C : Ctx} {m : FnMacro} {out : GenFn} (h : m.Generates C (.ok out)) :
    ∃ tys b st ret N, CMacro.argTypes C m.name m.args = .ok tys ∧
      (∀ n ≥ N, m.body.finish C (Expr.finish C (fnLoc m.args) n) ⟨tys, false⟩ = ⟨b, st, .ok ret⟩) ∧
      fnOut C m ⟨b, st, .ok ret⟩ = .ok out := by
  obtain ⟨tys, ha⟩ := h.argTypes
  obtain ⟨⟨b, st, r⟩, N, hd, hN⟩ := MacroBody.finish_ends (C := C) (L := fnLoc m.args) m.body ⟨tys, false⟩
  have hg : m.Generates C (fnOut C m ⟨b, st, r⟩) := ⟨N, fun n hn => by rw [FnMacro.generate_eq n C m ha, hN n hn]⟩
  have := h.unique hg
  rcases r with e | ret
  · cases this
  · exact ⟨tys, b, st, ret, N, ha, hN, this.symm⟩

theorem retToks_cases (P : PCtx) (ty : Ty) : ty = .builtIn .void ∧ retToks P (some ty) = none ∨
    ty ≠ .builtIn .void ∧ retToks P (some ty) = some (ty.toks P) := by
  unfold retToks
  cases ty with
  | builtIn b => cases b <;> simp [Ty.isVoid]
  | _ => simp [Ty.isVoid]

/-- **C41**: a function is generated only for a macro that is not variadic and whose name is not
that of a known function; every parameter is declared with a type, in the order of the macro's
parameters; a parameter whose type the context gives is declared with that type.  The body has a
type, and it is the return type unless it is `void`. -/
theorem C41_function_only_if_typed (C : Ctx) (m : FnMacro) (name : Str) (params : List (List RTok))
    (ret : Option (List RTok)) (body : List RTok) (h : m.Generates C (.ok (.fn name params ret body))) :
    name = m.name ∧ C.function name = none ∧ m.args.getLast? ≠ some c!"..." ∧ params.length = m.args.length ∧
    (∀ (i : Nat) (a : Str), m.args[i]? = some a → ∃ ty : Ty, params[i]? = some ([.id a] ++ q!":" ++ ty.toks ⟨C, fnLoc m.args, false⟩) ∧
      ∀ t, C.macroArgTy name a = some t → Ty.fromRust C.ffiPrefix t = .ok ty ∧
        (Spec.StableTy C.ffiPrefix t → params[i]? = some ([.id a] ++ q!":" ++ t.toks))) ∧
    (∃ tys b st ty N, argTypes C m.name m.args = .ok tys ∧ (∀ n ≥ N, m.body.finish C (Expr.finish C (fnLoc m.args) n) ⟨tys, false⟩ = ⟨b, st, .ok (some ty)⟩) ∧
      (ty = .builtIn .void ∧ ret = none ∨ ty ≠ .builtIn .void ∧ ret = some (ty.toks ⟨C, fnLoc m.args, false⟩))) := by
  obtain ⟨tys, b, st, r, N, ha, hN, ho⟩ := h.finished
  obtain ⟨_, ⟨_, h2⟩ | ⟨hm, h2⟩⟩ := fnOut_ok ho
  · cases h2
  cases h2
  simp only [asMacro, Bool.or_eq_false_iff, Option.isSome_eq_false_iff, Bool.not_eq_false', List.all_eq_true, namesVariadic,
    decide_eq_false_iff_not, Option.isNone_eq_false_iff] at hm
  obtain ⟨⟨⟨⟨_, hfn⟩, hv⟩, hk⟩, hr⟩ := hm
  obtain ⟨ty, rfl⟩ := Option.isSome_iff_exists.1 hr
  have hinv := (MacroBody.finish_inv (NodeInv.triv C (fnLoc m.args)) (Expr.finish_inv (NodeInv.triv C (fnLoc m.args)) N) m.body ⟨tys, false⟩).1
  rw [hN N (Nat.le_refl _)] at hinv
  have hat := argTypes_get ha
  have hp := fnParams_get (P := ⟨C, fnLoc m.args, false⟩) (as := m.args) (ts := st.argTypes) (by rw [hinv.1, hat.1]) hk
  refine ⟨rfl, by simpa using hfn, hv, hp.1, fun i a hi => ?_, tys, b, st, ty, N, ha, hN, ?_⟩
  · obtain ⟨T, hT, hpT⟩ := hp.2 i a hi
    refine ⟨T, hpT, fun t ht => ?_⟩
    obtain ⟨T', hT', hi'⟩ := hat.2 i a t hi ht
    obtain ⟨b', hb', hle⟩ := hinv.2.1 i _ hi'
    rw [hT] at hb'
    cases hb'
    have : T = T' := by simpa [ArgTy.Le, ArgTy.isMarked] using hle
    subst this
    exact ⟨hT', fun hs => by rw [hpT, stable_toks hs hT' _ rfl]⟩
  · exact retToks_cases _ ty

/-- A context with a type for the parameters and a function to call. -/
def typedCtx : Ctx :=
  { Ctx.unit asciiEnv with
    macroArgTy := fun _ a => if a = c!"x" then some (.ptr false (.path .plain ⟨false, [c!"c_char"]⟩)) else none
    function := fun f => if f = c!"g" then some ([.path .plain ⟨false, [c!"c_int"]⟩], .path .plain ⟨false, [c!"c_long"]⟩) else none }

/-- `F(x, y) x[..]`-like use: the type of `x` is declared, that of `y` inferred from a call. -/
example : FnMacro.generate 5 typedCtx ⟨c!"F", [c!"x", c!"y"], .expr (.bin (.call (.plain c!"g") [.var (.arg 1)]) .eq
      (.un .deref (.var (.arg 0))))⟩ = .error (unsupported c!"dereference of non-pointer") ∧
    FnMacro.generate 5 typedCtx ⟨c!"F", [c!"x", c!"y"], .expr (.ternary (.var (.arg 0)) (.call (.plain c!"g") [.var (.arg 1)])
      (.lit (.int ⟨0, none⟩)))⟩ = .ok (.fn c!"F" [q!"x : * const c_char", q!"y : c_int"] (some q!"c_long")
        (q!"if x !=" ++ [.int 0 []] ++ q!"{ g ( y ) } else {" ++ [.int 0 []] ++ q!"}")) := by
  decide +kernel

/-! ## C42 -/

/-- Code without the token that marks a metavariable of a macro. -/
local notation:max "NoDollar" ts:max => ¬ RTok.punct c!"$" ∈ (ts : List RTok)

theorem sepToks_mem {sep : List RTok} {x : RTok} : ∀ {xs : List (List RTok)}, x ∈ sepToks sep xs → x ∈ sep ∨ ∃ y ∈ xs, x ∈ y
  | [], h => by simp [sepToks] at h
  | [a], h => .inr ⟨a, by simp, by simpa [sepToks] using h⟩
  | a :: b :: l, h => by
    simp only [sepToks, List.mem_append] at h
    rcases h with (h | h) | h
    · exact .inr ⟨a, by simp, h⟩
    · exact .inl h
    · rcases sepToks_mem h with h | ⟨y, hy, h⟩
      · exact .inl h
      · exact .inr ⟨y, by simp [hy], h⟩

theorem RPath.noDollar (p : RPath) : NoDollar p.toks := by
  unfold RPath.toks
  intro h
  rcases List.mem_append.1 h with h | h
  · split at h <;> simp at h
  · rcases sepToks_mem h with h | ⟨y, hy, h⟩
    · simp at h
    · simp only [List.mem_map] at hy
      obtain ⟨s, _, rfl⟩ := hy
      simp at h

@[simp] theorem prefixToks_noDollar (p : Option RPath) : NoDollar (prefixToks p) := by
  cases p with
  | none => simp [prefixToks]
  | some p => simp [prefixToks, RPath.noDollar p]

@[simp] theorem RTy.noDollar : ∀ t : RTy, NoDollar t.toks
  | .ptr m t => by cases m <;> simp [RTy.toks, RTy.noDollar t]
  | .unit | .verbatim _ | .other _ => by simp [RTy.toks]
  | .path (.rich _ _) p | .path .plain p => by simp [RTy.toks, RPath.noDollar p]

section
variable {P : PCtx}

/-- The printing context of a function. -/
structure FnPrint (P : PCtx) : Prop where
  fn : P.asMacro = false
  names : c!"..." ∉ P.L.argNames
  enums : ∀ id t e, P.C.resolveEnumVariant id = some (t, e) → NoDollar e

theorem argToks_noDollar (h : FnPrint P) (i : Nat) : NoDollar (argToks P i) := by
  unfold argToks
  split
  · simp
  · rename_i n hn
    have : n ≠ c!"..." := by
      rintro rfl
      exact h.names (List.mem_of_getElem? hn)
    simp [this, h.fn]

theorem IdentExpr.noDollar (h : FnPrint P) (n : IdentExpr) : NoDollar (n.toks P) := by
  cases n with
  | arg i => exact argToks_noDollar h i
  | plain id => simp [IdentExpr.toks]
  | concat ids =>
    simp only [IdentExpr.toks, List.mem_append, not_or]
    refine ⟨⟨⟨by simp, by simp⟩, fun hm => ?_⟩, by simp⟩
    rcases sepToks_mem hm with h' | ⟨y, hy, h'⟩
    · simp at h'
    · simp only [List.mem_map] at hy
      obtain ⟨s, _, rfl⟩ := hy
      cases s with
      | arg i => exact argToks_noDollar h i h'
      | plain id => simp [IdentCont.toks] at h'
      | int n => simp [IdentCont.toks, LitInt.toks] at h'

theorem Ty.noDollar (h : FnPrint P) : ∀ t : Ty, NoDollar (t.toks P)
  | .builtIn b => by simp [Ty.toks]
  | .ident n _ => n.noDollar h
  | .path lc segs => RPath.noDollar ⟨lc, segs⟩
  | .ptr t => by simp [Ty.toks, Ty.noDollar h t]
  | .qualified (.ptr t) q => by
    simp only [Ty.toks]
    split <;> simp [Ty.noDollar h t]
  | .qualified (.builtIn t) q => by
    simp only [Ty.toks]
    exact Ty.noDollar h (.builtIn t)
  | .qualified (.ident t b) q => by
    simp only [Ty.toks]
    exact Ty.noDollar h (.ident t b)
  | .qualified (.path t s) q => by
    simp only [Ty.toks]
    exact Ty.noDollar h (.path t s)
  | .qualified (.qualified t s) q => by
    rw [Ty.toks]
    · exact Ty.noDollar h (.qualified t s)
    · simp

theorem charPtr_noDollar {b : List RTok} (h : NoDollar b) : NoDollar (charPtrToks P b) := by
  unfold charPtrToks staticRef
  split <;> simp [h]

theorem varToks_noDollar (h : FnPrint P) (n : IdentExpr) : NoDollar (varToks P n) := by
  unfold varToks
  repeat' split
  all_goals first
    | exact charPtr_noDollar (by simp [fileToks])
    | exact h.enums _ _ _ (by assumption)
    | exact IdentExpr.noDollar h _
    | simp

theorem LitString.noDollar (h : FnPrint P) (b : Bool) (s : LitString) : NoDollar (s.toks P b).2 := by
  have harr : ∀ xs : List (List RTok), (∀ x ∈ xs, NoDollar x) → NoDollar (arrayToks xs) := by
    intro xs hx hm
    simp only [arrayToks, List.mem_append] at hm
    rcases hm with (hm | hm) | hm
    · simp at hm
    · rcases sepToks_mem hm with h' | ⟨y, hy, h'⟩
      · simp at h'
      · exact hx y hy h'
    · simp at hm
  have hmap : ∀ (ws : List Nat) (s : Str), NoDollar (arrayToks (ws.map fun (w : Nat) => [RTok.int w s])) := by
    intro ws s
    apply harr
    simp
  have hw : NoDollar (wcharToks P) := by
    unfold wcharToks
    repeat' split
    · exact Ty.noDollar h _
    · simp
    · simp
  cases s with
  | ordinary bs =>
    simp only [LitString.toks, staticRef]
    repeat' split
    all_goals simp [RPath.noDollar]
  | utf8 s => cases b <;> simp [LitString.toks, constPtrToks, arrayTy]
  | utf16 s => cases b <;> simp [LitString.toks, constPtrToks, arrayTy] <;> exact hmap _ _
  | utf32 s =>
    have := hmap (s.map Char.toNat ++ [0]) c!"u32"
    simp only [List.map_append, List.map_map, List.map_cons, List.map_nil] at this
    cases b <;> simp [LitString.toks, constPtrToks, arrayTy] <;> exact this
  | wide ws =>
    have : NoDollar (arrayToks ((ws ++ [0]).map fun (w : Nat) => [RTok.int w []] ++ q!"as" ++ wcharToks P)) := by
      apply harr
      intro x hx
      simp only [List.mem_map] at hx
      obtain ⟨_, _, rfl⟩ := hx
      simp [hw]
    cases b
    · simp [LitString.toks, constPtrToks, arrayTy, hw]
      simpa using this
    · simpa [LitString.toks] using this

theorem Lit.noDollar (h : FnPrint P) (l : Lit) : NoDollar (l.toks P) := by
  cases l with
  | string s => exact s.noDollar h false
  | char c => cases c <;> simp only [Lit.toks, LitChar.toks] <;> split <;> simp
  | float f => simp [Lit.toks]
  | int i => simp [Lit.toks, LitInt.toks]

theorem parenIf_noDollar {b : Bool} {x : List RTok} (h : NoDollar x) : NoDollar (parenIf b x) := by
  cases b <;> simp [parenIf, parenToks, h]

/-- A node that is not a stringified parameter. -/
def NotStrArg : Expr → Prop
  | .stringify (.arg _) => False
  | _ => True

theorem stringify_noDollar {n : IdentExpr} (hn : NotStrArg (.stringify n)) : NoDollar (stringifyInner P n) := by
  cases n with
  | arg i => exact hn.elim
  | plain id =>
    simp only [stringifyInner]
    repeat' split
    all_goals simp [fileToks]
  | concat _ => simp [stringifyInner]

theorem kid0_noDollar {k : List (List RTok)} (h : ∀ x ∈ k, NoDollar x) : NoDollar (kid0 k) := by
  unfold kid0
  split
  · exact h _ (by simp)
  · simp

theorem kid1_noDollar {k : List (List RTok)} (h : ∀ x ∈ k, NoDollar x) : NoDollar (kid1 k) := by
  unfold kid1
  split
  · exact h _ (by simp)
  · simp

theorem unary_noDollar (op : UnOp) (x : Expr) {raw : List RTok} {k : List (List RTok)} (hr : NoDollar raw)
    (hk : ∀ y ∈ k, NoDollar y) : NoDollar (unaryToks P op x raw k) := by
  have h0 := kid0_noDollar hk
  have h1 := kid1_noDollar hk
  have hp : ∀ b, NoDollar (parenIf b raw) := fun b => parenIf_noDollar hr
  have hp0 : ∀ b, NoDollar (parenIf b (kid0 k)) := fun b => parenIf_noDollar h0
  cases op with
  | deref =>
    simp only [unaryToks, derefToks, derefStep, readVolatile]
    repeat' split
    all_goals simp [hr, h0, h1, hp, hp0]
  | _ =>
    simp only [unaryToks, volatileBlock, readVolatile]
    repeat' split
    all_goals simp [hr, h0, hp]

theorem binary_noDollar (l : Expr) (op : BinOp) (r : Expr) {lt rt : List RTok} {k : List (List RTok)} (hl : NoDollar lt)
    (hr : NoDollar rt) (hk : ∀ y ∈ k, NoDollar y) : NoDollar (binaryToks P l op r lt rt k) := by
  have h0 := kid0_noDollar hk
  have ho : op.text ≠ c!"$" := by cases op <;> decide
  have ho : c!"$" ≠ op.text := fun h => ho h.symm
  unfold binaryToks
  split
  · split
    · simp only [volatileBlock, readVolatile]
      split <;> simp [hr, h0]
    · simp [hl, hr, ho]
  · simp [parenIf_noDollar hl, parenIf_noDollar hr, ho]

theorem cast_noDollar (h : FnPrint P) (ty : Ty) (x : Expr) {raw : List RTok} (hr : NoDollar raw) :
    NoDollar (castToks P ty x raw) := by
  have ho : NoDollar (castOperand x raw) := by
    unfold castOperand
    split
    · unfold castLit
      repeat' split
      all_goals simp
    · exact parenIf_noDollar hr
  unfold castToks
  repeat' split
  · simp
  · simp
  · simp [hr]
  · simp [ho, Ty.noDollar h ty]

theorem zipWith_noDollar {f : Expr → List RTok → List RTok} : ∀ {as : List Expr} {xs : List (List RTok)},
    (∀ a x, a ∈ as → NoDollar x → NoDollar (f a x)) → (∀ x ∈ xs, NoDollar x) → ∀ y ∈ List.zipWith f as xs, NoDollar y
  | [], _, _, _ => by simp
  | _ :: _, [], _, _ => by simp
  | a :: as, x :: xs, hf, hx => by
    simp only [List.zipWith_cons_cons, List.mem_cons, forall_eq_or_imp]
    exact ⟨hf a x (by simp) (hx x (by simp)),
      zipWith_noDollar (fun a x ha => hf a x (by simp [ha])) (fun y hy => hx y (by simp [hy]))⟩

theorem Expr.AllL_mem {p : Expr → Prop} : ∀ {es : List Expr}, Expr.AllL p es → ∀ {e}, e ∈ es → e.All p
  | a :: es, h, e, he => by
    rcases List.mem_cons.1 he with rfl | he
    · exact h.1
    · exact Expr.AllL_mem h.2 he

mutual
theorem Expr.noDollar (h : FnPrint P) : ∀ e : Expr, e.All NotStrArg → NoDollar (e.toks P) ∧ ∀ k ∈ e.kids P, NoDollar k
  | .var n, _ => by simpa [Expr.toks, Expr.kids] using varToks_noDollar h n
  | .lit l, _ => by simpa [Expr.toks, Expr.kids] using l.noDollar h
  | .sizeOf t, _ => by simp [Expr.toks, Expr.kids, t.noDollar h]
  | .stringify n, hn => by
    refine ⟨?_, by simp [Expr.kids]⟩
    simp only [Expr.toks]
    exact charPtr_noDollar (by simp [stringify_noDollar hn])
  | .cast t e, ha => ⟨by simpa only [Expr.toks] using cast_noDollar h t e (Expr.noDollar h e ha.2).1, by simp [Expr.kids]⟩
  | .un op e, ha => by
    have ih := Expr.noDollar h e ha.2
    exact ⟨by simpa only [Expr.toks] using unary_noDollar op e ih.1 ih.2, by simpa [Expr.kids] using ih.1⟩
  | .bin l op r, ha => by
    have hl := Expr.noDollar h l ha.2.1
    have hr := Expr.noDollar h r ha.2.2
    exact ⟨by simpa only [Expr.toks] using binary_noDollar l op r hl.1 hr.1 hl.2, by simp [Expr.kids, hl.1, hr.1]⟩
  | .ternary c t f, ha => by
    have hc := Expr.noDollar h c ha.2.1
    have ht := Expr.noDollar h t ha.2.2.1
    have hf := Expr.noDollar h f ha.2.2.2
    exact ⟨by simp [Expr.toks, hc.1, ht.1, hf.1], by simp [Expr.kids]⟩
  | .call n as, ha => by
    refine ⟨?_, by simp [Expr.kids]⟩
    have ih := Expr.noDollarL h as ha.2
    have hz : ∀ y ∈ List.zipWith (callArgToks P (!isOffsetof n as)) as (Expr.toksL P as), NoDollar y := by
      apply zipWith_noDollar _ ih
      intro a x _ hx
      unfold callArgToks argNameToks
      repeat' split
      all_goals simp [hx, parenToks]
    simp only [Expr.toks, callToks, List.mem_append, not_or]
    refine ⟨⟨⟨?_, by simp⟩, fun hm => ?_⟩, by simp⟩
    · split
      · simp
      · exact n.noDollar h
    · rcases sepToks_mem hm with h' | ⟨y, hy, h'⟩
      · simp at h'
      · exact hz y hy h'
  | .concatStr ps, ha => by
    refine ⟨?_, by simp [Expr.kids]⟩
    have ih := Expr.noDollarL h ps ha.2
    have hz : ∀ y ∈ List.zipWith (concatPartToks P) ps (Expr.toksL P ps), NoDollar y := by
      apply zipWith_noDollar _ ih
      intro a x hmem hx
      unfold concatPartToks
      split
      · split
        · simp [fileToks]
        · exact hx
      · exact stringify_noDollar ((Expr.AllL_mem ha.2 hmem).self)
      · exact hx
    simp only [Expr.toks]
    apply charPtr_noDollar
    simp only [List.mem_append, not_or]
    refine ⟨⟨⟨⟨⟨by simp, by simp⟩, fun hm => ?_⟩, by simp⟩, by simp⟩, by simp⟩
    rcases sepToks_mem hm with h' | ⟨y, hy, h'⟩
    · simp at h'
    · exact hz y hy h'
theorem Expr.noDollarL (h : FnPrint P) : ∀ es : List Expr, Expr.AllL NotStrArg es → ∀ k ∈ Expr.toksL P es, NoDollar k
  | [], _ => by simp [Expr.toksL]
  | e :: es, ha => by
    simp only [Expr.toksL, List.mem_cons, forall_eq_or_imp]
    exact ⟨(Expr.noDollar h e ha.1).1, Expr.noDollarL h es ha.2⟩
end

theorem commaToks_noDollar {xs : List (List RTok)} (h : ∀ x ∈ xs, NoDollar x) : NoDollar (commaToks xs) := by
  simp only [commaToks, List.mem_flatMap, not_exists, not_and]
  intro x hx
  simp [h x hx]

theorem matchConstraints_all {p : Expr → Prop} : ∀ (l : List (RegConstraint × Expr)) (outs : List (Dir × RegConstraint × Expr))
    (ins : List (RegConstraint × Expr)) {o i}, matchConstraints l outs ins = some (o, i) → (∀ o ∈ outs, p o.2.2) →
    (∀ i ∈ ins, p i.2) → (∀ x ∈ o, p x.2.2) ∧ ∀ x ∈ i, p x.2
  | [], outs, ins, o, i, h, ho, hi => by
    cases h
    exact ⟨ho, hi⟩
  | (.digit d, _) :: rest, outs, ins, o, i, h, ho, hi => by
    simp only [matchConstraints] at h
    split at h
    · exact matchConstraints_all rest outs ins h ho hi
    · rename_i r e hd
      split at h
      · refine matchConstraints_all rest _ _ h (fun x hx => ?_) (fun x hx => hi x (List.mem_of_mem_eraseIdx hx))
        rcases List.mem_or_eq_of_mem_set hx with hx | rfl
        · exact ho x hx
        · have := ho _ (List.mem_of_getElem? hd)
          exact this
      · cases h
  | (.reg, _) :: rest, outs, ins, o, i, h, ho, hi | (.regAbcd, _) :: rest, outs, ins, o, i, h, ho, hi
  | (.regByte, _) :: rest, outs, ins, o, i, h, ho, hi | (.freg, _) :: rest, outs, ins, o, i, h, ho, hi =>
    matchConstraints_all rest outs ins h ho hi

theorem optToks_noDollar {opts : List (List RTok)} (h : ∀ y ∈ opts, NoDollar y) :
    NoDollar (if opts.isEmpty then [] else q!"options (" ++ sepToks q!"," opts ++ q!") ,") := by
  split
  · simp
  · simp only [List.mem_append, not_or]
    refine ⟨⟨by simp, fun hm => ?_⟩, by simp⟩
    rcases sepToks_mem hm with h' | ⟨y, hy, h'⟩
    · simp at h'
    · exact h y hy h'

theorem Asm.noDollar (h : FnPrint P) (a : Asm) (ha : a.All NotStrArg) : NoDollar (a.toks P) := by
  unfold Asm.toks
  split
  · simp
  · rename_i o i hm
    obtain ⟨ho, hi⟩ := matchConstraints_all (p := fun e => NoDollar (e.toks P)) _ _ _ hm
      (fun x hx => (Expr.noDollar h _ (ha.1 x hx)).1) (fun x hx => (Expr.noDollar h _ (ha.2 x hx)).1)
    have hr : ∀ r : RegConstraint, NoDollar r.toks := by intro r; cases r <;> simp [RegConstraint.toks]
    have hd : ∀ r : Dir, NoDollar r.toks := by intro r; cases r <;> simp [Dir.toks]
    simp only [List.mem_append, not_or]
    refine ⟨⟨⟨⟨⟨⟨⟨⟨⟨⟨by simp, by simp⟩, ?_⟩, by simp⟩, commaToks_noDollar ?_⟩, commaToks_noDollar ?_⟩, commaToks_noDollar ?_⟩, commaToks_noDollar ?_⟩, ?_⟩, ?_⟩, by simp⟩
    · split <;> simp
    · simp
    · intro x hx
      obtain ⟨⟨d, r, e⟩, hmem, rfl⟩ := List.mem_map.1 hx
      simp [hd, hr, ho _ hmem]
    · intro x hx
      obtain ⟨⟨r, e⟩, hmem, rfl⟩ := List.mem_map.1 hx
      simp [hr, hi _ hmem]
    · intro x hx
      obtain ⟨e, hmem, rfl⟩ := List.mem_map.1 hx
      simp
    · split <;> simp
    · refine optToks_noDollar fun y hy => ?_
      have : y = q!"att_syntax" ∨ y = q!"nomem" ∨ y = q!"preserves_flags" := by
        rcases List.mem_append.1 hy with hy | hy
        · split at hy <;> simp at hy
          exact .inl hy
        · split at hy
          · simp at hy
          · rcases List.mem_append.1 hy with hy | hy
            · split at hy <;> simp at hy
              exact .inr (.inl hy)
            · split at hy <;> simp at hy
              exact .inr (.inr hy)
      rcases this with rfl | rfl | rfl <;> simp

theorem FunctionDecl.noDollar (h : FnPrint P) (d : FunctionDecl) : NoDollar (d.toks P) := by
  simp only [FunctionDecl.toks, List.mem_append, not_or]
  refine ⟨⟨⟨⟨⟨⟨⟨⟨by simp, by simp⟩, by simp⟩, d.name.noDollar h⟩, by simp⟩, fun hm => ?_⟩, by simp⟩, d.retTy.noDollar h⟩, by simp⟩
  rcases sepToks_mem hm with h' | ⟨y, hy, h'⟩
  · simp at h'
  · obtain ⟨⟨t, n⟩, hmem, rfl⟩ := List.mem_map.1 hy
    simp [n.noDollar h, t.noDollar h] at h'

mutual
theorem Stmt.noDollar (h : FnPrint P) : ∀ s : Stmt, s.All NotStrArg → NoDollar (s.toks P)
  | .asm a, ha => by simp [Stmt.toks, a.noDollar h ha]
  | .expr e, ha => by simp [Stmt.toks, (e.noDollar h ha).1]
  | .fnDecl d, _ => by simpa [Stmt.toks] using d.noDollar h
  | .varDecl d, ha => by
    have := (Expr.noDollar h d.rhs ha).1
    cases hs : d.isStatic <;> simp [Stmt.toks, VarDecl.toks, this, hs, d.name.noDollar h, d.ty.noDollar h]
  | .block ss, ha => by
    have ih := Stmt.noDollarL h ss ha
    simp only [Stmt.toks, List.mem_append, List.mem_flatten, not_or, not_exists, not_and]
    exact ⟨⟨by simp, ih⟩, by simp⟩
  | .ite c t [], ha => by
    have hc := (c.noDollar h ha.1).1
    have ht := Stmt.noDollarL h t ha.2.1
    rw [Stmt.toks]
    simp only [List.mem_append, List.mem_flatten, not_or, not_exists, not_and]
    exact ⟨⟨⟨⟨⟨by simp, hc⟩, by simp⟩, ht⟩, by simp⟩, by simp⟩
  | .ite c t (s :: ss), ha => by
    have hc := (c.noDollar h ha.1).1
    have ht := Stmt.noDollarL h t ha.2.1
    have hf := Stmt.noDollarL h (s :: ss) ha.2.2
    rw [Stmt.toks.eq_7 _ _ _ _ (by simp)]
    simp only [List.mem_append, List.mem_flatten, not_or, not_exists, not_and]
    refine ⟨⟨⟨⟨⟨by simp, hc⟩, by simp⟩, ht⟩, by simp⟩, ⟨by simp, fun hm => ?_⟩, by simp⟩
    rcases sepToks_mem hm with h' | ⟨y, hy, h'⟩
    · simp at h'
    · exact hf y hy h'
  | .doWhile b c, ha => by
    have hc := (c.noDollar h ha.2).1
    have hb := Stmt.noDollarL h b ha.1
    simp only [Stmt.toks, List.mem_append, List.mem_flatten, not_or, not_exists, not_and]
    exact ⟨⟨⟨⟨by simp, hb⟩, by simp⟩, hc⟩, by simp⟩
theorem Stmt.noDollarL (h : FnPrint P) : ∀ ss : List Stmt, Stmt.AllL NotStrArg ss → ∀ k ∈ Stmt.toksL P ss, NoDollar k
  | [], _ => by simp [Stmt.toksL]
  | s :: ss, ha => by
    simp only [Stmt.toksL, List.mem_cons, forall_eq_or_imp]
    exact ⟨Stmt.noDollar h s ha.1, Stmt.noDollarL h ss ha.2⟩
end

theorem fnParams_noDollar (h : FnPrint P) : ∀ (as : List Str) (ts : List ArgTy), ∀ x ∈ fnParams P as ts, NoDollar x
  | [], _ => by simp [fnParams]
  | _ :: _, [] => by simp [fnParams]
  | a :: as, t :: ts => by
    have ih := fnParams_noDollar h as ts
    cases t <;> simp only [fnParams, List.mem_cons, forall_eq_or_imp] <;> refine ⟨?_, ih⟩
    case known t => simp [t.noDollar h]
    all_goals simp
end

/-- Stringified parameters are marked as parameters of a macro. -/
def StrMarked (st : LState) : Expr → Prop
  | .stringify (.arg i) => ∃ t, st.argTypes[i]? = some t ∧ t.isMarked = true
  | _ => True

theorem NodeInv.strMarked (C : Ctx) (L : Loc) : NodeInv C L StrMarked where
  mono := by
    intro st st' e h hp
    cases e with
    | stringify n =>
      cases n with
      | arg i =>
        obtain ⟨t, ht, hm⟩ := hp
        obtain ⟨b, hb, hle⟩ := h.2.1 i t ht
        refine ⟨b, hb, ?_⟩
        cases t <;> simp_all [ArgTy.Le, ArgTy.isMarked]
      | _ => trivial
    | _ => trivial
  var := by intros; trivial
  call := by intros; trivial
  stringify := by
    intro n st st' t h
    cases n with
    | arg i =>
      simp only [finishStringify] at h
      split at h
      · cases h
      · cases h
        exact ⟨.ident, by assumption, rfl⟩
      · rename_i hn ht
        cases h
        have : i < st.argTypes.length := (List.getElem?_eq_some_iff.1 ht).1
        exact ⟨.expr, by simp [LState.setArg, this], rfl⟩
    | _ => trivial
  cast := by intros; trivial
  lit := by intros; trivial
  concat := by intros; trivial
  sizeOf := by intros; trivial
  un := by intros; trivial
  bin := by intros; trivial
  ternary := by intros; trivial

/-- **C42.**  A generated function contains no metavariable: `$` occurs neither in its parameters
nor in its return type or body.  The code that stands for the variants of enumerations comes from
the caller and must not contain `$` itself; the parser only accepts `...` as the last parameter. -/
theorem C42_no_metavariables (C : Ctx) (m : FnMacro) (name : Str) (params : List (List RTok))
    (ret : Option (List RTok)) (body : List RTok) (henum : ∀ id t e, C.resolveEnumVariant id = some (t, e) → NoDollar e)
    (hdots : c!"..." ∉ m.args.dropLast) (h : m.Generates C (.ok (.fn name params ret body))) :
    NoDollar (GenFn.toks (.fn name params ret body)) := by
  obtain ⟨tys, b, st, r, N, ha, hN, ho⟩ := h.finished
  obtain ⟨_, ⟨_, h2⟩ | ⟨hm, h2⟩⟩ := fnOut_ok ho
  · cases h2
  simp only [asMacro, Bool.or_eq_false_iff, Option.isSome_eq_false_iff, Bool.not_eq_false', List.all_eq_true, namesVariadic,
    decide_eq_false_iff_not, Option.isNone_eq_false_iff] at hm
  obtain ⟨⟨⟨⟨_, hfn⟩, hv⟩, hk⟩, hr⟩ := hm
  have hP : FnPrint ⟨C, fnLoc m.args, false⟩ := by
    refine ⟨rfl, fun hmem => ?_, henum⟩
    rcases List.eq_nil_or_concat m.args with h0 | ⟨l, a, h0⟩
    · simp [fnLoc, h0] at hmem
    · simp only [fnLoc, h0, List.concat_eq_append, List.mem_append, List.mem_singleton] at hmem
      rw [h0] at hdots hv
      simp at hdots hv
      rcases hmem with hmem | hmem
      · exact hdots hmem
      · exact hv hmem.symm
  have hinv := (MacroBody.finish_inv (NodeInv.strMarked C (fnLoc m.args)) (Expr.finish_inv (NodeInv.strMarked C (fnLoc m.args)) N) m.body ⟨tys, false⟩).2
  rw [hN N (Nat.le_refl _)] at hinv
  have hall : ∀ e, StrMarked st e → NotStrArg e := by
    intro e he
    cases e with
    | stringify n =>
      cases n with
      | arg i =>
        obtain ⟨t, ht, hm⟩ := he
        have := hk t (List.mem_of_getElem? ht)
        cases t <;> simp_all [ArgTy.isKnown, ArgTy.isMarked]
      | _ => trivial
    | _ => trivial
  have hbody : NoDollar (b.toks ⟨C, fnLoc m.args, false⟩) := by
    cases b with
    | stmt s => exact s.noDollar hP (Stmt.All.mono hall s (hinv _ rfl))
    | expr e => exact (e.noDollar hP (Expr.All.mono hall e (hinv _ rfl))).1
  cases h2
  have hps := fnParams_noDollar hP m.args st.argTypes
  simp only [GenFn.toks, List.mem_append, not_or]
  refine ⟨⟨⟨⟨⟨⟨⟨⟨⟨⟨⟨by simp, by simp⟩, by simp⟩, by simp⟩, by simp⟩, fun hm => ?_⟩, by simp⟩, ?_⟩, by simp⟩, hbody⟩, ?_⟩, by simp⟩
  · rcases sepToks_mem hm with h' | ⟨y, hy, h'⟩
    · simp at h'
    · obtain ⟨x, hx, rfl⟩ := List.mem_map.1 hy
      simp [hps x hx] at h'
  · unfold retToks
    split
    · rename_i t ht
      split at ht
      · cases ht
      · split at ht
        · cases ht
        · cases ht
          simp [Ty.noDollar hP]
    · simp
  · split <;> simp

/-- `F(x, y) x ? g(y) : 0` with known types has no metavariables; with `#x` a macro is generated. -/
example : FnMacro.generate 5 typedCtx ⟨c!"F", [c!"x", c!"y"], .expr (.ternary (.var (.arg 0)) (.call (.plain c!"g") [.var (.arg 1)])
      (.lit (.int ⟨0, none⟩)))⟩ = .ok (.fn c!"F" [q!"x : * const c_char", q!"y : c_int"] (some q!"c_long")
        (q!"if x !=" ++ [.int 0 []] ++ q!"{ g ( y ) } else {" ++ [.int 0 []] ++ q!"}")) ∧
    FnMacro.generate 5 typedCtx ⟨c!"F", [c!"x"], .expr (.stringify (.arg 0))⟩ = .ok (.macro c!"F" [q!"$ x : expr"]
      (q!"{ const BYTES : & [ u8 ] = concat ! ( stringify ! ( $ x ) ," ++ [.char '\x00'] ++
        q!") . as_bytes ( ) ; BYTES . as_ptr ( ) as * const c_char }")) := by
  decide +kernel

end CMacro
