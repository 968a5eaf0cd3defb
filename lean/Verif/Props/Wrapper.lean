import Verif.Props.FnTotal

/-!
# Properties C71, C72: types supplied by the user, and calls of known functions
-/

namespace CMacro
open Spec

/-! ## C71 -/

/-- **C71**, in full: a parameter of a generated function has the type that the user of the crate declares for it. -/
def C71_statement : Prop :=
  ∀ (C : Ctx) (m : FnMacro) (name : Str) (params : List (List RTok)) (ret : Option (List RTok)) (body : List RTok),
    m.Generates C (.ok (.fn name params ret body)) →
    ∀ (i : Nat) (a : Str) (t : RTy), m.args[i]? = some a → C.macroArgTy m.name a = some t →
      params[i]? = some ([.id a] ++ q!":" ++ t.toks)

/-- **C71** for types that are built from paths by pointers, without generic arguments, and other than some names of
built-in types (`StableTy`). -/
theorem C71_partial (C : Ctx) (m : FnMacro) (name : Str) (params : List (List RTok)) (ret : Option (List RTok)) (body : List RTok)
    (h : m.Generates C (.ok (.fn name params ret body))) (i : Nat) (a : Str) (t : RTy) (ha : m.args[i]? = some a)
    (ht : C.macroArgTy m.name a = some t) (hs : StableTy C.ffiPrefix t) :
    params[i]? = some ([.id a] ++ q!":" ++ t.toks) := by
  obtain ⟨rfl, _, _, _, h5, _⟩ := C41_function_only_if_typed C m name params ret body h
  obtain ⟨_, _, h6⟩ := h5 i a ha
  exact (h6 t ht).2 hs

/-- A context in which all parameters have the type `t`. -/
def oneTyCtx (t : RTy) : Ctx := { Ctx.unit asciiEnv with macroArgTy := fun _ _ => some t }

/-- `#define ID(x) x`. -/
def idMacro : FnMacro := ⟨c!"ID", [c!"x"], .expr (.var (.arg 0))⟩

/-- What is generated for `ID` with a parameter of a type. -/
theorem id_generates (t : RTy) (T : Ty) (hT : Ty.fromRust none t = .ok T)
    (hok : toksOk asciiEnv (GenFn.fn c!"ID" [q!"x :" ++ T.toks ⟨oneTyCtx t, fnLoc [c!"x"], false⟩]
      (retToks ⟨oneTyCtx t, fnLoc [c!"x"], false⟩ (some T)) (q!"x")).toks = true) :
    idMacro.Generates (oneTyCtx t) (.ok (.fn c!"ID" [q!"x :" ++ T.toks ⟨oneTyCtx t, fnLoc [c!"x"], false⟩]
      (retToks ⟨oneTyCtx t, fnLoc [c!"x"], false⟩ (some T)) (q!"x"))) := by
  have ha : argTypes (oneTyCtx t) c!"ID" [c!"x"] = .ok [.known T] := by
    simp only [argTypes, oneTyCtx, Ctx.unit, hT]
  have hg := fnGenerates_of 1 (oneTyCtx t) c!"ID" [c!"x"] (.var (.arg 0)) [.known T] ha (by simp [Expr.finish, finishStep, finishVar, IdentExpr.finish, LState.argTy])
  rw [FnMacro.generate_eq 1 _ _ ha] at hg
  have : fnOut (oneTyCtx t) idMacro (idMacro.body.finish (oneTyCtx t) (Expr.finish (oneTyCtx t) (fnLoc [c!"x"]) 1) ⟨[.known T], false⟩) =
      .ok (.fn c!"ID" [q!"x :" ++ T.toks ⟨oneTyCtx t, fnLoc [c!"x"], false⟩] (retToks ⟨oneTyCtx t, fnLoc [c!"x"], false⟩ (some T)) (q!"x")) := by
    rw [show idMacro.body.finish (oneTyCtx t) (Expr.finish (oneTyCtx t) (fnLoc [c!"x"]) 1) ⟨[.known T], false⟩ =
      ⟨.expr (.var (.arg 0)), ⟨[.known T], false⟩, .ok (some T)⟩ from rfl]
    unfold fnOut
    dsimp only
    rw [show (false || ((oneTyCtx t).function idMacro.name).isSome || namesVariadic idMacro.args || !([ArgTy.known T].all ArgTy.isKnown) ||
      (some T).isNone) = false from rfl]
    exact if_pos hok
  exact this ▸ hg

/-- The bindings of a header declare a callback as `Option < fn ( ) >`; the generated function has a parameter of the type
`Option`. -/
theorem C71_false : ¬ C71_statement := by
  intro h
  have hg := id_generates (.path (.rich false c!"Option < fn ( ) >") ⟨false, [c!"Option"]⟩) (.ident (.plain c!"Option") false) rfl
    (by decide +kernel)
  have := h _ _ _ _ _ _ hg 0 c!"x" _ rfl rfl
  exact absurd this (by decide)

/-- A pointer to `()` becomes a pointer to `c_void`. -/
theorem C71_false_unit : ¬ C71_statement := by
  intro h
  have hg := id_generates (.ptr true .unit) (.ptr (.builtIn .void)) rfl (by decide +kernel)
  exact absurd (h _ _ _ _ _ _ hg 0 c!"x" _ rfl rfl) (by decide)

/-- `f128` becomes `f64`. -/
theorem C71_false_f128 : ¬ C71_statement := by
  intro h
  have hg := id_generates (.path .plain ⟨false, [c!"f128"]⟩) (.builtIn .longDouble) rfl (by decide +kernel)
  exact absurd (h _ _ _ _ _ _ hg 0 c!"x" _ rfl rfl) (by decide)

/-- `<S as T>::Item` becomes `T::Item`. -/
theorem C71_false_self : ¬ C71_statement := by
  intro h
  have hg := id_generates (.path (.rich true c!"< S as T > :: Item") ⟨false, [c!"T", c!"Item"]⟩) (.path false [c!"T", c!"Item"]) rfl
    (by decide +kernel)
  exact absurd (h _ _ _ _ _ _ hg 0 c!"x" _ rfl rfl) (by decide)

/-- A pointer to a pointer to a `std::fs::File`. -/
example : ∃ params ret body, idMacro.Generates (oneTyCtx (.ptr false (.ptr true (.path .plain ⟨true, [c!"std", c!"fs", c!"File"]⟩))))
      (.ok (.fn c!"ID" params ret body)) ∧
    params[0]? = some (q!"x : * const * mut :: std :: fs :: File") := by
  have hg := id_generates (.ptr false (.ptr true (.path .plain ⟨true, [c!"std", c!"fs", c!"File"]⟩))) _ rfl (by decide +kernel)
  exact ⟨_, _, _, hg, C71_partial _ _ _ _ _ _ hg 0 c!"x" _ rfl rfl (.ptr (.ptr (.path rfl (by decide))))⟩

/-! ## C72 -/

/-- An argument that is a parameter of the macro, of which there are `n`, or an integer. -/
def Spec.SimpleArg (n : Nat) (e : Expr) : Prop := (∃ i, i < n ∧ e = .var (.arg i)) ∨ ∃ v : LitInt, e = .lit (.int v)

/-- The text of such an argument. -/
def Spec.argText (xs : List Str) : Expr → List RTok
  | .var (.arg i) => [.id (xs.getD i [])]
  | .lit (.int v) => [.int v.value.toInt []]
  | _ => []

/-- The type declared for the first argument that is the parameter `i`. -/
def Spec.passedAs (i : Nat) : List Expr → List RTy → Option RTy
  | e :: es, t :: ts => if e = .var (.arg i) then some t else passedAs i es ts
  | _, _ => none

/-- A macro `name` with parameters `xs` that calls the known function `f` with its parameters and with integers. -/
structure Spec.CallsKnown (C : Ctx) (name : Str) (xs : List Str) (f : Str) (es : List Expr) (ts : List RTy) (r : RTy) : Prop where
  known : C.function f = some (ts, r)
  count : ts.length = es.length
  args : ∀ e ∈ es, SimpleArg xs.length e
  new : C.function name = none
  all : ∀ i < xs.length, Expr.var (.arg i) ∈ es
  free : ∀ x ∈ xs, C.macroArgTy name x = none
  dots : c!"..." ∉ xs
  offset : f = c!"__builtin_offsetof" → es.length ≠ 2

/-- **C72**, in full: the generated function has for each parameter the type of the argument it is passed as, returns what the
known function returns, and calls it with the arguments in their order. -/
def C72_statement : Prop :=
  ∀ (C : Ctx) (name : Str) (xs : List Str) (f : Str) (es : List Expr) (ts : List RTy) (r : RTy),
    C.env.Lawful → CalmCtx C → Word C.env name → Word C.env f → (∀ x ∈ xs, Word C.env x) → Spec.CallsKnown C name xs f es ts r →
    (∀ t ∈ ts, StableTy C.ffiPrefix t) → StableTy C.ffiPrefix r → r ≠ .prefixed C.ffiPrefix c!"c_void" →
    ∃ params, FnMacro.Generates C ⟨name, xs, .expr (.call (.plain f) es)⟩
        (.ok (.fn name params (some r.toks) ([.id f] ++ q!"(" ++ sepToks q!"," (es.map (argText xs)) ++ q!")"))) ∧
      params.length = xs.length ∧
      ∀ (j i : Nat) (x : Str) (t : RTy), es[j]? = some (.var (.arg i)) → xs[i]? = some x → ts[j]? = some t →
        params[i]? = some ([.id x] ++ q!":" ++ t.toks)

theorem stable_ok {ffi : Option RPath} {t : RTy} (h : StableTy ffi t) : ∃ T, Ty.fromRust ffi t = .ok T := by
  have hp : ∀ k p, ∃ T, Ty.fromRust ffi (.path k p) = .ok T := by
    intro k p
    simp only [Ty.fromRust]
    split
    · exact ⟨_, rfl⟩
    · split <;> exact ⟨_, rfl⟩
  induction h with
  | ptr _ ih =>
    obtain ⟨T, hT⟩ := ih
    simp only [Ty.fromRust, hT]
    exact ⟨_, rfl⟩
  | _ => exact hp _ _

theorem argTypes_free {C : Ctx} {name : Str} : ∀ {xs : List Str}, (∀ x ∈ xs, C.macroArgTy name x = none) →
    argTypes C name xs = .ok (xs.map fun _ => .unknown)
  | [], _ => rfl
  | x :: xs, h => by
    simp only [argTypes, h x List.mem_cons_self, argTypes_free (xs := xs) fun y hy => h y (List.mem_cons_of_mem _ hy), List.map_cons]

theorem finishArgs_simple {C : Ctx} {L : Loc} {n k : Nat} {st : LState} (hst : st.argTypes.length = n) : ∀ {es : List Expr},
    (∀ e ∈ es, Spec.SimpleArg n e) → finishArgs (Expr.finish C L (k + 1)) es st = (es, st, .ok ())
  | [], _ => rfl
  | e :: es, h => by
    have ih := finishArgs_simple (C := C) (L := L) (k := k) hst (es := es) fun x hx => h x (List.mem_cons_of_mem _ hx)
    have he : ∃ t, Expr.finish C L (k + 1) e st = ⟨e, st, .ok t⟩ := by
      rcases h e List.mem_cons_self with ⟨i, hi, rfl⟩ | ⟨v, rfl⟩
      · obtain ⟨a, ha⟩ : ∃ a, st.argTypes[i]? = some a := ⟨_, List.getElem?_eq_getElem (by omega)⟩
        simp only [Expr.finish, finishStep, finishVar, IdentExpr.finish, LState.argTy, ha]
        cases a <;> exact ⟨_, rfl⟩
      · exact ⟨none, rfl⟩
    obtain ⟨t, he⟩ := he
    simp only [finishArgs, he, ih]

theorem inferArgs_simple {C : Ctx} {n : Nat} : ∀ {es : List Expr} {ts : List RTy} {st : LState}, st.argTypes.length = n →
    (∀ e ∈ es, Spec.SimpleArg n e) → (∀ t ∈ ts, ∃ T, Ty.fromRust C.ffiPrefix t = .ok T) →
    ∃ st' : LState, inferArgs C es ts st = (st', .ok ()) ∧ st'.exportAsMacro = st.exportAsMacro ∧ st'.argTypes.length = n ∧
      ∀ i a, st.argTypes[i]? = some a → (a ≠ .unknown → st'.argTypes[i]? = some a) ∧
        (a = .unknown → ∀ t T, Spec.passedAs i es ts = some t → Ty.fromRust C.ffiPrefix t = .ok T → st'.argTypes[i]? = some (.known T))
  | [], ts, st, hn, _, _ => ⟨st, by simp [inferArgs], rfl, hn, fun i a h => ⟨fun _ => h, by simp [Spec.passedAs]⟩⟩
  | e :: es, [], st, hn, _, _ => ⟨st, by simp [inferArgs], rfl, hn, fun i a h => ⟨fun _ => h, by simp [Spec.passedAs]⟩⟩
  | e :: es, t :: ts, st, hn, hs, ht => by
    have ih := fun (st' : LState) (h : st'.argTypes.length = n) => inferArgs_simple (C := C) (es := es) (ts := ts) h
      (fun x hx => hs x (List.mem_cons_of_mem _ hx)) (fun x hx => ht x (List.mem_cons_of_mem _ hx))
    rcases hs e List.mem_cons_self with ⟨i, hi, rfl⟩ | ⟨v, rfl⟩
    · obtain ⟨a, ha⟩ : ∃ a, st.argTypes[i]? = some a := ⟨_, List.getElem?_eq_getElem (by omega)⟩
      by_cases hu : a = .unknown
      · subst hu
        obtain ⟨T, hT⟩ := ht t List.mem_cons_self
        obtain ⟨st', h1, h2, h3, h4⟩ := ih (st.setArg i (.known T)) (by simpa [LState.setArg] using hn)
        refine ⟨st', by simp only [inferArgs, Expr.asArg, LState.argTy, ha, hT, h1], h2, h3, fun j b hb => ?_⟩
        by_cases hij : i = j
        · subst hij
          rw [ha] at hb
          cases hb
          have hk := (h4 i (.known T) (by simp [LState.setArg, show i < st.argTypes.length by omega])).1 (by simp)
          refine ⟨fun h => absurd rfl h, fun _ u U hu hU => ?_⟩
          simp only [Spec.passedAs, if_true, Option.some.injEq] at hu
          subst hu
          rw [hT] at hU
          cases hU
          exact hk
        · have := h4 j b (by simp [LState.setArg, List.getElem?_set, hij, hb])
          refine ⟨this.1, fun hb u U hu => this.2 hb u U ?_⟩
          simpa [Spec.passedAs, hij] using hu
      · obtain ⟨st', h1, h2, h3, h4⟩ := ih st hn
        refine ⟨st', ?_, h2, h3, fun j b hb => ?_⟩
        · simp only [inferArgs, Expr.asArg, LState.argTy, ha]
          cases a with
          | unknown => exact absurd rfl hu
          | _ => exact h1
        · refine ⟨(h4 j b hb).1, fun hbu u U hu' => (h4 j b hb).2 hbu u U ?_⟩
          have : i ≠ j := by rintro rfl; rw [ha] at hb; cases hb; exact hu hbu
          simpa [Spec.passedAs, this] using hu'
    · obtain ⟨st', h1, h2, h3, h4⟩ := ih st hn
      refine ⟨st', by simp only [inferArgs, Expr.asArg, h1], h2, h3, fun j b hb => ⟨(h4 j b hb).1, fun hbu u U hu => (h4 j b hb).2 hbu u U ?_⟩⟩
      simpa [Spec.passedAs] using hu

theorem stable_void {C : Ctx} {r : RTy} (h : StableTy C.ffiPrefix r) (hr : Ty.fromRust C.ffiPrefix r = .ok (.builtIn .void)) :
    r = .prefixed C.ffiPrefix c!"c_void" := by
  cases h with
  | @bare s hf h1 h2 =>
    simp only [Ty.fromRust, BuiltInType.fromRust, hf, PathKind.hasSelf, Bool.false_eq_true, if_false] at hr
    split at hr
    · rename_i b hb
      cases hr
      have := ofRustName_some hb
      simp [rustNames] at this
      rw [this, hf]
      rfl
    · cases hr
  | @path p hf h2 =>
    simp only [Ty.fromRust, BuiltInType.fromRust, hf, PathKind.hasSelf, Bool.false_eq_true, if_false] at hr
    split at hr
    · rename_i b hb
      split at hb
      · rename_i hs
        simp only [Option.some.injEq] at hs
        rw [hs] at h2; simp at h2
      · cases hb
    · split at hr <;> cases hr
  | @prefixed p s hf h1 =>
    simp only [Ty.fromRust, BuiltInType.fromRust, hf, PathKind.hasSelf, Bool.false_eq_true, if_false, if_true, stripPrefix_append] at hr
    split at hr
    · rename_i b hb
      cases hr
      have := ofRustName_some hb
      simp [rustNames] at this
      rw [this, hf]
      rfl
    · split at hr <;> cases hr
  | @other f p hf hs hn =>
    simp only [Ty.fromRust, BuiltInType.fromRust, hf, PathKind.hasSelf, Bool.false_eq_true, if_false, stripPrefix_none hn, ite_self] at hr
    split at hr <;> cases hr
  | ptr _ =>
    simp only [Ty.fromRust] at hr
    split at hr
    · split at hr <;> cases hr
    · cases hr

theorem passedAs_some {i : Nat} : ∀ {es : List Expr} {ts : List RTy}, ts.length = es.length → Expr.var (.arg i) ∈ es →
    ∃ (j : Nat) (t : RTy), Spec.passedAs i es ts = some t ∧ es[j]? = some (Expr.var (.arg i)) ∧ ts[j]? = some t
  | e :: es, t :: ts, hl, hm => by
    by_cases he : e = .var (.arg i)
    · exact ⟨0, t, by simp [Spec.passedAs, he], by simp [he], rfl⟩
    · obtain ⟨j, u, h1, h2, h3⟩ := passedAs_some (es := es) (ts := ts) (by simpa using hl)
        ((List.mem_cons.1 hm).resolve_left fun h => he h.symm)
      exact ⟨j + 1, u, by simp [Spec.passedAs, he, h1], by simpa using h2, by simpa using h3⟩
  | [], _, _, hm => by simp at hm
  | _ :: _, [], hl, _ => by simp at hl

theorem callText_simple {P : PCtx} {xs : List Str} (hP : P.asMacro = false) (hL : P.L = fnLoc xs) (hd : c!"..." ∉ xs) : ∀ {es : List Expr},
    (∀ e ∈ es, Spec.SimpleArg xs.length e) → List.zipWith (callArgToks P true) es (Expr.toksL P es) = es.map (argText xs)
  | [], _ => rfl
  | e :: es, h => by
    have ih := callText_simple hP hL hd (es := es) fun x hx => h x (List.mem_cons_of_mem _ hx)
    simp only [Expr.toksL, List.zipWith_cons_cons, ih, List.map_cons, List.cons.injEq, and_true]
    rcases h e List.mem_cons_self with ⟨i, hi, rfl⟩ | ⟨v, rfl⟩
    · have hx : xs[i]? = some xs[i] := List.getElem?_eq_getElem hi
      have hne : xs[i] ≠ c!"..." := fun h => hd (h ▸ List.getElem_mem hi)
      simp [callArgToks, argNameToks, noInto, hP, hL, fnLoc, hx, Expr.toks, varToks, IdentExpr.toks, argToks, hne, argText, hi]
    · simp [callArgToks, argNameToks, noInto, Expr.toks, Lit.toks, LitInt.toks, argText]

/-- What is generated for such a macro. -/
theorem wrapper_generates {C : Ctx} {name : Str} {xs : List Str} {f : Str} {es : List Expr} {ts : List RTy} {r : RTy}
    (hE : C.env.Lawful) (hC : CalmCtx C) (hn : Word C.env name) (hf : Word C.env f) (hw : ∀ x ∈ xs, Word C.env x)
    (hW : Spec.CallsKnown C name xs f es ts r) (hts : ∀ t ∈ ts, StableTy C.ffiPrefix t) {R : Ty} (hR : Ty.fromRust C.ffiPrefix r = .ok R) :
    ∃ params, FnMacro.Generates C ⟨name, xs, .expr (.call (.plain f) es)⟩
        (.ok (.fn name params (retToks ⟨C, fnLoc xs, false⟩ (some R))
          ([.id f] ++ q!"(" ++ sepToks q!"," (es.map (argText xs)) ++ q!")"))) ∧
      params.length = xs.length ∧
      ∀ (i : Nat) (x : Str) (t : RTy), xs[i]? = some x → Spec.passedAs i es ts = some t → params[i]? = some ([.id x] ++ q!":" ++ t.toks) := by
  have ha := argTypes_free hW.free
  have hlen : (⟨xs.map fun _ => ArgTy.unknown, false⟩ : LState).argTypes.length = xs.length := by simp
  obtain ⟨st', h1, h2, h3, h4⟩ := inferArgs_simple (C := C) (es := es) (ts := ts) hlen hW.args fun t ht => stable_ok (hts t ht)
  have hfin : ∀ k, Expr.finish C (fnLoc xs) (k + 2) (.call (.plain f) es) ⟨xs.map fun _ => .unknown, false⟩ =
      ⟨.call (.plain f) es, st', .ok (some R)⟩ := by
    intro k
    rw [Expr.finish, finishStep]
    simp only [fnLoc, Bool.false_eq_true, if_false, IdentExpr.finish]
    have := finishArgs_simple (C := C) (L := fnLoc xs) (k := k) hlen hW.args
    simp only [fnLoc] at this
    simp only [this, finishCallee, hW.known, hW.count, if_true, hR, h1]
  have hkn : ∀ i x, xs[i]? = some x → ∃ t T, Spec.passedAs i es ts = some t ∧ StableTy C.ffiPrefix t ∧ Ty.fromRust C.ffiPrefix t = .ok T ∧
      st'.argTypes[i]? = some (.known T) := by
    intro i x hx
    obtain ⟨hi, _⟩ := List.getElem?_eq_some_iff.1 hx
    obtain ⟨j, t, h5, _, h7⟩ := passedAs_some hW.count (hW.all i hi)
    have hst := hts t (List.mem_of_getElem? h7)
    obtain ⟨T, hT⟩ := stable_ok hst
    exact ⟨t, T, h5, hst, hT, (h4 i .unknown (by simp [hi])).2 rfl t T h5 hT⟩
  have hall : ∀ t ∈ st'.argTypes, t.isKnown = true := by
    intro t ht
    obtain ⟨i, hi, rfl⟩ := List.getElem_of_mem ht
    obtain ⟨_, _, _, _, _, h⟩ := hkn i _ (List.getElem?_eq_getElem (by omega))
    rw [List.getElem?_eq_getElem hi] at h
    rw [Option.some.inj h]
    rfl
  obtain ⟨hpl, hpg⟩ := fnParams_get (P := ⟨C, fnLoc xs, false⟩) (as := xs) (ts := st'.argTypes) h3.symm hall
  have hpar : ∀ (i : Nat) (x : Str) (t : RTy), xs[i]? = some x → Spec.passedAs i es ts = some t →
      (fnParams ⟨C, fnLoc xs, false⟩ xs st'.argTypes)[i]? = some ([.id x] ++ q!":" ++ t.toks) := by
    intro i x t hx hp
    obtain ⟨t', T, h5, h6, h7, h8⟩ := hkn i x hx
    rw [hp] at h5
    cases h5
    obtain ⟨T', h9, h10⟩ := hpg i x hx
    rw [h8] at h9
    cases h9
    rw [h10, stable_toks h6 h7 _ rfl]
  refine ⟨_, ?_, hpl, hpar⟩
  have hg := fnGenerates (name := name) (args := xs) ha ⟨by rw [show (⟨.call (.plain f) es, st', .ok (some R)⟩ : Fin Expr).res = .ok (some R) from rfl]; simp,
    2, fun k hk => by obtain ⟨k, rfl⟩ : ∃ j, k = j + 2 := ⟨k - 2, by omega⟩; exact hfin k⟩
  have hno : NamesOk C.env xs := fun s hs => .inr (hw s hs)
  have hcalmR := (calm_fromRust (ffi := C.ffiPrefix) (n := xs.length) (hC.function f ts r hW.known).1).1 R hR
  have hbody : (Expr.call (.plain f) es).toks ⟨C, fnLoc xs, false⟩ = [.id f] ++ q!"(" ++ sepToks q!"," (es.map (argText xs)) ++ q!")" := by
    have hoff : isOffsetof (.plain f) es = false := by simpa [isOffsetof] using hW.offset
    simp only [Expr.toks, callToks, hoff, Bool.false_eq_true, if_false, Bool.not_false, callText_simple (P := ⟨C, fnLoc xs, false⟩) rfl rfl hW.dots hW.args, IdentExpr.toks]
  have : fnOut C ⟨name, xs, .expr (.call (.plain f) es)⟩ ⟨.expr (.call (.plain f) es), st', .ok (some R)⟩ =
      .ok (.fn name (fnParams ⟨C, fnLoc xs, false⟩ xs st'.argTypes) (retToks ⟨C, fnLoc xs, false⟩ (some R))
        ([.id f] ++ q!"(" ++ sepToks q!"," (es.map (argText xs)) ++ q!")")) := by
    have hvar : namesVariadic xs = false := by
      simp only [namesVariadic, decide_eq_false_iff_not]
      exact fun hl => hW.dots (List.mem_of_getLast? hl)
    have hk2 : st'.argTypes.all ArgTy.isKnown = true := List.all_eq_true.2 hall
    unfold fnOut
    dsimp only
    simp only [h2, hW.new, hvar, hk2, Option.isSome_none, Option.isNone_some, Bool.or_false, Bool.not_true, Bool.false_eq_true, if_false,
      MacroBody.toks, hbody]
    rw [if_pos]
    have w1 := word_id hn
    have w0 := word_id hf
    have w2 : toksOk C.env (sepToks q!"," ((fnParams ⟨C, fnLoc xs, false⟩ xs st'.argTypes).map (q!"mut" ++ ·))) = true := by
      refine toksOk_sep rfl fun x hx => ?_
      obtain ⟨y, hy, rfl⟩ := List.mem_map.1 hx
      refine toksOk_append (toksOk_fixed hE (by decide +kernel)) ?_
      refine fnParams_ok (ps := xs) hC hE rfl hno hw (fun t ht => ?_) hk2 y hy
      obtain ⟨i, hi, rfl⟩ := List.getElem_of_mem ht
      obtain ⟨t, T, h5, _, h7, h8⟩ := hkn i _ (List.getElem?_eq_getElem (by omega))
      rw [List.getElem?_eq_getElem hi] at h8
      rw [Option.some.inj h8]
      obtain ⟨j, t', h9, _, h11⟩ := passedAs_some hW.count (hW.all i (by omega))
      rw [h5] at h9
      cases h9
      exact (calm_fromRust (ffi := C.ffiPrefix) (n := xs.length) ((hC.function f ts r hW.known).2 t (List.mem_of_getElem? h11))).1 T h7
    have w3 : toksOk C.env (sepToks q!"," (es.map (argText xs))) = true := by
      refine toksOk_sep rfl fun x hx => ?_
      obtain ⟨e, he, rfl⟩ := List.mem_map.1 hx
      rcases hW.args e he with ⟨i, hi, rfl⟩ | ⟨v, rfl⟩
      · simp only [argText, List.getD_eq_getElem?_getD, List.getElem?_eq_getElem hi, Option.getD_some]
        exact word_id (hw _ (List.getElem_mem hi))
      · rfl
    have w4 : toksOk C.env (R.toks ⟨C, fnLoc xs, false⟩) = true := ty_ok (ps := xs) hC hE rfl hno hcalmR
    rcases retToks_cases ⟨C, fnLoc xs, false⟩ R with ⟨_, h⟩ | ⟨_, h⟩ <;> rw [h] <;> simp only [GenFn.toks] <;> toks_ok hE
  rwa [this] at hg

/-- **C72** for macros that pass each of their parameters as arguments of one type. -/
theorem C72_partial (C : Ctx) (name : Str) (xs : List Str) (f : Str) (es : List Expr) (ts : List RTy) (r : RTy)
    (hE : C.env.Lawful) (hC : CalmCtx C) (hn : Word C.env name) (hf : Word C.env f) (hw : ∀ x ∈ xs, Word C.env x)
    (hW : Spec.CallsKnown C name xs f es ts r) (hts : ∀ t ∈ ts, StableTy C.ffiPrefix t) (hr : StableTy C.ffiPrefix r)
    (hv : r ≠ .prefixed C.ffiPrefix c!"c_void")
    (same : ∀ j k i : Nat, es[j]? = some (.var (.arg i)) → es[k]? = some (.var (.arg i)) → ts[j]? = ts[k]?) :
    ∃ params, FnMacro.Generates C ⟨name, xs, .expr (.call (.plain f) es)⟩
        (.ok (.fn name params (some r.toks) ([.id f] ++ q!"(" ++ sepToks q!"," (es.map (argText xs)) ++ q!")"))) ∧
      params.length = xs.length ∧
      ∀ (j i : Nat) (x : Str) (t : RTy), es[j]? = some (.var (.arg i)) → xs[i]? = some x → ts[j]? = some t →
        params[i]? = some ([.id x] ++ q!":" ++ t.toks) := by
  obtain ⟨R, hR⟩ := stable_ok hr
  obtain ⟨params, h1, h2, h3⟩ := wrapper_generates hE hC hn hf hw hW hts hR
  refine ⟨params, ?_, h2, fun j i x t hj hx ht => ?_⟩
  · rcases retToks_cases ⟨C, fnLoc xs, false⟩ R with ⟨rfl, _⟩ | ⟨_, h⟩
    · exact absurd (stable_void hr hR) hv
    · rwa [h, stable_toks hr hR _ rfl] at h1
  · obtain ⟨k, u, h4, h5, h6⟩ := passedAs_some hW.count (List.mem_of_getElem? hj)
    have := same j k i hj h5
    rw [ht, h6] at this
    exact h3 i x t hx (this ▸ h4)

/-- The same for functions that return nothing: the generated function returns nothing. -/
theorem C72_unit_partial (C : Ctx) (name : Str) (xs : List Str) (f : Str) (es : List Expr) (ts : List RTy)
    (hE : C.env.Lawful) (hC : CalmCtx C) (hn : Word C.env name) (hf : Word C.env f) (hw : ∀ x ∈ xs, Word C.env x)
    (hW : Spec.CallsKnown C name xs f es ts .unit) (hts : ∀ t ∈ ts, StableTy C.ffiPrefix t)
    (same : ∀ j k i : Nat, es[j]? = some (.var (.arg i)) → es[k]? = some (.var (.arg i)) → ts[j]? = ts[k]?) :
    ∃ params, FnMacro.Generates C ⟨name, xs, .expr (.call (.plain f) es)⟩
        (.ok (.fn name params none ([.id f] ++ q!"(" ++ sepToks q!"," (es.map (argText xs)) ++ q!")"))) ∧
      params.length = xs.length ∧
      ∀ (j i : Nat) (x : Str) (t : RTy), es[j]? = some (.var (.arg i)) → xs[i]? = some x → ts[j]? = some t →
        params[i]? = some ([.id x] ++ q!":" ++ t.toks) := by
  obtain ⟨params, h1, h2, h3⟩ := wrapper_generates hE hC hn hf hw hW hts rfl
  refine ⟨params, h1, h2, fun j i x t hj hx ht => ?_⟩
  obtain ⟨k, u, h4, h5, h6⟩ := passedAs_some hW.count (List.mem_of_getElem? hj)
  have := same j k i hj h5
  rw [ht, h6] at this
  exact h3 i x t hx (this ▸ h4)

/-- A context in which one function is known. -/
def oneFnCtx (f : Str) (ts : List RTy) (r : RTy) : Ctx :=
  { Ctx.unit asciiEnv with function := fun s => if s = f then some (ts, r) else none }

/-- Whether a type is made of identifiers. -/
def wordTyB : RTy → Bool
  | .ptr _ t => wordTyB t
  | .verbatim s => isIdentifier asciiEnv s
  | .path _ p => p.segs.all (isIdentifier asciiEnv)
  | _ => true

theorem wordTyB_ok : ∀ {t : RTy}, wordTyB t = true → WordTy asciiEnv t
  | .ptr _ t, h => wordTyB_ok (t := t) h
  | .unit, _ | .other _, _ => trivial
  | .verbatim _, h => word_ascii h
  | .path _ _, h => fun s hs => word_ascii (List.all_eq_true.1 h s hs)

theorem words_ok {xs : List Str} (h : xs.all (isIdentifier asciiEnv) = true) : ∀ x ∈ xs, Word asciiEnv x :=
  fun x hx => word_ascii (List.all_eq_true.1 h x hx)

theorem calmCtx_oneFn {f : Str} {ts : List RTy} {r : RTy} (hr : wordTyB r = true) (ht : ts.all wordTyB = true) :
    CalmCtx (oneFnCtx f ts r) where
  ffi := (calmCtx_unit asciiEnv).ffi
  trait := (calmCtx_unit asciiEnv).trait
  arg := (calmCtx_unit asciiEnv).arg
  variant := (calmCtx_unit asciiEnv).variant
  ty := (calmCtx_unit asciiEnv).ty
  field := (calmCtx_unit asciiEnv).field
  function := by
    intro g ts' r' h
    simp only [oneFnCtx] at h
    split at h
    · cases h
      exact ⟨wordTyB_ok hr, fun t h => wordTyB_ok (List.all_eq_true.1 ht t h)⟩
    · cases h

/-- A type of one name. -/
def cType (s : Str) : RTy := .path .plain ⟨false, [s]⟩

/-- `#define F(x) f(x, x)` with `int f(int, long)`: the parameter is an `int` and is passed as a `long`. -/
theorem C72_false : ¬ C72_statement := by
  intro h
  obtain ⟨params, _, _, h3⟩ := h (oneFnCtx c!"f" [cType c!"c_int", cType c!"c_long"] (cType c!"c_int")) c!"F" [c!"x"] c!"f"
    [.var (.arg 0), .var (.arg 0)] [cType c!"c_int", cType c!"c_long"] (cType c!"c_int") asciiEnv_lawful
    (calmCtx_oneFn (by decide +kernel) (by decide +kernel)) (word_ascii (by decide +kernel)) (word_ascii (by decide +kernel))
    (words_ok (by decide +kernel))
    ⟨rfl, rfl, by simp [Spec.SimpleArg], by decide, by simp, by decide, by decide, by decide⟩
    (by simp only [List.mem_cons, List.not_mem_nil, or_false]; rintro t (rfl | rfl) <;> exact .bare rfl (by decide) (by decide))
    (.bare rfl (by decide) (by decide)) (by decide)
  have h0 := h3 0 0 c!"x" _ rfl rfl rfl
  rw [h3 1 0 c!"x" _ rfl rfl rfl] at h0
  exact absurd h0 (by decide)

/-- `#define SEEK_TO(file, pos) fseek(file, pos, 0)`. -/
example : ∃ params, FnMacro.Generates (oneFnCtx c!"fseek" [.ptr true (cType c!"FILE"), cType c!"c_long", cType c!"c_int"] (cType c!"c_int"))
      ⟨c!"SEEK_TO", [c!"file", c!"pos"], .expr (.call (.plain c!"fseek") [.var (.arg 0), .var (.arg 1), .lit (.int ⟨0, none⟩)])⟩
      (.ok (.fn c!"SEEK_TO" params (some (q!"c_int")) (q!"fseek ( file , pos ," ++ [.int 0 []] ++ q!")"))) ∧
    params[0]? = some (q!"file : * mut FILE") ∧ params[1]? = some (q!"pos : c_long") := by
  obtain ⟨params, h1, _, h3⟩ := C72_partial (oneFnCtx c!"fseek" [.ptr true (cType c!"FILE"), cType c!"c_long", cType c!"c_int"] (cType c!"c_int"))
    c!"SEEK_TO" [c!"file", c!"pos"] c!"fseek"
    [.var (.arg 0), .var (.arg 1), .lit (.int ⟨0, none⟩)] [.ptr true (cType c!"FILE"), cType c!"c_long", cType c!"c_int"] (cType c!"c_int") asciiEnv_lawful
    (calmCtx_oneFn (by decide +kernel) (by decide +kernel)) (word_ascii (by decide +kernel)) (word_ascii (by decide +kernel))
    (words_ok (by decide +kernel))
    ⟨rfl, rfl, by simp [Spec.SimpleArg], by decide, by
      intro i hi
      rcases i with _ | _ | i
      · simp
      · simp
      · simp at hi; omega, by decide, by decide, by decide⟩
    (by
      simp only [List.mem_cons, List.not_mem_nil, or_false]
      rintro t (rfl | rfl | rfl)
      · exact .ptr (.bare rfl (by decide) (by decide))
      · exact .bare rfl (by decide) (by decide)
      · exact .bare rfl (by decide) (by decide))
    (.bare rfl (by decide) (by decide)) (by decide) (by
      intro j k i hj hk
      rcases j with _ | _ | _ | j <;> rcases k with _ | _ | _ | k <;> simp at hj hk <;> first | rfl | omega)
  exact ⟨params, h1, h3 0 0 c!"file" _ rfl rfl rfl, h3 1 1 c!"pos" _ rfl rfl rfl⟩

theorem finishArgs_length {f : Expr → LState → Fin Expr} : ∀ (es : List Expr) (st : LState), (finishArgs f es st).1.length = es.length
  | [], _ => rfl
  | e :: es, st => by
    simp only [finishArgs]
    generalize f e st = R
    rcases R with ⟨x, s, r | r⟩
    · rfl
    · simp [finishArgs_length es s]

theorem finishCallee_known {C : Ctx} {n : IdentExpr} {es : List Expr} {st st' : LState} {t : Ty}
    (h : finishCallee C n es st = (st', .ok (some t))) :
    ∃ f ts r, n = .plain f ∧ C.function f = some (ts, r) ∧ ts.length = es.length := by
  cases n with
  | plain f =>
    simp only [finishCallee] at h
    split at h
    · rename_i ts r hf
      split at h
      · rename_i hl
        exact ⟨f, ts, r, rfl, hf, hl⟩
      · cases h
    · repeat' split at h
      all_goals cases h
  | _ => simp [finishCallee] at h

/-- Conversely, the function that is called is known with that number of arguments, whatever the arguments are. -/
theorem C72_only_known (C : Ctx) (m : FnMacro) (n : IdentExpr) (es : List Expr) (name : Str) (params : List (List RTok))
    (ret : Option (List RTok)) (body : List RTok) (hb : m.body = .expr (.call n es))
    (h : m.Generates C (.ok (.fn name params ret body))) :
    ∃ f ts r, n = .plain f ∧ C.function f = some (ts, r) ∧ ts.length = es.length := by
  obtain ⟨_, _, _, _, _, tys, b, st, ty, N, _, hN, _⟩ := C41_function_only_if_typed C m name params ret body h
  have := hN (N + 1) (by omega)
  rw [hb] at this
  simp only [MacroBody.finish, Expr.finish, finishStep, fnLoc, Bool.false_eq_true, if_false] at this
  generalize n.finish ⟨tys, false⟩ = R at this
  rcases R with ⟨s, x | x⟩
  · simp at this
  · simp only at this
    have hl := finishArgs_length (f := Expr.finish C (fnLoc m.args) N) es s
    simp only [fnLoc] at hl
    generalize finishArgs _ es s = R at this hl
    rcases R with ⟨es', s, x | x⟩
    · simp at this
    · simp only at this hl
      rcases hc : finishCallee C n es' s with ⟨s', r⟩
      rw [hc] at this
      simp only [Fin.mk.injEq] at this
      obtain ⟨_, _, rfl⟩ := this
      rw [← hl]
      exact finishCallee_known hc

/-! ## C73 -/

/-- A call of a function that is known with this number of arguments. -/
def Spec.KnownCall (C : Ctx) (e : Expr) : Prop :=
  ∀ n es, e = .call n es → ∃ f ts r, n = .plain f ∧ C.function f = some (ts, r) ∧ ts.length = es.length

/-- **C73**, in full: if a function is generated, every call in its body, as it is written out, is one of a function that is
known with this number of arguments. -/
def C73_statement : Prop :=
  ∀ (C : Ctx) (m : FnMacro) (name : Str) (params : List (List RTok)) (ret : Option (List RTok)) (body : List RTok),
    m.Generates C (.ok (.fn name params ret body)) →
    ∃ b : MacroBody, body = b.toks ⟨C, fnLoc m.args, false⟩ ∧
      (∃ tys st t N, argTypes C m.name m.args = .ok tys ∧
        ∀ k ≥ N, m.body.finish C (Expr.finish C (fnLoc m.args) k) ⟨tys, false⟩ = ⟨b, st, .ok t⟩) ∧ b.All (Spec.KnownCall C)

/-- Whether a call by name is one of a known function. -/
def NamedKnown (C : Ctx) (st : LState) (e : Expr) : Prop :=
  st.exportAsMacro = false → ∀ f es, e = .call (.plain f) es → (C.function f).isSome = true

theorem NodeInv.namedKnown (C : Ctx) (L : Loc) : NodeInv C L (NamedKnown C) where
  mono := fun hle h hx => h (by
    rename_i st st' e
    cases hs : st.exportAsMacro with
    | false => rfl
    | true => rw [hle.2.2 hs] at hx; exact hx)
  call := by
    intro n args st st' s s' t _ _ _ hc hx f es he
    cases he
    cases hf : C.function f with
    | some _ => rfl
    | none =>
      exfalso
      have he : s'.exportAsMacro = true := by
        simp only [finishCallee, hf] at hc
        split at hc
        · split at hc
          · rename_i a b
            have h1 := offsetofArg_st a .ty s.export
            generalize offsetofArg a .ty s.export = R at *
            rcases R with ⟨s1, r | r⟩
            · simp at hc
            · have h2 := offsetofArg_st b .tt s1
              simp only at h2 hc
              generalize offsetofArg b .tt s1 = R at *
              rcases R with ⟨s2, r | r⟩
              · simp at hc
              · cases hc
                exact h2.2.2 (h1.2.2 rfl)
          · cases hc; rfl
        · cases hc; rfl
      rw [he] at hx
      cases hx
  var := by intros; intro _ f es h; cases h
  stringify := by intros; intro _ f es h; cases h
  cast := by intros; intro _ f es h; cases h
  lit := by intros; intro _ f es h; cases h
  concat := by intros; intro _ f es h; cases h
  sizeOf := by intros; intro _ f es h; cases h
  un := by intros; intro _ f es h; cases h
  bin := by intros; intro _ f es h; cases h
  ternary := by intros; intro _ f es h; cases h

theorem MacroBody.All.mono {p q : Expr → Prop} (h : ∀ e, p e → q e) : ∀ b : MacroBody, b.All p → b.All q
  | .expr e, hp => Expr.All.mono h e hp
  | .stmt s, hp => Stmt.All.mono h s hp

/-- **C73** for the names of functions: every function called by name is known. The number of arguments is missing, and calls of
something else than a name. -/
theorem C73_partial (C : Ctx) (m : FnMacro) (name : Str) (params : List (List RTok)) (ret : Option (List RTok)) (body : List RTok)
    (h : m.Generates C (.ok (.fn name params ret body))) :
    ∃ b : MacroBody, body = b.toks ⟨C, fnLoc m.args, false⟩ ∧
      (∃ tys st t N, argTypes C m.name m.args = .ok tys ∧
        ∀ k ≥ N, m.body.finish C (Expr.finish C (fnLoc m.args) k) ⟨tys, false⟩ = ⟨b, st, .ok t⟩) ∧
      b.All fun e => ∀ f es, e = .call (.plain f) es → ∃ ts r, C.function f = some (ts, r) := by
  obtain ⟨tys, b, st, r, N, ha, hN, ho⟩ := h.finished
  obtain ⟨_, ⟨_, h2⟩ | ⟨hm, h2⟩⟩ := fnOut_ok ho
  · cases h2
  cases h2
  refine ⟨b, rfl, ⟨tys, st, r, N, ha, hN⟩, ?_⟩
  have := (MacroBody.finish_inv (NodeInv.namedKnown C (fnLoc m.args)) (Expr.finish_inv (NodeInv.namedKnown C (fnLoc m.args)) N) m.body ⟨tys, false⟩).2 r
    (by rw [hN N (Nat.le_refl _)])
  rw [hN N (Nat.le_refl _)] at this
  have hx : st.exportAsMacro = false := by
    simp only [asMacro, Bool.or_eq_false_iff] at hm
    exact hm.1.1.1.1
  exact MacroBody.All.mono (fun e he f es hf => by
    obtain ⟨⟨ts, r⟩, h⟩ := Option.isSome_iff_exists.1 (he hx f es hf)
    exact ⟨ts, r, h⟩) b this

/-- A context in which one function is known and all parameters have the type `t`. -/
def typedFnCtx (f : Str) (ts : List RTy) (r : RTy) (t : RTy) : Ctx :=
  { oneFnCtx f ts r with macroArgTy := fun _ _ => some t }

/-- The context of the counterexamples: `int f(int, int)`, and `int` parameters. -/
def twoArgs : Ctx := typedFnCtx c!"f" [cType c!"c_int", cType c!"c_int"] (cType c!"c_int") (cType c!"c_int")

theorem generates_is {n : Nat} {C : Ctx} {m : FnMacro} {r : CgRes GenFn} (h : m.Generates C (m.generate n C)) (hr : m.generate n C = r) :
    m.Generates C r := hr ▸ h

/-- `#define F(x) (int) f(x)` with `int f(int, int)`: the generated function calls `f` with one argument. -/
theorem C73_false : ¬ C73_statement := by
  intro h
  have hg : FnMacro.Generates twoArgs ⟨c!"F", [c!"x"], .expr (.cast (.builtIn .int) (.call (.plain c!"f") [.var (.arg 0)]))⟩
      (.ok (.fn c!"F" [q!"x : c_int"] (some (q!"c_int")) (q!"f ( x ) as c_int"))) :=
    generates_is (fnGenerates_of 3 twoArgs c!"F" [c!"x"] _ [.known (.builtIn .int)] rfl (by decide)) (by kernel_rfl)
  obtain ⟨b, _, ⟨tys, st, t, N, ha, hN⟩, hall⟩ := h _ _ _ _ _ _ hg
  cases (show argTypes twoArgs c!"F" [c!"x"] = .ok [.known (.builtIn .int)] from rfl).symm.trans ha
  cases (show _ = _ from rfl : _).symm.trans (hN (N + 3) (by omega))
  obtain ⟨f, ts, r, h1, h2, h3⟩ := hall.2.1 _ _ rfl
  cases h1
  cases (show twoArgs.function c!"f" = some ([cType c!"c_int", cType c!"c_int"], cType c!"c_int") from rfl).symm.trans h2
  cases h3

/-- `#define F(x) (int) x(1)` with an `int` parameter: the generated function calls the parameter. -/
theorem C73_false_param : ¬ C73_statement := by
  intro h
  have hg : FnMacro.Generates twoArgs ⟨c!"F", [c!"x"], .expr (.cast (.builtIn .int) (.call (.arg 0) [.lit (.int ⟨1, none⟩)]))⟩
      (.ok (.fn c!"F" [q!"x : c_int"] (some (q!"c_int")) (q!"x (" ++ [.int 1 []] ++ q!") as c_int"))) :=
    generates_is (fnGenerates_of 3 twoArgs c!"F" [c!"x"] _ [.known (.builtIn .int)] rfl (by decide)) (by kernel_rfl)
  obtain ⟨b, _, ⟨tys, st, t, N, ha, hN⟩, hall⟩ := h _ _ _ _ _ _ hg
  cases (show argTypes twoArgs c!"F" [c!"x"] = .ok [.known (.builtIn .int)] from rfl).symm.trans ha
  cases (show _ = _ from rfl : _).symm.trans (hN (N + 3) (by omega))
  obtain ⟨f, ts, r, h1, h2, h3⟩ := hall.2.1 _ _ rfl
  cases h1

/-- `#define F(x) f(x, x) + 1`: the generated function calls the known `f`. -/
example : ∃ params ret body, FnMacro.Generates twoArgs
      ⟨c!"F", [c!"x"], .expr (.bin (.call (.plain c!"f") [.var (.arg 0), .var (.arg 0)]) .add (.lit (.int ⟨1, none⟩)))⟩
      (.ok (.fn c!"F" params ret body)) ∧ body = q!"f ( x , x ) +" ++ [.int 1 []] ∧ (twoArgs.function c!"f").isSome = true := by
  have hg : FnMacro.Generates twoArgs ⟨c!"F", [c!"x"], .expr (.bin (.call (.plain c!"f") [.var (.arg 0), .var (.arg 0)]) .add (.lit (.int ⟨1, none⟩)))⟩
      (.ok (.fn c!"F" [q!"x : c_int"] (some (q!"c_int")) (q!"f ( x , x ) +" ++ [.int 1 []]))) :=
    generates_is (fnGenerates_of 3 twoArgs c!"F" [c!"x"] _ [.known (.builtIn .int)] rfl (by decide)) (by kernel_rfl)
  refine ⟨_, _, _, hg, rfl, ?_⟩
  obtain ⟨b, _, ⟨tys, st, t, N, ha, hN⟩, hall⟩ := C73_partial _ _ _ _ _ _ hg
  cases (show argTypes twoArgs c!"F" [c!"x"] = .ok [.known (.builtIn .int)] from rfl).symm.trans ha
  cases (show _ = _ from rfl : _).symm.trans (hN (N + 3) (by omega))
  obtain ⟨ts, r, h⟩ := hall.2.1.1 _ _ rfl
  rw [h]
  rfl

/-! ## C74 -/

/-- An expression that changes a parameter of the macro or takes its address. -/
inductive Spec.Changes : Expr → Prop
  | assign (i : Nat) (op : BinOp) (r : Expr) :
      op ∈ [BinOp.assign, .addAssign, .subAssign, .mulAssign, .divAssign, .remAssign, .shlAssign, .shrAssign, .bitAndAssign, .bitXorAssign, .bitOrAssign] →
      Changes (.bin (.var (.arg i)) op r)
  | step (i : Nat) (op : UnOp) : op ∈ [UnOp.inc, .dec, .postInc, .postDec] → Changes (.un op (.var (.arg i)))
  | address (i : Nat) : Changes (.un .addrOf (.var (.arg i)))

/-- **C74**, in full: a generated function, whose parameters are copies, never changes a parameter or takes its address. -/
def C74_statement : Prop :=
  ∀ (C : Ctx) (m : FnMacro) (name : Str) (params : List (List RTok)) (ret : Option (List RTok)) (body : List RTok),
    m.Generates C (.ok (.fn name params ret body)) →
    ∃ b : MacroBody, body = b.toks ⟨C, fnLoc m.args, false⟩ ∧
      (∃ tys st t N, argTypes C m.name m.args = .ok tys ∧
        ∀ k ≥ N, m.body.finish C (Expr.finish C (fnLoc m.args) k) ⟨tys, false⟩ = ⟨b, st, .ok t⟩) ∧ b.All fun e => ¬ Spec.Changes e

/-- Whether an assignment to a parameter has led to a macro. -/
def AssignsExported (st : LState) (e : Expr) : Prop :=
  st.exportAsMacro = false → ∀ i op r, e = .bin (.var (.arg i)) op r → op.isAssignment = false

theorem NodeInv.assigns (C : Ctx) (L : Loc) : NodeInv C L AssignsExported where
  mono := fun hle h hx => h (by
    rename_i st st' e
    cases hs : st.exportAsMacro with
    | false => rfl
    | true => rw [hle.2.2 hs] at hx; exact hx)
  bin := by
    intro l op r st h hx i op' r' he
    cases he
    cases ho : op.isAssignment with
    | false => rfl
    | true =>
      rw [h ho rfl] at hx
      cases hx
  call := by intros; intro _ _ _ _ h; cases h
  var := by intros; intro _ _ _ _ h; cases h
  stringify := by intros; intro _ _ _ _ h; cases h
  cast := by intros; intro _ _ _ _ h; cases h
  lit := by intros; intro _ _ _ _ h; cases h
  concat := by intros; intro _ _ _ _ h; cases h
  sizeOf := by intros; intro _ _ _ _ h; cases h
  un := by intros; intro _ _ _ _ h; cases h
  ternary := by intros; intro _ _ _ _ h; cases h

/-- **C74** for the operators of assignment: a generated function never assigns to a parameter. The operators `++`, `--` and `&`
are missing. -/
theorem C74_partial (C : Ctx) (m : FnMacro) (name : Str) (params : List (List RTok)) (ret : Option (List RTok)) (body : List RTok)
    (h : m.Generates C (.ok (.fn name params ret body))) :
    ∃ b : MacroBody, body = b.toks ⟨C, fnLoc m.args, false⟩ ∧
      (∃ tys st t N, argTypes C m.name m.args = .ok tys ∧
        ∀ k ≥ N, m.body.finish C (Expr.finish C (fnLoc m.args) k) ⟨tys, false⟩ = ⟨b, st, .ok t⟩) ∧
      b.All fun e => Spec.Changes e → ∃ i op, e = .un op (.var (.arg i)) := by
  obtain ⟨tys, b, st, r, N, ha, hN, ho⟩ := h.finished
  obtain ⟨_, ⟨_, h2⟩ | ⟨hm, h2⟩⟩ := fnOut_ok ho
  · cases h2
  cases h2
  refine ⟨b, rfl, ⟨tys, st, r, N, ha, hN⟩, ?_⟩
  have := (MacroBody.finish_inv (NodeInv.assigns C (fnLoc m.args)) (Expr.finish_inv (NodeInv.assigns C (fnLoc m.args)) N) m.body ⟨tys, false⟩).2 r
    (by rw [hN N (Nat.le_refl _)])
  rw [hN N (Nat.le_refl _)] at this
  have hx : st.exportAsMacro = false := by
    simp only [asMacro, Bool.or_eq_false_iff] at hm
    exact hm.1.1.1.1
  refine MacroBody.All.mono (fun e he hc => ?_) b this
  cases hc with
  | assign i op r hop =>
    exfalso
    have := he hx i op r rfl
    simp only [List.mem_cons, List.not_mem_nil, or_false] at hop
    rcases hop with rfl | rfl | rfl | rfl | rfl | rfl | rfl | rfl | rfl | rfl | rfl <;> cases this
  | step i op _ => exact ⟨i, op, rfl⟩
  | address i => exact ⟨i, _, rfl⟩

/-- `#define NEXT(x) x++` with an `int` parameter: the generated function increments its copy. -/
theorem C74_false : ¬ C74_statement := by
  intro h
  have hg : FnMacro.Generates twoArgs ⟨c!"NEXT", [c!"x"], .expr (.un .postInc (.var (.arg 0)))⟩
      (.ok (.fn c!"NEXT" [q!"x : c_int"] (some (q!"c_int")) (q!"{ let prev = x ; x +=" ++ [.int 1 []] ++ q!"; prev }"))) :=
    generates_is (fnGenerates_of 3 twoArgs c!"NEXT" [c!"x"] _ [.known (.builtIn .int)] rfl (by decide)) (by kernel_rfl)
  obtain ⟨b, _, ⟨tys, st, t, N, ha, hN⟩, hall⟩ := h _ _ _ _ _ _ hg
  cases (show argTypes twoArgs c!"NEXT" [c!"x"] = .ok [.known (.builtIn .int)] from rfl).symm.trans ha
  cases (show _ = _ from rfl : _).symm.trans (hN (N + 3) (by omega))
  exact hall.1 (.step 0 _ (by decide))

/-- `#define ADDR(x) &x` with an `int` parameter: the generated function returns the address of its copy. -/
theorem C74_false_address : ¬ C74_statement := by
  intro h
  have hg : FnMacro.Generates twoArgs ⟨c!"ADDR", [c!"x"], .expr (.un .addrOf (.var (.arg 0)))⟩
      (.ok (.fn c!"ADDR" [q!"x : c_int"] (some (q!"* mut c_int")) (q!"ptr :: addr_of_mut ! ( x )"))) :=
    generates_is (fnGenerates_of 3 twoArgs c!"ADDR" [c!"x"] _ [.known (.builtIn .int)] rfl (by decide)) (by kernel_rfl)
  obtain ⟨b, _, ⟨tys, st, t, N, ha, hN⟩, hall⟩ := h _ _ _ _ _ _ hg
  cases (show argTypes twoArgs c!"ADDR" [c!"x"] = .ok [.known (.builtIn .int)] from rfl).symm.trans ha
  cases (show _ = _ from rfl : _).symm.trans (hN (N + 3) (by omega))
  exact hall.1 (.address 0)

/-- `#define F(x) f(x, x) + 1` becomes a function, so nothing in it assigns to `x`; `#define SET(x) x = 1` becomes a macro. -/
example : ∃ params ret body, FnMacro.Generates twoArgs
      ⟨c!"F", [c!"x"], .expr (.bin (.call (.plain c!"f") [.var (.arg 0), .var (.arg 0)]) .add (.lit (.int ⟨1, none⟩)))⟩
      (.ok (.fn c!"F" params ret body)) ∧
    FnMacro.Generates twoArgs ⟨c!"SET", [c!"x"], .expr (.bin (.var (.arg 0)) .assign (.lit (.int ⟨1, none⟩)))⟩
      (.ok (.macro c!"SET" [q!"$ x : expr"] (q!"{ $ x =" ++ [.int 1 []] ++ q!"; $ x }"))) :=
  ⟨[q!"x : c_int"], some (q!"c_int"), q!"f ( x , x ) +" ++ [.int 1 []],
    generates_is (fnGenerates_of 3 twoArgs c!"F" [c!"x"] _ [.known (.builtIn .int)] rfl (by decide)) (by kernel_rfl),
    generates_is (fnGenerates_of 3 twoArgs c!"SET" [c!"x"] _ [.known (.builtIn .int)] rfl (by decide)) (by kernel_rfl)⟩

end CMacro
