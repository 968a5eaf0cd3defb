import Verif.Proofs.MacroValue

/-!
# Generated macros compute what C computes

Properties C88.
-/

namespace CMacro
open Spec

variable {W : Widths}

/-- C88: let a `macro_rules!` macro be generated for a function-like macro, and let the C expression have the type `t` and the value `v`
for some values of the parameters.  Then a call of the macro with expressions of these types and values has the type `t` and the value `v`. -/
def C88_statement : Prop :=
  ∀ (W : Widths) (C : Ctx) (m : FnMacro) (e : Expr) (n : Nat) (name : Str) (params : List (List RTok)) (code : List RTok)
    (ps : List (Str × IntTy × Int)) (t : IntTy) (v : Int),
    m.body = .expr e → m.args = ps.map (·.1) → m.generate n C = .ok (.macro name params code) → Agreed C m.name ps → (ps.map (·.1)).Nodup →
    (∀ p ∈ ps, p.2.1.Holds W p.2.2) → FnValue W True True (byIndex ps) e (.int t v) →
    params = exprParams (ps.map (·.1)) ∧ ∃ u, rustParse code = some u ∧ ∀ env as, ArgValues W C.ffiPrefix env ps as →
      RustEval W C.ffiPrefix env (inserted (callArgs (ps.map (·.1)) as) u) (.int t v)

/-- The finished body of a macro yields what the C expression yields. -/
theorem macro_kept {C : Ctx} {name : Str} {e e' : Expr} {n : Nat} {ps : List (Str × IntTy × Int)} {tys : List ArgTy} {st : LState} {ty : Option Ty}
    {o : Outcome} (hty : argTypes C name (ps.map (·.1)) = .ok tys) (hd : Agreed C name ps) (hnd : (ps.map (·.1)).Nodup)
    (hk : ∀ p ∈ ps, p.1 ≠ c!"...") (hv : FnValue W False False (byIndex ps) e o) (hs : Separated e)
    (hf : Expr.finish C (fnLoc (ps.map (·.1))) n e ⟨tys, false⟩ = ⟨e', st, .ok ty⟩)
    (hroot : Rooted C.ffiPrefix) : ∃ u, rustParse (e'.toks ⟨C, fnLoc (ps.map (·.1)), true⟩) = some u ∧ RustEval W C.ffiPrefix (byMeta ps) u o := by
  have key := fn_finish (P := ⟨C, fnLoc (ps.map (·.1)), true⟩) hv (byMeta ps) n e' st ty (link_agreed hty hd hnd hk hroot) hf hs
  cases o with
  | truth b =>
    have k : Kept W ⟨C, fnLoc (ps.map (·.1)), true⟩ (byMeta ps) e e' ty (.truth b) := key
    obtain ⟨u, h1, _, h2⟩ := k.tree
    exact ⟨u, C37_partial _ _ _ h1 k.sep, h2⟩
  | int t v =>
    rcases operand (P := ⟨C, fnLoc (ps.map (·.1)), true⟩) (env := byMeta ps) hv hf (fun h => KeptOut.kept key h) with ⟨_, _, hh, c, hc, rfl⟩ | ⟨_, k⟩
    · exact ⟨_, C37_partial _ _ _ .int trivial, by rw [hc]; exact eval_int hh⟩
    · obtain ⟨u, h1, _, h2⟩ := k.tree
      exact ⟨u, C37_partial _ _ _ h1 k.sep, h2⟩

theorem macro_generated {C : Ctx} {m : FnMacro} {e : Expr} {n : Nat} {name : Str} {params : List (List RTok)}
    {code : List RTok} {ps : List (Str × IntTy × Int)} {o : Outcome}
    (hb : m.body = .expr e) (ha : m.args = ps.map (·.1)) (hg : m.generate n C = .ok (.macro name params code)) (hd : Agreed C m.name ps)
    (hnd : (ps.map (·.1)).Nodup) (hv : FnValue W False False (byIndex ps) e o)
    (hk : ∀ p ∈ ps, p.1 ∉ [c!"...", c!"crate", c!"_"]) (hs : Separated e)
    (hroot : Rooted C.ffiPrefix := by intro p h; cases h) :
    params = exprParams (ps.map (·.1)) ∧ ∃ u, rustParse code = some u ∧ ∀ env as, ArgValues W C.ffiPrefix env ps as →
      RustEval W C.ffiPrefix env (inserted (callArgs (ps.map (·.1)) as) u) o := by
  have hk' : ∀ p ∈ ps, p.1 ≠ c!"..." := fun p hp he => hk p hp (by simp [he])
  unfold FnMacro.generate at hg
  rw [hb, ha] at hg
  cases hty : argTypes C m.name (ps.map (·.1)) with
  | error e => rw [hty] at hg; cases hg
  | ok tys =>
    rw [hty] at hg
    dsimp only at hg
    rw [MacroBody.finish] at hg
    cases hx : Expr.finish C (fnLoc (ps.map (·.1))) n e ⟨tys, false⟩ with
    | mk e' st r =>
      rw [hx] at hg
      cases r with
      | error e => cases hg
      | ok ty =>
        dsimp only at hg
        generalize (st.exportAsMacro || (C.function m.name).isSome || namesVariadic (ps.map (·.1)) || !st.argTypes.all ArgTy.isKnown
          || Option.isNone ty) = x at hg
        cases x <;> simp only [Bool.false_eq_true, if_false, if_true] at hg <;> split at hg <;> try cases hg
        obtain rfl := fn_state hv hx
        obtain ⟨u, h1, h2⟩ := macro_kept hty hd hnd hk' hv hs hx hroot
        refine ⟨?_, u, h1, fun env as h => eval_call h h2⟩
        obtain ⟨hl, hp⟩ := argTypes_plain hty
        refine macroParams_expr hl (fun h => ?_) hp
        obtain ⟨p, hp, he⟩ := List.mem_map.1 h
        exact hk' p hp he

/-- **C88**, when no operand is converted to the type of the other, no unsigned operation wraps around, and numbers are conditions only
in `? :`. -/
theorem C88_partial (W : Widths) (C : Ctx) (m : FnMacro) (e : Expr) (n : Nat) (name : Str) (params : List (List RTok)) (code : List RTok)
    (ps : List (Str × IntTy × Int)) (t : IntTy) (v : Int)
    (hb : m.body = .expr e) (ha : m.args = ps.map (·.1)) (hg : m.generate n C = .ok (.macro name params code)) (hd : Agreed C m.name ps)
    (hnd : (ps.map (·.1)).Nodup) (hv : FnValue W False False (byIndex ps) e (.int t v))
    (hk : ∀ p ∈ ps, p.1 ∉ [c!"...", c!"crate", c!"_"]) (hs : Separated e)
    (hroot : Rooted C.ffiPrefix := by intro p h; cases h) :
    params = exprParams (ps.map (·.1)) ∧ ∃ u, rustParse code = some u ∧ ∀ env as, ArgValues W C.ffiPrefix env ps as →
      RustEval W C.ffiPrefix env (inserted (callArgs (ps.map (·.1)) as) u) (.int t v) :=
  macro_generated hb ha hg hd hnd hv hk hs hroot

/-- **C88** for expressions that are conditions: the call is a `bool`, the answer that C gives. -/
theorem C88_bool_partial (W : Widths) (C : Ctx) (m : FnMacro) (e : Expr) (n : Nat) (name : Str) (params : List (List RTok)) (code : List RTok)
    (ps : List (Str × IntTy × Int)) (b : Bool)
    (hb : m.body = .expr e) (ha : m.args = ps.map (·.1)) (hg : m.generate n C = .ok (.macro name params code)) (hd : Agreed C m.name ps)
    (hnd : (ps.map (·.1)).Nodup) (hv : FnValue W False False (byIndex ps) e (.truth b))
    (hk : ∀ p ∈ ps, p.1 ∉ [c!"...", c!"crate", c!"_"]) (hs : Separated e)
    (hroot : Rooted C.ffiPrefix := by intro p h; cases h) :
    params = exprParams (ps.map (·.1)) ∧ ∃ u, rustParse code = some u ∧ ∀ env as, ArgValues W C.ffiPrefix env ps as →
      RustEval W C.ffiPrefix env (inserted (callArgs (ps.map (·.1)) as) u) (.truth b) :=
  macro_generated hb ha hg hd hnd hv hk hs hroot

/-! ## From the definitions on -/

theorem argTypes_agreed {C : Ctx} {name : Str} : ∀ {ps : List (Str × IntTy × Int)}, Agreed C name ps → ∃ tys,
    argTypes C name (ps.map (·.1)) = .ok tys ∧ ((∃ p ∈ ps, C.macroArgTy name p.1 = none) → tys.all ArgTy.isKnown = false)
  | [], _ => ⟨[], rfl, by rintro ⟨_, h, _⟩; cases h⟩
  | p :: ps, h => by
    obtain ⟨tys, h1, h2⟩ := argTypes_agreed (ps := ps) fun q hq => h q (List.mem_cons_of_mem _ hq)
    cases ha : C.macroArgTy name p.1 with
    | none => exact ⟨.unknown :: tys, by simp only [List.map_cons, argTypes, ha, h1], fun _ => rfl⟩
    | some t =>
      obtain rfl := h p List.mem_cons_self t ha
      refine ⟨.known (.builtIn p.2.1.cType) :: tys, by simp only [List.map_cons, argTypes, ha, fromRust_int, h1], ?_⟩
      rintro ⟨q, hq, hn⟩
      rcases List.mem_cons.1 hq with rfl | hq
      · rw [ha] at hn; cases hn
      · simp only [List.all_cons, h2 ⟨q, hq, hn⟩, Bool.and_false]

/-- A macro is generated, and it yields what the C expression yields. -/
theorem macro_total {C : Ctx} {name : Str} {e : Expr} {ps : List (Str × IntTy × Int)} {o : Outcome}
    (hE : C.env.Lawful) (hC : CalmCtx C) (hn : Word C.env name) (hd : Agreed C name ps)
    (hm : (∃ f, C.function name = some f) ∨ ∃ p ∈ ps, C.macroArgTy name p.1 = none)
    (hnd : (ps.map (·.1)).Nodup) (hw : ∀ p ∈ ps, Word C.env p.1) (hk : ∀ p ∈ ps, p.1 ∉ [c!"...", c!"crate", c!"_"])
    (hv : FnValue W False False (byIndex ps) e o) (hs : Separated e)
    (hroot : Rooted C.ffiPrefix := by intro p h; cases h) :
    ∃ code u, FnMacro.Generates C ⟨name, ps.map (·.1), .expr e⟩ (.ok (.macro name (exprParams (ps.map (·.1))) code)) ∧
      rustParse code = some u ∧ ∀ env as, ArgValues W C.ffiPrefix env ps as →
        RustEval W C.ffiPrefix env (inserted (callArgs (ps.map (·.1)) as) u) o := by
  have hk' : ∀ p ∈ ps, p.1 ≠ c!"..." := fun p hp he => hk p hp (by simp [he])
  have hell : c!"..." ∉ ps.map (·.1) := fun h => by
    obtain ⟨p, hp, he⟩ := List.mem_map.1 h
    exact hk' p hp he
  obtain ⟨tys, hty, hun⟩ := argTypes_agreed hd
  obtain ⟨⟨e', st', res⟩, hdv, N, hN⟩ := finish_ends C (fnLoc (ps.map (·.1))) e ⟨tys, false⟩
  have hfin := hN N (Nat.le_refl _)
  cases res with
  | error er =>
    have := fn_fails (P := ⟨C, fnLoc (ps.map (·.1)), true⟩) hv _ (link_agreed hty hd hnd hk' hroot) hs N e' st' er hfin
    subst this
    exact absurd rfl hdv
  | ok ty =>
    obtain rfl := fn_state hv hfin
    obtain ⟨u, h1, h2⟩ := macro_kept hty hd hnd hk' hv hs hfin hroot
    refine ⟨e'.toks ⟨C, fnLoc (ps.map (·.1)), true⟩, u, ?_, h1, fun env as h => eval_call h h2⟩
    have hp : ∀ i q, byIndex ps i = some q → ∃ p, ps[i]? = some p ∧ p.2 = q := fun i q hi => by simpa [byIndex] using hi
    have hnums : Nums (ps.map (·.1)).length e' := by
      have := nums_finish C (fnLoc (ps.map (·.1))) (ps.map (·.1)).length N e ⟨tys, false⟩
        (fn_nums hv fun i q hi => by
          obtain ⟨p, hp, _⟩ := hp i _ hi
          rw [List.length_map]
          exact (List.getElem?_eq_some_iff.1 hp).1)
      rw [hfin] at this
      exact this
    have hno : NamesOk C.env (ps.map (·.1)) := by
      intro s hs
      obtain ⟨p, hp, rfl⟩ := List.mem_map.1 hs
      exact .inr (hw p hp)
    have t1 : toksOk C.env (e'.toks ⟨C, fnLoc (ps.map (·.1)), true⟩) = true := nums_ok hC hE rfl hno e' hnums
    have hg := fnGenerates (name := name) hty ⟨hdv, N, hN⟩
    obtain ⟨hl, hpl⟩ := argTypes_plain hty
    have : fnOut C ⟨name, ps.map (·.1), .expr e⟩ ⟨.expr e', ⟨tys, false⟩, .ok ty⟩ =
        .ok (.macro name (exprParams (ps.map (·.1))) (e'.toks ⟨C, fnLoc (ps.map (·.1)), true⟩)) := by
      unfold fnOut
      dsimp only
      have hexp : (false || (C.function name).isSome || namesVariadic (ps.map (·.1)) || !tys.all ArgTy.isKnown || ty.isNone) = true := by
        rcases hm with ⟨f, hf⟩ | hm
        · simp [hf]
        · simp [hun hm]
      rw [hexp]
      simp only [if_true, MacroBody.toks]
      rw [if_pos, macroParams_expr hl hell hpl]
      have w1 := word_id hn
      have w2 := word_id (word_prefixed hE hn)
      have w3 : toksOk C.env (sepToks q!"," (macroParams (ps.map (·.1)) tys)) = true := toksOk_sep rfl (macroParams_ok hE hno)
      simp only [GenFn.toks]
      toks_ok hE
    rwa [this] at hg

/-- **C88**, including that a macro is generated: the type of some parameter is not declared, or a function with the name of the macro is
known. -/
theorem C88_total_partial (W : Widths) (C : Ctx) (name : Str) (e : Expr) (ps : List (Str × IntTy × Int)) (o : Outcome)
    (hE : C.env.Lawful) (hC : CalmCtx C) (hn : Word C.env name) (hd : Agreed C name ps)
    (hm : (∃ f, C.function name = some f) ∨ ∃ p ∈ ps, C.macroArgTy name p.1 = none)
    (hnd : (ps.map (·.1)).Nodup) (hw : ∀ p ∈ ps, Word C.env p.1) (hk : ∀ p ∈ ps, p.1 ∉ [c!"...", c!"crate", c!"_"])
    (hv : FnValue W False False (byIndex ps) e o) (hs : Separated e)
    (hroot : Rooted C.ffiPrefix := by intro p h; cases h) :
    ∃ code u, FnMacro.Generates C ⟨name, ps.map (·.1), .expr e⟩ (.ok (.macro name (exprParams (ps.map (·.1))) code)) ∧
      rustParse code = some u ∧ ∀ env as, ArgValues W C.ffiPrefix env ps as →
        RustEval W C.ffiPrefix env (inserted (callArgs (ps.map (·.1)) as) u) o :=
  macro_total hE hC hn hd hm hnd hw hk hv hs hroot

/-- **C88** from the definitions on: let `name` be defined as a function-like macro with the parameters `ps`, let the textbook
rules expand its body to `out`, let this be the tokens `ts`, and let the grammar of C read them as the expression `e`. -/
theorem C88_text_partial (W : Widths) (C : Ctx) (L : C.env.Lawful) (hC : CalmCtx C) (h : List Op) (name : Str) (body : List Str)
    (ps : List (Str × IntTy × Int)) (hn : Word C.env name)
    (hP : Spec.Plain (Spec.cName C.env) (Table.run h)) (hB : Spec.NoBackslash (Table.run h))
    (hdef : Table.run h name = some (.fn (ps.map (·.1)) body)) (out : List Item)
    (hx : Expands (Spec.cName C.env) (Table.run h) [name] (Spec.openBody (Spec.cName C.env) (ps.map (·.1)) body) out)
    (ts : List MacroToken) (ht : BodyText C.env (ps.map (·.1)) out ts) (e : Expr) (hg : Gram 12 ts e) (o : Outcome)
    (hd : Agreed C name ps) (hm : (∃ f, C.function name = some f) ∨ ∃ p ∈ ps, C.macroArgTy name p.1 = none)
    (hw : ∀ p ∈ ps, Word C.env p.1) (hk : ∀ p ∈ ps, p.1 ∉ [c!"...", c!"crate", c!"_"])
    (hv : FnValue W False False (byIndex ps) e o) (hs : Separated e)
    (hroot : Rooted C.ffiPrefix := by intro p h; cases h) :
    ∃ code u, MakesFn C h name (.macro name (exprParams (ps.map (·.1))) code) ∧
      rustParse code = some u ∧ ∀ env as, ArgValues W C.ffiPrefix env ps as →
        RustEval W C.ffiPrefix env (inserted (callArgs (ps.map (·.1)) as) u) o := by
  have hell : c!"..." ∉ ps.map (·.1) := by
    intro hm
    obtain ⟨p, hp, he⟩ := List.mem_map.1 hm
    exact hk p hp (by simp [he])
  have hnd : (ps.map (·.1)).Nodup := by
    obtain ⟨_, _, named, hpar, hnd, _⟩ := hP.fn name _ body hdef
    rcases hpar with h | h
    · rw [h]; exact hnd
    · exact absurd (by rw [h]; simp) hell
  obtain ⟨code, u, hmake, h3⟩ := macro_total L hC hn hd hm hnd hw hk hv hs hroot
  exact ⟨code, u, makesFn_of L hn hP hB hdef hell hx ht hg hmake, h3⟩

/-! ## Examples -/

theorem two {p q : Str × IntTy × Int} {a b : RExpr} {P : Str × IntTy × Int → RExpr → Prop} (h1 : P p a) (h2 : P q b) :
    ∀ (i : Nat) (p' : Str × IntTy × Int) (a' : RExpr), [p, q][i]? = some p' → [a, b][i]? = some a' → P p' a'
  | 0, _, _, hp, ha => by cases hp; cases ha; exact h1
  | 1, _, _, hp, ha => by cases hp; cases ha; exact h2
  | _ + 2, _, _, hp, _ => by simp at hp

/-- The variables `a` and `b` as arguments. -/
theorem values_two {W : Widths} {pre : Option RPath} {p q : Str × IntTy × Int} : ArgValues W pre (byName [(c!"a", p.2), (c!"b", q.2)]) [p, q]
    [.name (q!"a"), .name (q!"b")] :=
  ⟨rfl, two ⟨rfl, .name rfl⟩ ⟨rfl, .name rfl⟩⟩

/-- `$x << 4 ^ $y as c_uint & 15`. -/
def mixRules : List RTok := q!"$ x <<" ++ .int 4 [] :: q!"^ $ y as c_uint &" ++ [.int 15 []]

/-- Without types for the parameters, `MIX` becomes a macro.  The call `MIX!(k as c_uint, -l)` is `0x2345678D` if `k` is the `c_ulong`
`0xFF12345678` and `l` the `c_long` 3. -/
example : mixMacro.generate 9 (Ctx.unit asciiEnv) = .ok (.macro c!"MIX" [q!"$ x : expr", q!"$ y : expr"] mixRules) ∧
    ∃ u, rustParse mixRules = some u ∧
      RustEval .lp64 none (byName [(c!"k", .ulong, 0xFF12345678), (c!"l", .long, 3)])
        (inserted (callArgs [c!"x", c!"y"] [.cast (.name (q!"k")) (q!"c_uint"), .un c!"-" (.name (q!"l"))]) u) (.int .uint 0x2345678D) := by
  have hg : mixMacro.generate 9 (Ctx.unit asciiEnv) = .ok (.macro c!"MIX" [q!"$ x : expr", q!"$ y : expr"] mixRules) := rfl
  obtain ⟨_, u, h1, h2⟩ := C88_partial .lp64 (Ctx.unit asciiEnv) mixMacro mixExpr 9 _ _ _ mixParams .uint 0x2345678D rfl rfl hg
    (by intro _ _ _ h; cases h) (by decide) mix_value (by decide) (by simp [mixExpr, Separated, endsCast])
  refine ⟨hg, u, h1, h2 _ _ ⟨rfl, two ⟨rfl, ?_⟩ ⟨rfl, ?_⟩⟩⟩
  · exact .cast (s := .ulong) (t := .uint) (v := 0xFF12345678) rfl (.name rfl) (by decide) (by decide)
  · exact .neg (t := .long) (v := 3) rfl (.name rfl) (by decide)

/-- `if $z != 0 { $x / $z } else { 1 }`. -/
def ratioRules : List RTok := q!"if $ z !=" ++ .int 0 [] :: q!"{ $ x / $ z } else {" ++ .int 1 [] :: q!"}"

/-- `RATIO!(a, b)` is 1 if `b` is zero. -/
example : ratioMacro.generate 9 (Ctx.unit asciiEnv) = .ok (.macro c!"RATIO" [q!"$ x : expr", q!"$ z : expr"] ratioRules) ∧
    ∃ u, rustParse ratioRules = some u ∧
      RustEval .lp64 none (byName [(c!"a", .uint, 7), (c!"b", .uint, 0)])
        (inserted (callArgs [c!"x", c!"z"] [.name (q!"a"), .name (q!"b")]) u) (.int .uint 1) := by
  have hg : ratioMacro.generate 9 (Ctx.unit asciiEnv) = .ok (.macro c!"RATIO" [q!"$ x : expr", q!"$ z : expr"] ratioRules) := rfl
  obtain ⟨_, u, h1, h2⟩ := C88_partial .lp64 (Ctx.unit asciiEnv) ratioMacro ratioExpr 9 _ _ _ _ .uint 1 rfl rfl hg
    (by intro _ _ _ h; cases h) (by decide) ratio_zero (by decide)
    (by simp [ratioExpr, Separated, endsCast, FitsBlock, beginsBlock, blockOps])
  exact ⟨hg, u, h1, h2 _ _ values_two⟩

/-- `GE!(a, b)` answers like C. -/
example : ∃ u, rustParse (q!"! ( $ x < $ z )") = some u ∧
    RustEval .lp64 none (byName [(c!"a", .uint, 7), (c!"b", .uint, 0)])
      (inserted (callArgs [c!"x", c!"z"] [.name (q!"a"), .name (q!"b")]) u) (.truth true) := by
  have hg : (⟨c!"GE", [c!"x", c!"z"], .expr (.un .not (.bin (.var (.arg 0)) .lt (.var (.arg 1))))⟩ : FnMacro).generate 9 (Ctx.unit asciiEnv)
    = .ok (.macro c!"GE" [q!"$ x : expr", q!"$ z : expr"] (q!"! ( $ x < $ z )")) := rfl
  have hx : FnValue .lp64 False False (byIndex [(c!"x", .uint, 7), (c!"z", .uint, 0)]) (.var (.arg 0)) (.int .uint 7) := .param rfl
  have hz : FnValue .lp64 False False (byIndex [(c!"x", .uint, 7), (c!"z", .uint, 0)]) (.var (.arg 1)) (.int .uint 0) := .param rfl
  obtain ⟨_, u, h1, h2⟩ := C88_bool_partial .lp64 (Ctx.unit asciiEnv) _ _ 9 _ _ _ [(c!"x", .uint, 7), (c!"z", .uint, 0)] true rfl rfl hg
    (by intro _ _ _ h; cases h) (by decide)
    (.not (.cmp (op := .lt) (s := .uint) (t := .uint) rfl hx hz (.inr ⟨rfl, .uint, .inl rfl, .inl rfl, by decide, by decide⟩) (.fits (by decide))
      (.fits (by decide))))
    (by decide) (by simp [Separated, endsCast])
  exact ⟨u, h1, h2 _ _ values_two⟩

/-- A macro is generated for `MIX`. -/
example : ∃ code u, FnMacro.Generates (Ctx.unit asciiEnv) mixMacro (.ok (.macro c!"MIX" [q!"$ x : expr", q!"$ y : expr"] code)) ∧
    rustParse code = some u ∧ ∀ env as, ArgValues .lp64 none env mixParams as →
      RustEval .lp64 none env (inserted (callArgs [c!"x", c!"y"] as) u) (.int .uint 0x2345678D) :=
  C88_total_partial .lp64 (Ctx.unit asciiEnv) c!"MIX" mixExpr mixParams (.int .uint 0x2345678D) asciiEnv_lawful (calmCtx_unit _)
    (word_ascii (by decide +kernel)) (by intro _ _ _ h; cases h) (.inr ⟨_, List.mem_cons_self, rfl⟩)
    (by decide) (by intro p hp; simp only [mixParams, List.mem_cons, List.not_mem_nil, or_false] at hp
                    rcases hp with rfl | rfl <;> exact word_ascii (by decide +kernel)) (by decide) mix_value
    (by simp [mixExpr, Separated, endsCast])

/-- Without a type for the parameter `CAP` becomes a macro, and `CAP!(a)` caps 250 to 100. -/
example : ∃ code u, MakesFn (Ctx.unit asciiEnv) capHistory c!"CAP" (.macro c!"CAP" [q!"$ x : expr"] code) ∧
    rustParse code = some u ∧ RustEval .lp64 none (byName [(c!"a", .uint, 250)]) (inserted (callArgs [c!"x"] [.name (q!"a")]) u) (.int .uint 100) := by
  obtain ⟨ts, e, h1, h2, h3, h4⟩ := cap_reads
  obtain ⟨code, u, g1, g2, g3⟩ := C88_text_partial .lp64 (Ctx.unit asciiEnv) asciiEnv_lawful (calmCtx_unit _) capHistory c!"CAP" _
    [(c!"x", .uint, 250)] (word_ascii (by decide +kernel)) capHistory_plain capHistory_noBackslash rfl _ capHistory_expands ts h1 e h2
    (.int .uint 100) (by intro _ _ _ h; cases h) (.inr ⟨_, List.mem_cons_self, rfl⟩)
    (by intro p hp; simp only [List.mem_singleton] at hp; subst hp; exact word_ascii (by decide +kernel)) (by decide) h3 h4.1
  refine ⟨code, u, g1, g2, g3 _ _ ⟨rfl, fun i p a hp ha => ?_⟩⟩
  match i with
  | 0 => cases hp; cases ha; exact ⟨rfl, .name rfl⟩
  | _ + 1 => simp at hp

/-! ## The full claim is false -/

/-- Numbers of different types: if `x` is an `unsigned int` and `y` a `long`, then `x + y + x` is a `long` in C.  The macro is
`$x + $y + $x`, which adds a `c_uint` and a `c_long`. -/
theorem C88_false : ¬ C88_statement := by
  intro h
  have hg : (⟨c!"SUM", [c!"x", c!"y"], .expr sumExpr⟩ : FnMacro).generate 9 (Ctx.unit asciiEnv)
      = .ok (.macro c!"SUM" [q!"$ x : expr", q!"$ y : expr"] (q!"$ x + $ y + $ x")) := rfl
  have hx : FnValue .lp64 True True (byIndex [(c!"x", .uint, 1), (c!"y", .long, 2)]) (.var (.arg 0)) (.int .uint 1) := .param rfl
  have hy : FnValue .lp64 True True (byIndex [(c!"x", .uint, 1), (c!"y", .long, 2)]) (.var (.arg 1)) (.int .long 2) := .param rfl
  have h1 : FnValue .lp64 True True (byIndex [(c!"x", .uint, 1), (c!"y", .long, 2)]) (.bin (.var (.arg 0)) .add (.var (.arg 1))) (.int .long 3) :=
    .bin (s := .uint) (t := .long) rfl rfl hx hy (.inl trivial) (.fits (by decide)) (.fits (by decide)) .add (by rintro ⟨⟩)
      (.fits (by decide))
  have h2 : FnValue .lp64 True True (byIndex [(c!"x", .uint, 1), (c!"y", .long, 2)]) sumExpr (.int .long 4) :=
    .bin (s := .long) (t := .uint) rfl rfl h1 hx (.inl trivial) (.fits (by decide)) (.fits (by decide)) .add (by rintro ⟨⟩)
      (.fits (by decide))
  obtain ⟨_, u, hu, h⟩ := h .lp64 _ _ _ _ _ _ _ [(c!"x", .uint, 1), (c!"y", .long, 2)] _ _ rfl rfl hg (by intro _ _ _ h; cases h) (by decide)
    (by intro p hp; simp only [List.mem_cons, List.not_mem_nil, or_false] at hp; rcases hp with rfl | rfl <;> decide) h2
  obtain rfl : u = .bin c!"+" (.bin c!"+" (.name (q!"$ x")) (.name (q!"$ y"))) (.name (q!"$ x")) := Option.some.inj (hu.symm.trans rfl)
  have h : RustEval .lp64 none (byName [(c!"a", .uint, 1), (c!"b", .long, 2)])
    (.bin c!"+" (.bin c!"+" (.name (q!"a")) (.name (q!"b"))) (.name (q!"a"))) (.int .long 4) := h _ _ values_two
  generalize ho : c!"+" = op, hw : Outcome.int .long 4 = w at h
  cases h with
  | bin hop ho' hl hr =>
    cases hr with
    | name h2 => cases h2; cases hw
  | cmp => cases hw
  | _ => exact absurd ho (by decide)

/-- A comparison is an `int` in C, but a `bool` in Rust. -/
theorem C88_false_bool : ¬ C88_statement := by
  intro h
  have hg : (⟨c!"LT", [c!"x", c!"z"], .expr (.bin (.var (.arg 0)) .lt (.var (.arg 1)))⟩ : FnMacro).generate 9 (Ctx.unit asciiEnv)
    = .ok (.macro c!"LT" [q!"$ x : expr", q!"$ z : expr"] (q!"$ x < $ z")) := rfl
  have hx : FnValue .lp64 True True (byIndex [(c!"x", .uint, 7), (c!"z", .uint, 0)]) (.var (.arg 0)) (.int .uint 7) := .param rfl
  have hz : FnValue .lp64 True True (byIndex [(c!"x", .uint, 7), (c!"z", .uint, 0)]) (.var (.arg 1)) (.int .uint 0) := .param rfl
  obtain ⟨_, u, hu, h⟩ := h .lp64 _ _ _ _ _ _ _ [(c!"x", .uint, 7), (c!"z", .uint, 0)] _ _ rfl rfl hg (by intro _ _ _ h; cases h) (by decide)
    (held_args (by decide) (by decide))
    (.number trivial (.cmp (op := .lt) (s := .uint) (t := .uint) rfl hx hz (.inl trivial) (.fits (by decide)) (.fits (by decide))))
  obtain rfl : u = .bin c!"<" (.name (q!"$ x")) (.name (q!"$ z")) := Option.some.inj (hu.symm.trans rfl)
  have h : RustEval .lp64 none (byName [(c!"a", .uint, 7), (c!"b", .uint, 0)]) (.bin c!"<" (.name (q!"a")) (.name (q!"b"))) (.int .int 0) :=
    h _ _ values_two
  generalize ho : c!"<" = op, hw : Outcome.int .int 0 = w at h
  cases h with
  | bin hop ho' => subst ho; obtain rfl := rustOp_inj (op' := .lt) ho' rfl; cases hop
  | cmp => cases hw
  | _ => exact absurd ho (by decide)

/-- The arguments are not promoted: for `x` of the type `unsigned char`, `x + x` is an `int` in C, 400 if `x` is 200.  In Rust the sum is a
`c_uchar`, and it overflows. -/
theorem C88_false_promote : ¬ C88_statement := by
  intro h
  have hg : (⟨c!"TWICE", [c!"x"], .expr (.bin (.var (.arg 0)) .add (.var (.arg 0)))⟩ : FnMacro).generate 9 (Ctx.unit asciiEnv)
    = .ok (.macro c!"TWICE" [q!"$ x : expr"] (q!"$ x + $ x")) := rfl
  have hx : FnValue .lp64 True True (byIndex [(c!"x", .uchar, 200)]) (.var (.arg 0)) (.int .uchar 200) := .param rfl
  obtain ⟨_, u, hu, h⟩ := h .lp64 _ _ _ _ _ _ _ [(c!"x", .uchar, 200)] .int 400 rfl rfl hg (by intro _ _ _ h; cases h) (by decide)
    (by intro p hp; simp only [List.mem_singleton] at hp; subst hp; decide)
    (.bin (s := .uchar) (t := .uchar) rfl rfl hx hx (.inl trivial) (.fits (by decide)) (.fits (by decide)) .add (by rintro ⟨⟩)
      (.fits (by decide)))
  obtain rfl : u = .bin c!"+" (.name (q!"$ x")) (.name (q!"$ x")) := Option.some.inj (hu.symm.trans rfl)
  have h : RustEval .lp64 none (byName [(c!"x", .uchar, 200)]) (.bin c!"+" (.name (q!"x")) (.name (q!"x"))) (.int .int 400) :=
    h _ [.name (q!"x")] ⟨rfl, fun i p a hp ha => by
      match i with
      | 0 => cases hp; cases ha; exact ⟨rfl, .name rfl⟩
      | _ + 1 => simp at hp⟩
  obtain ⟨_, hu', hn⟩ := twice_overflows (.int .int 400)
  obtain rfl := Option.some.inj (hu'.symm.trans rfl)
  exact hn h

/-- Unsigned numbers wrap around in C: `x - z` is 4294967295 if `x` is 0 and `z` is 1.  In Rust the subtraction overflows. -/
theorem C88_false_wrap : ¬ C88_statement := by
  intro h
  have hg : (⟨c!"DIFF", [c!"x", c!"z"], .expr (.bin (.var (.arg 0)) .sub (.var (.arg 1)))⟩ : FnMacro).generate 9 (Ctx.unit asciiEnv)
    = .ok (.macro c!"DIFF" [q!"$ x : expr", q!"$ z : expr"] (q!"$ x - $ z")) := rfl
  have hx : FnValue .lp64 True True (byIndex [(c!"x", .uint, 0), (c!"z", .uint, 1)]) (.var (.arg 0)) (.int .uint 0) := .param rfl
  have hz : FnValue .lp64 True True (byIndex [(c!"x", .uint, 0), (c!"z", .uint, 1)]) (.var (.arg 1)) (.int .uint 1) := .param rfl
  obtain ⟨_, u, hu, h⟩ := h .lp64 _ _ _ _ _ _ _ [(c!"x", .uint, 0), (c!"z", .uint, 1)] .uint 4294967295 rfl rfl hg (by intro _ _ _ h; cases h)
    (by decide) (held_args (by decide) (by decide))
    (.bin (s := .uint) (t := .uint) rfl rfl hx hz (.inl trivial) (.fits (by decide)) (.fits (by decide)) .sub (by rintro ⟨⟩)
      (.wraps trivial rfl))
  obtain rfl : u = .bin c!"-" (.name (q!"$ x")) (.name (q!"$ z")) := Option.some.inj (hu.symm.trans rfl)
  have h : RustEval .lp64 none (byName [(c!"a", .uint, 0), (c!"b", .uint, 1)]) (.bin c!"-" (.name (q!"a")) (.name (q!"b")))
    (.int .uint 4294967295) := h _ _ values_two
  generalize ho : c!"-" = op, hw : Outcome.int .uint 4294967295 = w at h
  cases h with
  | bin hop ho' hl hr hv _ hh =>
    subst ho
    obtain rfl := rustOp_inj (op' := .sub) ho' rfl
    cases hl with
    | name h1 => cases hr with
      | name h2 => cases h1; cases h2; cases hv; injection hw with _ hw; exact absurd hw (by decide)
  | cmp => cases hw
  | _ => exact absurd ho (by decide)

end CMacro
