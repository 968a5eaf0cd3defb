import Verif.Props.ConstCast
import Verif.Proofs.FnExpand
import Verif.Props.Pipeline

/-!
# Property C64, from the definitions on

For parameters of integer types a function is always generated.
-/

namespace CMacro
open Spec

theorem fromRust_int (pre : Option RPath) (t : IntTy) : Ty.fromRust pre (.prefixed pre t.rustName) = .ok (.builtIn t.cType) := by
  have hs : ∀ (segs : List Str) (x : Str), stripPrefixSegs segs (segs ++ [x]) = some [x] := by
    intro segs x
    induction segs with
    | nil => rfl
    | cons s segs ih => simp [stripPrefixSegs, ih]
  have hn : BuiltInType.ofRustName t.rustName = some t.cType := by cases t <;> decide +kernel
  cases pre with
  | none => simp only [RTy.prefixed, Ty.fromRust, BuiltInType.fromRust, PathKind.hasSelf, Bool.false_eq_true, if_false, hn]
  | some p => simp only [RTy.prefixed, Ty.fromRust, BuiltInType.fromRust, PathKind.hasSelf, Bool.false_eq_true, if_false, if_true, hs, hn]

/-- The parameters have the integer types `ps`, as the user declares them for the macro `name`. -/
def Spec.Declared (C : Ctx) (name : Str) (ps : List (Str × IntTy × Int)) : Prop :=
  ∀ p ∈ ps, C.macroArgTy name p.1 = some (.prefixed C.ffiPrefix p.2.1.rustName)

theorem argTypes_declared {C : Ctx} {name : Str} : ∀ {ps : List (Str × IntTy × Int)}, Spec.Declared C name ps →
    argTypes C name (ps.map (·.1)) = .ok (ps.map fun p => .known (.builtIn p.2.1.cType))
  | [], _ => rfl
  | p :: ps, h => by
    simp only [List.map_cons, argTypes, h p List.mem_cons_self, fromRust_int,
      argTypes_declared (ps := ps) fun q hq => h q (List.mem_cons_of_mem _ hq)]

theorem fnParams_declared (P : PCtx) : ∀ ps : List (Str × IntTy × Int),
    fnParams P (ps.map (·.1)) (ps.map fun p => .known (.builtIn p.2.1.cType)) = paramText P.C.ffiPrefix ps
  | [] => rfl
  | p :: ps => by
    have ih := fnParams_declared P ps
    simp only [List.map_cons, fnParams, ih, paramText]
    rw [tyText_is]
    rfl

theorem link_declared {C : Ctx} {ps : List (Str × IntTy × Int)} (hnd : (ps.map (·.1)).Nodup)
    (hk : ∀ p ∈ ps, p.1 ∉ c!"..." :: rustKeywords) (hroot : Rooted C.ffiPrefix) :
    Link ⟨C, fnLoc (ps.map (·.1)), false⟩ ⟨ps.map fun p => .known (.builtIn p.2.1.cType), false⟩ (byIndex ps) (byName ps) := by
  refine link_of hnd (fun i x p h hx => ?_) (fun i p hp => ?_) (fun p hp => ?_) hroot
  · cases hx
    exact byName_of hnd i p h
  · refine ⟨by simp [fnLoc, hp], _, by simp [LState.argTy, hp]; rfl, ?_⟩
    rintro _ ⟨⟩
    exact tyText_is _ _
  · have := hk p hp
    simp only [List.mem_cons, not_or] at this
    exact ⟨this.1, fun _ => this.2⟩

/-- A function is generated, and it yields what the C expression yields. -/
theorem fn_total {W : Widths} {C : Ctx} {name : Str} {e : Expr} {ps : List (Str × IntTy × Int)} {o : Outcome}
    (hE : C.env.Lawful) (hC : CalmCtx C) (hn : Word C.env name) (hf : C.function name = none) (hd : Spec.Declared C name ps)
    (hnd : (ps.map (·.1)).Nodup) (hw : ∀ p ∈ ps, Word C.env p.1) (hk : ∀ p ∈ ps, p.1 ∉ c!"..." :: rustKeywords)
    (hc : constant e = false) (hv : FnValue W False False (byIndex ps) e o) (hs : Separated e) (hfit : FitsBlock e) (hroot : Rooted C.ffiPrefix) :
    ∃ code u, FnMacro.Generates C ⟨name, ps.map (·.1), .expr e⟩
        (.ok (.fn name (paramText C.ffiPrefix ps) (some ((outTy o).toks ⟨C, fnLoc (ps.map (·.1)), false⟩)) code)) ∧
      rustBlock code = some u ∧ RustEval W C.ffiPrefix (byName ps) u o := by
  have hlink := link_declared (C := C) hnd hk hroot
  obtain ⟨⟨e', st', res⟩, hdv, N, hN⟩ := finish_ends C (fnLoc (ps.map (·.1))) e ⟨ps.map fun p => .known (.builtIn p.2.1.cType), false⟩
  have hfin := hN N (Nat.le_refl _)
  cases res with
  | error er =>
    have := fn_fails (P := ⟨C, fnLoc (ps.map (·.1)), false⟩) hv _ hlink hs N e' st' er hfin
    subst this
    exact absurd rfl hdv
  | ok ty =>
    obtain rfl := fn_state hv hfin
    have hp : ∀ i q, byIndex ps i = some q → ∃ p, ps[i]? = some p ∧ p.2 = q := fun i q hi => by simpa [byIndex] using hi
    obtain rfl := fn_type (P := ⟨C, fnLoc (ps.map (·.1)), false⟩) hv ⟨⟨_, hlink⟩, fun i t v hi => by
      obtain ⟨p, hp, hpe⟩ := hp i _ hi
      simp [LState.argTy, hp, hpe]⟩ hs hc _ _ _ _ hfin
    have key := fn_finish (P := ⟨C, fnLoc (ps.map (·.1)), false⟩) (L := fnLoc (ps.map (·.1))) hv (byName ps) N e' _ _ hlink hfin hs
    have k : Kept W ⟨C, fnLoc (ps.map (·.1)), false⟩ (byName ps) e e' (some (outTy o)) o := by
      cases o with
      | truth b => exact key
      | int t v => exact key hc
    obtain ⟨u, h1, _, h3⟩ := k.tree
    have hnums : Nums (ps.map (·.1)).length e' := by
      have := nums_finish C (fnLoc (ps.map (·.1))) (ps.map (·.1)).length N e ⟨ps.map fun p => .known (.builtIn p.2.1.cType), false⟩
        (fn_nums hv fun i q hi => by
          obtain ⟨p, hp, _⟩ := hp i _ hi
          rw [List.length_map]
          exact (List.getElem?_eq_some_iff.1 hp).1)
      rw [hfin] at this
      exact this
    have hno : NamesOk C.env (ps.map (·.1)) := by
      intro s hs
      obtain ⟨p, hp, rfl⟩ := List.mem_map.1 hs
      exact .inr (hw p hp)
    have t1 : toksOk C.env (e'.toks ⟨C, fnLoc (ps.map (·.1)), false⟩) = true := nums_ok hC hE rfl hno e' hnums
    have t2 : toksOk C.env ((outTy o).toks ⟨C, fnLoc (ps.map (·.1)), false⟩) = true := by
      cases o <;> exact ty_ok (ps := ps.map (·.1)) hC hE rfl hno trivial
    refine ⟨e'.toks ⟨C, fnLoc (ps.map (·.1)), false⟩, u, ?_, C37_block_partial _ _ _ h1 k.sep (k.fits hfit), h3⟩
    have hg := fnGenerates (name := name) (argTypes_declared hd) ⟨hdv, N, hN⟩
    have hvar : namesVariadic (ps.map (·.1)) = false := by
      simp only [namesVariadic, decide_eq_false_iff_not]
      intro hl
      obtain ⟨p, hp, he⟩ := List.mem_map.1 (List.mem_of_getLast? hl)
      exact hk p hp (by simp [he])
    have hkn : (ps.map fun p => ArgTy.known (.builtIn p.2.1.cType)).all ArgTy.isKnown = true := by
      simp [ArgTy.isKnown]
    have hvoid : (outTy o).isVoid = false := by
      cases o with
      | int t v => cases t <;> rfl
      | truth b => rfl
    have : fnOut C ⟨name, ps.map (·.1), .expr e⟩ ⟨.expr e', ⟨ps.map fun p => .known (.builtIn p.2.1.cType), false⟩, .ok (some (outTy o))⟩ =
        .ok (.fn name (paramText C.ffiPrefix ps) (some ((outTy o).toks ⟨C, fnLoc (ps.map (·.1)), false⟩))
          (e'.toks ⟨C, fnLoc (ps.map (·.1)), false⟩)) := by
      unfold fnOut
      dsimp only
      simp only [hf, hvar, hkn, Option.isSome_none, Option.isNone_some, Bool.or_false, Bool.not_true, Bool.false_eq_true, if_false,
        fnParams_declared, retToks, hvoid, MacroBody.toks]
      rw [if_pos]
      have w1 := word_id hn
      have w2 : toksOk C.env (sepToks q!"," ((paramText C.ffiPrefix ps).map (q!"mut" ++ ·))) = true := by
        refine toksOk_sep rfl fun x hx => ?_
        obtain ⟨y, hy, rfl⟩ := List.mem_map.1 hx
        refine toksOk_append (toksOk_fixed hE (by decide +kernel)) ?_
        rw [← fnParams_declared ⟨C, fnLoc (ps.map (·.1)), false⟩] at hy
        refine fnParams_ok (ps := ps.map (·.1)) hC hE rfl hno (fun s hs => ?_) (fun t ht => ?_) hkn y hy
        · obtain ⟨p, hp, rfl⟩ := List.mem_map.1 hs
          exact hw p hp
        · obtain ⟨p, _, rfl⟩ := List.mem_map.1 ht
          trivial
      simp only [GenFn.toks]
      toks_ok hE
    rwa [this] at hg

/-- **C64**, including that a function is generated: the user declares integer types for the parameters, and no function with
the name of the macro is known. -/
theorem C64_total_partial (W : Widths) (C : Ctx) (name : Str) (e : Expr) (ps : List (Str × IntTy × Int)) (t : IntTy) (v : Int)
    (hE : C.env.Lawful) (hC : CalmCtx C) (hn : Word C.env name) (hf : C.function name = none) (hd : Spec.Declared C name ps)
    (hnd : (ps.map (·.1)).Nodup) (hw : ∀ p ∈ ps, Word C.env p.1) (hk : ∀ p ∈ ps, p.1 ∉ c!"..." :: rustKeywords)
    (hc : constant e = false) (hv : FnValue W False False (byIndex ps) e (.int t v)) (hs : Separated e) (hfit : FitsBlock e) (hroot : Rooted C.ffiPrefix := by intro p h; cases h) :
    ∃ code u, FnMacro.Generates C ⟨name, ps.map (·.1), .expr e⟩
        (.ok (.fn name (paramText C.ffiPrefix ps) (some (tyText C.ffiPrefix t)) code)) ∧
      rustBlock code = some u ∧ RustEval W C.ffiPrefix (byName ps) u (.int t v) := by
  obtain ⟨code, u, h⟩ := fn_total hE hC hn hf hd hnd hw hk hc hv hs hfit hroot
  rw [outTy, tyText_is] at h
  exact ⟨code, u, h⟩

/-- The same for conditions. -/
theorem C64_total_bool_partial (W : Widths) (C : Ctx) (name : Str) (e : Expr) (ps : List (Str × IntTy × Int)) (b : Bool)
    (hE : C.env.Lawful) (hC : CalmCtx C) (hn : Word C.env name) (hf : C.function name = none) (hd : Spec.Declared C name ps)
    (hnd : (ps.map (·.1)).Nodup) (hw : ∀ p ∈ ps, Word C.env p.1) (hk : ∀ p ∈ ps, p.1 ∉ c!"..." :: rustKeywords)
    (hc : constant e = false) (hv : FnValue W False False (byIndex ps) e (.truth b)) (hs : Separated e) (hfit : FitsBlock e) (hroot : Rooted C.ffiPrefix := by intro p h; cases h) :
    ∃ code u, FnMacro.Generates C ⟨name, ps.map (·.1), .expr e⟩
        (.ok (.fn name (paramText C.ffiPrefix ps) (some (q!"bool")) code)) ∧
      rustBlock code = some u ∧ RustEval W C.ffiPrefix (byName ps) u (.truth b) :=
  fn_total hE hC hn hf hd hnd hw hk hc hv hs hfit hroot

/-! ## From the definitions on -/

/-- The text of an expanded body: names that are left, parameters, and other tokens of C. -/
inductive Spec.BodyText (E : Env) (params : List Str) : List Item → List MacroToken → Prop
  | nil : BodyText E params [] []
  | name {id p is ts} : BodyText E params is ts → BodyText E params (.name id p :: is) (.ident id :: ts)
  | param {s i is ts} : paramIndex params s = some i → BodyText E params is ts → BodyText E params (.other s :: is) (.arg i :: ts)
  | other {s t is ts} : s ∉ params → s ≠ c!"__VA_ARGS__" → CToken E s t → BodyText E params is ts →
      BodyText E params (.other s :: is) (t :: ts)

theorem outToken_bodyText {E : Env} (L : E.Lawful) {params : List Str} {is : List Item} {ts : List MacroToken} (h : BodyText E params is ts) :
    is.map (outToken E params) = ts.map some := by
  induction h with
  | nil => rfl
  | name _ ih => simp only [List.map_cons, outToken, ih]
  | param hi _ ih => simp only [List.map_cons, outToken, hi, ih]
  | other h1 h2 h _ ih => simp only [List.map_cons, outToken, paramIndex_none.2 h1, if_neg h2, (classify_cToken L h).1, ih]

/-- Expansion, parsing and generation of a function-like macro, one after the other. -/
def MakesFn (C : Ctx) (h : List Op) (name : Str) (out : GenFn) : Prop := ∃ N, ∀ n ≥ N, pipeFn n C h name = .gen (.ok out)

theorem idsOf_idents : ∀ xs : List Str, idsOf (xs.map .ident) = xs
  | [] => rfl
  | x :: xs => by simp [idsOf, idsOf_idents xs]

/-- What is generated from the expression that the grammar reads is what is generated from the definitions. -/
theorem makesFn_of {C : Ctx} (L : C.env.Lawful) {h : List Op} {name : Str} {xs body : List Str} (hn : Word C.env name)
    (hP : Spec.Plain (Spec.cName C.env) (Table.run h)) (hB : Spec.NoBackslash (Table.run h))
    (hdef : Table.run h name = some (.fn xs body)) (hell : c!"..." ∉ xs) {out : List Item}
    (hx : Expands (Spec.cName C.env) (Table.run h) [name] (Spec.openBody (Spec.cName C.env) xs body) out)
    {ts : List MacroToken} (ht : BodyText C.env xs out ts) {e : Expr} (hg : Gram 12 ts e) {res : GenFn}
    (hmake : FnMacro.Generates C ⟨name, xs, .expr e⟩ (.ok res)) : MakesFn C h name res := by
  obtain ⟨n₂, h2⟩ := hmake
  have hP' := plain_cName L hP
  have hx' := expands_congr (g := nameOf C.env) (fun id d hd s hs => cName_is L (hB id d hd s hs)) hx
  rw [show Spec.openBody (Spec.cName C.env) xs body = Spec.openBody (nameOf C.env) xs body from
    List.map_congr_left fun s hs => by simp only [Spec.item, cName_is L (hB name _ hdef s hs)]] at hx'
  obtain ⟨_, n₁, h1⟩ := expandFn_of_expands (variadic := false) L (agrees_run h) hP' (by simpa using hdef) hell hx'
    (outToken_bodyText L ht)
  simp only [Bool.false_eq_true, if_false, List.append_nil] at h1
  refine ⟨max n₁ n₂, fun n hn' => ?_⟩
  have h4 : (MacroSet.run h).expandFn C.env n name = .ok (xs.map .ident, ts) := by
    rw [← h1]
    exact (expandFn_le C.env _ (show n₁ ≤ n by omega) name).eq (by rw [h1]; simp)
  have hi : isIdentifier C.env name = true := isIdent_iff.2 hn
  have hpa : FnMacro.parseArgs (xs.map .ident) = some (xs, []) := by
    have hx : IdsAndComments (xs.map .ident) := fun t ht => by
      obtain ⟨id, _, rfl⟩ := List.mem_map.1 ht
      exact .inl ⟨id, rfl⟩
    rw [parseArgs_plain hx, idsOf_idents]
  simp only [pipeFn, h4, C35_fn_grammar C.env hi hpa hg, h2 n (by omega)]

/-- **C64** from the definitions on: let `name` be defined as a function-like macro with the parameters `ps`, let the textbook
rules expand its body to `out`, let this be the tokens `ts`, and let the grammar of C read them as the expression `e`. -/
theorem C64_text_partial (W : Widths) (C : Ctx) (L : C.env.Lawful) (hC : CalmCtx C) (h : List Op) (name : Str) (body : List Str)
    (ps : List (Str × IntTy × Int)) (hn : Word C.env name)
    (hP : Spec.Plain (Spec.cName C.env) (Table.run h)) (hB : Spec.NoBackslash (Table.run h))
    (hdef : Table.run h name = some (.fn (ps.map (·.1)) body)) (out : List Item)
    (hx : Expands (Spec.cName C.env) (Table.run h) [name] (Spec.openBody (Spec.cName C.env) (ps.map (·.1)) body) out)
    (ts : List MacroToken) (ht : BodyText C.env (ps.map (·.1)) out ts) (e : Expr) (hg : Gram 12 ts e) (t : IntTy) (v : Int)
    (hf : C.function name = none) (hd : Spec.Declared C name ps)
    (hw : ∀ p ∈ ps, Word C.env p.1) (hk : ∀ p ∈ ps, p.1 ∉ c!"..." :: rustKeywords)
    (hc : constant e = false) (hv : FnValue W False False (byIndex ps) e (.int t v)) (hs : Separated e) (hfit : FitsBlock e) (hroot : Rooted C.ffiPrefix := by intro p h; cases h) :
    ∃ code u, MakesFn C h name (.fn name (paramText C.ffiPrefix ps) (some (tyText C.ffiPrefix t)) code) ∧
      rustBlock code = some u ∧ RustEval W C.ffiPrefix (byName ps) u (.int t v) := by
  have hell : c!"..." ∉ ps.map (·.1) := by
    intro hm
    obtain ⟨p, hp, he⟩ := List.mem_map.1 hm
    exact hk p hp (by simp [he])
  have hnd : (ps.map (·.1)).Nodup := by
    obtain ⟨_, _, named, hpar, hnd, _⟩ := hP.fn name _ body hdef
    rcases hpar with h | h
    · rw [h]; exact hnd
    · exact absurd (by rw [h]; simp) hell
  obtain ⟨code, u, hmake, h3⟩ := C64_total_partial W C name e ps t v L hC hn hf hd hnd hw hk hc hv hs hfit hroot
  exact ⟨code, u, makesFn_of L hn hP hB hdef hell hx ht hg hmake, h3⟩

theorem word_ascii {s : Str} (h : isIdentifier asciiEnv s = true) : Word asciiEnv s := isIdent_iff.1 h

theorem calmCtx_uint : CalmCtx uintCtx := by
  refine ⟨by simp [uintCtx, Ctx.unit], by simp [uintCtx, Ctx.unit], fun m a t h => ?_, by simp [uintCtx, Ctx.unit], by simp [uintCtx, Ctx.unit],
    by simp [uintCtx, Ctx.unit], by simp [uintCtx, Ctx.unit]⟩
  simp only [uintCtx, Option.some.injEq] at h
  subst h
  intro s hs
  simp only [List.mem_singleton] at hs
  subst hs
  split <;> exact word_ascii (by decide +kernel)

/-- `MIX` becomes a function, of this value. -/
example : ∃ code u, FnMacro.Generates uintCtx mixMacro (.ok (.fn c!"MIX" (paramText none mixParams) (some (q!"c_uint")) code)) ∧
    rustBlock code = some u ∧ RustEval .lp64 none (byName mixParams) u (.int .uint 0x2345678D) :=
  C64_total_partial .lp64 uintCtx c!"MIX" mixExpr mixParams .uint 0x2345678D asciiEnv_lawful calmCtx_uint (word_ascii (by decide +kernel)) rfl
    (by intro p hp; simp only [mixParams, List.mem_cons, List.not_mem_nil, or_false] at hp; rcases hp with rfl | rfl <;> rfl)
    (by decide) (by intro p hp; simp only [mixParams, List.mem_cons, List.not_mem_nil, or_false] at hp
                    rcases hp with rfl | rfl <;> exact word_ascii (by decide +kernel)) (by decide) rfl mix_value
    (by simp [mixExpr, Separated, endsCast]) (.inr rfl)

/-- `#define LIMIT 100`, `#define MIN(a, b) a < b ? a : b`, `#define CAP(x) MIN(x, LIMIT)`. -/
def capHistory : List Op :=
  [.defineVar c!"LIMIT" [c!"100"],
   .defineFn c!"MIN" [c!"a", c!"b"] [c!"a", c!"<", c!"b", c!"?", c!"a", c!":", c!"b"],
   .defineFn c!"CAP" [c!"x"] [c!"MIN", c!"(", c!"x", c!",", c!"LIMIT", c!")"]]

theorem capHistory_noBackslash : Spec.NoBackslash (Table.run capHistory) := by
  refine noBackslash_of ?_
  intro id d hd
  rcases run_mem hd with ⟨b, rfl, h⟩ | ⟨p, b, rfl, h⟩ <;> simp [capHistory] at h
  · obtain ⟨rfl, rfl⟩ := h; decide
  · rcases h with ⟨rfl, rfl, rfl⟩ | ⟨rfl, rfl, rfl⟩ <;> decide

theorem capHistory_plain : Spec.Plain (Spec.cName asciiEnv) (Table.run capHistory) where
  var := by
    intro id body h
    rcases run_mem h with ⟨b, h', hm⟩ | ⟨p, b, h', hm⟩ <;> cases h' <;> simp [capHistory] at hm
    obtain ⟨rfl, rfl⟩ := hm
    exact ⟨by decide, by decide⟩
  fn := by
    intro id params body h
    have hc : ∀ p ∈ [c!"a", c!"b", c!"x"], Spec.cName asciiEnv p = some p ∧ p ≠ c!"..." := by
      intro p hp
      rw [cName_eq asciiEnv (by revert p; decide)]
      revert p
      decide +kernel
    rcases run_mem h with ⟨b, h', hm⟩ | ⟨p, b, h', hm⟩ <;> cases h' <;> simp [capHistory] at hm
    rcases hm with ⟨rfl, rfl, rfl⟩ | ⟨rfl, rfl, rfl⟩
    · exact ⟨by decide, by decide, _, .inl rfl, by decide, fun p hp => hc p (by revert p; decide)⟩
    · exact ⟨by decide, by decide, _, .inl rfl, by decide, fun p hp => hc p (by revert p; decide)⟩

/-- The body of `CAP` expands to `x < 100 ? x : 100`. -/
theorem capHistory_expands :
    Expands (Spec.cName asciiEnv) (Table.run capHistory) [c!"CAP"]
      (Spec.openBody (Spec.cName asciiEnv) [c!"x"] [c!"MIN", c!"(", c!"x", c!",", c!"LIMIT", c!")"])
      [.other c!"x", .other c!"<", .other c!"100", .other c!"?", .other c!"x", .other c!":", .other c!"100"] := by
  refine expands_congr (f := nameOf asciiEnv)
    (fun id d hd s hs => (cName_is asciiEnv_lawful (capHistory_noBackslash id d hd s hs)).symm) ?_
  rw [show Spec.openBody (Spec.cName asciiEnv) [c!"x"] [c!"MIN", c!"(", c!"x", c!",", c!"LIMIT", c!")"] =
    Spec.openBody (nameOf asciiEnv) [c!"x"] [c!"MIN", c!"(", c!"x", c!",", c!"LIMIT", c!")"] from
    List.map_congr_left fun s hs => by
      simp only [Spec.item, cName_is asciiEnv_lawful (capHistory_noBackslash c!"CAP" _ rfl s hs)]]
  rw [show Spec.openBody (nameOf asciiEnv) [c!"x"] [c!"MIN", c!"(", c!"x", c!",", c!"LIMIT", c!")"] =
    [.name c!"MIN" false, .other c!"(", .other c!"x", .other c!",", .name c!"LIMIT" false, .other c!")"] from by decide +kernel]
  refine .call (args := [[.other c!"x"], [.name c!"LIMIT" false]]) (args' := [[.other c!"x"], [.other c!"100"]]) (rest := [])
    (b := [.other c!"x", .other c!"<", .other c!"100", .other c!"?", .other c!"x", .other c!":", .other c!"100"]) (out := [])
    (by decide) rfl (by decide) (call_of_check (by decide)) (.inl rfl)
    (.cons (.other .nil) (.cons (.object (b := [.other c!"100"]) (out := []) (by decide) rfl ?_ .nil) .nil)) ?_ .nil
  · rw [show [c!"100"].map (Spec.item (nameOf asciiEnv)) = [.other c!"100"] from by decide +kernel]
    exact .other .nil
  · rw [show Spec.subst (nameOf asciiEnv) [c!"a", c!"b"] [[.other c!"x"], [.other c!"100"]] none
      [c!"a", c!"<", c!"b", c!"?", c!"a", c!":", c!"b"] = [.other c!"x", .other c!"<", .other c!"100",
        .other c!"?", .other c!"x", .other c!":", .other c!"100"] from by decide +kernel]
    exact .other (.other (.other (.other (.other (.other (.other .nil))))))

/-- `x < 100 ? x : 100` as tokens and as an expression; it is 100 if `x` is 250. -/
theorem cap_reads : ∃ ts e, BodyText asciiEnv [c!"x"]
      [.other c!"x", .other c!"<", .other c!"100", .other c!"?", .other c!"x", .other c!":", .other c!"100"] ts ∧ Gram 12 ts e ∧
    FnValue .lp64 False False (byIndex [(c!"x", .uint, 250)]) e (.int .uint 100) ∧ Separated e ∧ FitsBlock e ∧ constant e = false := by
  have hundred : Spec.CToken asciiEnv c!"100" (.lit (.int ⟨100, none⟩)) :=
    .int (s := c!"100") (t := []) (v := 100) (Spec.IntConst.dec (ds := [1, 0, 0]) (s := c!"100")
      (.cons ⟨by decide, .inl (by decide)⟩ (.cons ⟨by decide, .inl (by decide)⟩ (.cons ⟨by decide, .inl (by decide)⟩ .nil)))
      (by decide) (by decide)) (by decide) (by decide)
  have p : ∀ s ∈ Spec.punctuators, Spec.CToken asciiEnv s (.punct s) := fun s hs => .punct hs
  have up : ∀ {ℓ ts e}, Gram ℓ ts e → ∀ k, ℓ + k ≤ 12 → Gram (ℓ + k) ts e := by
    intro ℓ ts e h k
    induction k with
    | zero => exact fun _ => h
    | succ k ih => exact fun hk => .up (ℓ := ℓ + k) (ih (by omega)) (by omega)
  have gx : Gram 0 [.arg 0] (.var (.arg 0)) := .name .arg
  have gl : Gram 0 [.lit (.int ⟨100, none⟩)] (.lit (.int ⟨100, none⟩)) := .lit
  have lt := Gram.bin (ℓ := 5) (p := c!"<") (op := .lt) (by decide) (up gx 6 (by decide)) (up gl 5 (by decide))
  have g := Gram.up (Gram.cond (up lt 4 (by decide)) (up gx 12 (by decide)) (up gl 11 (by decide))) (by decide)
  have l100 : ConstTy .lp64 ⟨100, none⟩ .int := ⟨true, [], _, rfl, by simp, by decide⟩
  have hl : ∀ ρ, FnValue .lp64 False False ρ (.lit (.int ⟨100, none⟩)) (.int .int 100) := fun ρ => .const (.lit l100)
  have hx : FnValue .lp64 False False (byIndex [(c!"x", .uint, 250)]) (.var (.arg 0)) (.int .uint 250) := .param rfl
  have hlt : FnValue .lp64 False False (byIndex [(c!"x", .uint, 250)]) (.bin (.var (.arg 0)) .lt (.lit (.int ⟨100, none⟩))) (.truth false) :=
    .cmp (op := .lt) rfl hx (hl _) (.inr ⟨rfl, .uint, .inl rfl, .inr rfl, by decide, by decide⟩) (.fits (by decide)) (.fits (by decide))
  have hv : FnValue .lp64 False False (byIndex [(c!"x", .uint, 250)])
      (.ternary (.bin (.var (.arg 0)) .lt (.lit (.int ⟨100, none⟩))) (.var (.arg 0)) (.lit (.int ⟨100, none⟩))) (.int .uint 100) :=
    .condFalse (s := .uint) (t := .int) rfl hlt rfl (fun _ => rfl) hx (hl _) (.inr ⟨rfl, .inr (.inr ⟨rfl, rfl⟩)⟩) (.fits (by decide))
  refine ⟨_, _, .param rfl (.other (by decide) (by decide) (p _ (by decide)) (.other (by decide) (by decide) hundred
      (.other (by decide) (by decide) (p _ (by decide)) (.param rfl (.other (by decide) (by decide) (p _ (by decide))
        (.other (by decide) (by decide) hundred .nil)))))), g, hv, ?_, .inl rfl, rfl⟩
  simp [Separated, FitsBlock, endsCast, beginsBlock]

/-- `CAP` becomes a function from `c_uint` to `c_uint`, which caps 250 to 100. -/
example : ∃ code u, MakesFn uintCtx capHistory c!"CAP" (.fn c!"CAP" [q!"x : c_uint"] (some (q!"c_uint")) code) ∧
    rustBlock code = some u ∧ RustEval .lp64 none (byName [(c!"x", .uint, 250)]) u (.int .uint 100) := by
  obtain ⟨ts, e, h1, h2, h3, h4, h5, h6⟩ := cap_reads
  exact C64_text_partial .lp64 uintCtx asciiEnv_lawful calmCtx_uint capHistory c!"CAP" _ [(c!"x", .uint, 250)] (word_ascii (by decide +kernel))
    capHistory_plain capHistory_noBackslash rfl _ capHistory_expands ts h1 e h2 .uint 100 rfl
    (by intro p hp; simp only [List.mem_singleton] at hp; subst hp; rfl)
    (by intro p hp; simp only [List.mem_singleton] at hp; subst hp; exact word_ascii (by decide +kernel)) (by decide) h6 h3 h4 h5

end CMacro
