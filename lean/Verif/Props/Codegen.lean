import Verif.Proofs.Generate
import Verif.Proofs.Fold
import Verif.Model.Pipeline
import Verif.Spec.Rust

/-!
# Properties C28, C33, C34, C38, C39: pieces of the code generator
-/

namespace CMacro
open Spec (Value BinValue)

/-! ## C28: integer literals under a cast -/

/-- What a generated cast of the number `v` looks like: a null pointer for 0, a discarded value for
`void`, otherwise a literal `v` whose type contains `v`, followed by `as`. -/
def Spec.CastOf (v : Int) (ts : List RTok) : Prop :=
  (v = 0 ∧ ∃ pre, ts = pre ++ q!"ptr :: null ( )" ∨ ts = pre ++ q!"ptr :: null_mut ( )") ∨
  (ts = q!"{ let _ =" ++ [.int v []] ++ q!"; }") ∨
  (∃ suffix ty, Spec.rustRange suffix v ∧ ts = [.int v suffix] ++ q!"as" ++ ty)

theorem castLit_range (v : Int) (h : Spec.I128 v) : ∃ s, castLit v = [.int v s] ∧ Spec.rustRange s v := by
  unfold Spec.I128 at h
  unfold castLit Spec.rustRange
  repeat' split
  all_goals refine ⟨_, rfl, ?_⟩
  all_goals simp only [true_and, false_and, false_or, or_false, List.cons.injEq, and_false, reduceCtorEq, Char.reduceEq, and_true, and_self]
  all_goals omega

theorem castToks_spec (P : PCtx) (ty : Ty) (i : LitInt) :
    Spec.CastOf i.value.toInt (castToks P ty (.lit (.int i)) (Expr.toks P (.lit (.int i)))) := by
  have hz : (Expr.lit (.int i)).isZeroLit = true → i.value.toInt = 0 := by
    simp only [Expr.isZeroLit, decide_eq_true_eq]
    rintro h; rw [h]; rfl
  unfold castToks
  split
  · rename_i h
    simp only [Bool.and_eq_true] at h
    exact .inl ⟨hz h.2, _, .inl rfl⟩
  · split
    · rename_i h
      simp only [Bool.and_eq_true] at h
      exact .inl ⟨hz h.2, _, .inr rfl⟩
    · split
      · exact .inr (.inl rfl)
      · obtain ⟨s, hs, hr⟩ := castLit_range _ (toInt_I128 i.value)
        exact .inr (.inr ⟨s, _, hr, by rw [castOperand, hs]⟩)

theorem ev_cast_int {C : Ctx} {L : Loc} {ty ty' : Ty} {st st' : LState} {r : CgRes (Option Ty)} (i : LitInt)
    (h : ty.finish C st = ⟨ty', st', r⟩) :
    Ev C L (.cast ty (.lit (.int i))) st ⟨.cast ty' (.lit (.int i)), st',
      match r with | .ok _ => .ok (some ty') | .error e => .error e⟩ := by
  have hb : castAsBinary C ty' (.lit (.int i)) = none := by unfold castAsBinary; split <;> simp_all
  have hs : castOfString ty' (.lit (.int i)) = false := by unfold castOfString; split <;> simp_all
  have hc : castAsProduct ty' (.lit (.int i)) = none := rfl
  rcases r with e | t
  · refine .step ?_ 0 fun n _ => by
      simp only [finishStep, h, hc]
      split <;> simp_all
    have := Ty.finish_ne C ty st
    rw [h] at this
    simpa using this
  · refine .step (by simp) 1 fun n hn => ?_
    obtain ⟨m, rfl⟩ : ∃ m, n = m + 1 := ⟨n - 1, by omega⟩
    simp only [finishStep, h, Expr.finish, hb, hs, Lit.finish]
    simp

/-- **C28**: every constant generated for a cast of an integer literal keeps the number and uses a
literal type that can hold it. -/
theorem C28_cast_literal (C : Ctx) (name : Str) (ty : Ty) (i : LitInt) (out : List RTok × Option (List RTok))
    (h : VarMacro.Generates C ⟨name, .expr (.cast ty (.lit (.int i)))⟩ (.ok out)) :
    Spec.CastOf i.value.toInt out.1 := by
  rcases hf : ty.finish C .init with ⟨ty', st, r⟩
  have := h.unique (varGenerates (ev_cast_int i hf))
  rcases r with e | t
  · cases this
  · simp only [varOut] at this
    repeat' split at this
    all_goals first | (cases this; done) | skip
    cases this
    exact castToks_spec _ _ _

/-- **C28** for function-like macros. -/
theorem C28_cast_literal_fn (C : Ctx) (name : Str) (args : List Str) (ty : Ty) (i : LitInt) (out : GenFn)
    (h : FnMacro.Generates C ⟨name, args, .expr (.cast ty (.lit (.int i)))⟩ (.ok out)) :
    ∃ ts, Spec.CastOf i.value.toInt ts ∧
      ((∃ params, out = .macro name params ts) ∨ ∃ params ret, out = .fn name params ret ts) := by
  obtain ⟨tys, ha⟩ := h.argTypes
  rcases hf : ty.finish C ⟨tys, false⟩ with ⟨ty', st, r⟩
  have := h.unique (fnGenerates ha (ev_cast_int i hf))
  rcases r with e | t
  · cases this
  · obtain ⟨_, ⟨_, rfl⟩ | ⟨_, rfl⟩⟩ := fnOut_ok this.symm
    · exact ⟨_, castToks_spec _ ty' i, .inl ⟨_, rfl⟩⟩
    · exact ⟨_, castToks_spec _ ty' i, .inr ⟨_, _, rfl⟩⟩

/-- `(int) -129`, a number that does not fit `i8`. -/
example : VarMacro.generate 5 (Ctx.unit asciiEnv) ⟨c!"M", .expr (.cast (.builtIn .int) (.lit (.int ⟨-129, none⟩)))⟩
    = .ok ([.int (-129) c!"i16"] ++ q!"as c_int", some q!"c_int") := by decide +kernel

/-! ## C33: qualifiers -/

/-- Qualifiers in front of or after a type name. -/
def Spec.IsQuals (ws : List Str) : Prop :=
  ws = [] ∨ ws = [c!"const"] ∨ ws = [c!"volatile"] ∨ ws = [c!"const", c!"volatile"] ∨ ws = [c!"volatile", c!"const"]

/-- Whether a type is `const`, and whether it is `volatile`. -/
def Spec.qualsOf : Ty → Bool × Bool
  | .qualified _ .const => (true, false)
  | .qualified _ .volatile => (false, true)
  | .qualified _ .constVolatile => (true, true)
  | _ => (false, false)

/-- Words with a meaning of their own in a type. -/
def Spec.tyKeywords : List Str :=
  [c!"const", c!"volatile", c!"void", c!"bool", c!"float", c!"long", c!"double", c!"unsigned", c!"signed", c!"short",
   c!"char", c!"int", c!"struct"]

/-- A type name of one word. -/
def Spec.TyName (T : Str) : Prop :=
  T ∈ [c!"void", c!"bool", c!"float", c!"double", c!"char", c!"int"] ∨ T ∉ Spec.tyKeywords

/-- The parse of `q1 T q2` has the qualifiers written. -/
def Spec.QualsKept (E : Env) (q1 : List Str) (T : Str) (q2 : List Str) : Prop :=
  ∃ t, parseTy E (q1.map .ident ++ [.ident T] ++ q2.map .ident) = some (t, []) ∧
    Spec.qualsOf t = (decide (c!"const" ∈ q1 ++ q2), decide (c!"volatile" ∈ q1 ++ q2))

/-- **C33**, the full statement: `q1 T q2` is const iff one of `q1`, `q2` is, and volatile iff one
of them is. -/
def C33_statement : Prop :=
  ∀ (E : Env) (q1 q2 : List Str) (T : Str), Spec.IsQuals q1 → Spec.IsQuals q2 → Spec.TyName T → Spec.QualsKept E q1 T q2

/-- **C33** is false of the code: `volatile int volatile` becomes `const int`. -/
theorem C33_false : ¬ C33_statement := by
  intro h
  obtain ⟨t, ht, hq⟩ := h asciiEnv [c!"volatile"] [c!"volatile"] c!"int" (by simp [Spec.IsQuals]) (by simp [Spec.IsQuals])
    (.inl (by simp))
  have h' : parseTy asciiEnv [.ident c!"volatile", .ident c!"int", .ident c!"volatile"]
      = some (.qualified (.builtIn .int) .const, []) := by decide +kernel
  simp only [List.map_cons, List.map_nil, List.singleton_append] at ht
  rw [List.cons_append, List.singleton_append, h'] at ht
  cases ht
  revert hq; decide

theorem keyword_ne {k T : Str} {r : List MacroToken} (h : T ≠ k) : keyword k (.ident T :: r) = none := by
  simp [keyword, Parser.mapOpt, takeOne, Parser.satisfy, h]

theorem keyword_self {k : Str} {r : List MacroToken} : keyword k (.ident k :: r) = some ((), r) := by
  simp [keyword, Parser.mapOpt, takeOne, Parser.satisfy]

theorem keyword_nil {k : Str} : keyword k [] = none := rfl

open Parser in
/-- **C33** except for `volatile T volatile`: all other pairs of qualifiers, for all type names. -/
theorem C33_qualifiers_partial (E : Env) (q1 q2 : List Str) (T : Str) (h1 : Spec.IsQuals q1) (h2 : Spec.IsQuals q2)
    (hT : Spec.TyName T) (hv : ¬ (q1 = [c!"volatile"] ∧ q2 = [c!"volatile"])) : Spec.QualsKept E q1 T q2 := by
  unfold Spec.QualsKept
  rcases hT with h | h
  · simp only [List.mem_cons, List.not_mem_nil, or_false] at h
    rcases h with rfl | rfl | rfl | rfl | rfl | rfl <;>
    rcases h1 with rfl | rfl | rfl | rfl | rfl <;> rcases h2 with rfl | rfl | rfl | rfl | rfl
    all_goals first | exact absurd ⟨rfl, rfl⟩ hv | exact ⟨_, rfl, rfl⟩
  · simp only [Spec.tyKeywords, List.mem_cons, List.not_mem_nil, or_false, not_or] at h
    obtain ⟨a1, a2, a3, a4, a5, a6, a7, a8, a9, a10, a11, a12, a13⟩ := h
    rcases h1 with rfl | rfl | rfl | rfl | rfl <;> rcases h2 with rfl | rfl | rfl | rfl | rfl
    all_goals first | exact absurd ⟨rfl, rfl⟩ hv | skip
    all_goals
      simp [parseTy, tyBase, simpleTy, doubleTy, intTy, intTyLongLong, intTyLength, intTyPlain, identTy, seq, opt,
        constVolatile, Parser.or, value, permutation, permGo, permStep, permDone, keyword_ne, keyword_self, keyword_nil,
        map, mapOpt, terminated, a1, a2, a3, a4, a5, a6, a7, a8, a9, a10, a11, a12, a13, qualPart, optPart, intSignedness,
        intLength, kwPart, parseConcatIdent, macroArg, macroId, takeOne, satisfy, many0, many0F, preceded, delimited,
        «meta», comment, punct, Spec.qualsOf, Ty.qualifyOpt, Ty.qualify, Qualifier.or]

/-- `const my_t volatile` -/
example : Spec.QualsKept asciiEnv [c!"const"] c!"my_t" [c!"volatile"] :=
  C33_qualifiers_partial _ _ _ _ (by simp [Spec.IsQuals]) (by simp [Spec.IsQuals]) (.inr (by decide)) (by decide)

/-! ## C34: Rust types and back -/

/-- Types made of built-in types by pointers and pointers to constants. -/
inductive Spec.PtrTy (ok : BuiltInType → Prop) : Ty → Prop
  | base {b} : ok b → PtrTy ok (.builtIn b)
  | ptr {t} : PtrTy ok t → PtrTy ok (.ptr t)
  | constPtr {t} : PtrTy ok t → PtrTy ok (.qualified (.ptr t) .const)

/-- **C34**, the full statement: without an ffi prefix, and without an own `size_t`, the Rust type
of a type converts back to that type. -/
def C34_statement : Prop :=
  ∀ (C : Ctx), C.ffiPrefix = none → C.resolveTy c!"size_t" = none → ∀ t, Spec.PtrTy (fun _ => True) t →
    ∃ r, t.toRust C = some r ∧ Ty.fromRust none r = .ok t

/-- **C34** is false of the code: `long double` becomes `f64`, which becomes `double`. -/
theorem C34_false : ¬ C34_statement := by
  intro h
  obtain ⟨r, hr, hb⟩ := h (Ctx.unit asciiEnv) rfl rfl (.builtIn .longDouble) (.base trivial)
  have h' : (Ty.builtIn .longDouble).toRust (Ctx.unit asciiEnv) = some (.path .plain ⟨false, [c!"f64"]⟩) := by decide +kernel
  rw [h'] at hr
  cases hr
  revert hb; decide +kernel

/-- **C34** for all built-in types except `long double`, and `size_t` only for a nightly target
(for an older one `size_t` becomes `usize`, which converts to an identifier type). -/
theorem C34_roundtrip_partial (C : Ctx) (hf : C.ffiPrefix = none) (hs : C.resolveTy c!"size_t" = none) (t : Ty)
    (ht : Spec.PtrTy (fun b => b ≠ .longDouble ∧ (b = .sizeT → C.nightly = true)) t) :
    ∃ r, t.toRust C = some r ∧ Ty.fromRust none r = .ok t := by
  induction ht with
  | @base b hb =>
    refine ⟨_, rfl, ?_⟩
    cases b <;> simp only [BuiltInType.toRust, hf, hs, hb.2, if_true] <;> first | exact absurd rfl hb.1 | decide +kernel
  | ptr _ ih =>
    obtain ⟨r, hr, hb⟩ := ih
    exact ⟨.ptr true r, by simp [Ty.toRust, hr], by simp [Ty.fromRust, hb]⟩
  | constPtr _ ih =>
    obtain ⟨r, hr, hb⟩ := ih
    exact ⟨.ptr false r, by simp [Ty.toRust, hr, Qualifier.isConst], by simp [Ty.fromRust, hb]⟩

/-- `const unsigned long *const *` -/
example : Spec.PtrTy (fun b => b ≠ .longDouble ∧ (b = .sizeT → (Ctx.unit asciiEnv).nightly = true))
    (.ptr (.qualified (.ptr (.builtIn .uLong)) .const)) := .ptr (.constPtr (.base (by decide)))

/-! ## C38: assignment through a pointer to volatile -/

/-- Code that writes to address `a`: the number `v`, or what was read there combined with `v` by the
operator given. -/
def Spec.VolatileWrite (a : Int) (op : Option Str) (v : Int) (ts : List RTok) : Prop :=
  ∃ pre ptr, Spec.CastOf a ptr ∧
    ts = q!"{ let value =" ++ (match op with
      | none => []
      | some o => pre ++ q!"ptr :: read_volatile (" ++ ptr ++ q!")" ++ [.punct o]) ++ [.int v []]
      ++ q!";" ++ pre ++ q!"ptr :: write_volatile (" ++ ptr ++ q!", value ) ; value }"

/-- The operators of the property and the Rust operator they apply. -/
def Spec.volatileOp : BinOp → Option (Option Str)
  | .assign => some none
  | .addAssign => some (some c!"+")
  | .subAssign => some (some c!"-")
  | .bitAndAssign => some (some c!"&")
  | .bitXorAssign => some (some c!"^")
  | .bitOrAssign => some (some c!"|")
  | _ => none

/-- `*(volatile b *)a op e` -/
def Spec.volatileAssign (b : BuiltInType) (a : LitInt) (op : BinOp) (e : Expr) : Expr :=
  .bin (.un .deref (.cast (.ptr (.qualified (.builtIn b) .volatile)) (.lit (.int a)))) op e

/-- **C38**, the full statement. -/
def C38_statement : Prop :=
  ∀ (C : Ctx) (name : Str) (args : List Str) (b : BuiltInType) (a : LitInt) (op : BinOp) (o : Option Str) (e : Expr) (v : Int)
    (out : GenFn), Spec.volatileOp op = some o → Value e v →
    FnMacro.Generates C ⟨name, args, .expr (Spec.volatileAssign b a op e)⟩ (.ok out) →
    ∃ ts, Spec.VolatileWrite a.value.toInt o v ts ∧
      ((∃ params, out = .macro name params ts) ∨ ∃ params ret, out = .fn name params ret ts)

theorem ev_volatileAssign (C : Ctx) (args : List Str) (b : BuiltInType) (a : LitInt) {op : BinOp} {o : Option Str}
    (ho : Spec.volatileOp op = some o) {e : Expr} {v : Int} (he : Value e v) (st : LState) :
    ∃ c : LitInt, c.value.toInt = v ∧ ∃ t, Ev C (fnLoc args) (Spec.volatileAssign b a op e) st
      ⟨Spec.volatileAssign b a op (.lit (.int c)), st, .ok t⟩ := by
  obtain ⟨c, hc, hev⟩ := fold_value (C := C) (L := fnLoc args) he st
  refine ⟨c, hc, some (.qualified (.builtIn b) .volatile), ?_⟩
  obtain ⟨_, N, hN⟩ := ev_cast_int (C := C) (L := fnLoc args) (ty := .ptr (.qualified (.builtIn b) .volatile))
    (ty' := .ptr (.qualified (.builtIn b) .volatile)) (st := st) (st' := st) (r := .ok none) a rfl
  obtain ⟨_, M, hM⟩ := hev
  have hl : Ev C (fnLoc args) (.un .deref (.cast (.ptr (.qualified (.builtIn b) .volatile)) (.lit (.int a)))) st
      ⟨.un .deref (.cast (.ptr (.qualified (.builtIn b) .volatile)) (.lit (.int a))), st,
        .ok (some (.qualified (.builtIn b) .volatile))⟩ :=
    .step (by simp) N fun n hn => by
      simp only [finishStep, hN n hn]
      simp [unaryTy, foldUnary, fnLoc]
  obtain ⟨_, K, hK⟩ := hl
  refine .step (by simp) (max K M) fun n hn => ?_
  have h1 := hK n (by omega)
  have h2 := hM n (by omega)
  simp only [Spec.volatileAssign, finishStep, h1, h2]
  cases op <;> simp [Spec.volatileOp] at ho <;>
    simp [binaryEffects, adjustOperands, foldBinary, Expr.asArg, joinTy, BinOp.isBool, BinOp.isAssignment]

/-- **C38** is false of the code: `*(volatile int *)16 -= 1` adds. -/
theorem C38_false : ¬ C38_statement := by
  intro h
  have hg := fnGenerates_of 5 (Ctx.unit asciiEnv) c!"F" [] (Spec.volatileAssign .int ⟨16, none⟩ .subAssign
    (.lit (.int ⟨1, none⟩))) [] rfl (by decide +kernel)
  have he : FnMacro.generate 5 (Ctx.unit asciiEnv) ⟨c!"F", [], .expr (Spec.volatileAssign .int ⟨16, none⟩ .subAssign
      (.lit (.int ⟨1, none⟩)))⟩ = .ok (.fn c!"F" [] (some q!"c_int") (q!"{ let value = ptr :: read_volatile (" ++
        [.int 16 c!"u8"] ++ q!"as * mut c_int ) +" ++ [.int 1 []] ++ q!"; ptr :: write_volatile (" ++ [.int 16 c!"u8"] ++
        q!"as * mut c_int , value ) ; value }")) := by decide +kernel
  rw [he] at hg
  obtain ⟨ts, ⟨pre, ptr, hp, hts⟩, ⟨_, ho⟩ | ⟨_, _, ho⟩⟩ := h _ _ _ _ _ _ _ _ _ _ rfl (.lit) hg
  · cases ho
  · cases ho
    have hm : RTok.punct c!"-" ∈ q!"{ let value =" ++ (pre ++ q!"ptr :: read_volatile (" ++ ptr ++ q!")" ++ [.punct c!"-"]) ++
      [.int (BitVec.toInt (1 : BitVec 128)) []] ++ q!";" ++ pre ++ q!"ptr :: write_volatile (" ++ ptr ++ q!", value ) ; value }" := by
      simp
    rw [← hts] at hm
    revert hm
    decide +kernel

/-- **C38** for `=` and `+=`. -/
theorem C38_volatile_assign_partial (C : Ctx) (name : Str) (args : List Str) (b : BuiltInType) (a : LitInt) (op : BinOp)
    (o : Option Str) (e : Expr) (v : Int) (out : GenFn) (hop : op = .assign ∨ op = .addAssign)
    (ho : Spec.volatileOp op = some o) (he : Value e v)
    (h : FnMacro.Generates C ⟨name, args, .expr (Spec.volatileAssign b a op e)⟩ (.ok out)) :
    ∃ ts, Spec.VolatileWrite a.value.toInt o v ts ∧
      ((∃ params, out = .macro name params ts) ∨ ∃ params ret, out = .fn name params ret ts) := by
  obtain ⟨tys, ha⟩ := h.argTypes
  obtain ⟨c, hc, t, hev⟩ := ev_volatileAssign C args b a ho he ⟨tys, false⟩
  have := h.unique (fnGenerates ha hev)
  have key : ∀ P, Spec.VolatileWrite a.value.toInt o v ((MacroBody.expr (Spec.volatileAssign b a op (.lit (.int c)))).toks P) := by
    intro P
    refine ⟨prefixToks P.C.traitPrefix, _, castToks_spec P (.ptr (.qualified (.builtIn b) .volatile)) a, ?_⟩
    rcases hop with rfl | rfl <;> cases ho <;>
      simp [MacroBody.toks, Spec.volatileAssign, Expr.toks, binaryToks, BinOp.isBlockAssign, isVolatileDeref, Qualifier.isVolatile,
        volatileBlock, readVolatile, Expr.kids, kid0, Lit.toks, LitInt.toks, hc]
  obtain ⟨_, ⟨_, rfl⟩ | ⟨_, rfl⟩⟩ := fnOut_ok this.symm
  · exact ⟨_, key _, .inl ⟨_, rfl⟩⟩
  · exact ⟨_, key _, .inr ⟨_, _, rfl⟩⟩

/-- `*(volatile unsigned *)4096 += 2 * 3` -/
example : Value (.bin (.lit (.int ⟨2, none⟩)) .mul (.lit (.int ⟨3, none⟩))) 6 ∧
    FnMacro.generate 5 (Ctx.unit asciiEnv) ⟨c!"F", [], .expr (Spec.volatileAssign .uInt ⟨4096, none⟩ .addAssign
      (.bin (.lit (.int ⟨2, none⟩)) .mul (.lit (.int ⟨3, none⟩))))⟩ = .ok (.fn c!"F" [] (some q!"c_uint")
        (q!"{ let value = ptr :: read_volatile (" ++ [.int 4096 c!"u16"] ++ q!"as * mut c_uint ) +" ++ [.int 6 []] ++
        q!"; ptr :: write_volatile (" ++ [.int 4096 c!"u16"] ++ q!"as * mut c_uint , value ) ; value }")) :=
  ⟨.bin (a := 2) (b := 3) (.lit (n := ⟨2, none⟩)) (.lit (n := ⟨3, none⟩)) .mul (by unfold Spec.I128; decide), by decide +kernel⟩

/-- Code that reads at address `a`, writes back what was read combined with 1 by the operator given, and yields the
value written or, if `old`, the value read. -/
def Spec.VolatileStep (a : Int) (old : Bool) (o : Str) (ts : List RTok) : Prop :=
  ∃ pre ptr, Spec.CastOf a ptr ∧
    ts = q!"{ let value =" ++ (pre ++ q!"ptr :: read_volatile (" ++ ptr ++ q!")") ++ (if old then [] else [.punct o, .int 1 []])
      ++ q!";" ++ pre ++ q!"ptr :: write_volatile (" ++ ptr ++ q!", value" ++ (if old then [.punct o, .int 1 []] else [])
      ++ q!") ; value }"

/-- Whether the old value is yielded, and the Rust operator. -/
def Spec.volatileStepOp : UnOp → Option (Bool × Str)
  | .inc => some (false, c!"+")
  | .dec => some (false, c!"-")
  | .postInc => some (true, c!"+")
  | .postDec => some (true, c!"-")
  | _ => none

/-- `++*(volatile b *)a` and the like. -/
def Spec.volatileStep (b : BuiltInType) (a : LitInt) (op : UnOp) : Expr :=
  .un op (.un .deref (.cast (.ptr (.qualified (.builtIn b) .volatile)) (.lit (.int a))))

theorem ev_volatileStep (C : Ctx) (args : List Str) (b : BuiltInType) (a : LitInt) {op : UnOp} {o : Bool × Str}
    (ho : Spec.volatileStepOp op = some o) (st : LState) :
    ∃ t, Ev C (fnLoc args) (Spec.volatileStep b a op) st ⟨Spec.volatileStep b a op, st, .ok t⟩ := by
  refine ⟨some (.qualified (.builtIn b) .volatile), ?_⟩
  obtain ⟨_, N, hN⟩ := ev_cast_int (C := C) (L := fnLoc args) (ty := .ptr (.qualified (.builtIn b) .volatile))
    (ty' := .ptr (.qualified (.builtIn b) .volatile)) (st := st) (st' := st) (r := .ok none) a rfl
  have hl : Ev C (fnLoc args) (.un .deref (.cast (.ptr (.qualified (.builtIn b) .volatile)) (.lit (.int a)))) st
      ⟨.un .deref (.cast (.ptr (.qualified (.builtIn b) .volatile)) (.lit (.int a))), st,
        .ok (some (.qualified (.builtIn b) .volatile))⟩ :=
    .step (by simp) N fun n hn => by
      simp only [finishStep, hN n hn]
      simp [unaryTy, foldUnary, fnLoc]
  obtain ⟨_, K, hK⟩ := hl
  refine .step (by simp) K fun n hn => ?_
  have h1 := hK n hn
  simp only [Spec.volatileStep, finishStep, h1]
  cases op <;> simp [Spec.volatileStepOp] at ho <;> simp [unaryTy, foldUnary, fnLoc]

/-- **C38** for increments and decrements: the object is read once and written once, and the value is the new or the old one. -/
theorem C38_volatile_step (C : Ctx) (name : Str) (args : List Str) (b : BuiltInType) (a : LitInt) (op : UnOp)
    (old : Bool) (o : Str) (out : GenFn) (ho : Spec.volatileStepOp op = some (old, o))
    (h : FnMacro.Generates C ⟨name, args, .expr (Spec.volatileStep b a op)⟩ (.ok out)) :
    ∃ ts, Spec.VolatileStep a.value.toInt old o ts ∧
      ((∃ params, out = .macro name params ts) ∨ ∃ params ret, out = .fn name params ret ts) := by
  obtain ⟨tys, ha⟩ := h.argTypes
  obtain ⟨t, hev⟩ := ev_volatileStep C args b a ho ⟨tys, false⟩
  have := h.unique (fnGenerates ha hev)
  have key : ∀ P, Spec.VolatileStep a.value.toInt old o ((MacroBody.expr (Spec.volatileStep b a op)).toks P) := by
    intro P
    refine ⟨prefixToks P.C.traitPrefix, _, castToks_spec P (.ptr (.qualified (.builtIn b) .volatile)) a, ?_⟩
    cases op <;> simp [Spec.volatileStepOp] at ho <;> obtain ⟨rfl, rfl⟩ := ho <;>
      simp [MacroBody.toks, Spec.volatileStep, Expr.toks, unaryToks, isVolatileDeref, Qualifier.isVolatile,
        volatileBlock, readVolatile, Expr.kids, kid0]
  obtain ⟨_, ⟨_, rfl⟩ | ⟨_, rfl⟩⟩ := fnOut_ok this.symm
  · exact ⟨_, key _, .inl ⟨_, rfl⟩⟩
  · exact ⟨_, key _, .inr ⟨_, _, rfl⟩⟩

/-- `(*(volatile unsigned *)4096)--` -/
example : FnMacro.generate 5 (Ctx.unit asciiEnv) ⟨c!"F", [], .expr (Spec.volatileStep .uInt ⟨4096, none⟩ .postDec)⟩ =
    .ok (.fn c!"F" [] (some q!"c_uint") (q!"{ let value = ptr :: read_volatile (" ++ [.int 4096 c!"u16"] ++
      q!"as * mut c_uint ) ; ptr :: write_volatile (" ++ [.int 4096 c!"u16"] ++ q!"as * mut c_uint , value -" ++ [.int 1 []] ++
      q!") ; value }")) := by decide +kernel

/-! ## C39: logical negation -/

/-- **C39**, the full statement: the function generated for `!x` with an integer parameter `x`
computes 1 for 0 and 0 for everything else. -/
def C39_statement : Prop :=
  ∀ (C : Ctx) (name x : Str) (t : RTy) (b : BuiltInType) (params : List (List RTok)) (ret : Option (List RTok))
    (ts : List RTok) (k : Int), C.macroArgTy name x = some t → Ty.fromRust C.ffiPrefix t = .ok (.builtIn b) →
    b ∈ [.char, .sChar, .uChar, .short, .uShort, .int, .uInt, .long, .uLong, .longLong, .uLongLong] →
    FnMacro.Generates C ⟨name, [x], .expr (.un .not (.var (.arg 0)))⟩ (.ok (.fn name params ret ts)) →
    Spec.IntMeaning x k ts (if k = 0 then 1 else 0)

/-- A context in which parameters are of type `int`. -/
def intArgCtx : Ctx := { Ctx.unit asciiEnv with macroArgTy := fun _ _ => some (.path .plain ⟨false, [c!"c_int"]⟩) }

theorem not_meaning {x : Str} {k v : Int} (h : Spec.IntMeaning x k [.punct c!"!", .id x] v) : v = -k - 1 := by
  generalize ht : ([.punct c!"!", .id x] : List RTok) = ts at h
  cases h with
  | var => cases ht
  | lit => cases ht
  | paren _ => simp at ht
  | compl h =>
    simp only [List.cons.injEq, true_and] at ht
    generalize ht' : ([.id x] : List RTok) = us at ht h
    subst ht
    cases h with
    | var => rfl
    | lit => cases ht'
    | paren _ => simp at ht'
    | compl _ => simp at ht'
    | @eq ts us => have : RTok.punct c!"==" ∈ ts ++ .punct c!"==" :: us := by simp
                   rw [← ht'] at this; simp at this
    | @ne ts us => have : RTok.punct c!"!=" ∈ ts ++ .punct c!"!=" :: us := by simp
                   rw [← ht'] at this; simp at this
  | @eq ts us => have : RTok.punct c!"==" ∈ ts ++ .punct c!"==" :: us := by simp
                 rw [← ht] at this; simp at this
  | @ne ts us => have : RTok.punct c!"!=" ∈ ts ++ .punct c!"!=" :: us := by simp
                 rw [← ht] at this; simp at this

/-- **C39** is false of the code: the function for `!x` is `fn(x: c_int) -> bool { !x }`, and for
`x = 1` that is the bitwise complement -2 (the Rust compiler rejects it, as `!x` is not a `bool`). -/
theorem C39_false : ¬ C39_statement := by
  intro h
  have hg := fnGenerates_of 5 intArgCtx c!"F" [c!"x"] (.un .not (.var (.arg 0))) [.known (.builtIn .int)] rfl
    (by decide +kernel)
  have he : FnMacro.generate 5 intArgCtx ⟨c!"F", [c!"x"], .expr (.un .not (.var (.arg 0)))⟩ =
      .ok (.fn c!"F" [q!"x : c_int"] (some q!"bool") q!"! x") := by decide +kernel
  rw [he] at hg
  have := not_meaning (h intArgCtx c!"F" c!"x" _ .int _ _ _ 1 rfl (by decide +kernel) (by simp) hg)
  revert this; decide

/-- **C39** for constant operands without suffix: the constant generated is 0 or 1, of type `bool`. -/
theorem C39_logical_not_partial (C : Ctx) (L : C.env.Lawful) (name : Str) (e : Expr) (v : Int) (h : Value e v) (hu : Spec.Unsuffixed e) :
    VarMacro.Generates C ⟨name, .expr (.un .not e)⟩ (.ok ([.int (if v = 0 then 1 else 0) []], some q!"bool")) := by
  obtain ⟨c, hc, hs, _, N, hN⟩ := fold_value_suffix (C := C) (L := varLoc C) h .init
  obtain ⟨w, s⟩ := c
  obtain rfl := hs hu
  have hev : Ev C (varLoc C) (.un .not e) .init ⟨.lit (.int ⟨if w = 0 then 1 else 0, none⟩), .init, .ok (some (.builtIn .bool))⟩ :=
    .step (by simp) N fun n hn => by simp [finishStep, hN n hn, unaryTy, foldUnary]
  have hw : (if w = 0 then (1 : BitVec 128) else 0).toInt = if v = 0 then 1 else 0 := by
    have : w = 0 ↔ v = 0 := by
      rw [← hc, show (0 : Int) = (0 : BitVec 128).toInt from rfl, BitVec.toInt_inj]
    by_cases hv : v = 0
    · rw [if_pos (this.2 hv), if_pos hv]; rfl
    · rw [if_neg (mt this.1 hv), if_neg hv]; rfl
  have := varGenerates (name := name) hev
  have hb : (Ty.builtIn .bool).toks ⟨C, varLoc C, false⟩ = q!"bool" := by
    simp [Ty.toks, BuiltInType.toRust, RTy.prefixed, RTy.toks, RPath.toks, sepToks]
  have hi : isIdentifier C.env c!"bool" = true := by
    simp [isIdentifier, isIdentStart, L.startAscii 'b' (by decide), L.contAscii 'o' (by decide), L.contAscii 'l' (by decide)]
  simp only [varOut, Expr.toks, Lit.toks, LitInt.toks, LState.init, Option.map_some, hb, hw] at this
  simpa [toksOk, RTok.ok, hi] using this

/-- `!(3 - 3)` is 1. -/
example : Value (.bin (.lit (.int ⟨3, none⟩)) .sub (.lit (.int ⟨3, none⟩))) 0 ∧
    VarMacro.generate 5 (Ctx.unit asciiEnv) ⟨c!"M", .expr (.un .not (.bin (.lit (.int ⟨3, none⟩)) .sub (.lit (.int ⟨3, none⟩))))⟩ =
      .ok ([.int 1 []], some q!"bool") :=
  ⟨.bin (a := 3) (b := 3) (.lit (n := ⟨3, none⟩)) (.lit (n := ⟨3, none⟩)) .sub (by unfold Spec.I128; decide), by decide +kernel⟩

end CMacro
