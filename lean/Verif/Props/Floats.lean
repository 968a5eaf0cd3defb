import Verif.Props.FloatLex
import Verif.Props.ConstCast
import Verif.Proofs.Fold
import Verif.Proofs.Generate
import Verif.Proofs.CalmPrint
import Verif.Props.Fold
import Verif.Props.Types

/-!
# Property C76: arithmetic on floating constants
-/

namespace CMacro
open Parser Spec

theorem rat_div_one_div (a b : Rat) (n : Int) (h : a = n) : a / (1 / b) = a * b := by
  rw [Rat.div_def, Rat.div_def, Rat.one_mul, Rat.inv_inv]

theorem nearest_int (n : Int) : nearest (n : Rat) = n := by
  show (if (n : Rat) - (n : Rat).floor < 1 / 2 then (n : Rat).floor else _) = n
  rw [Rat.floor_intCast, Rat.sub_self]
  exact if_pos (by decide +kernel)

theorem two_pow_ne (j : Nat) : ((2 : Rat) ^ j) ≠ 0 := by
  intro h
  have := congrArg Rat.num h
  rw [Rat.num_pow] at this
  have h2 : ((2 : Rat).num) = 2 := rfl
  rw [h2] at this
  exact absurd this (Int.pow_ne_zero (by decide))

/-- Rounding keeps integers of up to `p` bits. -/
theorem roundTo_int {p : Nat} {n : Int} (h : n.natAbs < 2 ^ p) : roundTo p n = n := by
  unfold roundTo
  split
  · rename_i h0; exact h0.symm
  · rename_i h0
    have hn : n ≠ 0 := fun h => h0 (by rw [h]; rfl)
    have hb : binade (n : Rat) ≤ (Nat.log2 n.natAbs : Int) := by
      show (if _ then ((Nat.log2 n.natAbs : Int) - (Nat.log2 1 : Int)) else ((Nat.log2 n.natAbs : Int) - (Nat.log2 1 : Int)) - 1) ≤ _
      rw [show Nat.log2 1 = 0 from by decide]
      generalize Nat.log2 n.natAbs = k
      split
      · show (k : Int) - ((0 : Nat) : Int) ≤ k; omega
      · show (k : Int) - ((0 : Nat) : Int) - 1 ≤ k; omega
    have hl : Nat.log2 n.natAbs < p := (Nat.log2_lt (by omega)).2 h
    have hk : ∃ j : Nat, power 2 (binade (n : Rat) - (p - 1)) = 1 / 2 ^ j := by
      unfold power
      split
      · rename_i h1
        have : binade (n : Rat) - (p - 1) = 0 := by omega
        rw [this]
        exact ⟨0, by decide +kernel⟩
      · exact ⟨_, rfl⟩
    obtain ⟨j, hj⟩ := hk
    simp only [hj]
    have e1 : (n : Rat) / (1 / 2 ^ j) = ((n * 2 ^ j : Int) : Rat) := by
      rw [rat_div_one_div _ _ n rfl, Rat.intCast_mul, Rat.intCast_pow]; rfl
    rw [e1, nearest_int, ← e1, Rat.div_mul_cancel]
    intro h
    have := Rat.mul_inv_cancel _ (two_pow_ne j)
    rw [Rat.div_def, Rat.one_mul] at h
    rw [h, Rat.mul_zero] at this
    exact absurd this (by decide)

theorem ieee_exact : ieee.Exact := by
  intro n hn
  show roundTo 24 n = roundTo 53 n
  by_cases h : n.natAbs < 2 ^ 24
  · rw [roundTo_int h, roundTo_int (by omega)]
  · have : n = 2 ^ 24 ∨ n = -2 ^ 24 := by omega
    rcases this with rfl | rfl <;> decide +kernel

/-- **C76**: a macro whose body is arithmetic of C on integer and floating constants generates a constant with the value and the type
that C gives to it. -/
def C76_statement : Prop :=
  ∀ (A : FloatArith), A.Exact → ∀ (C : Ctx), C.env.Lawful → ∀ (name : Str) (e : Expr) (n : Number A), CFloat A (fun _ _ => True) e n → n.isInt = false →
    ∃ f ty, RustFloat A f ty n ∧ VarMacro.Generates C ⟨name, .expr e⟩ (.ok ([.float f], some ty))

/-- The integers that are allowed: without suffixes, and of up to 24 bits. -/
def Small (e : Expr) (v : Int) : Prop := Unsuffixed e ∧ v.natAbs ≤ 2 ^ 24

/-- The literal that a constant is folded to. -/
inductive LitNum (A : FloatArith) : Lit → Number A → Prop
  | int {c : LitInt} {v : Int} : c.suffix = none → c.value.toInt = v → v.natAbs ≤ 2 ^ 24 → LitNum A (.int c) (.int v)
  | float {v x} : Is32 A v x → LitNum A (.float (.float v)) (.float x)
  | double {v x} : Is64 A v x → LitNum A (.float (.double v)) (.double x)
  | longDouble {v x} : Is64 A v x → LitNum A (.float (.longDouble v)) (.double x)

/-- The type that `finish` gives to a number. -/
def numTy : Lit → Option Ty
  | .float f => some f.ty
  | _ => none

/-- A number converted for an operation with a floating one. -/
def asFloat : Lit → LitFloat
  | .float f => f
  | .int c => intAsFloat c.value
  | _ => .float (.ofInt 0)

theorem ev_float {C : Ctx} {L : Loc} (f : LitFloat) (st : LState) :
    Ev C L (.lit (.float f)) st ⟨.lit (.float f), st, .ok (some f.ty)⟩ :=
  .step (by simp) 0 fun _ _ => rfl

theorem adjust_float {A : FloatArith} {op : BinOp} {l r : Lit} {a b : Number A} (hl : LitNum A l a) (hr : LitNum A r b)
    (h : ¬ (a.isInt = true ∧ b.isInt = true)) :
    adjustOperands op (.lit l) (.lit r) (numTy l) (numTy r) =
      (.lit (.float (asFloat l)), .lit (.float (asFloat r)), some (asFloat l).ty, some (asFloat r).ty) := by
  cases hl with
  | @int c v hs hv hb =>
    obtain ⟨cv, cs⟩ := c
    simp only at hs; subst hs
    cases hr <;> first | exact absurd ⟨rfl, rfl⟩ h | simp [adjustOperands, asFloat, numTy]
  | _ =>
    cases hr with
    | @int c v hs hv hb =>
      obtain ⟨cv, cs⟩ := c
      simp only at hs; subst hs
      simp [adjustOperands, asFloat, numTy]
    | _ => simp [adjustOperands, asFloat, numTy]

theorem asFloat_32 {A : FloatArith} {l : Lit} {a : Number A} {x : A.F32} (hl : LitNum A l a) (h : ToFloat A a x) :
    ∃ v, asFloat l = .float v ∧ Is32 A v x := by
  cases h with
  | int =>
    cases hl with
    | int hs hv hb => subst hv; exact ⟨_, rfl, .ofInt⟩
  | float =>
    cases hl with
    | float hv => exact ⟨_, rfl, hv⟩

theorem asFloat_64 {A : FloatArith} (hA : A.Exact) {l : Lit} {a : Number A} {x : A.F64} (hl : LitNum A l a) (h : ToDouble A a x) :
    (a.isDouble = false ∧ ∃ v, asFloat l = .float v ∧ Is64 A (.widen v) x) ∨
    (a.isDouble = true ∧ ∃ v, (asFloat l).val = (false, v) ∧ Is64 A v x) := by
  cases h with
  | int =>
    cases hl with
    | int hs hv hb => subst hv; exact .inl ⟨rfl, _, rfl, hA _ hb ▸ .widen .ofInt⟩
  | float =>
    cases hl with
    | float hv => exact .inl ⟨rfl, _, rfl, .widen hv⟩
  | double =>
    cases hl with
    | double hv => exact .inr ⟨rfl, _, rfl, hv⟩
    | longDouble hv => exact .inr ⟨rfl, _, rfl, hv⟩

theorem op_32 {A : FloatArith} {op : BinOp} {o : FloatOp} {v w : FVal} {x y : A.F32} (h : (op, o) ∈ floatOps)
    (hv : Is32 A v x) (hw : Is32 A w y) : Is32 A (v.op op w) (A.op32 o x y) := by
  simp only [floatOps, List.mem_cons, Prod.mk.injEq, List.not_mem_nil, or_false] at h
  rcases h with ⟨rfl, rfl⟩ | ⟨rfl, rfl⟩ | ⟨rfl, rfl⟩ | ⟨rfl, rfl⟩
  · exact .add hv hw
  · exact .sub hv hw
  · exact .mul hv hw
  · exact .div hv hw

theorem op_64 {A : FloatArith} {op : BinOp} {o : FloatOp} {v w : FVal} {x y : A.F64} (h : (op, o) ∈ floatOps)
    (hv : Is64 A v x) (hw : Is64 A w y) : Is64 A (v.op op w) (A.op64 o x y) := by
  simp only [floatOps, List.mem_cons, Prod.mk.injEq, List.not_mem_nil, or_false] at h
  rcases h with ⟨rfl, rfl⟩ | ⟨rfl, rfl⟩ | ⟨rfl, rfl⟩ | ⟨rfl, rfl⟩
  · exact .add hv hw
  · exact .sub hv hw
  · exact .mul hv hw
  · exact .div hv hw

theorem ev_floatOp {A : FloatArith} {C : Ctx} {L : Loc} {st : LState} {l r : Expr} {ll lr : Lit} {a b : Number A} {op : BinOp}
    {o : FloatOp} (hl : LitNum A ll a) (hr : LitNum A lr b) (h : ¬ (a.isInt = true ∧ b.isInt = true)) (ho : (op, o) ∈ floatOps)
    (el : Ev C L l st ⟨.lit ll, st, .ok (numTy ll)⟩) (er : Ev C L r st ⟨.lit lr, st, .ok (numTy lr)⟩) :
    Ev C L (.bin l op r) st
      ⟨.lit (.float (LitFloat.op op (asFloat ll) (asFloat lr))), st, .ok (some (LitFloat.op op (asFloat ll) (asFloat lr)).ty)⟩ := by
  obtain ⟨_, N, hN⟩ := el
  obtain ⟨_, M, hM⟩ := er
  have hop : op.foldsFloat = true ∧ op ≠ .memberAccess ∧ op.isAssignment = false := by
    simp only [floatOps, List.mem_cons, Prod.mk.injEq, List.not_mem_nil, or_false] at ho
    rcases ho with ⟨rfl, rfl⟩ | ⟨rfl, rfl⟩ | ⟨rfl, rfl⟩ | ⟨rfl, rfl⟩ <;> decide
  refine .step' (ev_float _ st) (max N M) fun k hk => ?_
  have hb : binaryEffects op (.lit ll) (.lit lr) st = (st, .ok ()) := by
    simp [binaryEffects, hop.2.1, hop.2.2]
  simp only [finishStep, hN k (by omega), hM k (by omega), hb, adjust_float hl hr h, if_neg hop.2.1, foldBinary, hop.1, if_true]

theorem float_fold {A : FloatArith} (hA : A.Exact) {C : Ctx} {L : Loc} {e : Expr} {n : Number A} (h : CFloat A Small e n) : ∀ st,
    ∃ l, LitNum A l n ∧ Ev C L e st ⟨.lit l, st, .ok (numTy l)⟩ := by
  induction h with
  | int hv hs =>
    intro st
    obtain ⟨c, h1, h2, h3⟩ := fold_value_suffix (C := C) (L := L) hv st
    exact ⟨.int c, .int (h2 hs.1) h1 hs.2, h3⟩
  | float ht => exact fun st => ⟨_, .float .parse, ev_float _ st⟩
  | double ht => exact fun st => ⟨_, .double .parse, ev_float _ st⟩
  | longDouble ht => exact fun st => ⟨_, .longDouble .parse, ev_float _ st⟩
  | plusF _ ih =>
    intro st
    obtain ⟨l, h1, _, N, hN⟩ := ih st
    cases h1 with
    | float hv => exact ⟨_, .float hv, .step (by simp) N fun k hk => by simp only [finishStep, hN k hk, unaryTy, foldUnary]⟩
  | plusD _ ih =>
    intro st
    obtain ⟨l, h1, _, N, hN⟩ := ih st
    cases h1 with
    | double hv => exact ⟨_, .double hv, .step (by simp) N fun k hk => by simp only [finishStep, hN k hk, unaryTy, foldUnary]⟩
    | longDouble hv =>
      exact ⟨_, .longDouble hv, .step (by simp) N fun k hk => by simp only [finishStep, hN k hk, unaryTy, foldUnary]⟩
  | negF _ ih =>
    intro st
    obtain ⟨l, h1, _, N, hN⟩ := ih st
    cases h1 with
    | float hv => exact ⟨_, .float (.neg hv), .step (by simp) N fun k hk => by
        simp only [finishStep, hN k hk, unaryTy, foldUnary, LitFloat.neg, numTy, LitFloat.ty]⟩
  | negD _ ih =>
    intro st
    obtain ⟨l, h1, _, N, hN⟩ := ih st
    cases h1 with
    | double hv => exact ⟨_, .double (.neg hv), .step (by simp) N fun k hk => by
        simp only [finishStep, hN k hk, unaryTy, foldUnary, LitFloat.neg, numTy, LitFloat.ty]⟩
    | longDouble hv =>
      exact ⟨_, .longDouble (.neg hv), .step (by simp) N fun k hk => by
        simp only [finishStep, hN k hk, unaryTy, foldUnary, LitFloat.neg, numTy, LitFloat.ty]⟩
  | binF _ _ ho hi hx hy ihl ihr =>
    intro st
    obtain ⟨ll, hl, el⟩ := ihl st
    obtain ⟨lr, hr, er⟩ := ihr st
    obtain ⟨v, hv, hv'⟩ := asFloat_32 hl hx
    obtain ⟨w, hw, hw'⟩ := asFloat_32 hr hy
    have := ev_floatOp hl hr hi ho el er
    rw [hv, hw] at this
    exact ⟨_, .float (op_32 ho hv' hw'), this⟩
  | binD _ _ ho hd hx hy ihl ihr =>
    intro st
    obtain ⟨ll, hl, el⟩ := ihl st
    obtain ⟨lr, hr, er⟩ := ihr st
    rename_i a b x y op o _ _
    have hi : ¬ (a.isInt = true ∧ b.isInt = true) := by
      cases a <;> cases b <;> simp_all [Number.isInt, Number.isDouble]
    have ev := ev_floatOp hl hr hi ho el er
    have key : ∃ v, LitFloat.op op (asFloat ll) (asFloat lr) = .double v ∧ Is64 A v (A.op64 o x y) := by
      rcases asFloat_64 hA hl hx with ⟨h1, v, h2, h3⟩ | ⟨h1, v, h2, h3⟩ <;>
      rcases asFloat_64 hA hr hy with ⟨h4, w, h5, h6⟩ | ⟨h4, w, h5, h6⟩
      · rw [h1, h4] at hd; simp at hd
      · refine ⟨_, ?_, op_64 ho h3 h6⟩
        have h2' : (asFloat ll).val = (true, v) := by rw [h2]; rfl
        simp only [LitFloat.op, h2', h5]
      · refine ⟨_, ?_, op_64 ho h3 h6⟩
        have h5' : (asFloat lr).val = (true, w) := by rw [h5]; rfl
        simp only [LitFloat.op, h2, h5']
      · refine ⟨_, ?_, op_64 ho h3 h6⟩
        simp only [LitFloat.op, h2, h5]
    obtain ⟨v, h1, h2⟩ := key
    rw [h1] at ev
    exact ⟨_, .double h2, ev⟩

theorem varOut_float {C : Ctx} (L : C.env.Lawful) (f : LitFloat) {ty : List RTok} (hf : fixedToks ty = true)
    (ht : f.ty.toks ⟨C, varLoc C, false⟩ = ty) :
    varOut C ⟨.lit (.float f), .init, .ok (some f.ty)⟩ = .ok ([.float f], some ty) := by
  have hk : toksOk C.env ty = true := toksOk_fixed L hf
  have h1 : toksOk C.env [.float f] = true := rfl
  simp [varOut, LState.init, Expr.toks, Lit.toks, ht, hk, h1]

/-- **C76**, for integers without suffixes and of up to 24 bits (`2U * 1.5` is left as it is, and integers are converted to `f32`). -/
theorem C76_partial (A : FloatArith) (hA : A.Exact) (C : Ctx) (L : C.env.Lawful) (name : Str) (e : Expr) (n : Number A) (h : CFloat A Small e n)
    (hi : n.isInt = false) :
    ∃ f ty, RustFloat A f ty n ∧ VarMacro.Generates C ⟨name, .expr e⟩ (.ok ([.float f], some ty)) := by
  obtain ⟨l, h1, h2⟩ := float_fold (C := C) (L := varLoc C) hA h .init
  have := varGenerates (name := name) h2
  cases h1 with
  | int => cases hi
  | @float v x hv =>
    exact ⟨_, _, .float hv, by
      rw [← varOut_float L (.float v) (ty := q!"f32") (by decide) rfl]; exact this⟩
  | @double v x hv =>
    exact ⟨_, _, .double hv, by
      rw [← varOut_float L (.double v) (ty := q!"f64") (by decide) rfl]; exact this⟩
  | @longDouble v x hv =>
    exact ⟨_, _, .longDouble hv, by
      rw [← varOut_float L (.longDouble v) (ty := q!"f64") (by decide) rfl]; exact this⟩

/-- What code generation makes of the expression that the grammar reads in the expanded text is what the whole process makes. -/
theorem makesConst_text {C : Ctx} (L : C.env.Lawful) {h : List Op} {name : Str} {body : List Str}
    (hn : IsIdent C.env.xidStart C.env.xidContinue name)
    (hP : Spec.Plain (Spec.cName C.env) (Table.run h)) (hB : Spec.NoBackslash (Table.run h))
    (hdef : Table.run h name = some (.var body)) {out : List Item}
    (hx : Expands (Spec.cName C.env) (Table.run h) [name] (body.map (Spec.item (Spec.cName C.env))) out)
    {ts : List MacroToken} (ht : ItemText C.env out ts) {e : Expr} (hg : Gram 12 ts e) {code : List RTok} {ty : Option (List RTok)}
    (hr : VarMacro.Generates C ⟨name, .expr e⟩ (.ok (code, ty))) : MakesConst C h name code ty := by
  obtain ⟨n₂, h2⟩ := hr
  have hP' := plain_cName L hP
  have hx' := expands_congr (g := nameOf C.env) (fun id d hd s hs => cName_is L (hB id d hd s hs)) hx
  rw [show body.map (Spec.item (Spec.cName C.env)) = body.map (Spec.item (nameOf C.env)) from
    List.map_congr_left fun s hs => by simp only [Spec.item, cName_is L (hB name _ hdef s hs)]] at hx'
  obtain ⟨_, n₁, h1⟩ := expandVar_of_expands L (agrees_run h) hP' hdef hx' (results_itemText L ht)
  refine ⟨max n₁ n₂, fun n hn' => ?_⟩
  have h4 : (MacroSet.run h).expandVar C.env n name = .ok ts := by
    have h1' : (MacroSet.run h).expandVar C.env n₁ name = .ok ts := h1
    rw [← h1']
    exact (expandVar_le C.env _ (show n₁ ≤ n by omega) name).eq (by rw [h1']; simp)
  have hi : isIdentifier C.env name = true := isIdent_iff.2 hn
  simp only [pipeVar, h4, C35_var_grammar C.env hi hg, h2 n (by omega)]

/-- **C76** from the definitions on (see C59): expanding, parsing and generating. -/
theorem C76_text_partial (A : FloatArith) (hA : A.Exact) (C : Ctx) (L : C.env.Lawful) (h : List Op) (name : Str) (body : List Str)
    (hn : IsIdent C.env.xidStart C.env.xidContinue name)
    (hP : Spec.Plain (Spec.cName C.env) (Table.run h)) (hB : Spec.NoBackslash (Table.run h))
    (hdef : Table.run h name = some (.var body)) (out : List Item)
    (hx : Expands (Spec.cName C.env) (Table.run h) [name] (body.map (Spec.item (Spec.cName C.env))) out)
    (ts : List MacroToken) (ht : ItemText C.env out ts) (e : Expr) (hg : Gram 12 ts e) (n : Number A) (hv : CFloat A Small e n)
    (hi : n.isInt = false) : ∃ f ty, RustFloat A f ty n ∧ MakesConst C h name [.float f] (some ty) := by
  obtain ⟨f, ty, h1, h2⟩ := C76_partial A hA C L name e n hv hi
  exact ⟨f, ty, h1, makesConst_text L hn hP hB hdef hx ht hg h2⟩

instance : DecidableEq ieee.F64 := inferInstanceAs (DecidableEq Rat)

theorem half : DecFloat c!"0.5" :=
  .fraction (a := c!"0") (b := c!"5") (x := []) (by unfold Decimal; decide) (by unfold Decimal; decide) (by decide) (.inl rfl)

/-- `1 / 2.0f - 0.5`: an `f32` made a `double`. -/
example : ∃ f ty, RustFloat ieee f ty (.double (0 : Rat)) ∧ VarMacro.Generates (Ctx.unit asciiEnv)
    ⟨c!"M", .expr (.bin (.bin (.lit (.int ⟨1, none⟩)) .div (.lit (.float (.float (.parse c!"2.0"))))) .sub
      (.lit (.float (.double (.parse c!"0.5")))))⟩ (.ok ([.float f], some ty)) := by
  have two : DecFloat c!"2.0" :=
    .fraction (a := c!"2") (b := c!"0") (x := []) (by unfold Decimal; decide) (by unfold Decimal; decide) (by decide) (.inl rfl)
  have h : CFloat ieee Small (.bin (.bin (.lit (.int ⟨1, none⟩)) .div (.lit (.float (.float (.parse c!"2.0"))))) .sub
      (.lit (.float (.double (.parse c!"0.5"))))) _ :=
    .binD (.binF (.int (v := 1) .lit ⟨rfl, by decide⟩) (.float two) (o := .div) (by decide) (by decide) .int .float) (.double half) (o := .sub) (by decide)
      (.inr rfl) .float .double
  have hz : @Eq ieee.F64 (ieee.op64 .sub (ieee.widen (ieee.op32 .div (ieee.near32 (1 : Int)) (ieee.near32 (decimal c!"2.0"))))
      (ieee.near64 (decimal c!"0.5"))) (0 : Rat) :=
    (by decide +kernel : roundTo 53 (roundTo 24 (roundTo 24 ((1 : Int) : Rat) / roundTo 24 (decimal c!"2.0")) - roundTo 53 (decimal c!"0.5")) = 0)
  rw [hz] at h
  exact C76_partial ieee ieee_exact _ asciiEnv_lawful _ _ _ h rfl

/-- `#define HALF .5f`, `#define SUM - 3 * HALF + 1e1L`. -/
def floatHistory : List Op :=
  [.defineVar c!"HALF" [c!".5f"], .defineVar c!"SUM" [c!"-", c!"3", c!"*", c!"HALF", c!"+", c!"1e1L"]]

theorem floatHistory_noBackslash : Spec.NoBackslash (Table.run floatHistory) := by
  refine noBackslash_of ?_
  intro id d hd
  rcases run_mem hd with ⟨b, rfl, h⟩ | ⟨p, b, rfl, h⟩ <;> simp [floatHistory] at h
  rcases h with ⟨rfl, rfl⟩ | ⟨rfl, rfl⟩ <;> decide

theorem floatHistory_plain : Spec.Plain (Spec.cName asciiEnv) (Table.run floatHistory) := by
  have h := plain_of_check (E := asciiEnv) (h := floatHistory) (by decide +kernel)
  refine ⟨h.var, fun id params body hd => ?_⟩
  rcases run_mem hd with ⟨b, h, _⟩ | ⟨_, b, h, hm⟩
  · cases h
  · simp [floatHistory] at hm

theorem floatHistory_expands :
    Expands (Spec.cName asciiEnv) (Table.run floatHistory) [c!"SUM"]
      ([c!"-", c!"3", c!"*", c!"HALF", c!"+", c!"1e1L"].map (Spec.item (Spec.cName asciiEnv)))
      [.other c!"-", .other c!"3", .other c!"*", .other c!".5f", .other c!"+", .other c!"1e1L"] := by
  refine expands_congr (f := nameOf asciiEnv)
    (fun id d hd s hs => (cName_is asciiEnv_lawful (floatHistory_noBackslash id d hd s hs)).symm) ?_
  rw [show [c!"-", c!"3", c!"*", c!"HALF", c!"+", c!"1e1L"].map (Spec.item (Spec.cName asciiEnv)) =
    [c!"-", c!"3", c!"*", c!"HALF", c!"+", c!"1e1L"].map (Spec.item (nameOf asciiEnv)) from
    List.map_congr_left fun s hs => by
      simp only [Spec.item, cName_is asciiEnv_lawful (floatHistory_noBackslash c!"SUM" _ rfl s hs)]]
  rw [show [c!"-", c!"3", c!"*", c!"HALF", c!"+", c!"1e1L"].map (Spec.item (nameOf asciiEnv)) =
    [.other c!"-", .other c!"3", .other c!"*", .name c!"HALF" false, .other c!"+", .other c!"1e1L"] from by decide +kernel]
  refine .other (.other (.other ?_))
  refine .object (b := [.other c!".5f"]) (out := [.other c!"+", .other c!"1e1L"]) (by decide) rfl ?_ (.other (.other .nil))
  rw [show [c!".5f"].map (Spec.item (nameOf asciiEnv)) = [.other c!".5f"] from by decide +kernel]
  exact .other .nil

/-- `SUM` becomes an `f64` of the value 8.5. -/
example : ∃ f, RustFloat ieee f (q!"f64") (.double (17 / 2 : Rat)) ∧
    MakesConst (.unit asciiEnv) floatHistory c!"SUM" [.float f] (some (q!"f64")) := by
  have three : Spec.CToken asciiEnv c!"3" (.lit (.int ⟨3, none⟩)) :=
    .int (s := c!"3") (t := []) (v := 3) (Spec.IntConst.dec (ds := [3]) (s := c!"3") (.cons ⟨by decide, .inl (by decide)⟩ .nil) (by decide) (by decide)) (by decide) (by decide)
  have df : DecFloat c!".5" :=
    .fraction (a := []) (b := c!"5") (x := []) (by unfold Decimal; decide) (by unfold Decimal; decide) (by decide) (.inl rfl)
  have dt : DecFloat c!"1e1" := .whole (a := c!"1") (x := c!"e1") (by unfold Decimal; decide) (by decide)
    (.mk (sign := []) (ds := c!"1") (.inl rfl) (by decide) (by unfold Decimal; decide) (by decide))
  have half : Spec.CToken asciiEnv c!".5f" (.lit (.float (.float (.parse c!".5")))) := .float (u := c!"f") (ty := .float) df (by decide)
  have ten : Spec.CToken asciiEnv c!"1e1L" (.lit (.float (.longDouble (.parse c!"1e1")))) :=
    .float (u := c!"L") (ty := .longDouble) dt (by decide)
  have p : ∀ s ∈ Spec.punctuators, Spec.CToken asciiEnv s (.punct s) := fun s hs => .punct hs
  have up : ∀ {ℓ ts e}, Gram ℓ ts e → ∀ k, ℓ + k ≤ 12 → Gram (ℓ + k) ts e := by
    intro ℓ ts e h k
    induction k with
    | zero => exact fun _ => h
    | succ k ih => exact fun hk => .up (ℓ := ℓ + k) (ih (by omega)) (by omega)
  have gneg := Gram.pre (p := c!"-") (op := .minus) (by decide) (up (.lit (l := .int ⟨3, none⟩)) 2 (by decide))
  have gmul := Gram.bin (ℓ := 2) (p := c!"*") (op := .mul) (by decide) (up gneg 1 (by decide)) (up (.lit (l := .float (.float (.parse c!".5")))) 2 (by decide))
  have gadd := Gram.bin (ℓ := 3) (p := c!"+") (op := .add) (by decide) (up gmul 1 (by decide)) (up (.lit (l := .float (.longDouble (.parse c!"1e1")))) 3 (by decide))
  have v3 : Value (.lit (.int ⟨3, none⟩)) 3 := .lit
  have hv := CFloat.binD (A := ieee) (P := Small) (op := .add) (o := .add)
    (.binF (op := .mul) (o := .mul) (.int (.neg v3 (by unfold I128; decide)) ⟨rfl, by decide⟩) (.float df) (by decide) (by decide) .int .float)
    (.longDouble dt) (by decide) (.inr rfl) .float .double
  have hz : @Eq ieee.F64 (ieee.op64 .add (ieee.widen (ieee.op32 .mul (ieee.near32 (-3 : Int)) (ieee.near32 (decimal c!".5"))))
      (ieee.near64 (decimal c!"1e1"))) (17 / 2 : Rat) :=
    (by decide +kernel : roundTo 53 (roundTo 24 (roundTo 24 ((-3 : Int) : Rat) * roundTo 24 (decimal c!".5")) + roundTo 53 (decimal c!"1e1")) = 17 / 2)
  rw [hz] at hv
  obtain ⟨f, ty, h1, h2⟩ := C76_text_partial ieee ieee_exact (.unit asciiEnv) asciiEnv_lawful floatHistory c!"SUM" _
    (by simp only [IsIdent]; decide) floatHistory_plain floatHistory_noBackslash rfl _ floatHistory_expands _
    (.other (p _ (by decide)) (.other three (.other (p _ (by decide)) (.other half (.other (p _ (by decide)) (.other ten .nil))))))
    _ (up gadd 8 (by decide)) _ hv rfl
  cases h1 with
  | double h => exact ⟨_, .double h, h2⟩
  | longDouble h => exact ⟨_, .longDouble h, h2⟩

/-- `16777217 + 0.5`. -/
def bigSum : Expr := .bin (.lit (.int ⟨16777217, none⟩)) .add (.lit (.float (.double (.parse c!"0.5"))))

/-- **C76** does not hold of larger integers: `16777217 + 0.5` is `16777217.5` in C, but the integer is converted to `f32` first and the
constant is `16777216.5`. -/
theorem C76_false : ¬ C76_statement := by
  intro h
  have hc : CFloat ieee (fun _ _ => True) bigSum (.double (ieee.op64 .add (ieee.near64 (16777217 : Int)) (ieee.near64 (decimal c!"0.5")))) :=
    .binD (.int (v := 16777217) .lit trivial) (.double half) (by decide) (.inr rfl) .int .double
  obtain ⟨f, ty, h1, h2⟩ := h ieee ieee_exact (Ctx.unit asciiEnv) asciiEnv_lawful c!"M" bigSum _ hc rfl
  have h3 := varGenerates_of 10 (Ctx.unit asciiEnv) c!"M" bigSum (by decide +kernel)
  rw [show VarMacro.generate 10 (Ctx.unit asciiEnv) ⟨c!"M", .expr bigSum⟩ = .ok ([.float (.double (.add (.widen (.ofInt 16777217))
    (.parse c!"0.5")))], some (q!"f64")) from by kernel_rfl] at h3
  have h4 := h2.unique h3
  simp only [Except.ok.injEq, Prod.mk.injEq, List.cons.injEq, RTok.float.injEq, and_true] at h4
  obtain ⟨rfl, _⟩ := h4
  generalize hn : ieee.op64 .add (ieee.near64 (16777217 : Int)) (ieee.near64 (decimal c!"0.5")) = q at h1
  cases h1 with
  | double h5 =>
    cases h5 with
    | add h6 h7 =>
      cases h6 with
      | widen h8 =>
        cases h8 with
        | ofInt =>
          cases h7 with
          | parse => exact absurd hn (by decide +kernel)

/-- `2U * 1.5`. -/
def suffixProduct : Expr := .bin (.lit (.int ⟨2, some .uInt⟩)) .mul (.lit (.float (.double (.parse c!"1.5"))))

/-- **C76** does not hold of integers with suffixes: `2U * 1.5` is not folded, and the product of an integer and a floating literal in the
generated code is an error of types. -/
theorem C76_false_suffix : ¬ C76_statement := by
  intro h
  have hf : DecFloat c!"1.5" :=
    .fraction (a := c!"1") (b := c!"5") (x := []) (by unfold Decimal; decide) (by unfold Decimal; decide) (by decide) (.inl rfl)
  have hc : CFloat ieee (fun _ _ => True) suffixProduct
      (.double (ieee.op64 .mul (ieee.near64 (2 : Int)) (ieee.near64 (decimal c!"1.5")))) :=
    .binD (.int (v := 2) .lit trivial) (.double hf) (by decide) (.inr rfl) .int .double
  obtain ⟨f, ty, h1, h2⟩ := h ieee ieee_exact (Ctx.unit asciiEnv) asciiEnv_lawful c!"M" suffixProduct _ hc rfl
  have h3 := varGenerates_of 10 (Ctx.unit asciiEnv) c!"M" suffixProduct (by decide +kernel)
  rw [show VarMacro.generate 10 (Ctx.unit asciiEnv) ⟨c!"M", .expr suffixProduct⟩ = .ok ([.int 2 [], .punct c!"*",
    .float (.double (.parse c!"1.5"))], some (q!"f64")) from by kernel_rfl] at h3
  have h4 := h2.unique h3
  simp at h4

end CMacro
