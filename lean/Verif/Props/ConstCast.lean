import Verif.Props.FnValue
import Verif.Props.NoPanic
import Verif.Props.Value
import Verif.Proofs.ConstCast

/-!
# Property C68: constants with casts

A constant whose value is not computed by the code generator, because it contains casts to integer types, is a Rust expression.
-/

namespace CMacro
open Spec

/-- C68: a constant expression with casts becomes a Rust constant of the same type and the same value. -/
def C68_statement : Prop :=
  ∀ (W : Widths) (C : Ctx) (name : Str) (e : Expr) (t : IntTy) (v : Int), C.env.Lawful → CalmCtx C → constant e = false →
    FnValue W True True (fun _ => none) e (.int t v) →
    ∃ code u, VarMacro.Generates C ⟨name, .expr e⟩ (.ok (code, some (tyText C.ffiPrefix t))) ∧ rustParse code = some u ∧
      RustEval W C.ffiPrefix (fun _ => none) u (.int t v)

theorem link_none (P : PCtx) (st : LState) (hroot : Rooted P.C.ffiPrefix) : Link P st (fun _ => none) fun _ => none :=
  ⟨fun i t v hi => by (cases hi), fun i x p hi => by (cases hi), fun i j x p q hi => by (cases hi), hroot, fun i p hi => by (cases hi)⟩

/-- The generated constant. -/
theorem const_generated {W : Widths} {C : Ctx} (name : Str) {e : Expr} {o : Outcome} (hE : C.env.Lawful) (hC : CalmCtx C)
    (hc : constant e = false) (hv : FnValue W False False (fun _ => none) e o) (hs : Separated e) (hroot : Rooted C.ffiPrefix) :
    ∃ code u, VarMacro.Generates C ⟨name, .expr e⟩ (.ok (code, some ((outTy o).toks ⟨C, varLoc C, false⟩))) ∧ rustParse code = some u ∧
      RustEval W C.ffiPrefix (fun _ => none) u o := by
  obtain ⟨⟨e', st', res⟩, hd, N, hN⟩ := finish_ends C (varLoc C) e .init
  cases res with
  | error er =>
    have := fn_fails (P := ⟨C, varLoc C, false⟩) hv _ (link_none _ _ hroot) hs N e' st' er (hN N (Nat.le_refl _))
    subst this
    exact absurd rfl hd
  | ok ty =>
    have hf := hN N (Nat.le_refl _)
    have hst := fn_state hv hf
    have hty := cast_type (P := ⟨C, varLoc C, false⟩) hv (fun _ => rfl) hroot hs hc _ _ _ _ hf
    have k := (fn_finish (P := ⟨C, varLoc C, false⟩) hv _ N e' st' ty (link_none _ _ hroot) hf hs).kept hc
    have hn : Nums 0 e' := by
      have := nums_finish C (varLoc C) 0 N e .init (fn_nums hv (by rintro i p ⟨⟩))
      rw [hf] at this
      exact this
    obtain ⟨u, h1, _, h3⟩ := k.tree
    have hg := varGenerates (name := name) ⟨hd, N, hN⟩
    have t1 : toksOk C.env (e'.toks ⟨C, varLoc C, false⟩) = true :=
      nums_ok (ps := []) hC hE rfl (fun s hs => by cases hs) e' hn
    have t2 : toksOk C.env ((outTy o).toks ⟨C, varLoc C, false⟩) = true := by
      cases o <;> exact ty_ok (ps := []) hC hE rfl (fun s hs => by cases hs) trivial
    subst hst hty
    refine ⟨e'.toks ⟨C, varLoc C, false⟩, u, ?_, C37_partial _ _ _ h1 k.sep, h3⟩
    have : varOut C ⟨e', .init, .ok (some (outTy o))⟩ = .ok (e'.toks ⟨C, varLoc C, false⟩, some ((outTy o).toks ⟨C, varLoc C, false⟩)) := by
      have hl := k.lit
      unfold varOut
      dsimp only [LState.init]
      split
      · exact absurd rfl (hl _)
      · simp only [Option.map_some, Option.getD_some, t1, t2]
        rfl
    rwa [this] at hg

/-- C68, when no operand is converted to the type of the other, no unsigned operation wraps around, and no cast stands where Rust
would read on. -/
theorem C68_partial (W : Widths) (C : Ctx) (name : Str) (e : Expr) (t : IntTy) (v : Int) (hE : C.env.Lawful) (hC : CalmCtx C)
    (hc : constant e = false) (hv : FnValue W False False (fun _ => none) e (.int t v)) (hs : Separated e)
    (hroot : Rooted C.ffiPrefix := by intro p h; cases h) :
    ∃ code u, VarMacro.Generates C ⟨name, .expr e⟩ (.ok (code, some (tyText C.ffiPrefix t))) ∧ rustParse code = some u ∧
      RustEval W C.ffiPrefix (fun _ => none) u (.int t v) := by
  obtain ⟨code, u, h⟩ := const_generated name hE hC hc hv hs hroot
  rw [outTy, tyText_is] at h
  exact ⟨code, u, h⟩

/-- Comparisons and other conditions become constants of the type `bool`. -/
theorem C68_bool_partial (W : Widths) (C : Ctx) (name : Str) (e : Expr) (b : Bool) (hE : C.env.Lawful) (hC : CalmCtx C)
    (hc : constant e = false) (hv : FnValue W False False (fun _ => none) e (.truth b)) (hs : Separated e)
    (hroot : Rooted C.ffiPrefix := by intro p h; cases h) :
    ∃ code u, VarMacro.Generates C ⟨name, .expr e⟩ (.ok (code, some (q!"bool"))) ∧ rustParse code = some u ∧
      RustEval W C.ffiPrefix (fun _ => none) u (.truth b) :=
  const_generated name hE hC hc hv hs hroot

/-- The text of an expansion: names that are left, and other tokens of C. -/
inductive Spec.ItemText (E : Env) : List Item → List MacroToken → Prop
  | nil : ItemText E [] []
  | name {id p is ts} : ItemText E is ts → ItemText E (.name id p :: is) (.ident id :: ts)
  | other {s t is ts} : CToken E s t → ItemText E is ts → ItemText E (.other s :: is) (t :: ts)

theorem results_itemText {E : Env} (L : E.Lawful) {is : List Item} {ts : List MacroToken} (h : ItemText E is ts) :
    results E is = some ts := by
  induction h with
  | nil => rfl
  | name _ ih => simp only [results, itemResult, ih]
  | other h _ ih => simp only [results, itemResult, (classify_cToken L h).1, ih]

/-- Expanding and parsing before generating. -/
theorem makesConst_of {C : Ctx} (L : C.env.Lawful) {h : List Op} {name : Str} {body : List Str}
    (hn : IsIdent C.env.xidStart C.env.xidContinue name)
    (hP : Spec.Plain (Spec.cName C.env) (Table.run h)) (hB : Spec.NoBackslash (Table.run h))
    (hdef : Table.run h name = some (.var body)) {out : List Item}
    (hx : Expands (Spec.cName C.env) (Table.run h) [name] (body.map (Spec.item (Spec.cName C.env))) out)
    {ts : List MacroToken} (ht : ItemText C.env out ts) {e : Expr} (hg : Gram 12 ts e) {code : List RTok} {ty : Option (List RTok)}
    (hm : VarMacro.Generates C ⟨name, .expr e⟩ (.ok (code, ty))) : MakesConst C h name code ty := by
  obtain ⟨n₂, h2⟩ := hm
  have hP' := plain_cName L hP
  have hx' := expands_congr (g := nameOf C.env) (fun id d hd s hs => cName_is L (hB id d hd s hs)) hx
  rw [show body.map (Spec.item (Spec.cName C.env)) = body.map (Spec.item (nameOf C.env)) from
    List.map_congr_left fun s hs => by simp only [Spec.item, cName_is L (hB name _ hdef s hs)]] at hx'
  obtain ⟨_, n₁, h1⟩ := expandVar_of_expands L (agrees_run h) hP' hdef hx' (results_itemText L ht)
  refine ⟨max n₁ n₂, fun n hn' => ?_⟩
  have h4 : (MacroSet.run h).expandVar C.env n name = .ok ts := by
    have h1' : (MacroSet.run h).expandVar C.env n₁ name = .ok ts := h1
    rw [← h1']
    exact (expandVar_le C.env _ (show n₁ ≤ n by omega) name).eq (by rw [h1']; simp)
  have hi : isIdentifier C.env name = true := isIdent_iff.2 hn
  simp only [pipeVar, h4, C35_var_grammar C.env hi hg, h2 n (by omega)]

/-- C68 from the definitions on (see C59): expanding, parsing and generating. -/
theorem C68_text_partial (W : Widths) (C : Ctx) (L : C.env.Lawful) (hC : CalmCtx C) (h : List Op) (name : Str) (body : List Str)
    (hn : IsIdent C.env.xidStart C.env.xidContinue name)
    (hP : Spec.Plain (Spec.cName C.env) (Table.run h)) (hB : Spec.NoBackslash (Table.run h))
    (hdef : Table.run h name = some (.var body)) (out : List Item)
    (hx : Expands (Spec.cName C.env) (Table.run h) [name] (body.map (Spec.item (Spec.cName C.env))) out)
    (ts : List MacroToken) (ht : ItemText C.env out ts) (e : Expr) (hg : Gram 12 ts e) (t : IntTy) (v : Int)
    (hc : constant e = false) (hv : FnValue W False False (fun _ => none) e (.int t v)) (hs : Separated e)
    (hroot : Rooted C.ffiPrefix := by intro p h; cases h) :
    ∃ code u, MakesConst C h name code (some (tyText C.ffiPrefix t)) ∧ rustParse code = some u ∧
      RustEval W C.ffiPrefix (fun _ => none) u (.int t v) := by
  obtain ⟨code, u, h1, h3⟩ := C68_partial W C name e t v L hC hc hv hs hroot
  exact ⟨code, u, makesConst_of L hn hP hB hdef hx ht hg h1, h3⟩

/-! ## Examples -/

/-- `(unsigned char) 300`. -/
def narrowExpr : Expr := .cast (.builtIn .uChar) (.lit (.int ⟨300, none⟩))

/-- It becomes `300u16 as c_uchar`, of the type `c_uchar` and the value 44. -/
example : VarMacro.Generates (.unit asciiEnv) ⟨c!"M", .expr narrowExpr⟩ (.ok (.int 300 c!"u16" :: q!"as c_uchar", some (q!"c_uchar"))) ∧
    ∃ u, rustParse (.int 300 c!"u16" :: q!"as c_uchar") = some u ∧ RustEval .lp64 none (fun _ => none) u (.int .uchar 44) := by
  have hv : FnValue .lp64 False False (fun _ => none) narrowExpr (.int .uchar 44) :=
    .cast (t := .uchar) (.const (.lit ⟨true, [], _, rfl, by simp, by decide⟩)) (.wraps trivial rfl)
  obtain ⟨code, u, h1, h2, h3⟩ := C68_partial .lp64 (.unit asciiEnv) c!"M" _ _ _ asciiEnv_lawful (calmCtx_unit _) rfl hv trivial
  have hg : VarMacro.Generates (.unit asciiEnv) ⟨c!"M", .expr narrowExpr⟩ (.ok (.int 300 c!"u16" :: q!"as c_uchar", some (q!"c_uchar"))) :=
    varGenerates_of 5 _ _ _ (by decide)
  have := VarMacro.Generates.unique h1 hg
  injection this with this
  injection this with this _
  subst this
  exact ⟨hg, u, h2, h3⟩

/-- `(int) 5 == 7`. -/
example : ∃ code u, VarMacro.Generates (.unit asciiEnv) ⟨c!"M", .expr (.bin (.cast (.builtIn .int) (.lit (.int ⟨5, none⟩))) .eq (.lit (.int ⟨7, none⟩)))⟩
    (.ok (code, some (q!"bool"))) ∧ rustParse code = some u ∧ RustEval .lp64 none (fun _ => none) u (.truth false) := by
  have h5 : FnValue .lp64 False False (fun _ => none) (.cast (.builtIn .int) (.lit (.int ⟨5, none⟩))) (.int .int 5) :=
    .cast (t := .int) (.const (.lit ⟨true, [], _, rfl, by simp, by decide⟩)) (.fits (by decide))
  have h7 : FnValue .lp64 False False (fun _ => none) (.lit (.int ⟨7, none⟩)) (.int .int 7) :=
    .const (.lit ⟨true, [], _, rfl, by simp, by decide⟩)
  exact C68_bool_partial .lp64 (.unit asciiEnv) c!"M" _ _ asciiEnv_lawful (calmCtx_unit _) rfl
    (.cmp (op := .eq) rfl h5 h7 (.inr ⟨rfl, .int, .inl rfl, .inl rfl, by decide, by decide⟩) (.fits (by decide)) (.fits (by decide)))
    ⟨by simp, by simp, by simp, trivial, trivial⟩

/-- `(__INT_MAX__ * 2U + 1U) / (unsigned int) 16` becomes a `c_uint` of the value 268435455. -/
example : ∃ code u, VarMacro.Generates (.unit asciiEnv) ⟨c!"M", .expr (.bin (.bin (.bin (.var (.plain c!"__INT_MAX__")) .mul (.lit (.int ⟨2, some .uInt⟩)))
      .add (.lit (.int ⟨1, some .uInt⟩))) .div (.cast (.builtIn .uInt) (.lit (.int ⟨16, none⟩))))⟩
    (.ok (code, some (q!"c_uint"))) ∧ rustParse code = some u ∧ RustEval .lp64 none (fun _ => none) u (.int .uint 268435455) := by
  have h16 : FnValue .lp64 False False (fun _ => none) (.cast (.builtIn .uInt) (.lit (.int ⟨16, none⟩))) (.int .uint 16) :=
    .cast (t := .uint) (.const (.lit ⟨true, [], _, rfl, by simp, by decide⟩)) (.fits (by decide))
  have h1 : FnValue .lp64 False False (fun _ => none) (.lit (.int ⟨1, some .uInt⟩)) (.int .uint 1) :=
    .const (.lit ⟨true, [], _, rfl, by simp, by decide⟩)
  have hm : FnValue .lp64 False False (fun _ => none) (.bin (.var (.plain c!"__INT_MAX__")) .mul (.lit (.int ⟨2, some .uInt⟩))) (.int .uint 4294967294) :=
    .widened (s := .int) (t := .uint) (.inl rfl) rfl rfl (.lit ⟨true, [], _, rfl, by simp, by decide⟩) rfl (.fits (by decide)) .mul (.fits (by decide))
  have ha := FnValue.bin (op := .add) (mixed := False) rfl rfl hm h1 (.inr (.inl ⟨rfl, rfl⟩)) (.fits (by decide)) (.fits (by decide)) .add (by rintro ⟨⟩) (.fits (by decide))
  exact C68_partial .lp64 (.unit asciiEnv) c!"M" _ .uint 268435455 asciiEnv_lawful (calmCtx_unit _) rfl
    (.bin (op := .div) rfl rfl ha h16 (.inr (.inl ⟨rfl, rfl⟩)) (.fits (by decide)) (.fits (by decide)) (.div (q := 268435455) (r := 15) (by decide) (by decide) (by decide) (.inr (by decide))) (by rintro ⟨⟩) (.fits (by decide)))
    ⟨by simp, by simp, by simp, ⟨by simp, by simp, by simp, ⟨by simp, by simp, by simp, trivial, trivial⟩, trivial⟩, trivial⟩

/-- `#define N 30`, `#define TOP (unsigned int) 3 << N`. -/
def castHistory : List Op :=
  [.defineVar c!"N" [c!"30"],
   .defineVar c!"TOP" [c!"(", c!"unsigned", c!"int", c!")", c!"3", c!"<<", c!"N"]]

theorem castHistory_noBackslash : Spec.NoBackslash (Table.run castHistory) := by
  refine noBackslash_of ?_
  intro id d hd
  rcases run_mem hd with ⟨b, rfl, h⟩ | ⟨p, b, rfl, h⟩ <;> simp [castHistory] at h
  rcases h with ⟨rfl, rfl⟩ | ⟨rfl, rfl⟩ <;> decide

theorem castHistory_plain : Spec.Plain (Spec.cName asciiEnv) (Table.run castHistory) := by
  have h := plain_of_check (E := asciiEnv) (h := castHistory) (by decide +kernel)
  refine ⟨h.var, fun id params body hd => ?_⟩
  rcases run_mem hd with ⟨b, h, _⟩ | ⟨_, b, h, hm⟩
  · cases h
  · simp [castHistory] at hm

/-- The expansion of `TOP` still has the names `unsigned` and `int`. -/
theorem castHistory_expands :
    Expands (Spec.cName asciiEnv) (Table.run castHistory) [c!"TOP"]
      ([c!"(", c!"unsigned", c!"int", c!")", c!"3", c!"<<", c!"N"].map (Spec.item (Spec.cName asciiEnv)))
      [.other c!"(", .name c!"unsigned" false, .name c!"int" false, .other c!")", .other c!"3", .other c!"<<", .other c!"30"] := by
  refine expands_congr (f := nameOf asciiEnv)
    (fun id d hd s hs => (cName_is asciiEnv_lawful (castHistory_noBackslash id d hd s hs)).symm) ?_
  rw [show [c!"(", c!"unsigned", c!"int", c!")", c!"3", c!"<<", c!"N"].map (Spec.item (Spec.cName asciiEnv)) =
    [c!"(", c!"unsigned", c!"int", c!")", c!"3", c!"<<", c!"N"].map (Spec.item (nameOf asciiEnv)) from
    List.map_congr_left fun s hs => by
      simp only [Spec.item, cName_is asciiEnv_lawful (castHistory_noBackslash c!"TOP" _ rfl s hs)]]
  rw [show [c!"(", c!"unsigned", c!"int", c!")", c!"3", c!"<<", c!"N"].map (Spec.item (nameOf asciiEnv)) =
    [.other c!"(", .name c!"unsigned" false, .name c!"int" false, .other c!")", .other c!"3", .other c!"<<", .name c!"N" false]
    from by decide +kernel]
  refine .other (.undefined (by simp) rfl (.undefined (by simp) rfl (.other (.other (.other ?_)))))
  refine .object (b := [.other c!"30"]) (out := []) (by decide) rfl ?_ .nil
  rw [show [c!"30"].map (Spec.item (nameOf asciiEnv)) = [.other c!"30"] from by decide +kernel]
  exact .other .nil

/-- `TOP` becomes a `c_uint` of the value 3221225472. -/
example : ∃ code u, MakesConst (.unit asciiEnv) castHistory c!"TOP" code (some (q!"c_uint")) ∧ rustParse code = some u ∧
    RustEval .lp64 none (fun _ => none) u (.int .uint 3221225472) := by
  have three : Spec.CToken asciiEnv c!"3" (.lit (.int ⟨3, none⟩)) :=
    .int (s := c!"3") (t := []) (v := 3) (Spec.IntConst.dec (ds := [3]) (s := c!"3") (.cons ⟨by decide, .inl (by decide)⟩ .nil) (by decide) (by decide)) (by decide) (by decide)
  have thirty : Spec.CToken asciiEnv c!"30" (.lit (.int ⟨30, none⟩)) :=
    .int (s := c!"30") (t := []) (v := 30) (Spec.IntConst.dec (ds := [3, 0]) (s := c!"30")
      (.cons ⟨by decide, .inl (by decide)⟩ (.cons ⟨by decide, .inl (by decide)⟩ .nil)) (by decide) (by decide)) (by decide) (by decide)
  have p : ∀ s ∈ Spec.punctuators, Spec.CToken asciiEnv s (.punct s) := fun s hs => .punct hs
  have up : ∀ {ℓ ts e}, Gram ℓ ts e → ∀ k, ℓ + k ≤ 12 → Gram (ℓ + k) ts e := by
    intro ℓ ts e h k
    induction k with
    | zero => exact fun _ => h
    | succ k ih => exact fun hk => .up (ℓ := ℓ + k) (ih (by omega)) (by omega)
  have ty : TypeName ([c!"unsigned", c!"int"].map .ident) (.builtIn .uInt) :=
    .int ⟨[c!"unsigned", c!"int"], by decide, .refl _⟩ (by decide) (by decide)
  have cast := Gram.cast ty (up (.lit (l := .int ⟨3, none⟩)) 2 (by decide))
  have sh := Gram.bin (ℓ := 4) (p := c!"<<") (op := .shl) (by decide) (up cast 3 (by decide)) (up (.lit (l := .int ⟨30, none⟩)) 4 (by decide))
  have h3 : FnValue .lp64 False False (fun _ => none) (.cast (.builtIn .uInt) (.lit (.int ⟨3, none⟩))) (.int .uint 3) :=
    .cast (t := .uint) (.const (.lit ⟨true, [], _, rfl, by simp, by decide⟩)) (.fits (by decide))
  have h30 : FnValue .lp64 False False (fun _ => none) (.lit (.int ⟨30, none⟩)) (.int .int (30 : Nat)) :=
    .const (.lit ⟨true, [], _, rfl, by simp, by decide⟩)
  exact C68_text_partial .lp64 (.unit asciiEnv) asciiEnv_lawful (calmCtx_unit _) castHistory c!"TOP" _ (by simp only [IsIdent]; decide)
    castHistory_plain castHistory_noBackslash rfl _ castHistory_expands _
    (.other (p _ (by decide)) (.name (.name (.other (p _ (by decide)) (.other three (.other (p _ (by decide)) (.other thirty .nil)))))))
    _ (up sh 7 (by decide)) .uint 3221225472 rfl
    (.shl (s := .uint) (k := 30) rfl h3 h30 (.inr ⟨rfl, .inr rfl, rfl⟩) (by decide) (by decide) (.fits (by decide)))
    ⟨by simp, by simp [isCast], by simp, trivial, trivial⟩

/-! ## The full claim is false -/

theorem lit_const {n : LitInt} {t : IntTy} (h : ConstTy .lp64 n t) :
    FnValue .lp64 True True (fun _ => none) (.lit (.int n)) (.int t n.value.toInt) := .const (.lit h)

/-- The operands are not promoted: `(unsigned char) 200 << 2` is the `int` 800 in C, but the constant has the type `c_uchar`. -/
theorem C68_false : ¬ C68_statement := by
  intro h
  have h200 : FnValue .lp64 True True (fun _ => none) (.cast (.builtIn .uChar) (.lit (.int ⟨200, none⟩))) (.int .uchar 200) :=
    .cast (t := .uchar) (lit_const (t := .int) ⟨true, [], _, rfl, by simp, by decide⟩) (.fits (by decide))
  have h2 : FnValue .lp64 True True (fun _ => none) (.lit (.int ⟨2, none⟩)) (.int .int (2 : Nat)) :=
    lit_const ⟨true, [], _, rfl, by simp, by decide⟩
  obtain ⟨code, u, hg, _⟩ := h .lp64 (.unit asciiEnv) c!"M"
    (.bin (.cast (.builtIn .uChar) (.lit (.int ⟨200, none⟩))) .shl (.lit (.int ⟨2, none⟩))) .int 800 asciiEnv_lawful (calmCtx_unit _) rfl
    (.shl (s := .uchar) (k := 2) rfl h200 h2 (.inl trivial) (by decide) (by decide) (.fits (by decide)))
  have hg' := varGenerates_of 5 (.unit asciiEnv) c!"M" (.bin (.cast (.builtIn .uChar) (.lit (.int ⟨200, none⟩))) .shl (.lit (.int ⟨2, none⟩)))
    (by decide)
  have := VarMacro.Generates.unique hg hg'
  rw [show VarMacro.generate 5 (.unit asciiEnv) ⟨c!"M", .expr (.bin (.cast (.builtIn .uChar) (.lit (.int ⟨200, none⟩))) .shl (.lit (.int ⟨2, none⟩)))⟩
    = .ok (q!"(" ++ .int 200 c!"u8" :: q!"as c_uchar ) <<" ++ [.int 2 []], some (q!"c_uchar")) from rfl] at this
  injection this with this
  injection this with _ this
  exact absurd this (by decide)

/-- Operands of different types: `(long) 5 + (int) 2` is the `long` 7 in C, but the constant has no type (and its value adds a `c_long`
and a `c_int`). -/
theorem C68_false_mixed : ¬ C68_statement := by
  intro h
  have h5 : FnValue .lp64 True True (fun _ => none) (.cast (.builtIn .long) (.lit (.int ⟨5, none⟩))) (.int .long 5) :=
    .cast (t := .long) (lit_const (t := .int) ⟨true, [], _, rfl, by simp, by decide⟩) (.fits (by decide))
  have h2 : FnValue .lp64 True True (fun _ => none) (.cast (.builtIn .int) (.lit (.int ⟨2, none⟩))) (.int .int 2) :=
    .cast (t := .int) (lit_const (t := .int) ⟨true, [], _, rfl, by simp, by decide⟩) (.fits (by decide))
  obtain ⟨code, u, hg, _⟩ := h .lp64 (.unit asciiEnv) c!"M" _ .long 7 asciiEnv_lawful (calmCtx_unit _) rfl
    (.bin (op := .add) (s := .long) (t := .int) rfl rfl h5 h2 (.inl trivial) (.fits (by decide)) (.fits (by decide)) .add (by rintro ⟨⟩) (.fits (by decide)))
  have hg' := varGenerates_of 5 (.unit asciiEnv) c!"M" (.bin (.cast (.builtIn .long) (.lit (.int ⟨5, none⟩))) .add (.cast (.builtIn .int) (.lit (.int ⟨2, none⟩))))
    (by decide)
  have := VarMacro.Generates.unique hg hg'
  rw [show VarMacro.generate 5 (.unit asciiEnv) ⟨c!"M", .expr (.bin (.cast (.builtIn .long) (.lit (.int ⟨5, none⟩))) .add (.cast (.builtIn .int) (.lit (.int ⟨2, none⟩))))⟩
    = .ok (.int 5 c!"u8" :: q!"as c_long +" ++ .int 2 c!"u8" :: q!"as c_int", none) from rfl] at this
  injection this with this
  injection this with _ this
  exact absurd this (by decide)

/-- The type of a constant under `~` is lost: `(unsigned long) ~0U` is 4294967295 in C, but the constant is `!0 as c_ulong`, of the
value 18446744073709551615. -/
theorem C68_false_suffix : ¬ C68_statement := by
  intro h
  have h0 : FnValue .lp64 True True (fun _ => none) (.lit (.int ⟨0, some .uInt⟩)) (.int .uint 0) :=
    lit_const ⟨true, [], _, rfl, by simp, by decide⟩
  obtain ⟨code, u, hg, hu, hv⟩ := h .lp64 (.unit asciiEnv) c!"M" _ .ulong 4294967295 asciiEnv_lawful (calmCtx_unit _) rfl
    (.cast (t := .ulong) (.comp h0 (.inl trivial)) (.fits (by decide)))
  have hg' := varGenerates_of 5 (.unit asciiEnv) c!"M" (.cast (.builtIn .uLong) (.un .comp (.lit (.int ⟨0, some .uInt⟩)))) (by decide)
  have := VarMacro.Generates.unique hg hg'
  rw [show VarMacro.generate 5 (.unit asciiEnv) ⟨c!"M", .expr (.cast (.builtIn .uLong) (.un .comp (.lit (.int ⟨0, some .uInt⟩))))⟩
    = .ok (q!"!" ++ .int 0 [] :: q!"as c_ulong", some (q!"c_ulong")) from rfl] at this
  injection this with this
  injection this with this _
  subst this
  obtain rfl : u = .cast (.un c!"!" (.num 0)) (q!"c_ulong") := Option.some.inj (hu.symm.trans rfl)
  have h' : RustEval .lp64 none (fun _ => none) (.cast (.un c!"!" (.num 0)) (q!"c_ulong")) (.int .ulong 18446744073709551615) :=
    .castComp (t := .ulong) (n := 0) (by decide)
  exact absurd (rustEval_unique hv h') (by decide)

/-- A limit and a constant: `__SCHAR_MAX__ * 3` is the `int` 381 in C, but the constant is `c_schar::MAX as c_uchar * 3` of the type
`c_uchar`, which cannot represent 381. -/
theorem C68_false_limit : ¬ C68_statement := by
  intro h
  have h3 : FnValue .lp64 True True (fun _ => none) (.lit (.int ⟨3, none⟩)) (.int .int 3) :=
    lit_const ⟨true, [], _, rfl, by simp, by decide⟩
  have hm : FnValue .lp64 True True (fun _ => none) (.var (.plain c!"__SCHAR_MAX__")) (.int .int 127) :=
    .limit (t := .schar) rfl (.inl trivial)
  obtain ⟨code, u, hg, _⟩ := h .lp64 (.unit asciiEnv) c!"M" _ .int 381 asciiEnv_lawful (calmCtx_unit _) rfl
    (.bin (op := .mul) (s := .int) (t := .int) rfl rfl hm h3 (.inl trivial) (.fits (by decide)) (.fits (by decide)) .mul (by rintro ⟨⟩) (.fits (by decide)))
  have hg' := varGenerates_of 5 (.unit asciiEnv) c!"M" (.bin (.var (.plain c!"__SCHAR_MAX__")) .mul (.lit (.int ⟨3, none⟩))) (by decide)
  have := VarMacro.Generates.unique hg hg'
  rw [show VarMacro.generate 5 (.unit asciiEnv) ⟨c!"M", .expr (.bin (.var (.plain c!"__SCHAR_MAX__")) .mul (.lit (.int ⟨3, none⟩)))⟩
    = .ok (q!"c_schar :: MAX as c_uchar *" ++ [.int 3 []], some (q!"c_uchar")) from rfl] at this
  injection this with this
  injection this with _ this
  exact absurd this (by decide)

end CMacro
