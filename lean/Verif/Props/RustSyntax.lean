import Verif.Proofs.RustSyntax
import Verif.Props.Types
import Verif.Model.Pipeline

/-!
# C37: the generated expression is grouped like the C expression
-/

namespace CMacro
open Spec

/-- **C37**, the full statement: the tokens printed for an expression are one Rust expression, and
it is grouped like the C expression.  It is false of the code, see `C37_false`, `C37_false_shift`,
`C37_false_deref`, `C37_false_if`, `C37_false_block` and `C37_false_step`. -/
def C37_statement : Prop :=
  ∀ (P : PCtx) (e : Expr) (t : RExpr), RustTree P e t → rustParse (e.toks P) = some t

/-- **C37** for expressions in which no operand ending in a cast stands to the left of `<` or `<<`
(a single cast may stand to the left of `<<`), no negative literal is to the left of a sum that is
dereferenced or of a field, and no branch of a `? :` applies an operator to another `? :`, an assignment or an increment on its left edge.  The target of an
assignment is a variable, a member or something dereferenced, the pointer in `*p++` a variable or a member.  Not covered:
strings, `sizeof`, volatile accesses. -/
theorem C37_partial (P : PCtx) (e : Expr) (t : RExpr) (h : RustTree P e t) (hs : Separated e) :
    rustParse (e.toks P) = some t := by
  obtain ⟨n', h1, h2⟩ := (rustTree_readsBack h hs).main 14 (2 * (e.toks P).length + 1) [] (prec_le e) (by omega) trivial
    (fun _ => trivial)
  obtain ⟨j, rfl⟩ : ∃ j, n' = j + 1 := ⟨n' - 1, by omega⟩
  rw [List.append_nil, rClimb_stop j 14 t (ts := []) trivial] at h2
  rw [rustParse, h2]

/-- The same of an expression that stands between braces, as the body of a function does: it must not apply an operator to
a `? :`, an assignment or an increment on its left edge. -/
theorem C37_block_partial (P : PCtx) (e : Expr) (t : RExpr) (h : RustTree P e t) (hs : Separated e) (hb : FitsBlock e) :
    rustBlock (e.toks P) = some t := by
  rw [rustBlock, (rustTree_readsBack h hs).block hb _ [] (by omega)]

/-- The tree is determined by the expression. -/
theorem C37_one_tree_partial (P : PCtx) (e : Expr) (t u : RExpr) (ht : RustTree P e t) (hu : RustTree P e u) (hs : Separated e) :
    t = u :=
  Option.some.inj ((C37_partial P e t ht hs).symm.trans (C37_partial P e u hu hs))

/-! ## The types that occur in casts -/

theorem typeText_path (pre : Option RPath) (hpre : ∀ p, pre = some p → p.segs ≠ []) (x : Str) :
    TypeText (RTy.prefixed pre x).toks := by
  have key : ∀ (segs : List Str), ∃ y ys, sepToks q!"::" ((segs ++ [x]).map fun s => [RTok.id s]) = .id y :: ys ∧
      TypeText (.id y :: ys) := by
    intro segs
    induction segs with
    | nil => exact ⟨x, [], rfl, .name⟩
    | cons s segs ih =>
      obtain ⟨y, ys, h1, h2⟩ := ih
      refine ⟨s, .punct c!"::" :: .id y :: ys, ?_, .seg h2⟩
      cases hx : segs ++ [x] with
      | nil => simp at hx
      | cons a as =>
        rw [hx] at h1
        simp only [List.cons_append, hx, List.map_cons, sepToks, List.nil_append] at h1 ⊢
        rw [h1]
  cases pre with
  | none => exact .name
  | some p =>
    obtain ⟨y, ys, h1, h2⟩ := key p.segs
    simp only [RTy.prefixed, RTy.toks, RPath.toks]
    rw [h1]
    cases p.leadingColon with
    | true => exact .root h2
    | false => exact h2

/-- Every built-in type of C whose name in Rust is not supplied by the context, with any prefix, is
written as a path, and so are the pointers to it. -/
theorem typeText_builtIn (P : PCtx) (hpre : ∀ p, P.C.ffiPrefix = some p → p.segs ≠ []) (b : BuiltInType)
    (hb : b = .sizeT → P.C.resolveTy c!"size_t" = none) : TypeText ((Ty.builtIn b).toks P) ∧
      TypeText ((Ty.ptr (.builtIn b)).toks P) ∧ ∀ q, TypeText ((Ty.qualified (.ptr (.builtIn b)) q).toks P) := by
  have h : TypeText ((Ty.builtIn b).toks P) := by
    cases b <;> simp only [Ty.toks, BuiltInType.toRust]
    case sizeT =>
      rw [hb rfl]
      simp only
      split
      · exact typeText_path _ hpre _
      · exact typeText_path _ (by simp) _
    all_goals first
      | exact typeText_path P.C.ffiPrefix hpre _
      | exact typeText_path none (by simp) _
  refine ⟨h, .ptr (.inr rfl) h, fun q => ?_⟩
  simp only [Ty.toks]
  split
  · exact .ptr (.inl rfl) h
  · exact .ptr (.inr rfl) h

/-! ## Examples -/

/-- The context of the examples: parameters `x`, `y`, `z` of a macro. -/
def P3 : PCtx := ⟨Ctx.unit asciiEnv, fnLoc [c!"x", c!"y", c!"z"], true⟩

theorem P3_var (i : Nat) (h : i < 3) : RustTree P3 (.var (.arg i)) (.name [.punct c!"$", .id ([c!"x", c!"y", c!"z"][i])]) :=
  .metavar (by
    match i, h with
    | 0, _ => rfl
    | 1, _ => rfl
    | 2, _ => rfl) (by
    match i, h with
    | 0, _ => simp
    | 1, _ => simp
    | 2, _ => simp) rfl

/-- `(x - (y - z)) * (int)-x > y << 2` -/
def mixed : Expr :=
  .bin (.bin (.bin (.var (.arg 0)) .sub (.bin (.var (.arg 1)) .sub (.var (.arg 2)))) .mul
      (.cast (.builtIn .int) (.un .minus (.var (.arg 0))))) .gt (.bin (.var (.arg 1)) .shl (.lit (.int ⟨2, none⟩)))

example : mixed.toks P3 =
    q!"( $ x - ( $ y - $ z ) ) * - $ x as c_int > $ y <<" ++ [.int 2 []] := by decide +kernel

example : rustParse (q!"( $ x - ( $ y - $ z ) ) * - $ x as c_int > $ y <<" ++ [.int 2 []]) =
    some (.bin c!">" (.bin c!"*" (.bin c!"-" (.name q!"$ x") (.bin c!"-" (.name q!"$ y") (.name q!"$ z")))
      (.cast (.un c!"-" (.name q!"$ x")) q!"c_int")) (.bin c!"<<" (.name q!"$ y") (.num 2))) :=
  C37_partial P3 mixed _
    (.bin rfl (.bin rfl (.bin rfl (P3_var 0 (by decide)) (.bin rfl (P3_var 1 (by decide)) (P3_var 2 (by decide))))
      (.cast ⟨by decide, .inl (by simp)⟩ .name (by simp) (.un (op := .minus) rfl (P3_var 0 (by decide)))))
      (.bin rfl (P3_var 1 (by decide)) (.int (i := ⟨2, none⟩))))
    (by simp [mixed, Separated, endsCast])

/-- Calls, fields and dereferenced sums: `*(f((int)x, 1) + (y.len - 1))`. -/
example : rustParse (q!"* f ( ( $ x as c_int ) . into ( ) ," ++ [.int 1 []] ++ q!") . add ( $ y . len -" ++ [.int 1 []] ++ q!")") =
    some (.un c!"*" (.method (.call (.name q!"f") [.method (.cast (.name q!"$ x") q!"c_int") c!"into" [], .num 1]) c!"add"
      [.bin c!"-" (.field (.name q!"$ y") c!"len") (.num 1)])) :=
  C37_partial P3 (.un .deref (.bin (.call (.plain c!"f") [.cast (.builtIn .int) (.var (.arg 0)), .lit (.int ⟨1, none⟩)]) .add
      (.bin (.bin (.var (.arg 1)) .memberAccess (.var (.plain c!"len"))) .sub (.lit (.int ⟨1, none⟩))))) _
    (.derefAdd (.call (by decide) (by decide) (.into (.cast ⟨by decide, .inl (by simp)⟩ .name (by simp) (P3_var 0 (by decide))) rfl
      (.plain (.int (i := ⟨1, none⟩)) rfl .nil)))
      (.bin rfl (.field (P3_var 1 (by decide)) (by decide) (by decide) rfl) (.int (i := ⟨1, none⟩))))
    (by simp [Separated, SeparatedAll, negLeft, negLit])

/-- Only with two arguments is `__builtin_offsetof` not an ordinary call. -/
example : rustParse (q!"__builtin_offsetof (" ++ [.int 1 []] ++ q!"," ++ [.int 2 []] ++ q!"," ++ [.int 3 []] ++ q!")") =
    some (.call (.name q!"__builtin_offsetof") [.num 1, .num 2, .num 3]) :=
  C37_partial P3 (.call (.plain c!"__builtin_offsetof") [.lit (.int ⟨1, none⟩), .lit (.int ⟨2, none⟩), .lit (.int ⟨3, none⟩)]) _
    (.call (by decide) (by simp) (.plain (.int (i := ⟨1, none⟩)) rfl (.plain (.int (i := ⟨2, none⟩)) rfl (.plain (.int (i := ⟨3, none⟩)) rfl .nil))))
    (by simp [Separated, SeparatedAll])

/-- `-(x < y ? x : y ? z : 1).len + 1`: a conditional expression as an operand, with another one as a branch. -/
example : rustParse (q!"- if $ x < $ y { $ x } else { if $ y { $ z } else {" ++ [.int 1 []] ++ q!"} } . len +" ++ [.int 1 []]) =
    some (.bin c!"+" (.un c!"-" (.field (.ite (.bin c!"<" (.name q!"$ x") (.name q!"$ y")) (.name q!"$ x")
      (.ite (.name q!"$ y") (.name q!"$ z") (.num 1))) c!"len")) (.num 1)) :=
  C37_partial P3 (.bin (.un .minus (.bin (.ternary (.bin (.var (.arg 0)) .lt (.var (.arg 1))) (.var (.arg 0))
      (.ternary (.var (.arg 1)) (.var (.arg 2)) (.lit (.int ⟨1, none⟩)))) .memberAccess (.var (.plain c!"len")))) .add (.lit (.int ⟨1, none⟩))) _
    (.bin rfl (.un (op := .minus) rfl (.field (.ternary (.bin rfl (P3_var 0 (by decide)) (P3_var 1 (by decide))) (P3_var 0 (by decide))
      (.ternary (P3_var 1 (by decide)) (P3_var 2 (by decide)) (.int (i := ⟨1, none⟩)))) (by decide) (by decide) rfl)) (.int (i := ⟨1, none⟩)))
    (by simp [Separated, FitsBlock, isBlockLike, beginsBlock, endsCast, negLit])

/-- `y + (x.len += *--z)`: an assignment as an operand, with a pointer stepped back in it. -/
example : rustParse (q!"$ y + ( { $ x . len += * { $ z = $ z . sub (" ++ [.int 1 []] ++ q!") ; $ z } ; $ x . len } )") =
    some (.bin c!"+" (.name q!"$ y") (.seq (.bin c!"+=" (.field (.name q!"$ x") c!"len")
      (.un c!"*" (.seq (.bin c!"=" (.name q!"$ z") (.method (.name q!"$ z") c!"sub" [.num 1])) (.name q!"$ z"))))
      (.field (.name q!"$ x") c!"len"))) :=
  C37_partial P3 (.bin (.var (.arg 1)) .add (.bin (.bin (.var (.arg 0)) .memberAccess (.var (.plain c!"len"))) .addAssign
      (.un .deref (.un .dec (.var (.arg 2)))))) _
    (.bin rfl (P3_var 1 (by decide)) (.assign (op := .addAssign) (by decide) rfl (.field (P3_var 0 (by decide)) (by decide) (by decide) rfl)
      (.derefStep (op := .dec) (by decide) rfl (P3_var 2 (by decide)))))
    (by simp [Separated, negLeft, negLit])

/-- `-x++ * *y++`: the old values are used. -/
example : rustParse (q!"- { let prev = $ x ; $ x +=" ++ [.int 1 []] ++ q!"; prev } * * { let prev = $ y ; $ y = $ y . add (" ++
      [.int 1 []] ++ q!") ; prev }") =
    some (.bin c!"*" (.un c!"-" (.letIn c!"prev" (.name q!"$ x") (.seq (.bin c!"+=" (.name q!"$ x") (.num 1)) (.name q!"prev"))))
      (.un c!"*" (.letIn c!"prev" (.name q!"$ y") (.seq (.bin c!"=" (.name q!"$ y") (.method (.name q!"$ y") c!"add" [.num 1]))
        (.name q!"prev"))))) :=
  C37_partial P3 (.bin (.un .minus (.un .postInc (.var (.arg 0)))) .mul (.un .deref (.un .postInc (.var (.arg 1))))) _
    (.bin rfl (.un (op := .minus) rfl (.postStep (op := .postInc) (by decide) rfl (P3_var 0 (by decide))))
      (.derefPostStep (op := .postInc) (by decide) rfl (P3_var 1 (by decide))))
    (by simp [Separated, negLeft])

/-! ## Where it fails -/

/-- **C37** is false of the code: `(int)x < y` is printed as `$x as c_int < $y`, which is not a Rust
expression: `<` opens generic arguments after a type. -/
theorem C37_false : ¬ C37_statement := by
  intro h
  have := h P3 (.bin (.cast (.builtIn .int) (.var (.arg 0))) .lt (.var (.arg 1))) _
    (.bin rfl (.cast ⟨by decide, .inl (by simp)⟩ .name (by simp) (P3_var 0 (by decide))) (P3_var 1 (by decide)))
  rw [show rustParse _ = none by kernel_rfl] at this
  cases this

/-- From the text of the macro to the generated code. -/
example : pipeFn 20 (Ctx.unit asciiEnv) [.defineFn c!"F" [c!"x", c!"y"] [c!"(", c!"int", c!")", c!"x", c!"<", c!"y"]] c!"F" =
    .gen (.ok (.macro c!"F" [q!"$ x : expr", q!"$ y : expr"] q!"$ x as c_int < $ y")) := by decide +kernel

/-- The code generator puts a cast in parentheses before `<<`, but not a sum that ends in a cast:
`(x - (int)y) << z` is printed as `$x - $y as c_int << $z`. -/
theorem C37_false_shift : ∃ (P : PCtx) (e : Expr) (t : RExpr), RustTree P e t ∧
    e.toks P = q!"$ x - $ y as c_int << $ z" ∧ rustParse (e.toks P) = none :=
  ⟨P3, .bin (.bin (.var (.arg 0)) .sub (.cast (.builtIn .int) (.var (.arg 1)))) .shl (.var (.arg 2)), _,
    .bin rfl (.bin rfl (P3_var 0 (by decide)) (.cast ⟨by decide, .inl (by simp)⟩ .name (by simp) (P3_var 1 (by decide)))) (P3_var 2 (by decide)),
    by decide +kernel, by kernel_rfl⟩

example : pipeFn 20 (Ctx.unit asciiEnv) [.defineFn c!"F" [c!"x", c!"y", c!"z"]
      [c!"x", c!"-", c!"(", c!"int", c!")", c!"y", c!"<<", c!"z"]] c!"F" =
    .gen (.ok (.macro c!"F" [q!"$ x : expr", q!"$ y : expr", q!"$ z : expr"] q!"$ x - $ y as c_int << $ z")) := by decide +kernel

/-- `*(-1 + x)` is printed as `*-1.add($x)`, which Rust reads as `*(-(1.add($x)))`. -/
theorem C37_false_deref : ∃ (P : PCtx) (e : Expr) (t u : RExpr), RustTree P e t ∧
    e.toks P = q!"*" ++ [.int (-1) []] ++ q!". add ( $ x )" ∧ rustParse (e.toks P) = some u ∧ t ≠ u :=
  ⟨P3, .un .deref (.bin (.lit (.int ⟨-1, none⟩)) .add (.var (.arg 0))), _,
    .un c!"*" (.un c!"-" (.method (.num 1) c!"add" [.name q!"$ x"])),
    .derefAdd .int (P3_var 0 (by decide)), by decide +kernel, by kernel_rfl, by simp⟩

example : pipeFn 20 (Ctx.unit asciiEnv) [.defineFn c!"F" [c!"x"] [c!"*", c!"(", c!"-", c!"1", c!"+", c!"x", c!")"]] c!"F" =
    .gen (.ok (.macro c!"F" [q!"$ x : expr"] (q!"*" ++ [.int (-1) []] ++ q!". add ( $ x )"))) := by decide +kernel

/-- `x ? (y ? x : z) + 1 : 0` is printed as `if $x { if $y { $x } else { $z } + 1 } else { 0 }`.  In a block the inner `if`
is a statement of its own, and what follows is not a Rust expression. -/
theorem C37_false_if : ∃ (P : PCtx) (e : Expr) (t : RExpr), RustTree P e t ∧
    e.toks P = q!"if $ x { if $ y { $ x } else { $ z } +" ++ [.int 1 []] ++ q!"} else {" ++ [.int 0 []] ++ q!"}" ∧
    rustParse (e.toks P) = none :=
  ⟨P3, .ternary (.var (.arg 0)) (.bin (.ternary (.var (.arg 1)) (.var (.arg 0)) (.var (.arg 2))) .add (.lit (.int ⟨1, none⟩)))
      (.lit (.int ⟨0, none⟩)), _,
    .ternary (P3_var 0 (by decide)) (.bin rfl (.ternary (P3_var 1 (by decide)) (P3_var 0 (by decide)) (P3_var 2 (by decide))) .int) .int,
    by decide +kernel, by kernel_rfl⟩

example : pipeFn 20 (Ctx.unit asciiEnv) [.defineFn c!"F" [c!"x", c!"y", c!"z"]
      [c!"x", c!"?", c!"(", c!"y", c!"?", c!"x", c!":", c!"z", c!")", c!"+", c!"1", c!":", c!"0"]] c!"F" =
    .gen (.ok (.macro c!"F" [q!"$ x : expr", q!"$ y : expr", q!"$ z : expr"]
      (q!"if $ x !=" ++ [.int 0 []] ++ q!"{ if $ y !=" ++ [.int 0 []] ++ q!"{ $ x } else { $ z } +" ++ [.int 1 []] ++ q!"} else {" ++
        [.int 0 []] ++ q!"}"))) := by decide +kernel

/-- `x ? y++ + 1 : 0` is printed as `if $x { { let prev = $y; $y += 1; prev } + 1 } else { 0 }`.  The inner block is a statement of
its own, and what follows is not a Rust expression. -/
theorem C37_false_block : ∃ (P : PCtx) (e : Expr) (t : RExpr), RustTree P e t ∧
    e.toks P = q!"if $ x { { let prev = $ y ; $ y +=" ++ [.int 1 []] ++ q!"; prev } +" ++ [.int 1 []] ++ q!"} else {" ++ [.int 0 []] ++ q!"}" ∧
    rustParse (e.toks P) = none :=
  ⟨P3, .ternary (.var (.arg 0)) (.bin (.un .postInc (.var (.arg 1))) .add (.lit (.int ⟨1, none⟩))) (.lit (.int ⟨0, none⟩)), _,
    .ternary (P3_var 0 (by decide)) (.bin rfl (.postStep (op := .postInc) (o := c!"+=") (by decide) rfl (P3_var 1 (by decide))) .int) .int,
    by decide +kernel, by kernel_rfl⟩

example : pipeFn 20 (Ctx.unit asciiEnv) [.defineFn c!"F" [c!"x", c!"y"]
      [c!"x", c!"?", c!"y", c!"++", c!"+", c!"1", c!":", c!"0"]] c!"F" =
    .gen (.ok (.macro c!"F" [q!"$ x : expr", q!"$ y : expr"]
      (q!"if $ x !=" ++ [.int 0 []] ++ q!"{ { let prev = $ y ; $ y +=" ++ [.int 1 []] ++ q!"; prev } +" ++ [.int 1 []] ++ q!"} else {" ++
        [.int 0 []] ++ q!"}"))) := by decide +kernel

/-- `*(*x)++` takes what `x` points to and moves the pointer there on by one.  It is printed as
`*{ let prev = *$x; *$x = *$x.add(1); prev }`, where `*$x.add(1)` is the pointer behind it: one pointer is copied over the other.
`RustTree` gives no tree for it; the tree that is read differs from the one of `*p++` with `*x` for `p`. -/
theorem C37_false_step : ∃ (P : PCtx) (p : Expr) (t : RExpr), RustTree P p t ∧
    (Expr.un .deref (.un .postInc p)).toks P = q!"* { let prev = * $ x ; * $ x = * $ x . add (" ++ [.int 1 []] ++ q!") ; prev }" ∧
    ∃ u, rustParse ((Expr.un .deref (.un .postInc p)).toks P) =
      some (.un c!"*" (.letIn c!"prev" t (.seq (.bin c!"=" t u) (.name q!"prev")))) ∧
    u = .un c!"*" (.method (.name q!"$ x") c!"add" [.num 1]) ∧ u ≠ .method t c!"add" [.num 1] :=
  ⟨P3, .un .deref (.var (.arg 0)), _, .deref trivial (P3_var 0 (by decide)), by decide +kernel, _, by kernel_rfl, rfl, by simp⟩

example : pipeFn 20 (Ctx.unit asciiEnv) [.defineFn c!"F" [c!"x"] [c!"*", c!"(", c!"*", c!"x", c!")", c!"++"]] c!"F" =
    .gen (.ok (.macro c!"F" [q!"$ x : expr"] (q!"* { let prev = * $ x ; * $ x = * $ x . add (" ++ [.int 1 []] ++ q!") ; prev }"))) := by
  decide +kernel

/-- Unary plus is printed, but Rust has none. -/
theorem C37_unary_plus : ∃ (P : PCtx) (e : Expr), e = .un .plus (.var (.arg 0)) ∧ e.toks P = q!"+ $ x" ∧ rustParse (e.toks P) = none :=
  ⟨P3, _, rfl, by decide +kernel, by kernel_rfl⟩

example : pipeFn 20 (Ctx.unit asciiEnv) [.defineFn c!"F" [c!"x"] [c!"+", c!"x"]] c!"F" =
    .gen (.ok (.macro c!"F" [q!"$ x : expr"] q!"+ $ x")) := by decide +kernel

/-- `*(volatile int *)8 += x << 1` adds before it shifts: the value written is
`ptr::read_volatile(…) + $x << 1`. -/
example : pipeFn 20 (Ctx.unit asciiEnv) [.defineFn c!"F" [c!"x"]
      [c!"*", c!"(", c!"volatile", c!"int", c!"*", c!")", c!"8", c!"+=", c!"x", c!"<<", c!"1"]] c!"F" =
    .gen (.ok (.macro c!"F" [q!"$ x : expr"] (q!"{ let value = ptr :: read_volatile (" ++ [.int 8 c!"u8"] ++
      q!"as * mut c_int ) + $ x <<" ++ [.int 1 []] ++ q!"; ptr :: write_volatile (" ++ [.int 8 c!"u8"] ++
      q!"as * mut c_int , value ) ; value }"))) := by decide +kernel

/-- `-__LINE__` is printed as `- line!() as c_uint`. -/
example : pipeFn 20 (Ctx.unit asciiEnv) [.defineFn c!"F" [] [c!"-", c!"__LINE__"]] c!"F" =
    .gen (.ok (.macro c!"F" [] q!"- line ! ( ) as c_uint")) := by decide +kernel

end CMacro
