import Verif.Spec.FnValue

/-!
# Specification: calls of generated macros

A parameter that is declared as `$x : expr` stands for one expression, whatever is written around it.
-/

namespace CMacro.Spec

/-- The parameters of a `macro_rules!` macro that takes expressions. -/
def exprParams (xs : List Str) : List (List RTok) := xs.map fun x => [.punct c!"$", .id x, .punct c!":", .id c!"expr"]

/-- The arguments `as` of a call, by the text of the parameters `xs`. -/
def callArgs (xs : List Str) (as : List RExpr) : List RTok → Option RExpr
  | [.punct p, .id x] => if p = c!"$" then (xs.zip as).lookup x else none
  | _ => none

mutual
/-- The expression with the arguments in place of the parameters. -/
def inserted (σ : List RTok → Option RExpr) : RExpr → RExpr
  | .name x => (σ x).getD (.name x)
  | .num v s => .num v s
  | .float f => .float f
  | .char c => .char c
  | .max ty => .max ty
  | .un op e => .un op (inserted σ e)
  | .bin op l r => .bin op (inserted σ l) (inserted σ r)
  | .cast e ty => .cast (inserted σ e) ty
  | .field e x => .field (inserted σ e) x
  | .call f as => .call (inserted σ f) (insertedAll σ as)
  | .method e x as => .method (inserted σ e) x (insertedAll σ as)
  | .ite c t f => .ite (inserted σ c) (inserted σ t) (inserted σ f)
  | .seq e b => .seq (inserted σ e) (inserted σ b)
  | .letIn x e b => .letIn x (inserted σ e) (inserted σ b)
/-- The same for lists. -/
def insertedAll (σ : List RTok → Option RExpr) : List RExpr → List RExpr
  | [] => []
  | a :: as => inserted σ a :: insertedAll σ as
end

/-- Arguments with types of their own and with these types and values. -/
def ArgValues (W : Widths) (pre : Option RPath) (env : List RTok → Option (IntTy × Int)) (ps : List (Str × IntTy × Int)) (as : List RExpr) : Prop :=
  as.length = ps.length ∧ ∀ (i : Nat) (p : Str × IntTy × Int) (a : RExpr), ps[i]? = some p → as[i]? = some a → typed a = true ∧ RustEval W pre env a (.int p.2.1 p.2.2)

/-- What the user declares of the parameters of the macro `name` agrees with their types; nothing need be declared. -/
def Agreed (C : Ctx) (name : Str) (ps : List (Str × IntTy × Int)) : Prop :=
  ∀ p ∈ ps, ∀ t, C.macroArgTy name p.1 = some t → t = .prefixed C.ffiPrefix p.2.1.rustName

end CMacro.Spec
