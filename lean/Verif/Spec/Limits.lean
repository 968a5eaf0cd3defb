import Verif.Spec.FnValue

/-!
# Specification: the limits of the integer types

C11 5.2.4.2.1.  The headers of compilers define them by the predefined macros `__INT_MAX__` and so on.
-/

namespace CMacro.Spec

/-- The least number of a type. -/
def IntTy.least (W : Widths) (t : IntTy) : Int := if t.unsigned then 0 else -2 ^ (t.width W - 1)

/-- `Limit W e t v`: the expression `e` is how `limits.h` writes the number `v`, a limit of the type `t`. -/
inductive Limit (W : Widths) : Expr → IntTy → Int → Prop
  /-- `INT_MAX` is `__INT_MAX__`. -/
  | max {id} {t : IntTy} : limitOf id = some t.cType → Limit W (.var (.plain id)) t (t.greatest W)
  /-- `INT_MIN` is `-__INT_MAX__ - 1`. -/
  | min {id s} {t : IntTy} : limitOf id = some t.cType →
      Limit W (.bin (.un .minus (.var (.plain id))) .sub (.lit (.int ⟨1, s⟩))) t (t.least W)
  /-- `UINT_MAX` is `__INT_MAX__ * 2U + 1U`. -/
  | umax {id s s'} {t : IntTy} : limitOf id = some t.cType →
      Limit W (.bin (.bin (.var (.plain id)) .mul (.lit (.int ⟨2, s⟩))) .add (.lit (.int ⟨1, s'⟩))) t.toUnsigned (t.toUnsigned.greatest W)

end CMacro.Spec
