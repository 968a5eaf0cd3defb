import Verif.Spec.Pointers
import Verif.Spec.Rust

/-!
# Specification: constants that are pointers

In C, `(void *) 0` is a null pointer, and `(void *) 4096` the pointer to the address 4096. In Rust, `ptr::null()` is the null pointer of every
type `*const T`, `ptr::null_mut()` that of every type `*mut T`, and an integer can be cast to a pointer if it is in the range of its own type.
-/

namespace CMacro.Spec

/-- `PointerConst pre text T a`: in Rust, `text` has the pointer type `T` and points to the address `a` (modulo the size of the address space). -/
inductive PointerConst (pre : Option RPath) : List RTok → List RTok → Int → Prop
  | null {T} : PointerConst pre (foreign pre c!"ptr" ++ q!":: null ( )") (q!"* const" ++ T) 0
  | nullMut {T} : PointerConst pre (foreign pre c!"ptr" ++ q!":: null_mut ( )") (q!"* mut" ++ T) 0
  | address {a s T} : rustRange s a → PointerConst pre ([.int a s] ++ q!"as" ++ T) T a

/-- Tokens in `k` pairs of parentheses. -/
def inParens : Nat → List MacroToken → List MacroToken
  | 0, ts => ts
  | k + 1, ts => .punct c!"(" :: (inParens k ts ++ [.punct c!")"])

end CMacro.Spec
