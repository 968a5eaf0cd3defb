import Verif.Model.Rust

/-!
# Specification: what generated Rust tokens mean

Small pieces of Rust's meaning, written without reference to the code generator.
-/

namespace CMacro.Spec

/-- The values of the Rust integer types. -/
def rustRange (suffix : Str) (v : Int) : Prop :=
  (suffix = c!"i8" ∧ -2 ^ 7 ≤ v ∧ v < 2 ^ 7) ∨ (suffix = c!"u8" ∧ 0 ≤ v ∧ v < 2 ^ 8) ∨
  (suffix = c!"i16" ∧ -2 ^ 15 ≤ v ∧ v < 2 ^ 15) ∨ (suffix = c!"u16" ∧ 0 ≤ v ∧ v < 2 ^ 16) ∨
  (suffix = c!"i32" ∧ -2 ^ 31 ≤ v ∧ v < 2 ^ 31) ∨ (suffix = c!"u32" ∧ 0 ≤ v ∧ v < 2 ^ 32) ∨
  (suffix = c!"i64" ∧ -2 ^ 63 ≤ v ∧ v < 2 ^ 63) ∨ (suffix = c!"u64" ∧ 0 ≤ v ∧ v < 2 ^ 64) ∨
  (suffix = c!"i128" ∧ -2 ^ 127 ≤ v ∧ v < 2 ^ 127) ∨ (suffix = c!"u128" ∧ 0 ≤ v ∧ v < 2 ^ 128)

/-- `IntMeaning x k ts v`: when the variable `x` has the integer value `k`, the tokens `ts` denote
the number `v` (`bool` counts as 0 and 1).  On integers `!` is the bitwise complement. -/
inductive IntMeaning (x : Str) (k : Int) : List RTok → Int → Prop
  | var : IntMeaning x k [.id x] k
  | lit {n s} : IntMeaning x k [.int n s] n
  | paren {ts v} : IntMeaning x k ts v → IntMeaning x k (.punct c!"(" :: ts ++ [.punct c!")"]) v
  | compl {ts v} : IntMeaning x k ts v → IntMeaning x k (.punct c!"!" :: ts) (-v - 1)
  | eq {ts us v w} : IntMeaning x k ts v → IntMeaning x k us w →
      IntMeaning x k (ts ++ .punct c!"==" :: us) (if v = w then 1 else 0)
  | ne {ts us v w} : IntMeaning x k ts v → IntMeaning x k us w →
      IntMeaning x k (ts ++ .punct c!"!=" :: us) (if v = w then 0 else 1)

end CMacro.Spec
