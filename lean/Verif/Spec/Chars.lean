import Verif.Proofs.Lit
import Verif.Model.Rust

/-!
# The values of character constants

The value of a character constant in C (C11, 6.4.4.4), and of a literal and a cast in Rust.
-/

namespace CMacro.Spec

/-- The value of a character constant with the number `n`: an ordinary one has the value of a `char` converted to `int`, which is
negative for the upper half of a signed `char`. -/
def constValue (signedChar : Bool) : Prefix → Nat → Int
  | .none, n => if signedChar ∧ 128 ≤ n then (n : Int) - 256 else n
  | _, n => n

/-- An integer type of Rust. -/
structure RInt where
  bits : Nat
  signed : Bool
  deriving DecidableEq

/-- The type has the number. -/
def RInt.Has (t : RInt) (v : Int) : Prop :=
  if t.signed then -2 ^ (t.bits - 1) ≤ v ∧ v < 2 ^ (t.bits - 1) else 0 ≤ v ∧ v < 2 ^ t.bits

instance (t : RInt) (v : Int) : Decidable (t.Has v) := by unfold RInt.Has; infer_instance

/-- A cast in Rust: the number of the type that agrees in the bits. -/
def RInt.Cast (t : RInt) (v w : Int) : Prop := t.Has w ∧ (v - w) % 2 ^ t.bits = 0

/-- The integer types that a text of Rust denotes, where `c_char` is signed or not. -/
structure RustTypes (signedChar : Bool) where
  ty : List RTok → Option RInt
  char : ∀ pre, ty (pre ++ [.id c!"c_char"]) = some ⟨8, signedChar⟩
  void : ∀ pre, ty (pre ++ [.id c!"c_void"]) = none
  u8 : ty [.id c!"u8"] = some ⟨8, false⟩
  u16 : ty [.id c!"u16"] = some ⟨16, false⟩
  u32 : ty [.id c!"u32"] = some ⟨32, false⟩

/-- A literal of Rust and its number. -/
inductive RustLit {s : Bool} (I : RustTypes s) : RTok → Int → Prop
  | char (c : Char) : RustLit I (.char c) c.toNat
  | int {v : Int} {suffix : Str} {t : RInt} : I.ty [.id suffix] = some t → t.Has v → RustLit I (.int v suffix) v

/-- The code is a literal cast to the type and has the value. -/
def RustCast {s : Bool} (I : RustTypes s) (code ty : List RTok) (v : Int) : Prop :=
  ∃ l n t, code = [l, .id c!"as"] ++ ty ∧ RustLit I l n ∧ I.ty ty = some t ∧ t.Cast n v

/-- The name of a type in the module of the foreign types. -/
def inFfi (pre : Option RPath) (name : Str) : List RTok :=
  (match pre with
    | none => []
    | some p => (if p.leadingColon then [.punct c!"::"] else []) ++ p.segs.flatMap fun s => [.id s, .punct c!"::"])
  ++ [.id name]

/-- The type of a character constant in C, written in Rust; `wide` is `wchar_t`. -/
def charTy (pre : Option RPath) (wide : List RTok) : Prefix → List RTok
  | .none => inFfi pre c!"c_int"
  | .u8 => [.id c!"u8"]
  | .u => [.id c!"u16"]
  | .U => [.id c!"u32"]
  | .L => wide

end CMacro.Spec
