import Verif.Spec.RustSyntax

/-!
# Specification: the types of Rust expressions

Which types a Rust expression over numbers, truth values and pointers can have.  A type is its text.  Number literals take
the type that their place demands; nothing is converted unless `as` says so.  `c_int` and the like are taken as types of their
own, whatever they are aliases of.
-/

namespace CMacro.Spec

/-- A name in the module of the foreign types. -/
def ffiText (pre : Option RPath) (x : Str) : List RTok :=
  (match pre with
    | none => []
    | some p => (if p.leadingColon then [.punct c!"::"] else []) ++ p.segs.flatMap fun s => [.id s, .punct c!"::"])
  ++ [.id x]

/-- The integer types of C. -/
def cInts : List Str :=
  [c!"c_char", c!"c_schar", c!"c_uchar", c!"c_short", c!"c_ushort", c!"c_int", c!"c_uint", c!"c_long", c!"c_ulong",
   c!"c_longlong", c!"c_ulonglong", c!"c_size_t", c!"c_ssize_t"]

/-- The integer types of Rust. -/
def rustInts : List Str :=
  [c!"u8", c!"u16", c!"u32", c!"u64", c!"u128", c!"usize", c!"i8", c!"i16", c!"i32", c!"i64", c!"i128", c!"isize"]

/-- Those without a sign. -/
def unsignedNames : List Str :=
  [c!"c_uchar", c!"c_ushort", c!"c_uint", c!"c_ulong", c!"c_ulonglong", c!"c_size_t",
   c!"u8", c!"u16", c!"u32", c!"u64", c!"u128", c!"usize"]

/-- An integer type. -/
def IntText (pre : Option RPath) (τ : List RTok) : Prop :=
  (∃ x ∈ cInts, τ = ffiText pre x) ∨ ∃ x ∈ rustInts, τ = [.id x]

/-- An integer type that has negative numbers; `c_char` may be one. -/
def SignedText (pre : Option RPath) (τ : List RTok) : Prop :=
  IntText pre τ ∧ ∀ x ∈ unsignedNames, τ ≠ ffiText pre x ∧ τ ≠ [.id x]

/-- A floating type. -/
def FloatText (τ : List RTok) : Prop := τ = [.id c!"f32"] ∨ τ = [.id c!"f64"]

/-- A pointer type. -/
def PtrText (τ : List RTok) : Prop := ∃ m ts, τ = .punct c!"*" :: .id m :: ts

/-- The type `bool`. -/
def boolText : List RTok := [.id c!"bool"]

/-- The type that a floating constant of C has in Rust. -/
def floatText : LitFloat → List RTok
  | .float _ => [.id c!"f32"]
  | _ => [.id c!"f64"]

/-- What `as` allows. -/
def Castable (pre : Option RPath) (σ τ : List RTok) : Prop :=
  (IntText pre σ ∨ FloatText σ) ∧ (IntText pre τ ∨ FloatText τ) ∨ σ = boolText ∧ IntText pre τ ∨
  PtrText σ ∧ (IntText pre τ ∨ PtrText τ) ∨ IntText pre σ ∧ PtrText τ ∨ σ = τ

/-- `HasType Fin pre Γ e τ`: the expression `e` can have the type `τ` when the variables have the types `Γ`.
A variable is its text; in a macro it is `$` with a name behind it.  `Fin` tells which
floating literals are finite; the others are written as `f32::INFINITY` and the like. -/
inductive HasType (Fin : LitFloat → Prop) (pre : Option RPath) (Γ : List RTok → Option (List RTok)) : RExpr → List RTok → Prop
  | name {x τ} : Γ x = some τ → HasType Fin pre Γ (.name x) τ
  | num {n τ} : IntText pre τ → HasType Fin pre Γ (.num n) τ
  | max {τ} : IntText pre τ → HasType Fin pre Γ (.max τ) τ
  | suffixed {n s} : s ∈ rustInts → HasType Fin pre Γ (.num n s) [.id s]
  | float {f τ} : τ = floatText f ∨ Fin f ∧ FloatText τ → HasType Fin pre Γ (.float f) τ
  | neg {e τ} : SignedText pre τ ∨ FloatText τ → HasType Fin pre Γ e τ → HasType Fin pre Γ (.un c!"-" e) τ
  | not {e τ} : IntText pre τ ∨ τ = boolText → HasType Fin pre Γ e τ → HasType Fin pre Γ (.un c!"!" e) τ
  | arith {o l r τ} : o ∈ [c!"*", c!"/", c!"%", c!"+", c!"-"] → IntText pre τ ∨ FloatText τ →
      HasType Fin pre Γ l τ → HasType Fin pre Γ r τ → HasType Fin pre Γ (.bin o l r) τ
  | bits {o l r τ} : o ∈ [c!"&", c!"^", c!"|"] → IntText pre τ ∨ τ = boolText →
      HasType Fin pre Γ l τ → HasType Fin pre Γ r τ → HasType Fin pre Γ (.bin o l r) τ
  | shift {o l r σ τ} : o ∈ [c!"<<", c!">>"] → IntText pre τ → IntText pre σ →
      HasType Fin pre Γ l τ → HasType Fin pre Γ r σ → HasType Fin pre Γ (.bin o l r) τ
  | compare {o l r τ} : o ∈ [c!"==", c!"!=", c!"<", c!">", c!"<=", c!">="] →
      IntText pre τ ∨ FloatText τ ∨ τ = boolText ∨ PtrText τ →
      HasType Fin pre Γ l τ → HasType Fin pre Γ r τ → HasType Fin pre Γ (.bin o l r) boolText
  | logic {o l r} : o ∈ [c!"&&", c!"||"] → HasType Fin pre Γ l boolText → HasType Fin pre Γ r boolText →
      HasType Fin pre Γ (.bin o l r) boolText
  | cast {e σ τ} : Castable pre σ τ → HasType Fin pre Γ e σ → HasType Fin pre Γ (.cast e τ) τ
  | ite {c t f τ} : HasType Fin pre Γ c boolText → HasType Fin pre Γ t τ → HasType Fin pre Γ f τ →
      HasType Fin pre Γ (.ite c t f) τ

end CMacro.Spec
