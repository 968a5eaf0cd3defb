import Verif.Spec.Statements
import Verif.Model.Rust

/-!
# Inline assembly

The inline assembly of GCC (Using the GNU Compiler Collection, "Extended Asm - Assembler Instructions with C Expression
Operands") and the `asm!` of Rust (The Rust Reference, "Inline assembly").
-/

namespace CMacro

/-! ## Templates -/

/-- A piece of an assembly template. -/
inductive Spec.Piece
  | char (c : Char)
  | operand (n : Nat)

/-- What a C template means: `%3` is an operand, `%%` a percent sign, `%eax` a register, and
everything else stands for itself. -/
inductive Spec.CTemplate : Str → List Spec.Piece → Prop
  | nil : CTemplate [] []
  | text {c s ps} : c ≠ '%' → CTemplate s ps → CTemplate (c :: s) (.char c :: ps)
  | percent {s ps} : CTemplate s ps → CTemplate ('%' :: '%' :: s) (.char '%' :: ps)
  | operand {ds s ps} : ds ≠ [] → (∀ c ∈ ds, c.isDigit = true) → (∀ c ∈ s.head?, c.isDigit = false) →
      CTemplate s ps → CTemplate ('%' :: ds ++ s) (.operand (Nat.ofDigitChars 10 ds 0) :: ps)
  | reg {ls s ps} : ls ≠ [] → (∀ c ∈ ls, c.isAlpha = true) → (∀ c ∈ s.head?, c.isAlphanum = false) →
      CTemplate s ps → CTemplate ('%' :: ls ++ s) (.char '%' :: ls.map .char ++ ps)

/-- What a template of Rust's `asm!` means: `{3}` is an operand, `{{` and `}}` are braces, and
everything else stands for itself. -/
inductive Spec.RustTemplate : Str → List Spec.Piece → Prop
  | nil : RustTemplate [] []
  | text {c s ps} : c ≠ '{' → c ≠ '}' → RustTemplate s ps → RustTemplate (c :: s) (.char c :: ps)
  | opening {s ps} : RustTemplate s ps → RustTemplate ('{' :: '{' :: s) (.char '{' :: ps)
  | closing {s ps} : RustTemplate s ps → RustTemplate ('}' :: '}' :: s) (.char '}' :: ps)
  | operand {ds s ps} : ds ≠ [] → (∀ c ∈ ds, c.isDigit = true) →
      RustTemplate s ps → RustTemplate ('{' :: ds ++ '}' :: s) (.operand (Nat.ofDigitChars 10 ds 0) :: ps)

/-- The lines of a template. -/
inductive Spec.Lines : List Spec.Piece → List (List Spec.Piece) → Prop
  | last {l} : .char '\n' ∉ l → Lines l [l]
  | line {l ps ls} : .char '\n' ∉ l → Lines ps ls → Lines (l ++ .char '\n' :: ps) (l :: ls)

/-- White space (the Unicode property `White_Space`). -/
def Spec.whiteSpace : List Nat := [9, 10, 11, 12, 13, 32, 0x85, 0xA0, 0x1680, 0x2000, 0x2001, 0x2002, 0x2003,
  0x2004, 0x2005, 0x2006, 0x2007, 0x2008, 0x2009, 0x200A, 0x2028, 0x2029, 0x202F, 0x205F, 0x3000]

/-- White space in a template. -/
def Spec.Piece.Blank : Spec.Piece → Prop
  | .char c => c.toNat ∈ Spec.whiteSpace
  | .operand _ => False

/-- `qs` is `ps` without the white space around it. -/
def Spec.Trimmed (ps qs : List Spec.Piece) : Prop :=
  ∃ a b, ps = a ++ qs ++ b ∧ (∀ p ∈ a, p.Blank) ∧ (∀ p ∈ b, p.Blank) ∧
    (∀ p ∈ qs.head?, ¬ p.Blank) ∧ (∀ p ∈ qs.getLast?, ¬ p.Blank)

/-- The Rust template lines `ls` mean the same as the template, line by line. -/
inductive Spec.SameLines : List Str → List (List Spec.Piece) → Prop
  | nil : SameLines [] []
  | cons {l ls p q ps} : Spec.Trimmed p q → Spec.RustTemplate l q → SameLines ls ps → SameLines (l :: ls) (p :: ps)

/-! ## The text of a C `asm` -/

namespace Spec

/-- An `asm` in C: the template, the outputs (whether `+` and not `=`, the rest of the constraint, the expression), the inputs
(the constraint, the expression) and what is clobbered. -/
structure CAsm where
  template : Str
  outputs : List (Bool × Str × Expr)
  inputs : List (Str × Expr)
  clobbers : List Str

/-- One or more string literals, one after the other, and the text they make together. -/
inductive Literals : List MacroToken → Str → Prop
  | one {s} : Literals [.lit (.string (.ordinary (s.flatMap String.utf8EncodeChar)))] s
  | more {s ts s'} : Literals ts s' → Literals (.lit (.string (.ordinary (s.flatMap String.utf8EncodeChar))) :: ts) (s ++ s')

/-- Items separated by commas. -/
inductive Listed {α : Type} (P : List MacroToken → α → Prop) : List MacroToken → List α → Prop
  | none : Listed P [] []
  | one {ts a} : P ts a → Listed P ts [a]
  | more {ts a us b as} : P ts a → Listed P us (b :: as) → Listed P (ts ++ .punct c!"," :: us) (a :: b :: as)

/-- An output: the constraint begins with `+` if the operand is read too, and with `=` if not. -/
inductive OutText : List MacroToken → Bool × Str × Expr → Prop
  | mk {us b s ts e} : Literals us ((if b then '+' else '=') :: s) → Gram 12 ts e →
      OutText (us ++ .punct c!"(" :: (ts ++ [.punct c!")"])) (b, s, e)

/-- An input. -/
inductive InText : List MacroToken → Str × Expr → Prop
  | mk {us s ts e} : Literals us s → Gram 12 ts e → InText (us ++ .punct c!"(" :: (ts ++ [.punct c!")"])) (s, e)

/-- The parts after the template, and how many there are: outputs, inputs and what is clobbered. -/
inductive Parts : Nat → List MacroToken → List (Bool × Str × Expr) → List (Str × Expr) → List Str → Prop
  | none : Parts 0 [] [] [] []
  | outs {ts os} : Listed OutText ts os → Parts 1 (.punct c!":" :: ts) os [] []
  | ins {ts os us is} : Listed OutText ts os → Listed InText us is →
      Parts 2 (.punct c!":" :: (ts ++ .punct c!":" :: us)) os is []
  | clobbers {ts os us is vs cs} : Listed OutText ts os → Listed InText us is → Listed Literals vs cs →
      Parts 3 (.punct c!":" :: (ts ++ .punct c!":" :: (us ++ .punct c!":" :: vs))) os is cs

/-- The qualifiers of an `asm` (`goto` aside). -/
def asmQualifiers : List Str := [c!"volatile", c!"__volatile__", c!"__volatile", c!"inline", c!"__inline__", c!"__inline"]

/-- The tokens are an `asm` with these qualifiers and this number of parts after the template. -/
inductive AsmText : List Str → Nat → List MacroToken → CAsm → Prop
  | mk {w qs us s n ts os is cs} : w ∈ asmStarts → (∀ q ∈ qs, q ∈ asmQualifiers) → Literals us s → Parts n ts os is cs →
      AsmText qs n (.ident w :: (qs.map .ident ++ .punct c!"(" :: (us ++ (ts ++ [.punct c!")"])))) ⟨s, os, is, cs⟩

/-! ## Constraints -/

/-- The constraints of one letter for registers, memory, immediate values, or all of them. -/
def asmLetters : List Char := ['r', 'g', 'm', 'o', 'V', 'i', 'n', 's', 'E', 'F', 'X', 'p', 'Q', 'q', 'f', 'a', 'b', 'c', 'd', 'S', 'D']

/-- A constraint that allows an operand of the class: some letter of the constraint does, or it is the number of the
output whose place the operand shares. -/
inductive Allows (s : Str) : RegConstraint → Prop
  | any : 'r' ∈ s ∨ 'g' ∈ s ∨ 'X' ∈ s → Allows s .reg
  | abcd : 'Q' ∈ s → Allows s .regAbcd
  | byte : 'q' ∈ s → Allows s .regByte
  | floating : 'f' ∈ s → Allows s .freg
  | same : s ≠ [] → (∀ c ∈ s, c.isDigit = true) → Allows s (.digit (Nat.ofDigitChars 10 s 0))

/-- The lists correspond element by element. -/
inductive Each {α β : Type} (R : α → β → Prop) : List α → List β → Prop
  | nil : Each R [] []
  | cons {a b as bs} : R a b → Each R as bs → Each R (a :: as) (b :: bs)

/-- An output as it has been read. -/
def OutRead (x : Bool × Str × Expr) (y : Dir × RegConstraint × Expr) : Prop :=
  y.1 = (if x.1 then .inOut else .out) ∧ Allows x.2.1 y.2.1 ∧ y.2.2 = x.2.2

/-- An input as it has been read. -/
def InRead (x : Str × Expr) (y : RegConstraint × Expr) : Prop := Allows x.1 y.1 ∧ y.2 = x.2

/-- The `asm` of C whose template consists of the pieces, as it has been read. -/
structure AsmRead (c : CAsm) (ps : List Piece) (a : Asm) : Prop where
  template : ∃ pss, Lines ps pss ∧ SameLines a.template pss
  outputs : Each OutRead c.outputs a.outputs
  inputs : Each InRead c.inputs a.inputs
  clobbers : a.clobbers = c.clobbers

/-- A constraint made of letters that allows some class of registers. -/
def Register (s : Str) : Prop := (∀ c ∈ s, c ∈ asmLetters) ∧ ∃ c ∈ s, c ∈ ['r', 'g', 'Q', 'q', 'f']

/-- All operands can be in registers: the constraint of each allows it, or is the number of an output. -/
structure InRegisters (c : CAsm) : Prop where
  outputs : ∀ o ∈ c.outputs, Register o.2.1
  inputs : ∀ i ∈ c.inputs, Register i.1 ∨ ∃ n < c.outputs.length, n < 10 ∧ i.1 = [Nat.digitChar n]

/-! ## Operands -/

/-- What an operand is: the class of registers, what is stored to after the instructions, and what it holds before them. -/
structure Operand where
  reg : RegConstraint
  store : Option (List RTok)
  load : Option (List RTok)

/-- An operand of `asm!`. -/
inductive ROperand
  | out (r : RegConstraint) (e : List RTok)
  | inout (r : RegConstraint) (e : List RTok)
  | in (r : RegConstraint) (e : List RTok)

/-- The name of a class of registers in Rust. -/
def regName : RegConstraint → List RTok
  | .reg => q!"reg"
  | .regAbcd => q!"reg_abcd"
  | .regByte => q!"reg_byte"
  | .freg => q!"freg"
  | .digit n => [.int n []]

def ROperand.text : ROperand → List RTok
  | .out r e => q!"out (" ++ regName r ++ q!")" ++ e ++ q!","
  | .inout r e => q!"inout (" ++ regName r ++ q!")" ++ e ++ q!","
  | .in r e => q!"in (" ++ regName r ++ q!")" ++ e ++ q!","

def ROperand.operand : ROperand → Operand
  | .out r e => ⟨r, some e, none⟩
  | .inout r e => ⟨r, some e, some e⟩
  | .in r e => ⟨r, none, some e⟩

/-- The input in the same place as the output with the number. -/
def sharing (n : Nat) (a : Asm) : Option Expr := a.inputs.findSome? fun i => if i.1 = .digit n then some i.2 else none

/-- The meaning of `%n` in C, where the outputs are numbered first, and then the inputs.  An input whose constraint is the
number of an output is in the same place as this output. -/
def cOperand (f : Expr → List RTok) (a : Asm) (n : Nat) : Option Operand :=
  let output := fun n => a.outputs[n]?.map fun (d, r, e) => Operand.mk r (some (f e))
    (if d = .inOut then some (f e) else (sharing n a).map f)
  if n < a.outputs.length then output n
  else match a.inputs[n - a.outputs.length]? with
    | none => none
    | some (.digit d, _) => output d
    | some (r, e) => some ⟨r, none, some (f e)⟩

/-- An `asm` that begins a section or declares a symbol, which is no part of a function. -/
def TopLevel (a : Asm) : Prop := ∃ l ∈ a.template, c!".globl" <+: l ∨ c!".global" <+: l ∨ c!".section" <+: l

/-- The operands of an `asm` in which no input shares the place of an output. -/
def plainOperands (f : Expr → List RTok) (a : Asm) : List ROperand :=
  a.outputs.map (fun (d, r, e) => if d = .inOut then .inout r (f e) else .out r (f e)) ++ a.inputs.map fun (r, e) => .in r (f e)

/-- The options of `asm!`. -/
def optionsText : List Str → List RTok
  | [] => []
  | o :: os => q!"options (" ++ .id o :: os.flatMap (fun o => q!"," ++ [.id o]) ++ q!") ,"

/-- The text of an `asm!` with the lines, the operands, the registers that are clobbered, and the options. -/
def asmText (pre : List RTok) (lines : List Str) (ops : List ROperand) (clobbers : List Str) (options : List Str) : List RTok :=
  pre ++ q!"arch :: asm ! (" ++ lines.flatMap (fun l => .str l :: q!",") ++ ops.flatMap ROperand.text
    ++ clobbers.flatMap (fun c => q!"out (" ++ .str c :: q!") _ ,")
    ++ (if clobbers = [] then [] else q!"clobber_abi (" ++ .str c!"C" :: q!") ,") ++ optionsText options ++ q!")"

/-- The operand is needed: it is an output, or an input with a place of its own, or it occurs in the template. -/
def Needed (a : Asm) (n : Nat) : Prop :=
  n < a.outputs.length ∨ (∃ i, a.inputs[n - a.outputs.length]? = some i ∧ ∀ d, i.1 ≠ .digit d) ∨
    ∃ l ∈ a.template, ∃ ps, RustTemplate l ps ∧ .operand n ∈ ps

end Spec

end CMacro
