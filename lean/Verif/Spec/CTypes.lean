import Verif.Model.Literal

/-!
# The integer types of C

The table of C11, section 6.7.2, paragraph 2, as far as it is about the integer types the crate knows.
-/

namespace CMacro.Spec

/-- A list of specifiers, in the order of the standard, and the type it denotes. -/
def intTable : List (List Str × BuiltInType) :=
  [([c!"char"], .char), ([c!"signed", c!"char"], .sChar), ([c!"unsigned", c!"char"], .uChar),
   ([c!"short"], .short), ([c!"signed", c!"short"], .short), ([c!"short", c!"int"], .short),
   ([c!"signed", c!"short", c!"int"], .short),
   ([c!"unsigned", c!"short"], .uShort), ([c!"unsigned", c!"short", c!"int"], .uShort),
   ([c!"int"], .int), ([c!"signed"], .int), ([c!"signed", c!"int"], .int),
   ([c!"unsigned"], .uInt), ([c!"unsigned", c!"int"], .uInt),
   ([c!"long"], .long), ([c!"signed", c!"long"], .long), ([c!"long", c!"int"], .long),
   ([c!"signed", c!"long", c!"int"], .long),
   ([c!"unsigned", c!"long"], .uLong), ([c!"unsigned", c!"long", c!"int"], .uLong),
   ([c!"long", c!"long"], .longLong), ([c!"signed", c!"long", c!"long"], .longLong),
   ([c!"long", c!"long", c!"int"], .longLong), ([c!"signed", c!"long", c!"long", c!"int"], .longLong),
   ([c!"unsigned", c!"long", c!"long"], .uLongLong), ([c!"unsigned", c!"long", c!"long", c!"int"], .uLongLong)]

/-- The specifiers denote the type: "the type specifiers may occur in any order". -/
def Denotes (ws : List Str) (t : BuiltInType) : Prop := ∃ cs, (cs, t) ∈ intTable ∧ ws.Perm cs

/-- The sign, if there is one, is the first word. -/
def SignFirst (ws : List Str) : Prop := c!"signed" ∉ ws.tail ∧ c!"unsigned" ∉ ws.tail

instance (ws : List Str) : Decidable (SignFirst ws) := inferInstanceAs (Decidable (_ ∧ _))

/-- The sign is the only word. -/
def SignAlone (ws : List Str) : Prop := ws = [c!"signed"] ∨ ws = [c!"unsigned"]

instance (ws : List Str) : Decidable (SignAlone ws) := inferInstanceAs (Decidable (_ ∨ _))

end CMacro.Spec
