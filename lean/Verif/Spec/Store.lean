import Verif.Model.Basic

/-!
# Specification: the definition store

A C preprocessor's macro table is a map from names to definitions.  Nothing here
mentions the implementation's two hash maps.
-/

namespace CMacro.Spec

/-- A macro definition. -/
inductive Def
  | var (body : List Str)
  | fn (params body : List Str)
  deriving DecidableEq

/-- A call that changes the table. -/
inductive Op
  | defineVar (name : Str) (body : List Str)
  | defineFn (name : Str) (params body : List Str)
  | undefineVar (name : Str)
  | undefineFn (name : Str)
  deriving DecidableEq

/-- The name a call is about. -/
def Op.name : Op → Str
  | .defineVar n _ => n
  | .defineFn n _ _ => n
  | .undefineVar n => n
  | .undefineFn n => n

/-- A table: what each name means, if anything. -/
abbrev Table := Str → Option Def

def Table.empty : Table := fun _ => none

/-- Make `name` mean `d`; all other names keep their meaning. -/
def Table.set (t : Table) (name : Str) (d : Option Def) : Table :=
  fun n => if n = name then d else t n

/-- The effect of one call. -/
def Table.step (t : Table) : Op → Table
  | .defineVar n b => t.set n (some (.var b))
  | .defineFn n p b => t.set n (some (.fn p b))
  | .undefineVar n => match t n with
    | some (.var _) => t.set n none
    | _ => t
  | .undefineFn n => match t n with
    | some (.fn _ _) => t.set n none
    | _ => t

/-- The table after a history of calls, oldest first. -/
def Table.run (h : List Op) : Table := h.foldl Table.step Table.empty

/-- A token that C treats as white space: blank, or a comment (possibly surrounded by
blanks). -/
def blankToken (s : Str) : Bool :=
  let core := trim s
  core = [] || c!"//".isPrefixOf core || (c!"/*".isPrefixOf core && c!"*/".isSuffixOf core)

/-- The tokens that matter when comparing definitions. -/
def meaningful (ts : List Str) : List Str := ts.filter fun t => !blankToken t

/-- Two definitions are interchangeable: same kind, same parameters, same body, white
space aside. -/
def Def.same : Def → Def → Bool
  | .var b, .var b' => meaningful b = meaningful b'
  | .fn p b, .fn p' b' => meaningful p = meaningful p' && meaningful b = meaningful b'
  | _, _ => false

/-- Should defining `d` where the name meant `old` be reported as a redefinition? -/
def redefines (old : Option Def) (d : Def) : Bool :=
  match old with
  | none => false
  | some o => !o.same d

end CMacro.Spec
