import Verif.Model.ParseExpr

/-!
# Statements and macro bodies

Model of the parsers of /repo/src/ast/asm.rs, /repo/src/ast/function_decl.rs,
/repo/src/ast/var_decl.rs, /repo/src/ast/statement.rs, /repo/src/macro_body.rs,
/repo/src/var_macro.rs and /repo/src/fn_macro.rs.
-/

namespace CMacro
open Parser

/-! ## Inline assembly -/

/-- nom `character::complete::alpha1`: ASCII letters (/repo/src/ast/asm.rs:89,111). -/
def alpha1 : Parser Char Str := takeWhile1 fun c => ('a' ≤ c && c ≤ 'z') || ('A' ≤ c && c ≤ 'Z')

/-- `str::parse` to an unsigned integer of the given exclusive bound, for decimal digits
(/repo/src/ast/asm.rs:86,122,128). -/
def parseUnsigned (bound : Nat) (s : Str) : Option Nat :=
  let v := s.foldl (fun acc c => acc * 10 + (toDigit 10 c).getD 0) 0
  if v < bound then some v else none

/-- `format!("{{{}}}", n)` (/repo/src/ast/asm.rs:87). -/
def braced (n : Nat) : Str := c!"{" ++ (toString n).toList ++ c!"}"

/-- /repo/src/ast/asm.rs:81-97, one step of `parse_template`. -/
def templatePart : Parser Char Str :=
  or (preceded (tag c!"%")
    (or (mapOpt (takeWhile1 (isDigit 10)) fun s => (parseUnsigned (2 ^ 64) s).map braced)
      (map alpha1 fun reg => c!"%" ++ reg))) <|
  or (map (satisfy fun c => c = '{' || c = '}') fun c => [c, c])
    (takeWhile1 fun c => c ≠ '%')

/-- `str::split('\n')` (/repo/src/ast/asm.rs:105). -/
def splitLines : Str → List Str
  | [] => [[]]
  | c :: cs => if c = '\n' then [] :: splitLines cs else
    match splitLines cs with
    | [] => [[c]]
    | l :: ls => (c :: l) :: ls

/-- /repo/src/ast/asm.rs:78-107, `Asm::parse_template`. -/
def parseTemplate (s : Str) : Option (List Str) :=
  (allConsuming (many0 templatePart) s).map fun x => (splitLines x.1.flatten).map trim

/-- /repo/src/ast/asm.rs:109-130, `Asm::parse_reg_constraint`. -/
def parseRegConstraint : Parser Char RegConstraint :=
  or (mapOpt alpha1 fun s =>
      if 'r' ∈ s then some .reg
      else if 'Q' ∈ s then some .regAbcd
      else if 'q' ∈ s then some .regByte
      else if 'f' ∈ s then some .freg
      else if 'i' ∈ s ∨ 'g' ∈ s then some .reg
      else none)
    (mapOpt (takeWhile1 (isDigit 10)) fun s => (parseUnsigned 256 s).map .digit)

/-- /repo/src/ast/asm.rs:132-136, `Asm::parse_output_operands`. -/
def parseOutputOperands (s : Str) : Option (Dir × RegConstraint) :=
  (allConsuming (seq (or (value .out (tag c!"=")) (value .inOut (tag c!"+"))) parseRegConstraint) s).map
    fun x => x.1

/-- /repo/src/ast/asm.rs:138-140, `Asm::parse_input_operands`. -/
def parseInputOperands (s : Str) : Option RegConstraint :=
  (allConsuming parseRegConstraint s).map fun x => x.1

/-- A string literal passed through a text parser (/repo/src/ast/asm.rs:148-151,161-164,176-179). -/
def litStringMap {α : Type} (f : Str → Option α) : TParser α :=
  mapOpt parseLitString fun s => s.asStr.bind f

/-- `delimited(meta, punct(..), meta)` (/repo/src/ast/asm.rs:155,157,171,173,184). -/
def sepBy (p : Str) : TParser Unit := delimited «meta» (punct p) «meta»

/-- /repo/src/ast/asm.rs:142-194, `Asm::parse`. -/
def parseAsm (E : Env) : TParser Asm :=
  map (preceded
    (terminated
      (or (keyword c!"__asm__") (or (keyword c!"__asm") (keyword c!"asm")))
      (opt (or (keyword c!"volatile") (or (keyword c!"inline") (keyword c!"goto")))))
    (parenthesized
      (seq (delimited «meta» (litStringMap parseTemplate) «meta»)
      (seq (opt (preceded (sepBy c!":") (sepList0 (sepBy c!",")
        (seq (litStringMap parseOutputOperands) (parenthesized (parseExpr E))))))
      (seq (opt (preceded (sepBy c!":") (sepList0 (sepBy c!",")
        (seq (litStringMap parseInputOperands) (parenthesized (parseExpr E))))))
      (opt (preceded (sepBy c!":") (sepList0 (sepBy c!",") (litStringMap some)))))))))
    fun (template, outputs, inputs, clobbers) =>
      { template
        outputs := (outputs.getD []).map fun ((d, r), e) => (d, r, e)
        inputs := inputs.getD []
        clobbers := clobbers.getD [] }

/-! ## Declarations -/

/-- Results of the parsers inside `permutation((opt(id("static")), Type::parse))`
(/repo/src/ast/function_decl.rs:35, /repo/src/ast/var_decl.rs:28). -/
inductive DeclPart
  | static (b : Bool)
  | ty (t : Ty)

/-- `permutation((opt(id("static")), Type::parse))` (/repo/src/ast/function_decl.rs:35,
/repo/src/ast/var_decl.rs:28). -/
def staticTy (E : Env) : TParser (Bool × Ty) :=
  mapOpt (permutation [map (opt (keyword c!"static")) fun o => DeclPart.static o.isSome,
    map (parseTy E) DeclPart.ty]) fun
      | [.static b, .ty t] => some (b, t)
      | _ => none

/-- /repo/src/ast/function_decl.rs:33-41, `FunctionDecl::parse`. -/
def parseFunctionDecl (E : Env) : TParser FunctionDecl :=
  map (seq (staticTy E) (seq (parseConcatIdent E) (parenthesized
      (sepList0 (seq «meta» (punct c!",")) (seq (parseTy E) (parseConcatIdent E))))))
    fun ((_, t), name, args) => ⟨t, name, args⟩

/-- /repo/src/ast/var_decl.rs:26-35, `VarDecl::parse`. -/
def parseVarDecl (E : Env) : TParser VarDecl :=
  map (seq (staticTy E) (seq (parseConcatIdent E) (seq (punct c!"=") (parseExpr E))))
    fun ((s, t), name, _, rhs) => ⟨t, name, rhs, s⟩

/-! ## Statements -/

/-- The closure `semicolon_or_eof` (/repo/src/ast/statement.rs:57). -/
def semicolonOrEof : TParser Unit := or (punct c!";") eof

/-- The closure `block` (/repo/src/ast/statement.rs:55-56) after parsing: the statements of a
block, or the one statement. -/
def Stmt.toBlock : Stmt → List Stmt
  | .block ss => ss
  | s => [s]

/-- /repo/src/ast/statement.rs:53-88, `Statement::parse_single`; the first argument bounds the
nesting of statements. -/
def parseSingle (E : Env) : Nat → TParser Stmt
  | 0 => fun _ => none
  | n + 1 =>
    let condition := parenthesized (parseExpr E)
    let block := map (parseSingle E n) Stmt.toBlock
    or (map (terminated (parseAsm E) semicolonOrEof) .asm) <|
    or (map (seq (preceded (terminated (keyword c!"if") «meta») condition) (seq block
        (opt (preceded (delimited «meta» (keyword c!"else") «meta») block))))
      fun (c, t, f) => .ite c t (f.getD [])) <|
    or (map (preceded (terminated (keyword c!"do") «meta»)
        (seq block (preceded (keyword c!"while") condition))) fun (b, c) => .doWhile b c) <|
    or (map (delimited (terminated (punct c!"{") «meta») (many0 (preceded «meta» (parseSingle E n)))
        (terminated (preceded «meta» (punct c!"}")) (opt (punct c!";")))) .block) <|
    or (map (terminated (parseFunctionDecl E) semicolonOrEof) .fnDecl) <|
    or (map (terminated (parseVarDecl E) semicolonOrEof) .varDecl)
      (map (terminated (parseExpr E) semicolonOrEof) .expr)

/-- /repo/src/ast/statement.rs:91-99, `Statement::parse`. -/
def parseStmt (E : Env) : TParser Stmt := fun i =>
  map (many0 (delimited «meta» (parseSingle E (i.length + 1)) «meta»)) (fun
    | [s] => s
    | ss => .block ss) i

/-! ## Macro bodies -/

/-- /repo/src/macro_body.rs:40-53, `MacroBody::parse`. -/
def MacroBody.parse (E : Env) : TParser MacroBody := fun i =>
  match «meta» i with
  | none => none
  | some (_, []) => some (.stmt (.block []), [])
  | some (_, r) => or (allConsuming (map (parseExpr E) .expr)) (allConsuming (map (parseStmt E) .stmt)) r

/-- /repo/src/error.rs:5-12, `ParserError`. -/
inductive ParserError
  | invalidMacroName | invalidMacroArgs | invalidMacroBody
  deriving DecidableEq, Repr

/-- /repo/src/var_macro.rs:31-34, `VarMacro`. -/
structure VarMacro where
  name : Str
  body : MacroBody

/-- /repo/src/var_macro.rs:38-47, `VarMacro::parse`. -/
def VarMacro.parse (E : Env) (name : Str) (value : List MacroToken) : Except ParserError VarMacro :=
  if isIdentifier E name then
    match MacroBody.parse E value with
    | some (body, _) => .ok ⟨name, body⟩
    | none => .error .invalidMacroBody
  else .error .invalidMacroName

/-- /repo/src/fn_macro.rs:103-107, `FnMacro`. -/
structure FnMacro where
  name : Str
  args : List Str
  body : MacroBody

/-- /repo/src/fn_macro.rs:110-135, `FnMacro::parse_args`. -/
def FnMacro.parseArgs : TParser (List Str) :=
  allConsuming (terminated
    (or (map (preceded «meta» (punct c!"...")) fun _ => [c!"..."])
      (map (seq (many0 (preceded «meta» macroId)) (preceded «meta» (opt (punct c!"..."))))
        fun (as, v) => as ++ (if v.isSome then [c!"..."] else [])))
    «meta»)

/-- /repo/src/fn_macro.rs:138-146, `FnMacro::parse`. -/
def FnMacro.parse (E : Env) (name : Str) (args body : List MacroToken) : Except ParserError FnMacro :=
  if isIdentifier E name then
    match FnMacro.parseArgs args with
    | some (args, _) =>
      match MacroBody.parse E body with
      | some (body, _) => .ok ⟨name, args, body⟩
      | none => .error .invalidMacroBody
    | none => .error .invalidMacroArgs
  else .error .invalidMacroName

end CMacro
