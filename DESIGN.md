# Verification of cmacro-rs: design

The code under study is the Rust crate in `/repo` (`cmacro`): it stores C macro
definitions (`MacroSet`), expands them, parses the expanded bodies
(`VarMacro::parse`, `FnMacro::parse`) and generates Rust from them (`generate`).
The properties are in `properties.jsonl`; the model and proofs are the Lake
project in `lean/`; `MANIFEST.json` maps properties to theorems.

## Trusted base

* The Lean 4.33.0 kernel.  Every property theorem may depend on the standard
  axioms `propext`, `Classical.choice`, `Quot.sound` and on nothing else (checked
  with `#print axioms`, see `lean/Verif/Axioms.lean`).  No own axioms, no
  `sorry`, no `native_decide`, no `bv_decide`.
* The reading of the Rust code: the model was written by hand from the text of
  `/repo`; the code was never run.  Each definition cites the file and lines it
  models.
* The external facts listed under "Parameters of the model" below.

## Modelling conventions

* Rust `String`/`&str` is `List Char` (`Str`); a Lean `Char` is a Unicode scalar
  value exactly like a Rust `char`.  Borrowing (`Cow`, lifetimes) is erased.
* `Vec<T>`/slices/iterators are `List T`.  A `&mut` function returns the new value.
* `HashMap<String, V>` is an association list with `get`/`insert`/`remove`;
  `HashSet<&str>` is a duplicate-free list (its `len` is observable in the code).
* A function that can fail returns `Except Fail α`; `Fail.err e` is the Rust error
  `e`, `Fail.panic site` is a panic, `Fail.diverge` means that the fuel ran out.
* Recursion that is not structural takes fuel.  One unit of fuel is one nested
  call of `expand_macro_body`, i.e. one Rust stack frame; a call that yields
  `diverge` for *every* fuel is a non-terminating (stack-overflowing) Rust call.
* nom parsers are functions `List T → Option (α × List T)`.  All errors in the
  crate are recoverable `Err::Error`, so `none` is enough; error positions are
  not modelled.  `alt` is first-success, `opt`/`many0`/`fold_many0` as in nom 7.

## Parameters of the model (external behaviour, assumed)

`Env` collects what the crate takes from elsewhere:

* `unicode_ident::is_xid_start` / `is_xid_continue`: arbitrary predicates; where
  needed, theorems assume the stated ASCII facts (`Env.Lawful`).
* `format!("{:?}", str)`: the escaped spelling of a string, arbitrary function.
* `f64`/`f32` arithmetic is not modelled; a float value is a symbolic term
  (literal text and operations on it).  Theorems about floats only speak about
  which operation is performed.
* `CodegenContext` (user callbacks `resolve_ty`, `function`, `macro_variable`,
  `ffi_prefix`, ...) is a structure of arbitrary functions.

## What is modelled, per property

The status and what is missing are repeated in `MANIFEST.json`.

| Id | Model | Proof | Status |
|----|-------|-------|--------|
| C01 | `MacroSet` and its four mutators over call histories | refinement to an abstract map, induction over histories | proved: For every call history from MacroSet::new(). |
| C02 | as C01 | as C01 | proved: Refinement to a single name-indexed table, plus the last-definition and frame consequences. |
| C03 | return values of `define_*` | case analysis against a definition of "differs" | partial: The full statement C03_statement is false (C03_false: a body that extends the old one is not reported). Proved: the report is exact when the significant lengths agree, or the definition kinds differ, or the macro is new. |
| C04 | return values of `undefine_*` | refinement of C02 | proved |
| C05 | all three expansion calls | the code sees the maps only through `get`; congruence by induction on fuel | proved: For all pairs of histories with the same final table, for all three calls and every call depth. |
| C06 | all three expansion calls | induction on fuel over all error sources | proved |
| C07 | fuel semantics of `expand_macro_body` | divergence by induction on fuel; termination by a measure on blocked names | partial: The full statement C07_statement is false: C07_loop_never_returns exhibits a set of three function-like macros on which expand runs forever. Proved: termination of all three calls when only variable-like macros are defined (any bodies), and of expand for well-nested function-like macros (possibly recursive) on complete text, and of expand_var_macro and expand_fn_macro in such sets (C07_defined_macros_terminate_partial), all without # and ##. |
| C08 | expansion with variable-like macros | equality with an inductive textbook relation, proved total | proved: Equality with an inductively defined textbook relation, which is proved total for variable-like macros. Texts and bodies free of #, ## and leading line continuations; every spelling is a C token. |
| C09 | expansion under a set of blocked names | simulation between two macro sets | proved: For every reachable set, all bodies, and every call depth; macro names are non-empty. |
| C10 | as C08 | consequence of the textbook relation | proved |
| C11 | `expand_macro_body` | induction on token lists | proved: C11_inert_text_unchanged for any text, with the class each spelling has for the library; C11_c_text_unchanged for text given as C tokens (names, punctuators, comments, integer constants, decimal floating constants, ordinary character constants and strings), where the result is stated without reference to the library. |
| C12 | arity check, `collect_args` | induction on token lists; error source invariant | partial: The full statement C12_statement is false (C12_false: a parameterless macro accepts F(,1)). Proved: every other wrong count is rejected with the right numbers, and conversely the error is only reported for a defined macro with that number of parameters and a different number of arguments (any input, all three calls). |
| C13 | panics as explicit values (index, slice, `unreachable!`, `unwrap`) | invariant on all intermediate token lists | partial: The full statement C13_statement is false (C13_panics: four witnesses). Proved: no panic without ##, and no panic with ## when there are no comments, quotation marks and #; macros with ... have at most one named parameter in both. |
| C14 | `expand_arguments`, `expand_macro_body` | induction; inductive relation for nested calls | proved: Simultaneous substitution for any one call in otherwise macro-free text; the textbook relation for nested calls. |
| C15 | `collect_args` | bracket grammar, both directions | proved: collect_args agrees with a bracket grammar in both directions, the split is unique, and both outcomes are observed through expand. |
| C16 | `Token::concat`, `expand_concat` | re-lexing lemmas, case analysis on token kinds | partial: The full statement C16_statement is false (C16_false: a ## \u0401 is accepted although a\u0401 is rejected as a token, the defect of C49). Proved: operands without a backslash paste to the token spelled by their concatenation, and a call pastes its arguments. |
| C17 | `expand_concat` | induction on token lists | proved |
| C18 | `stringify` | induction on token lists | partial: The full statement C18_statement is false (C18_false: with #define G(y) S(1 y) the parameter moves in front of the text). Proved: the first half, for a call in the text given to expand. |
| C19 | `tokenize_arg_names` | induction on the parameter list | proved: Parameter spellings do not begin with a line continuation. |
| C20 | `tokenize`, `detokenize` | invariant by induction on fuel | partial: The full statement C20_statement is false (C20_false: a comment in the parameter list shifts the index of __VA_ARGS__). Proved for parameter lists without comments; also the exact numbering of references in macro-free bodies. |
| C21 | whole expansion | invariant by induction on fuel | proved |
| C22 | `expand_arguments` | induction on token lists | proved |
| C23 | identifier parser over characters | induction on strings | proved: Tokens without backslashes; escapes are C49. |
| C24 | `LitInt` parser | positional value by induction on digits | proved: All digit strings of any length in bases 2, 8, 10 and 16, with every suffix. |
| C25 | integer suffix parser | case analysis over suffix texts | proved: Trailing text that could continue the number (hexadecimal digits, a dot, x) is excluded, as it changes what the digits are. |
| C26 | `finish` on integer trees, `BitVec 128` | induction on trees, arithmetic | proved: All expression trees over integer literals with unary + and -, and the ten folded binary operators. |
| C27 | expansion, parsing, code generation and printing; panics are explicit values | false (witness; further ways to panic in C27_panics). What holds: names stay identifiers through expansion (invariant of every step) and parsing (induction over the grammar), parameters exist (C20), and for a body of such names neither finish nor printing panics (induction over the tree); termination is separate | partial: The full statement C27_statement is false: `#define Z 1 / 0` panics while folding (C27_false). C27_panics lists the other ways: a remainder by zero, `#` before __VA_ARGS__, __VA_ARGS__ behind a comment in the parameter list, and a matching constraint of inline assembly whose number is not below the number of inputs. Proved that nothing else panics: if quotients, `#` and matching constraints are as required by Spec.SteadyBody and every parameter the body refers to exists, generate returns Ok or Err (C27_var_partial, C27_fn_partial); in particular without `/`, `%`, `#` and asm in the expansion and without comments in the parameter list (C27_harmless_partial). The context must answer with types and paths made of identifiers. |
| C28 | `Cast` printing | case analysis on the ranges of the suffixes | proved: Cast of an integer literal to a type the context does not rename; both kinds of macro. |
| C29 | string parser | induction on the text | proved: All strings over raw characters, simple, octal and two-digit hexadecimal escapes and universal character names outside U+0080 to U+00FF; round trip for all byte strings. |
| C30 | string parser, UTF-8 encoder | induction on the text | partial: The full statement C30_statement is false (C30_false: \u00e9 becomes the byte 0xE9; C30_u8_false: u8 rejects it). Proved for universal character names outside U+0080 to U+00FF. |
| C31 | character literal parser | case analysis on the prefix | proved: Exact acceptance for literals in the grammar (hexadecimal escapes with two digits), and the range for any accepted text. |
| C32 | `LitString` printing in both kinds of macro | case analysis, list lemmas | proved: Constants of variable-like macros and pointers in function-like macros, all five kinds of literals. |
| C33 | type parser, `TypeQualifier` merging | case analysis over qualifier lists | partial: The full statement C33_statement is false (C33_false: `volatile int volatile` becomes const). Proved for all other pairs of qualifiers and all type names; permuted words of one list are covered; the qualifiers of pointers are the subject of C100. |
| C34 | `to_rust_ty`, `from_rust_ty` | induction on types | partial: The full statement C34_statement is false (C34_false: long double becomes f64, which becomes double). Proved for all other built-in types and pointers to them; size_t only for nightly targets. |
| C35 | the whole expression parser | a grammar of C (C11 6.5) as an inductive relation; by induction on it, each level of the parser reads what the grammar reads, up to a token that cannot continue the level; the trees written with the fewest parentheses are shown to be in the grammar | proved: C35_round_trip for operator trees (all binary, prefix, postfix, conditional and assignment operators but && and &#124;&#124;, see C36) over names and literals, written with the fewest parentheses. C35_var_grammar and C35_fn_grammar say the same for every token sequence of the grammar Spec.Gram, with calls, indices, members, casts to built-in types and sizeof; C35_unambiguous follows. |
| C36 | whole body grammar | invariant on the tokens each parser consumes | partial: The claim is false: `a && b` is rejected (C36_false), because no rule of the expression grammar mentions `&&` or `&#124;&#124;` (src/ast/expr.rs:277-306 goes from `&#124;` to `?:`). What is proved is the opposite for every body: whatever contains `&&` or `&#124;&#124;` is rejected. |
| C37 | printing of expressions; a parser of Rust expressions in Spec/RustSyntax | false (six witnesses, and unary plus); for separated operands by induction on the expression: reading the printed tokens at any level amounts to continuing after the tree | partial: The full statement C37_statement is false: `(int)x < y` is printed as `$x as c_int < $y`, which Rust does not accept (C37_false); `x - (int)y << z` loses its grouping the same way although a lone cast before `<<` is put in parentheses (C37_false_shift); `*(-1 + x)` is printed as `*-1.add($x)` (C37_false_deref); unary plus does not exist in Rust (C37_unary_plus); `x ? (y ? x : z) + 1 : 0` is printed with an `if` at the start of a block, where Rust ends the expression after the `else` block (C37_false_if); `x ? y++ + 1 : 0` fails the same way with the block of the increment (C37_false_block); `*(*x)++` is printed with `*$x = *$x.add(1)`, which moves the wrong pointer before it is read (C37_false_step). Proved for names, literals, calls, fields, prefix operators, casts, all binary operators, assignments and increments (written as blocks), `*p++` and `*--p` for a variable or member `p`, and `?:`, when no operand ending in a cast stands before `<` or `<<`, no negative literal before a method or field, and no operator is applied to a `?:`, an assignment or an increment at the start of a block. C37_block_partial is the same for the body of a function, which is read as the text of a block. The parser of Rust expressions is part of the specification. |
| C38 | `finish` and printing of assignments | evaluation lemmas | partial: The full statement C38_statement is false (C38_false: -= prints an addition). Proved for = and +=. C38_volatile_step (holds without exception): ++ and -- on an object behind a pointer to volatile read it once, write back the value plus or minus one once, and yield the new or the old value. |
| C39 | `finish` and printing of `!` | evaluation lemmas | partial: The full statement C39_statement is false (C39_false: `!x` for an integer parameter is printed as Rust's complement). Proved for constant operands without suffix. |
| C40 | parser and code generation of casts of parameters | false (two witnesses); for trees of names by showing that code generation leaves them alone, so that the rewriting of the cast ends where the binary operation would | partial: The full statement C40_statement is false: `(x) - y * z` becomes `($x - $y) * $z` (C40_false) and `(x) - 1` becomes `-1i8 as $x` (C40_false_constant). Proved when the operand is on the unary level and is a tree of binary operators over names; for `*` the types of the names must not be known, since code generation refuses to dereference a non-pointer before it looks at the cast. |
| C41 | `FnMacro::generate` | decision logic | proved: All bodies, statements and asm included. |
| C42 | `FnMacro::generate`, whole printer | invariant on trees, induction on the printer | proved: All bodies, statements and asm included. Hypotheses: the code given for enumeration variants has no $, and ... is only the last parameter. |
| C43 | `VarMacro::generate`, whole `finish` | invariant by induction on fuel | partial: The full statement C43_statement is false (C43_false: `#define M E = 1` for an enumeration variant E is exported as a constant). Proved for expressions without assignments, ++/-- and ##, with no * inside a cast operand. |
| C44 | `parse_template` | two template grammars, induction | partial: False as stated: single braces are passed on (C44_false). Proved for every template without braces and without `%%`; operand modifiers such as `%b0` are outside the specified C templates. |
| C45 | `expand_fn_macro`, `FnMacro::parse_args` | induction on the parameter list | proved: Hypothesis: no parameter spelling begins with a line continuation (backslash, newline). |
| C46 | punctuator table, pasting | finite table, all pairs | proved: The punctuators are those the library's table lists; pasting is compared on all pairs. |
| C47 | the parser of types and of `sizeof` | false (witness); all 84 orders are computed in the kernel with a free environment, and shown to be all the orders | partial: C47_false: `sizeof(long unsigned int)` is read as a call of a function named sizeof. C47_exact gives the reading of every order; it is the right type exactly when the sign comes first and is not alone (C47_iff_partial), and never a wrong built-in type (C47_never_wrong). |
| C48 | all parsers of expressions, types and statements | by induction on the parsers: each returns a suffix of its input, and the tokens before it read as the leaves of its result; depth independence by comparing two depths; false in general (witness) | partial: C48_false: of `x ## 099999999999999999999999q` only `x ## 0` is kept. Proved when continuations have at most 19 ASCII letters, digits and underscores: nothing but punctuation, comments and keywords is missing from the tree. Termination and consuming the whole body are proved without that condition. |
| C49 | identifier parser | induction on strings | partial: The full statement C49_statement is false (C49_false: a\u0401 is not recognised although it denotes a Cyrillic identifier). Proved: tokens that start with a universal character name (more may follow) and tokens without backslashes. Missing: a first universal character name after an ordinary character; C49_exact shows that these are never accepted, so the restriction is exact. |
| C50 | `LitInt` parser | induction on digits | partial: The full statement C50_statement is false (C50_false: 08 is read as 8). Proved: rejection when an octal digit follows the zero and the octal digits before the first 8 or 9 stay below 2^127. |
| C51 | prefixed string parsers | induction on the text | proved |
| C52 | string parser | induction on the text | partial: The full statement C52_statement is false (C52_false: a string with \x1 is rejected). Proved for escapes with exactly two digits. C102_strings says exactly what becomes of the others: one digit is rejected, from the third digit on they are characters of their own. |
| C53 | string and character parsers | induction on the text | partial: The full statement C53_statement is false (C53_false: U'\UFFFFFFFF' is accepted). Proved: ordinary, u8 and U strings reject such names whatever follows (C53_bad_names_partial); a u string rejects one such name between texts that are read correctly (C53_u_strings_partial), but takes two of them in a row for the halves of a character (C53_u_strings_false); a character literal accepts such a name exactly if its number fits the kind (C53_char_exact), so ordinary and u8 ones reject all of them (C53_chars_partial), U and L ones accept all of them (C53_chars_false); L strings accept all of them (C53_wide_false). |
| C54 | calls with `##` | evaluation of the call | partial: The full statement C54_statement is false (C54_false: CAT(y, X) with X defined as 1 gives y1). Proved for arguments that contain no macro names. |
| C55 | `finish` and `generate` on all trees | measure on trees; results independent of fuel | proved: All syntax trees, also those no parser produces; stack size is not modelled. |
| C56 | `ConcatString` in `finish` | induction on the parts | partial: The full statement C56_statement is false (C56_false: `u"a" "b"` becomes bytes). Proved for literals without prefix. |
| C57 | expansion of one macro and its parse | false (witness); every literal after `##` is rejected; names and parameters by computation for all names | partial: C57_false: `arg ## 2` is rejected, because expansion yields a literal after ## and the parser accepts none there (C57_literal_rejected). Pasting with a name or another parameter is proved. |
| C58 | parser and code generation of casts of parameters | false (witness); what happens instead by induction on the chain | partial: The full statement C58_statement is false: `(x) - (y) - (z)` becomes `$x - ($y - $z)` (C58_false). C58_right_nested says what every chain of sums and differences of parenthesised parameters becomes; it is right only for chains of at most one operator (C58_partial). |
| C59 | expansion, tokeniser, parser, finish and printing of variable-like macros | the relations of C08, C11, C35 and C26 chained; the spelling of names is replaced by the specification's by congruence of the expansion relation | proved: C59_constant_has_c_value composes C08/C14 (expansion), C11/C23/C24 (tokens), C35 (grammar) and C26 (folding). Expansion, tokens, grammar and values are relations of the specification, names are the identifiers of C (Spec.cName). Values are mathematical integers; the types of C are the subject of C63. |
| C60 | the statement parser with its alternatives in order, types and declarations, the choice between expression and statements | false (witnesses); the proved part is a mutual induction over the grammar: each alternative before the right one fails on the first tokens, and what follows a statement is never taken into it; expressions contain no `;` and no `{`, so the body is not taken for one | partial: The full statement C60_statement is false: `do { … } while (c);` with its own semicolon is not a body, nor may it stand in a block (C60_false, C60_false_nested); `if (x) -p` without the last semicolon is read as a subtraction from a call of a function named if (C60_false_if). Proved for bodies that contain a `;` or a `{` and in which no do … while has its own semicolon. Declarations of functions with named parameters are read, those with the parameter list ( void ) are not (C97_false). The grammar leaves out the empty statement, loops other than do, jumps, comments, and expression statements that begin with a name and `*`. |
| C61 | `Statement::finish`, `Statement::to_tokens` and `FnMacro::generate`; runs of C and of Rust statements as inductive relations in Spec/RustStmt, with a reader of Rust statements | false (witness); the proved part is a mutual induction over the statement: what is printed is read back, and the runs of each construct are matched, loops by induction on the run | partial: The full statement C61_statement is false: in the loop generated for do … while, a `continue` of the body skips the test at the end of the loop (C61_false: the C statement ends, the Rust statement runs forever). Proved for all statements in which no `continue` stands in a do … while. The meaning of expression statements, declarations and conditions is a parameter; it is assumed that they are printed as C37 reads them (expressions without sizeof; assignments and increments as statements of their own; declarations with a type of one or more words), which leaves out asm and function declarations. |
| C62 | `Expr::finish`, `Statement::finish`, all `to_tokens`/`to_token_stream` functions and `FnMacro::generate`; the leaves of a tree (Spec/Leaves) and the count of a name in leaves and in tokens (Spec/Occurs) | false (witness); the proved part is an induction over the tree for printing and, for finishing, over the depth of calls: both keep the count, also on error paths | partial: The full statement C62_statement is false: `*next() = 1` becomes `{ *next() = 1; *next() }`, which calls next twice (C62_false); the same holds for `=`, `+=`, `-=`, `&=`, `^=`, `&#124;=`, `++` and `--`, while `(x *)0` drops x. Proved for all bodies in which the name does not stand in something assigned to or incremented in this way, in a pointer type or (as a plain name) as a type that the user of the crate may replace, in a stringified pasted name, and no input of an asm has the number of an output as its constraint. Counts occurrences in the generated text: the two branches of ?: and if count as in C. |
| C63 | constant folding in `Expr::finish` (i128 arithmetic); types of constants, usual arithmetic conversions and wrapping as a relation in Spec/CInt | false (witness); the proved part derives the untyped value of C26/C59 from the typed one: without wrapping, conversions change nothing and all values fit i128 | partial: The full statement C63_statement is false: `1U - 2` is 4294967295 in C (32-bit int), but the constant is -1 (C63_false), because folding ignores the types of the operands. Proved when no value wraps around (C63_no_wrap_partial), in particular when all constants have signed types (C63_signed_partial), and from the definitions on (C63_text_partial, with expansion, lexing and parsing as in C59). A syntax tree does not say whether a constant was written in decimal; the types of both ways are allowed. Not folded, hence outside: ~, comparisons, logical operators and ?:. |
| C64 | `FnMacro::generate`, `Expr::finish` (folding, types of operators), printing of expressions; values of C and of Rust expressions as relations in Spec/FnValue | false (six witnesses); the proved part is an induction over the evaluation in C: constant operands are folded to their value (C63), others keep their shape, their type is the one C gives them, and the finished tree evaluates to the same value or answer; operands that are not evaluated are followed with other values of the same types; the text is read back with C37; finishing cannot fail on such expressions, and everything printed is a token (totality); C69 and C35 supply the tree (from the definitions on) | partial: The full statement C64_statement is false: for an unsigned int x and a long y, `x + y + x` becomes a function that returns c_uint and adds a c_uint and a c_long, which Rust does not allow; in C it is a long (C64_false); comparisons are an int in C, but the function returns bool (C64_false_bool); `( x ? x : z ) + 1` becomes `if x != 0 { x } else { z } + 1`, which is no expression at the start of a function body (C64_false_if); for an unsigned char x, `x + x` becomes a function that returns c_uchar and overflows for 200, while C promotes the operands and gives the int 400 (C64_false_promote, twice_overflows); unsigned subtraction wraps around in C and overflows in Rust (C64_false_wrap); a parameter may be named by a keyword of Rust, such as `type` (C64_false_keyword). Proved for arithmetic, bitwise operators, shifts, casts and `?:` (C64_partial) and for comparisons, `!`, `&&` and `&#124;&#124;` (C64_bool_partial: the function returns the bool that C answers; the parser rejects `&&` and `&#124;&#124;`, see C36, so these only matter for its trees) when operands of different types are only combined with constants, no unsigned operation wraps around (Rust panics on overflow in debug builds), operands of types narrower than int are compared or cast but not computed with, unsigned numbers are not negated and constants are not shifted; shifts and casts, also casts of constants, may drop bits as in C; numbers are used as conditions only in `?:` and answers not as numbers. Operands that are not evaluated (behind `&&`, `&#124;&#124;`, `?:`) must have a type, that is, a value for some parameters of the same types. No parameter may be named by a keyword of Rust, no cast stands directly before < or << (Separated) and no `if` at the start of a larger body (FitsBlock). rustEval_unique and rustEval_answer: a Rust expression has one value of each type, and one type if it has a name or a cast; a condition has one answer and is no number. Constants that code generation does not fold, such as ~5, belong to the full statement but not to the proved part. C64_total_partial and C64_total_bool_partial add that a function is generated at all, when the user declares integer types for the parameters and supplies no function of the same name; C64_text_partial starts from the definitions: the body is expanded by the textbook rules and read by the grammar of C (see C69, C35). |
| C65 | `FnMacro::generate`, all of `to_tokens` (expressions, types, statements, asm), `finish` | false (witness); the proved part is an induction over all printing functions for any property of token lists that is closed under concatenation (Proofs/PrintInv), together with: finishing introduces no ordinary names (from the counting lemmas of C62) and keeps the number of parameters | partial: The full statement C65_statement is false: a parameter named `crate` becomes `$crate`, which is not a parameter in Rust (C65_false). Proved when no parameter is named `crate`. Words that the code generator itself writes (Spec.ownWords) or that the user of the crate supplies may equal the name of a parameter; enum variants supplied by the user must not contain `$`. That the body has no plain name equal to a parameter is a hypothesis (ParamsReplaced): the parser replaces parameters before it reads the body. |
| C66 | `finish` of expressions, types, names, statements and bodies, `FnMacro::generate` | false (witnesses); the proved part is two inductions over `finish`: a parameter that stands for an identifier is marked, or there is an error and it still stands in the tree (so that rewritten casts mark it in the second attempt), and nothing else is marked; a mark is never taken back | partial: The full statement C66_statement is false: the parameter of `sizeof ( T )` is declared as expr (C66_false, size_expr), so is the name of a declared variable (decl_expr), and a part of the pasted name of a declared function (fn_expr). Proved for names of members, parts of pasted names other than names of declared functions, and names of declared functions, in both directions; the second direction assumes that what follows `.` or `->` in the tree is a name, which is what the parser builds (compare Gram.member in Spec/Grammar). |
| C67 | `finish` and `to_tokens` of expressions, types, names, statements and bodies, `FnMacro::generate` | false (witnesses); the proved part is an induction over everything that is printed: each `let` is followed by one of three names or by the name of a declared variable, and `finish` changes no declared name and introduces no word `let` | partial: The full statement C67_statement is false: a parameter named `value` is hidden when the macro writes through a volatile pointer (C67_false), one named `prev` when it is incremented (C67_false_prev), and so is a variable outside the macro named `value` (C67_false_global). Proved for all names other than value, prev and _ (and mut, which is no name in Rust). |
| C68 | `finish` and `to_tokens` of expressions, `VarMacro::generate`; with C68_text_partial also the macro set and the parser | false (witnesses); the proved part reuses the induction of C64, shows that finishing such expressions cannot fail, that their words are printable and that the type found is the one of C | partial: The full statement C68_statement is false: the operands are not promoted, so `(unsigned char) 200 << 2` becomes a c_uchar instead of the int 800 (C68_false); operands of different types are not converted, so `(long) 5 + (int) 2` becomes a constant without a type that adds a c_long and a c_int (C68_false_mixed); the suffix of a constant under `~` is lost, so `(unsigned long) ~0U` becomes `!0 as c_ulong` and has another value (C68_false_suffix); a constant is added to a predefined limit, or multiplied by it, as a number of the unsigned type, so `__SCHAR_MAX__ * 3` becomes a c_uchar, which cannot be 381 (C68_false_limit). Proved, including that generation succeeds, for the expressions of C64 without parameters: operands of different types are only combined with constants, operands narrower than int are compared or cast but not computed with, no unsigned operation wraps around, constants are not shifted or complemented, and no cast stands directly before < or << (Separated). Conditions become constants of the type bool (C68_bool_partial); in C they are an int. The predefined limits (__INT_MAX__ and so on) may occur; those of signed char and short, which C promotes, are left out, and a constant added to a limit or multiplied by it is one that C converts to the unsigned type. C68_text_partial starts from the definitions (see C59). Contexts are those in which the information supplied by the user prints (CalmCtx). |
| C69 | `expand_fn_macro` and everything it calls | the refinement proof of C14 generalised to bodies with parameters: induction on the derivation of the expansion | proved: For definitions without # and ## (Plain). The rules of the preprocessor are the relation Expands (Spec/Expand.lean); the parameters of the macro itself are no names in it. Tokens that cannot be classified make the call fail instead, so the statement asks for a result for each token (outToken). |
| C70 | `expand`, `expand_fn_macro` and everything they call | C69 and C14 on both sides; induction on derivations shows that expansion commutes with putting finished arguments in place of parameters; totality as for C07 | proved: Well-nested means that every name of a function-like macro in a body is directly followed by its arguments, that brackets match and that no comma stands outside brackets. C70_restriction_needed shows that the equality does not hold for other sets, as in C: a macro name at the end of a body can find its arguments in an argument of the macro. |
| C71 | `Type::from_rust_ty` and the printing of types, `FnMacro::generate` | case analysis of the conversion there and back (`stable_toks`); concrete witnesses for the negations | partial: The full statement is false of the code, with four witnesses: generic arguments are dropped (C71_false), `()` behind a pointer becomes `c_void`, `f128` becomes `f64`, the self type of `<S as T>::Item` is dropped. C71_partial: types built by pointers from paths without generic arguments, other than the names of some built-in types (StableTy). |
| C72 | `FunctionCall::finish` and its printing, `FnMacro::generate` | induction over the arguments and the declared types together | partial: The full statement is false of the code: a parameter passed twice, as arguments of two types, has the first type for both (C72_false). C72_partial and C72_unit_partial: macros that pass each parameter as arguments of one type, for types that are written as given (C71), without types declared for the parameters themselves. C72_only_known is the converse, for arbitrary arguments. |
| C73 | `finish` of all expressions and statements | the generic invariant of `finish` (Proofs/FinishInv.lean), for calls: the flag `export_as_macro` is set and never reset | partial: The full statement is false of the code: with a cast around it, a call with the wrong number of arguments (C73_false) or of a parameter (C73_false_param) ends up in a generated function. C73_partial: every function called by name is known. |
| C74 | `finish` of all expressions and statements | the generic invariant of `finish`, for binary operators | partial: The full statement is false of the code for ++ and -- (C74_false) and for & (C74_false_address). C74_partial: the operators of assignment. |
| C75 | `LitFloat::parse_str`, `Lit::try_from` | the grammar of floating constants is inverted from, and run through, the parser | proved: What number a text denotes to Rust's from_str is not modelled; the literal keeps the text. |
| C76 | `finish` of literals, unary and binary operators; the values of floats are symbolic in the model, and interpreted by any `FloatArith` here | induction over the expression; the counterexamples use binary numbers of 24 and 53 bits over the rationals | partial: The full statement is false of the code for integers that f32 cannot represent (C76_false) and for integers with suffixes (C76_false_suffix). C76_partial: integers without suffixes and of up to 24 bits, for every interpretation of the floating formats; C76_text_partial: the same from the definitions on. |
| C77 | `Asm::parse` and everything it calls, `MacroBody::parse` | the grammar of an `asm` is run through the parser part by part, and shown not to be an expression | partial: The full statement is false of the code: asm("nop") without semicolon is read as a call (C77_false), a constraint for constants only is read as a register (C77_false_immediate), and __volatile__ is not accepted (C77_false_volatile). C77_partial: at most one qualifier, volatile or inline, no braces or double percent signs in the template, operands that can be in registers, and a qualifier, colon or semicolon. |
| C78 | `Asm::to_tokens` | the printed text is brought into a form with a list of operands, whose meaning is compared with that of `%n` | partial: The full statement is false of the code for matching constraints: the input is not read (C78_false), another input is removed (C78_false_removed), and the number of the input is not defined (C78_false_number). C78_partial: no matching constraints; C78_same_partial: one matching constraint for the same expression at the place where the right input is removed. |
| C79 | `Asm::to_tokens`, `Asm::is_att_syntax` | the same form; the set of clobbers is sorted by insertion | partial: The full statement is false of the code: AT&T syntax is not declared for templates without %, $ and ({ (C79_false), and the flags are promised to be preserved (C79_false_flags). C79_partial: everything else, and exactly when the code declares the two. No matching constraints. |
| C80 | the macro after `generate`, `Expr::finish` and everything below it | induction on the depth of calls: finishing a finished tree from the same state gives the same tree, state and type | partial: The full statement is false of the code: another cast is put around a character constant (C80_false), the number that !0 is folded to has no type, so that the function becomes a macro (C80_false_not), and a resolved type is resolved again (C80_false_type). C80_partial: bodies without such constructions (steadyBody) and contexts that answer the names they answer with by themselves (Settled); all expressions, statements and declarations of the syntax are covered. |
| C81 | `Expr::finish` for casts, `Type::finish`, `Cast::to_tokens` | the type the context gives is fixed under `finish`, so that no rewriting of the cast applies | partial: The full statement is false of the code: whether T is a type is asked with the name it was resolved to, so (my_t)-x becomes MyT - x (C81_false). C81_partial: contexts that answer the names they answer with by themselves (Settled), operands without *. |
| C82 | `meta` and everything that reads expressions and parameter lists | the proof of C35 again for the grammar with comments; parameter lists: the parser equals a function on token lists that ignores comments | partial: The full statement is false of the code: a comment at the end of an expression is an error (C82_false), so is one after a cast or inside a type, and sizeof before a comment is read as a call (C82_false_places); (A) /* c */ - B is read as a difference and (A) - B as a cast (C82_false_tree). C82_partial: parameter lists without restriction; bodies of nothing but comments; expressions of the grammar of C35 with comments in front, inside parentheses and brackets, around binary, assignment and conditional operators, members and commas, after prefix and before postfix operators. C82_read_partial: such a body is read as the tree the grammar gives. Missing: statements. |
| C83 | `LitChar` from the text to the cast | C31 for the number; the two literals that are printed by cases; the value after the cast by arithmetic modulo the width of the type | partial: The full statement is false of the code: an ordinary character constant has the type int in C and c_char in the generated code (C83_false), so '\x7f' + 1 leaves the type (C83_false_sum). C83_partial: the values of all constants that the lexer reads (see C31), and the types of all but the ordinary ones; hexadecimal escapes with two digits, and for L a type for wchar_t that holds the value. C83_text_partial: the same from the definitions on, with expansion. |
| C84 | everything that prints expressions and statements | induction over the printed text (PrintInv); finishing adds no names (as for C62) | proved: The body of the generated item: types in the signature of a function and the type of a constant are not covered. The list is Spec.ownWords. |
| C85 | the same | from C84; the negation by evaluating p->type | partial: The full statement is false of the code: p->type is printed as ( * $ p ) . type (C85_false); names go to Ident::new without a check. C85_partial and C85_var_partial: macros in which the keyword is neither a name nor a parameter (from C84). Keywords that the code generator writes itself, such as loop, are left out. |
| C86 | all of macro expansion | a textbook relation extended with substitution and pasting stages (Spec/Paste.lean); induction over its derivations, as for C14, with expand_arguments and expand_concat shown to carry out the stages; the negations by evaluation | partial: The full statement C86_statement is false of the code: arguments next to ## are expanded first (C86_false, as C54), and an empty argument next to ## takes the mark off a name, which is then replaced a second time (C86_false_marked: G ( f ) gives 1 + 1 + f). C86_paste_expands_partial and C86_paste_var_partial: arguments next to ## contain nothing to replace and no marked names; nested calls, variadic macros and any number of ## are covered. The relation joins words and numbers only: joins of punctuators (C46), string prefixes and a dot before a number, the # operator (C18) and expand_fn_macro are not covered. |
| C87 | code generation of expressions | a small type system for the Rust expressions in question (Spec/RustTyping.lean), over the trees that C37 reads back from the text; induction over the expression shows that finish finds the type; the values of C64 and C68 give types by induction over the evaluation; the negations by inversion of the typing rules at concrete witnesses | partial: The full statement C87_statement is false of the code: !0 is the bool 1 (C87_false), the type of a shift comes from its right operand (C87_false_shift), f32 and f64 mix (C87_false_float), and - is applied to unsigned types (C87_false_neg). C87_const_partial and C87_fn_partial: if the expression has any Rust type, it has the declared one, when all floating types in it are the same, shifts are by constants, ! is applied to conditions and no cast stands where Rust would read on. C87_value_partial and C87_fn_value_partial: it has the declared type, when it has a value in C without conversions (the domains of C68 and C64). Aliases are not looked through: c_int and i32 count as different types. |
| C88 | code generation of function-like macros that become macro_rules! macros | the evaluation relation of C64 for Rust expressions, with the metavariables $x in place of names; putting the argument trees in place of the metavariables keeps types and values (induction over typing and evaluation, Proofs/MacroValue.lean), as Rust inserts an expr fragment as one expression; the negations by inversion of the evaluation at concrete witnesses | partial: The full statement C88_statement is false of the code: operands of different types are not converted (C88_false), a comparison is an int in C and a bool in Rust (C88_false_bool), small operands are not promoted (C88_false_promote), and unsigned operations do not wrap around (C88_false_wrap). C88_partial and C88_bool_partial hold without these; C88_total_partial adds that a macro is generated, and C88_text_partial starts at the definitions in C. The predefined limits may occur as in C68. The arguments are expressions with types of their own (no bare number), and are evaluated without side effects; a parameter is not called crate or _. |
| C89 | expansion of macros, parameter lists, substitution of arguments | a relation between the two sets of definitions; tokenizing renamed parameters and a renamed body gives the same argument positions (Proofs/Rename.lean); then induction on the call depth, with the two scans in step | proved: C89 for expand and expand_var_macro, C89_fn for expand_fn_macro. The error for a parameter name that is used twice mentions one of the names, which may be another one after renaming. The parameter names contain no universal character names. |
| C90 | expansion of macros with pasting and stringification | every token of an expansion has its text in the set, or a text that is no part of an identifier (the step invariant of Proofs/Invariant.lean, instantiated in Proofs/Reach.lean); so all lookups are for names in the set, and expansion in the full and in the restricted set of definitions agree, by induction on the call depth | proved: C90 for the three expansion functions, C90_step for one more definition or undefinition. The set of words is closed under concatenation if ## occurs in it. The words with a backslash are strings and characters. The Debug text of a string contains a quotation mark. |
| C91 | finish and to_tokens of all expressions, types and statements, generate | a masked context answers only about names in the set; finishing in the masked context keeps the names of a tree within the set (from C84), so by induction on the call depth finishing in both contexts agrees, and by induction on the tree so does printing | proved: C91_fn and C91_var, for the answers of all methods of CodegenContext. Fields are compared for every name of a type, and only the name of the field has to be in the set. size_t has to be in the set although a macro need not mention it (example). |
| C92 | expandVar, VarMacro.parse, VarMacro.generate | by induction on the rank and on the text, the text expands to tokens that the grammar reads as a tree of this value, of the same level; C59 turns this into the constant; C90 removes all other definitions first | proved: C92 for any expression over the constants, C92_constants for the constants themselves. Names of definitions are assumed to be identifiers, and Debug output of strings to contain a quotation mark (as in C90). ~ is left out because it is not folded; comparisons and ? : are not folded either. |
| C93 | expandVar, calls, substitution, VarMacro.parse, VarMacro.generate | by induction on the evaluation, the text with argument texts in place of parameters expands, by the textbook rules, to tokens that the grammar reads as a tree of the same level and value; C59 turns this into the constant | proved: C93; C93_elsewhere adds any other definitions, also with # and ##, as long as they are not reached. The specification reads a parameter at the lowest precedence, so that it has to be in parentheses next to an operator, and a definition at the highest. Not variadic macros. Operators as in C92. |
| C94 | FnMacro.generate, all printing functions, FnMacro.parse, expandFn | finish does not read the names; each printing function maps templates to templates, by structural induction on expressions and statements; whether all names can be printed depends on the template only | proved: C94 for generate on any body; C94_macro for the pipeline from two definitions that differ in names, with C89. The names must be identifiers or ..., and the context must declare the same types; an example shows that the latter is needed. An error about a parameter name used twice may mention another name. |
| C95 | GenFn.toks, FnMacro.generate, VarMacro.generate, all printing functions | each printing function keeps the stack of open brackets, by structural induction; types have no brace and no comma outside of brackets; reading back the items with the reader of Spec/RustItem | proved: C95 for generate, with ... only as the last parameter; C95_macro from the definition, with C45 for the parameter list; C95_var for constants. The reader of items is written from the Rust grammar and does not use the model of generate. Tokens that the user supplies as opaque types count as one token. An example shows that the condition on the tokens of enum variants is needed. |
| C96 | `BinaryExpr::finish` (the cast of limits), `Var::finish`, printing of limits, `VarMacro::generate` | the finished trees are computed for each limit; they are read back with C37 and evaluated for all widths | proved: C96_limits for the code generator, C96_text from the definitions on. The type is the one whose limit is written: in C, SCHAR_MAX, SHRT_MAX and the expressions made from them have the type int and the same value. Other expressions with these limits are within C64, C68 and C88; C68_false_limit shows where the inserted cast is wrong. The path of the module of the types begins with a name or with crate, self or super (Rooted). |
| C97 | parser of function declarations, `FunctionDecl::finish` and `FunctionDecl::to_tokens`, `FnMacro::generate`; types and declarations in C and Rust as relations in Spec/FnDecl | the statement grammar of C60 with function declarations; inductions over types and parameter lists | partial: The full statement C97_statement is false of the code: the parameter list ( void ) is not read (C97_false), a function without a result is declared with the result c_void (C97_false_void, and C97_void for all such functions), and without the semicolon int * f ( ) is read as a product (C97_false_product). C97_static: the word static is dropped. C97_partial: functions with a result and named parameters, with the semicolon, for integer types, char, bool, float, double, pointers and named types that the context resolves to paths which are written as given (StableTy, see C71). The macro parameters have no declared types. Qualifiers (const), arrays, pointers to functions and unnamed parameters are not in the specification. |
| C98 | `UnaryExpr::to_tokens`, `BinaryExpr::to_tokens`, `Expr::finish`, `FnMacro::generate`; interpreters for C and Rust expressions with side effects in Spec/Assign, over an arbitrary machine | the finished tree is computed; the text is read by C37; induction on the expression shows that both interpreters agree | partial: The full statement C98_statement is false of the code: *x++ = 0 is printed with the step twice (C98_false), y = (x *= 2) uses the value of an assignment that has none in Rust (C98_false_unit), and prev++ hides the variable prev that it is to change (C98_false_prev). Proved (C98_partial, an equation for every state, including the states without a result) for numbers, names, members, *, -, ~, arithmetic, calls, = += -= &= &#124;= ^=, ++ and --, if what is assigned to is the same object when it is looked up again (Steady; C98_steady shows it for variables and their members) and no operator has two literal operands (folding is the subject of C26 and C63). C98_effect: *= /= %= <<= >>= at the top leave the same state. The meaning of operators, objects and functions is a parameter shared by both languages; types are not modelled here (see C64, C87). Operands are evaluated in the order of Rust, one of those C allows. Conditions, comparisons and casts are left out. |
| C99 | `Expr::finish`, `Expr::to_tokens` for sizeof, `FunctionCall::finish` and `to_tokens` for `__builtin_offsetof`, `VarMacro::generate`, `FnMacro::generate` | the parser of types is shown to read every spelling up to the closing parenthesis; the rest is computed with the lemmas of C97 | partial: The full statement C99_statement is false of the code: __builtin_offsetof becomes mem::offsetof!, while the macro of Rust is core::mem::offset_of! (C99_false); a parameter that stands for the type of a sizeof is declared as an expression (C99_false_param); a named type in __builtin_offsetof is not replaced by the Rust type (C99_false_type). Proved: constants (C99_partial) and function-like macros (C99_fn_partial) that are sizeof of a type that is not a parameter; for __builtin_offsetof of two parameters (C99_offset_partial) both are handed over in order and declared as a type and a token tree, only the name of the macro is wrong. __builtin_offsetof with another number of arguments is an ordinary call (covered by C37, C72, C98). |
| C100 | `Type::parse` with its qualifiers, `Type::finish`, `Type::to_tokens`, `Cast::to_tokens`, `Expr::finish` for casts, `FnMacro::generate` | the parser is shown to read every list of stars, by induction; finishing and printing commute with adding a pointer | partial: The full statement C100_statement is false of the code: each pointer is written *const if const stands behind its own star, so that (const char *) x becomes a cast to *mut c_char (C100_false) and (char * const) x one to *const c_char; function declarations lose the const in the same way (C100_false_decl). Proved: what is generated in all cases (C100_own); the type is the right one if and only if const stands in every place of the C type or in none (C100_exact, C100_partial). |
| C101 | `Type::parse`, `Expr::parse` for casts and parentheses, `Expr::finish` with folding, `Cast::to_tokens`, `VarMacro::generate` | the type as in C100, the value with the folding of C26, then cases on the type and the value | proved: The declared type is the one that C100_own describes; whether it is the right one is the subject of C100. The value is that of C26, without the conversions of the integer types (C63). |
| C102 | `Lit::try_from`, `LitChar::parse_str`, `LitString::parse_str` with the five kinds, `escaped_char`; UTF-8 and UTF-16 decoding | inversion of each parser, and the converse by induction over the grammar of the text; the decoders are shown to accept only what the encoders produce | proved: About what the code accepts, which differs from C where C30, C52 and C53 say so: two-digit hexadecimal escapes, \X, octal escapes above 255 and universal character names that name no character. The standard library's UTF-8 and UTF-16 decoders are modelled, and shown to invert the encoders. |
| C103 | `LitInt::parse_str`, `parse_i128`, `parse_suffix`, `Lit::try_from` | inversion of each alternative of the parser; an octal run that overflows is shown to overflow in the decimal alternative, too; the converse from C25 | proved: About what the code accepts, which differs from C where C50 says so (a zero before 8 or 9). |
| C104 | `Token::from_str` and the parsers it tries: `Identifier`, `Lit`, `IdentifierContinue`, `Punctuation`, `Comment` | inversion of the identifier, punctuator and comment parsers; with C75, C102 and C103 each parser has an exact grammar, and first characters and quotes keep the grammars apart | proved: About what the code accepts; where this differs from C is the subject of C49, C50, C52. __VA_ARGS__ is treated separately by the code (C20, C22). |
| C105 | `MacroSet::expand`, `expand_var_macro`, `expand_fn_macro`, `Token::detokenize` | the run of the expansion that C08 and C14 establish ends before detokenization; detokenization stops at the first item that C104 does not accept; results are unique | proved: For texts that have an expansion by the textbook rules (all of them if only variable-like macros are defined, C08). |
| C106 | `MacroSet::expand`, `expand_var_macro`, `expand_fn_macro` with everything they call except pasting and stringification | every function on the way is shown to commute with the renaming, the expansion itself by induction on the call depth; that no operator turns up on the way is the step invariant of Proofs/Invariant.lean | proved: No operator # or ## in bodies and text, no word that starts with a line continuation; ## and # make the spelling of names visible (examples beside the theorem). |
| C107 | `MacroSet::expand`, `expand_macro_body`, `detokenize` | textbook expansions of two texts can be appended; the code follows them (C08, C14); detokenization stops at the first error | proved: C107 for complete texts over well-nested definitions, C107_objects for variable-like macros only, C107_expands for any texts with a textbook expansion. A name of a function-like macro at the end of a text takes its arguments from the next one, as in C (example). |
| C108 | `expand_macro_body`, `collect_args`, `expand_fn_macro_body`, `expand_arguments`, `detokenize` | false (witnesses); the textbook expansion of a text is carried over to the text without comments by induction on the expansion, the code follows both (C08, C14) | partial: The full statement C108_statement is false of the code: with a comment between its name and the parentheses a macro is not called (C108_false), F(/* none */) has one argument too many (C108_false_empty), and # must stand directly before the parameter (C108_false_stringify). C108_partial: definitions without # and ## in which every name of a function-like macro is directly followed by its arguments; comments anywhere else, in arguments as well. C108_objects_partial and C108_var_partial: variable-like macros only, comments anywhere. C108_fn_partial: the expansion of a function-like macro on its own, variadic or not, whenever the textbook rules expand its body. Comments in parameter lists are the subject of C20. |
| C109 | `expand_macro_body`, `collect_args`, `expand_fn_macro_body`, `expand_arguments`, `detokenize`, `VarMacro::parse`, `FnMacro::parse`, all of `src/ast` | induction on the reading: the words expand to a text of the tree in the grammar (C08, C14), whatever the parameters are bound to; the grammar is what the parser reads (C35) | proved: C109 and C109_fn: the text expands, and the result is parsed as the tree; C109_constant and C109_function: what is generated; C109_value and C109_fn_value: with C63 and C64, the value of a constant and of a function. C109_levels_needed: without the condition on the levels the statement would be false, as it is in C (SUM(1, 2) * 3). For definitions without # and ## (Plain) and without backslashes, macros that are not variadic, and arguments that are expressions or types. A name alone in parentheses is not read, because the code reads it as a type (C40). |
| C110 | as C109, with `BinaryExpr::finish` and `UnaryExpr::finish` | false (witness); induction on the evaluation: words of a value stand for a tree of this value (C109), whose constant is folded to this value (C63) | partial: The full statement C110_statement is false of the code, as C63 is (C110_false: #define MINUS(a, b) a - b, #define BACK MINUS(1U, 2) is 4294967295 in C, the constant is -1). C110_partial: no unsigned operation wraps around; with + - * / % & &#124; ^ << >>, signs, parentheses, macros and calls at any depth. Definitions without # and ## and without backslashes, macros that are not variadic. |
| C111 | as C109 | false (witness); induction on the reading of C109: a text with an operator does not stand for a name or a type, so its reading can be put in parentheses | partial: The full statement C111_statement is false of the code: with #define N (y) the text N + 1 is read as a conversion of +1 to the type y (C111_false, as C40). C111_partial and C111_fn_partial: the definitions that get parentheses do not begin with a name, or an operator other than * follows this name, so that they are neither names nor calls nor types. Otherwise as C109. |
| C112 | as C08 and C69; constants as C59 | induction on the textbook expansion: hiding a name that is never reached makes no difference; parameters put in place of themselves | proved: C112_fn, C112_fn_nested (sets of definitions as in C07, in which every macro has an expansion), C112_variadic (#define g(x, ...) f(x, __VA_ARGS__)), C112_var, C112_const, C112_code and C112_code_variadic. C112_restriction_needed: with #define b a + 1 and #define a b the expansions differ, as in C. The parameters have the same names; by C89 the names make no difference. |
| C113 | as C08 and C69 | induction on the textbook expansion; hiding a name that is never reached makes no difference (as C112), and the definitions of hidden macros are never looked at | proved: C113_text, C113_var and C113_fn (variadic macros included; the parameters of the macro do not occur in b), and C113_code_var and C113_code_fn for the generated code. C113_restriction_needed: with a comma in b, FST(PAIR) and FST(1, 2) differ, as in C. |
| C114 | as C08 and C69 | induction on the textbook expansion: the names that are left are hidden by no macro and have no definition, so the result is its own expansion; the definition of a hidden macro is never looked at (as C113) | proved: C114_text, C114_var and C114_fn (variadic macros included), C114_code_var and C114_code_fn for the generated code. C114_total: in sets of definitions as in C07 in which no macro uses itself, every text with complete calls can be expanded beforehand, to a text without names of macros. C114_restriction_needed: with #define F F + 1 the text F expands to F + 1, and F + 1 to F + 1 + 1, as in C. |

## Parts of the code

Modelled, function by function, with file and lines at each definition:

* `src/macro_set/mod.rs`: the set, tokenisation, expansion, `#`, `##`, argument collection (`Model/Token`, `Model/MacroSet`).
* `src/ast/literal*`, `src/ast/identifier.rs`, `punctuation.rs`, `comment.rs`: the lexical parsers (`Model/Literal`, `Model/Ident`).
* `src/ast/ty.rs`, `expr.rs`, `cast.rs`, `function_call.rs`, `asm.rs`, `statement.rs`, `var_decl.rs`, `function_decl.rs`,
  `macro_body.rs`: the grammars (`Model/ParseTy`, `ParseExpr`, `ParseStmt`).
* every `finish` and every `to_tokens` (`Model/Finish`, `Model/Print`), `VarMacro::generate`, `FnMacro::generate`
  (`Model/Generate`), `context.rs` (`Ctx`, a structure of arbitrary functions).
* The steps of `tests/headers.rs` (`Model/Pipeline`), only to compare the model with the fixtures.

Simplified:

* Output is a list of Rust tokens (`RTok`); spans and spacing are not modelled. Parsing text back into tokens inside the
  printer (`format!("-{}").parse()`) is assumed to give the same tokens.
* `syn::Type` is reduced to paths, pointers, the unit type, verbatim tokens and "other"; paths with generic arguments or a self type (`<S as T>::X`) are kept as text beside their segments, as that is all the code reads of them.
* Rust target versions are three booleans (the three version questions the code asks).
* Floating point values are symbolic.
* Stack exhaustion by deep but finite recursion is not modelled.
* `Cow`, lifetimes, `into_static`, `as_str` and other conversions that do not change the text are identities.

Not modelled: `Display`, `Debug` and `Error` implementations, accessors (`name`, `args`, `body`, `value`), the crate's own
tests and test macros.

The model is compared with all pairs of files in `/repo/tests/fixtures` in `lean/Verif/Check/Fixtures.lean`. That is a test
of the model, not a proof.

## Findings

Places where the code disagrees with a property. Each is proved in Lean with the witness given.

| Property | Witness | What happens |
|----------|---------|--------------|
| C03 | `#define A 1`, then `#define A 1 + 2` | not reported as a redefinition: the comparison stops at the shorter body |
| C07 | `#define f() h g (`, `#define g() ( ) ( ) )`, `#define h() f`, text `f ( ) )` | expansion never returns |
| C12 | `#define F() 7`, text `F(,1)` | accepted, gives `7` |
| C13 | `#define C(x) x /* c */ ## 1` | `unreachable!()` |
| C13 | `#define F(a, b, ...) b`, text `F(1)` | index out of bounds |
| C13 | `#define G(a, b, ...) __VA_ARGS__`, text `G(1)` | slice out of bounds |
| C13 | `#define U u8 ## "\xff"` | `unwrap` of a failed parse |
| C16, C49 | the token `a\u0401` | not an identifier, although `a ## \u0401` makes one |
| C18 | `#define S(x) #x`, `#define G(y) S(1 y)` | the pieces change places |
| C20 | parameters `a`, `/* c */`, `...` and body `__VA_ARGS__` | refers to argument 2 of 2 |
| C30 | `"\u00e9"`, `u8"\u00e9"` | the byte 0xE9; rejected |
| C33 | `volatile int volatile` | becomes `const int` |
| C34 | `long double` | becomes `f64`, which becomes `double` |
| C36 | `a && b` | rejected: no grammar rule has `&&` or `\|\|` |
| C38 | `*(volatile int *)16 -= 1` | prints an addition |
| C39 | `!x` with an `int` parameter | `fn(x: c_int) -> bool { !x }`, the bitwise complement |
| C43 | `#define M E = 1` for an enumeration variant `E` | exported as a constant |
| C44 | asm templates `a{` and `%%` | the brace is kept as it is; rejected |
| C50 | `08` | read as 8 |
| C52 | `"\x1"` | rejected |
| C53 | `U'\UFFFFFFFF'` | accepted |
| C53 | `u"\uD83D\uDE00"` | accepted, as the one character 😀 |
| C53 | every such name in `L"…"`, `U'…'`, `L'…'` | accepted |
| C54 | `#define X 1`, `CAT(y, X)` | gives `y1`, not `yX` |
| C56 | `u"a" "b"` | becomes bytes |
| C48 | `#define F(x) x ## 099999999999999999999999q` | accepted as `x ## 0`; the rest is dropped without an error |
| C57 | `#define F(arg) arg ## 2` | rejected, although it is the example in the documentation of `parse_concat_ident` |
| C47 | `sizeof(long unsigned int)` | read as a call of a function named `sizeof`; `sizeof(unsigned)` is of a type named `unsigned` |
| C35 | `p++[0]`, `s.f(1)` | rejected, although both are C (the source has a TODO for the second); outside the grammar of C35 |
| C35 | `(f)(x)` | read as a cast of `x` to the type `f`, never as a call |
| C40 | `#define F(x, y, z) (x) - y * z` | generates `($x - $y) * $z`: the cast binds tighter than `*` and is only afterwards turned into a subtraction |
| C40 | `#define F(x) (x) - 1` | generates `-1i8 as $x` |
| C58 | `#define F(x, y, z) (x) - (y) - (z)` | generates `$x - ($y - $z)`; even `x - (y) - (z)` does |
| C37 | `#define F(x, y) (int)x < y` | generates `$x as c_int < $y`; Rust reads `c_int < ...` as generic arguments and rejects it |
| C37 | `#define F(x, y, z) x - (int)y << z` | generates `$x - $y as c_int << $z`, rejected by Rust; the parentheses for casts before `<<` are only added when the whole left operand is a cast |
| C37 | `#define F(p) *(-1 + p)` | generates `*-1.add($p)`, which negates the result of `add` |
| C37 | `#define F(x, y, z) x ? (y ? x : z) + 1 : 0` | generates `if $x != 0 { if $y != 0 { $x } else { $z } + 1 } else { 0 }`; an `if` at the start of a block is a statement in Rust, so `+ 1` does not continue it |
| C37 | `#define F(x, y) x ? y++ + 1 : 0` | generates `if $x != 0 { { let prev = $y; $y += 1; prev } + 1 } else { 0 }`; the inner block is a statement, and `+ 1` is rejected |
| C37 | `#define F(x) *(*x)++` | generates `*{ let prev = *$x; *$x = *$x.add(1); prev }`, where `*$x.add(1)` is the pointer stored behind `*$x`, not `*$x` moved on by one |
| C37 | `#define F(x) +x` | generates `+ $x`; Rust has no unary plus |
| C37 | `#define F(x) *(volatile int *)8 += x << 1` | writes `read_volatile(...) + $x << 1`: the sum is shifted |
| C37 | `#define F() -__LINE__` | generates `- line!() as c_uint`: negates before it converts |
| C27 | `#define Z 1 / 0`, `#define R 7 % (2 - 2)` | `generate` panics: constant folding divides with `/` and `%` on `i128` |
| C27 | `#define S(...) #__VA_ARGS__` | `generate` panics: `Ident::new("...")` |
| C27 | `#define C(a, /* c */ ...) __VA_ARGS__` | `generate` panics: parameter 2 of 2 is looked up |
| C27 | `#define A(x, y, z) __asm__("" : "=r"(x), "=r"(y) : "1"(z))` | `generate` panics: input 1 of 1 is removed |
| C60 | `#define M() do { p = q; } while (c);`, `{ do f(); while (c); g(); }` | `InvalidMacroBody`: the semicolon after `while (c)` is never read |
| C60 | `#define M(x, p) if (x) -p` | read as a subtraction; generates `if(($x).into()) - $p` |
| C60 | `#define M(x, p) if (x) ; else p = 1;` | refused with `UnsupportedType`: there is no empty statement, `else p = 1` is read as a declaration |
| C61 | `#define M() do { if (e) continue; f(); } while (c)` | generates `loop { if e != 0 { continue ; } f () ; if c != 0 { continue } break }`: `continue` skips the test of `c`, so with `while (0)` the loop never ends |
| C62 | `#define SET() *next() = 1` | generates `{ * next () = 1 ; * next () }`: `next` is called twice |
| C62 | `#define INC(x) x++`, called as `INC(*f())` | generates `{ let prev = $x ; $x += 1 ; prev }`: the argument is evaluated twice |
| C62 | `#define NIL(x) (x *)0` | generates `ptr::null_mut()`: the parameter is dropped, and with it the type |
| C63 | `#define M 1U - 2` | generates -1; in C it is 4294967295 (unsigned arithmetic wraps around), likewise `-1U`, `0xFFFFFFFF + 1` |
| C64 | `#define SUM(x, y) x + y + x` with `x` a `c_uint` and `y` a `c_long` | generates a function returning `c_uint` with the body `x + y + x`, which does not compile: the type of `x + y` is dropped and that of the last operand taken |
| C64 | `#define LT(x, y) x < y` | generates a function returning `bool`; in C it is an `int` |
| C64 | `#define INC(x, z) ( x ? x : z ) + 1` with `unsigned int` parameters | generates a function with the body `if x != 0 { x } else { z } + 1`, which does not compile for the same reason |
| C64 | `#define TWICE(x) x + x` with `x` an `unsigned char` | generates a function returning `c_uchar`, which overflows for 200; C promotes the operands to `int` and gives 400 |
| C64 | `#define DIFF(x, z) x - z` with `unsigned int` parameters | the function panics (or, without overflow checks, wraps) where C wraps around |
| C64 | `#define SCALE(type, x) type * x` | generates a function with a parameter named `type`, a keyword, which does not compile |
| C65 | `#define ID(crate) crate` | generates a macro with the parameter `$crate : expr`, which Rust rejects |
| C66 | `#define SIZE(T) sizeof ( T )` | generates `mem::size_of::<$T>()` with `$T : expr`, which cannot be a type |
| C66 | `#define DECL(x) { int x = 1 ; }` | generates `let mut $x` with `$x : expr`, which cannot be a name |
| C66 | `#define FN(x) int f_ ## x ( int y )` | generates `concat_idents!(f_, $x)` with `$x : expr` (and a macro call as the name of a function) |
| C67 | `#define CLEAR(value) *(volatile int *)value = 0`, `value` an `int` | generates `{ let value = 0; ptr::write_volatile(value as *mut c_int, value); value }`, which writes to the address 0 |
| C67 | `#define SET(x) *(volatile int *)value = x` | generates `{ let value = $x; ptr::write_volatile(value as *mut c_int, value); value }`, which writes `x` to the address `x` |
| C67 | `#define NEXT(prev) prev++`, `prev` an `int` | generates `{ let prev = prev; prev += 1; prev }` |
| C68 | `#define M (unsigned char) 200 << 2` | generates `const M: c_uchar = (200u8 as c_uchar) << 2`, which is 32; in C the value is 800 |
| C68 | `#define M (long) 5 + (int) 2` | generates `5u8 as c_long + 2u8 as c_int` without a type |
| C68 | `#define M (unsigned long) ~0U` | generates `!0 as c_ulong`, which is 18446744073709551615; in C the value is 4294967295 |
| C71 | a parameter declared as `Option<extern "C" fn()>` in the context | the generated function has a parameter of the type `Option`: generic arguments are dropped |
| C71 | a parameter declared as `*mut ()`, `f128` or `<S as T>::Item` | the types become `*mut c_void`, `f64` and `T::Item` |
| C72 | `#define F(x) f(x, x)` with `int f(int, long)` | generates `fn F(mut x: c_int) -> c_int { f(x, x) }`, which does not compile |
| C73 | `#define F(x) (int) f(x)` with `int f(int, int)` and an `int` parameter | generates `fn F(mut x: c_int) -> c_int { f(x) as c_int }`, which does not compile |
| C73 | `#define F(x) (int) x(1)` with an `int` parameter | generates `fn F(mut x: c_int) -> c_int { x(1) as c_int }`, which does not compile |
| C74 | `#define NEXT(x) x++` with an `int` parameter | generates `fn NEXT(mut x: c_int) -> c_int { { let prev = x; x += 1; prev } }`: it changes a copy, and the variable of the caller stays as it was |
| C74 | `#define ADDR(x) &x` with an `int` parameter | generates `fn ADDR(mut x: c_int) -> *mut c_int { ptr::addr_of_mut!(x) }`: it returns the address of a copy, which is gone when the function returns |
| C75 | `314f`, given as an example in the documentation of `LitFloat`; `0x1p3` | not read as floating literals (the first is none in C either); macros with them are not parsed |
| C76 | `#define X 16777217 + 0.5` | generates `16777216.5`: an integer operand is converted to `f32` first, also if the other one is a `double` (the test for the range of `f32` is always true) |
| C76 | `#define X 2U * 1.5` | generates `const X: f64 = 2 * 1.5`, which does not compile: an integer with a suffix is not converted |
| C77 | `#define NOP() __asm__("nop")` | is read as a call of a function named `__asm__` |
| C77 | `#define USE(x) __asm__("" : : "i"(x))` | the operand is read as a register, although the constraint allows constants only |
| C77 | `__asm__ __volatile__ (…)`, `"=&r"`, `"=a"`, `%%` | not accepted; the first is the usual spelling in headers |
| C77 | `%b0`, `%[name]` | operand modifiers are kept as if they were registers (`%b0`); names of operands are not accepted |
| C78 | `__asm__("inc %0" : "=r"(a) : "0"(b))` | generates `inout(reg) a`: `b` is never read |
| C78 | `__asm__("add %1, %0" : "=r"(a) : "r"(b), "0"(a))` | generates `inout(reg) a, in(0) a`: the input with the number of the output is removed, and not the input with the matching constraint |
| C78 | `__asm__("mov %1, %0" : "=r"(a) : "0"(a))` | generates `"mov {1}, {0}"` with one operand |
| C78 | `__asm__("" : "+r"(a))` | generates `asm!("", inout(reg) a, …)`; `asm!` does not accept operands that the template does not use (not proved, this is a rule of the Rust Reference) |
| C79 | `__asm__("mov %1, %0" : "=r"(a) : "r"(b))` | generated without `att_syntax`: it is taken as Intel syntax, where `mov` has its operands the other way round |
| C79 | `__asm__("add $1, %0" : "+r"(a))`, also the example in the documentation of `Asm` | generated with `preserves_flags`, although `add` changes the flags and C needs no `"cc"` on x86 |
| C80 | `#define A 'a'`, generated twice | `'a' as c_char`, then `'a' as c_char as c_char` |
| C80 | `#define T() !0`, generated twice | a function returning `bool` (with the body `1`), then a macro |
| C80 | `#define S() sizeof(my_t)`, generated twice, in a context that resolves `my_t` to `MyT` only | code, then the error that the type `MyT` is not supported |
| C81 | `#define N(x) (my_t) -x` in a context that resolves `my_t` to `MyT` only | `MyT - $x`, a difference with a type: `treat_as_binop` asks the context about the name that `finish` has already replaced |
| C82 | `#define A 1 /* one */` | error; without the comment `1` |
| C82 | `(int) /* c */ 1`, `(unsigned /* c */ int) 1` | errors; without the comments casts |
| C82 | `sizeof /* c */ (int)` | read as a call of a function named `sizeof` |
| C82 | `(A) /* c */ - B` | a difference; without the comment a cast of `-B` to `A` |
| C83 | `'a'` | `'a' as c_char`, of the type `c_char`; in C the type is `int` |
| C83 | `'\x7f' + 1` | a sum of the type `c_char`, too small for 128 where it is signed; in C 128 |
| C85 | `#define KIND(p) p->type` | `(*$p).type`, which is not Rust (`type` is a keyword) |
| C86 | `#define f 1 + f`, `#define CAT(x, y) x ## y`, `#define G(x) CAT(x,)`: `G(f)` | `1 + 1 + f`; `##` with an empty operand makes the marked `f` replaceable again, C gives `1 + f` |
| C87 | `#define M !0` | the value `1` with the type `bool`, which Rust rejects; folding gives a number where the type is `bool` |
| C87 | `#define M ((int)1 << (long)2 * 1) << (char)3` | declared `c_char`; the expression is a `c_int`, and C says `int` |
| C87 | `#define M 1.5f * (double)2 * 2.5f` | declared `f32`; the expression can only be an `f64` |
| C87 | `#define M -(unsigned int)1` | `-(1u8 as c_uint)`, which Rust rejects |
| C88 | `#define SUM(x, y) x + y + x`, `x` an `unsigned int`, `y` a `long` | the macro `$x + $y + $x`, which Rust rejects; C converts the operands |
| C88 | `#define TWICE(x) x + x`, `x` the `unsigned char` 200 | `$x + $x` overflows; 400 in C |
| C68, C96 | `#define M __SCHAR_MAX__ * 3` | `c_schar::MAX as c_uchar * 3` of the type `c_uchar`, an overflow; the `int` 381 in C |
| C68, C96 | `#define M __INT_MAX__ + 0` | `c_int::MAX as c_uint + 0` of the type `c_uint`; an `int` in C |
| C68, C96 | `#define M __INT_MAX__ + -1` | `c_int::MAX as c_uint + -1`, which Rust rejects |
| C37, C96 | `#define M 2U * __INT_MAX__ < 5` | `2 * c_int::MAX as c_uint < 5`, which Rust reads as the beginning of generic arguments and rejects |
| C60, C97 | `#define M() int f(void);` | refused with `InvalidMacroBody`; so are parameters without a name |
| C97 | `#define M() void f();` | `extern "C" { pub fn f() -> c_void; }` |
| C97 | `#define M() int * f()` | the product `int * f()` |
| C97 | `#define M() static int f(int a);` | `extern "C" { pub fn f(a: c_int) -> c_int; }`, although no other file can call `f` |
| C98 | `#define Z(x) *x++ = 0` | generates `{ *{ let prev = $x; $x = $x.add(1); prev } = 0; *{ let prev = $x; $x = $x.add(1); prev } }`: the pointer moves twice |
| C98 | `#define M(x, y) y = (x *= 2)` | generates `{ $y = ($x) *= (2); $y }`, which assigns `()` |
| C98 | `#define M() prev++` | generates `{ let prev = prev; prev += 1; prev }`, which tries to change the copy |
| C99 | `#define OFFSET(T, m) __builtin_offsetof(T, m)` | generates `mem::offsetof!($T, $m)`; the macro of Rust is `core::mem::offset_of!` |
| C99 | `#define OFFSET(m) __builtin_offsetof(point_t, m)`, where `point_t` is `geo::Point` | mentions `point_t`, not `geo::Point` |
| C100 | `#define P(x) (const char *) x` | casts to `*mut c_char`; the const of the target is lost |
| C100 | `#define P(x) (char * const) x` | casts to `*const c_char`, although the target may be changed |
| C100 | `#define DECL(f) const char * f(const char * s);` | declares a function from `*mut c_char` to `*mut c_char` |
| C102 | `"\x414"` | the bytes 0x41 and `4`; in C one escape, out of range |
| C102 | `"\400"` | accepted, as the UTF-8 encoding of U+0100 |
| C102 | `"\X41"` | accepted, as `A` |
| C108 | `#define F(x) x`, `F /* c */ (1)` | `F /* c */ (1)`, not a call; in C `1` |
| C108 | `#define F() 7`, `F(/* none */)` | FnMacroArgumentError (0 required, 1 given); in C `7` |
| C108 | `#define S(x) # /* c */ x` | StringifyNonArgument; in C the same as `# x` |
| C110 | `#define MINUS(a, b) a - b`, `#define BACK MINUS(1U, 2)` | the constant -1; in C 4294967295 (as C63) |
| C111 | `#define N y` changed to `#define N (y)`, `#define M N + 1` | `M` becomes a conversion of `+1` to the type `y`; in C it stays `y + 1` (as C40) |

## Axioms of each theorem

From `#print axioms` in `lean/Verif/Axioms.lean`.

`propext`: C03_false, C07_false, C07_loop_never_returns, C112_restriction_needed, C113_restriction_needed, C114_restriction_needed, C13_false, C13_panics, C20_false, C30_u8_false, C33_false, C34_false, C34_roundtrip_partial, C37_false_block, C37_false_deref, C37_false_if, C37_false_step, C37_unary_plus, C46_paste, C54_false, C70_restriction_needed, C98_steady.

`propext, Classical.choice, Quot.sound`: C01_never_both_kinds, C02_last_definition_wins, C02_last_definition_wins_fn, C02_other_names_untouched, C02_store_refines_table, C03_equal_length_partial, C03_redefinition_report_partial, C04_undefine_reports, C04_undefine_twice, C05_definition_order, C05_only_definitions_matter, C06_fn_not_found, C06_var_not_found, C07_defined_macros_terminate_partial, C07_nested_calls_terminate_partial, C07_var_macros_terminate_partial, C08_expand_var_macro_is_textbook, C08_var_expansion_is_textbook, C09_own_definition_not_consulted, C100_exact, C100_false, C100_false_decl, C100_own, C100_partial, C101_pointer_constants, C102_chars, C102_strings, C103_integers, C104_tokens, C105_expand, C105_expand_fn, C105_expand_var, C106, C107, C107_expands, C107_objects, C108_fn_partial, C108_objects_partial, C108_partial, C108_var_partial, C109, C109_constant, C109_fn, C109_fn_value, C109_function, C109_levels_needed, C109_value, C10_no_macro_name_survives, C110_false, C110_partial, C111_false, C111_fn_partial, C111_partial, C112_code, C112_code_variadic, C112_const, C112_fn, C112_fn_nested, C112_var, C112_variadic, C113_code_fn, C113_code_var, C113_fn, C113_text, C113_var, C114_code_fn, C114_code_var, C114_fn, C114_text, C114_total, C114_var, C11_c_text_unchanged, C11_inert_text_unchanged, C12_error_is_true, C12_wrong_count_rejected_partial, C13_no_panic_with_paste_partial, C13_no_panic_without_paste_partial, C14_call_substitutes, C14_nested_calls, C15_collect_args, C15_ith_argument, C15_no_argument_list, C16_call_joins_arguments, C16_paste_joins_spellings_partial, C17_paste_at_end, C17_paste_at_start, C18_spells_argument_partial, C19_duplicate_named, C19_invalid_list_rejected, C20_parameters_numbered, C20_references_in_range_partial, C22_variadic_call, C24_overflow_rejected, C24_value, C25_suffixes_exact, C26_folding_exact, C26_folding_exact_fn, C27_false, C27_fn_partial, C27_harmless_partial, C27_panics, C27_var_partial, C28_cast_literal, C28_cast_literal_fn, C29_bytes, C29_octal_round_trip, C30_utf8_partial, C31_exact, C31_range, C32_string_constants, C32_string_pointers, C35_fn_grammar, C35_grammar, C35_round_trip, C35_unambiguous, C35_var_grammar, C36_false, C36_logical_rejected_partial, C37_block_partial, C37_one_tree_partial, C37_partial, C38_false, C38_volatile_assign_partial, C38_volatile_step, C39_logical_not_partial, C40_false, C40_false_constant, C40_names_partial, C41_function_only_if_typed, C42_no_metavariables, C43_constants_partial, C44_false, C44_templates_partial, C45_parameters_reach_parse, C47_exact, C47_false, C47_iff_partial, C47_never_wrong, C47_sign_first_partial, C48_depth_never_matters, C48_false, C48_no_truncation, C48_nothing_lost_partial, C49_exact, C49_universal_names_partial, C50_bad_octal_rejected_partial, C51_unicode_strings, C51_wide_strings, C52_two_digit_hex_partial, C53_bad_names_partial, C53_char_exact, C53_chars_false, C53_chars_partial, C53_u_strings_partial, C53_wide_false, C54_operands_kept_partial, C55_codegen_terminates, C57_false, C57_literal_rejected, C57_paste_name_partial, C58_false, C58_partial, C58_right_nested, C59_constant_has_c_value, C60_false, C60_false_if, C60_false_nested, C60_partial, C60_var_partial, C61_partial, C62_partial, C63_false, C63_no_wrap_partial, C63_signed_partial, C63_text_partial, C64_bool_partial, C64_false_if, C64_partial, C64_text_partial, C64_total_bool_partial, C64_total_partial, C65_partial, C66_partial, C67_partial, C68_bool_partial, C68_false_suffix, C68_partial, C68_text_partial, C69_fn_expansion, C70_call_composes, C71_partial, C72_only_known, C72_partial, C72_unit_partial, C73_partial, C74_partial, C75_float_constants, C76_false, C76_false_suffix, C76_partial, C76_text_partial, C77_false, C77_false_immediate, C77_false_volatile, C77_partial, C78_partial, C78_same_partial, C79_false, C79_false_flags, C79_partial, C80_partial, C82_false, C82_false_places, C82_false_tree, C82_partial, C82_read_partial, C83_partial, C83_text_partial, C84_fn, C84_var, C85_partial, C85_var_partial, C86_paste_expands_partial, C86_paste_var_partial, C87_const_partial, C87_fn_partial, C87_fn_value_partial, C87_value_partial, C88_bool_partial, C88_partial, C88_text_partial, C88_total_partial, C89, C89_fn, C90, C90_step, C91_fn, C91_var, C92, C92_constants, C93, C93_elsewhere, C94, C94_macro, C95_macro, C96_limits, C96_text, C97_false, C97_false_product, C97_false_void, C97_partial, C97_static, C97_void, C98_effect, C98_partial, C99_false, C99_false_param, C99_false_type, C99_fn_partial, C99_offset_partial, C99_partial.

`propext, Quot.sound`: C06_expand_never_not_found, C108_false, C108_false_empty, C108_false_stringify, C12_false, C15_split_unique, C16_false, C18_false, C21_no_argument_references, C23_identifiers_exact, C30_false, C33_qualifiers_partial, C37_false, C37_false_shift, C39_false, C43_false, C46_punctuators, C49_false, C50_false, C52_false, C53_false, C53_u_strings_false, C55_codegen_deterministic, C56_adjacent_literals_partial, C56_false, C61_false, C62_false, C64_false, C64_false_bool, C64_false_keyword, C64_false_promote, C64_false_wrap, C65_false, C66_false, C67_false, C67_false_global, C67_false_prev, C68_false, C68_false_limit, C68_false_mixed, C71_false, C71_false_f128, C71_false_self, C71_false_unit, C72_false, C73_false, C73_false_param, C74_false, C74_false_address, C78_false, C78_false_number, C78_false_removed, C80_false, C80_false_not, C80_false_type, C81_false, C81_partial, C83_false, C83_false_sum, C85_false, C86_false, C86_false_marked, C87_false, C87_false_float, C87_false_neg, C87_false_shift, C88_false, C88_false_bool, C88_false_promote, C88_false_wrap, C95, C95_var, C98_false, C98_false_prev, C98_false_unit.
