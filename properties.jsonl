{"id": "C01", "title": "A name is never a variable-like and a function-like macro at once", "statement": "After any sequence of define_var_macro / define_fn_macro / undefine_var_macro / undefine_fn_macro calls on a new MacroSet, for every name at least one of expand_var_macro(name) and expand_fn_macro(name) answers MacroNotFound.", "quantifier": "every finite history of define/undefine calls, every name", "why_tests_cant": "Tests exercise a handful of two- or three-step histories; the claim is an invariant of every reachable state.", "anchors": ["src/macro_set/mod.rs: MacroSet::define_var_macro, define_fn_macro, undefine_var_macro, undefine_fn_macro, expand_var_macro, expand_fn_macro"]}
{"id": "C02", "title": "The latest definition of a name wins and other names are untouched", "statement": "What a MacroSet knows about a name after a history of calls is exactly what an ordinary map from names to definitions would hold: a define call replaces whatever the name meant before, undefine_var_macro removes it only if it is variable-like, undefine_fn_macro only if it is function-like, and no call changes any other name.", "quantifier": "every finite history, every name, every body and parameter list", "why_tests_cant": "Refinement to an abstract map quantifies over all interleavings of calls on all names.", "anchors": ["src/macro_set/mod.rs: MacroSet::{define_var_macro,define_fn_macro,undefine_var_macro,undefine_fn_macro}"]}
{"id": "C03", "title": "define_* reports a redefinition exactly when the definition changed", "statement": "define_var_macro / define_fn_macro return true exactly when the name was already defined and the new definition differs from the old one (other kind of macro, or a different sequence of parameter or body tokens once blank tokens and comments are ignored).", "quantifier": "every macro set, name, old definition and new definition", "why_tests_cant": "Requires comparing all pairs of token sequences, including ones that are prefixes of each other.", "anchors": ["src/macro_set/mod.rs: define_var_macro, define_fn_macro, is_whitespace, is_comment"]}
{"id": "C04", "title": "undefine_* reports whether it removed something", "statement": "undefine_var_macro(name) returns true exactly when the name was defined as a variable-like macro in the history so far (and not replaced or removed since); same for undefine_fn_macro; a second identical call returns false.", "quantifier": "every history, every name", "why_tests_cant": "Quantifies over all histories.", "anchors": ["src/macro_set/mod.rs: undefine_var_macro, undefine_fn_macro"]}
{"id": "C05", "title": "Expansion depends only on the final set of definitions", "statement": "If two histories of define/undefine calls leave every name with the same definition, then expand, expand_var_macro and expand_fn_macro give identical results on both sets: the order in which macros were defined does not matter.", "quantifier": "every pair of histories with the same final definitions, every input", "why_tests_cant": "Relational property over pairs of arbitrary histories.", "anchors": ["src/macro_set/mod.rs: MacroSet::{expand,expand_var_macro,expand_fn_macro}"]}
{"id": "C06", "title": "Expanding a macro that is not defined is reported as MacroNotFound and nothing else is", "statement": "expand_var_macro(name) returns MacroNotFound exactly when name is not currently a variable-like macro, expand_fn_macro(name) exactly when name is not currently a function-like macro, and expand never returns MacroNotFound.", "quantifier": "every macro set, name and input", "why_tests_cant": "The 'nothing else is' half quantifies over every failing expansion.", "anchors": ["src/macro_set/mod.rs: expand_var_macro, expand_fn_macro, expand"]}
{"id": "C07", "title": "Expansion terminates", "statement": "expand, expand_var_macro and expand_fn_macro return (a result or an error) for every macro set and input; self-referential and mutually recursive macros do not make expansion run forever.", "quantifier": "every macro set, every input token sequence", "why_tests_cant": "Non-termination cannot be excluded by running finitely many inputs.", "anchors": ["src/macro_set/mod.rs: expand_macro_body, expand_fn_macro_body, expand_var_macro_body, collect_args"]}
{"id": "C08", "title": "Variable-like macros expand to the textbook result", "statement": "With only variable-like macros defined and no paste operator in the bodies, expansion of a token sequence replaces each macro name by the expansion of its body, except that a name is left alone inside its own expansion.", "quantifier": "every set of variable-like macros (cyclic or not), every input", "why_tests_cant": "Universal over macro graphs, including cyclic ones.", "anchors": ["src/macro_set/mod.rs: expand_macro_body, expand_var_macro_body, expand"]}
{"id": "C09", "title": "A macro is never replaced inside its own expansion", "statement": "While a macro is being expanded its own definition is not consulted again: expand_var_macro(n) gives the same result as expanding n's body in the macro set with n undefined.", "quantifier": "every macro set, every variable-like macro n", "why_tests_cant": "Relational property over two macro sets and all macro graphs.", "anchors": ["src/macro_set/mod.rs: expand_macro_body, expand_var_macro_body, Token::NonReplacable"]}
{"id": "C10", "title": "No expandable name survives expansion", "statement": "With only variable-like, acyclic macros defined (no macro reaches itself through bodies) and no paste operators, the result of expand contains no identifier that names a defined macro.", "quantifier": "every acyclic set of variable-like macros, every input", "why_tests_cant": "Universal over macro graphs of any depth.", "anchors": ["src/macro_set/mod.rs: expand, expand_macro_body"]}
{"id": "C11", "title": "Text without macro names is returned unchanged", "statement": "If no identifier in the input is the name of a variable-like macro, no function-like macro name is directly followed by `(`, and the input has no `##`, then expand returns exactly the tokens given (each parsed on its own), in order; in particular a function-like macro name not followed by `(` is left alone.", "quantifier": "every macro set, every such input", "why_tests_cant": "Universal over inputs and macro sets.", "anchors": ["src/macro_set/mod.rs: expand, expand_macro_body, tokenize, detokenize"]}
{"id": "C12", "title": "Calls with the wrong number of arguments are rejected", "statement": "A call of a non-variadic function-like macro whose argument list has a different number of comma-separated arguments than the macro has parameters (counting an empty list as zero arguments for a parameterless macro) makes expansion fail with FnMacroArgumentError carrying the required and given counts; a call with the right number never gives that error.", "quantifier": "every non-variadic macro, every argument list", "why_tests_cant": "Universal over arities and argument lists.", "anchors": ["src/macro_set/mod.rs: expand_fn_macro_body"]}
{"id": "C13", "title": "Expansion never panics", "statement": "expand, expand_var_macro and expand_fn_macro return Ok or Err on every macro set and input; they never index out of bounds, hit unreachable!() or unwrap a parse failure.", "quantifier": "every macro set, every input", "why_tests_cant": "Absence of panics over an unbounded input space.", "anchors": ["src/macro_set/mod.rs: expand_arguments, Token::concat, Token::detokenize"]}
{"id": "C14", "title": "Calls substitute arguments for parameters", "statement": "For a function-like macro with distinct parameters whose body and arguments contain no #, ##, and no macro names, expanding a call yields the body with every parameter replaced simultaneously by the corresponding argument's tokens and everything else unchanged.", "quantifier": "every such macro, every argument list of matching length, every surrounding text free of macro names", "why_tests_cant": "Universal over bodies, parameter lists and arguments.", "anchors": ["src/macro_set/mod.rs: expand_arguments, expand_fn_macro_body, collect_args"]}
{"id": "C15", "title": "Argument lists are split at top-level commas only", "statement": "The arguments of a call are the maximal comma-free-at-top-level pieces of the text up to the matching closing parenthesis: joining the arguments with commas and closing with `)` reproduces the consumed text, commas nested in (), [] or {} never split, and the text after the matching `)` is left untouched.", "quantifier": "every token sequence", "why_tests_cant": "Universal over nesting depth and length.", "anchors": ["src/macro_set/mod.rs: collect_args"]}
{"id": "C16", "title": "Pasting concatenates spellings", "statement": "Whenever `##` succeeds on two tokens, the spelling of the resulting token is the concatenation of the spellings of the two operands (an empty argument contributes nothing).", "quantifier": "every pair of tokens", "why_tests_cant": "Universal over spellings.", "anchors": ["src/macro_set/mod.rs: Token::concat, expand_concat", "src/ast/punctuation.rs: Punctuation::concat"]}
{"id": "C17", "title": "A macro body may not start or end with ##", "statement": "A variable-like macro whose body (ignoring comments) starts with `##` fails with ConcatBegin, and one that ends with `##` (and does not start with it) never expands successfully.", "quantifier": "every body", "why_tests_cant": "Universal over bodies.", "anchors": ["src/macro_set/mod.rs: expand_concat"]}
{"id": "C18", "title": "Stringification spells the argument", "statement": "`#param` applied to an argument made of ordinary tokens yields one ordinary string literal whose characters, blanks aside, are the concatenated spellings of the argument's tokens in order with comments dropped; an empty argument yields the empty string. When an argument still contains parameters of an enclosing macro, the relative order of the pieces is preserved.", "quantifier": "every argument token sequence", "why_tests_cant": "Universal over arguments.", "anchors": ["src/macro_set/mod.rs: stringify, Token::stringify, expand_arguments"]}
{"id": "C19", "title": "Parameter lists are validated", "statement": "expand_fn_macro succeeds only if the parameter list (comments aside) consists of distinct identifiers optionally followed by a single final `...`; a duplicate identifier gives NonUniqueArgument, anything else gives InvalidArgumentName or NonUniqueArgument(...).", "quantifier": "every parameter list", "why_tests_cant": "Universal over lists.", "anchors": ["src/macro_set/mod.rs: tokenize_arg_names, expand_fn_macro"]}
{"id": "C20", "title": "Every argument reference in an expanded function-like macro is in range and means the right parameter", "statement": "In the result (args, body) of expand_fn_macro, every MacroToken::Arg in body has an index smaller than the number of non-comment entries of args, and an occurrence of parameter p in a body free of other macros becomes the index of p in that list (with __VA_ARGS__ mapped to the final `...`).", "quantifier": "every macro set and function-like macro", "why_tests_cant": "Universal; FnMacro::generate indexes with these values and would panic.", "anchors": ["src/macro_set/mod.rs: tokenize, Token::detokenize, expand_fn_macro", "src/fn_macro.rs: FnMacro::parse_args", "src/context.rs: arg_type_mut"]}
{"id": "C21", "title": "Variable-like expansions never contain argument references", "statement": "No token returned by expand_var_macro or expand is MacroToken::Arg, whatever function-like macros are called along the way.", "quantifier": "every macro set and input", "why_tests_cant": "Invariant over all nested expansions; VarMacro::generate would panic otherwise.", "anchors": ["src/macro_set/mod.rs: expand_var_macro, expand, expand_arguments, Token::detokenize"]}
{"id": "C22", "title": "Variadic calls bind the remaining arguments", "statement": "In a call of a variadic macro with n named parameters and at least n arguments, __VA_ARGS__ stands for all arguments after the n-th, joined by commas in order.", "quantifier": "every variadic macro and argument list", "why_tests_cant": "Universal over argument counts.", "anchors": ["src/macro_set/mod.rs: expand_arguments"]}
{"id": "C23", "title": "Identifiers are recognised exactly", "statement": "A token without backslashes is an Identifier exactly when its first character is `_` or XID_Start and all others are XID_Continue; the identifier's text is the token.", "quantifier": "every string", "why_tests_cant": "Universal over strings.", "anchors": ["src/ast/identifier.rs: is_identifier, Identifier::parse_str, Identifier::try_from"]}
{"id": "C24", "title": "Integer literals denote their mathematical value", "statement": "A token made of decimal digits not starting with 0, of 0x/0X and hex digits, of 0b/0B and binary digits, or of 0 and octal digits, parses as a LitInt whose value is the positional value of the digits in base 10, 16, 2, 8, provided it is below 2^127; from 2^127 on it is rejected rather than wrapped.", "quantifier": "every digit string of any length", "why_tests_cant": "Unbounded length; overflow boundary.", "anchors": ["src/ast/literal/int.rs: LitInt::parse_str, parse_i128", "src/ast/literal.rs: Lit::try_from"]}
{"id": "C25", "title": "Integer suffixes select the C type, case-insensitively", "statement": "An integer literal may be followed by u, l, ll, z and their combinations with u on either side in C's letter cases (ll or LL, not lL); the resulting suffix type does not depend on case or order, and any other trailing text makes the token not an integer literal.", "quantifier": "every digit string and every suffix string", "why_tests_cant": "Universal over suffix strings.", "anchors": ["src/ast/literal/int.rs: parse_suffix, parse_str"]}
{"id": "C26", "title": "Constant folding of integer arithmetic is exact", "statement": "When a variable-like macro is an arithmetic expression over integer literals, the folded constant equals the C value whenever every intermediate result fits in the i128 accumulator: +,-,* are exact, / and % truncate towards zero, &,|,^ act on two's complement, << and >> scale by powers of two for shift counts 0..127.", "quantifier": "every expression tree over integer literals", "why_tests_cant": "Universal over expressions and values.", "anchors": ["src/ast/literal/int.rs: Add, Sub, Mul, Div, Rem, Shl, Shr, BitAnd, BitOr, BitXor, Neg for LitInt", "src/ast/binary_expr.rs: BinaryExpr::finish", "src/ast/expr.rs: Expr::finish"]}
{"id": "C27", "title": "Code generation never panics", "statement": "VarMacro::generate and FnMacro::generate return Ok or Err for every macro obtained from a MacroSet expansion; in particular constant folding does not panic.", "quantifier": "every macro body", "why_tests_cant": "Absence of panics over all bodies.", "anchors": ["src/ast/literal/int.rs: Div, Rem for LitInt", "src/ast/asm.rs: Asm::to_tokens", "src/var_macro.rs: generate", "src/fn_macro.rs: generate"]}
{"id": "C28", "title": "Emitted integer literals keep their value", "statement": "When a cast of an integer literal is generated, the literal is written with a type that can represent it: the emitted typed literal denotes the same number for every i128 value.", "quantifier": "every i128 value", "why_tests_cant": "2^128 values.", "anchors": ["src/ast/cast.rs: Cast::to_tokens"]}
{"id": "C29", "title": "String literals decode escapes losslessly", "statement": "Writing any byte string as an ordinary C string literal with three-digit octal escapes (or two-digit hex escapes) and parsing it yields exactly those bytes.", "quantifier": "every byte string", "why_tests_cant": "Round-trip over all byte strings.", "anchors": ["src/ast/literal/string.rs: LitString::parse_str, parse_ordinary", "src/ast/literal.rs: escaped_char"]}
{"id": "C30", "title": "Universal character names are encoded as UTF-8", "statement": "In an ordinary or u8 string literal, \\uXXXX / \\UXXXXXXXX naming a Unicode scalar value c contributes the UTF-8 encoding of c.", "quantifier": "every scalar value", "why_tests_cant": "About 1.1 million code points; the failing band is narrow.", "anchors": ["src/ast/literal/string.rs: parse_ordinary, parse_utf8", "src/ast/literal.rs: universal_char"]}
{"id": "C31", "title": "Character literals respect their prefix's range", "statement": "Whenever a prefixed character literal is accepted its value fits the prefix: u8 at most 0x7f, u at most 0xffff, U and L any scalar; the value is the character written.", "quantifier": "every character literal", "why_tests_cant": "Universal over characters and escapes.", "anchors": ["src/ast/literal/char.rs: LitChar::with_prefix, parse_str"]}
{"id": "C32", "title": "CStr constants are well formed", "statement": "Code generation emits CStr::from_bytes_with_nul_unchecked for a string only when the byte array it passes ends with NUL and has no NUL before the end; every string constant is emitted with exactly one terminating NUL appended to the literal's own units.", "quantifier": "every string literal, every context configuration", "why_tests_cant": "A violation is undefined behaviour in user code; universal over contents.", "anchors": ["src/ast/literal/string.rs: LitString::to_token_stream"]}
{"id": "C33", "title": "Type qualifiers accumulate", "statement": "Merging qualifiers keeps every const and volatile given: the merged qualifier is const iff either was, volatile iff either was.", "quantifier": "every pair of qualifiers", "why_tests_cant": "Small table, but it decides whether volatile accesses are emitted; no test covers repeated qualifiers.", "anchors": ["src/ast/ty.rs: TypeQualifier::or, Type::qualify"]}
{"id": "C34", "title": "Built-in C types map to Rust types and back", "statement": "Type::to_rust_ty followed by from_rust_ty (no ffi prefix configured) returns the same type for every pointer/qualifier nesting over built-in types.", "quantifier": "every type built from built-in types by pointers", "why_tests_cant": "Universal over pointer depth.", "anchors": ["src/ast/ty.rs: BuiltInType::{from_rust_ty,to_rust_ty}, Type::{from_rust_ty,to_rust_ty}"]}
{"id": "C35", "title": "Expressions parse with C precedence and associativity", "statement": "Printing an arithmetic expression tree with C's minimal parentheses and parsing it gives the tree back: * / % bind tighter than + -, then << >>, then < <= > >=, then == !=, then &, then ^, then |, all left associative; ?: and assignment associate to the right.", "quantifier": "every expression tree over identifiers and literals", "why_tests_cant": "Round-trip over unbounded trees.", "anchors": ["src/ast/expr.rs: Expr::parse, parse_term_prec1..prec14", "src/ast/binary_expr.rs: BinaryOp"]}
{"id": "C36", "title": "Logical operators are understood", "statement": "A body of the form `a && b` or `a || b` over identifiers parses as the corresponding binary expression.", "quantifier": "every pair of operands", "why_tests_cant": "Checks the whole grammar rather than samples.", "anchors": ["src/ast/expr.rs: parse_term_prec10, parse_term_prec13", "src/ast/binary_expr.rs: BinaryOp::{And,Or}"]}
{"id": "C37", "title": "Generated Rust expressions keep the grouping of the C expression", "statement": "Parsing the emitted Rust tokens with Rust's operator precedence yields the expression tree that was printed: parentheses are inserted wherever Rust's precedence would otherwise regroup operands.", "quantifier": "every expression tree over binary, unary and cast operators and conditional expressions", "why_tests_cant": "Round-trip over unbounded trees.", "anchors": ["src/ast/expr.rs: Expr::precedence, to_tokens", "src/ast/binary_expr.rs: BinaryOp::precedence, BinaryExpr::to_token_stream", "src/ast/unary_expr.rs: to_tokens", "src/ast/cast.rs: to_tokens"]}
{"id": "C38", "title": "Compound assignment through a volatile pointer applies its own operator", "statement": "For `*p op= e` with p a pointer to volatile, the generated code writes the value of `read op e` for each op in + - & ^ |. `++` and `--` write the value read plus or minus one, and yield the value written or, as suffixes, the value read.", "quantifier": "every compound assignment operator and operand", "why_tests_cant": "Only += is tested.", "anchors": ["src/ast/binary_expr.rs: BinaryExpr::to_token_stream"]}
{"id": "C39", "title": "Logical negation yields 0 or 1", "statement": "The Rust code generated for `!e` denotes logical negation (e == 0), not bitwise complement, for integer operands.", "quantifier": "every integer-typed operand", "why_tests_cant": "Universal over operand expressions.", "anchors": ["src/ast/unary_expr.rs: UnaryExpr::finish", "src/ast/expr.rs: Expr::finish"]}
{"id": "C40", "title": "A parenthesised argument followed by an operator is arithmetic, not a cast", "statement": "For a function-like macro parameter x that is used as a value, `(x) + e`, `(x) - e`, `(x) * e`, `(x) & e` generate the binary operation on x and e.", "quantifier": "every operand e", "why_tests_cant": "The ambiguity is resolved after constant folding, so it depends on e.", "anchors": ["src/ast/expr.rs: Expr::finish (Cast arm)", "src/ast/cast.rs"]}
{"id": "C41", "title": "A macro is exported as a Rust function only when all its types are known", "statement": "FnMacro::generate emits an `extern \"C\" fn` only if the macro is not variadic, every parameter has a known Rust type and a return type was derived; otherwise it emits macro_rules!.", "quantifier": "every macro body and context", "why_tests_cant": "Decision logic over all bodies.", "anchors": ["src/fn_macro.rs: FnMacro::generate"]}
{"id": "C42", "title": "Generated functions contain no macro metavariables", "statement": "If FnMacro::generate emits a function, no `$` token occurs in it.", "quantifier": "every macro body and context", "why_tests_cant": "Invariant relating type inference and printing.", "anchors": ["src/fn_macro.rs: generate", "src/ast/macro_arg.rs", "src/ast/stringify.rs", "src/ast/identifier_expr.rs"]}
{"id": "C43", "title": "Constants are generated only for constant expressions", "statement": "VarMacro::generate succeeds only for expressions that call no function, dereference no pointer, assign nothing, and mention no identifier unknown to the context.", "quantifier": "every variable-like macro body and context", "why_tests_cant": "Universal over bodies.", "anchors": ["src/var_macro.rs: VarMacro::generate", "src/ast/var.rs: Var::finish", "src/ast/function_call.rs: finish"]}
{"id": "C44", "title": "Asm templates escape braces", "statement": "Every `{` or `}` in a C asm template is doubled in the Rust asm! template, since single braces delimit operands there; %N becomes {N}.", "quantifier": "every template string", "why_tests_cant": "Universal over strings.", "anchors": ["src/ast/asm.rs: parse_template"]}
{"id": "C45", "title": "FnMacro::parse accepts the parameter list produced by expand_fn_macro", "statement": "Whenever expand_fn_macro succeeds with (args, body), parsing args in FnMacro::parse succeeds and yields the parameter names in order (with `...` last if variadic), comments removed.", "quantifier": "every macro set and function-like macro", "why_tests_cant": "Composition of two components over all parameter lists.", "anchors": ["src/fn_macro.rs: FnMacro::parse_args", "src/macro_set/mod.rs: expand_fn_macro"]}
{"id": "C46", "title": "Punctuator pasting is exactly the set of C punctuators", "statement": "Pasting two punctuators succeeds exactly when the concatenated spelling is again a punctuator known to the library.", "quantifier": "every pair of punctuators", "why_tests_cant": "About 3000 pairs; only a few are tested.", "anchors": ["src/ast/punctuation.rs: Punctuation::concat, try_from"]}
{"id": "C47", "title": "Integer type specifiers may come in any order", "statement": "Any permutation of the specifiers of a built-in integer type (e.g. `long unsigned int`, `int long`) denotes the same type.", "quantifier": "every permutation of every valid specifier multiset", "why_tests_cant": "Finite but large; only canonical orders are tested.", "anchors": ["src/ast/ty.rs: int_ty, ty"]}
{"id": "C48", "title": "Parsing a macro body consumes all of it", "statement": "VarMacro::parse / FnMacro::parse succeed only if the whole body was understood; a body followed by unparsable tokens is an error, never silently truncated. Parsing terminates on every input.", "quantifier": "every token sequence", "why_tests_cant": "Universal over inputs.", "anchors": ["src/macro_body.rs: MacroBody::parse", "src/var_macro.rs: parse", "src/fn_macro.rs: parse"]}
{"id": "C49", "title": "Universal character names in identifiers", "statement": "A token in which some characters are written as \\uXXXX or \\UXXXXXXXX is an identifier exactly when the characters it denotes form an identifier, and it then is that identifier.", "quantifier": "every token and every way of writing its characters", "why_tests_cant": "Universal over spellings; the failing case needs a non-initial escape of a non-ASCII letter.", "anchors": ["src/ast/identifier.rs: Identifier::try_from, parse_str", "src/ast/literal.rs: universal_char"]}
{"id": "C50", "title": "Digit strings with a leading zero are octal", "statement": "A token that starts with 0 and goes on with decimal digits, one of them 8 or 9, is not an integer constant and is rejected.", "quantifier": "every digit string", "why_tests_cant": "Unbounded digit strings; only canonical octal numbers are tested.", "anchors": ["src/ast/literal/int.rs: LitInt::parse_str"]}
{"id": "C51", "title": "Prefixed string literals denote the characters written", "statement": "u and U string literals whose elements are characters, simple, octal or two-digit hexadecimal escapes, or universal character names are read as exactly those characters; L string literals as their code points.", "quantifier": "every string literal in the grammar", "why_tests_cant": "Universal over strings; mixes of escapes, raw runs and surrogate pairs.", "anchors": ["src/ast/literal/string.rs: parse_utf16, parse_utf32, parse_wide, parse_str"]}
{"id": "C52", "title": "Hexadecimal escapes of any length", "statement": "A hexadecimal escape with one or more digits whose value fits a byte contributes that byte to an ordinary string literal.", "quantifier": "every string literal", "why_tests_cant": "Universal over escapes; the tests only use two digits.", "anchors": ["src/ast/literal.rs: numeric_escape_sequence", "src/ast/literal/string.rs: parse_ordinary"]}
{"id": "C53", "title": "Universal character names must name characters", "statement": "A string or character literal containing \\uXXXX or \\UXXXXXXXX whose value is not a Unicode scalar value is rejected.", "quantifier": "every literal and every non-scalar value", "why_tests_cant": "Universal over literals; only valid names are tested.", "anchors": ["src/ast/literal.rs: universal_char", "src/ast/literal/char.rs: with_prefix", "src/ast/literal/string.rs: parse_utf16, parse_wide"]}
{"id": "C54", "title": "Operands of ## are not macro-expanded", "statement": "In a function-like macro call, an argument that is an operand of ## is pasted as written: macros in it are not expanded before pasting.", "quantifier": "every macro set and argument", "why_tests_cant": "Universal over macro sets; needs an argument that names a macro.", "anchors": ["src/macro_set/mod.rs: expand_arguments", "src/macro_set/mod.rs: expand_concat"]}
{"id": "C55", "title": "Code generation terminates", "statement": "VarMacro::generate and FnMacro::generate return for every syntax tree and every context: the rewriting of ambiguous casts, the repeated folding of constants and the merging of strings never loop.", "quantifier": "every macro body and context", "why_tests_cant": "finish re-runs itself on rewritten trees; termination of that is a statement about all trees.", "anchors": ["src/ast/expr.rs: Expr::finish", "src/var_macro.rs: generate", "src/fn_macro.rs: generate"]}
{"id": "C56", "title": "Adjacent string literals generate what the literal they stand for generates", "statement": "The code generated for adjacent string literals is the code generated for the single literal they stand for: the joined bytes when none has an encoding prefix, otherwise the joined text with that prefix.", "quantifier": "every list of string literals with at most one kind of prefix, every context configuration", "why_tests_cant": "Universal over contents, number of literals and prefixes; the tests join only two unprefixed literals.", "anchors": ["src/ast/expr.rs: Expr::finish, ConcatString arm", "src/ast/literal/string.rs: LitString::as_bytes"]}
{"id": "C57", "title": "A parameter can be pasted with a number", "statement": "A function-like macro whose body is `x ## 12` is accepted, and is the name made of the argument for x and 12 (the documentation of parse_concat_ident gives `arg ## 2` as its example).", "quantifier": "every parameter, every number that fits 64 bits", "why_tests_cant": "The unit test of the parser (src/ast/expr.rs:768) makes the token after ## by hand as an identifier continuation, which expansion never yields for a number; the expected output of the fixture tests/fixtures/concat_non_ident.h is commented out. Only composing expansion and parsing, for all numbers, settles it.", "anchors": ["src/ast/identifier_expr.rs: parse_concat_ident", "src/macro_set/mod.rs: Token::from_str, detokenize"]}
{"id": "C58", "title": "Sums and differences of parenthesised parameters associate to the left", "statement": "A function-like macro with the body `(x) - (y) - (z)`, or any longer chain of + and - between parenthesised parameters, generates the same code as the body `x - y - z`.", "quantifier": "every chain of + and - over parenthesised parameters, every context", "why_tests_cant": "The unit tests and fixtures have at most one operator after a parenthesised parameter; the ambiguity between cast and operator is resolved after parsing, when the grouping is already fixed.", "anchors": ["src/ast/expr.rs: parse_term_prec2, Expr::finish (Cast arm)"]}
{"id": "C59", "title": "A constant gets the value C gives it", "statement": "Let a variable-like macro be defined in a set of plain macros (no # or ##, no backslashes in bodies). If the rules of C expand its body to spellings, these are C tokens, the grammar of C reads them as an arithmetic expression over integer literals, and the value of that expression (all intermediate results within i128) is v, then expanding the macro from the set, parsing the result and generating code give the constant v.", "quantifier": "every history of definitions, every body, every integer expression", "why_tests_cant": "Composes the preprocessor, the tokeniser, the parser and constant folding; the tests compare a handful of fixed fixtures.", "anchors": ["src/macro_set/mod.rs: MacroSet::expand_var_macro", "src/var_macro.rs: VarMacro::parse, VarMacro::generate", "src/ast/expr.rs: Expr::parse, Expr::finish"]}
{"id": "C60", "title": "Statements are read with the structure of C", "statement": "A macro whose body is a sequence of C statements (expression statements, declarations with an initializer, blocks, if, if … else, do … while) and not one expression is read as the trees of the statement grammar of C: each else belongs to the nearest if, each branch has its own statements, each declaration has its type, name, initializer and static flag. The semicolon of the last statement may be missing.", "quantifier": "every sequence of statements of the grammar, every environment, function-like and variable-like macros", "why_tests_cant": "Statements nest without bound and seven alternatives are tried in order on the same tokens; the unit tests parse one statement of each kind.", "anchors": ["src/ast/statement.rs: Statement::parse_single, Statement::parse", "src/ast/var_decl.rs: VarDecl::parse", "src/ast/ty.rs: Type::parse", "src/macro_body.rs: MacroBody::parse"]}
{"id": "C61", "title": "Generated statements run like the C statements", "statement": "The code generated for a macro that is a statement is a sequence of Rust statements. If its expression statements, declarations and conditions do what those of the C statement do, then the Rust statements have the same runs as the C statement: they end with the same results in the same way (normally, or by break, continue or return), and run forever where C does.", "quantifier": "every statement tree, context, set of parameters, state space and meaning of the leaves; do … while loops may run any number of times", "why_tests_cant": "Equality of all runs is a statement about unboundedly many iterations and arbitrarily nested if and do; the tests compare the text of a few generated macros and never run them.", "anchors": ["src/ast/statement.rs: Statement::finish, Statement::to_tokens", "src/ast/expr.rs: Expr::finish_condition", "src/fn_macro.rs: FnMacro::generate"]}
{"id": "C62", "title": "Every name occurs as often as in the body", "statement": "Let code be generated for a function-like macro. Every parameter and every name of the body that is written by neither the code generator nor the user of the crate occurs in the code exactly as often as in the body, so that no argument and no call is evaluated twice or dropped where C evaluates it once.", "quantifier": "every macro body (expressions and statements of any size), every context, every name and every parameter", "why_tests_cant": "The number of evaluations of an argument with side effects only shows when the generated macro is called with such an argument; the tests compare generated text and never count, and the claim ranges over all bodies.", "anchors": ["src/ast/expr.rs: Expr::finish, Expr::to_token_stream", "src/ast/unary_expr.rs: UnaryExpr::to_token_stream", "src/ast/binary_expr.rs: BinaryExpr::to_token_stream", "src/ast/cast.rs: Cast::to_tokens", "src/ast/statement.rs: Statement::finish, Statement::to_tokens", "src/ast/asm.rs: Asm::to_tokens", "src/fn_macro.rs: FnMacro::generate"]}
{"id": "C63", "title": "Constants have the value that the integer types of C give them", "statement": "A variable-like macro whose body is an integer constant expression generates the constant that C computes for it: every constant has the first type of its suffix that can represent it, operands are converted to their common type, unsigned values wrap around modulo a power of two, and signed overflow has no value.", "quantifier": "every integer constant expression (literals of any suffix, + - * / % << >> & | ^ and signs, any nesting), every choice of widths for int, long and long long", "why_tests_cant": "Constants that wrap around only differ from C for particular suffixes, widths and values; finitely many tests cannot cover all expressions, and the test fixtures contain no unsigned constant that wraps around.", "anchors": ["src/ast/literal/int.rs: LitInt operators", "src/ast/expr.rs: Expr::finish (constant folding)", "src/var_macro.rs: VarMacro::generate"]}
{"id": "C64", "title": "Generated functions compute what C computes", "statement": "Let a function be generated for a function-like macro whose body is an expression over parameters of integer types. Whenever C gives the expression a type and a value for some values of the parameters (usual arithmetic conversions, unsigned wrap-around, casts, shifts), the generated Rust function has that return type and returns that value: its body is a Rust expression whose operands have matching types and which evaluates to the value without overflow.", "quantifier": "every body (parameters, literals, signs, ~, + - * / % & | ^ << >>, casts to integer types, comparisons, ! && || and ?:, any nesting), every context, all values of the parameters, every choice of widths for int, long and long long", "why_tests_cant": "The claim ranges over all bodies and all values of all parameters; the tests compare the text of generated functions and never run them.", "anchors": ["src/fn_macro.rs: FnMacro::generate", "src/ast/expr.rs: Expr::finish, Expr::to_token_stream", "src/ast/binary_expr.rs: BinaryExpr::finish, BinaryExpr::to_token_stream", "src/ast/cast.rs: Cast::finish, Cast::to_tokens", "src/ast/ternary_expr.rs: TernaryExpr::finish, TernaryExpr::to_tokens"]}
{"id": "C65", "title": "Generated macros use exactly the metavariables they declare", "statement": "A macro_rules macro generated for a function-like macro declares the parameters of the C macro, in order, each with a fragment specifier (ident, expr, ty, tt) or as a repetition for `...`. In its body every `$` starts a declared parameter or the repetition for the variable arguments, and no parameter is written without `$`, also not inside stringify! and concat_idents!.", "quantifier": "every function-like macro whose parameters have been replaced in its body, every context, every generated macro", "why_tests_cant": "A `$` without a declared parameter makes the generated macro fail to compile when it is used, and a parameter without `$` silently refers to something else; the tests look at some texts and never expand the generated macros.", "anchors": ["src/fn_macro.rs: FnMacro::generate", "src/ast/macro_arg.rs: MacroArg::to_tokens", "src/ast/stringify.rs: Stringify::to_token_stream_inner", "src/ast/identifier_expr.rs: IdentifierExpr::to_tokens"]}
{"id": "C66", "title": "Macro parameters are declared with the fragment their uses demand", "statement": "When code is generated for a function-like macro, a parameter that stands for an identifier anywhere in the body (the name of a member, a part of a name pasted with ##, the name of a declared function, variable or parameter) is declared as `$x : ident` of a macro, whatever else is done with it and in whatever order; a parameter that stands for a type is declared with a fragment that can be a type; and a parameter that stands for an identifier nowhere is not declared as ident, so that it still accepts expressions.", "quantifier": "every function-like macro, every context, every parameter, every generated item", "why_tests_cant": "With a wrong fragment the generated macro compiles and only fails where it is used, with an error about the macro; the order of the uses in the body, rewritten casts and failed first attempts give too many cases to list.", "anchors": ["src/fn_macro.rs: FnMacro::generate", "src/ast/identifier_expr.rs: IdentifierExpr::finish", "src/ast/binary_expr.rs: BinaryExpr::finish", "src/ast/function_decl.rs: FunctionDecl::finish", "src/ast/stringify.rs: Stringify::finish", "src/context.rs: LocalContext::arg_type_mut"]}
{"id": "C67", "title": "Generated code hides no name that it uses", "statement": "The code generated for a function-like macro introduces no variable (by `let x` or `let mut x`) with a name that the code looks up, unless the macro itself declares a variable of that name: neither a parameter of a generated function nor a variable outside that the macro refers to is hidden by a variable that the code generator needs for itself.", "quantifier": "every function-like macro in which let is not used as a name, every context, every generated function or macro, every name", "why_tests_cant": "Hidden names compile without a warning and read or write the wrong variable; whether it happens depends on the names chosen by the author of the C header, which tests pick themselves.", "anchors": ["src/fn_macro.rs: FnMacro::generate", "src/ast/unary_expr.rs: UnaryExpr::to_tokens", "src/ast/binary_expr.rs: BinaryExpr::to_tokens", "src/ast/asm.rs: Asm::to_tokens", "src/ast/var_decl.rs: VarDecl::to_tokens"]}
{"id": "C68", "title": "Constants with casts have the value and the type of C", "statement": "For a variable-like macro whose body is a constant expression with casts to integer types, the generated constant has the type that C gives the expression, and the generated Rust expression has the value that C gives it.", "quantifier": "every constant expression with at least one cast, every choice of the widths of the integer types, every context; with C68_text also every history of definitions and every layout of casts and operators in the text", "why_tests_cant": "Casts are not folded but translated, so the values are computed by rustc with Rust's typing and overflow rules; a test that compares the generated tokens does not notice that they mean something else.", "anchors": ["src/var_macro.rs: VarMacro::generate", "src/ast/cast.rs: Cast::finish, to_tokens", "src/ast/binary_expr.rs: BinaryExpr::finish, to_tokens", "src/ast/unary_expr.rs: UnaryExpr::finish, to_tokens", "src/ast/literal.rs: LitInt::to_tokens"]}
{"id": "C69", "title": "A function-like macro expands to its body with other macros replaced", "statement": "Expanding a function-like macro by name gives its parameters, and the expansion of its body in which the macro itself is hidden and the parameters stand for themselves: other macros are replaced, also in calls whose arguments contain parameters.", "quantifier": "every history of definitions without # and ##, every macro in it, with or without a variadic parameter, and every expansion of its body that the rules of the preprocessor derive", "why_tests_cant": "The expansion recurses through other macros, hides names, and renames parameters to positions at the same time; tests fix a few nestings.", "anchors": ["src/macro_set/mod.rs: MacroSet::expand_fn_macro, expand_fn_macro_body, tokenize, detokenize, expand_macro_body, collect_args"]}
{"id": "C70", "title": "A call of a macro is the macro's expansion with the expanded arguments in place", "statement": "For definitions in which every use of a function-like macro is a complete call, expanding a call gives the same tokens as expanding the macro by name, expanding the arguments on their own, and putting the latter in place of the parameters.", "quantifier": "every history of well-nested definitions without # and ##, recursive ones included, every macro in it and every list of arguments", "why_tests_cant": "It relates three separate calls of the API for all inputs. A test compares their results only for the macros and arguments it lists.", "anchors": ["src/macro_set/mod.rs: MacroSet::expand, MacroSet::expand_fn_macro, expand_fn_macro_body, expand_arguments, expand_macro_body, collect_args"]}
{"id": "C71", "title": "Types supplied by the user of the crate are written as given", "statement": "If a function is generated, each of its parameters has the type that the code generation context declares for it, token for token.", "quantifier": "every context, every macro for which a function is generated, and every parameter with a declared type", "why_tests_cant": "The type goes through a conversion to C types and back, for every Rust type and every prefix the context can name; tests use a handful of types.", "anchors": ["src/ast/ty.rs: Type::from_rust_ty, BuiltInType::from_rust_ty, Type::to_tokens", "src/fn_macro.rs: FnMacro::generate"]}
{"id": "C72", "title": "Macros that pass their parameters to a known function become wrappers of it", "statement": "For a macro whose body is a call of a function the context knows, with parameters of the macro and integers as arguments, a function is generated that has for each parameter the type of the argument it is passed as, returns what the known function returns, and calls it with the arguments in their order. Conversely, if a function is generated for a call, the function called is known with that number of arguments.", "quantifier": "every context, every known function with any number of arguments, every macro that passes all its parameters in any order, possibly repeated and mixed with integers", "why_tests_cant": "The inference goes over all signatures and argument lists; tests fix a few functions.", "anchors": ["src/ast/function_call.rs: FunctionCall::finish, FunctionCall::to_tokens", "src/context.rs: CodegenContext::function", "src/fn_macro.rs: FnMacro::generate"]}
{"id": "C73", "title": "The functions called by a generated function are known, with the number of arguments given", "statement": "If a function and not a macro is generated, every call in its body is a call of a function that the context knows, with the number of arguments it is declared with.", "quantifier": "every context, every macro for which a function is generated, and every call anywhere in its body", "why_tests_cant": "Calls are nested in any expression and statement, and the decision is made by a flag that is set along the way; tests fix a few bodies.", "anchors": ["src/ast/function_call.rs: FunctionCall::finish", "src/fn_macro.rs: FnMacro::generate", "src/context.rs: LocalContext"]}
{"id": "C74", "title": "Macros that change a parameter or take its address do not become functions", "statement": "If a function and not a macro is generated, its body never assigns to a parameter, increments or decrements one, or takes the address of one: a function gets copies, so the variables of the caller would not change.", "quantifier": "every context, every macro for which a function is generated, and every expression anywhere in its body", "why_tests_cant": "The decision is made by a flag that is set while a body is walked through, for each operator on its own; tests try some operators on some bodies.", "anchors": ["src/ast/binary_expr.rs: BinaryExpr::finish", "src/ast/unary_expr.rs: UnaryExpr::finish", "src/fn_macro.rs: FnMacro::generate"]}
{"id": "C75", "title": "Decimal floating constants are recognised exactly", "statement": "A spelling is read as a floating literal exactly if it is a decimal floating constant of C (digits with a point, or with an exponent, or both) with no suffix or one of f, F, l, L; the suffix gives the type, and the text before it is what the value is computed from.", "quantifier": "every string of characters and every floating literal", "why_tests_cant": "There are infinitely many spellings, and near misses such as 1e, 1.e+ or 314f have to be told from constants; tests list a few.", "anchors": ["src/ast/literal/float.rs: LitFloat::parse_str, LitFloatSuffix::parse", "src/ast/literal.rs: Lit::try_from"]}
{"id": "C76", "title": "Arithmetic on floating constants is the arithmetic of C", "statement": "A macro whose body applies +, -, * and / to integer and floating constants generates a floating constant with the type that C gives to the expression and with the value that C gives to it, for every arithmetic of the types float and double.", "quantifier": "every implementation of the formats float and double in which integers of up to 24 bits are exact, every context, and every expression of any size over integer constant expressions and floating constants", "why_tests_cant": "The conversions depend on the types of both operands at every node, and whether they lose digits on the values; tests use few, small numbers, which are exact in every format.", "anchors": ["src/ast/binary_expr.rs: BinaryExpr::finish", "src/ast/literal/float.rs: Add, Sub, Mul, Div for LitFloat", "src/ast/expr.rs: Expr::finish", "src/var_macro.rs: VarMacro::generate"]}
{"id": "C77", "title": "The text of an asm is read as it is meant", "statement": "A macro whose body is an asm of GNU C is read as this asm or not at all: the template, each output and input with a class of registers that its constraint allows and with its expression, and what is clobbered; and it is read if all operands can be in registers.", "quantifier": "every character classification, every name and parameter list, every asm with any number of literals, outputs, inputs and clobbers, any constraints and operand expressions of the grammar, with or without semicolon", "why_tests_cant": "The parts may each be missing or have any length, and constraints and templates are texts of their own; tests have one or two asm statements.", "anchors": ["src/ast/asm.rs: Asm::parse, Asm::parse_template, Asm::parse_reg_constraint, Asm::parse_output_operands, Asm::parse_input_operands", "src/macro_body.rs: MacroBody::parse", "src/fn_macro.rs: FnMacro::parse"]}
{"id": "C78", "title": "The operands of a generated asm! are those of the asm", "statement": "The operand with the number n of the generated asm! is what %n is in C: the same class of registers, stored to the same expression, and loaded from the same expression, including inputs that share the place of an output.", "quantifier": "every context, every asm with any outputs, inputs and matching constraints, and every operand number that matters", "why_tests_cant": "The numbers of operands shift when inputs are removed; this shows only with several inputs and matching constraints, of which tests have one.", "anchors": ["src/ast/asm.rs: Asm::to_tokens"]}
{"id": "C79", "title": "A generated asm! promises nothing that is not true of the asm", "statement": "Every register that an asm clobbers is declared once in the generated asm!; nomem is not promised if memory is clobbered; the flags are not promised to be preserved, since every asm may change them on x86; and the template is declared to be in the syntax in which GCC reads it.", "quantifier": "every context and every asm with any template, operands and clobbers", "why_tests_cant": "A false promise to the compiler is undefined behaviour that shows only after optimisation; the tests compare token texts.", "anchors": ["src/ast/asm.rs: Asm::to_tokens, Asm::is_att_syntax"]}
{"id": "C80", "title": "Generating code twice gives the same code", "statement": "VarMacro::generate and FnMacro::generate take the macro by mutable reference and rewrite its body. If a call returns code, a second call with the same context returns the same code.", "quantifier": "every context, every macro, variable-like or function-like, with any body for which code is generated", "why_tests_cant": "Whether the rewriting is stable depends on the whole tree and on the answers of the context; the tests generate code once per macro.", "anchors": ["src/var_macro.rs: VarMacro::generate", "src/fn_macro.rs: FnMacro::generate", "src/ast/expr.rs: Expr::finish, Expr::finish_condition", "src/ast/ty.rs: Type::finish", "src/ast/statement.rs: Statement::finish"]}
{"id": "C81", "title": "A cast to a type of the context is a conversion to it", "statement": "If the code generation context knows the type T by a Rust path other than a built-in type, the body (T)e of a function-like macro is generated as a conversion to this path, whatever e is.", "quantifier": "every context, every type name the context resolves to a path, every operand, every macro for which code is generated", "why_tests_cant": "(T)-e can also be a difference, and which of the two it is depends on the answers of the context; the tests have contexts that know no types or give them their own names.", "anchors": ["src/ast/expr.rs: Expr::finish", "src/ast/cast.rs: Cast::finish, Cast::to_tokens", "src/ast/ty.rs: Type::finish"]}
{"id": "C82", "title": "Comments make no difference", "statement": "A macro whose parameters and body contain comment tokens is read exactly as the macro without them.", "quantifier": "every name, every parameter list, every body, with any number of comments anywhere", "why_tests_cant": "There is a place for a comment between any two tokens of any body; the tests have comments in few places of few bodies.", "anchors": ["src/ast/tokens.rs: meta", "src/macro_body.rs: MacroBody::parse", "src/fn_macro.rs: FnMacro::parse_args", "src/ast/expr.rs: Expr::parse", "src/ast/ty.rs: Type::parse"]}
{"id": "C83", "title": "Character constants have the value and the type of C", "statement": "A constant defined as a character constant is generated as a literal cast to the type that the constant has in C, and the value after the cast is the value of C: negative for the upper half of an ordinary constant where char is signed, the number of the character or escape otherwise.", "quantifier": "every prefix, every spelling of a character or escape, signed and unsigned char, every type given to wchar_t that holds the value, every ffi prefix", "why_tests_cant": "There are 256 ordinary constants, 65536 and over four milliards of the others, each with several spellings; the tests have a few, and none asks for the value after the cast.", "anchors": ["src/ast/literal/char.rs: LitChar::with_prefix, LitChar::finish, LitChar::to_tokens", "src/ast/expr.rs: Expr::finish", "src/var_macro.rs: VarMacro::generate"]}
{"id": "C84", "title": "Generated code has no words of unknown origin", "statement": "Every identifier in the body of a generated constant, function or macro is a name in the body of the C macro, one of its parameters, a word that the user of the crate supplies in a type, path or enumeration variant, or one of a fixed list of words of the code generator.", "quantifier": "every context, every macro, every word of the generated code", "why_tests_cant": "A stray word can come from any combination of a construct and an answer of the context; the tests compare the whole output for a few dozen macros.", "anchors": ["src/fn_macro.rs: FnMacro::generate", "src/var_macro.rs: VarMacro::generate", "src/ast/expr.rs: Expr::to_tokens", "src/ast/statement.rs: Statement::to_tokens"]}
{"id": "C85", "title": "Names that are keywords of Rust are not printed as they are", "statement": "A name of the macro that is a keyword of Rust but not of C (such as type, match or ref) does not appear unescaped in generated code.", "quantifier": "every context, every macro, every keyword of Rust that the code generator does not write itself", "why_tests_cant": "Every keyword can be used for every kind of name (variable, member, function, type, parameter); the tests use none.", "anchors": ["src/ast/identifier.rs: Identifier::to_tokens", "src/fn_macro.rs: FnMacro::generate", "src/ast/macro_arg.rs: MacroArg::to_tokens"]}
{"id": "C86", "title": "Macros that use ## expand to the textbook result", "statement": "With definitions that use ## but not #, a text that expands by the rules of C11 6.10.3 (arguments next to ## as written, placemarkers for empty ones, joined spellings read again, marked names never replaced) expands to the same tokens here, through any number of nested calls.", "quantifier": "every macro set, text and derivation in the textbook relation", "why_tests_cant": "Pasting interacts with argument expansion, empty arguments, rescanning and hidden names at any depth of nesting; the tests paste in a handful of single calls.", "anchors": ["src/macro_set/mod.rs: MacroSet::expand", "src/macro_set/mod.rs: expand_arguments", "src/macro_set/mod.rs: expand_concat", "src/macro_set/mod.rs: Token::concat"]}
{"id": "C87", "title": "The declared type is the type of the generated expression", "statement": "A constant or function whose body is made of numbers, parameters, operators, casts and ? : is declared with the type that its generated Rust expression has by the typing rules of Rust.", "quantifier": "every expression over numbers, parameters, operators, casts and conditionals, every context", "why_tests_cant": "Types are computed by rules of their own, bottom-up and with conversions and folding in between; whether they agree with the rules of Rust depends on the whole expression, and the tests look at single constants.", "anchors": ["src/ast/expr.rs: Expr::finish", "src/ast/unary_expr.rs: UnaryExpr::finish", "src/ast/binary_expr.rs: BinaryExpr::finish", "src/ast/ternary_expr.rs: TernaryExpr::finish", "src/ast/cast.rs: Cast::finish", "src/var_macro.rs: VarMacro::generate", "src/fn_macro.rs: FnMacro::generate"]}
{"id": "C88", "title": "Generated macros compute what C computes", "statement": "If a macro_rules! macro is generated for a function-like macro whose body is made of integers, parameters, operators, casts and ? :, then calling it with Rust expressions of the C types and values of the arguments gives an expression of the type and value that C gives to the macro.", "quantifier": "every expression over integers, parameters, operators, casts and conditionals, all values of the parameters, all argument expressions of these values, every context", "why_tests_cant": "Tests compare the text of a few macros; the value of a call depends on the parameters, on how Rust reads the text and on the argument expressions put in their place.", "anchors": ["src/fn_macro.rs: FnMacro::generate", "src/ast/expr.rs: Expr::finish", "src/ast/expr.rs: Expr::to_tokens", "src/ast/var.rs: Var::to_tokens", "src/ast/binary_expr.rs: BinaryExpr::finish", "src/ast/ternary_expr.rs: TernaryExpr::finish", "src/ast/cast.rs: Cast::finish"]}
{"id": "C89", "title": "The names of the parameters make no difference", "statement": "If the parameters of function-like macros get other names that are different from each other and from the words of the body, every token list and every object-like macro expands as before, and the function-like macro itself expands to the same body with the new names in its parameter list. This holds also if a new name is the name of a macro.", "quantifier": "all histories of definitions, any number of renamed macros, all renamings, all token lists", "why_tests_cant": "It relates two runs of the expansion on different inputs; tests use one fixed choice of parameter names.", "anchors": ["src/macro_set/mod.rs: MacroSet::expand", "src/macro_set/mod.rs: MacroSet::expand_var_macro", "src/macro_set/mod.rs: MacroSet::expand_fn_macro", "src/macro_set/mod.rs: tokenize_arg_names", "src/macro_set/mod.rs: expand_fn_macro_body", "src/macro_set/mod.rs: expand_arguments"]}
{"id": "C90", "title": "Only reachable definitions matter", "statement": "The expansion of a token list or macro depends only on the definitions of names that can come up in it: its own words, the words of the bodies of these, and words pasted from them. Whatever else is defined, defined differently or undefined changes neither the result nor the error.", "quantifier": "all pairs of histories of definitions, every closed set of words, all token lists and names", "why_tests_cant": "It compares the expansion in all possible surroundings; tests have one set of definitions each.", "anchors": ["src/macro_set/mod.rs: MacroSet::expand", "src/macro_set/mod.rs: MacroSet::expand_var_macro", "src/macro_set/mod.rs: MacroSet::expand_fn_macro", "src/macro_set/mod.rs: expand_macro_body", "src/macro_set/mod.rs: expand_concat", "src/macro_set/mod.rs: Token::concat"]}
{"id": "C91", "title": "Only answers about names of the macro matter", "statement": "The code generated for a macro depends only on what the context answers about the macro's parameters and about names that can come up: the macro's own name, the names in its body, wchar_t and size_t, and the names in the types answered for these. Contexts that differ in anything else get the same result or the same error.", "quantifier": "all pairs of contexts, every closed set of names, all macros with any body", "why_tests_cant": "It compares the output under all possible contexts; tests have one or two contexts.", "anchors": ["src/context.rs: CodegenContext", "src/fn_macro.rs: FnMacro::generate", "src/var_macro.rs: VarMacro::generate", "src/ast/ty.rs: Type::finish", "src/ast/ty.rs: BuiltInType::to_rust_ty", "src/ast/var.rs: Var::finish", "src/ast/function_call.rs: FunctionCall::finish", "src/ast/binary_expr.rs: BinaryExpr::finish", "src/ast/expr.rs: Expr::finish"]}
{"id": "C92", "title": "Constants defined by other constants have the computed value", "statement": "If constants are defined one by the other, without circles, each by a literal, by another constant or by an arithmetic expression in parentheses, then expanding, parsing and generating each gives the value computed in C from the values of the constants it names. This holds whatever other macros are defined, and in whatever order.", "quantifier": "all sets of definitions with such constants, all expressions over + - * / % << >> & ^ | and literals, values within i128", "why_tests_cant": "It holds for chains of definitions of any length and any other definitions; a test has fixed headers.", "anchors": ["src/macro_set/mod.rs: MacroSet::expand_var_macro", "src/macro_set/mod.rs: MacroSet::expand_macro_body", "src/var_macro.rs: VarMacro::parse", "src/var_macro.rs: VarMacro::generate", "src/ast/expr.rs: Expr::parse", "src/ast/expr.rs: Expr::finish"]}
{"id": "C93", "title": "Calls of macros compute the function of their arguments' values", "statement": "Let an arithmetic expression name constants and call function-like macros whose definitions are parenthesised, with parentheses around parameters next to operators. Then expanding, parsing and generating a macro defined by it gives the value that results from evaluating calls like calls of functions: the definition is evaluated with the values of the arguments, which can be any expressions, also with calls.", "quantifier": "all sets of definitions without # and ##, all nestings of calls, all arguments, values within i128", "why_tests_cant": "It relates replacement of text to evaluation of functions for all definitions; tests check single expansions.", "anchors": ["src/macro_set/mod.rs: MacroSet::expand_var_macro", "src/macro_set/mod.rs: MacroSet::expand_arguments", "src/macro_set/mod.rs: MacroSet::expand_fn_macro_body", "src/macro_set/mod.rs: MacroSet::collect_args", "src/var_macro.rs: VarMacro::parse", "src/var_macro.rs: VarMacro::generate", "src/ast/expr.rs: Expr::finish"]}
{"id": "C94", "title": "Generated code is one template for all names of the parameters", "statement": "For a function-like macro there is one template of Rust code with places for the names of the parameters. Whatever the names are, generating fails in the same way or gives the template with the names put in: same kind of item, same parentheses, same types, and each name only where its parameter stands.", "quantifier": "all macro bodies, all contexts, all lists of parameter names with the same declared types and the same position of ...; for the whole pipeline, all pairs of definitions that differ in names of parameters", "why_tests_cant": "It compares the outputs for all choices of names; a test has one choice.", "anchors": ["src/fn_macro.rs: FnMacro::generate", "src/fn_macro.rs: FnMacro::parse", "src/fn_macro.rs: FnMacro::parse_args", "src/ast/macro_arg.rs: MacroArg::to_tokens", "src/ast/stringify.rs: Stringify::to_token_stream_inner", "src/ast/function_call.rs: FunctionCall::to_tokens", "src/ast/identifier_expr.rs: IdentifierExpr::to_tokens"]}
{"id": "C95", "title": "Generated text is well-formed items that make the macro available under its name", "statement": "The text generated for a function-like macro is, as a whole, Rust items that make the C macro available under its own name with its own parameters in their order, and nothing else: either an exported macro_rules! macro with a matcher for these parameters together with a pub use that gives it the name, or one public unsafe extern C function with these parameters. All brackets are matched, so the body does not end early, and the body and the return type are the ones the other properties speak about. Values and types of constants have matched brackets too.", "quantifier": "all macros, all contexts whose tokens for enum variants have matched brackets; for the whole pipeline, all definitions", "why_tests_cant": "The text is assembled from the texts of all kinds of expressions, statements, types and names; a bracket too few in any combination would change what the items are.", "anchors": ["src/fn_macro.rs: FnMacro::generate", "src/var_macro.rs: VarMacro::generate", "src/fn_macro.rs: FnMacro::parse_args", "src/ast/expr.rs: Expr::to_tokens", "src/ast/statement.rs: Statement::to_tokens", "src/ast/ty.rs: Type::to_tokens", "src/ast/asm.rs: Asm::to_tokens"]}
{"id": "C96", "title": "The limits of the integer types become the right numbers", "statement": "The limits of the signed and unsigned integer types, as limits.h writes them by the macros that the compiler predefines (__INT_MAX__, -__INT_MAX__ - 1, __INT_MAX__ * 2U + 1U and likewise for the other types), become Rust constants of the type in question whose value is the greatest or least number of that type, whatever the widths of the types are on the target.", "quantifier": "all five predefined limits and the three ways to write them, all suffixes of the constants, all widths of the types, all contexts and paths of the module of the types", "why_tests_cant": "The generated text leaves the number to the target (c_int::MAX), so a test on one machine shows one width; the cast to the unsigned type is inserted for a combination of operator, operand and literal.", "anchors": ["src/ast/binary_expr.rs: BinaryExpr::finish", "src/ast/var.rs: Var::finish", "src/ast/var.rs: Var::to_tokens", "src/ast/unary_expr.rs: UnaryExpr::finish", "src/var_macro.rs: VarMacro::generate"]}
{"id": "C97", "title": "Declarations of C functions become declarations of the same functions in Rust", "statement": "A function-like macro whose body declares a C function generates code that declares the same function in an extern \"C\" block: the same name (or the parameter of the macro that stands for it), the same names of parameters in the same order, and for each parameter and the result the Rust type that corresponds to the C type.", "quantifier": "all macros whose body is one declaration of a function with a built-in, named or pointer type, any number of parameters, all contexts", "why_tests_cant": "Types are made of words in many orders, pointers and names that the context resolves, for any number of parameters; a permutation or a lost pointer changes the calling convention and is not noticed by the Rust compiler.", "anchors": ["src/ast/function_decl.rs: FunctionDecl::parse", "src/ast/function_decl.rs: FunctionDecl::finish", "src/ast/function_decl.rs: FunctionDecl::to_tokens", "src/ast/statement.rs: Statement::parse", "src/ast/ty.rs: Type::finish", "src/fn_macro.rs: FnMacro::generate"]}
{"id": "C98", "title": "Assignments, increments and decrements do in Rust what they do in C", "statement": "For a macro whose body is an expression with assignments, increments or decrements anywhere in it, running the generated Rust code from any state yields the value that the C expression yields and leaves the same state: each object is changed once, x++ yields the old value and ++x the new one, *p++ reads through the old pointer.", "quantifier": "all expressions over numbers, variables, members, dereferences, arithmetic, calls, assignments and steps, nested to any depth; all states and any meaning of operators, objects and functions", "why_tests_cant": "The blocks that Rust needs for assignments name the object two or three times, so a difference appears only for particular nestings, states and aliases; unit tests compare the printed text, not what it does.", "anchors": ["src/ast/unary_expr.rs: UnaryExpr::to_tokens", "src/ast/binary_expr.rs: BinaryExpr::to_token_stream", "src/ast/binary_expr.rs: BinaryExpr::finish", "src/ast/expr.rs: Expr::finish", "src/fn_macro.rs: FnMacro::generate"]}
{"id": "C99", "title": "sizeof and offsetof denote the size of the corresponding Rust type and the offset of the same member", "statement": "For every type T, #define N sizeof(T) becomes a constant of the Rust type that stands for size_t, whose value is the size of the Rust type that corresponds to T, pointers and named types included; the same in function-like macros; __builtin_offsetof(T, m) becomes the offset of the same member of the corresponding type, and a parameter that stands for the type is declared as a type.", "quantifier": "all spellings of built-in types, all named types and pointers to them to any depth; all parameter lists; all contexts (prefixes, resolution of names of types, nightly or not)", "why_tests_cant": "There are unboundedly many types, and the text depends on the prefixes and on what the context resolves; the fixtures show two types in one context.", "anchors": ["src/ast/expr.rs: Expr::finish", "src/ast/expr.rs: Expr::to_tokens", "src/ast/ty.rs: Type::finish", "src/ast/ty.rs: BuiltInType::to_rust_ty", "src/ast/function_call.rs: FunctionCall::finish", "src/ast/function_call.rs: FunctionCall::to_tokens"]}
{"id": "C100", "title": "A pointer in the generated code is *const exactly if what it points to is constant in C", "statement": "For every C pointer type, that is a name with qualifiers on both sides and any number of stars, each with qualifiers of its own, #define P(x) (type) x casts its argument to the Rust type with the same number of pointers to the corresponding type, in which each pointer is *const if the type it points to is const in C, and *mut otherwise.", "quantifier": "all base types (char, int, void, bool, float, double, every named type the context resolves), all placements of const and volatile, any number of stars, all parameter lists and positions, all contexts", "why_tests_cant": "There are unboundedly many pointer types, and each star has five possible qualifications; the tests compare the trees of a few of them, and one cast of a string literal.", "anchors": ["src/ast/ty.rs: Type::parse", "src/ast/ty.rs: Type::to_tokens", "src/ast/ty.rs: Type::finish", "src/ast/cast.rs: Cast::to_tokens", "src/ast/expr.rs: Expr::parse_term_prec2", "src/ast/expr.rs: Expr::finish"]}
{"id": "C101", "title": "Constants that are pointers have the declared pointer type and the address written in C", "statement": "For every pointer type and every constant expression with the value v, #define P (type) expr, also in any number of parentheses, becomes a constant of the pointer type that points to the address v: ptr::null() is only used for *const types and ptr::null_mut() for *mut types, both only for 0, and every other address is a number in the range of its own suffix that is cast to the declared type.", "quantifier": "all pointer types (any base type, qualifiers in all places, any number of stars), all constant expressions and their values (128 bits), any number of parentheses, all contexts", "why_tests_cant": "The type, its qualifiers and the value choose between three forms and nine suffixes; a test sees one type and one value, such as (void *)0.", "anchors": ["src/ast/cast.rs: Cast::to_tokens", "src/ast/expr.rs: Expr::parse_term_prec2", "src/ast/expr.rs: Expr::finish", "src/ast/ty.rs: Type::parse", "src/ast/ty.rs: Type::to_tokens", "src/var_macro.rs: VarMacro::generate"]}
{"id": "C102", "title": "Exactly which string and character literals are accepted, and what each of them stands for", "statement": "A token is read as a string exactly when it consists of a prefix, and between double quotes characters other than backslash, quote and newline and escapes, where an escape is a simple one, one to three octal digits (as many as there are), x or X and exactly two hexadecimal digits, u and four or U and eight; every escape has a value of the kind (a byte or a character for no prefix and u8, a unit or a character for u, a character for U, any number for L); and for u8 and u the bytes or units are well-formed UTF-8 or UTF-16. It then stands for exactly these bytes, characters or numbers. Likewise for characters between single quotes, whose number must fit the prefix. No other token is read as a string or character.", "quantifier": "all tokens (any length, any characters), all results", "why_tests_cant": "Both directions concern infinitely many texts; tests can show a few accepted and rejected literals but not that nothing else is accepted or that the decoder inverts the encoding.", "anchors": ["src/ast/literal.rs: escaped_char", "src/ast/literal.rs: numeric_escape_sequence", "src/ast/literal.rs: universal_char", "src/ast/literal/string.rs: LitString::parse_str", "src/ast/literal/char.rs: LitChar::parse_str", "src/ast/literal.rs: Lit::try_from"]}
{"id": "C103", "title": "Exactly which integer literals are accepted, and what each of them stands for", "statement": "A token is read as an integer exactly when it is an integer constant of C (decimal, octal, hexadecimal, and binary), or a zero followed by decimal digits the first of which is 8 or 9, with a value below 2^127 and followed by one of the 33 spellings of suffixes; it then has this value and the type of the suffix. No other token is read as an integer. Together with C75 and C102 this settles for every token whether it is a literal and which.", "quantifier": "all tokens (any length, any characters), all values and suffixes", "why_tests_cant": "The alternatives of the parser fall through to each other on failure and on overflow; that no other token is accepted by some combination of them concerns infinitely many texts.", "anchors": ["src/ast/literal/int.rs: LitInt::parse_str", "src/ast/literal/int.rs: parse_i128", "src/ast/literal/int.rs: parse_suffix", "src/ast/literal.rs: Lit::try_from"]}
{"id": "C104", "title": "Exactly which texts are tokens, and of which kind", "statement": "For every text other than __VA_ARGS__: it is read as a token exactly when it is an identifier (plain, or starting with a universal character name), a string or character literal, a floating or integer constant, a nonempty run of identifier characters that is none of these, one of C's punctuators after any number of line continuations (which are dropped), or a block comment whose text has no */ inside. The kinds do not overlap, so the kind and the value of the token are determined; every other text is an invalid token.", "quantifier": "all texts (any length, any characters), all tables of identifier characters that agree with C on ASCII", "why_tests_cant": "Six parsers are tried in turn; that no text is taken by an earlier one that belongs to a later one, and that nothing else is accepted by any of them, concerns infinitely many texts.", "anchors": ["src/macro_set/mod.rs: Token::from_str", "src/ast/identifier.rs: Identifier::parse_str", "src/ast/identifier.rs: IdentifierContinue::parse_str", "src/ast/literal.rs: Lit::try_from", "src/ast/punctuation.rs: Punctuation::try_from", "src/ast/comment.rs: Comment::try_from"]}
{"id": "C105", "title": "Invalid tokens are reported, and nothing else is", "statement": "With definitions that use neither # nor ##: if a text (or the body of a variable-like or function-like macro) expands to a list of items by the textbook rules, then expand (expand_var_macro, expand_fn_macro) succeeds exactly when every item is a token in the sense of C104, and returns these tokens in order, parameters of a function-like macro being read by their position; otherwise it fails with InvalidToken, and the text in the error is the first item that is no token. Invalid texts in parts that do not reach the result are not reported.", "quantifier": "all definition histories with plain bodies, all texts, function-like calls included, all tables of identifier characters that agree with C on ASCII", "why_tests_cant": "Whether and which token is reported depends on the complete expansion, over unboundedly many definition sets.", "anchors": ["src/macro_set/mod.rs: MacroSet::expand", "src/macro_set/mod.rs: MacroSet::expand_var_macro", "src/macro_set/mod.rs: MacroSet::expand_fn_macro", "src/macro_set/mod.rs: Token::detokenize", "src/macro_set/mod.rs: Token::from_str"]}
{"id": "C106", "title": "Names have no meaning of their own", "statement": "Rename macros, parameters and all other identifiers consistently (different names stay different, words that are no names stay as they are), in all definitions and in the text. Then expand, expand_var_macro and expand_fn_macro give what they gave before with the names renamed: the same tokens, or the same error about the renamed macro or parameter, with the same depth of recursion. This holds as long as no body and no text uses # or ##, which turn a name into text.", "quantifier": "all injective renamings that respect what is an identifier, all definition histories and texts without # and ## (variadic macros, malformed parameter lists, wrong argument counts and self-references included), all tables of identifier characters", "why_tests_cant": "No test can run over all names; a special case for some spelling, or a parameter captured by a macro of the same name, shows only with the right names.", "anchors": ["src/macro_set/mod.rs: MacroSet::expand", "src/macro_set/mod.rs: MacroSet::expand_var_macro", "src/macro_set/mod.rs: MacroSet::expand_fn_macro", "src/macro_set/mod.rs: tokenize", "src/macro_set/mod.rs: tokenize_arg_names"]}
{"id": "C107", "title": "Texts can be expanded one after another", "statement": "With definitions that use neither # nor ##: if every name of a function-like macro in the texts and bodies has its argument list directly behind it (always the case when only variable-like macros are defined), then expanding one text followed by another returns the tokens of the first followed by the tokens of the second, or the error of the first text that has one; and it returns whenever both do. What is hidden or pending in one text has no effect on the next.", "quantifier": "all such definition histories (recursive ones included) and all pairs of texts, all tables of identifier characters that agree with C on ASCII", "why_tests_cant": "expand_macro_body scans the whole list again after each replacement, so that the parts influence each other's runs; that the results do not is a statement about all pairs of texts.", "anchors": ["src/macro_set/mod.rs: MacroSet::expand", "src/macro_set/mod.rs: MacroSet::expand_macro_body", "src/macro_set/mod.rs: detokenize"]}
{"id": "C108", "title": "Comments make no difference to expansion", "statement": "Take all comments out of the bodies of the definitions and out of the text: then expand and expand_var_macro return what they returned before, without the comments, or the same error. In C a comment is white space.", "quantifier": "all definition histories and texts with comments anywhere", "why_tests_cant": "A comment is a token for this library, and every step of the expansion has to look past it; the places where one can stand are unbounded.", "anchors": ["src/macro_set/mod.rs: MacroSet::expand_macro_body", "src/macro_set/mod.rs: MacroSet::collect_args", "src/macro_set/mod.rs: MacroSet::expand_fn_macro_body", "src/macro_set/mod.rs: MacroSet::expand_arguments"]}
{"id": "C109", "title": "Replacing text is replacing trees", "statement": "Read the body of a macro as an expression in which a name of a macro stands for the tree of its definition, and a call stands for the tree of the definition with the trees of the arguments in place of the parameters (types may be passed and defined, too); every definition and argument has to be of the level of precedence of the place where it stands. Then expanding the macro and parsing the resulting text gives this tree, and what is generated is what is generated for this tree. So a reader of a header may understand macros one by one.", "quantifier": "all definition histories, all bodies built with all operators, casts, calls, members, nested macro calls and self-referring macros, of any size and depth", "why_tests_cant": "Expansion works on text and the parser on the result; that the structure of the definitions survives the detour is a statement about all nestings of macros in macros.", "anchors": ["src/macro_set/mod.rs: MacroSet::expand_var_macro", "src/macro_set/mod.rs: MacroSet::expand_fn_macro", "src/macro_set/mod.rs: MacroSet::collect_args", "src/macro_set/mod.rs: MacroSet::expand_arguments", "src/var_macro.rs: VarMacro::parse", "src/fn_macro.rs: FnMacro::parse", "src/ast/expr.rs: Expr::parse"]}
{"id": "C110", "title": "Macros are functions of values", "statement": "Give every macro a value and every macro with parameters a function from values to values, by the rules of C for integer constants (types of constants, promotions, common types, division, shifts), never looking at replaced text; definitions and arguments have to be of the level of precedence of the place where they stand. Then the constant generated for a macro has the value so computed.", "quantifier": "all definition histories, all nestings of macros in macros and in arguments, all widths of the integer types", "why_tests_cant": "Relates expansion, parsing and folding at once: the value of a call has to be the value of the body at the values of the arguments, at any depth of nesting.", "anchors": ["src/macro_set/mod.rs: MacroSet::expand_var_macro", "src/macro_set/mod.rs: MacroSet::expand_arguments", "src/var_macro.rs: VarMacro::parse", "src/var_macro.rs: VarMacro::generate", "src/ast/expr.rs: Expr::parse", "src/ast/binary_expr.rs: BinaryExpr::finish"]}
{"id": "C111", "title": "Parentheses around a definition change nothing", "statement": "Put parentheses around the definitions of any of the macros of a header. Then a macro whose body stands for an expression (as in C109) is expanded and parsed to the same expression as before.", "quantifier": "all definition histories, all sets of macros whose definitions get parentheses, at any depth of nesting", "why_tests_cant": "Compares the results for two headers; one would have to try all sets of definitions and all places where the macros are used.", "anchors": ["src/macro_set/mod.rs: MacroSet::expand_var_macro", "src/macro_set/mod.rs: MacroSet::expand_fn_macro", "src/ast/expr.rs: Expr::parse", "src/ast/expr.rs: Expr::parse_factor", "src/var_macro.rs: VarMacro::parse", "src/fn_macro.rs: FnMacro::parse"]}
{"id": "C112", "title": "Another name for a macro is the same macro", "statement": "Let a header define g(x, y) as f(x, y), or g(x, ...) as f(x, __VA_ARGS__), or a as b, and let f (or b) not use the new name. Then the two macros have the same parameters and the same expansion, or the same error is reported; for a and b the same constant is generated, and for g(x, y) the code of f under the name g, if the context says the same about both names.", "quantifier": "all definition histories without # and ##, all names, all parameter lists, all bodies that the rules of the standard expand", "why_tests_cant": "Relates the results for two macros, for all bodies, at any depth of nesting; what is hidden during expansion differs between the two.", "anchors": ["src/macro_set/mod.rs: MacroSet::expand_var_macro", "src/macro_set/mod.rs: MacroSet::expand_fn_macro", "src/macro_set/mod.rs: MacroSet::expand_macro_body", "src/var_macro.rs: VarMacro::parse", "src/var_macro.rs: VarMacro::generate"]}
{"id": "C113", "title": "Writing out a macro by hand changes nothing", "statement": "Let #define x b, where b has matching brackets, no comma outside of them, and does not lead back to x. Write b in place of x in a text, or in the definition of another macro. Then the expansion and the generated code are the same, or the same error is reported.", "quantifier": "all definition histories without # and ##, all texts and definitions that the rules of the standard expand, all occurrences of x, also inside the arguments of calls", "why_tests_cant": "Relates the results for two texts, or two headers, for all texts; what is hidden during expansion differs between the two.", "anchors": ["src/macro_set/mod.rs: MacroSet::expand", "src/macro_set/mod.rs: MacroSet::expand_var_macro", "src/macro_set/mod.rs: MacroSet::expand_fn_macro", "src/macro_set/mod.rs: MacroSet::expand_macro_body", "src/macro_set/mod.rs: MacroSet::collect_args"]}
{"id": "C114", "title": "Definitions can be expanded beforehand", "statement": "Let the rules of the standard expand a text, or the definition of a macro, to a text, that is, without names that are withheld. If this text is written instead, the expansion and the generated code are the same, or the same error is reported.", "quantifier": "all definition histories without # and ##, all texts and definitions of variable-like, function-like and variadic macros that the rules of the standard expand to a text", "why_tests_cant": "Relates the results for two texts, or two headers, for all texts and all expansions of any depth.", "anchors": ["src/macro_set/mod.rs: MacroSet::expand", "src/macro_set/mod.rs: MacroSet::expand_var_macro", "src/macro_set/mod.rs: MacroSet::expand_fn_macro", "src/macro_set/mod.rs: MacroSet::expand_macro_body"]}
