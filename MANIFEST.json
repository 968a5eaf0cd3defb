{
 "claims": [
  {
   "property": "C01",
   "status": "proved",
   "theorems": [
    "CMacro.C01_never_both_kinds"
   ],
   "note": "For every call history from MacroSet::new()."
  },
  {
   "property": "C02",
   "status": "proved",
   "theorems": [
    "CMacro.C02_store_refines_table",
    "CMacro.C02_last_definition_wins",
    "CMacro.C02_last_definition_wins_fn",
    "CMacro.C02_other_names_untouched"
   ],
   "note": "Refinement to a single name-indexed table, plus the last-definition and frame consequences."
  },
  {
   "property": "C03",
   "status": "partial",
   "theorems": [
    "CMacro.C03_false",
    "CMacro.C03_redefinition_report_partial",
    "CMacro.C03_equal_length_partial"
   ],
   "note": "The full statement C03_statement is false (C03_false: a body that extends the old one is not reported). Proved: the report is exact when the significant lengths agree, or the definition kinds differ, or the macro is new."
  },
  {
   "property": "C04",
   "status": "proved",
   "theorems": [
    "CMacro.C04_undefine_reports",
    "CMacro.C04_undefine_twice"
   ],
   "note": ""
  },
  {
   "property": "C05",
   "status": "proved",
   "theorems": [
    "CMacro.C05_only_definitions_matter",
    "CMacro.C05_definition_order"
   ],
   "note": "For all pairs of histories with the same final table, for all three calls and every call depth."
  },
  {
   "property": "C06",
   "status": "proved",
   "theorems": [
    "CMacro.C06_var_not_found",
    "CMacro.C06_fn_not_found",
    "CMacro.C06_expand_never_not_found"
   ],
   "note": ""
  },
  {
   "property": "C07",
   "status": "partial",
   "theorems": [
    "CMacro.C07_loop_never_returns",
    "CMacro.C07_false",
    "CMacro.C07_var_macros_terminate_partial",
    "CMacro.C07_nested_calls_terminate_partial",
    "CMacro.C07_defined_macros_terminate_partial"
   ],
   "note": "The full statement C07_statement is false: C07_loop_never_returns exhibits a set of three function-like macros on which expand runs forever. Proved: termination of all three calls when only variable-like macros are defined (any bodies), and of expand for well-nested function-like macros (possibly recursive) on complete text, and of expand_var_macro and expand_fn_macro in such sets (C07_defined_macros_terminate_partial), all without # and ##."
  },
  {
   "property": "C08",
   "status": "proved",
   "theorems": [
    "CMacro.C08_var_expansion_is_textbook",
    "CMacro.C08_expand_var_macro_is_textbook"
   ],
   "note": "Equality with an inductively defined textbook relation, which is proved total for variable-like macros. Texts and bodies free of #, ## and leading line continuations; every spelling is a C token."
  },
  {
   "property": "C09",
   "status": "proved",
   "theorems": [
    "CMacro.C09_own_definition_not_consulted"
   ],
   "note": "For every reachable set, all bodies, and every call depth; macro names are non-empty."
  },
  {
   "property": "C10",
   "status": "proved",
   "theorems": [
    "CMacro.C10_no_macro_name_survives"
   ],
   "note": ""
  },
  {
   "property": "C11",
   "status": "proved",
   "theorems": [
    "CMacro.C11_c_text_unchanged",
    "CMacro.C11_inert_text_unchanged"
   ],
   "note": "C11_inert_text_unchanged for any text, with the class each spelling has for the library; C11_c_text_unchanged for text given as C tokens (names, punctuators, comments, integer constants, decimal floating constants, ordinary character constants and strings), where the result is stated without reference to the library."
  },
  {
   "property": "C12",
   "status": "partial",
   "theorems": [
    "CMacro.C12_false",
    "CMacro.C12_wrong_count_rejected_partial",
    "CMacro.C12_error_is_true"
   ],
   "note": "The full statement C12_statement is false (C12_false: a parameterless macro accepts F(,1)). Proved: every other wrong count is rejected with the right numbers, and conversely the error is only reported for a defined macro with that number of parameters and a different number of arguments (any input, all three calls)."
  },
  {
   "property": "C13",
   "status": "partial",
   "theorems": [
    "CMacro.C13_panics",
    "CMacro.C13_false",
    "CMacro.C13_no_panic_without_paste_partial",
    "CMacro.C13_no_panic_with_paste_partial"
   ],
   "note": "The full statement C13_statement is false (C13_panics: four witnesses). Proved: no panic without ##, and no panic with ## when there are no comments, quotation marks and #; macros with ... have at most one named parameter in both."
  },
  {
   "property": "C14",
   "status": "proved",
   "theorems": [
    "CMacro.C14_call_substitutes",
    "CMacro.C14_nested_calls"
   ],
   "note": "Simultaneous substitution for any one call in otherwise macro-free text; the textbook relation for nested calls."
  },
  {
   "property": "C15",
   "status": "proved",
   "theorems": [
    "CMacro.C15_split_unique",
    "CMacro.C15_collect_args",
    "CMacro.C15_ith_argument",
    "CMacro.C15_no_argument_list"
   ],
   "note": "collect_args agrees with a bracket grammar in both directions, the split is unique, and both outcomes are observed through expand."
  },
  {
   "property": "C16",
   "status": "partial",
   "theorems": [
    "CMacro.C16_false",
    "CMacro.C16_paste_joins_spellings_partial",
    "CMacro.C16_call_joins_arguments"
   ],
   "note": "The full statement C16_statement is false (C16_false: a ## \\u0401 is accepted although a\\u0401 is rejected as a token, the defect of C49). Proved: operands without a backslash paste to the token spelled by their concatenation, and a call pastes its arguments."
  },
  {
   "property": "C17",
   "status": "proved",
   "theorems": [
    "CMacro.C17_paste_at_start",
    "CMacro.C17_paste_at_end"
   ],
   "note": ""
  },
  {
   "property": "C18",
   "status": "partial",
   "theorems": [
    "CMacro.C18_false",
    "CMacro.C18_spells_argument_partial"
   ],
   "note": "The full statement C18_statement is false (C18_false: with #define G(y) S(1 y) the parameter moves in front of the text). Proved: the first half, for a call in the text given to expand."
  },
  {
   "property": "C19",
   "status": "proved",
   "theorems": [
    "CMacro.C19_invalid_list_rejected",
    "CMacro.C19_duplicate_named"
   ],
   "note": "Parameter spellings do not begin with a line continuation."
  },
  {
   "property": "C20",
   "status": "partial",
   "theorems": [
    "CMacro.C20_false",
    "CMacro.C20_references_in_range_partial",
    "CMacro.C20_parameters_numbered"
   ],
   "note": "The full statement C20_statement is false (C20_false: a comment in the parameter list shifts the index of __VA_ARGS__). Proved for parameter lists without comments; also the exact numbering of references in macro-free bodies."
  },
  {
   "property": "C21",
   "status": "proved",
   "theorems": [
    "CMacro.C21_no_argument_references"
   ],
   "note": ""
  },
  {
   "property": "C22",
   "status": "proved",
   "theorems": [
    "CMacro.C22_variadic_call"
   ],
   "note": ""
  },
  {
   "property": "C23",
   "status": "proved",
   "theorems": [
    "CMacro.C23_identifiers_exact"
   ],
   "note": "Tokens without backslashes; escapes are C49."
  },
  {
   "property": "C24",
   "status": "proved",
   "theorems": [
    "CMacro.C24_value",
    "CMacro.C24_overflow_rejected"
   ],
   "note": "All digit strings of any length in bases 2, 8, 10 and 16, with every suffix."
  },
  {
   "property": "C25",
   "status": "proved",
   "theorems": [
    "CMacro.C25_suffixes_exact"
   ],
   "note": "Trailing text that could continue the number (hexadecimal digits, a dot, x) is excluded, as it changes what the digits are."
  },
  {
   "property": "C26",
   "status": "proved",
   "theorems": [
    "CMacro.C26_folding_exact",
    "CMacro.C26_folding_exact_fn"
   ],
   "note": "All expression trees over integer literals with unary + and -, and the ten folded binary operators."
  },
  {
   "property": "C27",
   "status": "partial",
   "theorems": [
    "CMacro.C27_false",
    "CMacro.C27_panics",
    "CMacro.C27_var_partial",
    "CMacro.C27_fn_partial",
    "CMacro.C27_harmless_partial"
   ],
   "note": "The full statement C27_statement is false: `#define Z 1 / 0` panics while folding (C27_false). C27_panics lists the other ways: a remainder by zero, `#` before __VA_ARGS__, __VA_ARGS__ behind a comment in the parameter list, and a matching constraint of inline assembly whose number is not below the number of inputs. Proved that nothing else panics: if quotients, `#` and matching constraints are as required by Spec.SteadyBody and every parameter the body refers to exists, generate returns Ok or Err (C27_var_partial, C27_fn_partial); in particular without `/`, `%`, `#` and asm in the expansion and without comments in the parameter list (C27_harmless_partial). The context must answer with types and paths made of identifiers."
  },
  {
   "property": "C28",
   "status": "proved",
   "theorems": [
    "CMacro.C28_cast_literal",
    "CMacro.C28_cast_literal_fn"
   ],
   "note": "Cast of an integer literal to a type the context does not rename; both kinds of macro."
  },
  {
   "property": "C29",
   "status": "proved",
   "theorems": [
    "CMacro.C29_bytes",
    "CMacro.C29_octal_round_trip"
   ],
   "note": "All strings over raw characters, simple, octal and two-digit hexadecimal escapes and universal character names outside U+0080 to U+00FF; round trip for all byte strings."
  },
  {
   "property": "C30",
   "status": "partial",
   "theorems": [
    "CMacro.C30_false",
    "CMacro.C30_u8_false",
    "CMacro.C30_utf8_partial"
   ],
   "note": "The full statement C30_statement is false (C30_false: \\u00e9 becomes the byte 0xE9; C30_u8_false: u8 rejects it). Proved for universal character names outside U+0080 to U+00FF."
  },
  {
   "property": "C31",
   "status": "proved",
   "theorems": [
    "CMacro.C31_exact",
    "CMacro.C31_range"
   ],
   "note": "Exact acceptance for literals in the grammar (hexadecimal escapes with two digits), and the range for any accepted text."
  },
  {
   "property": "C32",
   "status": "proved",
   "theorems": [
    "CMacro.C32_string_constants",
    "CMacro.C32_string_pointers"
   ],
   "note": "Constants of variable-like macros and pointers in function-like macros, all five kinds of literals."
  },
  {
   "property": "C33",
   "status": "partial",
   "theorems": [
    "CMacro.C33_false",
    "CMacro.C33_qualifiers_partial"
   ],
   "note": "The full statement C33_statement is false (C33_false: `volatile int volatile` becomes const). Proved for all other pairs of qualifiers and all type names; permuted words of one list are covered; the qualifiers of pointers are the subject of C100."
  },
  {
   "property": "C34",
   "status": "partial",
   "theorems": [
    "CMacro.C34_false",
    "CMacro.C34_roundtrip_partial"
   ],
   "note": "The full statement C34_statement is false (C34_false: long double becomes f64, which becomes double). Proved for all other built-in types and pointers to them; size_t only for nightly targets."
  },
  {
   "property": "C35",
   "status": "proved",
   "theorems": [
    "CMacro.C35_grammar",
    "CMacro.C35_var_grammar",
    "CMacro.C35_fn_grammar",
    "CMacro.C35_unambiguous",
    "CMacro.C35_round_trip"
   ],
   "note": "C35_round_trip for operator trees (all binary, prefix, postfix, conditional and assignment operators but && and ||, see C36) over names and literals, written with the fewest parentheses. C35_var_grammar and C35_fn_grammar say the same for every token sequence of the grammar Spec.Gram, with calls, indices, members, casts to built-in types and sizeof; C35_unambiguous follows."
  },
  {
   "property": "C36",
   "status": "partial",
   "theorems": [
    "CMacro.C36_false",
    "CMacro.C36_logical_rejected_partial"
   ],
   "note": "The claim is false: `a && b` is rejected (C36_false), because no rule of the expression grammar mentions `&&` or `||` (src/ast/expr.rs:277-306 goes from `|` to `?:`). What is proved is the opposite for every body: whatever contains `&&` or `||` is rejected."
  },
  {
   "property": "C37",
   "status": "partial",
   "theorems": [
    "CMacro.C37_partial",
    "CMacro.C37_block_partial",
    "CMacro.C37_one_tree_partial",
    "CMacro.C37_false",
    "CMacro.C37_false_shift",
    "CMacro.C37_false_deref",
    "CMacro.C37_false_if",
    "CMacro.C37_false_block",
    "CMacro.C37_false_step",
    "CMacro.C37_unary_plus"
   ],
   "note": "The full statement C37_statement is false: `(int)x < y` is printed as `$x as c_int < $y`, which Rust does not accept (C37_false); `x - (int)y << z` loses its grouping the same way although a lone cast before `<<` is put in parentheses (C37_false_shift); `*(-1 + x)` is printed as `*-1.add($x)` (C37_false_deref); unary plus does not exist in Rust (C37_unary_plus); `x ? (y ? x : z) + 1 : 0` is printed with an `if` at the start of a block, where Rust ends the expression after the `else` block (C37_false_if); `x ? y++ + 1 : 0` fails the same way with the block of the increment (C37_false_block); `*(*x)++` is printed with `*$x = *$x.add(1)`, which moves the wrong pointer before it is read (C37_false_step). Proved for names, literals, calls, fields, prefix operators, casts, all binary operators, assignments and increments (written as blocks), `*p++` and `*--p` for a variable or member `p`, and `?:`, when no operand ending in a cast stands before `<` or `<<`, no negative literal before a method or field, and no operator is applied to a `?:`, an assignment or an increment at the start of a block. C37_block_partial is the same for the body of a function, which is read as the text of a block. The parser of Rust expressions is part of the specification."
  },
  {
   "property": "C38",
   "status": "partial",
   "theorems": [
    "CMacro.C38_false",
    "CMacro.C38_volatile_assign_partial",
    "CMacro.C38_volatile_step"
   ],
   "note": "The full statement C38_statement is false (C38_false: -= prints an addition). Proved for = and +=. C38_volatile_step (holds without exception): ++ and -- on an object behind a pointer to volatile read it once, write back the value plus or minus one once, and yield the new or the old value."
  },
  {
   "property": "C39",
   "status": "partial",
   "theorems": [
    "CMacro.C39_false",
    "CMacro.C39_logical_not_partial"
   ],
   "note": "The full statement C39_statement is false (C39_false: `!x` for an integer parameter is printed as Rust's complement). Proved for constant operands without suffix."
  },
  {
   "property": "C40",
   "status": "partial",
   "theorems": [
    "CMacro.C40_names_partial",
    "CMacro.C40_false",
    "CMacro.C40_false_constant"
   ],
   "note": "The full statement C40_statement is false: `(x) - y * z` becomes `($x - $y) * $z` (C40_false) and `(x) - 1` becomes `-1i8 as $x` (C40_false_constant). Proved when the operand is on the unary level and is a tree of binary operators over names; for `*` the types of the names must not be known, since code generation refuses to dereference a non-pointer before it looks at the cast."
  },
  {
   "property": "C41",
   "status": "proved",
   "theorems": [
    "CMacro.C41_function_only_if_typed"
   ],
   "note": "All bodies, statements and asm included."
  },
  {
   "property": "C42",
   "status": "proved",
   "theorems": [
    "CMacro.C42_no_metavariables"
   ],
   "note": "All bodies, statements and asm included. Hypotheses: the code given for enumeration variants has no $, and ... is only the last parameter."
  },
  {
   "property": "C43",
   "status": "partial",
   "theorems": [
    "CMacro.C43_false",
    "CMacro.C43_constants_partial"
   ],
   "note": "The full statement C43_statement is false (C43_false: `#define M E = 1` for an enumeration variant E is exported as a constant). Proved for expressions without assignments, ++/-- and ##, with no * inside a cast operand."
  },
  {
   "property": "C44",
   "status": "partial",
   "theorems": [
    "CMacro.C44_false",
    "CMacro.C44_templates_partial"
   ],
   "note": "False as stated: single braces are passed on (C44_false). Proved for every template without braces and without `%%`; operand modifiers such as `%b0` are outside the specified C templates."
  },
  {
   "property": "C45",
   "status": "proved",
   "theorems": [
    "CMacro.C45_parameters_reach_parse"
   ],
   "note": "Hypothesis: no parameter spelling begins with a line continuation (backslash, newline)."
  },
  {
   "property": "C46",
   "status": "proved",
   "theorems": [
    "CMacro.C46_punctuators",
    "CMacro.C46_paste"
   ],
   "note": "The punctuators are those the library's table lists; pasting is compared on all pairs."
  },
  {
   "property": "C47",
   "status": "partial",
   "theorems": [
    "CMacro.C47_exact",
    "CMacro.C47_false",
    "CMacro.C47_sign_first_partial",
    "CMacro.C47_iff_partial",
    "CMacro.C47_never_wrong"
   ],
   "note": "C47_false: `sizeof(long unsigned int)` is read as a call of a function named sizeof. C47_exact gives the reading of every order; it is the right type exactly when the sign comes first and is not alone (C47_iff_partial), and never a wrong built-in type (C47_never_wrong)."
  },
  {
   "property": "C48",
   "status": "partial",
   "theorems": [
    "CMacro.C48_false",
    "CMacro.C48_nothing_lost_partial",
    "CMacro.C48_depth_never_matters",
    "CMacro.C48_no_truncation"
   ],
   "note": "C48_false: of `x ## 099999999999999999999999q` only `x ## 0` is kept. Proved when continuations have at most 19 ASCII letters, digits and underscores: nothing but punctuation, comments and keywords is missing from the tree. Termination and consuming the whole body are proved without that condition."
  },
  {
   "property": "C49",
   "status": "partial",
   "theorems": [
    "CMacro.C49_false",
    "CMacro.C49_universal_names_partial",
    "CMacro.C49_exact"
   ],
   "note": "The full statement C49_statement is false (C49_false: a\\u0401 is not recognised although it denotes a Cyrillic identifier). Proved: tokens that start with a universal character name (more may follow) and tokens without backslashes. Missing: a first universal character name after an ordinary character; C49_exact shows that these are never accepted, so the restriction is exact."
  },
  {
   "property": "C50",
   "status": "partial",
   "theorems": [
    "CMacro.C50_false",
    "CMacro.C50_bad_octal_rejected_partial"
   ],
   "note": "The full statement C50_statement is false (C50_false: 08 is read as 8). Proved: rejection when an octal digit follows the zero and the octal digits before the first 8 or 9 stay below 2^127."
  },
  {
   "property": "C51",
   "status": "proved",
   "theorems": [
    "CMacro.C51_unicode_strings",
    "CMacro.C51_wide_strings"
   ],
   "note": ""
  },
  {
   "property": "C52",
   "status": "partial",
   "theorems": [
    "CMacro.C52_false",
    "CMacro.C52_two_digit_hex_partial"
   ],
   "note": "The full statement C52_statement is false (C52_false: a string with \\x1 is rejected). Proved for escapes with exactly two digits. C102_strings says exactly what becomes of the others: one digit is rejected, from the third digit on they are characters of their own."
  },
  {
   "property": "C53",
   "status": "partial",
   "theorems": [
    "CMacro.C53_char_exact",
    "CMacro.C53_chars_partial",
    "CMacro.C53_chars_false",
    "CMacro.C53_u_strings_partial",
    "CMacro.C53_u_strings_false",
    "CMacro.C53_wide_false",
    "CMacro.C53_false",
    "CMacro.C53_bad_names_partial"
   ],
   "note": "The full statement C53_statement is false (C53_false: U'\\UFFFFFFFF' is accepted). Proved: ordinary, u8 and U strings reject such names whatever follows (C53_bad_names_partial); a u string rejects one such name between texts that are read correctly (C53_u_strings_partial), but takes two of them in a row for the halves of a character (C53_u_strings_false); a character literal accepts such a name exactly if its number fits the kind (C53_char_exact), so ordinary and u8 ones reject all of them (C53_chars_partial), U and L ones accept all of them (C53_chars_false); L strings accept all of them (C53_wide_false)."
  },
  {
   "property": "C54",
   "status": "partial",
   "theorems": [
    "CMacro.C54_false",
    "CMacro.C54_operands_kept_partial"
   ],
   "note": "The full statement C54_statement is false (C54_false: CAT(y, X) with X defined as 1 gives y1). Proved for arguments that contain no macro names."
  },
  {
   "property": "C55",
   "status": "proved",
   "theorems": [
    "CMacro.C55_codegen_terminates",
    "CMacro.C55_codegen_deterministic"
   ],
   "note": "All syntax trees, also those no parser produces; stack size is not modelled."
  },
  {
   "property": "C56",
   "status": "partial",
   "theorems": [
    "CMacro.C56_false",
    "CMacro.C56_adjacent_literals_partial"
   ],
   "note": "The full statement C56_statement is false (C56_false: `u\"a\" \"b\"` becomes bytes). Proved for literals without prefix."
  },
  {
   "property": "C57",
   "status": "partial",
   "theorems": [
    "CMacro.C57_false",
    "CMacro.C57_literal_rejected",
    "CMacro.C57_paste_name_partial"
   ],
   "note": "C57_false: `arg ## 2` is rejected, because expansion yields a literal after ## and the parser accepts none there (C57_literal_rejected). Pasting with a name or another parameter is proved."
  },
  {
   "property": "C58",
   "status": "partial",
   "theorems": [
    "CMacro.C58_right_nested",
    "CMacro.C58_false",
    "CMacro.C58_partial"
   ],
   "note": "The full statement C58_statement is false: `(x) - (y) - (z)` becomes `$x - ($y - $z)` (C58_false). C58_right_nested says what every chain of sums and differences of parenthesised parameters becomes; it is right only for chains of at most one operator (C58_partial)."
  },
  {
   "property": "C59",
   "status": "proved",
   "theorems": [
    "CMacro.C59_constant_has_c_value"
   ],
   "note": "C59_constant_has_c_value composes C08/C14 (expansion), C11/C23/C24 (tokens), C35 (grammar) and C26 (folding). Expansion, tokens, grammar and values are relations of the specification, names are the identifiers of C (Spec.cName). Values are mathematical integers; the types of C are the subject of C63."
  },
  {
   "property": "C60",
   "status": "partial",
   "theorems": [
    "CMacro.C60_partial",
    "CMacro.C60_var_partial",
    "CMacro.C60_false",
    "CMacro.C60_false_nested",
    "CMacro.C60_false_if"
   ],
   "note": "The full statement C60_statement is false: `do { … } while (c);` with its own semicolon is not a body, nor may it stand in a block (C60_false, C60_false_nested); `if (x) -p` without the last semicolon is read as a subtraction from a call of a function named if (C60_false_if). Proved for bodies that contain a `;` or a `{` and in which no do … while has its own semicolon. Declarations of functions with named parameters are read, those with the parameter list ( void ) are not (C97_false). The grammar leaves out the empty statement, loops other than do, jumps, comments, and expression statements that begin with a name and `*`."
  },
  {
   "property": "C61",
   "status": "partial",
   "theorems": [
    "CMacro.C61_partial",
    "CMacro.C61_false"
   ],
   "note": "The full statement C61_statement is false: in the loop generated for do … while, a `continue` of the body skips the test at the end of the loop (C61_false: the C statement ends, the Rust statement runs forever). Proved for all statements in which no `continue` stands in a do … while. The meaning of expression statements, declarations and conditions is a parameter; it is assumed that they are printed as C37 reads them (expressions without sizeof; assignments and increments as statements of their own; declarations with a type of one or more words), which leaves out asm and function declarations."
  },
  {
   "property": "C62",
   "status": "partial",
   "theorems": [
    "CMacro.C62_partial",
    "CMacro.C62_false"
   ],
   "note": "The full statement C62_statement is false: `*next() = 1` becomes `{ *next() = 1; *next() }`, which calls next twice (C62_false); the same holds for `=`, `+=`, `-=`, `&=`, `^=`, `|=`, `++` and `--`, while `(x *)0` drops x. Proved for all bodies in which the name does not stand in something assigned to or incremented in this way, in a pointer type or (as a plain name) as a type that the user of the crate may replace, in a stringified pasted name, and no input of an asm has the number of an output as its constraint. Counts occurrences in the generated text: the two branches of ?: and if count as in C."
  },
  {
   "property": "C63",
   "status": "partial",
   "theorems": [
    "CMacro.C63_no_wrap_partial",
    "CMacro.C63_signed_partial",
    "CMacro.C63_text_partial",
    "CMacro.C63_false"
   ],
   "note": "The full statement C63_statement is false: `1U - 2` is 4294967295 in C (32-bit int), but the constant is -1 (C63_false), because folding ignores the types of the operands. Proved when no value wraps around (C63_no_wrap_partial), in particular when all constants have signed types (C63_signed_partial), and from the definitions on (C63_text_partial, with expansion, lexing and parsing as in C59). A syntax tree does not say whether a constant was written in decimal; the types of both ways are allowed. Not folded, hence outside: ~, comparisons, logical operators and ?:."
  },
  {
   "property": "C64",
   "status": "partial",
   "theorems": [
    "CMacro.C64_total_partial",
    "CMacro.C64_total_bool_partial",
    "CMacro.C64_text_partial",
    "CMacro.C64_partial",
    "CMacro.C64_bool_partial",
    "CMacro.C64_false",
    "CMacro.C64_false_bool",
    "CMacro.C64_false_promote",
    "CMacro.C64_false_if",
    "CMacro.C64_false_keyword",
    "CMacro.C64_false_wrap"
   ],
   "note": "The full statement C64_statement is false: for an unsigned int x and a long y, `x + y + x` becomes a function that returns c_uint and adds a c_uint and a c_long, which Rust does not allow; in C it is a long (C64_false); comparisons are an int in C, but the function returns bool (C64_false_bool); `( x ? x : z ) + 1` becomes `if x != 0 { x } else { z } + 1`, which is no expression at the start of a function body (C64_false_if); for an unsigned char x, `x + x` becomes a function that returns c_uchar and overflows for 200, while C promotes the operands and gives the int 400 (C64_false_promote, twice_overflows); unsigned subtraction wraps around in C and overflows in Rust (C64_false_wrap); a parameter may be named by a keyword of Rust, such as `type` (C64_false_keyword). Proved for arithmetic, bitwise operators, shifts, casts and `?:` (C64_partial) and for comparisons, `!`, `&&` and `||` (C64_bool_partial: the function returns the bool that C answers; the parser rejects `&&` and `||`, see C36, so these only matter for its trees) when operands of different types are only combined with constants, no unsigned operation wraps around (Rust panics on overflow in debug builds), operands of types narrower than int are compared or cast but not computed with, unsigned numbers are not negated and constants are not shifted; shifts and casts, also casts of constants, may drop bits as in C; numbers are used as conditions only in `?:` and answers not as numbers. Operands that are not evaluated (behind `&&`, `||`, `?:`) must have a type, that is, a value for some parameters of the same types. No parameter may be named by a keyword of Rust, no cast stands directly before < or << (Separated) and no `if` at the start of a larger body (FitsBlock). rustEval_unique and rustEval_answer: a Rust expression has one value of each type, and one type if it has a name or a cast; a condition has one answer and is no number. Constants that code generation does not fold, such as ~5, belong to the full statement but not to the proved part. C64_total_partial and C64_total_bool_partial add that a function is generated at all, when the user declares integer types for the parameters and supplies no function of the same name; C64_text_partial starts from the definitions: the body is expanded by the textbook rules and read by the grammar of C (see C69, C35)."
  },
  {
   "property": "C65",
   "status": "partial",
   "theorems": [
    "CMacro.C65_partial",
    "CMacro.C65_false"
   ],
   "note": "The full statement C65_statement is false: a parameter named `crate` becomes `$crate`, which is not a parameter in Rust (C65_false). Proved when no parameter is named `crate`. Words that the code generator itself writes (Spec.ownWords) or that the user of the crate supplies may equal the name of a parameter; enum variants supplied by the user must not contain `$`. That the body has no plain name equal to a parameter is a hypothesis (ParamsReplaced): the parser replaces parameters before it reads the body."
  },
  {
   "property": "C66",
   "status": "partial",
   "theorems": [
    "CMacro.C66_partial",
    "CMacro.C66_false"
   ],
   "note": "The full statement C66_statement is false: the parameter of `sizeof ( T )` is declared as expr (C66_false, size_expr), so is the name of a declared variable (decl_expr), and a part of the pasted name of a declared function (fn_expr). Proved for names of members, parts of pasted names other than names of declared functions, and names of declared functions, in both directions; the second direction assumes that what follows `.` or `->` in the tree is a name, which is what the parser builds (compare Gram.member in Spec/Grammar)."
  },
  {
   "property": "C67",
   "status": "partial",
   "theorems": [
    "CMacro.C67_partial",
    "CMacro.C67_false",
    "CMacro.C67_false_global",
    "CMacro.C67_false_prev"
   ],
   "note": "The full statement C67_statement is false: a parameter named `value` is hidden when the macro writes through a volatile pointer (C67_false), one named `prev` when it is incremented (C67_false_prev), and so is a variable outside the macro named `value` (C67_false_global). Proved for all names other than value, prev and _ (and mut, which is no name in Rust)."
  },
  {
   "property": "C68",
   "status": "partial",
   "theorems": [
    "CMacro.C68_partial",
    "CMacro.C68_bool_partial",
    "CMacro.C68_text_partial",
    "CMacro.C68_false",
    "CMacro.C68_false_mixed",
    "CMacro.C68_false_suffix",
    "CMacro.C68_false_limit"
   ],
   "note": "The full statement C68_statement is false: the operands are not promoted, so `(unsigned char) 200 << 2` becomes a c_uchar instead of the int 800 (C68_false); operands of different types are not converted, so `(long) 5 + (int) 2` becomes a constant without a type that adds a c_long and a c_int (C68_false_mixed); the suffix of a constant under `~` is lost, so `(unsigned long) ~0U` becomes `!0 as c_ulong` and has another value (C68_false_suffix); a constant is added to a predefined limit, or multiplied by it, as a number of the unsigned type, so `__SCHAR_MAX__ * 3` becomes a c_uchar, which cannot be 381 (C68_false_limit). Proved, including that generation succeeds, for the expressions of C64 without parameters: operands of different types are only combined with constants, operands narrower than int are compared or cast but not computed with, no unsigned operation wraps around, constants are not shifted or complemented, and no cast stands directly before < or << (Separated). Conditions become constants of the type bool (C68_bool_partial); in C they are an int. The predefined limits (__INT_MAX__ and so on) may occur; those of signed char and short, which C promotes, are left out, and a constant added to a limit or multiplied by it is one that C converts to the unsigned type. C68_text_partial starts from the definitions (see C59). Contexts are those in which the information supplied by the user prints (CalmCtx)."
  },
  {
   "property": "C69",
   "status": "proved",
   "theorems": [
    "CMacro.C69_fn_expansion"
   ],
   "note": "For definitions without # and ## (Plain). The rules of the preprocessor are the relation Expands (Spec/Expand.lean); the parameters of the macro itself are no names in it. Tokens that cannot be classified make the call fail instead, so the statement asks for a result for each token (outToken)."
  },
  {
   "property": "C70",
   "status": "proved",
   "theorems": [
    "CMacro.C70_call_composes",
    "CMacro.C70_restriction_needed"
   ],
   "note": "Well-nested means that every name of a function-like macro in a body is directly followed by its arguments, that brackets match and that no comma stands outside brackets. C70_restriction_needed shows that the equality does not hold for other sets, as in C: a macro name at the end of a body can find its arguments in an argument of the macro."
  },
  {
   "property": "C71",
   "status": "partial",
   "theorems": [
    "CMacro.C71_partial",
    "CMacro.C71_false",
    "CMacro.C71_false_unit",
    "CMacro.C71_false_f128",
    "CMacro.C71_false_self"
   ],
   "note": "The full statement is false of the code, with four witnesses: generic arguments are dropped (C71_false), `()` behind a pointer becomes `c_void`, `f128` becomes `f64`, the self type of `<S as T>::Item` is dropped. C71_partial: types built by pointers from paths without generic arguments, other than the names of some built-in types (StableTy)."
  },
  {
   "property": "C72",
   "status": "partial",
   "theorems": [
    "CMacro.C72_partial",
    "CMacro.C72_unit_partial",
    "CMacro.C72_false",
    "CMacro.C72_only_known"
   ],
   "note": "The full statement is false of the code: a parameter passed twice, as arguments of two types, has the first type for both (C72_false). C72_partial and C72_unit_partial: macros that pass each parameter as arguments of one type, for types that are written as given (C71), without types declared for the parameters themselves. C72_only_known is the converse, for arbitrary arguments."
  },
  {
   "property": "C73",
   "status": "partial",
   "theorems": [
    "CMacro.C73_partial",
    "CMacro.C73_false",
    "CMacro.C73_false_param"
   ],
   "note": "The full statement is false of the code: with a cast around it, a call with the wrong number of arguments (C73_false) or of a parameter (C73_false_param) ends up in a generated function. C73_partial: every function called by name is known."
  },
  {
   "property": "C74",
   "status": "partial",
   "theorems": [
    "CMacro.C74_partial",
    "CMacro.C74_false",
    "CMacro.C74_false_address"
   ],
   "note": "The full statement is false of the code for ++ and -- (C74_false) and for & (C74_false_address). C74_partial: the operators of assignment."
  },
  {
   "property": "C75",
   "status": "proved",
   "theorems": [
    "CMacro.C75_float_constants"
   ],
   "note": "What number a text denotes to Rust's from_str is not modelled; the literal keeps the text."
  },
  {
   "property": "C76",
   "status": "partial",
   "theorems": [
    "CMacro.C76_partial",
    "CMacro.C76_text_partial",
    "CMacro.C76_false",
    "CMacro.C76_false_suffix"
   ],
   "note": "The full statement is false of the code for integers that f32 cannot represent (C76_false) and for integers with suffixes (C76_false_suffix). C76_partial: integers without suffixes and of up to 24 bits, for every interpretation of the floating formats; C76_text_partial: the same from the definitions on."
  },
  {
   "property": "C77",
   "status": "partial",
   "theorems": [
    "CMacro.C77_partial",
    "CMacro.C77_false",
    "CMacro.C77_false_immediate",
    "CMacro.C77_false_volatile"
   ],
   "note": "The full statement is false of the code: asm(\"nop\") without semicolon is read as a call (C77_false), a constraint for constants only is read as a register (C77_false_immediate), and __volatile__ is not accepted (C77_false_volatile). C77_partial: at most one qualifier, volatile or inline, no braces or double percent signs in the template, operands that can be in registers, and a qualifier, colon or semicolon."
  },
  {
   "property": "C78",
   "status": "partial",
   "theorems": [
    "CMacro.C78_partial",
    "CMacro.C78_same_partial",
    "CMacro.C78_false",
    "CMacro.C78_false_removed",
    "CMacro.C78_false_number"
   ],
   "note": "The full statement is false of the code for matching constraints: the input is not read (C78_false), another input is removed (C78_false_removed), and the number of the input is not defined (C78_false_number). C78_partial: no matching constraints; C78_same_partial: one matching constraint for the same expression at the place where the right input is removed."
  },
  {
   "property": "C79",
   "status": "partial",
   "theorems": [
    "CMacro.C79_partial",
    "CMacro.C79_false",
    "CMacro.C79_false_flags"
   ],
   "note": "The full statement is false of the code: AT&T syntax is not declared for templates without %, $ and ({ (C79_false), and the flags are promised to be preserved (C79_false_flags). C79_partial: everything else, and exactly when the code declares the two. No matching constraints."
  },
  {
   "property": "C80",
   "status": "partial",
   "theorems": [
    "CMacro.C80_partial",
    "CMacro.C80_false",
    "CMacro.C80_false_not",
    "CMacro.C80_false_type"
   ],
   "note": "The full statement is false of the code: another cast is put around a character constant (C80_false), the number that !0 is folded to has no type, so that the function becomes a macro (C80_false_not), and a resolved type is resolved again (C80_false_type). C80_partial: bodies without such constructions (steadyBody) and contexts that answer the names they answer with by themselves (Settled); all expressions, statements and declarations of the syntax are covered."
  },
  {
   "property": "C81",
   "status": "partial",
   "theorems": [
    "CMacro.C81_false",
    "CMacro.C81_partial"
   ],
   "note": "The full statement is false of the code: whether T is a type is asked with the name it was resolved to, so (my_t)-x becomes MyT - x (C81_false). C81_partial: contexts that answer the names they answer with by themselves (Settled), operands without *."
  },
  {
   "property": "C82",
   "status": "partial",
   "theorems": [
    "CMacro.C82_false",
    "CMacro.C82_false_tree",
    "CMacro.C82_false_places",
    "CMacro.C82_partial",
    "CMacro.C82_read_partial"
   ],
   "note": "The full statement is false of the code: a comment at the end of an expression is an error (C82_false), so is one after a cast or inside a type, and sizeof before a comment is read as a call (C82_false_places); (A) /* c */ - B is read as a difference and (A) - B as a cast (C82_false_tree). C82_partial: parameter lists without restriction; bodies of nothing but comments; expressions of the grammar of C35 with comments in front, inside parentheses and brackets, around binary, assignment and conditional operators, members and commas, after prefix and before postfix operators. C82_read_partial: such a body is read as the tree the grammar gives. Missing: statements."
  },
  {
   "property": "C83",
   "status": "partial",
   "theorems": [
    "CMacro.C83_partial",
    "CMacro.C83_false",
    "CMacro.C83_false_sum",
    "CMacro.C83_text_partial"
   ],
   "note": "The full statement is false of the code: an ordinary character constant has the type int in C and c_char in the generated code (C83_false), so '\\x7f' + 1 leaves the type (C83_false_sum). C83_partial: the values of all constants that the lexer reads (see C31), and the types of all but the ordinary ones; hexadecimal escapes with two digits, and for L a type for wchar_t that holds the value. C83_text_partial: the same from the definitions on, with expansion."
  },
  {
   "property": "C84",
   "status": "proved",
   "theorems": [
    "CMacro.C84_fn",
    "CMacro.C84_var"
   ],
   "note": "The body of the generated item: types in the signature of a function and the type of a constant are not covered. The list is Spec.ownWords."
  },
  {
   "property": "C85",
   "status": "partial",
   "theorems": [
    "CMacro.C85_partial",
    "CMacro.C85_var_partial",
    "CMacro.C85_false"
   ],
   "note": "The full statement is false of the code: p->type is printed as ( * $ p ) . type (C85_false); names go to Ident::new without a check. C85_partial and C85_var_partial: macros in which the keyword is neither a name nor a parameter (from C84). Keywords that the code generator writes itself, such as loop, are left out."
  },
  {
   "property": "C86",
   "status": "partial",
   "theorems": [
    "CMacro.C86_paste_expands_partial",
    "CMacro.C86_paste_var_partial",
    "CMacro.C86_false",
    "CMacro.C86_false_marked"
   ],
   "note": "The full statement C86_statement is false of the code: arguments next to ## are expanded first (C86_false, as C54), and an empty argument next to ## takes the mark off a name, which is then replaced a second time (C86_false_marked: G ( f ) gives 1 + 1 + f). C86_paste_expands_partial and C86_paste_var_partial: arguments next to ## contain nothing to replace and no marked names; nested calls, variadic macros and any number of ## are covered. The relation joins words and numbers only: joins of punctuators (C46), string prefixes and a dot before a number, the # operator (C18) and expand_fn_macro are not covered."
  },
  {
   "property": "C87",
   "status": "partial",
   "theorems": [
    "CMacro.C87_const_partial",
    "CMacro.C87_fn_partial",
    "CMacro.C87_value_partial",
    "CMacro.C87_fn_value_partial",
    "CMacro.C87_false",
    "CMacro.C87_false_shift",
    "CMacro.C87_false_float",
    "CMacro.C87_false_neg"
   ],
   "note": "The full statement C87_statement is false of the code: !0 is the bool 1 (C87_false), the type of a shift comes from its right operand (C87_false_shift), f32 and f64 mix (C87_false_float), and - is applied to unsigned types (C87_false_neg). C87_const_partial and C87_fn_partial: if the expression has any Rust type, it has the declared one, when all floating types in it are the same, shifts are by constants, ! is applied to conditions and no cast stands where Rust would read on. C87_value_partial and C87_fn_value_partial: it has the declared type, when it has a value in C without conversions (the domains of C68 and C64). Aliases are not looked through: c_int and i32 count as different types."
  },
  {
   "property": "C88",
   "status": "partial",
   "theorems": [
    "CMacro.C88_partial",
    "CMacro.C88_bool_partial",
    "CMacro.C88_total_partial",
    "CMacro.C88_text_partial",
    "CMacro.C88_false",
    "CMacro.C88_false_bool",
    "CMacro.C88_false_promote",
    "CMacro.C88_false_wrap"
   ],
   "note": "The full statement C88_statement is false of the code: operands of different types are not converted (C88_false), a comparison is an int in C and a bool in Rust (C88_false_bool), small operands are not promoted (C88_false_promote), and unsigned operations do not wrap around (C88_false_wrap). C88_partial and C88_bool_partial hold without these; C88_total_partial adds that a macro is generated, and C88_text_partial starts at the definitions in C. The predefined limits may occur as in C68. The arguments are expressions with types of their own (no bare number), and are evaluated without side effects; a parameter is not called crate or _."
  },
  {
   "property": "C89",
   "status": "proved",
   "theorems": [
    "CMacro.C89",
    "CMacro.C89_fn"
   ],
   "note": "C89 for expand and expand_var_macro, C89_fn for expand_fn_macro. The error for a parameter name that is used twice mentions one of the names, which may be another one after renaming. The parameter names contain no universal character names."
  },
  {
   "property": "C90",
   "status": "proved",
   "theorems": [
    "CMacro.C90",
    "CMacro.C90_step"
   ],
   "note": "C90 for the three expansion functions, C90_step for one more definition or undefinition. The set of words is closed under concatenation if ## occurs in it. The words with a backslash are strings and characters. The Debug text of a string contains a quotation mark."
  },
  {
   "property": "C91",
   "status": "proved",
   "theorems": [
    "CMacro.C91_fn",
    "CMacro.C91_var"
   ],
   "note": "C91_fn and C91_var, for the answers of all methods of CodegenContext. Fields are compared for every name of a type, and only the name of the field has to be in the set. size_t has to be in the set although a macro need not mention it (example)."
  },
  {
   "property": "C92",
   "status": "proved",
   "theorems": [
    "CMacro.C92",
    "CMacro.C92_constants"
   ],
   "note": "C92 for any expression over the constants, C92_constants for the constants themselves. Names of definitions are assumed to be identifiers, and Debug output of strings to contain a quotation mark (as in C90). ~ is left out because it is not folded; comparisons and ? : are not folded either."
  },
  {
   "property": "C93",
   "status": "proved",
   "theorems": [
    "CMacro.C93",
    "CMacro.C93_elsewhere"
   ],
   "note": "C93; C93_elsewhere adds any other definitions, also with # and ##, as long as they are not reached. The specification reads a parameter at the lowest precedence, so that it has to be in parentheses next to an operator, and a definition at the highest. Not variadic macros. Operators as in C92."
  },
  {
   "property": "C94",
   "status": "proved",
   "theorems": [
    "CMacro.C94",
    "CMacro.C94_macro"
   ],
   "note": "C94 for generate on any body; C94_macro for the pipeline from two definitions that differ in names, with C89. The names must be identifiers or ..., and the context must declare the same types; an example shows that the latter is needed. An error about a parameter name used twice may mention another name."
  },
  {
   "property": "C95",
   "status": "proved",
   "theorems": [
    "CMacro.C95",
    "CMacro.C95_var",
    "CMacro.C95_macro"
   ],
   "note": "C95 for generate, with ... only as the last parameter; C95_macro from the definition, with C45 for the parameter list; C95_var for constants. The reader of items is written from the Rust grammar and does not use the model of generate. Tokens that the user supplies as opaque types count as one token. An example shows that the condition on the tokens of enum variants is needed."
  },
  {
   "property": "C96",
   "status": "proved",
   "theorems": [
    "CMacro.C96_limits",
    "CMacro.C96_text"
   ],
   "note": "C96_limits for the code generator, C96_text from the definitions on. The type is the one whose limit is written: in C, SCHAR_MAX, SHRT_MAX and the expressions made from them have the type int and the same value. Other expressions with these limits are within C64, C68 and C88; C68_false_limit shows where the inserted cast is wrong. The path of the module of the types begins with a name or with crate, self or super (Rooted)."
  },
  {
   "property": "C97",
   "status": "partial",
   "theorems": [
    "CMacro.C97_partial",
    "CMacro.C97_void",
    "CMacro.C97_static",
    "CMacro.C97_false",
    "CMacro.C97_false_void",
    "CMacro.C97_false_product"
   ],
   "note": "The full statement C97_statement is false of the code: the parameter list ( void ) is not read (C97_false), a function without a result is declared with the result c_void (C97_false_void, and C97_void for all such functions), and without the semicolon int * f ( ) is read as a product (C97_false_product). C97_static: the word static is dropped. C97_partial: functions with a result and named parameters, with the semicolon, for integer types, char, bool, float, double, pointers and named types that the context resolves to paths which are written as given (StableTy, see C71). The macro parameters have no declared types. Qualifiers (const), arrays, pointers to functions and unnamed parameters are not in the specification."
  },
  {
   "property": "C98",
   "status": "partial",
   "theorems": [
    "CMacro.C98_partial",
    "CMacro.C98_effect",
    "CMacro.C98_steady",
    "CMacro.C98_false",
    "CMacro.C98_false_unit",
    "CMacro.C98_false_prev"
   ],
   "note": "The full statement C98_statement is false of the code: *x++ = 0 is printed with the step twice (C98_false), y = (x *= 2) uses the value of an assignment that has none in Rust (C98_false_unit), and prev++ hides the variable prev that it is to change (C98_false_prev). Proved (C98_partial, an equation for every state, including the states without a result) for numbers, names, members, *, -, ~, arithmetic, calls, = += -= &= |= ^=, ++ and --, if what is assigned to is the same object when it is looked up again (Steady; C98_steady shows it for variables and their members) and no operator has two literal operands (folding is the subject of C26 and C63). C98_effect: *= /= %= <<= >>= at the top leave the same state. The meaning of operators, objects and functions is a parameter shared by both languages; types are not modelled here (see C64, C87). Operands are evaluated in the order of Rust, one of those C allows. Conditions, comparisons and casts are left out."
  },
  {
   "property": "C99",
   "status": "partial",
   "theorems": [
    "CMacro.C99_partial",
    "CMacro.C99_fn_partial",
    "CMacro.C99_offset_partial",
    "CMacro.C99_false",
    "CMacro.C99_false_param",
    "CMacro.C99_false_type"
   ],
   "note": "The full statement C99_statement is false of the code: __builtin_offsetof becomes mem::offsetof!, while the macro of Rust is core::mem::offset_of! (C99_false); a parameter that stands for the type of a sizeof is declared as an expression (C99_false_param); a named type in __builtin_offsetof is not replaced by the Rust type (C99_false_type). Proved: constants (C99_partial) and function-like macros (C99_fn_partial) that are sizeof of a type that is not a parameter; for __builtin_offsetof of two parameters (C99_offset_partial) both are handed over in order and declared as a type and a token tree, only the name of the macro is wrong. __builtin_offsetof with another number of arguments is an ordinary call (covered by C37, C72, C98)."
  },
  {
   "property": "C100",
   "status": "partial",
   "theorems": [
    "CMacro.C100_own",
    "CMacro.C100_exact",
    "CMacro.C100_partial",
    "CMacro.C100_false",
    "CMacro.C100_false_decl"
   ],
   "note": "The full statement C100_statement is false of the code: each pointer is written *const if const stands behind its own star, so that (const char *) x becomes a cast to *mut c_char (C100_false) and (char * const) x one to *const c_char; function declarations lose the const in the same way (C100_false_decl). Proved: what is generated in all cases (C100_own); the type is the right one if and only if const stands in every place of the C type or in none (C100_exact, C100_partial)."
  },
  {
   "property": "C101",
   "status": "proved",
   "theorems": [
    "CMacro.C101_pointer_constants"
   ],
   "note": "The declared type is the one that C100_own describes; whether it is the right one is the subject of C100. The value is that of C26, without the conversions of the integer types (C63)."
  },
  {
   "property": "C102",
   "status": "proved",
   "theorems": [
    "CMacro.C102_strings",
    "CMacro.C102_chars"
   ],
   "note": "About what the code accepts, which differs from C where C30, C52 and C53 say so: two-digit hexadecimal escapes, \\X, octal escapes above 255 and universal character names that name no character. The standard library's UTF-8 and UTF-16 decoders are modelled, and shown to invert the encoders."
  },
  {
   "property": "C103",
   "status": "proved",
   "theorems": [
    "CMacro.C103_integers"
   ],
   "note": "About what the code accepts, which differs from C where C50 says so (a zero before 8 or 9)."
  },
  {
   "property": "C104",
   "status": "proved",
   "theorems": [
    "CMacro.C104_tokens"
   ],
   "note": "About what the code accepts; where this differs from C is the subject of C49, C50, C52. __VA_ARGS__ is treated separately by the code (C20, C22)."
  },
  {
   "property": "C105",
   "status": "proved",
   "theorems": [
    "CMacro.C105_expand",
    "CMacro.C105_expand_var",
    "CMacro.C105_expand_fn"
   ],
   "note": "For texts that have an expansion by the textbook rules (all of them if only variable-like macros are defined, C08)."
  },
  {
   "property": "C106",
   "status": "proved",
   "theorems": [
    "CMacro.C106"
   ],
   "note": "No operator # or ## in bodies and text, no word that starts with a line continuation; ## and # make the spelling of names visible (examples beside the theorem)."
  },
  {
   "property": "C107",
   "status": "proved",
   "theorems": [
    "CMacro.C107_expands",
    "CMacro.C107",
    "CMacro.C107_objects"
   ],
   "note": "C107 for complete texts over well-nested definitions, C107_objects for variable-like macros only, C107_expands for any texts with a textbook expansion. A name of a function-like macro at the end of a text takes its arguments from the next one, as in C (example)."
  },
  {
   "property": "C108",
   "status": "partial",
   "theorems": [
    "CMacro.C108_false",
    "CMacro.C108_false_empty",
    "CMacro.C108_false_stringify",
    "CMacro.C108_partial",
    "CMacro.C108_objects_partial",
    "CMacro.C108_var_partial",
    "CMacro.C108_fn_partial"
   ],
   "note": "The full statement C108_statement is false of the code: with a comment between its name and the parentheses a macro is not called (C108_false), F(/* none */) has one argument too many (C108_false_empty), and # must stand directly before the parameter (C108_false_stringify). C108_partial: definitions without # and ## in which every name of a function-like macro is directly followed by its arguments; comments anywhere else, in arguments as well. C108_objects_partial and C108_var_partial: variable-like macros only, comments anywhere. C108_fn_partial: the expansion of a function-like macro on its own, variadic or not, whenever the textbook rules expand its body. Comments in parameter lists are the subject of C20."
  },
  {
   "property": "C109",
   "status": "proved",
   "theorems": [
    "CMacro.C109",
    "CMacro.C109_fn",
    "CMacro.C109_constant",
    "CMacro.C109_function",
    "CMacro.C109_value",
    "CMacro.C109_fn_value",
    "CMacro.C109_levels_needed"
   ],
   "note": "C109 and C109_fn: the text expands, and the result is parsed as the tree; C109_constant and C109_function: what is generated; C109_value and C109_fn_value: with C63 and C64, the value of a constant and of a function. C109_levels_needed: without the condition on the levels the statement would be false, as it is in C (SUM(1, 2) * 3). For definitions without # and ## (Plain) and without backslashes, macros that are not variadic, and arguments that are expressions or types. A name alone in parentheses is not read, because the code reads it as a type (C40)."
  },
  {
   "property": "C110",
   "status": "partial",
   "theorems": [
    "CMacro.C110_partial",
    "CMacro.C110_false"
   ],
   "note": "The full statement C110_statement is false of the code, as C63 is (C110_false: #define MINUS(a, b) a - b, #define BACK MINUS(1U, 2) is 4294967295 in C, the constant is -1). C110_partial: no unsigned operation wraps around; with + - * / % & | ^ << >>, signs, parentheses, macros and calls at any depth. Definitions without # and ## and without backslashes, macros that are not variadic."
  },
  {
   "property": "C111",
   "status": "partial",
   "theorems": [
    "CMacro.C111_partial",
    "CMacro.C111_fn_partial",
    "CMacro.C111_false"
   ],
   "note": "The full statement C111_statement is false of the code: with #define N (y) the text N + 1 is read as a conversion of +1 to the type y (C111_false, as C40). C111_partial and C111_fn_partial: the definitions that get parentheses do not begin with a name, or an operator other than * follows this name, so that they are neither names nor calls nor types. Otherwise as C109."
  },
  {
   "property": "C112",
   "status": "proved",
   "theorems": [
    "CMacro.C112_fn",
    "CMacro.C112_var",
    "CMacro.C112_variadic",
    "CMacro.C112_const",
    "CMacro.C112_fn_nested",
    "CMacro.C112_restriction_needed",
    "CMacro.C112_code",
    "CMacro.C112_code_variadic"
   ],
   "note": "C112_fn, C112_fn_nested (sets of definitions as in C07, in which every macro has an expansion), C112_variadic (#define g(x, ...) f(x, __VA_ARGS__)), C112_var, C112_const, C112_code and C112_code_variadic. C112_restriction_needed: with #define b a + 1 and #define a b the expansions differ, as in C. The parameters have the same names; by C89 the names make no difference."
  },
  {
   "property": "C113",
   "status": "proved",
   "theorems": [
    "CMacro.C113_text",
    "CMacro.C113_var",
    "CMacro.C113_fn",
    "CMacro.C113_restriction_needed",
    "CMacro.C113_code_var",
    "CMacro.C113_code_fn"
   ],
   "note": "C113_text, C113_var and C113_fn (variadic macros included; the parameters of the macro do not occur in b), and C113_code_var and C113_code_fn for the generated code. C113_restriction_needed: with a comma in b, FST(PAIR) and FST(1, 2) differ, as in C."
  },
  {
   "property": "C114",
   "status": "proved",
   "theorems": [
    "CMacro.C114_text",
    "CMacro.C114_var",
    "CMacro.C114_fn",
    "CMacro.C114_code_var",
    "CMacro.C114_code_fn",
    "CMacro.C114_restriction_needed",
    "CMacro.C114_total"
   ],
   "note": "C114_text, C114_var and C114_fn (variadic macros included), C114_code_var and C114_code_fn for the generated code. C114_total: in sets of definitions as in C07 in which no macro uses itself, every text with complete calls can be expanded beforehand, to a text without names of macros. C114_restriction_needed: with #define F F + 1 the text F expands to F + 1, and F + 1 to F + 1 + 1, as in C."
  }
 ]
}