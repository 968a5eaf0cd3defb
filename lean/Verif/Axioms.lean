import Verif.Props.Again
import Verif.Props.Alias
import Verif.Props.AliasCode
import Verif.Props.Ambig
import Verif.Props.Asm
import Verif.Props.AsmText
import Verif.Props.Assign
import Verif.Props.BadNames
import Verif.Props.Bare
import Verif.Props.BareFn
import Verif.Props.Beforehand
import Verif.Props.BeforehandTotal
import Verif.Props.CInt
import Verif.Props.CText
import Verif.Props.Calls
import Verif.Props.Chars
import Verif.Props.Codegen
import Verif.Props.Comments
import Verif.Props.Compose
import Verif.Props.ConstCast
import Verif.Props.Constants
import Verif.Props.Consult
import Verif.Props.Control
import Verif.Props.Eval
import Verif.Props.Expand
import Verif.Props.Export
import Verif.Props.FloatLex
import Verif.Props.Floats
import Verif.Props.FnDecl
import Verif.Props.FnExpand
import Verif.Props.FnTotal
import Verif.Props.FnValue
import Verif.Props.Fold
import Verif.Props.Fragment
import Verif.Props.Grammar
import Verif.Props.Hygiene
import Verif.Props.Inline
import Verif.Props.InlineCode
import Verif.Props.Invalid
import Verif.Props.InvalidFn
import Verif.Props.Lex
import Verif.Props.Limits
import Verif.Props.Logic
import Verif.Props.MacroValue
import Verif.Props.Metavar
import Verif.Props.NoPanic
import Verif.Props.Numbers
import Verif.Props.Occurs
import Verif.Props.Panics
import Verif.Props.Params
import Verif.Props.Parens
import Verif.Props.Parse
import Verif.Props.Paste
import Verif.Props.PasteExpand
import Verif.Props.Pipeline
import Verif.Props.Pointers
import Verif.Props.PtrConst
import Verif.Props.Reach
import Verif.Props.ReadInt
import Verif.Props.ReadText
import Verif.Props.ReadToken
import Verif.Props.Rename
import Verif.Props.RenameAll
import Verif.Props.RustItem
import Verif.Props.RustSyntax
import Verif.Props.RustTypes
import Verif.Props.SizeOf
import Verif.Props.Statements
import Verif.Props.Store
import Verif.Props.Stringify
import Verif.Props.Strings
import Verif.Props.Template
import Verif.Props.Text
import Verif.Props.Texts
import Verif.Props.Trees
import Verif.Props.Types
import Verif.Props.Value
import Verif.Props.Vocab
import Verif.Props.Worth
import Verif.Props.Wrapper

/-! Axioms of every property theorem; the build log shows at most
`propext`, `Classical.choice`, `Quot.sound`. -/

#print axioms CMacro.C01_never_both_kinds
#print axioms CMacro.C02_last_definition_wins
#print axioms CMacro.C02_last_definition_wins_fn
#print axioms CMacro.C02_other_names_untouched
#print axioms CMacro.C02_store_refines_table
#print axioms CMacro.C03_equal_length_partial
#print axioms CMacro.C03_false
#print axioms CMacro.C03_redefinition_report_partial
#print axioms CMacro.C04_undefine_reports
#print axioms CMacro.C04_undefine_twice
#print axioms CMacro.C05_definition_order
#print axioms CMacro.C05_only_definitions_matter
#print axioms CMacro.C06_expand_never_not_found
#print axioms CMacro.C06_fn_not_found
#print axioms CMacro.C06_var_not_found
#print axioms CMacro.C07_defined_macros_terminate_partial
#print axioms CMacro.C07_false
#print axioms CMacro.C07_loop_never_returns
#print axioms CMacro.C07_nested_calls_terminate_partial
#print axioms CMacro.C07_var_macros_terminate_partial
#print axioms CMacro.C08_expand_var_macro_is_textbook
#print axioms CMacro.C08_var_expansion_is_textbook
#print axioms CMacro.C09_own_definition_not_consulted
#print axioms CMacro.C100_exact
#print axioms CMacro.C100_false
#print axioms CMacro.C100_false_decl
#print axioms CMacro.C100_own
#print axioms CMacro.C100_partial
#print axioms CMacro.C101_pointer_constants
#print axioms CMacro.C102_chars
#print axioms CMacro.C102_strings
#print axioms CMacro.C103_integers
#print axioms CMacro.C104_tokens
#print axioms CMacro.C105_expand
#print axioms CMacro.C105_expand_fn
#print axioms CMacro.C105_expand_var
#print axioms CMacro.C106
#print axioms CMacro.C107
#print axioms CMacro.C107_expands
#print axioms CMacro.C107_objects
#print axioms CMacro.C108_false
#print axioms CMacro.C108_false_empty
#print axioms CMacro.C108_false_stringify
#print axioms CMacro.C108_fn_partial
#print axioms CMacro.C108_objects_partial
#print axioms CMacro.C108_partial
#print axioms CMacro.C108_var_partial
#print axioms CMacro.C109
#print axioms CMacro.C109_constant
#print axioms CMacro.C109_fn
#print axioms CMacro.C109_fn_value
#print axioms CMacro.C109_function
#print axioms CMacro.C109_levels_needed
#print axioms CMacro.C109_value
#print axioms CMacro.C10_no_macro_name_survives
#print axioms CMacro.C110_false
#print axioms CMacro.C110_partial
#print axioms CMacro.C111_false
#print axioms CMacro.C111_fn_partial
#print axioms CMacro.C111_partial
#print axioms CMacro.C112_code
#print axioms CMacro.C112_code_variadic
#print axioms CMacro.C112_const
#print axioms CMacro.C112_fn
#print axioms CMacro.C112_fn_nested
#print axioms CMacro.C112_restriction_needed
#print axioms CMacro.C112_var
#print axioms CMacro.C112_variadic
#print axioms CMacro.C113_code_fn
#print axioms CMacro.C113_code_var
#print axioms CMacro.C113_fn
#print axioms CMacro.C113_restriction_needed
#print axioms CMacro.C113_text
#print axioms CMacro.C113_var
#print axioms CMacro.C114_code_fn
#print axioms CMacro.C114_code_var
#print axioms CMacro.C114_fn
#print axioms CMacro.C114_restriction_needed
#print axioms CMacro.C114_text
#print axioms CMacro.C114_total
#print axioms CMacro.C114_var
#print axioms CMacro.C11_c_text_unchanged
#print axioms CMacro.C11_inert_text_unchanged
#print axioms CMacro.C12_error_is_true
#print axioms CMacro.C12_false
#print axioms CMacro.C12_wrong_count_rejected_partial
#print axioms CMacro.C13_false
#print axioms CMacro.C13_no_panic_with_paste_partial
#print axioms CMacro.C13_no_panic_without_paste_partial
#print axioms CMacro.C13_panics
#print axioms CMacro.C14_call_substitutes
#print axioms CMacro.C14_nested_calls
#print axioms CMacro.C15_collect_args
#print axioms CMacro.C15_ith_argument
#print axioms CMacro.C15_no_argument_list
#print axioms CMacro.C15_split_unique
#print axioms CMacro.C16_call_joins_arguments
#print axioms CMacro.C16_false
#print axioms CMacro.C16_paste_joins_spellings_partial
#print axioms CMacro.C17_paste_at_end
#print axioms CMacro.C17_paste_at_start
#print axioms CMacro.C18_false
#print axioms CMacro.C18_spells_argument_partial
#print axioms CMacro.C19_duplicate_named
#print axioms CMacro.C19_invalid_list_rejected
#print axioms CMacro.C20_false
#print axioms CMacro.C20_parameters_numbered
#print axioms CMacro.C20_references_in_range_partial
#print axioms CMacro.C21_no_argument_references
#print axioms CMacro.C22_variadic_call
#print axioms CMacro.C23_identifiers_exact
#print axioms CMacro.C24_overflow_rejected
#print axioms CMacro.C24_value
#print axioms CMacro.C25_suffixes_exact
#print axioms CMacro.C26_folding_exact
#print axioms CMacro.C26_folding_exact_fn
#print axioms CMacro.C27_false
#print axioms CMacro.C27_fn_partial
#print axioms CMacro.C27_harmless_partial
#print axioms CMacro.C27_panics
#print axioms CMacro.C27_var_partial
#print axioms CMacro.C28_cast_literal
#print axioms CMacro.C28_cast_literal_fn
#print axioms CMacro.C29_bytes
#print axioms CMacro.C29_octal_round_trip
#print axioms CMacro.C30_false
#print axioms CMacro.C30_u8_false
#print axioms CMacro.C30_utf8_partial
#print axioms CMacro.C31_exact
#print axioms CMacro.C31_range
#print axioms CMacro.C32_string_constants
#print axioms CMacro.C32_string_pointers
#print axioms CMacro.C33_false
#print axioms CMacro.C33_qualifiers_partial
#print axioms CMacro.C34_false
#print axioms CMacro.C34_roundtrip_partial
#print axioms CMacro.C35_fn_grammar
#print axioms CMacro.C35_grammar
#print axioms CMacro.C35_round_trip
#print axioms CMacro.C35_unambiguous
#print axioms CMacro.C35_var_grammar
#print axioms CMacro.C36_false
#print axioms CMacro.C36_logical_rejected_partial
#print axioms CMacro.C37_block_partial
#print axioms CMacro.C37_false
#print axioms CMacro.C37_false_block
#print axioms CMacro.C37_false_deref
#print axioms CMacro.C37_false_if
#print axioms CMacro.C37_false_shift
#print axioms CMacro.C37_false_step
#print axioms CMacro.C37_one_tree_partial
#print axioms CMacro.C37_partial
#print axioms CMacro.C37_unary_plus
#print axioms CMacro.C38_false
#print axioms CMacro.C38_volatile_assign_partial
#print axioms CMacro.C38_volatile_step
#print axioms CMacro.C39_false
#print axioms CMacro.C39_logical_not_partial
#print axioms CMacro.C40_false
#print axioms CMacro.C40_false_constant
#print axioms CMacro.C40_names_partial
#print axioms CMacro.C41_function_only_if_typed
#print axioms CMacro.C42_no_metavariables
#print axioms CMacro.C43_constants_partial
#print axioms CMacro.C43_false
#print axioms CMacro.C44_false
#print axioms CMacro.C44_templates_partial
#print axioms CMacro.C45_parameters_reach_parse
#print axioms CMacro.C46_paste
#print axioms CMacro.C46_punctuators
#print axioms CMacro.C47_exact
#print axioms CMacro.C47_false
#print axioms CMacro.C47_iff_partial
#print axioms CMacro.C47_never_wrong
#print axioms CMacro.C47_sign_first_partial
#print axioms CMacro.C48_depth_never_matters
#print axioms CMacro.C48_false
#print axioms CMacro.C48_no_truncation
#print axioms CMacro.C48_nothing_lost_partial
#print axioms CMacro.C49_exact
#print axioms CMacro.C49_false
#print axioms CMacro.C49_universal_names_partial
#print axioms CMacro.C50_bad_octal_rejected_partial
#print axioms CMacro.C50_false
#print axioms CMacro.C51_unicode_strings
#print axioms CMacro.C51_wide_strings
#print axioms CMacro.C52_false
#print axioms CMacro.C52_two_digit_hex_partial
#print axioms CMacro.C53_bad_names_partial
#print axioms CMacro.C53_char_exact
#print axioms CMacro.C53_chars_false
#print axioms CMacro.C53_chars_partial
#print axioms CMacro.C53_false
#print axioms CMacro.C53_u_strings_false
#print axioms CMacro.C53_u_strings_partial
#print axioms CMacro.C53_wide_false
#print axioms CMacro.C54_false
#print axioms CMacro.C54_operands_kept_partial
#print axioms CMacro.C55_codegen_deterministic
#print axioms CMacro.C55_codegen_terminates
#print axioms CMacro.C56_adjacent_literals_partial
#print axioms CMacro.C56_false
#print axioms CMacro.C57_false
#print axioms CMacro.C57_literal_rejected
#print axioms CMacro.C57_paste_name_partial
#print axioms CMacro.C58_false
#print axioms CMacro.C58_partial
#print axioms CMacro.C58_right_nested
#print axioms CMacro.C59_constant_has_c_value
#print axioms CMacro.C60_false
#print axioms CMacro.C60_false_if
#print axioms CMacro.C60_false_nested
#print axioms CMacro.C60_partial
#print axioms CMacro.C60_var_partial
#print axioms CMacro.C61_false
#print axioms CMacro.C61_partial
#print axioms CMacro.C62_false
#print axioms CMacro.C62_partial
#print axioms CMacro.C63_false
#print axioms CMacro.C63_no_wrap_partial
#print axioms CMacro.C63_signed_partial
#print axioms CMacro.C63_text_partial
#print axioms CMacro.C64_bool_partial
#print axioms CMacro.C64_false
#print axioms CMacro.C64_false_bool
#print axioms CMacro.C64_false_if
#print axioms CMacro.C64_false_keyword
#print axioms CMacro.C64_false_promote
#print axioms CMacro.C64_false_wrap
#print axioms CMacro.C64_partial
#print axioms CMacro.C64_text_partial
#print axioms CMacro.C64_total_bool_partial
#print axioms CMacro.C64_total_partial
#print axioms CMacro.C65_false
#print axioms CMacro.C65_partial
#print axioms CMacro.C66_false
#print axioms CMacro.C66_partial
#print axioms CMacro.C67_false
#print axioms CMacro.C67_false_global
#print axioms CMacro.C67_false_prev
#print axioms CMacro.C67_partial
#print axioms CMacro.C68_bool_partial
#print axioms CMacro.C68_false
#print axioms CMacro.C68_false_limit
#print axioms CMacro.C68_false_mixed
#print axioms CMacro.C68_false_suffix
#print axioms CMacro.C68_partial
#print axioms CMacro.C68_text_partial
#print axioms CMacro.C69_fn_expansion
#print axioms CMacro.C70_call_composes
#print axioms CMacro.C70_restriction_needed
#print axioms CMacro.C71_false
#print axioms CMacro.C71_false_f128
#print axioms CMacro.C71_false_self
#print axioms CMacro.C71_false_unit
#print axioms CMacro.C71_partial
#print axioms CMacro.C72_false
#print axioms CMacro.C72_only_known
#print axioms CMacro.C72_partial
#print axioms CMacro.C72_unit_partial
#print axioms CMacro.C73_false
#print axioms CMacro.C73_false_param
#print axioms CMacro.C73_partial
#print axioms CMacro.C74_false
#print axioms CMacro.C74_false_address
#print axioms CMacro.C74_partial
#print axioms CMacro.C75_float_constants
#print axioms CMacro.C76_false
#print axioms CMacro.C76_false_suffix
#print axioms CMacro.C76_partial
#print axioms CMacro.C76_text_partial
#print axioms CMacro.C77_false
#print axioms CMacro.C77_false_immediate
#print axioms CMacro.C77_false_volatile
#print axioms CMacro.C77_partial
#print axioms CMacro.C78_false
#print axioms CMacro.C78_false_number
#print axioms CMacro.C78_false_removed
#print axioms CMacro.C78_partial
#print axioms CMacro.C78_same_partial
#print axioms CMacro.C79_false
#print axioms CMacro.C79_false_flags
#print axioms CMacro.C79_partial
#print axioms CMacro.C80_false
#print axioms CMacro.C80_false_not
#print axioms CMacro.C80_false_type
#print axioms CMacro.C80_partial
#print axioms CMacro.C81_false
#print axioms CMacro.C81_partial
#print axioms CMacro.C82_false
#print axioms CMacro.C82_false_places
#print axioms CMacro.C82_false_tree
#print axioms CMacro.C82_partial
#print axioms CMacro.C82_read_partial
#print axioms CMacro.C83_false
#print axioms CMacro.C83_false_sum
#print axioms CMacro.C83_partial
#print axioms CMacro.C83_text_partial
#print axioms CMacro.C84_fn
#print axioms CMacro.C84_var
#print axioms CMacro.C85_false
#print axioms CMacro.C85_partial
#print axioms CMacro.C85_var_partial
#print axioms CMacro.C86_false
#print axioms CMacro.C86_false_marked
#print axioms CMacro.C86_paste_expands_partial
#print axioms CMacro.C86_paste_var_partial
#print axioms CMacro.C87_const_partial
#print axioms CMacro.C87_false
#print axioms CMacro.C87_false_float
#print axioms CMacro.C87_false_neg
#print axioms CMacro.C87_false_shift
#print axioms CMacro.C87_fn_partial
#print axioms CMacro.C87_fn_value_partial
#print axioms CMacro.C87_value_partial
#print axioms CMacro.C88_bool_partial
#print axioms CMacro.C88_false
#print axioms CMacro.C88_false_bool
#print axioms CMacro.C88_false_promote
#print axioms CMacro.C88_false_wrap
#print axioms CMacro.C88_partial
#print axioms CMacro.C88_text_partial
#print axioms CMacro.C88_total_partial
#print axioms CMacro.C89
#print axioms CMacro.C89_fn
#print axioms CMacro.C90
#print axioms CMacro.C90_step
#print axioms CMacro.C91_fn
#print axioms CMacro.C91_var
#print axioms CMacro.C92
#print axioms CMacro.C92_constants
#print axioms CMacro.C93
#print axioms CMacro.C93_elsewhere
#print axioms CMacro.C94
#print axioms CMacro.C94_macro
#print axioms CMacro.C95
#print axioms CMacro.C95_macro
#print axioms CMacro.C95_var
#print axioms CMacro.C96_limits
#print axioms CMacro.C96_text
#print axioms CMacro.C97_false
#print axioms CMacro.C97_false_product
#print axioms CMacro.C97_false_void
#print axioms CMacro.C97_partial
#print axioms CMacro.C97_static
#print axioms CMacro.C97_void
#print axioms CMacro.C98_effect
#print axioms CMacro.C98_false
#print axioms CMacro.C98_false_prev
#print axioms CMacro.C98_false_unit
#print axioms CMacro.C98_partial
#print axioms CMacro.C98_steady
#print axioms CMacro.C99_false
#print axioms CMacro.C99_false_param
#print axioms CMacro.C99_false_type
#print axioms CMacro.C99_fn_partial
#print axioms CMacro.C99_offset_partial
#print axioms CMacro.C99_partial
