import Verif.Props.Alloc
import Verif.Props.Boot
import Verif.Props.Check
import Verif.Props.CheckTerm
import Verif.Props.Closure
import Verif.Props.CodeFile
import Verif.Props.Codegen
import Verif.Props.Codegen2
import Verif.Props.Compiler
import Verif.Props.Copies
import Verif.Props.Cpp
import Verif.Props.Data
import Verif.Props.DataLabels
import Verif.Props.Declare
import Verif.Props.Dynamic
import Verif.Props.FileTail
import Verif.Props.Files
import Verif.Props.FnValues
import Verif.Props.Format
import Verif.Props.Freed
import Verif.Props.Front
import Verif.Props.Functional
import Verif.Props.Gc
import Verif.Props.Going
import Verif.Props.HelperLines
import Verif.Props.Helpers
import Verif.Props.LexErrors
import Verif.Props.Lexer
import Verif.Props.Literal
import Verif.Props.Lower
import Verif.Props.Map
import Verif.Props.Meaning
import Verif.Props.Messages
import Verif.Props.Names
import Verif.Props.NamesExact
import Verif.Props.NoCrash
import Verif.Props.NoCrashSlots
import Verif.Props.Numbers
import Verif.Props.Orders
import Verif.Props.Parse
import Verif.Props.Paths
import Verif.Props.Print
import Verif.Props.RootWords
import Verif.Props.Roots
import Verif.Props.Says
import Verif.Props.ShowTypes
import Verif.Props.SourceRoots
import Verif.Props.Stack
import Verif.Props.Startup
import Verif.Props.Strings
import Verif.Props.TableFn
import Verif.Props.Text
import Verif.Props.Texts
import Verif.Props.TreePrint
import Verif.Props.TypeTable
import Verif.Props.Types
import Verif.Props.Unwritten
import Verif.Props.Walk
import Verif.Props.WholeText

/- Axioms of every theorem named in MANIFEST.json, printed at build time. -/
#print axioms Clara.Props.C01_lossless
#print axioms Clara.Props.C01_injective
#print axioms Clara.Props.C02_one_terminal
#print axioms Clara.Props.C03_grammar
#print axioms Clara.Props.C03_reserved
#print axioms Clara.Props.C04_longest
#print axioms Clara.Props.C05_line
#print axioms Clara.Props.C05_column_partial
#print axioms Clara.Props.C05_column_violated
#print axioms Clara.Props.C06_no_crash
#print axioms Clara.Props.C06_progress
#print axioms Clara.Props.C06_terminates
#print axioms Clara.Props.C06_result
#print axioms Clara.Props.C07_print_lex
#print axioms Clara.Props.C07_print_lex_parser
#print axioms Clara.Props.C08_terminates
#print axioms Clara.Props.C08_empty
#print axioms Clara.Props.C08_source
#print axioms Clara.Props.C09_violated
#print axioms Clara.Props.C09_partial
#print axioms Clara.Props.C09_partial_iff
#print axioms Clara.Props.C09_partial_source
#print axioms Clara.Props.C10_violated
#print axioms Clara.Props.C10_partial
#print axioms Clara.Props.C10_partial_method
#print axioms Clara.Props.C10_minimal
#print axioms Clara.Props.C10_partial_table
#print axioms Clara.Props.C11_violated
#print axioms Clara.Props.C11_violated_call
#print axioms Clara.Props.C11_violated_decl
#print axioms Clara.Props.C11_partial
#print axioms Clara.Props.C11_partial_block
#print axioms Clara.Props.C12_located
#print axioms Clara.Props.C12_recovery
#print axioms Clara.Props.C12_reported
#print axioms Clara.Props.C13_same
#print axioms Clara.Props.C13_refl
#print axioms Clara.Props.C13_symm
#print axioms Clara.Props.C13_trans
#print axioms Clara.Props.C14_sound
#print axioms Clara.Props.C15_complete
#print axioms Clara.Props.C15_unique
#print axioms Clara.Props.C16_first_partial
#print axioms Clara.Props.C16_stable
#print axioms Clara.Props.C16_accepts
#print axioms Clara.Props.C16_violated
#print axioms Clara.Props.C17_mono_partial
#print axioms Clara.Props.C17_generic_partial
#print axioms Clara.Props.C17_violated
#print axioms Clara.Props.C18_no_escape_partial
#print axioms Clara.Props.C18_violated
#print axioms Clara.Props.C19_terminates_partial
#print axioms Clara.Props.C19_no_binding
#print axioms Clara.Props.C19_violated
#print axioms Clara.Props.C20_distinct_partial
#print axioms Clara.Props.C20_violated
#print axioms Clara.Props.C20_violated_main
#print axioms Clara.Props.C20_exact_partial
#print axioms Clara.Props.C21_resolve
#print axioms Clara.Props.C21_outer_unchanged
#print axioms Clara.Props.C21_redeclare
#print axioms Clara.Props.C21_kept
#print axioms Clara.Props.C22
#print axioms Clara.Props.C22_lowered
#print axioms Clara.Props.C22_example
#print axioms Clara.Props.C23
#print axioms Clara.Props.C23_handled
#print axioms Clara.Props.C23_example
#print axioms Clara.Props.C24
#print axioms Clara.Props.C24_program
#print axioms Clara.Props.C24_object
#print axioms Clara.Props.C24_example
#print axioms Clara.Props.C25_partial
#print axioms Clara.Props.C25_runs_partial
#print axioms Clara.Props.C25_partial_iff
#print axioms Clara.Props.C25_code
#print axioms Clara.Props.C25_violated
#print axioms Clara.Props.C25_violated_negative
#print axioms Clara.Props.C25_violated_end
#print axioms Clara.Props.C25_example
#print axioms Clara.Props.C26_partial
#print axioms Clara.Props.C26_runs_partial
#print axioms Clara.Props.C26_violated
#print axioms Clara.Props.C26_example
#print axioms Clara.Props.C27_partial
#print axioms Clara.Props.C27_partial_iff
#print axioms Clara.Props.C27_violated
#print axioms Clara.Props.C27_violated_octal
#print axioms Clara.Props.C27_only
#print axioms Clara.Props.C27_no_panic
#print axioms Clara.Props.C27_example
#print axioms Clara.Props.C28_partial
#print axioms Clara.Props.C28_partial_all
#print axioms Clara.Props.C28_value
#print axioms Clara.Props.C28_violated
#print axioms Clara.Props.C28_violated_field
#print axioms Clara.Props.C28_violated_name
#print axioms Clara.Props.C28_example
#print axioms Clara.Props.C28_value_example
#print axioms Clara.Props.C29_result
#print axioms Clara.Props.C29_in_place
#print axioms Clara.Props.C29_value_unique
#print axioms Clara.Props.C29_value_exists
#print axioms Clara.Props.C30_result
#print axioms Clara.Props.C30_in_place
#print axioms Clara.Props.C30_value_unique
#print axioms Clara.Props.C30_both_operands
#print axioms Clara.Props.C31_read
#print axioms Clara.Props.C31_read_out
#print axioms Clara.Props.C31_write
#print axioms Clara.Props.C31_write_out
#print axioms Clara.Props.C32_expr
#print axioms Clara.Props.C32_stmts
#print axioms Clara.Props.C32_run
#print axioms Clara.Props.C33_activation
#print axioms Clara.Props.C33_run
#print axioms Clara.Props.C34_function
#print axioms Clara.Props.C34_in_place
#print axioms Clara.Props.C35_same_result_partial
#print axioms Clara.Props.C35_values_partial
#print axioms Clara.Props.C36_violated_helper
#print axioms Clara.Props.C36_violated_generic
#print axioms Clara.Props.C36_unique_partial
#print axioms Clara.Props.C36_source_partial
#print axioms Clara.Props.C36_types_partial
#print axioms Clara.Props.C37_violated
#print axioms Clara.Props.C37_ready_partial
#print axioms Clara.Props.C38_construct
#print axioms Clara.Props.C38_read
#print axioms Clara.Props.C38_assign
#print axioms Clara.Props.C39_labels
#print axioms Clara.Props.C39_labels_total
#print axioms Clara.Props.C39_emit_partial
#print axioms Clara.Props.C39_violated_newline
#print axioms Clara.Props.C39_violated_utf8
#print axioms Clara.Props.C40_live_partial
#print axioms Clara.Props.C40_ended_partial
#print axioms Clara.Props.C40_violated
#print axioms Clara.Props.C41
#print axioms Clara.Props.C42_partial
#print axioms Clara.Props.C42_violated
#print axioms Clara.Props.C43
#print axioms Clara.Props.C44_args_partial
#print axioms Clara.Props.C44_violated_base
#print axioms Clara.Props.C44_violated_value
#print axioms Clara.Props.C45_layout
#print axioms Clara.Props.C45_all
#print axioms Clara.Props.C45_builtins
#print axioms Clara.Props.C46_partial
#print axioms Clara.Props.C46_spec
#print axioms Clara.Props.C46_violated
#print axioms Clara.Props.C47_toList
#print axioms Clara.Props.C47_append
#print axioms Clara.Props.C47_reverse
#print axioms Clara.Props.C47_map
#print axioms Clara.Props.C47_foreach
#print axioms Clara.Props.C47_reduce
#print axioms Clara.Props.C47_find
#print axioms Clara.Props.C47_find_pure
#print axioms Clara.Props.C47_remove
#print axioms Clara.Props.C48_isNone
#print axioms Clara.Props.C48_isSome
#print axioms Clara.Props.C48_orElse
#print axioms Clara.Props.C48_map
#print axioms Clara.Props.C48_filter
#print axioms Clara.Props.C48_peek
#print axioms Clara.Props.C48_map_id
#print axioms Clara.Props.C48_map_comp
#print axioms Clara.Props.C48_then
#print axioms Clara.Props.C48_result_map
#print axioms Clara.Props.C48_then_ok
#print axioms Clara.Props.C48_then_right
#print axioms Clara.Props.C48_then_assoc
#print axioms Clara.Props.C48_result_map_id
#print axioms Clara.Props.C48_result_map_comp
#print axioms Clara.Props.C48_result_peek
#print axioms Clara.Props.C49_equals
#print axioms Clara.Props.C50_partial
#print axioms Clara.Props.C50_violated
#print axioms Clara.Props.C51_append
#print axioms Clara.Props.C51_substring_partial
#print axioms Clara.Props.C51_violated
#print axioms Clara.Props.C52_toString
#print axioms Clara.Props.C52_numeral
#print axioms Clara.Props.C52_injective
#print axioms Clara.Props.C53_new
#print axioms Clara.Props.C53_partial
#print axioms Clara.Props.C53_violated
#print axioms Clara.Props.C54_partial
#print axioms Clara.Props.C54_step
#print axioms Clara.Props.C54_substring
#print axioms Clara.Props.C54_violated
#print axioms Clara.Props.C55_fnv1a
#print axioms Clara.Props.C56_mod
#print axioms Clara.Props.C57_toBinary
#print axioms Clara.Props.C58_args
#print axioms Clara.Props.C58_env
#print axioms Clara.Props.C59_compile
#print axioms Clara.Props.C59_partial
#print axioms Clara.Props.C59_violated
#print axioms Clara.Props.C59_violated_ternary
#print axioms Clara.Props.C60_partial
#print axioms Clara.Props.C60_violated
#print axioms Clara.Props.C60_violated_range
#print axioms Clara.Props.C60_violated_strings
#print axioms Clara.Props.C60_violated_bools
#print axioms Clara.Props.C60_violated_params
#print axioms Clara.Props.C60_violated_six
#print axioms Clara.Props.C60_violated_captured
#print axioms Clara.Props.C60_params
#print axioms Clara.Props.C60_violated_slots
#print axioms Clara.Props.C61_reject
#print axioms Clara.Props.C61_adjacent_violated
#print axioms Clara.Props.C62_partial
#print axioms Clara.Props.C62_violated
#print axioms Clara.Props.C62_violated_printf
#print axioms Clara.Props.C62_violated_result
#print axioms Clara.Props.C62_violated_assign
#print axioms Clara.Props.C63
#print axioms Clara.Props.C63_unique
#print axioms Clara.Props.C63_depth
#print axioms Clara.Props.C64_violated_order
#print axioms Clara.Props.C64_violated_bare
#print axioms Clara.Props.C64_partial
#print axioms Clara.Props.C64_partial_subst
#print axioms Clara.Props.C64_field
#print axioms Clara.Props.C65
#print axioms Clara.Props.C65_typed
#print axioms Clara.Props.C65_checked
#print axioms Clara.Props.C66_partial
#print axioms Clara.Props.C66_partial_panic
#print axioms Clara.Props.C66_reads
#print axioms Clara.Props.C66_partial_code
#print axioms Clara.Props.C66_violated_clash
#print axioms Clara.Props.C66_violated_unsafe
#print axioms Clara.Props.C66_violated_inside
#print axioms Clara.Props.C67
#print axioms Clara.Props.C67_text
#print axioms Clara.Props.C68_partial
#print axioms Clara.Props.C68_partial_runs
#print axioms Clara.Props.C68_partial_steady
#print axioms Clara.Props.C68_violated
#print axioms Clara.Props.C69_value
#print axioms Clara.Props.C69_call
#print axioms Clara.Props.C70_walk
#print axioms Clara.Props.C71_variables_partial
#print axioms Clara.Props.C71_survives_partial
#print axioms Clara.Props.C92_violated_freed
#print axioms Clara.Props.C72_unsafe
#print axioms Clara.Props.C72_toTaggedInt
#print axioms Clara.Props.C72_toUntaggedInt
#print axioms Clara.Props.C72_getFramePointer
#print axioms Clara.Props.C72_readInt
#print axioms Clara.Props.C72_readByte
#print axioms Clara.Props.C72_writeInt
#print axioms Clara.Props.C72_writeByte
#print axioms Clara.Props.C72_ext
#print axioms Clara.Props.C72_byte_back
#print axioms Clara.Props.C73_violated
#print axioms Clara.Props.C73_partial
#print axioms Clara.Props.C74_open
#print axioms Clara.Props.C74_seek
#print axioms Clara.Props.C74_size
#print axioms Clara.Props.C74_read_partial
#print axioms Clara.Props.C74_readAll_exact
#print axioms Clara.Props.C74_readAll_partial
#print axioms Clara.Props.C74_violated_error
#print axioms Clara.Props.C74_violated_negative
#print axioms Clara.Props.C74_violated_short
#print axioms Clara.Props.C74_violated_position
#print axioms Clara.Props.C75_describe
#print axioms Clara.Props.C75_injective
#print axioms Clara.Props.C75_known
#print axioms Clara.Props.C76_now
#print axioms Clara.Props.C76_units
#print axioms Clara.Props.C77_forever
#print axioms Clara.Props.C77_no_return
#print axioms Clara.Props.C77_call
#print axioms Clara.Props.C77_div
#print axioms Clara.Props.C78_terminated
#print axioms Clara.Props.C78_string_partial
#print axioms Clara.Props.C78_string
#print axioms Clara.Props.C78_violated_nul
#print axioms Clara.Props.C78_int
#print axioms Clara.Props.C78_int_toString
#print axioms Clara.Props.C78_bool
#print axioms Clara.Props.C78_hex
#print axioms Clara.Props.C78_hexPadded
#print axioms Clara.Props.C78_panic
#print axioms Clara.Props.C78_assert
#print axioms Clara.Props.C78_index_partial
#print axioms Clara.Props.C78_index
#print axioms Clara.Props.C78_violated_index
#print axioms Clara.Props.C79_line
#print axioms Clara.Props.C79_exists
#print axioms Clara.Props.C79_jumps
#print axioms Clara.Props.C79_program
#print axioms Clara.Props.C79_itoa
#print axioms Clara.Props.C79_number
#print axioms Clara.Props.C79_literal
#print axioms Clara.Props.C79_names
#print axioms Clara.Props.C80_partial
#print axioms Clara.Props.C80_object
#print axioms Clara.Props.C80_run
#print axioms Clara.Props.C80_violated
#print axioms Clara.Props.C81_array_partial
#print axioms Clara.Props.C81_bytes_partial
#print axioms Clara.Props.C81_violated
#print axioms Clara.Props.C82_maps
#print axioms Clara.Props.C82_table
#print axioms Clara.Props.C82_program
#print axioms Clara.Props.C82_function
#print axioms Clara.Props.C82_literal
#print axioms Clara.Props.C82_string
#print axioms Clara.Props.C82_call
#print axioms Clara.Props.C83_argv
#print axioms Clara.Props.C83_perm
#print axioms Clara.Props.C83_violated
#print axioms Clara.Props.C83_violated_silent
#print axioms Clara.Props.C83_partial
#print axioms Clara.Props.C83_args
#print axioms Clara.Props.C83_entry
#print axioms Clara.Props.C83_aligned
#print axioms Clara.Props.C84_violated
#print axioms Clara.Props.C84_violated_labels
#print axioms Clara.Props.C84_names
#print axioms Clara.Props.C84_line_partial
#print axioms Clara.Props.C84_program_partial
#print axioms Clara.Props.C84_data_partial
#print axioms Clara.Props.C84_string
#print axioms Clara.Props.C85_violated
#print axioms Clara.Props.C85_violated_asm
#print axioms Clara.Props.C85_violated_lib
#print axioms Clara.Props.C85_violated_dir
#print axioms Clara.Props.C85_violated_shared
#print axioms Clara.Props.C85_clean
#print axioms Clara.Props.C85_plain
#print axioms Clara.Props.C85_dotted
#print axioms Clara.Props.C85_partial
#print axioms Clara.Props.C86_pre
#print axioms Clara.Props.C86_post
#print axioms Clara.Props.C87_violated
#print axioms Clara.Props.C87_partial
#print axioms Clara.Props.C87_builtins_partial
#print axioms Clara.Props.C87_candidates_partial
#print axioms Clara.Props.C87_allocations_partial
#print axioms Clara.Props.C88_code
#print axioms Clara.Props.C88_helpers
#print axioms Clara.Props.C88_helpers_peep
#print axioms Clara.Props.C88_entry
#print axioms Clara.Props.C88_tableFn
#print axioms Clara.Props.C88_tail
#print axioms Clara.Props.C88_text
#print axioms Clara.Props.C88_complete
#print axioms Clara.Props.C89_partial
#print axioms Clara.Props.C89_marks_partial
#print axioms Clara.Props.C89_trees_partial
#print axioms Clara.Props.C89_violated
#print axioms Clara.Props.C89_violated_filter
#print axioms Clara.Props.C90_words_partial
#print axioms Clara.Props.C90_partial
#print axioms Clara.Props.C90_violated
#print axioms Clara.Props.C90_violated_length
#print axioms Clara.Props.C91_copy
#print axioms Clara.Props.C91_separate
#print axioms Clara.Props.C92_partial
#print axioms Clara.Props.C92_violated
#print axioms Clara.Props.C92_violated_freed
#print axioms Clara.Props.C92_literal
#print axioms Clara.Props.C92_other_case
#print axioms Clara.Props.C93_partial
#print axioms Clara.Props.C93_violated
#print axioms Clara.Props.C94_code_iff
#print axioms Clara.Props.C94_text_partial
#print axioms Clara.Props.C94_lines_partial
#print axioms Clara.Props.C94_strings_iff
#print axioms Clara.Props.C94_strings_partial
#print axioms Clara.Props.C94_closure_partial
#print axioms Clara.Props.C94_violated
#print axioms Clara.Props.C94_violated_strings
#print axioms Clara.Props.C94_violated_closure
#print axioms Clara.Props.C95_code
#print axioms Clara.Props.C95_table
#print axioms Clara.Props.C95_flush
#print axioms Clara.Props.C95_noGc
#print axioms Clara.Props.C95_tab
#print axioms Clara.Props.C95_label
#print axioms Clara.Props.C95_raw
#print axioms Clara.Props.C95_spacer
#print axioms Clara.Props.C95_ins
#print axioms Clara.Props.C95_ascii
#print axioms Clara.Props.C95_helpers
#print axioms Clara.Props.C95_entry
#print axioms Clara.Props.C95_tableFn
#print axioms Clara.Props.C96_partial
#print axioms Clara.Props.C96_syntax
#print axioms Clara.Props.C96_unique
#print axioms Clara.Props.C96_place
#print axioms Clara.Props.C96_clean
#print axioms Clara.Props.C96_reported
#print axioms Clara.Props.C96_empty
#print axioms Clara.Props.C96_violated
#print axioms Clara.Props.C96_reached
#print axioms Clara.Props.C96_violated_elem
#print axioms Clara.Props.C96_elem_partial
#print axioms Clara.Props.C96_expected
#print axioms Clara.Props.C96_unnamed
#print axioms Clara.Props.C96_kinds
#print axioms Clara.Props.C97_partial
#print axioms Clara.Props.C97_doubled
#print axioms Clara.Props.C97_unique
#print axioms Clara.Props.C97_violated
#print axioms Clara.Props.C97_ops
#print axioms Clara.Props.C98_partial
#print axioms Clara.Props.C98_place
#print axioms Clara.Props.C98_violated
