{
 "claims": [
  {
   "property": "C01",
   "status": "proved",
   "theorems": [
    "Clara.Props.C01_lossless",
    "Clara.Props.C01_injective"
   ],
   "note": "All byte inputs, including invalid UTF-8; letter/digit tables abstract."
  },
  {
   "property": "C02",
   "status": "proved",
   "theorems": [
    "Clara.Props.C02_one_terminal"
   ],
   "note": ""
  },
  {
   "property": "C03",
   "status": "proved",
   "theorems": [
    "Clara.Props.C03_grammar",
    "Clara.Props.C03_reserved"
   ],
   "note": "Grammar given as a separate predicate on rune sequences."
  },
  {
   "property": "C04",
   "status": "proved",
   "theorems": [
    "Clara.Props.C04_longest"
   ],
   "note": ""
  },
  {
   "property": "C05",
   "status": "partial",
   "theorems": [
    "Clara.Props.C05_line",
    "Clara.Props.C05_column_partial",
    "Clara.Props.C05_column_violated"
   ],
   "note": "Line numbers are proved. Columns use base 0 on line 1 and base 1 elsewhere, so no single base is right: the uniform claim is refuted and the exact columns are proved."
  },
  {
   "property": "C06",
   "status": "proved",
   "theorems": [
    "Clara.Props.C06_no_crash",
    "Clara.Props.C06_progress",
    "Clara.Props.C06_terminates",
    "Clara.Props.C06_result"
   ],
   "note": "All schedules of the lexer goroutine and lexAndParse over the unbuffered channel."
  },
  {
   "property": "C07",
   "status": "proved",
   "theorems": [
    "Clara.Props.C07_print_lex",
    "Clara.Props.C07_print_lex_parser"
   ],
   "note": "For unicode tables that agree with ASCII below 128 (Uni.Ok)."
  },
  {
   "property": "C08",
   "status": "proved",
   "theorems": [
    "Clara.Props.C08_terminates",
    "Clara.Props.C08_empty",
    "Clara.Props.C08_source"
   ],
   "note": "The recursive descent is modelled with partial_fixpoint, so termination is proved, not assumed. Holds for every nonempty token list; C08_source composes with the lexer under every schedule. Unlimited stack."
  },
  {
   "property": "C09",
   "status": "partial",
   "theorems": [
    "Clara.Props.C09_violated",
    "Clara.Props.C09_partial",
    "Clara.Props.C09_partial_iff",
    "Clara.Props.C09_partial_source"
   ],
   "note": "False as stated: `fn f() =` is accepted without an error (the recovered EOF panic records nothing). Proved: exactly the programs of the grammar are accepted when the last token does not ask for an expression, and otherwise all that is lost is the tail after the last whole declaration."
  },
  {
   "property": "C10",
   "status": "partial",
   "theorems": [
    "Clara.Props.C10_violated",
    "Clara.Props.C10_partial",
    "Clara.Props.C10_partial_method",
    "Clara.Props.C10_minimal",
    "Clara.Props.C10_partial_table"
   ],
   "note": "False for unary minus, which is read with the level of subtraction (`-a * b` is `-(a * b)`). Proved for all trees with unary minus at that level; the text written is the shortest possible."
  },
  {
   "property": "C11",
   "status": "partial",
   "theorems": [
    "Clara.Props.C11_violated",
    "Clara.Props.C11_violated_call",
    "Clara.Props.C11_violated_decl",
    "Clara.Props.C11_partial",
    "Clara.Props.C11_partial_block"
   ],
   "note": "False where one construct swallows the start of the next (no separators). Proved for every program of the grammar, whose side conditions exclude exactly those; C09_partial_iff shows the grammar is exact."
  },
  {
   "property": "C12",
   "status": "proved",
   "theorems": [
    "Clara.Props.C12_located",
    "Clara.Props.C12_recovery",
    "Clara.Props.C12_reported"
   ],
   "note": "The text of the message is not modelled; the token it is located at is."
  },
  {
   "property": "C13",
   "status": "proved",
   "theorems": [
    "Clara.Props.C13_same",
    "Clara.Props.C13_refl",
    "Clara.Props.C13_symm",
    "Clara.Props.C13_trans"
   ],
   "note": ""
  },
  {
   "property": "C14",
   "status": "proved",
   "theorems": [
    "Clara.Props.C14_sound"
   ],
   "note": "Includes explicit type arguments and overloaded arguments."
  },
  {
   "property": "C15",
   "status": "proved",
   "theorems": [
    "Clara.Props.C15_complete",
    "Clara.Props.C15_unique"
   ],
   "note": "For arguments that are not overloaded names; overloaded ones are C17."
  },
  {
   "property": "C16",
   "status": "partial",
   "theorems": [
    "Clara.Props.C16_first_partial",
    "Clara.Props.C16_stable",
    "Clara.Props.C16_accepts",
    "Clara.Props.C16_violated"
   ],
   "note": "False when an argument is itself an overloaded name (a rejected candidate leaves the argument resolved to a later overload): refuted with a witness, proved for all other calls."
  },
  {
   "property": "C17",
   "status": "partial",
   "theorems": [
    "Clara.Props.C17_mono_partial",
    "Clara.Props.C17_generic_partial",
    "Clara.Props.C17_violated"
   ],
   "note": "False for generic callees: a rejected overload leaves its bindings behind. Proved for callees without type parameters and for fitting first overloads."
  },
  {
   "property": "C18",
   "status": "partial",
   "theorems": [
    "Clara.Props.C18_no_escape_partial",
    "Clara.Props.C18_violated"
   ],
   "note": "False for result types that contain function types (fn mk«T»() fn(T) int). Proved for all others."
  },
  {
   "property": "C19",
   "status": "partial",
   "theorems": [
    "Clara.Props.C19_terminates_partial",
    "Clara.Props.C19_no_binding",
    "Clara.Props.C19_violated"
   ],
   "note": "False for recursive structs: substituteType recurses forever. Proved: terminates exactly on types that are not part of themselves."
  },
  {
   "property": "C20",
   "status": "partial",
   "theorems": [
    "Clara.Props.C20_distinct_partial",
    "Clara.Props.C20_violated",
    "Clara.Props.C20_violated_main",
    "Clara.Props.C20_exact_partial"
   ],
   "note": "False for generic functions and overloads of main. Proved for concrete parameter types. C20_exact_partial says exactly when two own functions with good names share a name: same name and parameters that are alike up to what typeName leaves out, or both are main."
  },
  {
   "property": "C21",
   "status": "proved",
   "theorems": [
    "Clara.Props.C21_resolve",
    "Clara.Props.C21_outer_unchanged",
    "Clara.Props.C21_redeclare",
    "Clara.Props.C21_kept"
   ],
   "note": "All histories of Define and Child on the tree of symbol tables."
  },
  {
   "property": "C22",
   "status": "proved",
   "theorems": [
    "Clara.Props.C22",
    "Clara.Props.C22_lowered",
    "Clara.Props.C22_example"
   ],
   "note": "The source semantics is for terminating runs; a panic is a run without an outcome. C22 is for any ranges of loops; with every match having a case for its value (C23_handled). C22_lowered is the same for the lowered statements code is generated for: running off the end happens only at a match reached with a tag that has no case; it is for programs in which the ends of ranges and the arrays of for loops are literals or variables not assigned in the loop (others are evaluated again in each iteration: C25_violated_end, C26_violated)."
  },
  {
   "property": "C23",
   "status": "proved",
   "theorems": [
    "Clara.Props.C23",
    "Clara.Props.C23_handled",
    "Clara.Props.C23_example"
   ],
   "note": "Constructors are declared by the model of processTopLevelTypes (one fresh type per constructor, tags in order); the match is checked by the model of opMatch and typeCheckCase with an arbitrary name resolution."
  },
  {
   "property": "C24",
   "status": "proved",
   "theorems": [
    "Clara.Props.C24",
    "Clara.Props.C24_program",
    "Clara.Props.C24_object",
    "Clara.Props.C24_example"
   ],
   "note": "Equivalence of the lowered match and its meaning, in both directions, and of whole functions. The library function asEnum is assumed to return the pointer it is given (LibOk, satisfied by the example program). Programs are those in which the ends of ranges and the arrays of for loops are literals or variables not assigned in the loop; C34 is about the code generated from the lowered program."
  },
  {
   "property": "C25",
   "status": "partial",
   "theorems": [
    "Clara.Props.C25_partial",
    "Clara.Props.C25_runs_partial",
    "Clara.Props.C25_partial_iff",
    "Clara.Props.C25_code",
    "Clara.Props.C25_violated",
    "Clara.Props.C25_violated_negative",
    "Clara.Props.C25_violated_end",
    "Clara.Props.C25_example"
   ],
   "note": "The documented behaviour fails for every decreasing range whose end is not the literal 0, for ranges up to the literal 0, and for ends with side effects (evaluated once per iteration). Proved where it holds: increasing ranges and ranges down to the literal 0; the two ranges are equal exactly there (C25_partial_iff). C25_partial is about ends that are numbers or variables the body does not assign; C25_runs_partial about any end, in the runs in which the end keeps its value and the body does not change the variable."
  },
  {
   "property": "C26",
   "status": "partial",
   "theorems": [
    "Clara.Props.C26_partial",
    "Clara.Props.C26_runs_partial",
    "Clara.Props.C26_violated",
    "Clara.Props.C26_example"
   ],
   "note": "An array expression that is not a literal or variable is evaluated 2n+1 times. Proved for array literals and for variables not assigned in the loop (C26_partial), and for any array expression in the runs in which it keeps its value (C26_runs_partial)."
  },
  {
   "property": "C27",
   "status": "partial",
   "theorems": [
    "Clara.Props.C27_partial",
    "Clara.Props.C27_partial_iff",
    "Clara.Props.C27_violated",
    "Clara.Props.C27_violated_octal",
    "Clara.Props.C27_only",
    "Clara.Props.C27_no_panic",
    "Clara.Props.C27_example"
   ],
   "note": "Literals from 2^62 to 2^63-1 are accepted though ints have 63 bits, and evaluate to another number; decimal literals with a leading zero are read as octal. Proved for decimal literals without a leading zero and hexadecimal ones, with or without minus sign: accepted exactly below 2^63 and right exactly for 63-bit numbers. That the assembler reads a literal as ParseInt does is C79_number."
  },
  {
   "property": "C28",
   "status": "partial",
   "theorems": [
    "Clara.Props.C28_partial",
    "Clara.Props.C28_partial_all",
    "Clara.Props.C28_value",
    "Clara.Props.C28_violated",
    "Clara.Props.C28_violated_field",
    "Clara.Props.C28_violated_name",
    "Clara.Props.C28_example",
    "Clara.Props.C28_value_example"
   ],
   "note": "False in the code: fn() { a[i] } does not capture i (C28_violated), fn() { a.b.c } captures the field c (C28_violated_field), and a captured field and variable of the same name share one field of the environment (C28_violated_name). Proved, for all trees, scopes and map orders without these two shapes: exactly the mentioned variables are captured, the rewritten body reads the right field, and the field holds the value the variable had when the literal was evaluated (C28_value, on the semantics of constructor calls and field accesses, while the environment is not written). Bodies that assign to captured variables, and calls of closures, are covered by C68 and C69."
  },
  {
   "property": "C29",
   "status": "proved",
   "theorems": [
    "Clara.Props.C29_result",
    "Clara.Props.C29_in_place",
    "Clara.Props.C29_value_unique",
    "Clara.Props.C29_value_exists"
   ],
   "note": "Arithmetic of the generated code is wrapped 63-bit arithmetic, in whole functions and in place, with and without the peephole pass."
  },
  {
   "property": "C30",
   "status": "proved",
   "theorems": [
    "Clara.Props.C30_result",
    "Clara.Props.C30_in_place",
    "Clara.Props.C30_value_unique",
    "Clara.Props.C30_both_operands"
   ],
   "note": "Comparisons and logic; both operands of and/or are always evaluated."
  },
  {
   "property": "C31",
   "status": "proved",
   "theorems": [
    "Clara.Props.C31_read",
    "Clara.Props.C31_read_out",
    "Clara.Props.C31_write",
    "Clara.Props.C31_write_out"
   ],
   "note": "In-range reads and writes, out-of-range indexes call the panic handler."
  },
  {
   "property": "C32",
   "status": "proved",
   "theorems": [
    "Clara.Props.C32_expr",
    "Clara.Props.C32_stmts",
    "Clara.Props.C32_run"
   ],
   "note": "Every path through the code of every expression and statement list (conditional jumps either way); and runs of whole programs, optimised or not."
  },
  {
   "property": "C33",
   "status": "proved",
   "theorems": [
    "Clara.Props.C33_activation",
    "Clara.Props.C33_run"
   ],
   "note": "Every call instruction on every path of every activation; and in runs of whole images."
  },
  {
   "property": "C34",
   "status": "proved",
   "theorems": [
    "Clara.Props.C34_function",
    "Clara.Props.C34_in_place"
   ],
   "note": "Whole functions and statement lists in place, for runs that end; argument lists are those on which C37 holds."
  },
  {
   "property": "C35",
   "status": "partial",
   "theorems": [
    "Clara.Props.C35_same_result_partial",
    "Clara.Props.C35_values_partial"
   ],
   "note": "Whole programs that end: same result and heap with and without the pass (C35_same_result_partial: first order). With function values (C35_values_partial) results and heaps are the same up to the addresses of functions, which differ between the images, for a runtime that does not depend on these addresses. Missing: runtimes that do, fields that reach from an object over the code, and the argument lists excluded by C37."
  },
  {
   "property": "C36",
   "status": "partial",
   "theorems": [
    "Clara.Props.C36_violated_helper",
    "Clara.Props.C36_violated_generic",
    "Clara.Props.C36_unique_partial",
    "Clara.Props.C36_source_partial",
    "Clara.Props.C36_types_partial"
   ],
   "note": "False in the code: a user function may have the name of a helper label, and generic instances may collide; labels of code, helpers, literals, frame maps and the type table (read back from the lines of the file) are unique otherwise."
  },
  {
   "property": "C37",
   "status": "partial",
   "theorems": [
    "Clara.Props.C37_violated",
    "Clara.Props.C37_ready_partial"
   ],
   "note": "False in the code for calls whose later arguments divide; proved for argument lists without that shape."
  },
  {
   "property": "C38",
   "status": "proved",
   "theorems": [
    "Clara.Props.C38_construct",
    "Clara.Props.C38_read",
    "Clara.Props.C38_assign"
   ],
   "note": "Constructors, field reads and field assignments on structs and enum values."
  },
  {
   "property": "C39",
   "status": "partial",
   "theorems": [
    "Clara.Props.C39_labels",
    "Clara.Props.C39_labels_total",
    "Clara.Props.C39_emit_partial",
    "Clara.Props.C39_violated_newline",
    "Clara.Props.C39_violated_utf8"
   ],
   "note": "False in the code for raw line feeds (panic) and invalid UTF-8 (wrong length); proved for the other literals."
  },
  {
   "property": "C40",
   "status": "partial",
   "theorems": [
    "Clara.Props.C40_live_partial",
    "Clara.Props.C40_ended_partial",
    "Clara.Props.C40_violated"
   ],
   "note": "Proved for all function bodies of the model: the code has one root map per call, and the map contains the slot of every pointer variable in scope (first half of the claim). The second half is false: GcState.CloseScope does not remove the scope from its list, so after a nested block the next CloseScope cuts the roots back too little; C40_violated gives a function whose map at a call contains a variable whose block has ended. C40_ended_partial proves both halves when no inner block declares a pointer variable before a block of its own. Hypotheses: code generation does not panic, parameters are distinct, no computed function is called inside a non-first argument (there the code pops the wrong value). The statements are those after lowering, where the variable of a loop over an array is not declared: it is never a root, see C92_violated."
  },
  {
   "property": "C41",
   "status": "proved",
   "theorems": [
    "Clara.Props.C41"
   ],
   "note": "Heap of blocks with a free list, roots from a list of stack frames; unlimited recursion depth of the marker."
  },
  {
   "property": "C42",
   "status": "partial",
   "theorems": [
    "Clara.Props.C42_partial",
    "Clara.Props.C42_violated"
   ],
   "note": "Holds for type ids below 2^15. From 2^15 on the id read back is negative or truncated (C42_violated)."
  },
  {
   "property": "C43",
   "status": "proved",
   "theorems": [
    "Clara.Props.C43"
   ],
   "note": "Heap addresses: 16-byte aligned, between 4096 and 2^47."
  },
  {
   "property": "C44",
   "status": "partial",
   "theorems": [
    "Clara.Props.C44_args_partial",
    "Clara.Props.C44_violated_base",
    "Clara.Props.C44_violated_value"
   ],
   "note": "Proved for all function bodies of the model: at every call the intermediate values are on the stack in the order read off the syntax tree, and the words of the pointer arguments waiting for a later argument are in the root map. The claim is false for the array of an index expression and for the right hand side of an assignment (both violations proved with concrete functions): the value is only on the stack, in no map and in no variable, while the index is evaluated by a call."
  },
  {
   "property": "C45",
   "status": "proved",
   "theorems": [
    "Clara.Props.C45_layout",
    "Clara.Props.C45_all",
    "Clara.Props.C45_builtins"
   ],
   "note": "For all sequences of struct, enum and function declarations and of closures: the construction of the table does not panic, the entry at the type id that a constructor passes to the allocator lists exactly the words in which the generated constructor code stores a parameter of pointer type, every declared struct and enum member has such a constructor (enum members with their position as tag), ids are distinct, and the entries used by the library are where it expects them. Names are resolved beforehand; a field is given by the kind of its type. That the id survives the object header is C42."
  },
  {
   "property": "C46",
   "status": "partial",
   "theorems": [
    "Clara.Props.C46_partial",
    "Clara.Props.C46_spec",
    "Clara.Props.C46_violated"
   ],
   "note": "Every history of operations on a new map gives the answers of the finite map, for hashers that are never negative (up to 2^57 operations). With a negative hash the index is negative and the first put panics (C46_violated). Hasher and matcher are pure functions."
  },
  {
   "property": "C47",
   "status": "proved",
   "theorems": [
    "Clara.Props.C47_toList",
    "Clara.Props.C47_append",
    "Clara.Props.C47_reverse",
    "Clara.Props.C47_map",
    "Clara.Props.C47_foreach",
    "Clara.Props.C47_reduce",
    "Clara.Props.C47_find",
    "Clara.Props.C47_find_pure",
    "Clara.Props.C47_remove"
   ],
   "note": "Lists of any element type, function arguments with effects in any lawful monad. `append` of the library list adds at the front, so that is its contract here."
  },
  {
   "property": "C48",
   "status": "proved",
   "theorems": [
    "Clara.Props.C48_isNone",
    "Clara.Props.C48_isSome",
    "Clara.Props.C48_orElse",
    "Clara.Props.C48_map",
    "Clara.Props.C48_filter",
    "Clara.Props.C48_peek",
    "Clara.Props.C48_map_id",
    "Clara.Props.C48_map_comp",
    "Clara.Props.C48_then",
    "Clara.Props.C48_result_map",
    "Clara.Props.C48_then_ok",
    "Clara.Props.C48_then_right",
    "Clara.Props.C48_then_assoc",
    "Clara.Props.C48_result_map_id",
    "Clara.Props.C48_result_map_comp",
    "Clara.Props.C48_result_peek"
   ],
   "note": "Function arguments run in any lawful monad, so the equations also say when and how often they are called."
  },
  {
   "property": "C49",
   "status": "proved",
   "theorems": [
    "Clara.Props.C49_equals"
   ],
   "note": "Strings shorter than 2^61 bytes (any that fits in the address space)."
  },
  {
   "property": "C50",
   "status": "partial",
   "theorems": [
    "Clara.Props.C50_partial",
    "Clara.Props.C50_violated"
   ],
   "note": "Proved for a substring that is not empty or start 0, and start >= 0. False otherwise: the empty substring with a later start gives 0, a negative start reads outside the string."
  },
  {
   "property": "C51",
   "status": "partial",
   "theorems": [
    "Clara.Props.C51_append",
    "Clara.Props.C51_substring_partial",
    "Clara.Props.C51_violated"
   ],
   "note": "append proved in full. Substring proved for bounds inside the string; outside it pads with NUL bytes, panics or reads outside the string."
  },
  {
   "property": "C52",
   "status": "proved",
   "theorems": [
    "Clara.Props.C52_toString",
    "Clara.Props.C52_numeral",
    "Clara.Props.C52_injective"
   ],
   "note": "All ints; C52_numeral ties the specification to the value of the digits."
  },
  {
   "property": "C53",
   "status": "partial",
   "theorems": [
    "Clara.Props.C53_new",
    "Clara.Props.C53_partial",
    "Clara.Props.C53_violated"
   ],
   "note": "Negative indexes are not rejected by get and set."
  },
  {
   "property": "C54",
   "status": "partial",
   "theorems": [
    "Clara.Props.C54_partial",
    "Clara.Props.C54_step",
    "Clara.Props.C54_substring",
    "Clara.Props.C54_violated"
   ],
   "note": "Capacities from 1 up and contents up to 2^59 bytes. With capacity 0 the first append never ends."
  },
  {
   "property": "C55",
   "status": "proved",
   "theorems": [
    "Clara.Props.C55_fnv1a"
   ],
   "note": "Specification over 32-bit words, checked on published test vectors."
  },
  {
   "property": "C56",
   "status": "proved",
   "theorems": [
    "Clara.Props.C56_mod"
   ],
   "note": "All ints, including the quotient -2^62 / -1 that wraps."
  },
  {
   "property": "C57",
   "status": "proved",
   "theorems": [
    "Clara.Props.C57_toBinary"
   ],
   "note": "63 bits, most significant first; the first group has 7 bits, then groups of eight."
  },
  {
   "property": "C58",
   "status": "proved",
   "theorems": [
    "Clara.Props.C58_args",
    "Clara.Props.C58_env"
   ],
   "note": "For strings of at most 2^59 bytes. bootstrap.c calls getopt_long before the entry point, which may reorder the vector; that is outside of the model. A variable without '=' gets the empty value."
  },
  {
   "property": "C59",
   "status": "partial",
   "theorems": [
    "Clara.Props.C59_compile",
    "Clara.Props.C59_partial",
    "Clara.Props.C59_violated",
    "Clara.Props.C59_violated_ternary"
   ],
   "note": "C59_compile: the phases of main.go Compile (phases abstract): output exactly when no phase reported an error. C59_partial: a program for which the type checker reports nothing is well typed in all its parts, provided no function literal is inside ?: or an array literal (and receivers of l.f(..) and l.f[..] are simple). C59_violated: errors in elements of array literals and operands of ?: are dropped."
  },
  {
   "property": "C60",
   "status": "partial",
   "theorems": [
    "Clara.Props.C60_partial",
    "Clara.Props.C60_violated",
    "Clara.Props.C60_violated_range",
    "Clara.Props.C60_violated_strings",
    "Clara.Props.C60_violated_bools",
    "Clara.Props.C60_violated_params",
    "Clara.Props.C60_violated_six",
    "Clara.Props.C60_violated_captured",
    "Clara.Props.C60_params",
    "Clara.Props.C60_violated_slots"
   ],
   "note": "False as stated: accepted programs that use `..` outside `for`, compare strings or booleans, declare a function with seven parameters, call a function value with six arguments, capture seven variables, or have more than 4096 variables in a function (C60_violated_slots) make the generator panic (each shown with a concrete accepted program). C60_partial: for accepted programs without these (`sane`, and at most six parameters and 4096 variables per generated function) neither the rewriting of the checked tree nor code generation panics. Programs for which the translation is `.outside` (type names as values, closures over fields) are not covered; the conditions of C59_partial apply. Overflow of integer literals is C27, string data C39, the type table C45."
  },
  {
   "property": "C61",
   "status": "partial",
   "theorems": [
    "Clara.Props.C61_reject",
    "Clara.Props.C61_adjacent_violated"
   ],
   "note": "The exact set of rejected texts is proved (iff). The claim that blanks are optional between a word and an operator or bracket is false: x= and x} are lexical errors; disproved by C61_adjacent_violated."
  },
  {
   "property": "C62",
   "status": "partial",
   "theorems": [
    "Clara.Props.C62_partial",
    "Clara.Props.C62_violated",
    "Clara.Props.C62_violated_printf",
    "Clara.Props.C62_violated_result",
    "Clara.Props.C62_violated_assign"
   ],
   "note": "Soundness of the checker for wider rules (odd = true). The strict rules fail: x := int, calls of any variable named printf, fields of a function's result type, assignment to a declared function."
  },
  {
   "property": "C63",
   "status": "proved",
   "theorems": [
    "Clara.Props.C63",
    "Clara.Props.C63_unique",
    "Clara.Props.C63_depth"
   ],
   "note": "For every program there is a recursion depth that suffices, and every larger one gives the same outcome (which may be a Go panic, C64). The model is typeCheck with a depth limit; .fuel is the outcome of a run that needs more. Types are trees here; instantiation of recursive structs is C19."
  },
  {
   "property": "C64",
   "status": "partial",
   "theorems": [
    "Clara.Props.C64_violated_order",
    "Clara.Props.C64_violated_bare",
    "Clara.Props.C64_partial",
    "Clara.Props.C64_partial_subst",
    "Clara.Props.C64_field"
   ],
   "note": "False in the code: instantiation happens in the order of declarations and copies the fields that are there, so fn f(x: b«int») before the structs gives x.y the type c«T» (C64_violated_order); generic names without type arguments leak type parameters that later substitutions replace (C64_violated_bare). Proved for programs that declare structs before giving them type arguments and write type arguments in the fields of structs."
  },
  {
   "property": "C65",
   "status": "proved",
   "theorems": [
    "Clara.Props.C65",
    "Clara.Props.C65_typed",
    "Clara.Props.C65_checked"
   ],
   "note": "Types are compared without the fields of copies, which is C64. Declarations of imported modules are part of the list."
  },
  {
   "property": "C66",
   "status": "partial",
   "theorems": [
    "Clara.Props.C66_partial",
    "Clara.Props.C66_partial_panic",
    "Clara.Props.C66_reads",
    "Clara.Props.C66_partial_code",
    "Clara.Props.C66_violated_clash",
    "Clara.Props.C66_violated_unsafe",
    "Clara.Props.C66_violated_inside"
   ],
   "note": "False: enum Foo with struct foo panics, so does a call of a variable named unsafe; struct a«T» { b: a«T» } does not end. Proved for all tame programs (conditions on the syntax) whose structs are not inside of themselves; lexing and parsing never crash for any text. Code generation behind it as in C60. Missing: programs that are not tame; import of files."
  },
  {
   "property": "C67",
   "status": "proved",
   "theorems": [
    "Clara.Props.C67",
    "Clara.Props.C67_text"
   ],
   "note": "For all programs and all outcomes (also with errors) the checked functions say the same as the given ones (X.Says: the same tree with other annotations, dots read as fields or methods). C67_text: the same for the functions the phases up to type checking hand to code generation. With C59/C62 (checked trees are well typed) this means that what is compiled is what was written."
  },
  {
   "property": "C68",
   "status": "partial",
   "theorems": [
    "Clara.Props.C68_partial",
    "Clara.Props.C68_partial_runs",
    "Clara.Props.C68_partial_steady",
    "Clara.Props.C68_violated"
   ],
   "note": "C68_claim is the full claim; C68_violated: a loop over a decreasing range (as C25). C68_partial and C68_partial_runs cover function literals with captured variables, functions as values, array literals and everything else that ToGen covers, for the runs over ranges for which C25 holds in which the end of a range and the array of a loop have the same values each time round and the variable of a range is not changed (C25 and C26 are violated otherwise). C68_partial_steady: that holds of all runs of programs whose loops end at numbers or variables that the loop does not assign and that are not captured, and likewise for arrays. Missing: other runs, and programs with two equal function literals (the trees have no identity)."
  },
  {
   "property": "C69",
   "status": "proved",
   "theorems": [
    "Clara.Props.C69_value",
    "Clara.Props.C69_call"
   ],
   "note": "C69_value: the code of invokeDynamic, called with a function value and at most five arguments, returns what the function behind the value returns. C69_call: the same for the call expression wherever it stands (then C34 applies). isClosure, inc and toRawInt are run as the Clara functions they are; unsafe, written in assembler, is assumed to add its arguments. More than five arguments: the compiler panics, see C60."
  },
  {
   "property": "C70",
   "status": "proved",
   "theorems": [
    "Clara.Props.C70_walk"
   ],
   "note": "For every execution from the entry of a function (Active: steps of the machine, calls, returns, external functions), at every call instruction: the walk ends at the first frame, visits the frames of the pending calls in order, finds the root map behind each call, and the words of the frames are those at the calls. Hypotheses: the code was generated without a panic; external functions do not share a name with a function of the program and are not called through values; per step enough stack and no store through a pointer into the stack in use (Tidy)."
  },
  {
   "property": "C71",
   "status": "partial",
   "theorems": [
    "Clara.Props.C71_variables_partial",
    "Clara.Props.C71_survives_partial",
    "Clara.Props.C92_violated_freed"
   ],
   "note": "Every pointer variable in scope at every pending call is among the words marked, with its value at the call, and what is reachable from it survives gc. Missing: functions with calls of computed functions in later arguments (Body.direct, see C37), and that all words in the maps are addresses of blocks, which is a hypothesis because maps can contain variables whose scope has ended (C40_violated, and C93_violated for what comes of it). Intermediate values are C44. Variables are those declared in the lowered statements; the variable of a loop over an array is not among them (C92_violated)."
  },
  {
   "property": "C72",
   "status": "proved",
   "theorems": [
    "Clara.Props.C72_unsafe",
    "Clara.Props.C72_toTaggedInt",
    "Clara.Props.C72_toUntaggedInt",
    "Clara.Props.C72_getFramePointer",
    "Clara.Props.C72_readInt",
    "Clara.Props.C72_readByte",
    "Clara.Props.C72_writeInt",
    "Clara.Props.C72_writeByte",
    "Clara.Props.C72_ext",
    "Clara.Props.C72_byte_back"
   ],
   "note": "All eight helpers on a machine with a memory of bytes; C72_ext gives the hypothesis on external functions of C34, C35, C68 and C69 for unsafe, toTaggedInt, toUntaggedInt, readInt and writeInt on the machine of words. Hypotheses of the reads and writes: the cell does not overlap the 16 bytes below the stack pointer (the helper's own frame). C72_byte_back: a byte written with set is read back by get just if it is in -128..127."
  },
  {
   "property": "C73",
   "status": "partial",
   "theorems": [
    "Clara.Props.C73_violated",
    "Clara.Props.C73_partial"
   ],
   "note": "The claim is false: in a[next()] = Box(5) the box is in no root map while next allocates; C73_violated follows an execution of the generated code through the walk, the collection and up to the store of the freed address. C73_partial: objects that are reachable from pointer variables in scope at pending calls are still there, with their words (functions without calls of computed functions in later arguments). Variables as in C71; C92_violated_freed is an execution in which the object in the variable of a loop over an array is freed, with nothing waiting on the stack."
  },
  {
   "property": "C74",
   "status": "partial",
   "theorems": [
    "Clara.Props.C74_open",
    "Clara.Props.C74_seek",
    "Clara.Props.C74_size",
    "Clara.Props.C74_read_partial",
    "Clara.Props.C74_readAll_exact",
    "Clara.Props.C74_readAll_partial",
    "Clara.Props.C74_violated_error",
    "Clara.Props.C74_violated_negative",
    "Clara.Props.C74_violated_short",
    "Clara.Props.C74_violated_position"
   ],
   "note": "open, seek and size proved for every POSIX system (size: when the last seek fails the position stays at the end). read proved for sizes 0 to the length of the buffer when the C function succeeds; a failing read crashes because the code says file.path instead of f.path (C74_violated_error), and negative sizes write outside of the buffer (C74_violated_negative). readAll: the exact result is proved; it is the contents just from position 0 and with one complete read (C74_violated_short, C74_violated_position)."
  },
  {
   "property": "C75",
   "status": "proved",
   "theorems": [
    "Clara.Props.C75_describe",
    "Clara.Props.C75_injective",
    "Clara.Props.C75_known"
   ],
   "note": "For every error with a 63-bit code and a message of at most 2^58 bytes."
  },
  {
   "property": "C76",
   "status": "proved",
   "theorems": [
    "Clara.Props.C76_now",
    "Clara.Props.C76_units"
   ],
   "note": "Now for all 63-bit values; conversions for seconds from 0 below 2^42 and microseconds below a million."
  },
  {
   "property": "C77",
   "status": "proved",
   "theorems": [
    "Clara.Props.C77_forever",
    "Clara.Props.C77_no_return",
    "Clara.Props.C77_call",
    "Clara.Props.C77_div"
   ],
   "note": "Enough stack for the calls being executed is a hypothesis, as in C34; recursion deeper than the stack is not covered. C77_no_return speaks of a return address without code."
  },
  {
   "property": "C78",
   "status": "partial",
   "theorems": [
    "Clara.Props.C78_terminated",
    "Clara.Props.C78_string_partial",
    "Clara.Props.C78_string",
    "Clara.Props.C78_violated_nul",
    "Clara.Props.C78_int",
    "Clara.Props.C78_int_toString",
    "Clara.Props.C78_bool",
    "Clara.Props.C78_hex",
    "Clara.Props.C78_hexPadded",
    "Clara.Props.C78_panic",
    "Clara.Props.C78_assert",
    "Clara.Props.C78_index_partial",
    "Clara.Props.C78_index",
    "Clara.Props.C78_violated_index"
   ],
   "note": "Ints, bools and hexadecimal numbers are proved in full. Strings are printed up to their first NUL byte (C78_violated_nul), so the claim holds for strings without one. The message for a bad index uses %d, which takes 32 bits: exact for numbers of 32 bits, and index 4294967296 is shown as 0 (C78_violated_index)."
  },
  {
   "property": "C79",
   "status": "proved",
   "theorems": [
    "Clara.Props.C79_line",
    "Clara.Props.C79_exists",
    "Clara.Props.C79_jumps",
    "Clara.Props.C79_program",
    "Clara.Props.C79_itoa",
    "Clara.Props.C79_number",
    "Clara.Props.C79_literal",
    "Clara.Props.C79_names"
   ],
   "note": "Linux only. Numbers of the program have 64 bits and offsets of fields 31 bits (Body.small), the names in the source consist of characters of symbols. Labels and names are assumed as in C36. Lines of data are not covered. C79_literal: the integers of a source file, with or without the sign that the compiler draws in, meet the conditions of C79_number."
  },
  {
   "property": "C80",
   "status": "partial",
   "theorems": [
    "Clara.Props.C80_partial",
    "Clara.Props.C80_object",
    "Clara.Props.C80_run",
    "Clara.Props.C80_violated"
   ],
   "note": "Proved for all sizes except -16 to -1, for constructors, and for runs of any length. For the size -16 calloc is asked for no bytes and the header is written behind the block (C80_violated); such sizes come from array(-3) and array(-2) only. A constructor without words (a structure without fields) panics. Assumes of calloc what libc says, and type ids below 2^15."
  },
  {
   "property": "C81",
   "status": "partial",
   "theorems": [
    "Clara.Props.C81_array_partial",
    "Clara.Props.C81_bytes_partial",
    "Clara.Props.C81_violated"
   ],
   "note": "Proved for all lengths from -2^59 to 2^59 - 1 except -3 and -2 (negative ones panic), and for byte arrays of all lengths that are not negative. False for the others: array(-3) writes behind its block, and an array of 2^60 elements gets a block without room for any of them while its length lets every index pass the check, and Bytes(-1) writes its length behind the block (C81_violated)."
  },
  {
   "property": "C82",
   "status": "proved",
   "theorems": [
    "Clara.Props.C82_maps",
    "Clara.Props.C82_table",
    "Clara.Props.C82_program",
    "Clara.Props.C82_function",
    "Clara.Props.C82_literal",
    "Clara.Props.C82_string",
    "Clara.Props.C82_call"
   ],
   "note": "for every file that contains the lines, wherever the assembler and linker place it; labels different (the assembler demands it), names of types consist of symbol characters, the section fits into memory. C82_string is about literals that are valid UTF-8 without raw line feeds (C39 has what happens to others)."
  },
  {
   "property": "C83",
   "status": "partial",
   "theorems": [
    "Clara.Props.C83_argv",
    "Clara.Props.C83_perm",
    "Clara.Props.C83_violated",
    "Clara.Props.C83_violated_silent",
    "Clara.Props.C83_partial",
    "Clara.Props.C83_args",
    "Clara.Props.C83_entry",
    "Clara.Props.C83_aligned"
   ],
   "note": "The claim on order is false (C83_violated: prog a -g; C83_violated_silent: prog -v is complained about). C83_argv gives the exact order, the debug flag and the number of messages, C83_partial when the order is kept, C83_args the strings that the program sees (with C58), C83_entry and C83_aligned the assembly entry."
  },
  {
   "property": "C84",
   "status": "partial",
   "theorems": [
    "Clara.Props.C84_violated",
    "Clara.Props.C84_violated_labels",
    "Clara.Props.C84_names",
    "Clara.Props.C84_line_partial",
    "Clara.Props.C84_program_partial",
    "Clara.Props.C84_data_partial",
    "Clara.Props.C84_string"
   ],
   "note": "False as stated: a struct or enum named linux or unix (macros of gcc) in a parameter type changes the label (C84_violated), and two accepted functions with different labels get the same one (C84_violated_labels). C84_names says exactly when a label mentions a reserved name. Without such names every instruction line of a program is read by the assembler behind the preprocessor as the instruction, and labels, maps and the type table are copied; the lines of literals are always copied (C84_string)."
  },
  {
   "property": "C85",
   "status": "partial",
   "theorems": [
    "Clara.Props.C85_violated",
    "Clara.Props.C85_violated_asm",
    "Clara.Props.C85_violated_lib",
    "Clara.Props.C85_violated_dir",
    "Clara.Props.C85_violated_shared",
    "Clara.Props.C85_clean",
    "Clara.Props.C85_plain",
    "Clara.Props.C85_dotted",
    "Clara.Props.C85_partial"
   ],
   "note": "False as stated: clara -prog hello writes the program over its source (C85_violated), and four other cases. C85_plain and C85_dotted say exactly when the source is overwritten, for names without and with a dot; C85_partial is the claim for sources name.clara without another dot; C85_clean: Clean names the same file (no links)."
  },
  {
   "property": "C86",
   "status": "proved",
   "theorems": [
    "Clara.Props.C86_pre",
    "Clara.Props.C86_post"
   ],
   "note": "For the trees of the parser. C86_pre: any function; the calls replayed with a stack give exactly the nodes with their ancestors. C86_post: every node once, the calls for all that is below a node right before it. The function does not change the tree."
  },
  {
   "property": "C87",
   "status": "partial",
   "theorems": [
    "Clara.Props.C87_violated",
    "Clara.Props.C87_partial",
    "Clara.Props.C87_builtins_partial",
    "Clara.Props.C87_candidates_partial",
    "Clara.Props.C87_allocations_partial"
   ],
   "note": "False as stated: a type parameter T and an enumeration T have the same text (C87_violated). Where each name stands for one thing, texts are equal exactly if the types match (C87_partial), also for candidates and for names of allocations; the names of built-in types differ (C87_builtins_partial). Missing: names with two meanings."
  },
  {
   "property": "C88",
   "status": "proved",
   "theorems": [
    "Clara.Props.C88_code",
    "Clara.Props.C88_helpers",
    "Clara.Props.C88_helpers_peep",
    "Clara.Props.C88_entry",
    "Clara.Props.C88_tableFn",
    "Clara.Props.C88_tail",
    "Clara.Props.C88_text",
    "Clara.Props.C88_complete"
   ],
   "note": "For all programs under the hypotheses of C79 and C82 (names are symbols, labels of the data differ, the data fits). C88_code is about the functions and the trampoline; C88_text is about the whole text section in the order of the file, with the helpers written in assembly (C88_helpers), the entry point (C88_entry) and typeInfoTable (C88_tableFn); C88_tail is the part behind the trampoline. The optimiser changes no helper (C88_helpers_peep). The literals at the end are C82_string."
  },
  {
   "property": "C89",
   "status": "partial",
   "theorems": [
    "Clara.Props.C89_partial",
    "Clara.Props.C89_marks_partial",
    "Clara.Props.C89_trees_partial",
    "Clara.Props.C89_violated",
    "Clara.Props.C89_violated_filter"
   ],
   "note": "Lines, order, depth and texts are proved and the tree can be read back; which branch a line has is not as claimed: the last parameter has └── though an operand or statements follow, and a filter may leave no last child (C89_violated, C89_violated_filter). C89_marks_partial is the claim in full, without a filter, for trees in which a node has one kind of children."
  },
  {
   "property": "C90",
   "status": "partial",
   "theorems": [
    "Clara.Props.C90_words_partial",
    "Clara.Props.C90_partial",
    "Clara.Props.C90_violated",
    "Clara.Props.C90_violated_length"
   ],
   "note": "The claim that all words are addresses of objects is false: an address prepared for a #[RawValues] function waits in a root slot while later arguments are evaluated, and the collector changes the length of the string. Proved: which words are shown (bodies with exact maps, C40), and that the collection ends and keeps what variables reach if the waiting arguments are objects too."
  },
  {
   "property": "C91",
   "status": "proved",
   "theorems": [
    "Clara.Props.C91_copy",
    "Clara.Props.C91_separate"
   ],
   "note": "For all trees in memory, with shared nodes or without. C91_separate: any later change of old nodes leaves the copy, any change of new nodes the original."
  },
  {
   "property": "C92",
   "status": "partial",
   "theorems": [
    "Clara.Props.C92_partial",
    "Clara.Props.C92_violated",
    "Clara.Props.C92_violated_freed",
    "Clara.Props.C92_literal",
    "Clara.Props.C92_other_case"
   ],
   "note": "The claim is false: the variable of a loop over an array of pointers is assigned without a declaration (semantic.go 487, as instead of das) and is in no root map; C92_violated gives a function and its map, C92_violated_freed an execution in which the object is freed and its address stored afterwards. C92_partial proves the claim for all functions without loops over arrays of pointers (code generation does not panic, no calls of computed functions in later arguments, distinct parameters). C92_literal: the variable that keeps the array of a loop over a literal is in scope at all calls in the loop. C92_other_case: in the other direction, the variable of one case of a match is in the map of a call in another case, after a nested block."
  },
  {
   "property": "C93",
   "status": "partial",
   "theorems": [
    "Clara.Props.C93_partial",
    "Clara.Props.C93_violated"
   ],
   "note": "False: after a nested block the slot of a variable whose block has ended, or was never entered, stays in the maps (CloseScope, C40). C93_violated: an execution from a stack of zeros in which the collector is shown a saved rbp left by earlier calls and goes wild. C93_partial: the collection ends for all programs whose functions have exact maps (no inner block declares a pointer variable before a block of its own), without calls of computed functions in later arguments."
  },
  {
   "property": "C94",
   "status": "partial",
   "theorems": [
    "Clara.Props.C94_code_iff",
    "Clara.Props.C94_text_partial",
    "Clara.Props.C94_lines_partial",
    "Clara.Props.C94_strings_iff",
    "Clara.Props.C94_strings_partial",
    "Clara.Props.C94_closure_partial",
    "Clara.Props.C94_violated",
    "Clara.Props.C94_violated_strings",
    "Clara.Props.C94_violated_closure"
   ],
   "note": "False: two calls with roots in a function, two string literals or two captured variables are enough for another file (C94_violated, C94_violated_strings, C94_violated_closure); C94_code_iff and C94_strings_iff say exactly when the lines are the same in all orders. Proved for every order: the text section is the same statement by statement (C94_text_partial, hypotheses of C88), the lines are the same up to their order, and the environments have the same variables (functions for which C28 holds). The rest of the file (type table, helpers) does not go through a map."
  },
  {
   "property": "C95",
   "status": "proved",
   "theorems": [
    "Clara.Props.C95_code",
    "Clara.Props.C95_table",
    "Clara.Props.C95_flush",
    "Clara.Props.C95_noGc",
    "Clara.Props.C95_tab",
    "Clara.Props.C95_label",
    "Clara.Props.C95_raw",
    "Clara.Props.C95_spacer",
    "Clara.Props.C95_ins",
    "Clara.Props.C95_ascii",
    "Clara.Props.C95_helpers",
    "Clara.Props.C95_entry",
    "Clara.Props.C95_tableFn"
   ],
   "note": "Function and type names are assumed to be symbols, as in C79 and C82 (C79_names shows it of the names the compiler makes). The eight assembly helpers are C95_helpers, clara_asm_entrypoint is C95_entry, the function typeInfoTable is C95_tableFn. Linux only."
  },
  {
   "property": "C96",
   "status": "partial",
   "theorems": [
    "Clara.Props.C96_partial",
    "Clara.Props.C96_syntax",
    "Clara.Props.C96_unique",
    "Clara.Props.C96_place",
    "Clara.Props.C96_clean",
    "Clara.Props.C96_reported",
    "Clara.Props.C96_empty",
    "Clara.Props.C96_violated",
    "Clara.Props.C96_reached",
    "Clara.Props.C96_violated_elem",
    "Clara.Props.C96_elem_partial",
    "Clara.Props.C96_expected",
    "Clara.Props.C96_unnamed",
    "Clara.Props.C96_kinds"
   ],
   "note": "The claim as stated is false: typecheck.go 542 gives the text of the token to a format without a place for it, so the message for an empty array literal ends in %!(EXTRA string=[) (C96_violated, reached by the checker: C96_reached). C96_partial proves it for the other 64 calls, C96_syntax for the parser. typecheck.go 550 always names int as the wanted type of an array element (C96_violated_elem). Missing: the two lexer messages with argument indexes. C96_expected: syntax errors never name an empty expectation, though KindValues has no entry for three kinds (C96_unnamed)."
  },
  {
   "property": "C97",
   "status": "partial",
   "theorems": [
    "Clara.Props.C97_partial",
    "Clara.Props.C97_doubled",
    "Clara.Props.C97_unique",
    "Clara.Props.C97_violated",
    "Clara.Props.C97_ops"
   ],
   "note": "The claim as stated is false: typecheck.go 930 doubles percent signs of a text that is only ever an argument of a format (C97_violated). C97_partial proves the claim for texts without percent signs, C97_doubled states the line for all texts. C97_ops: every operation has a name of its own."
  },
  {
   "property": "C98",
   "status": "partial",
   "theorems": [
    "Clara.Props.C98_partial",
    "Clara.Props.C98_place",
    "Clara.Props.C98_violated"
   ],
   "note": "The claim as stated is false: for an unclosed string literal with a newline the line is that of the beginning and the column that of the end (C98_violated). C98_place states line and column for every rejected source; C98_partial proves the claim for all errors that are not about a string literal, and for string literals on the last line. Assumption: Uni.Ok (the Unicode tables agree with ASCII)."
  }
 ]
}