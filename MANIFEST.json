{
 "claims": [
  {
   "property": "C01",
   "status": "proved",
   "theorems": [
    "Toycc.HashMap.C01_put_get",
    "Toycc.HashMap.C01_delete_frame"
   ],
   "note": ""
  },
  {
   "property": "C02",
   "status": "proved",
   "theorems": [
    "Toycc.HashMap.C02_refines_map"
   ],
   "note": ""
  },
  {
   "property": "C03",
   "status": "partial",
   "theorems": [
    "Toycc.HashMap.C03_refines_map_partial",
    "Toycc.HashMap.C03_deleted_key_resurrects",
    "Toycc.HashMap.C03_put_aborts"
   ],
   "note": "The full property is false in the code: re-inserting a key can reuse a tombstone before the live copy, and deleting it then resurrects the old value (witness proved); histories without re-inserting after a deletion are covered."
  },
  {
   "property": "C04",
   "status": "proved",
   "theorems": [
    "Toycc.HashMap.C04_probing_ends"
   ],
   "note": ""
  },
  {
   "property": "C05",
   "status": "proved",
   "theorems": [
    "Toycc.Util.C05_pushAll"
   ],
   "note": ""
  },
  {
   "property": "C06",
   "status": "proved",
   "theorems": [
    "Toycc.Unicode.C06_decode_encode",
    "Toycc.Unicode.C06_text",
    "Toycc.Unicode.C06_bound_is_sharp"
   ],
   "note": ""
  },
  {
   "property": "C07",
   "status": "partial",
   "theorems": [
    "Toycc.Unicode.C07_decode_wellformed_partial",
    "Toycc.Unicode.C07_rejects",
    "Toycc.Unicode.C07_violated"
   ],
   "note": "Overlong forms, surrogates and values above U+10FFFF are accepted (witnesses proved); what is proved is that accepted sequences have the right shape."
  },
  {
   "property": "C08",
   "status": "proved",
   "theorems": [
    "Toycc.Unicode.C08_ident_chars",
    "Toycc.Unicode.C08_start_continue",
    "Toycc.Unicode.C08_tables_terminated",
    "Toycc.Unicode.C08_read_ident",
    "Toycc.Unicode.C08_read_ident_none"
   ],
   "note": ""
  },
  {
   "property": "C09",
   "status": "proved",
   "theorems": [
    "Toycc.Source.C09_inplace",
    "Toycc.Source.C09_no_cr",
    "Toycc.Source.C09_lines"
   ],
   "note": ""
  },
  {
   "property": "C10",
   "status": "proved",
   "theorems": [
    "Toycc.Source.C10_inplace",
    "Toycc.Source.C10_count",
    "Toycc.Source.C10_content",
    "Toycc.Source.C10_line",
    "Toycc.Source.C10_line_numbers"
   ],
   "note": ""
  },
  {
   "property": "C11",
   "status": "proved",
   "theorems": [
    "Toycc.Source.C11_inplace",
    "Toycc.Source.C11_pieces",
    "Toycc.Source.C11_pipeline",
    "Toycc.Source.C11_no_nul",
    "Toycc.Source.C11_cstr",
    "Toycc.Source.C11_lone_backslash_overruns"
   ],
   "note": "For files without NUL bytes; a lone backslash right before the NUL would overrun, which read_file's final newline prevents."
  },
  {
   "property": "C12",
   "status": "proved",
   "theorems": [
    "Toycc.Lex.C12_C15_layout",
    "Toycc.Lex.C12_concat",
    "Toycc.Lex.C12_eof_last"
   ],
   "note": ""
  },
  {
   "property": "C13",
   "status": "proved",
   "theorems": [
    "Toycc.Lex.C13_line_numbers",
    "Toycc.Lex.C13_any_list"
   ],
   "note": ""
  },
  {
   "property": "C14",
   "status": "proved",
   "theorems": [
    "Toycc.Lex.C14_longest",
    "Toycc.Lex.C14_no_digraphs"
   ],
   "note": "Of the punctuators toycc implements; digraphs are not among them (C14_no_digraphs)."
  },
  {
   "property": "C15",
   "status": "proved",
   "theorems": [
    "Toycc.Lex.C12_C15_layout"
   ],
   "note": ""
  },
  {
   "property": "C16",
   "status": "partial",
   "theorems": [
    "Toycc.Lex.C16_no_overrun_partial",
    "Toycc.Lex.C16_violated"
   ],
   "note": "tokenize() overruns on a buffer whose last line is a // comment or ends in a backslash without a newline (witness proved); read_file always adds the newline, so files are covered by the partial theorem."
  },
  {
   "property": "C17",
   "status": "partial",
   "theorems": [
    "Toycc.Lex.C17_value_and_type",
    "Toycc.Lex.C17_rejects_partial",
    "Toycc.Lex.C17_dot_rejected",
    "Toycc.Lex.C17_violated"
   ],
   "note": "Value and type of every integer constant are proved in full. Rejection is partial: 0x0x1 is accepted, values above 2^64-1 saturate, and decimal constants from 2^63 on get type long (witnesses proved)."
  },
  {
   "property": "C18",
   "status": "proved",
   "theorems": [
    "Toycc.Lex.C18_escapes",
    "Toycc.Lex.C18_hex_overflow"
   ],
   "note": "Hexadecimal escapes above INT_MAX overflow the int accumulator: a separate outcome."
  },
  {
   "property": "C19",
   "status": "proved",
   "theorems": [
    "Toycc.Lex.C19_string_end",
    "Toycc.Lex.C19_string_literal"
   ],
   "note": ""
  },
  {
   "property": "C20",
   "status": "proved",
   "theorems": [
    "Toycc.Lex.C20_utf16",
    "Toycc.Lex.C20_units_fit",
    "Toycc.Lex.C20_literal",
    "Toycc.Lex.C20_literal32"
   ],
   "note": ""
  },
  {
   "property": "C21",
   "status": "partial",
   "theorems": [
    "Toycc.Pp.C21_selected_partial",
    "Toycc.Pp.C21_stray",
    "Toycc.Pp.C21_unterminated",
    "Toycc.Pp.C21_else_again",
    "Toycc.Pp.C21_null_directive_wrong",
    "Toycc.Pp.C21_extra_tokens_wrong"
   ],
   "note": "All nestings of sections in the grammar of groups, and all unbalanced files. Partial because toycc takes a null directive followed by a line starting with the name of a conditional directive for that directive, and outputs tokens that follow #endif or #else (two witnesses)."
  },
  {
   "property": "C22",
   "status": "partial",
   "theorems": [
    "Toycc.Pp.C22_terminates_partial",
    "Toycc.Pp.C22_plain_partial",
    "Toycc.Pp.C22_violated_include"
   ],
   "note": "Every table of macros (recursive, mutually recursive, variadic) and every token list, with conditional and #define directives: preprocessing ends, unless it meets an include, a directive produced by a macro, or the second use of an argument whose relinked list is still expandable. Without exception for texts without directives and macros that use each parameter once and neither # nor ##. #include of a name that is not a macro never ends (proved)."
  },
  {
   "property": "C23",
   "status": "proved",
   "theorems": [
    "Toycc.Pp.C23_hidden",
    "Toycc.Pp.C23_carry",
    "Toycc.Pp.C23_object_like"
   ],
   "note": "C23_object_like is the third clause, for object-like macros; for function-like ones the first two clauses apply to every token of the expansion."
  },
  {
   "property": "C24",
   "status": "proved",
   "theorems": [
    "Toycc.Pp.hsContains_iff",
    "Toycc.Pp.hsUnion_mem",
    "Toycc.Pp.hsInter_mem",
    "Toycc.Pp.addHideset_spec"
   ],
   "note": ""
  },
  {
   "property": "C25",
   "status": "proved",
   "theorems": [
    "Toycc.Pp.C25_one_argument",
    "Toycc.Pp.C25_arguments",
    "Toycc.Pp.C25_no_parameters",
    "Toycc.Pp.C25_variadic",
    "Toycc.Pp.C25_variadic_absent"
   ],
   "note": ""
  },
  {
   "property": "C26",
   "status": "partial",
   "theorems": [
    "Toycc.Pp.C26_hash_operator_partial",
    "Toycc.Pp.C26_string_token",
    "Toycc.Pp.C26_join_fits",
    "Toycc.Pp.C26_quote_fits",
    "Toycc.Pp.C26_reuse_wrong"
   ],
   "note": "The # operator gives the characters of the argument as stored; when the same parameter was macro-expanded earlier in the body the stored list has been relinked and the string is wrong (witness)."
  },
  {
   "property": "C27",
   "status": "partial",
   "theorems": [
    "Toycc.Pp.C27_join_partial",
    "Toycc.Pp.C27_mixed_partial",
    "Toycc.Pp.C27_tokens",
    "Toycc.Pp.C27_u8_wrong"
   ],
   "note": "All runs except those holding both a u8 and a u literal, which toycc takes for the same kind (witnesses: lost text, and a write outside the buffer)."
  },
  {
   "property": "C28",
   "status": "partial",
   "theorems": [
    "Toycc.Pp.C28_guarded_partial",
    "Toycc.Pp.C28_skip",
    "Toycc.Pp.C28_read",
    "Toycc.Pp.C28_second_section_wrong",
    "Toycc.Pp.C28_else_wrong"
   ],
   "note": "Invisible for files that are one #ifndef section without #else; the detection also accepts other files, whose tokens are then lost (two witnesses)."
  },
  {
   "property": "C29",
   "status": "partial",
   "theorems": [
    "Toycc.Pp.C29_search",
    "Toycc.Pp.C29_cache",
    "Toycc.Pp.C29_include",
    "Toycc.Pp.C29_include_next_partial",
    "Toycc.Pp.C29_next_after_cache_wrong",
    "Toycc.Pp.C29_next_twice_wrong"
   ],
   "note": "Search order and independence of the cache hold in every reachable state; #include_next holds only right after an uncached search (two witnesses)."
  },
  {
   "property": "C30",
   "status": "partial",
   "theorems": [
    "Toycc.Types.C30_common_type",
    "Toycc.Types.C30_enum_partial",
    "Toycc.Types.C30_violated"
   ],
   "note": "Exact for all operands that are not enumerated. With enumerated operands only up to enum = int; the result depends on the order (C30_violated)."
  },
  {
   "property": "C31",
   "status": "proved",
   "theorems": [
    "Toycc.Types.C31_compatible_iff",
    "Toycc.Types.C31_equivalence"
   ],
   "note": "Over all type objects with distinct addresses, unique void and _Bool objects."
  },
  {
   "property": "C32",
   "status": "partial",
   "theorems": [
    "Toycc.Types.C32_declspec_partial",
    "Toycc.Types.C32_order",
    "Toycc.Types.C32_user_type",
    "Toycc.Types.C32_violated",
    "Toycc.Types.C32_typedef_static"
   ],
   "note": "Repeated signed/unsigned are accepted (C32_violated); exact for all other lists."
  },
  {
   "property": "C33",
   "status": "proved",
   "theorems": [
    "Toycc.Layout.C33_struct_layout",
    "Toycc.Layout.C33_C34_no_overlap",
    "Toycc.Layout.C33_packed"
   ],
   "note": ""
  },
  {
   "property": "C34",
   "status": "partial",
   "theorems": [
    "Toycc.Layout.C33_struct_layout",
    "Toycc.Layout.C33_C34_no_overlap",
    "Toycc.Layout.C34_unit_inside",
    "Toycc.Layout.C34_violated_packed",
    "Toycc.Layout.C34_violated_unit"
   ],
   "note": "Proved for structs that are not packed; violated for packed ones."
  },
  {
   "property": "C35",
   "status": "partial",
   "theorems": [
    "Toycc.Layout.C35_union_layout",
    "Toycc.Layout.C35_struct_again",
    "Toycc.Layout.C35_union_again",
    "Toycc.Layout.C35_violated"
   ],
   "note": "Mention with the wrong keyword changes the layout without a diagnostic (C35_violated)."
  },
  {
   "property": "C36",
   "status": "partial",
   "theorems": [
    "Toycc.Cg.Props.bitfield_store_partial",
    "Toycc.Cg.Props.bitfield_read_back_partial",
    "Toycc.Cg.Props.bitfield_assignment_value_wrong",
    "Toycc.Cg.Props.bool_bitfield_reads_minus_one"
   ],
   "note": "Stored bits, neighbouring bits and read-back proved for all widths below 64; the value of the assignment is wrong when it does not fit, and _Bool fields read -1."
  },
  {
   "property": "C37",
   "status": "partial",
   "theorems": [
    "Toycc.Cg.Props.cast_correct_iff_partial"
   ],
   "note": "Exactly the right conversions are characterised; eight pairs of types are compiled wrongly."
  },
  {
   "property": "C38",
   "status": "partial",
   "theorems": [
    "Toycc.Low.Props.rewritten_expression_partial",
    "Toycc.Low.Props.compiled_source_expression_partial",
    "Toycc.Low.Props.bitfield_not_promoted_wrong",
    "Toycc.Low.Props.elvis_narrow_wrong",
    "Toycc.Cg.Props.compiled_expression_value_partial",
    "Toycc.Cg.Props.compiled_expression_strict",
    "Toycc.Cg.Props.unsigned_int_compare_wrong",
    "Toycc.Cg.Props.unsigned_long_le_wrong",
    "Toycc.Cg.Props.unsigned_char_cast_wrong",
    "Toycc.Cg.Props.narrow_complement_wrong",
    "Toycc.Cg.Props.unsigned_complement_wrong"
   ],
   "note": "All expressions of the simple class, with memory, pointers, structs, calls; outside it the compiled value can be wrong (witnesses)."
  },
  {
   "property": "C39",
   "status": "partial",
   "theorems": [
    "Toycc.Stm.Props.expression_depth",
    "Toycc.Stm.Props.statement_depth",
    "Toycc.Stm.Props.expression_sp_partial",
    "Toycc.Stm.Props.body_sp_partial",
    "Toycc.Stm.Props.body_sp_closed"
   ],
   "note": "Every modelled tree, every execution including undefined ones. Not modelled: long double (whose stack is not balanced in some cases), statement expressions, alloca."
  },
  {
   "property": "C40",
   "status": "partial",
   "theorems": [
    "Toycc.Stm.Props.compiled_body_partial",
    "Toycc.Stm.Props.terminates_iff_partial",
    "Toycc.Stm.Props.result_unique",
    "Toycc.Stm.Props.compile_total"
   ],
   "note": "Bodies whose expressions are in the simple class of C38 and whose switches have admissible cases; asm, computed goto, statement expressions not modelled."
  },
  {
   "property": "C41",
   "status": "partial",
   "theorems": [
    "Toycc.Stm.Props.compiled_switch_partial",
    "Toycc.Stm.Props.switch_jumps_partial",
    "Toycc.Stm.Props.switch_spec",
    "Toycc.Stm.Props.switch_unsigned_wrong",
    "Toycc.Stm.Props.switch_long_wrong"
   ],
   "note": "Case constants that fit int (and, for unsigned, are not negative); outside, the code selects wrong cases (two witnesses)."
  },
  {
   "property": "C42",
   "status": "partial",
   "theorems": [
    "Toycc.Fold.C42_fold_partial",
    "Toycc.Fold.C42_address",
    "Toycc.Fold.C42_not_constant",
    "Toycc.Fold.C42_unsigned_wrong",
    "Toycc.Fold.C42_complement_wrong",
    "Toycc.Fold.C42_bool_wrong",
    "Toycc.Fold.C42_zero_wrong"
   ],
   "note": "All integer constant expressions without wrapping unsigned arithmetic and without conversions to _Bool, and address constants. toycc folds wrapping unsigned int arithmetic and (_Bool) casts to wrong values and executes divisions by zero (four witnesses). Floating-point constants are not modelled."
  },
  {
   "property": "C43",
   "status": "partial",
   "theorems": [
    "Toycc.Parse.C43_grammar_partial",
    "Toycc.Parse.C43_assign_grammar",
    "Toycc.Parse.C43_unambiguous",
    "Toycc.Parse.C43_round_trip_partial",
    "Toycc.Parse.C43_accepted",
    "Toycc.Parse.C43_plus_dropped",
    "Toycc.Parse.C43_accepts_more",
    "Toycc.Parse.C43_not_expression"
   ],
   "note": "Parser of expressions modelled from comma expressions to primary expressions, over an abstract reader of type names. Every text the grammar derives, redundant parentheses included, is parsed as its tree before every continuation, and whatever is accepted is derived, up to four liberties that are spelled out; two of them are shown to be taken (a + b = c is accepted). Missing: unary plus leaves no trace (proved), comma groups to the right (semantically the same), statement expressions, compound literals, _Generic and builtins are not modelled."
  },
  {
   "property": "C44",
   "status": "partial",
   "theorems": [
    "Toycc.Scope.C44_lookup",
    "Toycc.Scope.C44_restore",
    "Toycc.Scope.C44_unit_partial",
    "Toycc.Scope.C44_self_reference",
    "Toycc.Scope.C44_forward",
    "Toycc.Scope.C44_leak",
    "Toycc.Scope.C44_parameter",
    "Toycc.Scope.C44_function"
   ],
   "note": "The scope functions on the real hash table, for every nested sequence of calls (complete); and the calls the parser makes for every translation unit reduced to its names, compared with C. Missing: the constructs listed in Odd, where toycc differs from C (five of them shown by witnesses), labels and members."
  },
  {
   "property": "C45",
   "status": "partial",
   "theorems": [
    "Toycc.Globals.C45_scan_partial",
    "Toycc.Globals.C45_lost_last",
    "Toycc.Globals.C45_violated",
    "Toycc.Globals.C45_lost_adjacent"
   ],
   "note": "scan_globals modelled as the relinking of cells it is: never two definitions of a tentatively defined object remain, non-tentative ones and sole ones all remain, for every list. Missing: at least one definition remains when there are several tentative ones; toycc removes all of them in general (C45_lost_last, C45_lost_adjacent, C45_violated)."
  },
  {
   "property": "C46",
   "status": "partial",
   "theorems": [
    "Toycc.Globals.C46_ends",
    "Toycc.Globals.C46_only_needed",
    "Toycc.Globals.C46_all_needed_partial",
    "Toycc.Globals.C46_exact_partial",
    "Toycc.Globals.C46_violated_initializer",
    "Toycc.Globals.C46_violated_redeclared"
   ],
   "note": "Units reduced to their function declarations, definitions and references. Emitted implies needed, for every unit; needed implies emitted minus references in initialisers that toycc ascribes to a wrong function or forgets (two witnesses)."
  },
  {
   "property": "C47",
   "status": "partial",
   "theorems": [
    "Toycc.Stm.Props.file_labels_distinct_partial",
    "Toycc.Stm.Props.generated_has_dot",
    "Toycc.Stm.Props.dot_not_ident",
    "Toycc.Stm.Props.goto_diagnosed",
    "Toycc.Stm.Props.compile_labels",
    "Toycc.Stm.Props.compiled_body_partial"
   ],
   "note": "Labels of all functions of a file, distinct as text; gotos by compiled_body_partial. Anonymous data objects (same counter as statement labels) are not in the file model; duplicate C labels are not diagnosed by toycc."
  },
  {
   "property": "C48",
   "status": "proved",
   "theorems": [
    "Toycc.Frame.C48_frame",
    "Toycc.Frame.C48_where",
    "Toycc.Frame.C48_total"
   ],
   "note": "For every function: any number of parameters and variables of any size and positive alignment."
  },
  {
   "property": "C49",
   "status": "partial",
   "theorems": [
    "Toycc.Frame.C49_agree_partial",
    "Toycc.Frame.C49_variadic_partial",
    "Toycc.Frame.C49_violated_mixed",
    "Toycc.Frame.C49_half_struct",
    "Toycc.Frame.C49_violated_exhausted",
    "Toycc.Frame.C49_violated_order",
    "Toycc.Frame.C49_violated_empty",
    "Toycc.Frame.C49_violated_unprototyped",
    "Toycc.Frame.C49_violated_variadic"
   ],
   "note": "The push and pop sequences of a call executed on registers and stack, against the places the prologue reads. Proved for all parameter lists with registers left for long doubles and aggregates and without mixing scalars and large aggregates on the stack, and for scalar variadic calls. Outside of these toycc is wrong (six witnesses)."
  },
  {
   "property": "C50",
   "status": "partial",
   "theorems": [
    "Toycc.Frame.C50_aligned_partial",
    "Toycc.Frame.C50_violated_frame",
    "Toycc.Frame.C50_violated_variadic",
    "Toycc.Frame.C50_violated_nested"
   ],
   "note": "Exact: aligned at every call iff frame size plus variadic save area is a multiple of 16, which toycc does not ensure (witnesses)."
  },
  {
   "property": "C51",
   "status": "partial",
   "theorems": [
    "Toycc.Init.Props.C51_image_partial",
    "Toycc.Init.Props.C51_layout",
    "Toycc.Init.Props.C51_violated_garbage",
    "Toycc.Init.Props.C51_violated_break",
    "Toycc.Init.Props.C51_violated_bool",
    "Toycc.Init.Props.C51_violated_union",
    "Toycc.Init.Props.C51_violated_long_double"
   ],
   "note": "Every type (nested arrays, structures, unions, bit-fields) and every initialiser tree in the handled class: the emitted data, linked with any symbol addresses, holds exactly the initialised bits and zero elsewhere, provided malloc returns zeroed memory. Violated without that proviso (the buffer is not cleared), and for bit-fields without initialiser, _Bool, union bit-fields and long double."
  },
  {
   "property": "C52",
   "status": "partial",
   "theorems": [
    "Toycc.Init.Props.C52_values_partial",
    "Toycc.Init.Props.C52_code_partial"
   ],
   "note": "Every type built from integers, pointers, arrays, structures, unions and bit-fields and every initialiser tree with integer or pointer leaves, which may have side effects outside the object: at the level of C and for the instructions run. Missing: floating-point leaves and structures initialised by an expression of structure type."
  },
  {
   "property": "C53",
   "status": "partial",
   "theorems": [
    "Toycc.Low.Props.compound_assignment_once_partial",
    "Toycc.Low.Props.prefix_step_once_partial",
    "Toycc.Low.Props.postfix_step_once_partial",
    "Toycc.Low.Props.rewritten_expression_partial",
    "Toycc.Low.Props.compiled_source_expression_partial",
    "Toycc.Low.Props.bool_postincrement_wrong",
    "Toycc.Low.Props.integer_plus_assign_pointer_accepted"
   ],
   "note": "All integer and pointer operands (variables, members, bit-fields, dereferenced expressions with side effects and calls), all operators; down to machine code when the tree is in the simple class of C38. Excluded: b++ on _Bool (wrong, witness), s.f++ on bit-fields, atomic and floating-point objects."
  },
  {
   "property": "C54",
   "status": "partial",
   "theorems": [
    "Toycc.Low.Props.pointer_plus_scales_partial",
    "Toycc.Low.Props.pointer_minus_scales_partial",
    "Toycc.Low.Props.pointer_difference_partial",
    "Toycc.Low.Props.address_of_array_plus_one_wrong",
    "Toycc.Low.Props.integer_minus_pointer_accepted"
   ],
   "note": "All pointer and array operands and indices without overflow of the address space. Excluded: &array (toycc gives it the element pointer type, witness); pointers to variable-length arrays not modelled."
  },
  {
   "property": "C55",
   "status": "partial",
   "theorems": [
    "Toycc.Ld.C55_operands_partial",
    "Toycc.Ld.C55_integers_partial",
    "Toycc.Ld.C55_violated_right",
    "Toycc.Ld.C55_violated_variables",
    "Toycc.Ld.C55_violated_negation",
    "Toycc.Ld.C55_violated_depth"
   ],
   "note": "Every expression whose long double operators have a constant, variable or converted integer on the right (unbounded nesting on the left), for every library: same calls in order, operands in a0-a3, right value. Outside the class toycc is wrong: right-nested operators get stale registers, unary minus does nothing, deep nesting is rejected. Function calls with long double arguments are not modelled."
  },
  {
   "property": "C56",
   "status": "partial",
   "theorems": [
    "Toycc.Driver.C56_inside",
    "Toycc.Driver.C56_make_reads_back_partial",
    "Toycc.Driver.C56_violated"
   ],
   "note": "Proved: quoting stays inside its buffer and ends, and make reads back the name for every target without a backslash before `#` or at the end (and without colon, newline). Violated for those (witnesses)."
  },
  {
   "property": "C57",
   "status": "partial",
   "theorems": [
    "Toycc.Driver.C57_phases_partial",
    "Toycc.Driver.C57_several",
    "Toycc.Driver.C57_output_name",
    "Toycc.Driver.C57_child",
    "Toycc.Driver.C57_linker_words",
    "Toycc.Driver.C57_violated_asm",
    "Toycc.Driver.C57_violated_asm_among",
    "Toycc.Driver.C57_violated_link",
    "Toycc.Driver.C57_violated_M"
   ],
   "note": "Proved for every list of C inputs with any option, assembly inputs with -c/-S, and linker inputs when linking, for every outcome of the sub-processes. Violated: assembled .s files are not linked; linker inputs are linked even with -c/-S/-E/-M; -M assembles .s files."
  },
  {
   "property": "C58",
   "status": "proved",
   "theorems": [
    "Toycc.Driver.C58_temporaries_removed"
   ],
   "note": "Every option set, every answer of mkstemp and every outcome of the sub-processes. Death by a signal is outside the statement."
  },
  {
   "property": "C59",
   "status": "partial",
   "theorems": [
    "Toycc.Driver.C59_options_partial",
    "Toycc.Driver.C59_include_order_partial",
    "Toycc.Driver.C59_missing_argument_partial",
    "Toycc.Driver.C59_violated_order",
    "Toycc.Driver.C59_violated_missing",
    "Toycc.Driver.C59_violated_incdir",
    "Toycc.Driver.C59_violated_idirafter"
   ],
   "note": "Every list of well-formed options in both spellings is parsed to what it asks for; -I directories keep their order. Violated: the system directories come first; `-I dir` and `-idirafter dir` as two words; -D, -U, -L, -MQ without argument use NULL."
  },
  {
   "property": "C60",
   "status": "partial",
   "theorems": [
    "Toycc.Lex.C60_retokenise_partial",
    "Toycc.Lex.C60_source",
    "Toycc.Lex.C60_violated"
   ],
   "note": "Every token list whose tokens, when printed with nothing between them, do not run together; this holds for the tokens of every source text (C60_source, no hypothesis left), so only macro expansion can break it, and does (witness: -M with M = -). Line splicing of the printed text is not part of the statement."
  },
  {
   "property": "C61",
   "status": "proved",
   "theorems": [
    "Toycc.Util.C61_alignTo",
    "Toycc.Util.C61_alignDown",
    "Toycc.Util.C61_llog2"
   ],
   "note": ""
  },
  {
   "property": "C62",
   "status": "proved",
   "theorems": [
    "Toycc.Util.C62_equal"
   ],
   "note": ""
  },
  {
   "property": "C63",
   "status": "partial",
   "theorems": [
    "Toycc.Fn.C63_expression_partial",
    "Toycc.Fn.C63_body_partial",
    "Toycc.Fn.C63_prologue_partial",
    "Toycc.Fn.C63_prologue_all_partial",
    "Toycc.Fn.C63_epilogue",
    "Toycc.Fn.C63_push_struct_partial",
    "Toycc.Fn.C63_ret_buffer_partial",
    "Toycc.Fn.C63_struct_reg",
    "Toycc.Fn.C63_struct_mem_partial",
    "Toycc.Fn.C63_buf_addr_partial",
    "Toycc.Fn.C63_stack_args_partial",
    "Toycc.Fn.C63_violated_float_param",
    "Toycc.Fn.C63_violated_call",
    "Toycc.Fn.C63_violated_struct_arg",
    "Toycc.Fn.C63_violated_struct_return",
    "Toycc.Fn.C63_violated_buffer"
   ],
   "note": "Every instruction of compiled expressions and statements, prologue and epilogue, struct copies. Unbounded in the size of frames and expressions; the exact limits (2048-byte structs, 256 stack words, float parameters near the frame pointer) are in the statements, and toycc breaks them (five witnesses)."
  },
  {
   "property": "C64",
   "status": "partial",
   "theorems": [
    "Toycc.Cg.Alloca.C64_alloca_partial",
    "Toycc.Cg.Alloca.C64_pop",
    "Toycc.Cg.Alloca.C64_returns",
    "Toycc.Cg.Alloca.C64_aligned",
    "Toycc.Cg.Alloca.C64_prologue_starts",
    "Toycc.Cg.Alloca.C64_violated_struct_argument"
   ],
   "note": "Machine-level: every history of saved temporaries, alloca calls, stores and calls, started by the prologue. Fails when an already evaluated argument is a structure passed by reference (witness for all sizes): its copy is moved, its saved address is not."
  },
  {
   "property": "C65",
   "status": "partial",
   "theorems": [
    "Toycc.Report.C65_report_partial",
    "Toycc.Report.C65_line_number",
    "Toycc.Report.C65_violated"
   ],
   "note": "Proved for locations in the file being tokenised; for a token of another file with invalid UTF-8 on its line, error_at walks a foreign buffer (witness proved)."
  },
  {
   "property": "C66",
   "status": "partial",
   "theorems": [
    "Toycc.Whole.Props.C66_program_partial",
    "Toycc.Whole.Props.C66_compiles",
    "Toycc.Whole.Props.C66_params_aligned",
    "Toycc.Whole.Props.sum_runs"
   ],
   "note": "Functions of at most 8 integer or pointer parameters that return integers, pointers or nothing, with bodies in the class of C40, calling each other and outside functions to any depth; the memory of a call, its frame and its return are modelled completely. Missing: programs that run forever through calls, more than 8 parameters, structure, floating-point and variadic parameters. sum_runs is an instance for a recursive function."
  },
  {
   "property": "C67",
   "status": "partial",
   "theorems": [
    "Toycc.Decl.Props.C67_declarator_partial",
    "Toycc.Decl.Props.C67_accepted_partial",
    "Toycc.Decl.Props.abstract_function_misread",
    "Toycc.Decl.Props.empty_parentheses_dropped",
    "Toycc.Decl.Props.vla_parameter_kept",
    "Toycc.Decl.Props.negative_length",
    "Toycc.Decl.Props.function_returning_function",
    "Toycc.Decl.Props.const_in_brackets"
   ],
   "note": "Every declarator tree of the C11 grammar is read with its type and name, and everything accepted is such a tree (the latter without variable-length arrays). declspec and conditional are oracles. The code violates the full statement: parameters `int (int)`, `int ()` and `int a[n]`, negative lengths, functions that return functions, qualifiers in brackets (all proved). Not covered: `int (T)` with a typedef name T, which the code takes for a redeclaration of T."
  },
  {
   "property": "C68",
   "status": "partial",
   "theorems": [
    "Toycc.Ip.Props.C68_initializer_partial",
    "Toycc.Ip.Props.C68_length_partial",
    "Toycc.Ip.Props.C68_flexible_partial",
    "Toycc.Ip.Props.C68_flexible_absent_partial",
    "Toycc.Ip.Props.C68_flexible_as_declared",
    "Toycc.Ip.Props.C68_excess_array",
    "Toycc.Ip.Props.C68_excess_struct",
    "Toycc.Ip.Props.nested_designation_rejected",
    "Toycc.Ip.Props.anonymous_struct_rejected",
    "Toycc.Ip.Props.anonymous_union_null",
    "Toycc.Ip.Props.scalar_comma_rejected",
    "Toycc.Ip.Props.union_comma_rejected",
    "Toycc.Ip.Props.union_expression_misread",
    "Toycc.Ip.Props.literal_in_braces_misread",
    "Toycc.Ip.Props.literal_for_pointers_rejected",
    "Toycc.Ip.Props.overridden_list_kept",
    "Toycc.Ip.Props.negative_designator",
    "Toycc.Ip.Props.unnamed_bitfield_taken",
    "Toycc.Ip.Props.flexible_index_rejected",
    "Toycc.Ip.Props.flexible_again_cut",
    "Toycc.Ip.Props.flexible_count_rejected"
   ],
   "note": "The recursive functions of initializer.c on tokens agree with the cursor of 6.7.9p17-20 on paths, for all types and lists; an array of unknown length gets its length from the largest index; a flexible array member gets the length its literal or its list in braces asks for, wherever in the list it is, and the object that much more room. assign and const_expr are oracles. The code violates the full statement; each restriction of TameSrc and ITy.Ok has a witness (comma after a nested designation, anonymous unions, trailing commas, union expressions, literals in braces or for arrays of pointers, lists that are overridden, negative indices, unnamed bit-fields). Items beyond the last element or member are read and ignored (C68_excess_array, C68_excess_struct). Not covered: ranges [a ... b], and flexible array members initialised without braces or first by an index (rejected, proved)."
  },
  {
   "property": "C69",
   "status": "partial",
   "theorems": [
    "Toycc.Stx.Props.C69_statement_partial",
    "Toycc.Stx.Props.C69_accepted_partial",
    "Toycc.Stx.Props.C69_text_partial",
    "Toycc.Stx.Props.C69_else",
    "Toycc.Stx.Props.C69_unique",
    "Toycc.Stx.Props.asm_leaves_semicolon",
    "Toycc.Stx.Props.asm_else_rejected"
   ],
   "note": "Every derivation of the grammar of statements is read as its statement, with the scopes threaded through, and everything accepted is such a derivation; C69_text_partial puts the expression parser of C43 in, for all texts its grammar derives. Declarations are oracles. The code violates the full statement for asm, whose semicolon is not taken, so that an else after it is an error (proved). The semantic checks (stray break, duplicate labels) are in C40 and C41."
  },
  {
   "property": "C70",
   "status": "partial",
   "theorems": [
    "Toycc.Fold.C70_length_partial",
    "Toycc.Fold.C70_variable",
    "Toycc.Fold.C70_no_diagnosis",
    "Toycc.Fold.C70_inner",
    "Toycc.Fold.C70_modulo_wrong",
    "Toycc.Fold.C70_long_wrong",
    "Toycc.Fold.C70_comma_wrong",
    "Toycc.Fold.C70_unevaluated_wrong"
   ],
   "note": "Constant lengths in the class of C42 without %, of value below 2^31, give arrays of that length; lengths that look at objects never do; no length is rejected. The code violates the full statement: % makes a variable-length array, lengths are cut to int (and -1 means unknown length), a comma operator is taken for a constant and its left operand dropped, a division by zero in an unevaluated condition is executed (all proved)."
  },
  {
   "property": "C71",
   "status": "partial",
   "theorems": [
    "Toycc.Ip.C71_member_partial",
    "Toycc.Ip.C71_no_member_partial",
    "Toycc.Ip.C71_not_struct",
    "Toycc.Ip.C71_unique",
    "Toycc.Ip.C71_unnamed_wrong",
    "Toycc.Ip.C71_duplicate"
   ],
   "note": "All member lists without unnamed bit-fields. After an unnamed bit-field every later member is unreachable: the compiler uses a null pointer (proved). Duplicate names are not diagnosed (proved)."
  },
  {
   "property": "C72",
   "status": "partial",
   "theorems": [
    "Toycc.Src.Props.C72_text_partial",
    "Toycc.Src.Props.C72_read_partial",
    "Toycc.Src.Props.C72_text_unique",
    "Toycc.Src.Props.C72_meaning",
    "Toycc.Src.Props.C72_innermost",
    "Toycc.Src.Props.C72_body_partial",
    "Toycc.Src.Props.C72_rewritten_body_partial",
    "Toycc.Src.Props.C72_result_unique"
   ],
   "note": "Composition of the parsers of statements, expressions and declarations (C69, C43), the parser's rewriting (C53, C54) and the code generator (C38, C40) for whole bodies, from tokens to machine, with termination and non-termination. Missing: floating point, structures as values, initialisers of aggregates, variable-length arrays, asm; in the text, declarators with parentheses, qualifiers and structures; the values of case labels are those of a given function (C42); the trees the parser makes must be in the class of C40 (a decidable check on the rewritten body)."
  },
  {
   "property": "C73",
   "status": "partial",
   "theorems": [
    "Toycc.Src.Props.C73_program_partial",
    "Toycc.Src.Props.Ex73.runs"
   ],
   "note": "From the functions as written to the machine: rewriting of bodies (C72), frames (C48) with hidden variables, calls (C49, C66). The example is a recursive function with compound assignments, for every argument below a million. Missing: programs that run forever through calls; more than 8 parameters; structures and floating point as parameters or results; variadic functions; hidden variables narrower than 8 bytes; the rewritten bodies must be in the class of C40 (decidable)."
  },
  {
   "property": "C74",
   "status": "partial",
   "theorems": [
    "Toycc.Src.Props.C74_read_partial",
    "Toycc.Src.Props.C74_variables",
    "Toycc.Src.Props.C74_places",
    "Toycc.Src.Props.C74_hidden",
    "Toycc.Src.Props.C74_file_partial",
    "Toycc.Src.Props.Ex74.runs"
   ],
   "note": "From the tokens of a whole file to the machine, composing C72, C73, C48 and C66; functions are emitted in the order of the list of globals. The example is a file with a variable, a typedef, a prototype and a recursive function; enumerations are covered (C78). Missing: storage classes other than typedef, initialisers of variables of file scope, structures, variadic functions, parameters that are functions; what C72 and C73 lack; that what is accepted is a file."
  },
  {
   "property": "C75",
   "status": "partial",
   "theorems": [
    "Toycc.Src.Props.C75_keywords",
    "Toycc.Src.Props.C75_layout",
    "Toycc.Src.Props.C75_plain",
    "Toycc.Src.Props.C75_predefined",
    "Toycc.Src.Props.C75_tokens_partial",
    "Toycc.Src.Props.C75_file_partial",
    "Toycc.Src.Props.Ex75.runs"
   ],
   "note": "From the bytes of files to the machine, composing C09-C12, C17, C60 and C74. The example is a file of bytes and a header given by -include, with the predefined macros of init_macros. Missing: files with directives and macros (their effect is C21-C28), string literals, names with other than ASCII characters; what C74 lacks."
  },
  {
   "property": "C76",
   "status": "partial",
   "theorems": [
    "Toycc.Src.Props.C76_value_partial",
    "Toycc.Src.Props.C76_holds_partial",
    "Toycc.Src.Props.C76_define",
    "Toycc.Src.Props.C76_int_wrong",
    "Toycc.Src.Props.C76_unsigned_wrong"
   ],
   "note": "For expressions of signed constants whose parts have values that fit in the types they would have outside of #if, with any object-like and function-like macros of C81. The property is false beyond that: toycc computes in int and unsigned int (C76_int_wrong: 0x7fffffff + 1 > 0 is taken to be false; C76_unsigned_wrong: -1 < 0xffffffff likewise). Missing: macros with handlers (__LINE__ etc.) and what C81 lacks on the line; unsigned constants."
  },
  {
   "property": "C77",
   "status": "partial",
   "theorems": [
    "Toycc.Generic.C77_selected_partial",
    "Toycc.Generic.C77_reported",
    "Toycc.Generic.C77_vla_wrong",
    "Toycc.Generic.C77_qualified_wrong"
   ],
   "note": "For controlling expressions that are no variable-length arrays, and type names without qualifiers. The property is false beyond that: variable-length arrays are not converted (C77_vla_wrong), and since qualifiers are not part of types the last of the associations that differ in them is selected (C77_qualified_wrong)."
  },
  {
   "property": "C78",
   "status": "partial",
   "theorems": [
    "Toycc.Src.Enum.C78_read_partial",
    "Toycc.Src.Enum.C78_values",
    "Toycc.Src.Enum.C78_unknown_tag",
    "Toycc.Src.Enum.C78_tag",
    "Toycc.Src.Enum.C78_max_wrong",
    "Toycc.Src.Enum.C78_range_wrong"
   ],
   "note": "The values of constant expressions are a parameter (C42, C70). False: the enumerator INT_MAX is undefined behaviour in the compiler (C78_max_wrong), values beyond int are truncated silently (C78_range_wrong). Missing: definitions of enumerations in parameters, casts and sizeof."
  },
  {
   "property": "C79",
   "status": "partial",
   "theorems": [
    "Toycc.Src.Props.C79_tokens_partial",
    "Toycc.Src.Props.C79_file_partial",
    "Toycc.Src.Props.C79_initial",
    "Toycc.Src.Props.C79_empty_wrong",
    "Toycc.Src.Props.Ex79.runs"
   ],
   "note": "From the bytes of files with directives to tokens and to the machine, composing C09-C12, C17, C21, C23, C28, C29, C76 and C74. The example is a file that includes a guarded header twice, with a variadic macro called over two lines, and sections. False where the last token before a directive vanishes (C79_empty_wrong: the directive after a line that ends with an empty macro is not recognised). Missing: macros with handlers and what C81 lacks where they are expanded, #line and #error, string literals, a # alone on its line, files that only begin like guarded ones (C28), a #define without replacement list before a parenthesis; what C74 and C76 lack."
  },
  {
   "property": "C80",
   "status": "partial",
   "theorems": [
    "Toycc.Fp.C80_compiled_value_partial",
    "Toycc.Fp.C80_logand_int_float_violation",
    "Toycc.Fp.C80_logand_float_int_violation",
    "Toycc.Fp.C80_bool_violation",
    "Toycc.Fp.C80_unsigned_violation",
    "Toycc.Fp.C80_enum_violation"
   ],
   "note": "For all expressions of the class Fp.simple and every Fpu. False for && with one integer and one floating operand, for conversions from floating types to _Bool and unsigned int, and from enumerated types to floating types (the violations). Missing: calls with floating arguments or results, bit-field assignment inside a floating expression, long double (C55), the conversions the parser inserts, the value of floating constants."
  },
  {
   "property": "C81",
   "status": "partial",
   "theorems": [
    "Toycc.Src.Props.C81_lines_partial",
    "Toycc.Src.Props.C81_list_partial",
    "Toycc.Src.Props.C81_unique"
   ],
   "note": "preprocess2 outputs what the relation Expand (C11 6.10.3, without hidesets) says, for lines of a file and for lists of their own, and Expand determines its result. Variadic macros are included (..., name..., variable arguments left out). Missing: # and ## (C88), __VA_OPT__, macros with handlers, names of function-like macros at the end of a replacement list whose arguments follow it, arguments that leave a name unreplaced because its macro is being replaced, lines whose last token vanishes."
  },
  {
   "property": "C82",
   "status": "partial",
   "theorems": [
    "Toycc.Driver.C82_rules_partial",
    "Toycc.Driver.C82_inputs",
    "Toycc.Driver.C82_path",
    "Toycc.Driver.inStd_iff",
    "Toycc.Driver.C82_unquoted_wrong",
    "Toycc.Driver.C82_phony_wrong"
   ],
   "note": "For prerequisites without blanks, $, # and colons. The property is false for other names, since prerequisites are not quoted (C82_unquoted_wrong: a header with a blank in its name becomes two), and with -include, where the first file is not the source file (C82_phony_wrong: -MP then writes a rule for the source file and none for the header)."
  },
  {
   "property": "C83",
   "status": "partial",
   "theorems": [
    "Toycc.Vla.Props.C83_sizes_partial",
    "Toycc.Vla.Props.C83_slots",
    "Toycc.Vla.Props.C83_sizeof",
    "Toycc.Vla.Props.C83_arith",
    "Toycc.Vla.Props.C83_declared",
    "Toycc.Vla.Props.C83_compiled_partial",
    "Toycc.Vla.Props.C83_int_product_wrong",
    "Toycc.Vla.Props.C83_difference_wrong"
   ],
   "note": "Sizes: for lengths of the kind C53 and C54 cover and sizes that fit the type in which they are computed. The property is false for others, since the size of an array of ints with an int length is computed as an int (C83_int_product_wrong), and for differences of pointers, which are divided by 8 (C83_difference_wrong). Missing: lengths with calls of functions that are part of the program, typedef names for such types."
  },
  {
   "property": "C84",
   "status": "partial",
   "theorems": [
    "Toycc.FoldD.C84_double_partial",
    "Toycc.FoldD.C84_int_partial",
    "Toycc.FoldD.C84_image_partial",
    "Toycc.FoldD.C84_object",
    "Toycc.FoldD.ieee_sane",
    "Toycc.FoldD.C84_compare_wrong",
    "Toycc.FoldD.C84_logical_wrong",
    "Toycc.FoldD.C84_bool_wrong",
    "Toycc.FoldD.C84_float_wrong",
    "Toycc.FoldD.C84_float_arith_wrong",
    "Toycc.FoldD.C84_unsigned_wrong",
    "Toycc.FoldD.C84_rounding_wrong"
   ],
   "note": "For expressions whose floating nodes have type double, with integer operands of comparisons and logical operators, without unsigned long converted to or from double. The property is false for the others: comparisons and logical operators convert their operands to integers first (C84_compare_wrong, C84_logical_wrong, C84_bool_wrong), float is not rounded (C84_float_wrong, C84_float_arith_wrong), unsigned long is taken as signed (C84_unsigned_wrong), long integers are rounded twice on the way to float (C84_rounding_wrong)."
  },
  {
   "property": "C85",
   "status": "partial",
   "theorems": [
    "Toycc.Atomic.C85_atomic_partial",
    "Toycc.Atomic.C85_no_lost_update_partial",
    "Toycc.Atomic.C85_counter",
    "Toycc.Atomic.C85_unsigned_wrong",
    "Toycc.Atomic.C85_long_wrong",
    "Toycc.Atomic.C85_long_store_wrong",
    "Toycc.Atomic.C85_char_wrong",
    "Toycc.Atomic.C85_member_wrong",
    "Toycc.Atomic.C85_fetch_wrong",
    "Toycc.Atomic.C85_far_wrong"
   ],
   "note": "For int objects that are not members, int operands and hidden variables near fp, with sequentially consistent memory. The property is false for unsigned values from 2^31 on and for long (the assignment ends without having written, C85_unsigned_wrong, C85_long_wrong; only 32 bits are stored, C85_long_store_wrong), for char (bytes behind the object are written, C85_char_wrong), for members (updates are lost, C85_member_wrong), for atomic_fetch_add (gives the value after, C85_fetch_wrong), for large frames (C85_far_wrong). Missing: pointers, weaker memory orders. That an assignment left alone ends is in C86_solo_ends."
  },
  {
   "property": "C86",
   "status": "partial",
   "theorems": [
    "Toycc.Atomic.C86_linear_partial",
    "Toycc.Atomic.C86_test_and_set",
    "Toycc.Atomic.C86_solo_ends",
    "Toycc.Atomic.C86_flag_wrong",
    "Toycc.Atomic.C86_long_wrong"
   ],
   "note": "For int objects, exchanges also for objects of 8 bytes, with sequentially consistent memory; operands of a compare-and-exchange must leave t0, t1 and t2 alone. The property is false for exchanges of objects of one byte, as in atomic_flag_test_and_set (C86_flag_wrong), and for compare-and-exchange of long (C86_long_wrong)."
  },
  {
   "property": "C87",
   "status": "partial",
   "theorems": [
    "Toycc.Addr.C87_address_partial",
    "Toycc.Addr.C87_far",
    "Toycc.Addr.C87_la",
    "Toycc.Addr.C87_tls_iff",
    "Toycc.Addr.C87_tls_wrong"
   ],
   "note": "Functions and objects with and without -fPIC, thread-local objects with -fPIC. The property is false for thread-local objects without -fPIC: their address is computed from the pc, so that of two threads at least one gets a wrong address (C87_tls_wrong). Linker relaxation is not modelled."
  },
  {
   "property": "C88",
   "status": "partial",
   "theorems": [
    "Toycc.Pp.Glue.C88_operators_partial",
    "Toycc.Pp.Glue.C88_calls_partial",
    "Toycc.Pp.Glue.C88_two_empty_wrong",
    "Toycc.Pp.Glue.C88_two_empty_refused",
    "Toycc.Pp.Glue.C88_paste_string_refused",
    "Toycc.Pp.Glue.C88_reuse_wrong",
    "Toycc.Pp.Glue.C88_objlike_wrong",
    "Toycc.Pp.Glue.C88_space_lost"
   ],
   "note": "C88_operators_partial is for any function that replaces arguments, C88_calls_partial for preprocess2 on arguments without macro names. Left out because the code is wrong (witnesses): chains that begin with two empty arguments and go on, x ## # p, operands of # and ## that have been replaced before and contain macros, object-like macros. __VA_OPT__ is C96."
  },
  {
   "property": "C89",
   "status": "partial",
   "theorems": [
    "Toycc.Pp.Dyn.C89_file_partial",
    "Toycc.Pp.Dyn.C89_text_partial",
    "Toycc.Pp.Dyn.C89_marker",
    "Toycc.Pp.Dyn.C89_written",
    "Toycc.Pp.Dyn.C89_counter",
    "Toycc.Pp.Dyn.C89_marker_wrong",
    "Toycc.Pp.Dyn.C89_section_refused",
    "Toycc.Pp.Dyn.C89_octal_wrong",
    "Toycc.Pp.Dyn.C89_counter_reuse_wrong",
    "Toycc.Pp.Dyn.knows_meaning"
   ],
   "note": "Missing: function-like macros, object-like macros with empty replacement lists, markers whose tokens come from macros, __TIMESTAMP__. The code is wrong (witnesses) about the line after a marker (n + 1 instead of n, for every n), about markers inside conditional sections (refused), about numbers with leading zeros, and about __COUNTER__ in an argument that is used twice."
  },
  {
   "property": "C90",
   "status": "partial",
   "theorems": [
    "Toycc.Asm.C90_objects",
    "Toycc.Asm.C90_memory",
    "Toycc.Asm.C90_initialised_partial",
    "Toycc.Asm.C90_declaration_partial",
    "Toycc.Asm.C90_violated_extern",
    "Toycc.Asm.C90_violated_array"
   ],
   "note": "The machine code of a function is given as bytes (labels inside functions are not in the model); several declarations of one name are the subject of C45. The code is wrong (witnesses) about extern with an initialiser, which defines nothing, and about arrays of unknown size at file scope."
  },
  {
   "property": "C91",
   "status": "partial",
   "theorems": [
    "Toycc.Ety.C91_types_partial",
    "Toycc.Ety.C91_sizeof_partial",
    "Toycc.Ety.C91_violated_promotion",
    "Toycc.Ety.C91_violated_bitfield",
    "Toycc.Ety.C91_violated_comma",
    "Toycc.Ety.C91_violated_addr",
    "Toycc.Ety.C91_violated_struct",
    "Toycc.Ety.C91_violated_null_array",
    "Toycc.Ety.C91_violated_void_pointer",
    "Toycc.Ety.C91_violated_void_deref",
    "Toycc.Ety.C91_unchecked"
   ],
   "note": "The full statement is false; every exception in Tame has a witness (enumerated operands: C30_violated). Constraint violations are not diagnosed in general (C91_unchecked). Missing: variable-length arrays (C83), statement expressions, labels as values, atomic builtins, arguments of calls, compound assignments (C53)."
  },
  {
   "property": "C92",
   "status": "partial",
   "theorems": [
    "Toycc.Sdecl.Props.C92_members_partial",
    "Toycc.Sdecl.Props.C92_accepted_partial",
    "Toycc.Sdecl.Props.C92_definition_partial",
    "Toycc.Sdecl.Props.C92_struct_layout_partial",
    "Toycc.Sdecl.Props.C92_union_layout_partial",
    "Toycc.Sdecl.Props.C92_packed_layout_partial",
    "Toycc.Sdecl.Props.flexible_in_the_middle",
    "Toycc.Sdecl.Props.declares_nothing",
    "Toycc.Sdecl.Props.missing_declarator",
    "Toycc.Sdecl.Props.duplicate_member",
    "Toycc.Sdecl.Props.wide_bit_field",
    "Toycc.Sdecl.Props.alignas_weakens"
   ],
   "note": "Declarators with the restrictions of C67; specifiers, constants and their folding are oracles (C32, C42). The converse accepts more than the grammar (witnesses). Missing: tags (C44), variable-length arrays in the converse."
  },
  {
   "property": "C93",
   "status": "partial",
   "theorems": [
    "Toycc.Call.C93_call",
    "Toycc.Call.C93_count",
    "Toycc.Call.C93_callee",
    "Toycc.Call.C93_types_partial",
    "Toycc.Call.C93_accepted",
    "Toycc.Call.no_prototype",
    "Toycc.Call.struct_unchecked"
   ],
   "note": "Proved: count, conversions, types, diagnostics of the count and of the callee, and the converse. Two sentences of the statement are false: functions without a parameter list (no_prototype) and arguments that cannot be converted (struct_unchecked)."
  },
  {
   "property": "C94",
   "status": "partial",
   "theorems": [
    "Toycc.Abi.C94_frames",
    "Toycc.Abi.C94_fs_partial",
    "Toycc.Abi.nested_call_loses",
    "Toycc.Abi.library_call_loses"
   ],
   "note": "Proved for sp, fp, ra and the frames of callers. For fs0-fs11 the statement is false: nested_call_loses, library_call_loses; proved if nothing is called while they hold intermediate results and functions from elsewhere leave ft0-ft11 alone."
  },
  {
   "property": "C95",
   "status": "partial",
   "theorems": [
    "Toycc.Stex.C95_body_partial",
    "Toycc.Stex.C95_expression_partial",
    "Toycc.Stex.stack_grows",
    "Toycc.Stex.operand_lost",
    "Toycc.Stex.for_condition_wrong"
   ],
   "note": "Proved when break and continue do not leave an operand while another one is on the stack, nor the condition of a for; return may leave anything. Otherwise the code is wrong (three witnesses). goto, case ranges and case labels inside nested statements are not in the model."
  },
  {
   "property": "C96",
   "status": "partial",
   "theorems": [
    "Toycc.Pp.Glue.C96_va_opt_partial",
    "Toycc.Pp.Glue.C96_calls_partial",
    "Toycc.Pp.Glue.C96_parameter_wrong",
    "Toycc.Pp.Glue.C96_string_wrong",
    "Toycc.Pp.Glue.C96_string_refused",
    "Toycc.Pp.Glue.C96_operand_wrong",
    "Toycc.Pp.Glue.C96_empty_wrong"
   ],
   "note": "C96_va_opt_partial is for any function that replaces arguments, C96_calls_partial for preprocess2 on arguments without macro names. Left out because the code is wrong (witnesses): parameters, # and ## in the parentheses, __VA_OPT__ as right operand of ##, arguments that become nothing. Not covered: __VA_OPT__ as left operand of ##."
  },
  {
   "property": "C97",
   "status": "partial",
   "theorems": [
    "Toycc.Source.C97_complete_partial",
    "Toycc.Source.C97_prefix",
    "Toycc.Source.C97_kept",
    "Toycc.Source.C97_bom",
    "Toycc.Source.C97_error_silent",
    "Toycc.Source.C97_nul_cut"
   ],
   "note": "C97_complete_partial: every sequence of pieces without an error. With errors the text is a beginning of the file (C97_prefix) with everything that was read before the first error (C97_kept), but there is no diagnostic (C97_error_silent); text after a NUL byte is ignored (C97_nul_cut)."
  },
  {
   "property": "C98",
   "status": "partial",
   "theorems": [
    "Toycc.Driver.Out.C98_success_partial",
    "Toycc.Driver.Out.C98_failure",
    "Toycc.Driver.Out.C98_interrupted",
    "Toycc.Driver.Out.C98_others",
    "Toycc.Driver.Out.C98_error_silent"
   ],
   "note": "C98_success_partial supposes that no write fails: a failed write is not reported (C98_error_silent). What the compiler produces is a parameter. The dependency file must not be the output file (-MD -E -o x.d makes it so)."
  },
  {
   "property": "C99",
   "status": "partial",
   "theorems": [
    "Toycc.Loc.C99_files",
    "Toycc.Loc.C99_loc",
    "Toycc.Loc.C99_declared",
    "Toycc.Loc.C99_text_partial",
    "Toycc.Loc.C99_quote_wrong",
    "Toycc.Loc.C99_builtin_wrong",
    "Toycc.Loc.C99_line_wrong"
   ],
   "note": "All histories. Partial: names with quotes, backslashes or newlines are not escaped (C99_quote_wrong), text of predefined macros counts as the first file (C99_builtin_wrong), #line changes the line without the file (C99_line_wrong)."
  }
 ]
}