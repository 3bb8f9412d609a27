{
 "claims": [
  {
   "property": "C01",
   "status": "proved",
   "theorems": [
    "Kefir.HashTree.C01_hashtree_is_finite_map"
   ],
   "note": ""
  },
  {
   "property": "C02",
   "status": "proved",
   "theorems": [
    "Kefir.HashTree.C02_iteration_complete"
   ],
   "note": ""
  },
  {
   "property": "C03",
   "status": "proved",
   "theorems": [
    "Kefir.Lexer.C03_advance_result",
    "Kefir.Lexer.C03_logical_text"
   ],
   "note": ""
  },
  {
   "property": "C04",
   "status": "proved",
   "theorems": [
    "Kefir.Lexer.C04_locations"
   ],
   "note": ""
  },
  {
   "property": "C05",
   "status": "proved",
   "theorems": [
    "Kefir.Lexer.C05_integer_constant_value",
    "Kefir.Lexer.C05_no_digit_no_constant"
   ],
   "note": ""
  },
  {
   "property": "C06",
   "status": "proved",
   "theorems": [
    "Kefir.Lexer.C06_integer_constant_type"
   ],
   "note": ""
  },
  {
   "property": "C07",
   "status": "partial",
   "theorems": [
    "Kefir.Lexer.C07_out_of_range_rejected_partial",
    "Kefir.Lexer.C07_overflow_accepted"
   ],
   "note": "False of the code: the value is accumulated modulo 2^64, so 18446744073709551616 is accepted as the int 0 (C07_overflow_accepted). Proved: a value below 2^64 that fits no permitted type is not given another value."
  },
  {
   "property": "C08",
   "status": "partial",
   "theorems": [
    "Kefir.Lexer.C08_dead_end_unmatched",
    "Kefir.Lexer.C08_longest_punctuator_partial"
   ],
   "note": "False where a proper prefix of a longer punctuator is scanned and the walk dies (`..x`, `%:%x`): NO_MATCH although a shorter punctuator matches (C08_dead_end_unmatched). Proved for every other text."
  },
  {
   "property": "C09",
   "status": "proved",
   "theorems": [
    "Kefir.Lexer.C09_run_unique",
    "Kefir.Lexer.C09_skip_whitespace"
   ],
   "note": ""
  },
  {
   "property": "C10",
   "status": "proved",
   "theorems": [
    "Kefir.Lexer.C10_next",
    "Kefir.Lexer.C10_no_match_restores",
    "Kefir.Lexer.C10_whitespace"
   ],
   "note": ""
  },
  {
   "property": "C11",
   "status": "partial",
   "theorems": [
    "Kefir.Lexer.C11_escape_value_partial",
    "Kefir.Lexer.C11_hex_overflow_accepted",
    "Kefir.Lexer.C11_only_escape_sequences"
   ],
   "note": "False for hexadecimal escapes whose value is 2^32 or more: they wrap (C11_hex_overflow_accepted). Proved for all escapes below 2^32, and that nothing but an escape sequence is accepted."
  },
  {
   "property": "C12",
   "status": "partial",
   "theorems": [
    "Kefir.Types.C12_common_floating",
    "Kefir.Types.C12_common_integer_partial",
    "Kefir.Types.C12_default_argument",
    "Kefir.Types.C12_long_long_rank_false",
    "Kefir.Types.C12_promotion",
    "Kefir.Types.C12_symmetric_partial",
    "Kefir.Types.C12_values"
   ],
   "note": "False when one operand has a long type and the other a long long type of the same signedness (both have rank 4 in kefir, so the second operand wins): negation proved. Proved for all other operand types; the value statement (C12_values) holds for all."
  },
  {
   "property": "C13",
   "status": "partial",
   "theorems": [
    "Kefir.Expr.C13_conditional_int_as_double_false",
    "Kefir.Expr.C13_conditional_unconverted_false",
    "Kefir.Expr.C13_integer_expression_partial",
    "Kefir.Expr.C13_sizeof_signed_false"
   ],
   "note": "False for conditional operators whose branches need a conversion (`(long)(1 ? -1 : 0u)`, `1 ? 1 : 2.0`) and for sizeof, which is typed int: negations proved. Proved for the expressions in `good` (everything else modelled, including assignments, pointers and bit-fields)."
  },
  {
   "property": "C14",
   "status": "proved",
   "theorems": [
    "Kefir.Expr.C14_integer_conversion"
   ],
   "note": ""
  },
  {
   "property": "C15",
   "status": "partial",
   "theorems": [
    "Kefir.Expr.C15_float_false",
    "Kefir.Expr.C15_short_circuit_partial"
   ],
   "note": "False for float and double operands holding -0.0 (C15_float_false). Proved for integer, pointer and long double operands (also C49)."
  },
  {
   "property": "C16",
   "status": "partial",
   "theorems": [
    "Kefir.Expr.C16_bool_conversion_false",
    "Kefir.Expr.C16_long_double_truth_partial",
    "Kefir.Expr.C16_negative_zero_false",
    "Kefir.Expr.C16_negative_zero_float_false"
   ],
   "note": "False for float and double: !(-0.0) is 0, (_Bool)0.5 is 0; negations proved. Proved for long double."
  },
  {
   "property": "C17",
   "status": "partial",
   "theorems": [
    "Kefir.ConstExpr.C17_complement_false",
    "Kefir.ConstExpr.C17_false",
    "Kefir.ConstExpr.C17_runtime_partial",
    "Kefir.ConstExpr.C17_shift_false",
    "Kefir.ConstExpr.C17_signed_partial",
    "Kefir.ConstExpr.C17_uint_conversion_false",
    "Kefir.ConstExpr.C17_uint_difference_false",
    "Kefir.ConstExpr.C17_uint_division_false",
    "Kefir.ConstExpr.C17_uint_sum_false",
    "Kefir.ConstExpr.C17_value_partial"
   ],
   "note": "Integer expressions in the class exactOps (Verif/ConstExpr/Spec.lean): compile-time value = C17 value = word left by the generated code. Refuted outside of it by the C17_*_false theorems (operations in unsigned int are not reduced modulo 2^32; shift signedness taken from the common type). Not covered: sizeof/_Alignof, floating and address constants, _Generic."
  },
  {
   "property": "C18",
   "status": "partial",
   "theorems": [
    "Kefir.ConstExpr.C18_calm_partial",
    "Kefir.ConstExpr.C18_defined_partial",
    "Kefir.ConstExpr.C18_division_by_zero",
    "Kefir.ConstExpr.C18_division_overflow_false",
    "Kefir.ConstExpr.C18_false",
    "Kefir.ConstExpr.C18_mod_zero_always_false",
    "Kefir.ConstExpr.C18_mod_zero_false",
    "Kefir.ConstExpr.C18_shift_false",
    "Kefir.ConstExpr.C18_unsigned_sum_false"
   ],
   "note": "Refuted as stated (C18_*_false: e % 0, INT64_MIN / -1, over-wide shifts, unsigned long overflow). Proved: no undefined host operation for expressions without arithmetic operators whatever the operands, for signed expressions whose C value is defined, and division by zero is reported."
  },
  {
   "property": "C19",
   "status": "partial",
   "theorems": [
    "Kefir.Expr.C19_bitfield_partial",
    "Kefir.Expr.C19_width64_false"
   ],
   "note": "False for bit-fields of width 64 (the mask 1 << 64 wraps to 0): negation proved. Proved for widths 1 to 63."
  },
  {
   "property": "C20",
   "status": "partial",
   "theorems": [
    "Kefir.Layout.C20_bitfields_partial",
    "Kefir.Layout.C20_long_run_false",
    "Kefir.Layout.C20_union_bitfields"
   ],
   "note": "False for runs of more than 256 bits: the offset of a bit-field is kept in eight bits and wraps (C20_long_run_false). Proved for all structures whose runs have at most 256 bits, and for unions."
  },
  {
   "property": "C21",
   "status": "proved",
   "theorems": [
    "Kefir.Layout.C21_layout",
    "Kefir.Layout.C21_layout_of_one",
    "Kefir.Layout.C21_members_disjoint",
    "Kefir.Layout.C21_scalars_aligned"
   ],
   "note": ""
  },
  {
   "property": "C22",
   "status": "partial",
   "theorems": [
    "Kefir.Abi.C22_places",
    "Kefir.Abi.C22_scalars_total",
    "Kefir.Abi.C22_total_false"
   ],
   "note": "Not every parameter list gets locations: structures with a nested structure with tail padding can be rejected (C22_total_false). Proved: whenever locations are assigned they exist, are of the right kind, size and alignment and are disjoint; for scalar parameters they are always assigned."
  },
  {
   "property": "C23",
   "status": "partial",
   "theorems": [
    "Kefir.Abi.C23_large",
    "Kefir.Abi.C23_nested_false",
    "Kefir.Abi.C23_packed_partial",
    "Kefir.Abi.C23_plain_partial"
   ],
   "note": "False for nested structures with padding before or after the nested one (C23_nested_false). Proved for aggregates without such padding, in particular those whose members are scalars, bit-fields and arrays of scalars, and for aggregates of more than two eightbytes; the place recorded for a long double, which is not used, is left out."
  },
  {
   "property": "C24",
   "status": "proved",
   "theorems": [
    "Kefir.LinkedList.C24_list_is_sequence"
   ],
   "note": ""
  },
  {
   "property": "C25",
   "status": "proved",
   "theorems": [
    "Kefir.BlockTree.C25_block_tree_is_memory",
    "Kefir.BlockTree.C25_skip_to"
   ],
   "note": ""
  },
  {
   "property": "C26",
   "status": "proved",
   "theorems": [
    "Kefir.Tree.C26_iteration_level_order",
    "Kefir.Tree.C26_level_order_complete"
   ],
   "note": ""
  },
  {
   "property": "C27",
   "status": "partial",
   "theorems": [
    "Kefir.StringBuffer.C27_append_partial",
    "Kefir.StringBuffer.C27_convert_partial",
    "Kefir.StringBuffer.C27_convert_rejected",
    "Kefir.StringBuffer.C27_merge_partial",
    "Kefir.StringBuffer.C27_replies",
    "Kefir.StringBuffer.C27_surrogate_false"
   ],
   "note": "False for characters from U+10000 on in unicode16 buffers: only the first surrogate is stored (C27_surrogate_false). Proved for all other appends, conversions and merges; merging from unicode16 sources is not modelled."
  },
  {
   "property": "C28",
   "status": "proved",
   "theorems": [
    "Kefir.SymbolTable.C28_interning_canonical"
   ],
   "note": ""
  },
  {
   "property": "C29",
   "status": "partial",
   "theorems": [
    "Kefir.Json.C29_alert_false",
    "Kefir.Json.C29_control_false",
    "Kefir.Json.C29_prints_value_partial",
    "Kefir.Json.C29_question_mark_false",
    "Kefir.Json.C29_two_values_false",
    "Kefir.Json.C29_wellformed_partial"
   ],
   "note": "The property as stated is false of the code: alert, vertical tab and question mark get escapes JSON does not have, other control characters are written raw, non-finite numbers are not JSON numbers, and several outermost values are simply concatenated (refuted by the *_false theorems). Proved for arguments that can be represented."
  },
  {
   "property": "C30",
   "status": "proved",
   "theorems": [
    "Kefir.Scope.C30_innermost_declaration",
    "Kefir.Scope.C30_leaving_restores"
   ],
   "note": "For every lawful key comparison; refines a stack of maps."
  },
  {
   "property": "C31",
   "status": "proved",
   "theorems": [
    "Kefir.Preproc.C31_enclosing_scope",
    "Kefir.Preproc.C31_is_macro",
    "Kefir.Preproc.C31_last_directive_wins"
   ],
   "note": ""
  },
  {
   "property": "C32",
   "status": "proved",
   "theorems": [
    "Kefir.Preproc.Group.C32_accepted",
    "Kefir.Preproc.Group.C32_rejected",
    "Kefir.Preproc.Group.C32_selected",
    "Kefir.Preproc.Group.C32_terminates"
   ],
   "note": "Lines classified by the directive scanner are given; comments extending over several lines in skipped groups are not modelled. Macro replacement, conditions and directives with effects are arbitrary functions."
  },
  {
   "property": "C33",
   "status": "partial",
   "theorems": [
    "Kefir.Preproc.C33_completed_later_false",
    "Kefir.Preproc.C33_if_condition_false",
    "Kefir.Preproc.C33_mutual_recursion_false",
    "Kefir.Preproc.C33_pasting_false",
    "Kefir.Preproc.Spec.C33_terminates_partial"
   ],
   "note": "False of the code: mutually recursive definitions do not terminate (C33_mutual_recursion_false, C33_completed_later_false), nor recursive ones in #if (C33_if_condition_false), nor some uses of ## (C33_pasting_false). Proved: termination for first-order definitions, whatever the text."
  },
  {
   "property": "C34",
   "status": "partial",
   "theorems": [
    "Kefir.Parser.C34_assignment_exact",
    "Kefir.Parser.C34_c17_accepted_partial",
    "Kefir.Parser.C34_c17_tree",
    "Kefir.Parser.C34_constant_exact",
    "Kefir.Parser.C34_expression_exact",
    "Kefir.Parser.C34_initializer_exact",
    "Kefir.Parser.C34_literal_postfix_false",
    "Kefir.Parser.C34_terminates",
    "Kefir.Parser.C34_unambiguous"
   ],
   "note": "Proved for every token sequence: the parser terminates, accepts exactly the dialect and yields its unique tree; on C17 sequences that is the C17 tree; every C17 expression without a postfix operator on a compound literal is accepted (that case is refuted: C34_literal_postfix_false). Type names are a parameter with stated laws; their own grammar is not modelled here."
  },
  {
   "property": "C35",
   "status": "partial",
   "theorems": [
    "Kefir.Compat.C35_composite_array_size",
    "Kefir.Compat.C35_composite_incomplete_false",
    "Kefir.Compat.C35_composite_none",
    "Kefir.Compat.C35_composite_partial",
    "Kefir.Compat.C35_composite_prototype",
    "Kefir.Compat.C35_composite_return_false",
    "Kefir.Compat.C35_ellipsis_false",
    "Kefir.Compat.C35_reflexive",
    "Kefir.Compat.C35_symmetric_partial",
    "Kefir.Compat.C35_union_false"
   ],
   "note": "Proved: reflexive for all types; symmetric and with a composite that is compatible with both for types without unions, old-style definitions and qualified array parameters (with functions without prototype only if no function has an ellipsis; composite: unqualified return types). Refuted in the excluded cases (C35_*_false)."
  },
  {
   "property": "C36",
   "status": "partial",
   "theorems": [
    "Kefir.Stmt.C36_case_conversion_false",
    "Kefir.Stmt.C36_diverges_partial",
    "Kefir.Stmt.C36_for_tail_stack_false",
    "Kefir.Stmt.C36_halts_partial",
    "Kefir.Stmt.C36_return_conversion_false",
    "Kefir.Stmt.C36_returns_partial",
    "Kefir.Stmt.C36_stack_restored_partial",
    "Kefir.Stmt.C36_switch_stack_false"
   ],
   "note": "Proved for every body made of the listed statements over the scalar expressions of C07-C16: same memory and value, same divergence, and no other outcome. Excluded and refuted: case constants outside the promoted type, return of an lvalue of a qualified type; the stack is restored for bodies without switch and without a long double third clause of for (C36_*_false). Not modelled: variable-length arrays, aggregates, statement expressions, computed goto."
  },
  {
   "property": "C37",
   "status": "partial",
   "theorems": [
    "Kefir.Expr.C37_long_double_branch_false",
    "Kefir.Expr.C37_long_double_condition_false",
    "Kefir.Expr.C37_stack_discipline_partial"
   ],
   "note": "False for conditional operators with a long double condition or with one long double branch: negations proved. Proved for all other expressions."
  },
  {
   "property": "C38",
   "status": "partial",
   "theorems": [
    "Kefir.Lexer.C38_progress_partial",
    "Kefir.Lexer.C38_terminates_partial",
    "Kefir.Lexer.C38_unclosed_false"
   ],
   "note": "False of the code: a character constant that is never closed makes the loop read the terminating null character for ever (C38_unclosed_false). Proved: lexing terminates, and every token consumes a character, unless a token begins with an unclosed character constant."
  },
  {
   "property": "C39",
   "status": "partial",
   "theorems": [
    "Kefir.Expr.C39_add_bool_false",
    "Kefir.Expr.C39_add_unsigned_result_false",
    "Kefir.Expr.C39_assign_partial",
    "Kefir.Expr.C39_compound_partial",
    "Kefir.Expr.C39_incdec_partial",
    "Kefir.Expr.C39_long_double_partial",
    "Kefir.Expr.C39_mod_signedness_false",
    "Kefir.Expr.C39_prefix_bitfield_false",
    "Kefir.Expr.C39_shr_signedness_false"
   ],
   "note": "False for %= and >>= when the signedness of the right operand differs, for the value of compound assignments computed in unsigned int, for _Bool targets of such, and for prefix ++/-- on bit-fields: negations proved. Proved for the remaining scalar assignments, compound assignments, increments and decrements. long double objects: simple assignment only."
  },
  {
   "property": "C40",
   "status": "partial",
   "theorems": [
    "Kefir.StaticData.C40_gap_false",
    "Kefir.StaticData.C40_image_partial",
    "Kefir.StaticData.C40_long_run_false",
    "Kefir.StaticData.C40_no_unions",
    "Kefir.StaticData.C40_small",
    "Kefir.StaticData.C40_union_false"
   ],
   "note": "Proved for all objects and all assignments of fitting values that leave no gaps of 128 slots (in particular for objects with at most 128 parts), and for objects without unions whatever the gaps. False otherwise: a union member is dropped if its own slot lies in a gap (C40_gap_false), the first rather than the last initialised member of a union is emitted (C40_union_false), and runs of more than 64 bits of bit-fields are undefined behaviour (C40_long_run_false)."
  },
  {
   "property": "C41",
   "status": "proved",
   "theorems": [
    "Kefir.HashTree.C41_released_exactly_once"
   ],
   "note": ""
  },
  {
   "property": "C42",
   "status": "partial",
   "theorems": [
    "Kefir.HashTree.C42_alloc_failure_reported_partial",
    "Kefir.HashTree.C42_false_of_empty_tree"
   ],
   "note": "False of the code for an empty tree (kefir_hashtree_insert does not check node_alloc); proved for non-empty trees, negation proved for the empty one."
  },
  {
   "property": "C43",
   "status": "proved",
   "theorems": [
    "Kefir.LinkedList.C43_list_no_leak"
   ],
   "note": ""
  },
  {
   "property": "C44",
   "status": "proved",
   "theorems": [
    "Kefir.Tree.C44_tree_free_releases_all"
   ],
   "note": ""
  },
  {
   "property": "C45",
   "status": "partial",
   "theorems": [
    "Kefir.Vector.C45_copy_overwrites",
    "Kefir.Vector.C45_realloc_empty_rejected",
    "Kefir.Vector.C45_vector_append",
    "Kefir.Vector.C45_vector_at",
    "Kefir.Vector.C45_vector_copy_partial",
    "Kefir.Vector.C45_vector_realloc_partial"
   ],
   "note": "False of kefir_vector_copy on a non-empty vector (memcpy to the start of the content) and of kefir_vector_realloc on an allocated but empty vector (INVALID_STATE): negations proved. Append, indexing, copy into an empty vector and reallocation of other vectors proved."
  },
  {
   "property": "C46",
   "status": "proved",
   "theorems": [
    "Kefir.Stack.C46_linked_stack_lifo"
   ],
   "note": ""
  },
  {
   "property": "C47",
   "status": "proved",
   "theorems": [
    "Kefir.Expr.C47_expression_types",
    "Kefir.Expr.C47_sizeof_false"
   ],
   "note": ""
  },
  {
   "property": "C48",
   "status": "proved",
   "theorems": [
    "Kefir.Expr.C48_integer_operators"
   ],
   "note": ""
  },
  {
   "property": "C49",
   "status": "proved",
   "theorems": [
    "Kefir.Expr.C49_logical_and",
    "Kefir.Expr.C49_logical_or"
   ],
   "note": ""
  },
  {
   "property": "C50",
   "status": "proved",
   "theorems": [
    "Kefir.Expr.C50_stack_discipline"
   ],
   "note": ""
  },
  {
   "property": "C51",
   "status": "proved",
   "theorems": [
    "Kefir.Lexer.C51_identifier_or_keyword"
   ],
   "note": ""
  },
  {
   "property": "C52",
   "status": "proved",
   "theorems": [
    "Kefir.Lexer.C52_token_location"
   ],
   "note": ""
  },
  {
   "property": "C53",
   "status": "partial",
   "theorems": [
    "Kefir.Layout.C53_flag_false",
    "Kefir.Layout.C53_flag_partial"
   ],
   "note": "False of the code: an alignment requested for an aggregate overwrites the flag (C53_flag_false). Proved for types in which alignments are requested for scalars only."
  },
  {
   "property": "C54",
   "status": "partial",
   "theorems": [
    "Kefir.Layout.C54_zero_width_false",
    "Kefir.Layout.C54_zero_width_partial"
   ],
   "note": "False of the code: a bit-field of width 0 only ends the byte (C54_zero_width_false). Proved: the next member does not share a byte with the members before."
  },
  {
   "property": "C55",
   "status": "partial",
   "theorems": [
    "Kefir.StaticData.C55_63_false",
    "Kefir.StaticData.C55_ascending_partial",
    "Kefir.StaticData.C55_order_false",
    "Kefir.StaticData.C55_others_partial"
   ],
   "note": "False of the code: the mask has one bit too many, so that the first bit of the next field is overwritten (C55_order_false), and 63-bit fields are undefined behaviour (C55_63_false). Proved: stores in ascending order give every field its value; a store changes no bit but those of the field and the next one."
  },
  {
   "property": "C56",
   "status": "partial",
   "theorems": [
    "Kefir.StaticData.C56_bss_partial",
    "Kefir.StaticData.C56_gap_false",
    "Kefir.StaticData.C56_marked_partial",
    "Kefir.StaticData.C56_once"
   ],
   "note": "False of the code: values after a gap of 128 slots are not seen, so that int a[200] = {[150] = 5} is emitted into .bss with a byte that is not zero (C56_gap_false). Proved: every object is emitted once into the section its mark selects, and the marks are right for values that leave no gaps."
  },
  {
   "property": "C57",
   "status": "partial",
   "theorems": [
    "Kefir.Preproc.C57_pasting_false",
    "Kefir.Preproc.C57_rescan_false",
    "Kefir.Preproc.C57_stringize_false",
    "Kefir.Preproc.Spec.C57_expansion_partial"
   ],
   "note": "False of the code as stated: arguments are expanded before # and ## (C57_stringize_false, C57_pasting_false) and the result of ## is rescanned for parameters (C57_rescan_false). Proved: for sets of definitions without # and ##, without recursion and with replacement texts closed with respect to parentheses (FirstOrder), the code yields exactly the replacement described by the independent relation Expands, which is unique."
  },
  {
   "property": "C58",
   "status": "proved",
   "theorems": [
    "Kefir.Preproc.Sequence.C58_sequence_is_a_list"
   ],
   "note": ""
  },
  {
   "property": "C59",
   "status": "partial",
   "theorems": [
    "Kefir.Preproc.Spec.C59_function_like_partial",
    "Kefir.Preproc.Spec.C59_number_sign_false",
    "Kefir.Preproc.Spec.C59_object_like_partial",
    "Kefir.Preproc.Spec.C59_punctuators",
    "Kefir.Preproc.Spec.C59_stringize_operand_false"
   ],
   "note": "Proved for replacement lists in which the operands of # and ## are given as pieces (OperatorSpec) and arguments as they are after expansion; exact for joins of punctuators. Refuted: 1e ## + is rejected (C59_number_sign_false), # x ## y leaves ## in the text (C59_stringize_operand_false)."
  },
  {
   "property": "C60",
   "status": "partial",
   "theorems": [
    "Kefir.Preproc.Group.C60_nested_partial",
    "Kefir.Preproc.Group.C60_repeated_else_false",
    "Kefir.Preproc.Group.C60_unterminated_false"
   ],
   "note": "Proved: every #elif, #else and #endif of an accepted file belongs to an open section. Refuted: unterminated sections and repeated #else are accepted (C60_*_false)."
  },
  {
   "property": "C61",
   "status": "partial",
   "theorems": [
    "Kefir.Compat.C61_exact_partial",
    "Kefir.Compat.C61_old_style_false",
    "Kefir.Compat.C61_qualified_array_false",
    "Kefir.Compat.C61_union_false"
   ],
   "note": "Proved: exactly the compatible types of C17 for the types C35 covers, of any nesting. Refuted: unions, old-style definitions, qualified array parameters (C61_*_false) and ellipsis (C35_ellipsis_false)."
  },
  {
   "property": "C62",
   "status": "partial",
   "theorems": [
    "Kefir.Compat.C62_bit_field_false",
    "Kefir.Compat.C62_defined_partial",
    "Kefir.Compat.C62_enum_tag_false"
   ],
   "note": "Proved for all types in which enumerations have tags and no member is a bit-field. Refuted: comparing a tagged enumeration with an untagged one, or a bit-field with an ordinary member, reads a null pointer (C62_*_false)."
  },
  {
   "property": "C63",
   "status": "partial",
   "theorems": [
    "Kefir.Stmt.C63_accepted_exactly_partial",
    "Kefir.Stmt.C63_duplicate_case_false"
   ],
   "note": "Proved, in both directions, for every body whose case constants are values of the promoted type of the controlling expression. Refuted otherwise: constants are compared before conversion (C63_duplicate_case_false). Not modelled: constraints on types, variable-length arrays."
  },
  {
   "property": "C64",
   "status": "proved",
   "theorems": [
    "Kefir.Scope.C64_typedef_names"
   ],
   "note": "With any symbol table or none; keys are strings compared by content."
  },
  {
   "property": "C66",
   "status": "proved",
   "theorems": [
    "Kefir.Scope.C66_released_exactly_once"
   ],
   "note": "Allocation succeeds; the callback is a log."
  },
  {
   "property": "C65",
   "status": "partial",
   "theorems": [
    "Kefir.Decl.C65_aligned_register_false",
    "Kefir.Decl.C65_block_composite_false",
    "Kefir.Decl.C65_block_extern_thread_false",
    "Kefir.Decl.C65_composite_initializer_false",
    "Kefir.Decl.C65_declarations_partial",
    "Kefir.Decl.C65_extern_initialized_false",
    "Kefir.Decl.C65_initialized_pointer_false",
    "Kefir.Decl.C65_static_pointers_false",
    "Kefir.Decl.C65_typedef_initializer_false",
    "Kefir.Decl.C65_typedef_same_false",
    "Kefir.Decl.C65_typedef_variably_modified_false",
    "Kefir.Decl.C65_types_partial"
   ],
   "note": "Proved for every history to which C17 gives a meaning and that avoids the declarations excluded by coveredDecl (Verif/Decl/Covered.lean); with exact types if no identifier with linkage is declared in a block. Every exclusion is justified by a refutation (C65_*_false). Not modelled: tags, old-style definitions, constancy and validity of initialisers, qualifiers of parameters."
  },
  {
   "property": "C67",
   "status": "partial",
   "theorems": [
    "Kefir.Decl.C67_inline_false",
    "Kefir.Decl.C67_symbols_partial"
   ],
   "note": "Proved under the conditions of C65, with inline definitions counted as exported; that they are is refuted to be C17 (C67_inline_false)."
  },
  {
   "property": "C68",
   "status": "partial",
   "theorems": [
    "Kefir.Init.C68_after_anonymous_false",
    "Kefir.Init.C68_anonymous_base_false",
    "Kefir.Init.C68_anonymous_braces_false",
    "Kefir.Init.C68_designated_aggregate_false",
    "Kefir.Init.C68_designated_literal_false",
    "Kefir.Init.C68_designated_string_false",
    "Kefir.Init.C68_excess_false",
    "Kefir.Init.C68_initialisers_partial",
    "Kefir.Init.C68_nested_structure_false",
    "Kefir.Init.C68_qualified_false",
    "Kefir.Init.C68_scalar_braces_false",
    "Kefir.Init.C68_static_contents_partial",
    "Kefir.Init.C68_static_reset_false",
    "Kefir.Init.C68_string_overflow_false",
    "Kefir.Init.C68_trailing_bitfield_false",
    "Kefir.Init.C68_union_bitfield_false"
   ],
   "note": "Proved for every initialiser that the specification accepts, for types without anonymous members, flexible array members and misplaced unnamed bit-fields (Ty.good) and initialisers that satisfy covered (Verif/Init/Covered.lean). Every exclusion is justified by a refutation (C68_*_false). For static storage duration the contents are proved if no list resets what was initialised before. What the specification rejects is not covered: excess initialisers are accepted (C68_excess_false)."
  },
  {
   "property": "C69",
   "status": "partial",
   "theorems": [
    "Kefir.Init.C69_lost_length_false",
    "Kefir.Init.C69_unknown_size_partial"
   ],
   "note": "Under the conditions of C68, for non-empty initialisers in which a designation with several designators is not followed by another designation; otherwise the length is wrong (C69_lost_length_false)."
  },
  {
   "property": "C70",
   "status": "partial",
   "theorems": [
    "Kefir.Declr.C70_alignment",
    "Kefir.Declr.C70_double_long_false",
    "Kefir.Declr.C70_keyword_types",
    "Kefir.Declr.C70_no_type_specifier_false",
    "Kefir.Declr.C70_order_partial",
    "Kefir.Declr.C70_other_types",
    "Kefir.Declr.C70_qualified_array_false",
    "Kefir.Declr.C70_short_struct_false",
    "Kefir.Declr.C70_specifiers_partial",
    "Kefir.Declr.C70_storage",
    "Kefir.Declr.C70_storage_unique",
    "Kefir.Declr.C70_superfluous_int_false"
   ],
   "note": "Proved for specifiers in which long does not follow double, without _Atomic and _Complex, and without qualifiers on array, function and va_list typedef names (CoveredSpecs); what is accepted is characterised exactly up to superfluous int and a leading short. Refutations: C70_*_false."
  },
  {
   "property": "C71",
   "status": "partial",
   "theorems": [
    "Kefir.Declr.C71_declaration_partial",
    "Kefir.Declr.C71_distinct_parameters",
    "Kefir.Declr.C71_identifier",
    "Kefir.Declr.C71_identifier_list_false",
    "Kefir.Declr.C71_identifiers_distinct_false",
    "Kefir.Declr.C71_incomplete_parameter_false",
    "Kefir.Declr.C71_parameter_qualifiers_false",
    "Kefir.Declr.C71_parameter_specifiers_false",
    "Kefir.Declr.C71_type_name_partial",
    "Kefir.Declr.C71_void_ellipsis_false"
   ],
   "note": "The analysis of declarators, under the conditions of C70 on all specifiers, parameters complete. Refutations: C71_*_false. Structures, unions, enumerations and expressions are parameters."
  },
  {
   "property": "C72",
   "status": "partial",
   "theorems": [
    "Kefir.Declr.C72_array_length_false",
    "Kefir.Declr.C72_derived_types_partial",
    "Kefir.Declr.C72_qualified_functions_false",
    "Kefir.Declr.C72_return_types_false",
    "Kefir.Declr.C72_static_arrays",
    "Kefir.Declr.C72_type_names_false"
   ],
   "note": "Not inside the types that functions return, nor for qualified function and array types, nor for array lengths (C72_*_false)."
  },
  {
   "property": "C73",
   "status": "partial",
   "theorems": [
    "Kefir.DeclParser.C73_atomic_false",
    "Kefir.DeclParser.C73_atomic_open_false",
    "Kefir.DeclParser.C73_common_is_accepted",
    "Kefir.DeclParser.C73_common_is_c17",
    "Kefir.DeclParser.C73_declarators_accepted",
    "Kefir.DeclParser.C73_declarators_partial",
    "Kefir.DeclParser.C73_expressions_accepted",
    "Kefir.DeclParser.C73_expressions_partial",
    "Kefir.DeclParser.C73_expressions_terminate",
    "Kefir.DeclParser.C73_grammar_closed",
    "Kefir.DeclParser.C73_initializers_partial",
    "Kefir.DeclParser.C73_members_accepted",
    "Kefir.DeclParser.C73_members_partial",
    "Kefir.DeclParser.C73_one_rule",
    "Kefir.DeclParser.C73_parameter_false",
    "Kefir.DeclParser.C73_parameter_star_false",
    "Kefir.DeclParser.C73_parameters_accepted",
    "Kefir.DeclParser.C73_parameters_partial",
    "Kefir.DeclParser.C73_specifiers_accepted",
    "Kefir.DeclParser.C73_specifiers_false",
    "Kefir.DeclParser.C73_specifiers_partial",
    "Kefir.DeclParser.C73_star_bound_false",
    "Kefir.DeclParser.C73_terminates",
    "Kefir.DeclParser.C73_type_names_accepted",
    "Kefir.DeclParser.C73_type_names_partial",
    "Kefir.DeclParser.C73_unambiguous"
   ],
   "note": "Acceptance is proved for the grammar that C17 and kefir have in common (Dialect.common): without _Atomic(type), array lengths that start with *, and parameters whose abstract declarator starts with a parenthesised typedef name; soundness is proved for kefir's dialect. Each difference is refuted (C73_*_false). Attributes are left out, and the typedef scope is fixed."
  },
  {
   "property": "C74",
   "status": "partial",
   "theorems": [
    "Kefir.UnitParser.C74_common_is_accepted",
    "Kefir.UnitParser.C74_common_is_c17",
    "Kefir.UnitParser.C74_declarations_accepted",
    "Kefir.UnitParser.C74_declarations_partial",
    "Kefir.UnitParser.C74_for_scope_false",
    "Kefir.UnitParser.C74_label_false",
    "Kefir.UnitParser.C74_nearest_if",
    "Kefir.UnitParser.C74_own_initializer_false",
    "Kefir.UnitParser.C74_parameter_false",
    "Kefir.UnitParser.C74_parameter_scope_false",
    "Kefir.UnitParser.C74_statements_accepted",
    "Kefir.UnitParser.C74_statements_partial",
    "Kefir.UnitParser.C74_terminates",
    "Kefir.UnitParser.C74_unambiguous",
    "Kefir.UnitParser.C74_units_accepted",
    "Kefir.UnitParser.C74_units_partial"
   ],
   "note": "Acceptance is proved for kefir's scopes and hence for all units that mean the same with the scopes of C17 (Dialect.common); soundness for kefir's dialect. Where the scopes differ from 6.2.1, the property is refuted (C74_*_false). Names of parameters and enumeration constants inside of parameter lists and specifiers do not hide typedef names in the specification; attributes and asm are left out."
  },
  {
   "property": "C75",
   "status": "partial",
   "theorems": [
    "Kefir.ExprType.C75_anonymous_false",
    "Kefir.ExprType.C75_array_member_false",
    "Kefir.ExprType.C75_compatible_partial",
    "Kefir.ExprType.C75_complete_partial",
    "Kefir.ExprType.C75_enum_null_false",
    "Kefir.ExprType.C75_late_completion_false",
    "Kefir.ExprType.C75_promotes",
    "Kefir.ExprType.C75_shared",
    "Kefir.ExprType.C75_string_address_false",
    "Kefir.ExprType.C75_void_cast_false"
   ],
   "note": "Proved for the rules that C17 and kefir have in common (Lang.common): C17 without qualified array members, pointer arithmetic on late completed structures, null pointer constants of enumerated type, addresses of string literals, casts to qualified void, members of qualified anonymous structures, each refuted by C75_*_false; relations between types (compatibility, promotions, composite types) must hold for C17 and kefir. Compound literals, builtins, GNU extensions and the values of constant expressions are left out."
  },
  {
   "property": "C76",
   "status": "partial",
   "theorems": [
    "Kefir.ExprType.C76_array_target_false",
    "Kefir.ExprType.C76_compare_false",
    "Kefir.ExprType.C76_const_member_false",
    "Kefir.ExprType.C76_function_arithmetic_false",
    "Kefir.ExprType.C76_function_order_false",
    "Kefir.ExprType.C76_generic_false",
    "Kefir.ExprType.C76_incomplete_arithmetic_false",
    "Kefir.ExprType.C76_integer_to_pointer_false",
    "Kefir.ExprType.C76_lost_qualifiers_false",
    "Kefir.ExprType.C76_register_false",
    "Kefir.ExprType.C76_rvalue_member_false",
    "Kefir.ExprType.C76_sizeof_false",
    "Kefir.ExprType.C76_sound_partial",
    "Kefir.ExprType.C76_type",
    "Kefir.ExprType.C76_void_argument_false",
    "Kefir.ExprType.C76_void_function_false"
   ],
   "note": "Proved against C17 extended by the features that the specification lists (Feature); most of them are refuted as C17 by C76_*_false. The same parts of expressions as in C75."
  },
  {
   "property": "C77",
   "status": "partial",
   "theorems": [
    "Kefir.ExprType.C77_return_complete_partial",
    "Kefir.ExprType.C77_return_sound_partial"
   ],
   "note": "Both directions, for the languages of C75 and C76."
  },
  {
   "property": "C78",
   "status": "partial",
   "theorems": [
    "Kefir.PpToken.C78_backslash_false",
    "Kefir.PpToken.C78_dead_end_false",
    "Kefir.PpToken.C78_end",
    "Kefir.PpToken.C78_longest_partial",
    "Kefir.PpToken.C78_no_token_partial",
    "Kefir.PpToken.C78_other_character_false",
    "Kefir.PpToken.C78_out_of_range_false",
    "Kefir.PpToken.C78_universal_name_false",
    "Kefir.PpToken.C78_whitespace",
    "Kefir.PpToken.C78_wide_number_false"
   ],
   "note": "The longest token is read with its value, position and end for every good codec (ASCII characters encode as themselves), except at punctuator dead ends, before \\u or \\U that names no character, for identifiers of more than 255 characters and wide string numbers above 2^31-1; texts with a stray quote (undefined) are left out. Whitespace with its newline flag, the end and texts without a token are covered. Refuted: two dots (C78_dead_end_false), other characters such as @ (C78_other_character_false), a\\u; (C78_backslash_false), \\u0041 accepted (C78_universal_name_false), L\"\\xffffffff\" rejected (C78_wide_number_false), out of range u character constants truncated (C78_out_of_range_false)."
  },
  {
   "property": "C79",
   "status": "partial",
   "theorems": [
    "Kefir.PpToken.C79_adjacent_false",
    "Kefir.PpToken.C79_high_byte_false",
    "Kefir.PpToken.C79_multicharacter_false",
    "Kefir.PpToken.C79_null_digit_false",
    "Kefir.PpToken.C79_round_trip_partial",
    "Kefir.PpToken.C79_unicode_character_false",
    "Kefir.PpToken.C79_universal_name_false",
    "Kefir.PpToken.C79_wide_character_false",
    "Kefir.PpToken.C79_wide_quote_false"
   ],
   "note": "Proved for tokens that are Printable and Separated: all identifiers and numbers of ASCII characters, all punctuators (digraphs become their primary spelling), whitespace, single ASCII character constants, ASCII strings without a null character before an octal digit, all u and U strings, wide strings of printable characters; no token runs into the next. What is left out is refuted by C79_*_false: L, u and U character constants, multicharacter constants, bytes outside ASCII, null before a digit, wide strings with quotes, universal character names in identifiers, adjacent tokens that merge."
  },
  {
   "property": "C80",
   "status": "partial",
   "theorems": [
    "Kefir.PpToken.C80_digraph_false",
    "Kefir.PpToken.C80_escape_false",
    "Kefir.PpToken.C80_prefix_false",
    "Kefir.PpToken.C80_quote_false",
    "Kefir.PpToken.C80_stringify_partial",
    "Kefir.PpToken.C80_whitespace_false"
   ],
   "note": "Proved for arguments of identifiers, numbers, punctuators other than digraphs, unprefixed character constants and narrow strings without escapes, quotes and question marks, and whitespace tokens. Refuted: escape sequences (C80_escape_false), ? and quotes get backslashes (C80_quote_false), digraphs (C80_digraph_false), prefixes of character constants are lost (C80_prefix_false), two blanks stay two (C80_whitespace_false)."
  },
  {
   "property": "C81",
   "status": "partial",
   "theorems": [
    "Kefir.PpToken.C81_constant",
    "Kefir.PpToken.C81_constant_unique",
    "Kefir.PpToken.C81_identifier_partial",
    "Kefir.PpToken.C81_no_exponent_false",
    "Kefir.PpToken.C81_number_partial",
    "Kefir.PpToken.C81_others",
    "Kefir.PpToken.C81_overflow_false",
    "Kefir.PpToken.C81_two_dots_false",
    "Kefir.PpToken.C81_universal_name_false"
   ],
   "note": "Proved: every number of ASCII characters that is an integer or floating constant becomes it (C81_constant); a number is converted if and only if it is a constant or in the list Lax, and otherwise an error is reported (C81_number_partial); identifiers up to 255 ASCII characters become keywords or stay (C81_identifier_partial); the others are passed on (C81_others). Refuted: 0x1.8 without exponent accepted (C81_no_exponent_false), 0x..5 read as .5 (C81_two_dots_false), 18446744073709551616 becomes 0 (C81_overflow_false), identifiers with universal character names are refused (C81_universal_name_false)."
  },
  {
   "property": "C82",
   "status": "partial",
   "theorems": [
    "Kefir.PpToken.C82_escape_false",
    "Kefir.PpToken.C82_high_byte_false",
    "Kefir.PpToken.C82_prefixes_false",
    "Kefir.PpToken.C82_translation_partial"
   ],
   "note": "Proved for literals that encode characters (up to U+FFFF for UTF-16 literals), each without prefix or with the same prefix. Refuted: \"a\" \"\\xff\" is an error (C82_high_byte_false), escapes in an unprefixed literal merge into one character beside a prefixed one (C82_escape_false), literals with different prefixes are left as two tokens (C82_prefixes_false)."
  },
  {
   "property": "C83",
   "status": "proved",
   "theorems": [
    "Kefir.Locals.C83_aligned",
    "Kefir.Locals.C83_disjoint",
    "Kefir.Locals.C83_storage"
   ],
   "note": "For every tree of scopes whose automatic objects have complete types that are not variable length arrays, with the layouts of C21. Alignment is relative to the start of the locals and needs requested alignments that are powers of two; the alignment of the start is the subject of C84."
  },
  {
   "property": "C84",
   "status": "partial",
   "theorems": [
    "Kefir.Call.C84_aligned_false",
    "Kefir.Call.C84_aligned_partial",
    "Kefir.Call.C84_frame_partial",
    "Kefir.Call.C84_locals_false",
    "Kefir.Call.C84_varargs_false"
   ],
   "note": "Proved for functions whose parameters have alignments that are powers of two, whose local objects form one structure (as the translator declares them) and which fetch no aggregate passed in registers from variable arguments; objects are aligned if their alignment divides 16. Refuted: a size is taken for an alignment when an aggregate is fetched from variable arguments, and a parameter overlaps the register save area (C84_varargs_false); several separate local objects (C84_locals_false, not reachable from C); alignments above 16 (C84_aligned_false)."
  },
  {
   "property": "C85",
   "status": "proved",
   "theorems": [
    "Kefir.Call.C85_arguments_arrive"
   ],
   "note": "For all parameter types apart from bit-fields and padding, which are no types of parameters, whenever locations are assigned (C22). The model says what the emitted instructions do; the operand stack, the objects arguments point to, the arguments on the stack and the frame are separate memories."
  },
  {
   "property": "C86",
   "status": "partial",
   "theorems": [
    "Kefir.Call.C86_alignment_false",
    "Kefir.Call.C86_copy",
    "Kefir.Call.C86_kept_false",
    "Kefir.Call.C86_long_double_false",
    "Kefir.Call.C86_stack_false",
    "Kefir.Call.C86_varargs_partial"
   ],
   "note": "Proved for named parameters that take a multiple of eight bytes on the stack and variable arguments that are neither long doubles nor aligned to more than sixteen bytes, for any number of them and everything done in between that leaves the register save area alone. Refuted without these conditions: va_start does not round up the size of the named parameters (C86_stack_false), va_arg does not align long doubles (C86_long_double_false), larger alignments are relative to different origins (C86_alignment_false). Aggregates fetched from registers share one place, so an earlier one is lost when the next is fetched (C86_kept_false). Addresses are unbounded numbers."
  },
  {
   "property": "C87",
   "status": "partial",
   "theorems": [
    "Kefir.Call.C87_padding_false",
    "Kefir.Call.C87_result_arrives_partial"
   ],
   "note": "Proved for all types of results whose eightbytes in registers have all got a class. Of an aggregate that is returned on the floating point stack only the ten bytes of the long double arrive, the others are padding. Refuted: a function that returns a structure with an eightbyte of padding cannot be compiled (C87_padding_false). va_list is not returned by functions. The operand stacks are kept apart from memory; addresses are below 2^64."
  },
  {
   "property": "C88",
   "status": "partial",
   "theorems": [
    "Kefir.Directive.C88_comment_after_false",
    "Kefir.Directive.C88_comment_before_false",
    "Kefir.Directive.C88_comment_inside_false",
    "Kefir.Directive.C88_deterministic",
    "Kefir.Directive.C88_digraph_false",
    "Kefir.Directive.C88_directives_partial",
    "Kefir.Directive.C88_double_hash_false",
    "Kefir.Directive.C88_header_end_false",
    "Kefir.Directive.C88_name_false",
    "Kefir.Directive.C88_pragma_false"
   ],
   "note": "Proved for all files whose lines are plain: no comments before the # or between it and the name, # not written as a digraph, no digit after the name, no #pragma, no comment with a newline at the end of #else, #endif, #ifdef, #ifndef, #undef and #include <...>. Refuted without these conditions (C88_*_false); a file that ends inside a header name is never finished (C88_header_end_false). That accepted text is a directive of the standard is not claimed (a trailing comma in a parameter list, missing white space after a macro name and tokens after #else are accepted)."
  },
  {
   "property": "C89",
   "status": "partial",
   "theorems": [
    "Verif.Tags.C89_alone_false",
    "Verif.Tags.C89_block_false",
    "Verif.Tags.C89_enum_false",
    "Verif.Tags.C89_hidden_false",
    "Verif.Tags.C89_hidden_kind_false",
    "Verif.Tags.C89_later_false",
    "Verif.Tags.C89_self_false",
    "Verif.Tags.C89_self_refused_false",
    "Verif.Tags.C89_tags_partial"
   ],
   "note": "Proved for all translation units in which no tag is declared alone, or mentioned in its own definition, while only an outer scope declares it, no enumeration is mentioned before its definition, and the tag of a type that was incomplete where an accessed object or member was declared names that type at the access and, for objects, at the end of the function outside of its blocks. Refuted without each of these conditions (C89_*_false). Members and objects are pointers to the type of their specifier."
  },
  {
   "property": "C90",
   "status": "partial",
   "theorems": [
    "Verif.AddrConst.C90_accepted_partial",
    "Verif.AddrConst.C90_array_member_false",
    "Verif.AddrConst.C90_arrow_array_false",
    "Verif.AddrConst.C90_condition_false",
    "Verif.AddrConst.C90_determined_partial",
    "Verif.AddrConst.C90_difference_false",
    "Verif.AddrConst.C90_garbage_false",
    "Verif.AddrConst.C90_indirection_false",
    "Verif.AddrConst.C90_literal_false",
    "Verif.AddrConst.C90_narrow_false",
    "Verif.AddrConst.C90_value_partial"
   ],
   "note": "Value: proved for everything that is accepted except addresses cut to narrower types, addresses on both sides of an integer operator, differences of pointers, computed addresses as conditions, and arithmetic in types narrower than eight bytes (C17). Acceptance: proved for the address constants without *, without & or [] on string literals, without arrays that are members or elements, without arrays on the left of ->. Each exception is refuted (C90_*_false). Compound literals, floating-point values and comparison of addresses are not modelled."
  },
  {
   "property": "C91",
   "status": "partial",
   "theorems": [
    "Kefir.Enumerators.C91_increment_false",
    "Kefir.Enumerators.C91_next_false",
    "Kefir.Enumerators.C91_refused_partial",
    "Kefir.Enumerators.C91_representable_false",
    "Kefir.Enumerators.C91_values_partial"
   ],
   "note": "Proved for constant expressions of integer types that are promoted to signed types (the others: C17): values, scopes, refusals and the type of the enumeration. Constants that do not fit int are not refused (C91_next_false, C91_representable_false), and INT64_MAX is incremented (C91_increment_false). Tags are in C89."
  },
  {
   "property": "C92",
   "status": "partial",
   "theorems": [
    "Kefir.Include.C92_accepted_partial",
    "Kefir.Include.C92_directory_false",
    "Kefir.Include.C92_found",
    "Kefir.Include.C92_found_partial",
    "Kefir.Include.C92_guard",
    "Kefir.Include.C92_included",
    "Kefir.Include.C92_missing",
    "Kefir.Include.C92_pasted",
    "Kefir.Include.C92_search_false",
    "Kefir.Include.C92_self"
   ],
   "note": "Soundness, pasting, guards, missing files and the order of the search are proved in full. Acceptance needs that nothing on the search path is a directory or unresolvable: then the search ends with an error instead of going on (C92_search_false, C92_directory_false). Nesting is bounded by an arbitrary number; the program exhausts its stack on a file that includes itself (C92_self)."
  },
  {
   "property": "C93",
   "status": "partial",
   "theorems": [
    "Kefir.AsmData.C93_aligned",
    "Kefir.AsmData.C93_data",
    "Kefir.AsmData.C93_literal_alignment_false",
    "Kefir.AsmData.C93_object_partial"
   ],
   "note": "That the text defines the images of the emission (C40), the sections and the literals is proved in full (C93_data), and that objects lie at multiples of their alignments (C93_aligned). Together with C40 for the initialiser (C93_object_partial; missing as in C40). String literals of wide characters are not aligned (C93_literal_alignment_false)."
  },
  {
   "property": "C94",
   "status": "partial",
   "theorems": [
    "Kefir.Skip.C94_comment_before_false",
    "Kefir.Skip.C94_comment_false",
    "Kefir.Skip.C94_digraph_false",
    "Kefir.Skip.C94_lines",
    "Kefir.Skip.C94_name_false",
    "Kefir.Skip.C94_nested_else_false",
    "Kefir.Skip.C94_skip_partial"
   ],
   "note": "Proved for every text in which the skipped lines and the one that ends the group are plain (C94_skip_partial): comments neither go over the end of a line nor come before the name of a directive, # is not spelled %:, a directive name is not followed by digits, and #else or #elif by #. Each restriction is shown to be necessary (the C94_\u2026_false theorems)."
  },
  {
   "property": "C95",
   "status": "partial",
   "theorems": [
    "Kefir.Cli.C95_abbreviation_false",
    "Kefir.Cli.C95_accepted",
    "Kefir.Cli.C95_conflict_false",
    "Kefir.Cli.C95_exclusive",
    "Kefir.Cli.C95_help_false",
    "Kefir.Cli.C95_macro_false",
    "Kefir.Cli.C95_number_false",
    "Kefir.Cli.C95_options_partial",
    "Kefir.Cli.C95_refused",
    "Kefir.Cli.C95_run_partial",
    "Kefir.Cli.C95_time_false"
   ],
   "note": "Proved for every command line with full names and numbers for times (C95_options_partial), with the refusal of everything that is not an option (C95_refused), the converse for all accepted command lines, abbreviations included (C95_accepted), the exclusion of -p and -P (C95_exclusive) and the use of the settings (C95_run_partial). Not so: --dump-asm and --include-path are described and refused (C95_help_false), ambiguous abbreviations are accepted (C95_abbreviation_false), times that are not numbers (C95_number_false), -p --dump-ast -P (C95_conflict_false), macro names that are not identifiers (C95_macro_false), --pp-timestamp is ignored by --preprocess (C95_time_false)."
  },
  {
   "property": "C96",
   "status": "partial",
   "theorems": [
    "Kefir.AsmCode.C96_accepted_partial",
    "Kefir.AsmCode.C96_bits_false",
    "Kefir.AsmCode.C96_body_partial",
    "Kefir.AsmCode.C96_defined_partial",
    "Kefir.AsmCode.C96_gates",
    "Kefir.AsmCode.C96_jump_partial",
    "Kefir.AsmCode.C96_long_name_false",
    "Kefir.AsmCode.C96_padding_false",
    "Kefir.AsmCode.C96_routine_partial",
    "Kefir.AsmCode.C96_va_list_false",
    "Kefir.AsmCode.C96_vgate_false"
   ],
   "note": "Proved for all functions with names of at most 219 characters, without names that are operators of the assembler and without va_arg of padding (C96_body_partial, C96_jump_partial, C96_defined_partial), without repeated va_arg of va_list (C96_accepted_partial) and without va_arg of bits (C96_routine_partial); gates have different labels (C96_gates). Without these conditions it is false: C96_long_name_false, C96_padding_false, C96_va_list_false, C96_bits_false, C96_vgate_false."
  },
  {
   "property": "C97",
   "status": "partial",
   "theorems": [
    "Kefir.Entry.C97_bool_false",
    "Kefir.Entry.C97_call_partial",
    "Kefir.Entry.C97_parameters_partial",
    "Kefir.Entry.C97_qualified_false",
    "Kefir.Entry.C97_unnamed_false"
   ],
   "note": "Proved for all parameters but qualified long double in an identifier list or unnamed in a prototype, and _Bool in an identifier list passed with upper bits that are not an extension (C97_parameters_partial; with the body, C97_call_partial, for the statements of C36). Without these conditions it is false: C97_qualified_false, C97_unnamed_false, C97_bool_false. Size expressions of variably modified parameters are not modelled."
  },
  {
   "property": "C98",
   "status": "partial",
   "theorems": [
    "Kefir.LineDir.C98_comment_false",
    "Kefir.LineDir.C98_first_lines",
    "Kefir.LineDir.C98_leading_comment_false",
    "Kefir.LineDir.C98_line_partial",
    "Kefir.LineDir.C98_number_unique"
   ],
   "note": "C98_line_partial: the first token after replacement is not white space, and the next line does not begin with a comment; lines below 2^32. Without these conditions it is false: C98_comment_false, C98_leading_comment_false. C98_first_lines is the case without #line; C98_number_unique says that the constant determines the line. Tokens that come from a user macro, whose location is that of the macro name, are not modelled."
  },
  {
   "property": "C99",
   "status": "partial",
   "theorems": [
    "Kefir.Errors.C99_long_name_false",
    "Kefir.Errors.C99_overflow_partial",
    "Kefir.Errors.C99_record_partial",
    "Kefir.Errors.C99_warning_false"
   ],
   "note": "C99_record_partial and C99_overflow_partial: the location printed in front of a message with a format has at most 240 characters, and no call follows while a warning is the latest of 32 reports. Without these conditions it is false: C99_long_name_false (a file name of 240 characters makes vsnprintf write outside the payload), C99_warning_false (the error after the warning is lost)."
  },
  {
   "property": "C100",
   "status": "partial",
   "theorems": [
    "Kefir.Slots.C100_empty_struct_false",
    "Kefir.Slots.C100_slots",
    "Kefir.Slots.C100_small_partial",
    "Kefir.Slots.C100_value_partial"
   ],
   "note": "Slots are proved distinct, within range and independent of the other initialisers for all types (C100_slots). The bytes are proved to be those of the last value given for a part (C100_value_partial, with C40), also without a condition on gaps for objects of at most 128 parts (C100_small_partial). Missing: the values of single bit-fields (C55), several members of one union, and uses of slots with gaps (C40_gap_false). C100_empty_struct_false: the tree of a type whose traversal fails is emptied and success is reported."
  },
  {
   "property": "C101",
   "status": "proved",
   "theorems": [
    "Kefir.Temps.C101_global",
    "Kefir.Temps.C101_local"
   ],
   "note": "C101_local goes from the analysis of a function to the address that the instructions of the translator compute, with the frame of C83. C101_global is about the names of the objects defined outside of functions. Requested alignments are powers of two for the statement about alignment."
  },
  {
   "property": "C102",
   "status": "partial",
   "theorems": [
    "Kefir.Passing.C102_aggregate_result",
    "Kefir.Passing.C102_arguments_partial",
    "Kefir.Passing.C102_bool_result_false",
    "Kefir.Passing.C102_declaration",
    "Kefir.Passing.C102_indirect_partial",
    "Kefir.Passing.C102_received_partial",
    "Kefir.Passing.C102_scalar_result_partial"
   ],
   "note": "C102_arguments_partial and C102_indirect_partial are about the code in front of the INVOKE, C102_declaration about the IR declaration, C102_received_partial goes on to the entry of the called function (C97), C102_scalar_result_partial and C102_aggregate_result are about the code behind the INVOKE. Missing: expressions excluded in C13 to C16 and the parameters excluded in C97; results of type _Bool that the called function does not extend to the whole register (C102_bool_result_false)."
  },
  {
   "property": "C103",
   "status": "partial",
   "theorems": [
    "Kefir.Alignas.C103_accepted_partial",
    "Kefir.Alignas.C103_large_false",
    "Kefir.Alignas.C103_negative_false",
    "Kefir.Alignas.C103_object_partial",
    "Kefir.Alignas.C103_order",
    "Kefir.Alignas.C103_pointer_false",
    "Kefir.Alignas.C103_pointer_rejected_false",
    "Kefir.Alignas.C103_power_false"
   ],
   "note": "C103_accepted_partial and C103_object_partial need types that have the alignment of the type named by the specifiers and requests that are zero or powers of two; placement is for requests up to 128. C103_order is proved in full. Without these hypotheses the property is false: C103_large_false, C103_pointer_false, C103_pointer_rejected_false, C103_power_false, C103_negative_false. Offsets are relative to the storage the object is part of; the start of the storage is in C84 and C93."
  },
  {
   "property": "C104",
   "status": "partial",
   "theorems": [
    "Kefir.Vla.C104_builtin_false",
    "Kefir.Vla.C104_builtin_partial",
    "Kefir.Vla.C104_declaration_partial",
    "Kefir.Vla.C104_inner_false",
    "Kefir.Vla.C104_jump_false",
    "Kefir.Vla.C104_leak_false",
    "Kefir.Vla.C104_released_false",
    "Kefir.Vla.C104_released_inner_partial",
    "Kefir.Vla.C104_released_partial",
    "Kefir.Vla.C104_size_partial",
    "Kefir.Vla.C104_storage_partial"
   ],
   "note": "C104_size_partial and C104_declaration_partial exclude arrays of known length with elements of variable length (C104_inner_false) and lengths outside the expressions of C13. C104_storage_partial excludes blocks left in front of their first declaration (C104_jump_false). C104_released_partial and C104_released_inner_partial need one array per block; for two it is false (C104_leak_false, C104_released_false). C104_builtin_partial is for blocks with one array; otherwise storage of the built-in function can be released early (C104_builtin_false). Jumps within the declaring block and the move of the operand stack are not modelled."
  },
  {
   "property": "C105",
   "status": "proved",
   "theorems": [
    "Kefir.Carry.C105_objects",
    "Kefir.Carry.C105_room",
    "Kefir.Carry.C105_scope",
    "Kefir.Carry.C105_values"
   ],
   "note": "C105_values relates every execution of the byte-level opcodes to a list of values and the storage of C104; C105_objects is about the bytes above the storage in use, C105_room says when operations succeed, C105_scope that the condition on the end of a scope holds for the programs of C104_storage_partial."
  },
  {
   "property": "C106",
   "status": "partial",
   "theorems": [
    "Kefir.JumpVla.C106_accepts_false",
    "Kefir.JumpVla.C106_accepts_partial",
    "Kefir.JumpVla.C106_rejects",
    "Kefir.JumpVla.C106_release_partial",
    "Kefir.JumpVla.C106_stays_false"
   ],
   "note": "C106_rejects is proved in full. C106_accepts_partial excludes blocks entered that declare an array behind the target (C106_accepts_false). C106_release_partial excludes blocks left in front of their first declaration (C104_jump_false) and jumps within a block, between two of its declarations, to a label between the same two (C106_stays_false). Pointers to arrays of variable length are not recorded by the compiler and not modelled."
  },
  {
   "property": "C107",
   "status": "partial",
   "theorems": [
    "Kefir.Generic.C107_ambiguous_false",
    "Kefir.Generic.C107_default_false",
    "Kefir.Generic.C107_lvalue_false",
    "Kefir.Generic.C107_passes",
    "Kefir.Generic.C107_result_partial"
   ],
   "note": "C107_passes, the agreement of the passes, is proved in full. C107_result_partial, the choice that C prescribes, is for the types of C61 and C62 and for selections that obey 6.5.1.1p2, which is not checked (C107_ambiguous_false). The default association is not checked if another matches (C107_default_false), and selections cannot be used as lvalues although they are accepted as such (C107_lvalue_false)."
  },
  {
   "property": "C108",
   "status": "partial",
   "theorems": [
    "Kefir.Assert.C108_accepted_false",
    "Kefir.Assert.C108_assertion_partial",
    "Kefir.Assert.C108_failed_false",
    "Kefir.Assert.C108_never_wrong_partial",
    "Kefir.Assert.C108_not_constant",
    "Kefir.Assert.C108_undefined_false"
   ],
   "note": "C108_assertion_partial is for conditions without arithmetic in unsigned long and without the operations for which the evaluator differs from C (C17); C108_never_wrong_partial admits unsigned long. Outside of these the property is false: a violated assertion is accepted (C108_accepted_false), a valid one fails (C108_failed_false) or makes the compiler overflow (C108_undefined_false). Conditions with floating or address constants are not modelled."
  }
 ]
}