{"id": "C01", "title": "Hash tree is a finite map", "statement": "After any sequence of insert / delete operations on a fresh hash tree, a lookup of a key returns exactly the value most recently inserted for that key and not deleted since, and reports NOT_FOUND for every other key; inserting an existing key without replacement reports ALREADY_EXISTS and changes nothing.", "quantifier": "every hash function, every key-equality that is an equivalence compatible with the hash, every finite history of operations, every key (including colliding hashes)", "why_tests_cant": "the number of tree shapes and collision patterns reachable by insert/delete histories is unbounded", "anchors": ["source/core/hashtree.c: kefir_hashtree_insert, kefir_hashtree_at, kefir_hashtree_has, kefir_hashtree_delete"]}
{"id": "C02", "title": "Hash tree iteration visits every entry exactly once, in hash order", "statement": "Iterating a hash tree with iter/next yields every stored key/value pair exactly once, in non-decreasing hash order, and then terminates.", "quantifier": "every reachable hash tree", "why_tests_cant": "iteration climbs parent pointers and compares hashes; its correctness depends on the shape of an unbounded tree with repeated hashes", "anchors": ["source/core/hashtree.c: kefir_hashtree_iter, kefir_hashtree_next"]}
{"id": "C03", "title": "Logical source text is the physical text with line splices removed", "statement": "Looking ahead k characters with the source cursor returns the k-th character of the input after deleting every backslash-newline pair (0 past the end), and advancing by k then looking ahead j is the same as looking ahead k+j.", "quantifier": "every source text, every position, every lookahead distance", "why_tests_cant": "splices may occur anywhere, in any number and adjacent to each other and to the end of input", "anchors": ["source/lexer/source_cursor.c: kefir_lexer_source_cursor_at, kefir_lexer_source_cursor_next"]}
{"id": "C04", "title": "Source positions are line/column of the physical text", "statement": "After advancing over any prefix, the cursor's line number is one plus the number of physical newlines consumed and its column is one plus the number of characters since the last newline.", "quantifier": "every source text and every consumed prefix", "why_tests_cant": "histories of advances are unbounded and interact with splices", "anchors": ["source/lexer/source_cursor.c: next_impl, kefir_lexer_source_cursor_next"]}
{"id": "C05", "title": "Integer constants denote their positional value", "statement": "A decimal, octal or hexadecimal integer constant whose mathematical value fits in 64 bits is scanned to exactly that value, and scanning stops at the first character that cannot continue it.", "quantifier": "every digit string of every length and base, every following text", "why_tests_cant": "digit strings are unbounded", "anchors": ["source/lexer/tokens/integer_constant.c: next_decimal_constant, next_hexadecimal_constant, next_octal_constant"]}
{"id": "C06", "title": "Integer constants get the C17 6.4.4.1 type", "statement": "The type of an integer constant is the first type in the C17 list for its base and suffix in which its value is representable.", "quantifier": "every value below 2^64, every base, every suffix spelling", "why_tests_cant": "2^64 values times suffixes", "anchors": ["source/lexer/tokens/integer_constant.c: get_permitted_constant_types, make_integral_constant, scan_suffix"]}
{"id": "C07", "title": "Out-of-range integer constants are not silently accepted", "statement": "An integer constant whose value does not fit any supported type is rejected, not given another value.", "quantifier": "every digit string", "why_tests_cant": "unbounded digit strings", "anchors": ["source/lexer/tokens/integer_constant.c: next_decimal_constant, make_integral_constant"]}
{"id": "C08", "title": "Punctuators are tokenised by maximal munch", "statement": "The punctuator recognised at a position is the longest entry of the C punctuator table that is a prefix of the remaining text, and exactly its characters are consumed; if no entry is a prefix nothing is consumed and no token is produced.", "quantifier": "every remaining source text", "why_tests_cant": "the remaining text is unbounded and table entries share prefixes", "anchors": ["source/lexer/tokens/punctuator.c: kefir_lexer_match_punctuator", "source/core/trie.c: kefir_trie_at, kefir_trie_insert_vertex"]}
{"id": "C09", "title": "Whitespace and comments are skipped completely and nothing else", "statement": "Skipping whitespace removes exactly the maximal leading run of whitespace characters, block comments and line comments; it fails exactly when a block comment is not terminated.", "quantifier": "every source text", "why_tests_cant": "comments nest with text of arbitrary length and content", "anchors": ["source/lexer/tokens/whitespace.c: kefir_lexer_cursor_match_whitespace"]}
{"id": "C10", "title": "A failed token match leaves the cursor untouched", "statement": "When a token matcher reports NO_MATCH, the cursor is where it was before the attempt.", "quantifier": "every matcher, every source text", "why_tests_cant": "matchers consume an input-dependent prefix before failing", "anchors": ["source/lexer/lexer.c: kefir_lexer_apply"]}
{"id": "C11", "title": "Escape sequences denote the C17 character values", "statement": "Each simple, octal, hexadecimal and universal escape sequence is decoded to the value C17 6.4.4.4 assigns and consumes exactly its own characters; octal sequences consume at most three digits and hexadecimal ones as many digits as follow.", "quantifier": "every text following a backslash", "why_tests_cant": "hex escapes have unbounded length and octal ones depend on context", "anchors": ["source/lexer/tokens/characters.c: kefir_lexer_cursor_next_escape_sequence, kefir_lexer_cursor_next_universal_character"]}
{"id": "C12", "title": "Integer promotion and usual arithmetic conversions follow C17 6.3.1", "statement": "For every pair of arithmetic types the common type is the one prescribed by C17 6.3.1.8 on LP64, it is independent of operand order, and it can represent every value of both operands unless the standard says it converts.", "quantifier": "all pairs of arithmetic types, all bit-field widths, all operand values", "why_tests_cant": "value preservation quantifies over all operand values", "anchors": ["source/ast/type_conv.c: kefir_ast_type_int_promotion, kefir_ast_type_common_arithmetic", "source/ast/type.c: default_integral_type_fits, default_bitfield_promotion"]}
{"id": "C13", "title": "Compiled integer expressions compute their C value", "statement": "For every well-typed integer expression with defined behaviour (constants, variables, casts, unary and binary arithmetic, bitwise, shift, comparison, logical, conditional and comma operators), running the IR emitted for it leaves exactly one value on the stack: the C17 value in its canonical 64-bit form.", "quantifier": "every expression tree, every variable valuation with defined behaviour", "why_tests_cant": "expression trees and valuations are unbounded", "anchors": ["source/ast-translator/nodes/binary_operation.c", "source/ast-translator/nodes/unary_operation.c", "source/ast-translator/typeconv.c", "source/runtime/amd64_sysv.s"]}
{"id": "C14", "title": "Compiled integer conversions are C conversions", "statement": "Converting a value between integer types keeps it when representable, reduces it modulo 2^N for unsigned N-bit targets and to 0/1 for _Bool.", "quantifier": "every source value, every pair of integer types", "why_tests_cant": "2^64 values per pair", "anchors": ["source/ast-translator/typeconv.c: cast_to_integer, kefir_ast_translate_typeconv", "source/runtime/amd64_sysv.s: __kefirrt_extend8 ... __kefirrt_truncate1"]}
{"id": "C15", "title": "Logical operators short-circuit", "statement": "The second operand of && and || is evaluated at run time if and only if the first does not already decide the result, and the result is 0 or 1.", "quantifier": "every pair of operand expressions, every state", "why_tests_cant": "operands are arbitrary code with side effects", "anchors": ["source/ast-translator/nodes/binary_operation.c: translate_logical_and, translate_logical_or"]}
{"id": "C16", "title": "Floating-point truth values", "statement": "A floating-point operand of !, &&, || is false exactly when it compares equal to zero, and conversion of a floating value to _Bool gives 0 exactly for zeros.", "quantifier": "every floating-point bit pattern", "why_tests_cant": "2^64 bit patterns", "anchors": ["source/ast-translator/nodes/binary_operation.c: truncate_value", "source/ast-translator/nodes/unary_operation.c: translate_logical_not_inversion", "source/ast-translator/typeconv.c: cast_to_integer"]}
{"id": "C17", "title": "Constant expressions agree with run-time evaluation", "statement": "When an integer constant expression is evaluated at compile time its value equals the value the same expression has at run time.", "quantifier": "every integer constant expression with defined behaviour", "why_tests_cant": "unbounded expression trees and values", "anchors": ["source/ast/constant_expression/binary_operation.c", "source/ast/constant_expression/unary_operation.c", "source/ast/constant_expression/cast_operator.c"]}
{"id": "C18", "title": "Constant evaluation never faults", "statement": "Evaluating a constant expression either yields a value or reports an error; it never performs an undefined host operation such as division by zero.", "quantifier": "every constant expression", "why_tests_cant": "unbounded operand values", "anchors": ["source/ast/constant_expression/binary_operation.c: kefir_ast_evaluate_binary_operation_node"]}
{"id": "C19", "title": "Bit-field read after write", "statement": "Storing v into a bit-field and reading it back yields v reduced to the field's width (sign- or zero-extended by its type), and no bit outside the field changes.", "quantifier": "every offset, width, stored value and surrounding memory content", "why_tests_cant": "all combinations of widths, offsets, 64-bit contents and values", "anchors": ["source/ast-translator/value.c: load_bitfield, store_bitfield", "source/runtime/amd64_sysv.s: __kefirrt_extract_unsigned_bits, __kefirrt_extract_signed_bits, __kefirrt_insert_bits"]}
{"id": "C20", "title": "Bit-fields of a structure do not overlap", "statement": "The bit ranges allotted to the bit-fields of a structure are pairwise disjoint, in declaration order, have the declared widths and no field straddles a storage unit of its declared type.", "quantifier": "every sequence of bit-field declarations and resets", "why_tests_cant": "unbounded member sequences", "anchors": ["source/codegen/amd64/system-v/bitfields.c: amd64_sysv_bitfield_next, amd64_sysv_bitfield_next_colocated"]}
{"id": "C21", "title": "Structure layout is sound", "statement": "Members of a structure occupy pairwise disjoint byte ranges in declaration order inside the structure, every non-bit-field member offset is a multiple of its alignment, the structure's alignment is the maximum member alignment and its size is a multiple of it; union members all start at offset 0 and fit; array elements tile the array.", "quantifier": "every IR type tree", "why_tests_cant": "types nest without bound", "anchors": ["source/codegen/amd64/system-v/abi/data_layout.c: calculate_layout"]}
{"id": "C22", "title": "System V parameter locations never collide", "statement": "Parameters passed in registers get distinct registers within the 6 integer / 8 SSE registers, parameters passed on the stack get disjoint, suitably aligned stack ranges, and every parameter gets exactly one location.", "quantifier": "every parameter list", "why_tests_cant": "unbounded parameter lists", "anchors": ["source/codegen/amd64/system-v/abi/registers.c: kefir_amd64_sysv_parameter_allocate"]}
{"id": "C23", "title": "System V eightbyte classification agrees with the memory layout", "statement": "Each scalar inside an aggregate passed in registers is assigned to the eightbyte (and offset in it) where the memory layout puts it, and the eightbyte's class is the ABI merge of the classes of the scalars it contains.", "quantifier": "every aggregate of at most 64 bytes", "why_tests_cant": "types nest without bound", "anchors": ["source/codegen/amd64/system-v/abi/qwords.c: kefir_amd64_sysv_abi_qwords_next", "source/codegen/amd64/system-v/abi/registers.c: assign_nested_scalar, assign_nested_struct, aggregate_postmerger"]}
{"id": "C24", "title": "Doubly linked list behaves as a sequence", "statement": "Insert-after, pop, move-all, at, length and head/tail traversal on a list are the corresponding operations on a finite sequence, forwards and backwards traversals are mirror images, and the cached length, head and tail are always right.", "quantifier": "every history of list operations", "why_tests_cant": "histories are unbounded and pointers alias", "anchors": ["source/core/list.c"]}
{"id": "C25", "title": "Block tree is sparse memory", "statement": "Reading a position through a block tree gives the value last stored there, the initial filling if only its block exists, and not-found otherwise; skipping an iterator to a position stops at the first block ending beyond it.", "quantifier": "every history of accesses, every block size", "why_tests_cant": "unbounded histories and indices", "anchors": ["source/core/block_tree.c: kefir_block_tree_get"]}
{"id": "C26", "title": "Tree traversal is breadth-first and complete", "statement": "Iterating a tree visits every node of the tree exactly once, level by level and left to right inside a level, and then reports the end of the iteration.", "quantifier": "every tree", "why_tests_cant": "trees are unbounded", "anchors": ["source/core/tree.c"]}
{"id": "C27", "title": "String buffers hold exactly the encoded characters", "statement": "Appending characters to a string buffer of a given mode stores exactly the encodings of those characters in order, terminated by a zero, regardless of reallocations; conversion between modes preserves the characters.", "quantifier": "every sequence of appends", "why_tests_cant": "growth thresholds and sequences are unbounded", "anchors": ["source/core/string_buffer.c"]}
{"id": "C28", "title": "Symbol interning is canonical", "statement": "Interning two strings yields the same pointer if and only if the strings are equal, and an interned pointer always reads back as the string interned.", "quantifier": "every history of insertions, including hash collisions", "why_tests_cant": "hash collisions and histories are unbounded", "anchors": ["source/core/symbol_table.c: kefir_symbol_table_insert", "source/core/hashtree.c"]}
{"id": "C29", "title": "JSON output is well formed", "statement": "Whatever sequence of printing calls succeeds, the text written is valid JSON and its strings decode back to the strings passed in.", "quantifier": "every sequence of calls, every string content", "why_tests_cant": "strings and nesting are unbounded", "anchors": ["source/util/json.c"]}
{"id": "C30", "title": "Inner declarations shadow outer ones and scopes are restored", "statement": "Looking up an identifier finds the declaration in the innermost enclosing scope that declares it; after leaving a scope every lookup gives what it gave before entering it.", "quantifier": "every history of push, pop and declarations", "why_tests_cant": "unbounded histories", "anchors": ["source/ast/scope.c", "source/core/tree.c"]}
{"id": "C31", "title": "Macro definitions behave as a finite map through define/undef", "statement": "After any sequence of #define and #undef, a name is a macro exactly when its last directive was a #define, with that definition.", "quantifier": "every history of define/undef, every macro-scope nesting", "why_tests_cant": "unbounded histories", "anchors": ["source/preprocessor/user_macro.c", "source/preprocessor/macro_scope.c"]}
{"id": "C32", "title": "Conditional groups select at most one branch", "statement": "For every correctly nested #if/#elif/#else/#endif structure, the text of exactly the first group whose condition holds (or the #else group) is processed; skipped groups contribute nothing, whatever directives they contain.", "quantifier": "every nesting of conditional groups", "why_tests_cant": "nesting is unbounded", "anchors": ["source/preprocessor/preprocessor.c", "source/preprocessor/directives.c"]}
{"id": "C33", "title": "Macro expansion terminates and does not re-expand a macro inside itself", "statement": "Expanding any token sequence under any set of macro definitions terminates, and a macro name arising from its own expansion is left alone.", "quantifier": "every set of (mutually recursive) macro definitions, every token sequence", "why_tests_cant": "recursive definitions are unbounded", "anchors": ["source/preprocessor/substitutions.c", "source/preprocessor/token_sequence.c"]}
{"id": "C34", "title": "Expressions and initializers are parsed by the C17 grammar", "statement": "For every token sequence, parsing an expression, assignment expression, constant expression or initializer terminates, succeeds exactly on the sequences of the implemented dialect of the C17 grammar (A.2.1, 6.7.9), consumes what the grammar derives, and yields the one tree the grammar assigns: precedence, associativity, postfix chains, casts and compound literals, generic selections, designators.", "quantifier": "every token sequence, every set of type names", "why_tests_cant": "unbounded token sequences", "anchors": ["source/parser/rules/*_expression.c", "source/parser/rules/initializer.c", "source/parser/rules/initializer_list.c", "source/parser/rules/designator.c", "source/parser/builder.c", "source/parser/parser.c"]}
{"id": "C35", "title": "Type compatibility is reflexive and symmetric, and composite types are compatible with both", "statement": "Type compatibility is reflexive and symmetric; the composite of two compatible types is compatible with each of them.", "quantifier": "all types", "why_tests_cant": "types nest without bound", "anchors": ["source/ast/type/*.c"]}
{"id": "C36", "title": "Statements are compiled faithfully", "statement": "Running the code emitted for a function body (expression statements, declarations with initializers, if, while, do, for, switch, case, default, labels, goto, break, continue, return) has the effects on memory that the C abstract machine prescribes, returns the value it prescribes, converted to the type of the function, goes on forever exactly when the body does, and leaves the operand stack balanced.", "quantifier": "every statement tree, every initial memory and stack", "why_tests_cant": "unbounded programs and executions", "anchors": ["source/ast-translator/nodes/*_statement.c", "source/ast-translator/flow_control.c", "source/ast-translator/jump.c", "source/ast-translator/declaration_translator.c", "source/ast/analyzer/nodes/*_statement.c", "source/ast/flow_control.c", "source/ast/local_context.c: kefir_ast_local_context_define_label, kefir_ast_local_context_reference_label"]}
{"id": "C37", "title": "IR stack discipline", "statement": "Code emitted for an expression never reads or changes stack slots below the ones it pushed, and leaves exactly its result above them.", "quantifier": "every expression, every initial stack", "why_tests_cant": "unbounded expressions and stacks", "anchors": ["source/ast-translator/nodes/*.c", "source/runtime/amd64_sysv.s"]}
{"id": "C38", "title": "Lexing terminates and consumes the whole input", "statement": "Repeatedly taking tokens from any source text reaches the end sentinel or an error in finitely many steps, and every step before that consumes at least one character.", "quantifier": "every source text", "why_tests_cant": "unbounded texts", "anchors": ["source/lexer/lexer.c: kefir_lexer_next"]}
{"id": "C39", "title": "Assignments and increments update exactly the designated object", "statement": "Compiled assignment, compound assignment and ++/-- store the C value converted to the object's type into the object's bytes, change no other byte, and leave the prescribed result value.", "quantifier": "every integer object type, value, address and memory content", "why_tests_cant": "unbounded memory contents and values", "anchors": ["source/ast-translator/nodes/assignment_operator.c", "source/ast-translator/nodes/unary_operation.c: translate_preincdec, translate_postincdec", "source/ast-translator/value.c"]}
{"id": "C40", "title": "Static data images contain exactly the initialised values", "statement": "The bytes emitted for a static object are the little-endian encodings of its initialised members at their layout offsets and zero elsewhere, and their number is the object's size.", "quantifier": "every IR type and data map", "why_tests_cant": "types nest without bound", "anchors": ["source/codegen/amd64/system-v/abi/static_data.c"]}
{"id": "C41", "title": "Every stored entry is released exactly once", "statement": "Over the life of a hash tree every inserted key/value pair is handed to the removal callback exactly once: by its deletion, or by the final cleaning.", "quantifier": "every history of insertions and deletions", "why_tests_cant": "ownership depends on the whole history and tree shape", "anchors": ["source/core/hashtree.c: kefir_hashtree_delete, kefir_hashtree_clean, node_free"]}
{"id": "C42", "title": "Allocation failure during insertion is reported", "statement": "When memory is exhausted an insertion into a hash tree reports failure and leaves the tree unchanged; it never reports success without storing the pair.", "quantifier": "every tree, every key, every allocation outcome", "why_tests_cant": "tests rarely inject allocation failures, and it must hold in every tree shape", "anchors": ["source/core/hashtree.c: kefir_hashtree_insert, node_insert"]}
{"id": "C43", "title": "Lists leak nothing and hold no freed entries", "statement": "After any history of valid list calls the entries still allocated are exactly those reachable through some list.", "quantifier": "every history of list calls on any number of lists", "why_tests_cant": "depends on the whole history; leaks are invisible to functional tests", "anchors": ["source/core/list.c"]}
{"id": "C44", "title": "Freeing a tree releases every node exactly once", "statement": "Freeing a tree hands the value of each of its nodes to the removal callback exactly once.", "quantifier": "every tree", "why_tests_cant": "trees are unbounded", "anchors": ["source/core/tree.c: kefir_tree_free"]}
{"id": "C45", "title": "Vectors are bounded sequences", "statement": "Appending, copying, extending and reallocating a vector keeps the elements already there, adds the new ones at the end, and reports an error instead of exceeding the capacity; indexing gives the element or NULL.", "quantifier": "every vector reachable through the API, every element", "why_tests_cant": "states and capacities are unbounded", "anchors": ["source/core/vector.c"]}
{"id": "C46", "title": "Linked stacks are last-in first-out", "statement": "Push, pop and peek on a linked stack behave as a stack; popping an empty stack gives NULL.", "quantifier": "every history of calls", "why_tests_cant": "histories are unbounded", "anchors": ["source/core/linked_stack.c"]}
{"id": "C47", "title": "The analyzer gives expressions their C types", "statement": "Every sizeof-free expression that satisfies C17's constraints is accepted and given its C17 type (long and long long, which share a representation, being identified).", "quantifier": "every expression", "why_tests_cant": "expressions nest without bound and mix all types", "anchors": ["source/ast/analyzer/nodes/*.c", "source/ast/type_conv.c"]}
{"id": "C48", "title": "Integer operators on integer variables, constants and casts compute their C value", "statement": "For expressions built from integer constants, integer variables, integer casts, unary and binary operators, comparisons, logical operators and comma, whenever C defines the value, the emitted IR leaves exactly that value, and memory is unchanged or changed as C says.", "quantifier": "every such expression, memory, stack and surrounding code", "why_tests_cant": "unbounded expressions over 64-bit values", "anchors": ["source/ast-translator/nodes/{unary,binary}_operation.c", "source/ast-translator/typeconv.c", "source/runtime/amd64_sysv.s"]}
{"id": "C49", "title": "Short-circuit evaluation on integer, pointer and long double operands", "statement": "For integer, pointer and long double first operands, the code of the second operand of && and || is entered exactly when the first operand does not decide the result, and the result is 0 or 1 accordingly.", "quantifier": "every pair of operands, memory and stack", "why_tests_cant": "unbounded operand expressions", "anchors": ["source/ast-translator/nodes/binary_operation.c: translate_logical_and, translate_logical_or"]}
{"id": "C50", "title": "Stack discipline outside long double conditionals", "statement": "For every accepted expression in which no conditional operator has a long double condition or exactly one long double branch, the emitted code leaves the stack below untouched and exactly its result on top, or faults inside its own code, whatever the stack holds.", "quantifier": "every such expression, memory, stack and surrounding code", "why_tests_cant": "unbounded expressions and stacks", "anchors": ["source/ast-translator/nodes/*.c", "source/runtime/amd64_sysv.s"]}
{"id": "C51", "title": "Identifiers are read to their end and keywords are recognised", "statement": "An identifier of up to 255 characters (letters, digits, underscores) is read up to the first character that cannot continue it; the token is a keyword exactly if the spelling is that of a keyword and otherwise an identifier with that spelling.", "quantifier": "every identifier and everything that can follow it", "why_tests_cant": "identifiers are unbounded; keywords share prefixes with identifiers", "anchors": ["source/lexer/tokens/identifier.c: kefir_lexer_match_identifier_or_keyword", "source/lexer/tokens/keyword.c: kefir_lexer_get_keyword"]}
{"id": "C52", "title": "A token's location is that of its first character", "statement": "The line and column recorded in a token are those of the first character of the token in the physical source, after the whitespace and comments before it.", "quantifier": "every source text and every token in it", "why_tests_cant": "line splices, comments and newlines combine freely before a token", "anchors": ["source/lexer/lexer.c: kefir_lexer_next", "source/lexer/source_cursor.c: kefir_lexer_source_cursor_next"]}
{"id": "C53", "title": "A type reported as naturally aligned contains no misaligned scalar", "statement": "If the layout of a type is flagged as naturally aligned (the condition under which aggregates may be passed in registers), every scalar inside it other than bit-fields lies at a multiple of its natural alignment.", "quantifier": "every type, nested to any depth, with any requested alignments", "why_tests_cant": "requested alignments at different nesting levels combine freely", "anchors": ["source/codegen/amd64/system-v/abi/data_layout.c: update_compound_type_layout", "source/codegen/amd64/system-v/abi/registers.c: kefir_amd64_sysv_parameter_classify"]}
{"id": "C54", "title": "A bit-field of width zero ends the storage unit", "statement": "The bit-field declared after an unnamed bit-field of width 0 starts at a storage unit boundary of the type the latter is declared with, so that it shares no unit with the bit-fields before.", "quantifier": "every structure declaration", "why_tests_cant": "unbounded member sequences", "anchors": ["source/ast-translator/type_translate.c: translate_bitfield", "source/codegen/amd64/system-v/bitfields.c: amd64_sysv_bitfield_reset"]}
{"id": "C55", "title": "Initialisers of bit-fields change only their own bits", "statement": "Initialising a bit-field of a static object stores the low-order bits of the value into the bits of the field and changes no other bit-field, in whatever order the fields are initialised.", "quantifier": "every set of bit-fields of a run, every value, every order of initialisers", "why_tests_cant": "values, widths and orders combine without bound", "anchors": ["source/ir/data.c: kefir_ir_data_set_bitfield"]}
{"id": "C56", "title": "Objects with initial values are put into loaded sections", "statement": "Every static object is emitted exactly once, into .data or .tdata if one of its parts has an initial value and into .bss or .tbss otherwise; in particular what is put into .bss and .tbss consists of zero bytes.", "quantifier": "every set of objects, every type and data map", "why_tests_cant": "types nest without bound; initialisers can be anywhere in large arrays", "anchors": ["source/ir/data.c: kefir_ir_data_finalize", "source/codegen/amd64/amd64-sysv.c: cg_translate_data"]}
{"id": "C57", "title": "Macro replacement yields what the C standard prescribes", "statement": "Running the macro replacement on a token sequence yields the sequence obtained by replacing macro invocations as C17 6.10.3 prescribes: arguments fully expanded, parameters replaced, the result rescanned with the following tokens, names being replaced left alone, # and ## applied to unexpanded arguments.", "quantifier": "every set of macro definitions, every token sequence", "why_tests_cant": "unbounded token sequences and nesting of invocations", "anchors": ["source/preprocessor/substitutions.c", "source/preprocessor/user_macro.c"]}
{"id": "C58", "title": "A token sequence behaves as a list with push to the front", "statement": "Pushing token buffers in front of a sequence and taking, inspecting and skipping its tokens gives the tokens in the order of the concatenation of what was pushed, most recently pushed first, and reports the end exactly when all of it is consumed.", "quantifier": "every history of operations, every buffer including empty ones", "why_tests_cant": "unbounded histories", "anchors": ["source/preprocessor/token_sequence.c"]}
{"id": "C59", "title": "The # and ## operators act as the C standard prescribes", "statement": "When a macro is applied, # followed by a parameter becomes the string literal of the argument's tokens, the operands of ## become one token with the concatenated spelling (or the use is rejected), a ## with an empty operand leaves the other operand, and nothing else changes.", "quantifier": "every replacement list, every argument list", "why_tests_cant": "unbounded replacement lists and arguments; every pair of tokens", "anchors": ["source/preprocessor/user_macro.c", "source/preprocessor/util.c: kefir_preprocessor_concat_tokens"]}
{"id": "C60", "title": "Unbalanced conditionals are rejected", "statement": "A file is accepted only if its #if, #ifdef and #ifndef directives are each closed by one #endif, every #elif, #else and #endif belongs to an open section, and nothing but #endif follows #else.", "quantifier": "every sequence of lines", "why_tests_cant": "unbounded sequences and nesting", "anchors": ["source/preprocessor/preprocessor.c: run_directive, kefir_preprocessor_skip_group, kefir_preprocessor_run"]}
{"id": "C61", "title": "Types are compatible exactly when C says so", "statement": "The compiler treats two types as compatible if and only if C17 6.2.7 and the rules for each type former (6.7.2.2, 6.7.3, 6.7.6) make them compatible.", "quantifier": "all pairs of types, of any nesting", "why_tests_cant": "types nest without bound", "anchors": ["source/ast/type/basic.c", "source/ast/type/enum.c", "source/ast/type/pointer.c", "source/ast/type/qualified.c", "source/ast/type/array.c", "source/ast/type/struct.c", "source/ast/type/function.c"]}
{"id": "C62", "title": "Comparing types never has undefined behaviour", "statement": "For every two types a program can declare, testing them for compatibility returns an answer; it reads no null pointer.", "quantifier": "all pairs of types, of any nesting", "why_tests_cant": "types nest without bound", "anchors": ["source/ast/type/enum.c: same_enumeration_type, compatible_enumeration_types", "source/ast/type/struct.c: same_structure_type, compatible_structure_types, compatible_union_types"]}
{"id": "C63", "title": "Constraints on labels and jumps are enforced", "statement": "A function body is accepted exactly when it meets the constraints of C17 6.8 on labels and jumps: break and continue inside a loop or switch, case and default inside a switch, no two equal case constants after conversion, at most one default, labels unique in the function, and every goto naming one of them.", "quantifier": "every function body", "why_tests_cant": "statements nest without bound, labels may be used before they are defined", "anchors": ["source/ast/analyzer/nodes/*_statement.c", "source/ast/flow_control.c", "source/ast/local_context.c: kefir_ast_local_context_define_label", "source/ast-translator/jump.c"]}
{"id": "C64", "title": "An identifier is a typedef name exactly where a typedef declaration is in scope", "statement": "While parsing, an identifier is classified as a typedef name if and only if the innermost scope that declares it declares it as a typedef name; a declaration that contradicts an earlier one in the same scope is refused.", "quantifier": "every history of opening and closing scopes, declarations and queries", "why_tests_cant": "unbounded histories", "anchors": ["source/parser/scope.c"]}
{"id": "C66", "title": "Every declaration is released exactly once", "statement": "Freeing a block scope after any history releases every identifier declared in it, including those of scopes closed before, exactly once.", "quantifier": "every history of opening and closing scopes and declarations", "why_tests_cant": "unbounded histories and trees of scopes", "anchors": ["source/ast/scope.c: kefir_ast_identifier_block_scope_free", "source/core/tree.c: kefir_tree_free"]}
{"id": "C65", "title": "Declarations mean what C17 says", "statement": "For every sequence of declarations, enumeration constants, function definitions, blocks and uses of names, the compiler accepts and rejects what C17 6.2.2, 6.7 and 6.9 accept and reject, and every declared or used name refers to the entity, with the linkage, storage duration and type, that C17 prescribes.", "quantifier": "every sequence of items, names and types, every nesting of blocks", "why_tests_cant": "the meaning of a declaration depends on all earlier ones and on every enclosing scope", "anchors": ["source/ast/global_context.c", "source/ast/local_context.c", "source/ast/function_declaration_context.c", "source/ast/context_impl.c", "source/ast/analyzer/nodes/init_declarator.c", "source/ast/analyzer/nodes/function_definition.c"]}
{"id": "C67", "title": "A translation unit exports its external definitions and imports what it declares", "statement": "The assembler symbols made global are exactly the names with an external definition (tentative definitions included), the symbols made external are exactly the names declared with external linkage and not defined, and no symbol is listed twice.", "quantifier": "every translation unit", "why_tests_cant": "linkage and definedness are determined by all declarations of a name together", "anchors": ["source/ast-translator/scope/global_scope_layout.c", "source/ast-translator/scope/translator.c", "source/ast/global_context.c", "source/ast/local_context.c"]}
{"id": "C68", "title": "Every initialiser stores to the subobjects that C17 prescribes", "statement": "For every object type, every initialiser that C17 6.7.9 accepts and every storage duration, the compiler accepts the initialiser, and every expression and string literal in it is stored to the subobject that C17 prescribes (brace elision, designators, continuation after a designator, unions, unnamed bit-fields), in the order of the list, with everything else zero.", "quantifier": "all types of any nesting, all initialisers of any length and nesting", "why_tests_cant": "types, lists and designators nest without bound, and where a value goes depends on all items before it", "anchors": ["source/ast/analyzer/type_traversal.c", "source/ast/analyzer/initializer.c", "source/ast/initializer_traversal.c", "source/ast-translator/initializer.c", "source/ast-translator/scope/data_initializer.c", "source/ast/type_layout.c: kefir_ast_type_layout_resolve"]}
{"id": "C69", "title": "An array of unknown size gets its length from the initialiser", "statement": "An array declared without a size has, after its initialiser, one element more than the largest subscript with an initialiser (the length of the string literal, if it is initialised by one), and is initialised like an array declared with this size.", "quantifier": "all element types, all initialisers", "why_tests_cant": "unbounded lists, designators go back and forth", "anchors": ["source/ast/analyzer/initializer.c: analyze_array, array_layer_next, array_layer_end", "source/ast/analyzer/type_traversal.c"]}
{"id": "C70", "title": "Declaration specifiers mean what C17 says, in any order", "statement": "Every list of declaration specifiers that C17 6.7 to 6.7.5 allows is accepted, and has the type, the storage class, the function specifiers and the alignment that the standard prescribes, whatever the order of the specifiers; accepted lists never get a type that no similar row of the table of 6.7.2p2 has.", "quantifier": "all lists of specifiers of any length and order, all scopes", "why_tests_cant": "specifiers may be permuted, repeated and interleaved without bound", "anchors": ["source/ast/analyzer/declarator.c: resolve_type, apply_type_signedness, resolve_qualification, resolve_storage_class, analyze_declaration_specifiers_impl"]}
{"id": "C71", "title": "A declarator gives its identifier the type that C17 prescribes", "statement": "For every valid declaration or type name, of any nesting of pointers, arrays, functions and parameter lists, the declaration is accepted and the identifier has the type that 6.7.6 prescribes: derivation from the inside out, adjusted parameter types, prototypes, array lengths.", "quantifier": "all specifiers and all declarators of any nesting", "why_tests_cant": "declarators and parameter lists nest without bound", "anchors": ["source/ast/analyzer/declarator.c: resolve_pointer_declarator, resolve_array_declarator, resolve_function_declarator, analyze_declaration_declarator_impl", "source/ast/type_conv.c: kefir_ast_type_conv_adjust_function_parameter", "source/ast/function_declaration_context.c", "source/ast/analyzer/nodes/type_name.c"]}
{"id": "C72", "title": "No declaration derives a type that C17 forbids", "statement": "An accepted declaration never has a type in which an array has functions or incomplete objects as elements, a function returns a function or an array, a prototype has a parameter of incomplete type, or an array other than the outermost one of a parameter has static or qualifiers between its brackets.", "quantifier": "all specifiers and declarators, all typedef names in scope", "why_tests_cant": "types nest without bound and come from typedef names too", "anchors": ["source/ast/analyzer/type.c", "source/ast/analyzer/nodes/init_declarator.c"]}
{"id": "C73", "title": "Declarations and type names are parsed as the C17 grammar says", "statement": "For every set of visible typedef names and every sequence of tokens that the C17 grammar derives as declaration specifiers, a declarator, a parameter, a member declaration or a type name, with expressions and type names nested in each other to any depth, the parser accepts it with the tree that the grammar gives it; what it accepts, the grammar derives; it always terminates.", "quantifier": "all token sequences, all sets of typedef names", "why_tests_cant": "specifiers, declarators, type names and expressions are mutually recursive without bound; which rule applies depends on the typedef names", "anchors": ["source/parser/rules/declaration_specifier.c", "source/parser/rules/declarator.c", "source/parser/rules/type_name.c", "source/parser/rules/static_assertion.c"]}
{"id": "C74", "title": "A translation unit is parsed as the C17 grammar says", "statement": "Every sequence of tokens that the C17 grammar derives as a translation unit, with the typedef names that are in scope at each place according to 6.2.1, is accepted with the tree that the grammar gives it: declarations and expressions are told apart by the typedef names in scope, and an else belongs to the nearest if. What is accepted, the grammar derives; parsing always terminates.", "quantifier": "all token sequences", "why_tests_cant": "statements, declarations and scopes nest without bound; how a statement is parsed depends on every declaration before it", "anchors": ["source/parser/rules/declaration.c", "source/parser/rules/statement.c", "source/parser/rules/labeled_statement.c", "source/parser/rules/compound_statement.c", "source/parser/rules/expression_statement.c", "source/parser/rules/selection_statement.c", "source/parser/rules/iteration_statement.c", "source/parser/rules/jump_statement.c", "source/parser/rules/function_definition.c", "source/parser/rules/external_declaration.c", "source/parser/rules/translation_unit.c", "source/parser/scope.c"]}
{"id": "C75", "title": "Every well-typed expression is accepted and has the type that C17 gives it", "statement": "For every set of declarations and every expression that obeys the constraints of C17 6.5, of any nesting, the compiler accepts it, gives it the type that C17 prescribes, and lets it be used where C17 says: as an lvalue, as the operand of &, as a constant.", "quantifier": "all expressions, all sets of declarations in scope", "why_tests_cant": "expressions nest without bound and the types of operands come from any declaration", "anchors": ["source/ast/analyzer/analyzer.c: kefir_ast_analyze_node", "source/ast/analyzer/nodes/*.c: the nodes of expressions", "source/ast/type_conv.c", "source/ast/analyzer/assignable.c", "source/ast/analyzer/lvalue_constant_reference.c", "source/ast/type/struct.c: kefir_ast_struct_type_resolve_field"]}
{"id": "C76", "title": "No expression that violates a constraint is accepted", "statement": "An expression that the compiler accepts obeys the constraints of C17 6.5 and has the type that C17 prescribes: operands of the right kinds, modifiable lvalues on the left of assignments, compatible pointers, arguments that can be assigned to the parameters, members that exist, one association that matches.", "quantifier": "all expressions, all sets of declarations in scope", "why_tests_cant": "absence of a wrong acceptance is a claim about all expressions", "anchors": ["source/ast/analyzer/nodes/*.c: the nodes of expressions", "source/ast/analyzer/assignable.c", "source/ast/type_conv.c"]}
{"id": "C77", "title": "Return statements obey 6.8.6.4", "statement": "A return statement is accepted exactly if it has an expression in a function that returns a value and the expression can be assigned to an object of that type, or has none in a function that returns void.", "quantifier": "all expressions, declarations and return types", "why_tests_cant": "the expression and the type of the function are arbitrary", "anchors": ["source/ast/analyzer/nodes/return_statement.c: kefir_ast_analyze_return_statement_node"]}
{"id": "C78", "title": "The preprocessor reads the longest preprocessing token", "statement": "Where the source text begins with preprocessing tokens of C17 6.4 (identifiers and pp-numbers with universal character names, character constants, string literals of every prefix with their escape sequences, punctuators), the tokenizer of the preprocessor returns the longest of them, with its value and the position of its first character, and continues right behind it; whitespace and comments give whitespace tokens that tell whether a newline is among them; where no token begins an error is reported.", "quantifier": "every source text and position", "why_tests_cant": "unbounded texts: every literal body, every escape sequence, every place where a longer token could have matched", "anchors": ["source/preprocessor/tokenizer.c: kefir_preprocessor_tokenize_next", "source/lexer/tokens/character_constant.c", "source/lexer/tokens/string_literal", "source/lexer/tokens/pp_number.c", "source/lexer/tokens/identifier.c", "source/lexer/tokens/whitespace.c"]}
{"id": "C79", "title": "Preprocessed output can be read back", "statement": "The text that the preprocessor prints (-E) for a sequence of preprocessing tokens is read by its tokenizer as the same sequence of tokens, with the same values.", "quantifier": "every sequence of tokens, of any length and with any values", "why_tests_cant": "unbounded sequences; the text of every token depends on all its characters, and where it ends on the token behind it", "anchors": ["source/preprocessor/format.c: kefir_preprocessor_format", "source/preprocessor/tokenizer.c: kefir_preprocessor_tokenize_next"]}
{"id": "C80", "title": "The # operator retains the spelling of its argument", "statement": "The string literal that # makes of a macro argument contains the spelling of its tokens in the source text, with a single space for every occurrence of white space between them.", "quantifier": "every argument, of any length", "why_tests_cant": "unbounded arguments with arbitrary literals", "anchors": ["source/preprocessor/user_macro.c: fn_macro_parameter_stringification", "source/preprocessor/format.c: kefir_preprocessor_format_string", "source/lexer/tokens/whitespace.c"]}
{"id": "C81", "title": "Preprocessing numbers and identifiers become the tokens they spell", "statement": "When preprocessing tokens are converted to tokens, a preprocessing number that has the form of an integer or floating constant becomes this constant, with its value and type; an identifier becomes the keyword it is spelled like, if there is one; character constants, string literals and punctuators are passed on; every other preprocessing token is an error.", "quantifier": "every preprocessing token, of any length", "why_tests_cant": "a preprocessing number is an unbounded string; whether all of it is one constant depends on every character", "anchors": ["source/preprocessor/convert.c: kefir_preprocessor_token_convert", "source/lexer/tokens/constant.c", "source/lexer/tokens/floating_constant.c", "source/lexer/tokens/integer_constant.c", "source/lexer/tokens/identifier.c"]}
{"id": "C82", "title": "Adjacent string literals become one", "statement": "When preprocessing tokens are converted to tokens, white space is dropped and adjacent string literals become one literal with the characters of all of them, whose prefix is that of the literals that have one.", "quantifier": "every sequence of tokens, any number of adjacent literals of any length", "why_tests_cant": "unbounded runs of literals, each re-encoded for the prefix of the whole run", "anchors": ["source/preprocessor/convert.c: kefir_preprocessor_token_convert_buffer, append_string_literal, join_string_literals_impl", "source/core/string_buffer.c: kefir_string_buffer_merge"]}
{"id": "C83", "title": "Automatic objects that are alive at the same time do not share storage", "statement": "Every object of automatic storage duration that a function declares, in any of its nested blocks, gets storage in the frame that is as large as its type requires, inside the area of the locals, aligned relative to its start, and disjoint from the storage of every other object declared in the same block, an enclosing block or a nested block.", "quantifier": "every nesting of scopes, with any number of objects of any types", "why_tests_cant": "blocks nest without bound, and where an object goes depends on the sizes and alignments of all objects around and before it; overlap corrupts data only in particular executions", "anchors": ["source/ast-translator/scope/local_scope_layout.c: traverse_local_scope, kefir_ast_translator_build_local_scope_layout", "source/ast-translator/layout.c: kefir_ast_translator_evaluate_type_layout", "source/ast-translator/misc.c: kefir_ast_translator_resolve_type_layout", "source/ast-translator/lvalue.c: kefir_ast_translator_object_lvalue"]}
{"id": "C84", "title": "The pieces of storage in a stack frame do not overlap", "statement": "The frame that is reserved for a function has room for its internal words, the results of calls that return aggregates, the parameters that are passed in registers, the register save area of functions with variable arguments and the local objects; no two of these have a byte in common, all lie in the frame, storing the parameters at the start of the function changes none of the others, and objects are aligned.", "quantifier": "every function: any parameter types, calls, variable arguments and local objects; every content of registers and memory", "why_tests_cant": "the room is computed by one function from offsets in the frame, the places by others; they agree or not depending on all sizes and alignments before, and an overlap corrupts data only in particular executions", "anchors": ["source/codegen/amd64/system-v/abi/function.c: calculate_frame, calculate_frame_temporaries", "source/codegen/amd64/system-v/abi/prologue.c: load_arguments, load_reg_aggregate", "source/runtime/amd64_sysv.s: __kefirrt_preserve_state"]}
{"id": "C85", "title": "A function receives the values it has been called with", "statement": "When a function is called, each of its parameters has the value of the argument: scalars all bytes of their type, long doubles both words, structures, unions and arrays all bytes of the object, in registers or on the stack, with or without an implicit parameter for the result and with any variable arguments after them.", "quantifier": "every list of parameter and argument types, all values, all prior contents of registers, stack and frame", "why_tests_cant": "calling and called function are compiled separately and compute the places independently; unbounded parameter lists mix register and stack arguments", "anchors": ["source/codegen/amd64/system-v/abi/invoke.c: invoke_prologue, scalar_argument, long_double_argument, aggregate_argument", "source/codegen/amd64/system-v/abi/prologue.c: load_arguments, load_integer_argument, load_sse_argument, load_aggregate_argument"]}
{"id": "C86", "title": "Variable arguments are fetched with the values they were passed with", "statement": "When a function with variable arguments is called and fetches, after va_start, arguments of the types that were passed, one va_arg after the other, each va_arg gives the value of the next argument: scalars all bytes of their type, aggregates all bytes of the object, whether they were passed in registers or on the stack, after any named parameters, and whatever else the function does between the fetches.", "quantifier": "every list of types of named parameters and variable arguments, all values, all prior contents of registers, stack and frame, all addresses of the frame, everything the function does in between", "why_tests_cant": "the calling function places all arguments together, the called function finds each of them from counters only; the number of arguments is unbounded and the combinations of used up registers, alignment and padding cannot be enumerated", "anchors": ["source/codegen/amd64/system-v/abi/vararg.c", "source/codegen/amd64/system-v/abi/prologue.c save_registers", "source/codegen/amd64/system-v/abi/builtins/vararg.c", "source/runtime/amd64_sysv.s __kefirrt_save_registers", "source/codegen/amd64/system-v/abi/function.c"]}
{"id": "C87", "title": "A call yields the value that the function returns", "statement": "When a function returns a value, the function that has called it finds this value: scalars the whole word, long doubles all ten bytes, structures, unions and arrays in them all bytes of the object, whether it is returned in registers, on the floating point stack or in memory. Apart from the storage for the result no memory of the calling function changes.", "quantifier": "every type of result, every value, all prior contents of registers and memory, all addresses of the frames and the object", "why_tests_cant": "the two functions are compiled separately and assign the eightbytes of the result to registers independently; which registers are used depends on every member at any depth", "anchors": ["source/codegen/amd64/system-v/abi/epilogue.c: kefir_amd64_sysv_function_epilogue, return_values, return_register_aggregate, return_memory_aggregate", "source/codegen/amd64/system-v/abi/invoke.c: invoke_epilogue, register_aggregate_return, aggregate_return"]}
{"id": "C88", "title": "Directives are recognised and read as the standard says", "statement": "When a source file is preprocessed, the lines whose first token is # are taken for directives and no others; each directive is read with its own kind and contents: the controlling expression, the macro name, the parameters and replacement list of a macro, the header name or the tokens of an include, up to the end of its line, and the tokens of the other lines are passed on in order.", "quantifier": "every source file, any number of lines, any white space, all directives, any encoding of the source", "why_tests_cant": "the scanner reads some parts of a line character by character and others token by token; the two ways agree only if no comment, line continuation or spelling makes them see different lines, which no set of sample files shows", "anchors": ["source/preprocessor/directives.c: kefir_preprocessor_directive_scanner_match, kefir_preprocessor_directive_scanner_next, next_define, scan_define_parameters, next_define_replacement_list, next_include, next_ifdef, scan_pp_tokens, skip_whitespaces_until, kefir_preprocessor_directive_scanner_skip_line", "source/lexer/tokens/pp_header_name.c: match_header_name", "source/lexer/tokens/whitespace.c: kefir_lexer_cursor_match_whitespace"]}
{"id": "C89", "title": "Tags name the types the standard says they name", "statement": "In a translation unit every specifier with a tag denotes the structure, union or enumerated type that the scope rules for tags give it, whether it defines the type, mentions it or declares it alone; a unit that uses a tag for two kinds of types, defines a type twice, or accesses a member of a type that is not complete is refused; and every access through a pointer uses the definition that completes the type of its left side.", "quantifier": "every translation unit: any nesting of scopes and definitions, any sequence of declarations, definitions and accesses", "why_tests_cant": "incomplete types are completed by name at the place of the access, during analysis and once more during translation; whether the name then still means the same type depends on every declaration in between, in any scope", "anchors": ["source/ast/analyzer/declarator.c: resolve_struct_type, resolve_enum_type", "source/ast/context_impl.c: kefir_ast_context_update_existing_scoped_type_tag", "source/ast/type_completion.c: kefir_ast_type_completion", "source/ast/local_context.c: kefir_ast_local_context_define_tag, kefir_ast_local_context_resolve_scoped_tag_identifier", "source/ast/analyzer/nodes/struct_member.c: kefir_ast_analyze_struct_member_node", "source/ast-translator/lvalue.c: kefir_ast_translate_struct_member_lvalue"]}
{"id": "C90", "title": "Address constants have the value of the expression", "statement": "A static object that is initialised with an address constant - the address of an object of static storage duration, of a member or an element of one, of a function or a string literal, an integer cast to a pointer, possibly plus or minus an integer constant - holds before the program starts the value that the expression would have at run time, wherever the linker places objects, functions and literals; and the address constants of the standard are accepted.", "quantifier": "every expression over the operators of address constants, addition, subtraction, casts and the conditional operator, all declarations and structure layouts, all placements of objects", "why_tests_cant": "the addresses are only known after linking, so a test sees one placement and a handful of expressions; a wrong offset in a nested expression shows only in the data of that program", "anchors": ["source/ast/constant_expression/lvalue_constant_reference.c: kefir_ast_constant_expression_value_evaluate_lvalue_reference", "source/ast/constant_expression/binary_operation.c: evaluate_pointer_offset", "source/ast/constant_expression/cast_operator.c: kefir_ast_constant_expression_value_cast", "source/ast/analyzer/lvalue_constant_reference.c: kefir_ast_node_is_lvalue_reference_constant", "source/ast-translator/scope/data_initializer.c: visit_value"]}
{"id": "C91", "title": "Enumeration constants have the values of their enumerators", "statement": "An enumerator with = has the value of its constant expression, one without = the value of the previous enumerator plus one, the first one 0. The constants obey block scoping: an enumerator sees the constants declared before it, an inner declaration hides an outer one until the end of the block, and a name declared twice in a scope is refused. An identifier that is not an enumeration constant is refused in the value of an enumerator. The type of an enumeration represents all its constants, and constants that do not fit int are refused.", "quantifier": "every sequence of blocks, enumerations, object declarations and constant expressions, with any names and any nesting", "why_tests_cant": "the value of a constant depends on every enumerator and every scope before it; a wrong one only shows where a program compares it with an independent number", "anchors": ["source/ast/analyzer/declarator.c: resolve_enum_type", "source/ast/local_context.c: kefir_ast_local_context_define_constant", "source/ast/global_context.c: kefir_ast_global_context_define_constant", "source/ast/type/enum.c: kefir_ast_enumeration_type_constant", "source/ast/constant_expression/identifier.c: kefir_ast_evaluate_identifier_node"]}
{"id": "C92", "title": "An included file is processed as if it stood in place of the directive", "statement": "An #include yields the tokens of the file it names, processed with the macro definitions in force at the directive; the definitions and removals the file makes hold after it, to any depth of inclusion. The file is the first readable one among: next to the including file (for \"name\"), the directories of the options in their order, the name itself. A directive that names no readable file is refused. A file wrapped in #ifndef X is without effect where X is defined.", "quantifier": "every file and set of files with any directives, nesting of conditional sections and inclusions, every file system and every list of include directories", "why_tests_cant": "the number of files, places and nesting levels is unbounded, and what an inclusion means depends on the whole state left by the files before it", "anchors": ["source/preprocessor/preprocessor.c: process_include, kefir_preprocessor_run", "source/cli/filesystem_source.c: open_source, try_open_file, open_file", "source/cli/input.c: kefir_cli_input_open"]}
{"id": "C93", "title": "The assembly text of data defines the objects and string literals of the program", "statement": "The assembly text written for the static data of a translation unit, read by the assembler, defines exactly the objects and string literals of the program: each object in the section for its kind, at its alignment, under its name, with the bytes its initialiser says; each literal under its name with its elements. No number, address, name or character of a string is read as something else.", "quantifier": "every list of objects of every type with any values (integers, floating values, addresses with any offset, strings with any bytes), and every list of string literals of any width, length and content", "why_tests_cant": "the values, the bytes of strings, the offsets and the number and order of objects are unbounded; an escape or a format that is wrong for one byte value or one sign corrupts a program silently", "anchors": ["source/codegen/amd64/asmgen.c: amd64_label, amd64_section, amd64_instr, amd64_rawdata, amd64_zerodata, amd64_argument, amd64_string_literal", "source/codegen/amd64/system-v/abi/static_data.c: kefir_amd64_sysv_static_data, integral_static_data, word_static_data, dump_binary", "source/codegen/amd64/amd64-sysv.c: cg_translate_strings, cg_translate_data_storage, cg_translate_data"]}
{"id": "C94", "title": "A group that is not selected is skipped up to the directive that ends it, whatever it contains", "statement": "When a group of a conditional is not selected, nothing of it is looked at except the names of directives: unterminated quotes, unknown or malformed directives and any other text in it do no harm, nested conditionals are skipped as a whole, and processing goes on exactly at the #elif, #else or #endif of the same conditional, or at the end of the file.", "quantifier": "every text of a file, with any number of lines, any depth of nested conditionals and any characters", "why_tests_cant": "the text, its length and the depth of nesting are unbounded; a group that ends one directive too early or too late silently compiles other code", "anchors": ["source/preprocessor/preprocessor.c: kefir_preprocessor_skip_group", "source/preprocessor/directives.c: kefir_preprocessor_directive_scanner_match, kefir_preprocessor_directive_scanner_skip_line, kefir_preprocessor_directive_scanner_save, kefir_preprocessor_directive_scanner_restore"]}
{"id": "C95", "title": "Command-line options have the effect that is described, however they are written and in whatever order", "statement": "Every option can be written with its long name (--name, --name=value, --name value) or its letter (-abc, -avalue, -a value). A command line of such options and at most one file is accepted, and the compilation has exactly the settings it stands for: of several options for one setting the last counts, directories, files and macros are collected in order, everything else keeps its default. Anything else is refused: unknown options, missing or superfluous arguments, more than one file, a macro defined twice, the printing of preprocessed text along with skipping the preprocessor. The compiler then does what the settings say.", "quantifier": "every command line: any number of arguments, any order, any spelling, any texts as arguments", "why_tests_cant": "the number, order and spelling of arguments are unbounded; an option that writes another setting or is silently taken for another one compiles something else", "anchors": ["source/cli/options.c: kefir_cli_parse_options, parse_impl, parse_impl_internal, Options, define_hook, include_hook, include_file_hook, preprocess_hook, skip_preprocessor_hook, pp_timestamp_hook", "source/main/main.c: kefir_main, Actions, dump_action_impl, lex_file, dump_preprocessed_impl", "source/main/help.txt"]}
{"id": "C96", "title": "The assembly text of a function is the table that its instructions stand for", "statement": "If the code generator accepts a function of the intermediate representation, the assembly text of its body, read by the assembler, is a table with exactly one entry of 16 bytes for every instruction, in order: the address of the routine for the opcode and the operand the instruction asks for (constant, address, offset, size, jump target), followed by an entry that leaves the function. Jumps go to the entry of the instruction they name. Every routine that is referred to is defined, and the routines made for variable arguments fetch what the instruction asks for. Functions in which every instruction makes sense are accepted.", "quantifier": "every function of any length with any opcodes and arguments, every table of declarations, types, symbols and literals it refers to, and every list of functions of a module", "why_tests_cant": "the opcodes with their arguments, the jump targets and the combinations of instructions that share an appended routine are unbounded; one instruction with more or fewer than 16 bytes moves every jump target behind it", "anchors": ["source/codegen/amd64/system-v/instr.c: kefir_amd64_sysv_instruction", "source/codegen/amd64/opcodes.c: kefir_amd64_iropcode_handler", "source/codegen/amd64/system-v/abi/vararg.c: kefir_codegen_amd64_sysv_vararg_instruction", "source/codegen/amd64/system-v/abi/function.c: kefir_amd64_sysv_function_insert_appendix", "source/codegen/amd64/system-v/abi/module.c: kefir_codegen_amd64_sysv_module_function_decl, kefir_codegen_amd64_sysv_module_declare_tls", "source/codegen/amd64/amd64-sysv.c: cg_function_body, cg_translate_function_gates, cg_translate_tls_entries"]}
{"id": "C97", "title": "When the body of a function begins, each named parameter holds the value of its argument", "statement": "The code in front of the body of a function consumes exactly the words in which the arguments are passed, gives each named parameter the value of its argument converted to the type of the parameter (of an aggregate: its bytes), drops the arguments of unnamed parameters, and changes nothing else in memory. For definitions with an identifier list, the argument has the promoted type. A call then behaves as the body does from that memory, and returns its value.", "quantifier": "every list of parameters of any length, types and offsets, with and without names and qualifiers, declared by a prototype or by an identifier list; every list of values; every memory; arbitrary upper bits of the registers; every body", "why_tests_cant": "an argument is taken from a stack that all arguments share: one word too many or too few for one type shifts every parameter before it, and only particular combinations of types show it", "anchors": ["source/ast-translator/function_translator.c: xchg_param_address, kefir_ast_translator_function_context_translate", "source/ast/function_declaration_context.c: context_define_identifier", "source/ast/type_conv.c: kefir_ast_type_function_default_argument_convertion_promotion", "source/ast/analyzer/nodes/function_definition.c: kefir_ast_analyze_function_definition_node"]}
{"id": "C98", "title": "After #line, __LINE__ counts from the given number and __FILE__ is the given name", "statement": "A #line directive whose tokens are, after macro replacement, a digit sequence from 1 to 2147483647 and perhaps a string literal is accepted. From the next line on, __LINE__ in place of any token is the decimal constant of that number plus the number of newlines between the beginning of the next line and the token; continued lines count. __FILE__ is the string literal, or what it was before. In a file without #line the count starts with 1.", "quantifier": "every source text, every position of the directive and of the token, every macro replacement, every number in range, every file name without null characters", "why_tests_cant": "the line is set in the cursor while the scanner has read past the directive; what is read together with the newline, and what a continued line or a comment hides, depends on the text around", "anchors": ["source/preprocessor/preprocessor.c: process_line, run_directive", "source/preprocessor/predefined_macro.c: macro_line_apply, macro_file_apply", "source/preprocessor/directives.c: next_line", "source/lexer/source_cursor.c: kefir_lexer_source_cursor_next"]}
{"id": "C99", "title": "A caller reads the errors that were reported, the latest first, and nothing is written outside their room", "statement": "After the errors are cleared, any sequence of calls of the functions that report errors (plain, with a format, about a place in a source file, about the operating system) keeps at most 32 reports: a report that is not a success is added, in place of a warning if that is the latest. Beginning with the current error and following the previous errors a caller reads exactly these reports, the latest first, each with its code, origin, location and message; messages are cut to 255 characters, or 239 beside a location, and a location is printed in front as name@line:column. No call writes outside the room of a message. The sign that reports were lost is set exactly on the latest of 32 reports.", "quantifier": "every sequence of calls, every code, every message and file name without null characters, every line and column", "why_tests_cant": "the reports share a fixed stack and fixed buffers; what is kept depends on the whole history and the lengths of all texts", "anchors": ["source/core/error.c: kefir_current_error, kefir_clear_error, kefir_set_error, kefir_set_errorf", "source/core/source_error.c: kefir_set_source_error, kefir_set_source_errorf", "source/core/os_error.c: kefir_set_os_error", "source/core/basic-types.c: kefir_result_get_category"]}
{"id": "C100", "title": "Values of initialisers go to the bytes that their designators name", "statement": "For objects with static storage duration of any types, and initialisers with designators, nested lists and repeated designations in any order: every designation of every object has a slot of its own, and in the bytes that are emitted the part that a designator names has, at its offset in the object, the bytes of the last value given for it (as long as no value is given for another member of a union around it).", "quantifier": "every list of objects, every nesting of structures, unions and arrays, every list of initialisers with valid designations and fitting values", "why_tests_cant": "types and initialisers are nested without bound, and the numbering of the slots of one object depends on all objects before it", "anchors": ["source/ir/type_tree.c: kefir_ir_type_tree_init, kefir_ir_type_tree_at", "source/ast-translator/scope/data_initializer.c: add_designated_slot, kefir_ast_translate_data_initializer", "source/ast-translator/scope/translator.c: resolve_base_slot, initialize_data", "source/ast/type_layout.c: kefir_ast_type_layout_resolve"]}
{"id": "C101", "title": "Unnamed objects have storage of their own", "statement": "Compound literals and the structures and unions that calls return are objects without a name. For any function, with any nested scopes and any sequence of such objects in its expressions: each of them has storage as large as its type and aligned as its type requires, inside the frame of the function, and shares no byte with a named automatic object or with another unnamed object that is needed at the same time. Outside of functions each of them is an object with a name of its own.", "quantifier": "every tree of scopes of a function, every sequence of unnamed objects of any complete types, in one or several groups that are needed at the same time", "why_tests_cant": "the number of unnamed objects, their types and the scopes around them are unbounded, and the place of each depends on all others in the function", "anchors": ["source/ast/temporaries.c: kefir_ast_temporaries_init, kefir_ast_temporaries_next_block, kefir_ast_temporaries_new_temporary", "source/ast-translator/temporaries.c: kefir_ast_translator_fetch_temporary", "source/ast/local_context.c: define_temporaries, context_allocate_temporary_value", "source/ast/global_context.c: context_allocate_temporary_value"]}
{"id": "C102", "title": "Arguments and results of calls have the types and values C prescribes", "statement": "For every call that satisfies the constraints of C, whatever the prototype (with or without an ellipsis) or without one, and whatever the argument expressions: the arguments are evaluated, each is converted to the type of its parameter, or promoted by the default argument promotions if there is none, and all of them arrive, in order, with these values in the parameters of the called function. The call is made as one with variable arguments exactly if the function is declared so or its type knows of fewer parameters. The value the function returns is the value of the call.", "quantifier": "every type of the called function, every list of argument expressions, every memory in which they are evaluated, every value that is returned", "why_tests_cant": "number, types and values of arguments are unbounded, every pair of an argument type and a parameter type has its own conversion, and arguments may contain any expression with side effects", "anchors": ["source/ast-translator/function_declaration.c: kefir_ast_translator_function_declaration_alloc_args, kefir_ast_translator_function_declaration_alloc", "source/ast-translator/nodes/function_call.c: translate_parameters, kefir_ast_translate_function_call_node", "source/ast/type_conv.c: kefir_ast_type_function_default_argument_convertion_promotion"]}
{"id": "C103", "title": "Alignment specifiers are obeyed", "statement": "For every object or member, whatever number of declarations it has and whatever number of alignment specifiers each of them has: the declarations are accepted exactly if every specifier asks for zero or a power of two and the specifiers of each declaration together are not less strict than the type of the object needs anyway. The address of the object is then a multiple of every alignment that is asked for and of the alignment of its type, and it is not aligned more strictly than that. The order of specifiers and declarations does not matter.", "quantifier": "every list of declarations, every list of alignment specifiers in each of them, every alignment of the type, everything that lies in front of the object in its storage", "why_tests_cant": "numbers of declarations and of specifiers are unbounded, so are the values of the constants and the offsets in front of the object; that nothing is over-aligned is a statement about all addresses", "anchors": ["source/ast/analyzer/declarator.c: evaluate_alignment, analyze_declaration_specifiers_impl, wrap_alignment", "source/ast/context_impl.c: kefir_ast_context_merge_alignment, kefir_ast_context_allocate_scoped_object_identifier", "source/ast/alignment.c: kefir_ast_alignment_const_expression", "source/ast-translator/type_translate.c: kefir_ast_translate_object_type", "headers/kefir/ir/type.h: kefir_ir_typeentry"]}
{"id": "C104", "title": "Variable length arrays have their size and storage of their own", "statement": "The size of a variable length array is the product of the values its lengths have when the declaration is reached and the size of its elements, and it does not change afterwards. As long as the array is alive it has storage of that size, aligned for its elements, that is part of no other live object, however deep blocks nest and however often they are entered and left. When the block of the array is left its storage is given back, so a loop can be executed any number of times. Storage from the built-in allocation function lasts until the function returns.", "quantifier": "every array type with any number of dimensions, every length expression, every memory; every sequence of entering and leaving blocks, declarations and calls of the built-in function, all sizes and alignments, every stack", "why_tests_cant": "lengths are known only at run time, blocks nest to any depth and loops run any number of times; that two live arrays never overlap is a statement about all histories", "anchors": ["source/ast-translator/misc.c: kefir_ast_translate_sizeof, kefir_ast_translate_alignof", "source/ast-translator/declaration_translator.c: translate_vla_declaration", "source/ast-translator/nodes/unary_operation.c: translate_sizeof", "source/ast-translator/nodes/compound_statement.c: kefir_ast_translate_compound_statement_node", "source/ast-translator/jump.c: kefir_ast_translate_jump", "source/runtime/amd64_sysv.s: alloca, pushscope, popscope"]}
{"id": "C105", "title": "Intermediate values and objects survive taking and giving back storage", "statement": "When storage is taken for an array of variable length or by the built-in function, or given back at the end of a block, the intermediate values of the expressions being evaluated are the same as before, although they are moved in memory and the old and the new place overlap; no byte of an object outside the storage taken or given back changes; the address obtained becomes the value of the operation. The operation fails only if the stack has no room for the values. This holds after every sequence of operations in which no block is left in front of its first declaration.", "quantifier": "every sequence of operations, every number of intermediate values and all their contents, all sizes and alignments, every memory and every address of the stack", "why_tests_cant": "the amounts by which the values are moved, and so the way the two places overlap, are known only at run time; the number of values and of operations is unbounded", "anchors": ["source/runtime/amd64_sysv.s: alloca, pushscope, popscope, __kefirrt_generic_prologue"]}
{"id": "C106", "title": "No jump leads into the scope of a variable length array, and jumps out of it release the array", "statement": "A jump is accepted exactly if no variable length array that is in scope at the target is out of scope where the jump is. A jump that is accepted gives back, innermost first, the storage of exactly those blocks for which it leaves the scope of an array.", "quantifier": "every pair of points in a function, however deep the statements around them nest, with any number of arrays declared in any of them in front of and behind the points", "why_tests_cant": "nesting and numbers of declarations are unbounded, and acceptance has to agree with a statement about all arrays in scope", "anchors": ["source/ast-translator/jump.c: perform_jump, kefir_ast_translate_jump", "source/ast/flow_control.c: kefir_ast_flow_control_point_common_parent, kefir_ast_flow_control_point_parents, kefir_ast_flow_control_point_bound", "source/ast/local_context.c: register_vla"]}
{"id": "C107", "title": "The type, the constant value and the code of a generic selection come from one association, the one C prescribes", "statement": "A generic selection that is accepted has the type of the expression of one of its associations, code is generated for that expression, and constant expressions evaluate it, which they do exactly if it is constant. It is the association with the compatible type, or the default one if no type is compatible, and the selection is accepted exactly if there is such an association.", "quantifier": "every type of the controlling expression, every number and order of associations with any types, with and without a default association", "why_tests_cant": "three passes search the associations independently of each other, over lists and types of any size", "anchors": ["source/ast/analyzer/nodes/generic_selection.c: kefir_ast_analyze_generic_selection_node", "source/ast/constant_expression/generic_selection.c: kefir_ast_evaluate_generic_selection_node", "source/ast-translator/nodes/generic_selection.c: kefir_ast_translate_generic_selection_node", "source/ast-translator/lvalue.c: kefir_ast_translate_lvalue"]}
{"id": "C108", "title": "A static assertion is accepted exactly if its condition is not zero", "statement": "A static assertion whose condition is an integer constant expression is accepted if the value of the condition is not zero and is reported as failed if it is zero. If the condition is not constant, the assertion is not accepted.", "quantifier": "every condition built from integer constants, casts and operators, of any depth", "why_tests_cant": "conditions are of unbounded size, and one wrongly evaluated operator lets a false assertion pass", "anchors": ["source/ast/analyzer/nodes/static_assertion.c: kefir_ast_analyze_static_assertion_node", "source/ast/constant_expression/constant_expression.c: kefir_ast_constant_expression_value_evaluate"]}
