# Formal model of tekknolagi/kefir in Lean 4

The object of study is the kefir C17 compiler at the pinned commit in `/repo`
(plain C, plus the IR run-time in `source/runtime/amd64_sysv.s`).  Everything in
`lean/Verif` is a hand-written Lean 4 transcription of parts of that code, plus
theorems about it.  Nothing in `/repo` was built or run.

## Layout

* `lean/Verif/<Area>/Model.lean` (or `<Topic>.lean`): definitions transcribed from C.  Every
  definition cites file and lines.
* `lean/Verif/<Area>/Spec.lean` (`*Spec.lean`, `Constraints.lean`): the independent specification used in statements.
* `lean/Verif/<Area>/…`: auxiliary lemmas.
* `lean/Verif/<Area>/Props.lean` (`*Props.lean`, `Findings.lean`): the property theorems (names start with `Cnn_`), each
  with a concrete witness (`example`) that its hypotheses are satisfiable.
* `seeded/LOG.jsonl`: the wrong programs the theorems were tested against.

Naming: `Cnn_…_partial` proves part of property Cnn; `Cnn_…_false` (and `C07_overflow_accepted`, `C08_dead_end_unmatched`,
`C11_hex_overflow_accepted`) proves, by a concrete witness, that the property as stated is false of the modelled code.

## Plan per property

| id | what is modelled | how it is proved |
|----|------------------|------------------|
| C01, C02, C41, C42 | `core/hashtree.c` as an inductive BST with the C recursion/loops transcribed; parent climbing modelled by paths; allocation outcome an argument | refinement to a finite map, BST invariant by induction over operation histories; released entries as an explicit list |
| C03, C04 | `lexer/source_cursor.c` over bytes with an abstract multibyte decoder | refinement to the spliced text; induction on the text |
| C05, C06, C07 | `lexer/tokens/integer_constant.c` | loop invariant for positional value; case analysis over the type table; C07 is false of the code: negation with witness |
| C08 | `core/trie.c`, `lexer/tokens/punctuator.c` | trie built by the code; full table computed in the kernel, text quantified by induction; two exceptional prefixes give a negation |
| C09, C10, C11, C38, C51, C52 | `whitespace.c`, `lexer.c`, `characters.c`, `identifier.c`, `keyword.c`, string literals | inductive specification of blanks and escapes; progress measure; a lawfulness invariant for all matchers |
| C12 | `ast/type_conv.c`, parts of `ast/type.c`, `ast/type/basic.c` | case analysis over the finite type universe, value statements quantified over all values |
| C13, C14, C15, C37, C39, C47 – C50 | IR stack machine from `runtime/amd64_sysv.s`; analyzer and translator for scalar expressions | compiler correctness by induction on expressions, against a C semantics over mathematical integers with explicit undefined behaviour |
| C16 | the same, on raw floating-point bit patterns | negation by witness, and a partial theorem |
| C17, C18 | `ast/constant_expression/*.c`, host undefined behaviour explicit | agreement theorem on the fragment where it holds, negations by witness elsewhere |
| C19 | `ast-translator/value.c` and the bit-field opcodes | bit-level extensionality for every width/offset |
| C20, C54 | `codegen/amd64/system-v/bitfields.c`, `ast-translator/type_translate.c` (bit-fields) | invariant over allocation histories |
| C21, C53 | `codegen/amd64/system-v/abi/data_layout.c`, `ir/type.c` traversal | structural induction on IR types; flat and tree traversals proved equal |
| C22, C23 | `abi/registers.c`, `abi/qwords.c`, `abi/function.c` | invariant over parameter lists; induction over aggregates |
| C24 – C28, C43 – C46 | `core/list.c` (on an explicit heap), `block_tree.c`, `tree.c`, `string_buffer.c`, `symbol_table.c`, `vector.c`, `linked_stack.c` | refinement to sequences / maps over histories of calls |
| C29 | `util/json.c` | invariant over call histories against the RFC 8259 grammar; escape/unescape round trip |
| C30, C64, C66 | `ast/scope.c` on a tree of scopes with a cursor; `parser/scope.c` | refinement to a stack of maps, by induction over histories of calls |
| C65, C67 | declaration analysis of ordinary identifiers (`ast/global_context.c`, `ast/local_context.c`, `ast/function_declaration_context.c`) over abstract types, and the symbols made from its tables | forward simulation of an independent C17 state machine, by an invariant over all histories |
| C68, C69 | initialisers: the layer stack that walks over an object (`ast/analyzer/type_traversal.c`), the analysis, the traversal and both translations, over abstract expressions | specification by paths to subobjects; correspondence between layer stacks and paths; forward simulation by induction over lists |
| C70 – C72 | declaration specifiers, declarators, parameter lists and the analysis of types (`ast/analyzer/{declarator,type}.c`) | the table of 6.7.2p2 and derivation relations as specification; state machine on specifiers split into independent parts; mutual induction over declarators and parameters |
| C73 | `parser/rules/{declaration_specifier,declarator,type_name,static_assertion}.c`, tied to the expression rules | soundness and completeness against an inductive grammar with dialect switches, mutual recursion with expressions solved by stages; negations by witness |
| C74 | `parser/rules/{declaration,*_statement,function_definition,external_declaration,translation_unit}.c` with the parser scope | soundness and completeness against an inductive grammar that threads scopes; simulation between the scopes of C17 and of kefir; negations by witness |
| C75 | the nodes of expressions in `ast/analyzer/nodes`, with `type_conv.c`, `assignable.c`, `lvalue_constant_reference.c` and member lookup | inductive typing rules of C17, parametrised by a language; induction on expressions |
| C76 | as for C75 | the rules with the features of the compiler; induction on expressions; negations by witness |
| C77 | `ast/analyzer/nodes/return_statement.c` | from C75 and C76 |
| C78 | `preprocessor/tokenizer.c`, `lexer/tokens` (character constants, string literals, pp-numbers, identifiers, whitespace) | separate grammar of preprocessing tokens (`PpToken/Spec.lean`); each matcher is shown to read a token of its class to its end by induction on the grammar, then maximality decides between the classes |
| C79 | `preprocessor/format.c` | every token prints as a spelling of itself in the grammar of C78 (induction on literals and digits); induction on the sequence with the side condition that tokens do not merge |
| C80 | `preprocessor/{user_macro,format}.c` | inversion of the grammar of C78 for spellings without escapes; negations by witness |
| C81 | `preprocessor/convert.c`: single tokens; `lexer/tokens/{constant,integer_constant,floating_constant,identifier}.c` on the text of the token | the scanners are shown to read exactly the grammar of 6.4.4.1 and 6.4.4.2 plus a list of lax forms, both directions; negations by witness |
| C82 | `preprocessor/convert.c`: the loop over the buffer, merging of literals | induction over the derivation of `Translated`, with the string re-encoding of C27; negations by witness |
| C83 | `ast-translator/scope/local_scope_layout.c`: the IR type of nested scopes, and the addresses computed from its layout | closed form of the entries; the type is not the flattening of a tree (unions count empty scopes and take what follows), so a relation `Eats` says which scopes each union takes, and the layout is characterised by induction over it |
| C84 | `abi/function.c` (`calculate_frame`), the effect of `load_arguments` on the frame, `__kefirrt_preserve_state` | the two traversals are run together over the allocations: the reserved start is a multiple of the own alignment that is at least the offset reached, so the place used is not behind the place reserved |
| C85 | `abi/invoke.c` (storing arguments) and `abi/prologue.c` (loading them), as functions on registers and memory | what is allocated for a parameter (`Shape`) says which registers and bytes belong to it; storing later arguments changes only later places, so each stays until it is loaded; the places of the first parameters do not depend on what follows |
| C86 | `abi/vararg.c`, the register save area of `abi/prologue.c`, the routines of `runtime/amd64_sysv.s` for them | the counters of a `va_list` always agree with the location up to which the calling function has allocated arguments (`VaAt`); an aggregate is classified the same on its own as among the arguments (`Twin`), and the eightbytes are copied from where the registers were saved |
| C87 | `abi/epilogue.c`, `invoke_epilogue` of `abi/invoke.c` | both functions walk the same eightbytes, of which there are at most two (C23); inversion of the classification, `rep movsb` by induction, an aggregate without `long double` has no eightbyte of class X87 by induction over types |
| C88 | `preprocessor/directives.c`, `lexer/tokens/pp_header_name.c` | lines as sequences of tokens; the loops of the scanner follow them by induction; blanks read as characters are the same as blanks read as tokens; induction over the lines of the file |
| C89 | `analyzer/declarator.c` (specifiers), `context_impl.c`, `type_completion.c`, tags in the contexts, `analyzer/nodes/struct_member.c`, `ast-translator/lvalue.c` (members) | types as entities in the specification and as immutable trees in the model; a simulation relates them through incomplete copies, pending definitions and scopes; induction over specifiers, blocks and units |
| C90 | `ast/constant_expression/*.c` (addresses), `ast/analyzer/lvalue_constant_reference.c`, `visit_value` in `data_initializer.c` | meaning of expressions for any placement of objects as specification; induction on the expression relates base and offset to it, a second induction shows that the accepted forms evaluate |
| C91 | `resolve_enum_type`, `define_constant` of both contexts, resolution and evaluation of identifiers of constants | enumerators over mathematical integers as specification, expressions by the C semantics of C17; induction on the unit with the scopes of the compiler as image of the scopes of the specification |
| C92 | `process_include` on top of the run of groups (C32), `open_source`, `try_open_file`, `open_file` | events of a file with the events of included files in place of the directives; every run of an included file is an effect of the including group, so C32 gives a list of events in which finished tokens are replaced by the events that print them; induction on the depth |
| C93 | the generator of assembly text as far as data uses it, the calls of the emission of static objects and of string literals to it | a lexer and a reader of data directives are the specification; the text is tokenised line by line, each call is read back as what it stands for, and the calls simulate the emission of bytes (C40) step by step |
| C94 | the loop that skips groups, on the cursor of the file, with the scanner of C88 | the specification splits the text into lines, removes comments and counts conditionals; match is computed as a function of the text of a line, and the loop follows the lines by induction |
| C95 | the table of options, the loop over the arguments with the hooks, getopt_long of the C library, the choice and configuration of the action | the specification is a relation between arguments and options and a declarative reading of the settings; the loop is shown to follow every spelling by induction, and to succeed only on spellings; the table is checked entry by entry |
| C96 | the translation of every instruction to directives of the assembler, the table of routines, the tree of appended routines, the trees of gates and thread-local entries, the loop over the body and over the functions | an independent table says which entry each instruction needs; every instruction is read back as its entry with the reader of C93; induction over the body and the functions |
| C97 | the loop over the parameters with its three cases, the exchange of value and address, the store of the value, the default argument promotions | per type, the code is executed on the machine of C13 and the stored bytes are read back; induction over the parameters with the stack and the storage that is left; composition with the simulation of C36 |
| C98 | `process_line` with `strtoul`, the two predefined macros, on top of the scanner of directives (C88) and the cursor (C04) | the scanner returns the tokens and stops after the newline (lemmas of C88); the digits printed are a decimal constant, by induction; the cursor adds the newlines it passes (lemma of C04) |
| C99 | the stack of errors, the payloads with `snprintf`, and the six functions; a write outside a payload is undefined | an invariant that links the stack to the list of reports, kept by every call; induction on the history |
| C100 | The numbering of the parts of types, the layouts beside types, the resolution of designators and the translation of initialisers to assignments of slots, over the static data of C40. | The tree that the traversal makes is the list of nodes of the types by induction on types; resolution of a designator adds the relative slots of its steps, which lie in disjoint ranges; values that fit the designated parts suit the objects, so that C40 applies, and the image at the offset of a part is the image of the part. |
| C101 | The identifiers of temporaries, the union of structures that they are fields of, its place in the root scope of the function (C83), and the instructions that lead to a temporary. | Invariant of the state during the analysis: names of fields are those of smaller identifiers, so that a new field is new and earlier ones keep their position. The layout of the frame contains the layouts of all parts of the union (strengthened lemmas of C83), the members of one structure of it are consecutive. Names outside of functions are different as decimal representations are injective and have no underscore. |
| C102 | The type of a function, the layouts and the declaration that are made for a call from it and the arguments, the code for the arguments, the code for the result. | Induction on the list of arguments, with the soundness of expressions (C13 to C16) and of conversions for each of them; bit-fields by congruence modulo the size of the promoted type. Composition with C97 for the parameters. |
| C103 | The evaluation of specifiers, the check against the type, the merging of declarations, the entry of the IR type and its place in the layout (C21). | Induction on specifiers and declarations: the recorded alignment is the largest of the requests; powers of two divide each other if they are ordered. |
| C104 | The code for sizes, alignments and declarations on the IR machine of C13; the two cells of the runtime, the opcodes that allocate and release, and what is stored per block. | Induction on types with the soundness of expressions; an invariant that orders the live arrays by address and bounds the saved cells by the arrays further out, kept by every event; induction on the structure of blocks for the release. |
| C105 | The opcodes that take and give back storage, with the copying of the stack byte by byte in the direction the flag says. | Induction on the number of bytes: copying upwards is right if the target is below the source, downwards if it is above; a relation between the bytes of the stack and a list of words, kept by every instruction; an order on the saved cells kept by every event of C104. |
| C106 | The search for the common parent, the list of entered statements, the comparison of the two ranges of declared arrays, and the sequence of releases. | The comparison loop is shown to be the comparison of two numbers by induction on its steps; the search finds the innermost statement around both points by induction on the path; scopes are then compared level by level. |
| C107 | The loops of the three passes over the associations, with the expressions in them represented by their properties, and the conversion and comparison of types of C61 and C75. | Induction on the associations: the loops choose alike, and find the first compatible type; the theorems about compatibility and conversions turn that into the choice of C17. |
| C108 | The check of the value of the condition, on top of the evaluation of constant expressions of C17. | From the theorems of C17, which give the value, and the ranges of integer types, which show that no bits of a value are lost; non-constant conditions by cases on the expression. |
| C31 – C33, C57 – C60 | `preprocessor/{user_macro,macro_scope,substitutions,token_sequence,preprocessor,util}.c` | refinement to maps and lists; independent relations for replacement, operators and groups; termination measure; negations by witness |
| C34 | `parser/rules/*_expression.c`, initializers | equivalence with the C17 grammar (soundness, completeness, uniqueness), by induction |
| C35, C61, C62 | `ast/type/*.c` | induction on types against an inductive relation |
| C36, C63 | flow-control analysis and translation of statements | simulation between the C17 abstract machine and the IR machine; acceptance by an invariant on pending references |
| C40, C55, C56 | `ir/data.c`, `abi/static_data.c` | induction on types; bit-level extensionality |

## Trusted base

* Lean 4.33.0's kernel.
* Axioms: only `propext`, `Classical.choice`, `Quot.sound`; the list below says for each theorem which of them it uses
  (from `#print axioms`).
* The faithfulness of the transcription: each definition names the lines it models and the simplifications made.
* The specifications (`*Spec.lean`, `Constraints.lean`): that they say what C17, the System V ABI or RFC 8259 say.

## What is modelled and what is not

Common simplifications: `NULL`-argument checks of API functions are left out; `size_t` arithmetic is on natural numbers unless
a property is about wrapping; memory allocation succeeds except in C42 and C27.

| area | modelled | not modelled |
|------|----------|--------------|
| containers (`core/`) | `hashtree.c`, `list.c` (explicit heap, dangling access is a fault), `tree.c`, `block_tree.c`, `vector.c`, `linked_stack.c`, `symbol_table.c`, `string_buffer.c`, `trie.c` | `error.c`, `util.c`, allocation failure outside C42/C27 |
| lexer | cursor, line splices, locations, blanks and comments, identifiers and keywords, punctuators, integer constants (value and type), character constants, string literals, escapes; `kefir_lexer_next` | values of floating constants (scanned by a `strtod` parameter), token buffers |
| types | arithmetic types, ranks, promotions, common type, compatibility, composite type, sameness; the underlying type of an enumeration (default configuration, without `signed-enums`) | storage of types in bundles, completeness of variably modified types |
| expressions | analysis (types, lvalues, bit-fields) and translation of scalar expressions: constants, variables, members, subscripts, indirection, casts, unary, binary, logical, conditional, comma, assignment, compound assignment, increment; the opcodes used | calls, aggregates as values, `_Generic`, string literals, `va_arg`, address of label, statement expressions; floating arithmetic is an abstract unit |
| expression types | the analysis of all expressions: types, lvalues, addressable and constant expressions, bit-fields, calls, members, generic selections; return statements | compound literals, builtins, GNU extensions, values of constant expressions (a parameter), variably modified types beyond their flag, messages |
| run-time | the opcodes of `runtime/amd64_sysv.s` that the modelled translator emits, on a list of words and a byte memory | the remaining opcodes, x87/SSE arithmetic, machine stack exhaustion |
| statements | `if`, `while`, `do`, `for`, `switch`, `case`, `default`, labels, `goto`, `break`, `continue`, `return`, compound statements, declarations of scalars with initialisers; jump constraints | variable-length arrays, aggregate initialisers, statement expressions, computed `goto`, inline assembly; the code in front of the body is C97 |
| constant expressions | integer constants, casts, all unary, binary, conditional operators | `sizeof`/`_Alignof` values, floating and address constants, `_Generic` |
| layout | sizes, alignments, offsets of IR types; bit-field allocation; eightbytes; parameter classes and locations; `va_list` as a type | the assembly text of prologue, epilogue and calls, `va_arg` code |
| static data | slots, bit-field initialisers, marks of initialised parts, directives of an object, sections | pointers to string literals beyond their label; the text of the directives is C93 |
| preprocessor | macro definitions and scopes, token sequences, object-like and function-like replacement, `#`, `##`, conditional sections, `defined` | `#line`, `#pragma`, predefined macros (the directive scanner is C88, `#include` C92, skipped groups C94, printing C79) |
| parser | all expression rules, initialisers, designators, generic selections; declaration specifiers, declarators, parameters, members, type names; declarations, statements, function definitions and translation units with the scope of typedef names | attributes, `asm`, extensions that are off by default, names of parameters and enumeration constants as hiding typedef names, error messages |
| scopes | `ast/scope.c` block scopes (a tree with a cursor) and flat scopes, their release; `parser/scope.c` | |
| declarations | ordinary identifiers: objects, functions, typedef names, enumeration constants, at file scope, in blocks and as parameters; storage classes, linkage, redeclaration, completion, definitions; global and external symbols | tags (C89), labels, old-style definitions, function specifiers beyond their acceptance, validity of initialisers, layout of local variables |
| initialisers | type traversal with listeners, analysis, traversal of lists, designators in layouts, both translations as effects on subobjects | parsing, evaluation of designators, variable length arrays, whether expressions are constant, widths of unnamed bit-fields, copying of the literals and structures |
| automatic objects | `ast-translator/scope/local_scope_layout.c` for automatic objects, their addresses | static and thread storage (other types), variable length arrays, temporaries |
| calls | `abi/{function,invoke,prologue,epilogue,vararg}.c` and the routines for variable arguments of `runtime/amd64_sysv.s`: the frame, storing and loading arguments, fetching variable arguments, returning and fetching results, as effects on registers and memory | the text of the instructions |
| declarators | declaration specifiers, pointer, array and function declarators, parameter lists, adjustment, prototypes, the analysis of derived types, type names | structure, union and enumeration specifiers and expressions are parameters; the parameters of functions that are being defined |
| preprocessor tokens | `preprocessor/{tokenizer,format,convert}.c` without extensions, stringification; the codec (`c32rtomb`, `mbrtoc16`, `mbtowc`) and the locale (`fprintf` of wide characters, `c16rtomb`) are parameters | header names (C92) |
| directives | `preprocessor/directives.c`, header names | locations; `kefir_preprocessor_run`, which acts on directives, is in the areas on conditional groups and macros |
| tags | structure, union and enumeration specifiers, tag scopes, completion of types, accesses through pointers | members and objects that are not pointers, enumerators, bit-fields (C10), layout (C09, C11) |
| address constants | flags and evaluation of `[]`, `.`, `->`, `&`, `+`, `-`, casts and `?:` on addresses of static objects, functions and string literals | compound literals, floating-point values, other operators on addresses, thread-local objects, emission of symbols (C14–C16) |
| enumerators | `resolve_enum_type`, definition, scope and value of constants, underlying type | tags of enumerations (C89), constants in unsigned arithmetic, typedef names and functions of the same name |
| inclusion | `process_include`, the locator of files of the command line | macro replacement in the directive (C57), predefined macros per file, `#line`, the locator of files in memory, memory of source files |
| assembly text of data | `asmgen.c` (what data uses), the calls of `static_data.c` and `amd64-sysv.c` 191-275 | the text of code, the prologue and the declarations of symbols; `printf` |
| skipped groups | `kefir_preprocessor_skip_group` (`preprocessor.c` 171-228), `directives.c` 40-80, 126-193 | |
| command line | `options.c` in full, `main.c` 63-174, 176-189, 326-339 (as a description of the job), GNU `getopt_long` (as documented, trusted) | messages, opening of files, printing, `kefir_report_error` |
| assembly text of code | `instr.c`, `opcodes.c`, what `vararg.c`, `builtins/vararg.c`, `function.c`, `module.c` write and record for instructions, `amd64-sysv.c` 85-189 | the machine code of prologues, gates and appended routines (see frames, arguments, variable arguments), `amd64_sysv.s`; inline assembly does not exist |
| entry of functions | `function_translator.c` 242-248, 266-338 | size expressions of variably modified parameters (`function_translator.c` 256-264, 341-379); the words that arguments arrive in are those of the psABI, see arguments (C85) for the code that puts them on the stack |
| line control | `preprocessor.c` 438-473, 577-579; `predefined_macro.c` 34-80 | locations of tokens in the result of a user macro (`user_macro.c` 610-613), overflow of the line counter |
| record of errors | `error.c`, `source_error.c`, `os_error.c`, `basic-types.c` 3-41 | the format functions of libc (their result is a parameter), the printing of errors (`error_format.c`) beyond the chain of previous errors |
| slots of initialisers | `type_tree.c`, `data_initializer.c` 92-360, `scope/translator.c` 28-57, the loop of 129-170, `type_layout.c` (ast) 206-269 | designators of single bit-fields (the members of a run are one part, see C55), the conversion of values (C17, C18), failures of allocation |
| temporary objects | `ast/temporaries.c` 29-97, `ast-translator/temporaries.c` 28-67, `local_context.c` 69-130, `global_context.c` 56-79, `ast/type/struct.c` 371-440 | overflow of identifiers, the initialisation of compound literals (C68), failures of allocation, address constants of temporaries (`lvalue_constant_reference.c` 217-275) |
| calls | `ast-translator/function_declaration.c` 31-120, 155-190, `ast-translator/nodes/function_call.c` 31-153 | the INVOKE itself (C85, C86), the analysis of calls, symbols of functions, failures of allocation |
| alignment specifiers | `ast/analyzer/declarator.c` 41-47, 721-737, 962-1011, `ast/context_impl.c` 61-87, 215-231, `ast/alignment.c` 25-70, `ast/analyzer/nodes/init_declarator.c` 57-63 | analysis of the operands, bit-fields, the restriction of specifiers to objects, the requirement that all declarations agree with the definition (C17 6.7.5p7), failures of allocation |
| variable length arrays | `ast-translator/misc.c` 28-112, `declaration_translator.c` 30-68, `nodes/unary_operation.c` 137-152, `nodes/compound_statement.c` 50-58, `jump.c` 47-64, `nodes/builtin.c` 110-126, `ast/flow_control.c` 134-160, `runtime/amd64_sysv.s` 1097-1152, 1169-1176 | jumps within the block that declares the array (`jump.c` 66-91), moving of the operand stack, parameters and pointers of variably modified type, `[*]`, wrap-around of addresses |
| movement of the operand stack | `runtime/amd64_sysv.s` 1097-1152, 1169-1176 | the direction flag during signals, other opcodes (they push and drop values), wrap-around of addresses; the cells at `r14` are kept apart from the stack |
| jumps and variable length arrays | `ast-translator/jump.c` 28-128, `ast/flow_control.c` 65-77, 162-173, 406-448, `ast/local_context.c` 762-790 | computed jumps (`goto *p`), identifiers of other variably modified types, failures of allocation |
| generic selections | `ast/analyzer/nodes/generic_selection.c` 28-69, `ast/constant_expression/generic_selection.c` 27-58, `ast-translator/nodes/generic_selection.c` 28-54, `ast-translator/lvalue.c` 342-370 | the expressions in the associations, which are represented by their properties; analysis of type names |
| static assertions | `ast/analyzer/nodes/static_assertion.c` 28-51 | conditions with values of other classes, the text of the diagnostic |
| JSON | `util/json.c` | its callers |
| driver, code generator text, `kefir-*` tools | | not modelled |

## Properties and their theorems

Axioms: `p` = propext, `c` = Classical.choice, `q` = Quot.sound (all three are part of Lean); `-` = none.

### C01 Hash tree is a finite map (proved)

* `Kefir.HashTree.C01_hashtree_is_finite_map` [pq]

### C02 Hash tree iteration visits every entry exactly once, in hash order (proved)

* `Kefir.HashTree.C02_iteration_complete` [pq]

### C03 Logical source text is the physical text with line splices removed (proved)

* `Kefir.Lexer.C03_advance_result` [pcq]
* `Kefir.Lexer.C03_logical_text` [pcq]

### C04 Source positions are line/column of the physical text (proved)

* `Kefir.Lexer.C04_locations` [pcq]

### C05 Integer constants denote their positional value (proved)

* `Kefir.Lexer.C05_integer_constant_value` [pcq]
* `Kefir.Lexer.C05_no_digit_no_constant` [pcq]

### C06 Integer constants get the C17 6.4.4.1 type (proved)

* `Kefir.Lexer.C06_integer_constant_type` [pcq]

### C07 Out-of-range integer constants are not silently accepted (partial)

False of the code: the value is accumulated modulo 2^64, so 18446744073709551616 is accepted as the int 0 (C07_overflow_accepted). Proved: a value below 2^64 that fits no permitted type is not given another value.

* `Kefir.Lexer.C07_out_of_range_rejected_partial` [pcq]
* `Kefir.Lexer.C07_overflow_accepted` [pcq]

### C08 Punctuators are tokenised by maximal munch (partial)

False where a proper prefix of a longer punctuator is scanned and the walk dies (`..x`, `%:%x`): NO_MATCH although a shorter punctuator matches (C08_dead_end_unmatched). Proved for every other text.

* `Kefir.Lexer.C08_dead_end_unmatched` [pcq]
* `Kefir.Lexer.C08_longest_punctuator_partial` [pcq]

### C09 Whitespace and comments are skipped completely and nothing else (proved)

* `Kefir.Lexer.C09_run_unique` [pcq]
* `Kefir.Lexer.C09_skip_whitespace` [pcq]

### C10 A failed token match leaves the cursor untouched (proved)

* `Kefir.Lexer.C10_next` [pcq]
* `Kefir.Lexer.C10_no_match_restores` [pcq]
* `Kefir.Lexer.C10_whitespace` [pcq]

### C11 Escape sequences denote the C17 character values (partial)

False for hexadecimal escapes whose value is 2^32 or more: they wrap (C11_hex_overflow_accepted). Proved for all escapes below 2^32, and that nothing but an escape sequence is accepted.

* `Kefir.Lexer.C11_escape_value_partial` [pcq]
* `Kefir.Lexer.C11_hex_overflow_accepted` [pcq]
* `Kefir.Lexer.C11_only_escape_sequences` [pcq]

### C12 Integer promotion and usual arithmetic conversions follow C17 6.3.1 (partial)

False when one operand has a long type and the other a long long type of the same signedness (both have rank 4 in kefir, so the second operand wins): negation proved. Proved for all other operand types; the value statement (C12_values) holds for all.

* `Kefir.Types.C12_common_floating` [p]
* `Kefir.Types.C12_common_integer_partial` [pcq]
* `Kefir.Types.C12_default_argument` [p]
* `Kefir.Types.C12_long_long_rank_false` [p]
* `Kefir.Types.C12_promotion` [pcq]
* `Kefir.Types.C12_symmetric_partial` [pcq]
* `Kefir.Types.C12_values` [pcq]

### C13 Compiled integer expressions compute their C value (partial)

False for conditional operators whose branches need a conversion (`(long)(1 ? -1 : 0u)`, `1 ? 1 : 2.0`) and for sizeof, which is typed int: negations proved. Proved for the expressions in `good` (everything else modelled, including assignments, pointers and bit-fields).

* `Kefir.Expr.C13_conditional_int_as_double_false` [pcq]
* `Kefir.Expr.C13_conditional_unconverted_false` [pcq]
* `Kefir.Expr.C13_integer_expression_partial` [pcq]
* `Kefir.Expr.C13_sizeof_signed_false` [pcq]

### C14 Compiled integer conversions are C conversions (proved)

* `Kefir.Expr.C14_integer_conversion` [pcq]

### C15 Logical operators short-circuit (partial)

False for float and double operands holding -0.0 (C15_float_false). Proved for integer, pointer and long double operands (also C49).

* `Kefir.Expr.C15_float_false` [pcq]
* `Kefir.Expr.C15_short_circuit_partial` [pcq]

### C16 Floating-point truth values (partial)

False for float and double: !(-0.0) is 0, (_Bool)0.5 is 0; negations proved. Proved for long double.

* `Kefir.Expr.C16_bool_conversion_false` [pcq]
* `Kefir.Expr.C16_long_double_truth_partial` [pcq]
* `Kefir.Expr.C16_negative_zero_false` [pcq]
* `Kefir.Expr.C16_negative_zero_float_false` [pcq]

### C17 Constant expressions agree with run-time evaluation (partial)

Integer expressions in the class exactOps (Verif/ConstExpr/Spec.lean): compile-time value = C17 value = word left by the generated code. Refuted outside of it by the C17_*_false theorems (operations in unsigned int are not reduced modulo 2^32; shift signedness taken from the common type). Not covered: sizeof/_Alignof, floating and address constants, _Generic.

* `Kefir.ConstExpr.C17_complement_false` [pcq]
* `Kefir.ConstExpr.C17_false` [pcq]
* `Kefir.ConstExpr.C17_runtime_partial` [pcq]
* `Kefir.ConstExpr.C17_shift_false` [pcq]
* `Kefir.ConstExpr.C17_signed_partial` [pcq]
* `Kefir.ConstExpr.C17_uint_conversion_false` [pcq]
* `Kefir.ConstExpr.C17_uint_difference_false` [pcq]
* `Kefir.ConstExpr.C17_uint_division_false` [pcq]
* `Kefir.ConstExpr.C17_uint_sum_false` [pcq]
* `Kefir.ConstExpr.C17_value_partial` [pcq]

### C18 Constant evaluation never faults (partial)

Refuted as stated (C18_*_false: e % 0, INT64_MIN / -1, over-wide shifts, unsigned long overflow). Proved: no undefined host operation for expressions without arithmetic operators whatever the operands, for signed expressions whose C value is defined, and division by zero is reported.

* `Kefir.ConstExpr.C18_calm_partial` [pq]
* `Kefir.ConstExpr.C18_defined_partial` [pcq]
* `Kefir.ConstExpr.C18_division_by_zero` [pq]
* `Kefir.ConstExpr.C18_division_overflow_false` [pq]
* `Kefir.ConstExpr.C18_false` [pq]
* `Kefir.ConstExpr.C18_mod_zero_always_false` [pq]
* `Kefir.ConstExpr.C18_mod_zero_false` [pq]
* `Kefir.ConstExpr.C18_shift_false` [pq]
* `Kefir.ConstExpr.C18_unsigned_sum_false` [pq]

### C19 Bit-field read after write (partial)

False for bit-fields of width 64 (the mask 1 << 64 wraps to 0): negation proved. Proved for widths 1 to 63.

* `Kefir.Expr.C19_bitfield_partial` [pcq]
* `Kefir.Expr.C19_width64_false` [pq]

### C20 Bit-fields of a structure do not overlap (partial)

False for runs of more than 256 bits: the offset of a bit-field is kept in eight bits and wraps (C20_long_run_false). Proved for all structures whose runs have at most 256 bits, and for unions.

* `Kefir.Layout.C20_bitfields_partial` [pcq]
* `Kefir.Layout.C20_long_run_false` [pq]
* `Kefir.Layout.C20_union_bitfields` [pcq]

### C21 Structure layout is sound (proved)

* `Kefir.Layout.C21_layout` [pcq]
* `Kefir.Layout.C21_layout_of_one` [pcq]
* `Kefir.Layout.C21_members_disjoint` [pq]
* `Kefir.Layout.C21_scalars_aligned` [pcq]

### C22 System V parameter locations never collide (partial)

Not every parameter list gets locations: structures with a nested structure with tail padding can be rejected (C22_total_false). Proved: whenever locations are assigned they exist, are of the right kind, size and alignment and are disjoint; for scalar parameters they are always assigned.

* `Kefir.Abi.C22_places` [pcq]
* `Kefir.Abi.C22_scalars_total` [pcq]
* `Kefir.Abi.C22_total_false` [pcq]

### C23 System V eightbyte classification agrees with the memory layout (partial)

False for nested structures with padding before or after the nested one (C23_nested_false). Proved for aggregates without such padding, in particular those whose members are scalars, bit-fields and arrays of scalars, and for aggregates of more than two eightbytes; the place recorded for a long double, which is not used, is left out.

* `Kefir.Abi.C23_large` [pcq]
* `Kefir.Abi.C23_nested_false` [pcq]
* `Kefir.Abi.C23_packed_partial` [pcq]
* `Kefir.Abi.C23_plain_partial` [pcq]

### C24 Doubly linked list behaves as a sequence (proved)

* `Kefir.LinkedList.C24_list_is_sequence` [pcq]

### C25 Block tree is sparse memory (proved)

* `Kefir.BlockTree.C25_block_tree_is_memory` [pcq]
* `Kefir.BlockTree.C25_skip_to` [pcq]

### C26 Tree traversal is breadth-first and complete (proved)

* `Kefir.Tree.C26_iteration_level_order` [pcq]
* `Kefir.Tree.C26_level_order_complete` [pcq]

### C27 String buffers hold exactly the encoded characters (partial)

False for characters from U+10000 on in unicode16 buffers: only the first surrogate is stored (C27_surrogate_false). Proved for all other appends, conversions and merges; merging from unicode16 sources is not modelled.

* `Kefir.StringBuffer.C27_append_partial` [pq]
* `Kefir.StringBuffer.C27_convert_partial` [pq]
* `Kefir.StringBuffer.C27_convert_rejected` [pq]
* `Kefir.StringBuffer.C27_merge_partial` [pq]
* `Kefir.StringBuffer.C27_replies` [-]
* `Kefir.StringBuffer.C27_surrogate_false` [pq]

### C28 Symbol interning is canonical (proved)

* `Kefir.SymbolTable.C28_interning_canonical` [pcq]

### C29 JSON output is well formed (partial)

The property as stated is false of the code: alert, vertical tab and question mark get escapes JSON does not have, other control characters are written raw, non-finite numbers are not JSON numbers, and several outermost values are simply concatenated (refuted by the *_false theorems). Proved for arguments that can be represented.

* `Kefir.Json.C29_alert_false` [pcq]
* `Kefir.Json.C29_control_false` [pcq]
* `Kefir.Json.C29_prints_value_partial` [pcq]
* `Kefir.Json.C29_question_mark_false` [pcq]
* `Kefir.Json.C29_two_values_false` [pcq]
* `Kefir.Json.C29_wellformed_partial` [pcq]

### C30 Inner declarations shadow outer ones and scopes are restored (proved)

For every lawful key comparison; refines a stack of maps.

* `Kefir.Scope.C30_innermost_declaration` [pcq]
* `Kefir.Scope.C30_leaving_restores` [pcq]

### C31 Macro definitions behave as a finite map through define/undef (proved)

* `Kefir.Preproc.C31_enclosing_scope` [pcq]
* `Kefir.Preproc.C31_is_macro` [pcq]
* `Kefir.Preproc.C31_last_directive_wins` [pcq]

### C32 Conditional groups select at most one branch (proved)

Lines classified by the directive scanner are given; comments extending over several lines in skipped groups are not modelled. Macro replacement, conditions and directives with effects are arbitrary functions.

* `Kefir.Preproc.Group.C32_accepted` [pcq]
* `Kefir.Preproc.Group.C32_rejected` [pcq]
* `Kefir.Preproc.Group.C32_selected` [pcq]
* `Kefir.Preproc.Group.C32_terminates` [pcq]

### C33 Macro expansion terminates and does not re-expand a macro inside itself (partial)

False of the code: mutually recursive definitions do not terminate (C33_mutual_recursion_false, C33_completed_later_false), nor recursive ones in #if (C33_if_condition_false), nor some uses of ## (C33_pasting_false). Proved: termination for first-order definitions, whatever the text.

* `Kefir.Preproc.C33_completed_later_false` [pq]
* `Kefir.Preproc.C33_if_condition_false` [pq]
* `Kefir.Preproc.C33_mutual_recursion_false` [pq]
* `Kefir.Preproc.C33_pasting_false` [pq]
* `Kefir.Preproc.Spec.C33_terminates_partial` [pcq]

### C34 Expressions and initializers are parsed by the C17 grammar (partial)

Proved for every token sequence: the parser terminates, accepts exactly the dialect and yields its unique tree; on C17 sequences that is the C17 tree; every C17 expression without a postfix operator on a compound literal is accepted (that case is refuted: C34_literal_postfix_false). Type names are a parameter with stated laws; their own grammar is not modelled here.

* `Kefir.Parser.C34_assignment_exact` [pcq]
* `Kefir.Parser.C34_c17_accepted_partial` [pcq]
* `Kefir.Parser.C34_c17_tree` [pcq]
* `Kefir.Parser.C34_constant_exact` [pcq]
* `Kefir.Parser.C34_expression_exact` [pcq]
* `Kefir.Parser.C34_initializer_exact` [pcq]
* `Kefir.Parser.C34_literal_postfix_false` [pcq]
* `Kefir.Parser.C34_terminates` [pq]
* `Kefir.Parser.C34_unambiguous` [pcq]

### C35 Type compatibility is reflexive and symmetric, and composite types are compatible with both (partial)

Proved: reflexive for all types; symmetric and with a composite that is compatible with both for types without unions, old-style definitions and qualified array parameters (with functions without prototype only if no function has an ellipsis; composite: unqualified return types). Refuted in the excluded cases (C35_*_false).

* `Kefir.Compat.C35_composite_array_size` [pcq]
* `Kefir.Compat.C35_composite_incomplete_false` [p]
* `Kefir.Compat.C35_composite_none` [p]
* `Kefir.Compat.C35_composite_partial` [pcq]
* `Kefir.Compat.C35_composite_prototype` [p]
* `Kefir.Compat.C35_composite_return_false` [p]
* `Kefir.Compat.C35_ellipsis_false` [p]
* `Kefir.Compat.C35_reflexive` [pcq]
* `Kefir.Compat.C35_symmetric_partial` [pcq]
* `Kefir.Compat.C35_union_false` [p]

### C36 Statements are compiled faithfully (partial)

Proved for every body made of the listed statements over the scalar expressions of C07-C16: same memory and value, same divergence, and no other outcome. Excluded and refuted: case constants outside the promoted type, return of an lvalue of a qualified type; the stack is restored for bodies without switch and without a long double third clause of for (C36_*_false). Not modelled: variable-length arrays, aggregates, statement expressions, computed goto.

* `Kefir.Stmt.C36_case_conversion_false` [pq]
* `Kefir.Stmt.C36_diverges_partial` [pcq]
* `Kefir.Stmt.C36_for_tail_stack_false` [pq]
* `Kefir.Stmt.C36_halts_partial` [pcq]
* `Kefir.Stmt.C36_return_conversion_false` [pq]
* `Kefir.Stmt.C36_returns_partial` [pcq]
* `Kefir.Stmt.C36_stack_restored_partial` [pcq]
* `Kefir.Stmt.C36_switch_stack_false` [pq]

### C37 IR stack discipline (partial)

False for conditional operators with a long double condition or with one long double branch: negations proved. Proved for all other expressions.

* `Kefir.Expr.C37_long_double_branch_false` [pcq]
* `Kefir.Expr.C37_long_double_condition_false` [pcq]
* `Kefir.Expr.C37_stack_discipline_partial` [pcq]

### C38 Lexing terminates and consumes the whole input (partial)

False of the code: a character constant that is never closed makes the loop read the terminating null character for ever (C38_unclosed_false). Proved: lexing terminates, and every token consumes a character, unless a token begins with an unclosed character constant.

* `Kefir.Lexer.C38_progress_partial` [pcq]
* `Kefir.Lexer.C38_terminates_partial` [pcq]
* `Kefir.Lexer.C38_unclosed_false` [pcq]

### C39 Assignments and increments update exactly the designated object (partial)

False for %= and >>= when the signedness of the right operand differs, for the value of compound assignments computed in unsigned int, for _Bool targets of such, and for prefix ++/-- on bit-fields: negations proved. Proved for the remaining scalar assignments, compound assignments, increments and decrements. long double objects: simple assignment only.

* `Kefir.Expr.C39_add_bool_false` [pcq]
* `Kefir.Expr.C39_add_unsigned_result_false` [pcq]
* `Kefir.Expr.C39_assign_partial` [pcq]
* `Kefir.Expr.C39_compound_partial` [pcq]
* `Kefir.Expr.C39_incdec_partial` [pcq]
* `Kefir.Expr.C39_long_double_partial` [pcq]
* `Kefir.Expr.C39_mod_signedness_false` [pcq]
* `Kefir.Expr.C39_prefix_bitfield_false` [pcq]
* `Kefir.Expr.C39_shr_signedness_false` [pcq]

### C40 Static data images contain exactly the initialised values (partial)

Proved for all objects and all assignments of fitting values that leave no gaps of 128 slots (in particular for objects with at most 128 parts), and for objects without unions whatever the gaps. False otherwise: a union member is dropped if its own slot lies in a gap (C40_gap_false), the first rather than the last initialised member of a union is emitted (C40_union_false), and runs of more than 64 bits of bit-fields are undefined behaviour (C40_long_run_false).

* `Kefir.StaticData.C40_gap_false` [p]
* `Kefir.StaticData.C40_image_partial` [pcq]
* `Kefir.StaticData.C40_long_run_false` [p]
* `Kefir.StaticData.C40_no_unions` [pcq]
* `Kefir.StaticData.C40_small` [pcq]
* `Kefir.StaticData.C40_union_false` [p]

### C41 Every stored entry is released exactly once (proved)

* `Kefir.HashTree.C41_released_exactly_once` [pq]

### C42 Allocation failure during insertion is reported (partial)

False of the code for an empty tree (kefir_hashtree_insert does not check node_alloc); proved for non-empty trees, negation proved for the empty one.

* `Kefir.HashTree.C42_alloc_failure_reported_partial` [pq]
* `Kefir.HashTree.C42_false_of_empty_tree` [p]

### C43 Lists leak nothing and hold no freed entries (proved)

* `Kefir.LinkedList.C43_list_no_leak` [pcq]

### C44 Freeing a tree releases every node exactly once (proved)

* `Kefir.Tree.C44_tree_free_releases_all` [pq]

### C45 Vectors are bounded sequences (partial)

False of kefir_vector_copy on a non-empty vector (memcpy to the start of the content) and of kefir_vector_realloc on an allocated but empty vector (INVALID_STATE): negations proved. Append, indexing, copy into an empty vector and reallocation of other vectors proved.

* `Kefir.Vector.C45_copy_overwrites` [p]
* `Kefir.Vector.C45_realloc_empty_rejected` [pcq]
* `Kefir.Vector.C45_vector_append` [pq]
* `Kefir.Vector.C45_vector_at` [pq]
* `Kefir.Vector.C45_vector_copy_partial` [pq]
* `Kefir.Vector.C45_vector_realloc_partial` [pq]

### C46 Linked stacks are last-in first-out (proved)

* `Kefir.Stack.C46_linked_stack_lifo` [pcq]

### C47 The analyzer gives expressions their C types (proved)

* `Kefir.Expr.C47_expression_types` [pcq]
* `Kefir.Expr.C47_sizeof_false` [p]

### C48 Integer operators on integer variables, constants and casts compute their C value (proved)

* `Kefir.Expr.C48_integer_operators` [pcq]

### C49 Short-circuit evaluation on integer, pointer and long double operands (proved)

* `Kefir.Expr.C49_logical_and` [pcq]
* `Kefir.Expr.C49_logical_or` [pcq]

### C50 Stack discipline outside long double conditionals (proved)

* `Kefir.Expr.C50_stack_discipline` [pcq]

### C51 Identifiers are read to their end and keywords are recognised (proved)

* `Kefir.Lexer.C51_identifier_or_keyword` [pcq]

### C52 A token's location is that of its first character (proved)

* `Kefir.Lexer.C52_token_location` [pcq]

### C53 A type reported as naturally aligned contains no misaligned scalar (partial)

False of the code: an alignment requested for an aggregate overwrites the flag (C53_flag_false). Proved for types in which alignments are requested for scalars only.

* `Kefir.Layout.C53_flag_false` [pcq]
* `Kefir.Layout.C53_flag_partial` [pcq]

### C54 A bit-field of width zero ends the storage unit (partial)

False of the code: a bit-field of width 0 only ends the byte (C54_zero_width_false). Proved: the next member does not share a byte with the members before.

* `Kefir.Layout.C54_zero_width_false` [pcq]
* `Kefir.Layout.C54_zero_width_partial` [pcq]

### C55 Initialisers of bit-fields change only their own bits (partial)

False of the code: the mask has one bit too many, so that the first bit of the next field is overwritten (C55_order_false), and 63-bit fields are undefined behaviour (C55_63_false). Proved: stores in ascending order give every field its value; a store changes no bit but those of the field and the next one.

* `Kefir.StaticData.C55_63_false` [pq]
* `Kefir.StaticData.C55_ascending_partial` [pcq]
* `Kefir.StaticData.C55_order_false` [p]
* `Kefir.StaticData.C55_others_partial` [pcq]

### C56 Objects with initial values are put into loaded sections (partial)

False of the code: values after a gap of 128 slots are not seen, so that int a[200] = {[150] = 5} is emitted into .bss with a byte that is not zero (C56_gap_false). Proved: every object is emitted once into the section its mark selects, and the marks are right for values that leave no gaps.

* `Kefir.StaticData.C56_bss_partial` [pcq]
* `Kefir.StaticData.C56_gap_false` [p]
* `Kefir.StaticData.C56_marked_partial` [pcq]
* `Kefir.StaticData.C56_once` [pq]

### C57 Macro replacement yields what the C standard prescribes (partial)

False of the code as stated: arguments are expanded before # and ## (C57_stringize_false, C57_pasting_false) and the result of ## is rescanned for parameters (C57_rescan_false). Proved: for sets of definitions without # and ##, without recursion and with replacement texts closed with respect to parentheses (FirstOrder), the code yields exactly the replacement described by the independent relation Expands, which is unique.

* `Kefir.Preproc.C57_pasting_false` [pq]
* `Kefir.Preproc.C57_rescan_false` [pq]
* `Kefir.Preproc.C57_stringize_false` [pq]
* `Kefir.Preproc.Spec.C57_expansion_partial` [pcq]

### C58 A token sequence behaves as a list with push to the front (proved)

* `Kefir.Preproc.Sequence.C58_sequence_is_a_list` [pcq]

### C59 The # and ## operators act as the C standard prescribes (partial)

Proved for replacement lists in which the operands of # and ## are given as pieces (OperatorSpec) and arguments as they are after expansion; exact for joins of punctuators. Refuted: 1e ## + is rejected (C59_number_sign_false), # x ## y leaves ## in the text (C59_stringize_operand_false).

* `Kefir.Preproc.Spec.C59_function_like_partial` [pcq]
* `Kefir.Preproc.Spec.C59_number_sign_false` [p]
* `Kefir.Preproc.Spec.C59_object_like_partial` [pcq]
* `Kefir.Preproc.Spec.C59_punctuators` [pcq]
* `Kefir.Preproc.Spec.C59_stringize_operand_false` [pq]

### C60 Unbalanced conditionals are rejected (partial)

Proved: every #elif, #else and #endif of an accepted file belongs to an open section. Refuted: unterminated sections and repeated #else are accepted (C60_*_false).

* `Kefir.Preproc.Group.C60_nested_partial` [pq]
* `Kefir.Preproc.Group.C60_repeated_else_false` [p]
* `Kefir.Preproc.Group.C60_unterminated_false` [p]

### C61 Types are compatible exactly when C says so (partial)

Proved: exactly the compatible types of C17 for the types C35 covers, of any nesting. Refuted: unions, old-style definitions, qualified array parameters (C61_*_false) and ellipsis (C35_ellipsis_false).

* `Kefir.Compat.C61_exact_partial` [pcq]
* `Kefir.Compat.C61_old_style_false` [p]
* `Kefir.Compat.C61_qualified_array_false` [p]
* `Kefir.Compat.C61_union_false` [p]

### C62 Comparing types never has undefined behaviour (partial)

Proved for all types in which enumerations have tags and no member is a bit-field. Refuted: comparing a tagged enumeration with an untagged one, or a bit-field with an ordinary member, reads a null pointer (C62_*_false).

* `Kefir.Compat.C62_bit_field_false` [p]
* `Kefir.Compat.C62_defined_partial` [pq]
* `Kefir.Compat.C62_enum_tag_false` [p]

### C63 Constraints on labels and jumps are enforced (partial)

Proved, in both directions, for every body whose case constants are values of the promoted type of the controlling expression. Refuted otherwise: constants are compared before conversion (C63_duplicate_case_false). Not modelled: constraints on types, variable-length arrays.

* `Kefir.Stmt.C63_accepted_exactly_partial` [pcq]
* `Kefir.Stmt.C63_duplicate_case_false` [p]

### C64 An identifier is a typedef name exactly where a typedef declaration is in scope (proved)

With any symbol table or none; keys are strings compared by content.

* `Kefir.Scope.C64_typedef_names` [pcq]

### C66 Every declaration is released exactly once (proved)

Allocation succeeds; the callback is a log.

* `Kefir.Scope.C66_released_exactly_once` [pcq]

### C65 Declarations mean what C17 says (partial)

Proved for every history to which C17 gives a meaning and that avoids the declarations excluded by coveredDecl (Verif/Decl/Covered.lean); with exact types if no identifier with linkage is declared in a block. Every exclusion is justified by a refutation (C65_*_false). Not modelled: tags, old-style definitions, constancy and validity of initialisers, qualifiers of parameters.

* `Kefir.Decl.C65_aligned_register_false` [p]
* `Kefir.Decl.C65_block_composite_false` [p]
* `Kefir.Decl.C65_block_extern_thread_false` [p]
* `Kefir.Decl.C65_composite_initializer_false` [p]
* `Kefir.Decl.C65_declarations_partial` [pcq]
* `Kefir.Decl.C65_extern_initialized_false` [p]
* `Kefir.Decl.C65_initialized_pointer_false` [p]
* `Kefir.Decl.C65_static_pointers_false` [p]
* `Kefir.Decl.C65_typedef_initializer_false` [p]
* `Kefir.Decl.C65_typedef_same_false` [p]
* `Kefir.Decl.C65_typedef_variably_modified_false` [p]
* `Kefir.Decl.C65_types_partial` [pcq]

### C67 A translation unit exports its external definitions and imports what it declares (partial)

Proved under the conditions of C65, with inline definitions counted as exported; that they are is refuted to be C17 (C67_inline_false).

* `Kefir.Decl.C67_inline_false` [p]
* `Kefir.Decl.C67_symbols_partial` [pcq]

### C68 Every initialiser stores to the subobjects that C17 prescribes (partial)

Proved for every initialiser that the specification accepts, for types without anonymous members, flexible array members and misplaced unnamed bit-fields (Ty.good) and initialisers that satisfy covered (Verif/Init/Covered.lean). Every exclusion is justified by a refutation (C68_*_false). For static storage duration the contents are proved if no list resets what was initialised before. What the specification rejects is not covered: excess initialisers are accepted (C68_excess_false).

* `Kefir.Init.C68_after_anonymous_false` [p]
* `Kefir.Init.C68_anonymous_base_false` [p]
* `Kefir.Init.C68_anonymous_braces_false` [p]
* `Kefir.Init.C68_designated_aggregate_false` [p]
* `Kefir.Init.C68_designated_literal_false` [p]
* `Kefir.Init.C68_designated_string_false` [p]
* `Kefir.Init.C68_excess_false` [p]
* `Kefir.Init.C68_initialisers_partial` [pcq]
* `Kefir.Init.C68_nested_structure_false` [p]
* `Kefir.Init.C68_qualified_false` [p]
* `Kefir.Init.C68_scalar_braces_false` [p]
* `Kefir.Init.C68_static_contents_partial` [pcq]
* `Kefir.Init.C68_static_reset_false` [p]
* `Kefir.Init.C68_string_overflow_false` [p]
* `Kefir.Init.C68_trailing_bitfield_false` [p]
* `Kefir.Init.C68_union_bitfield_false` [p]

### C69 An array of unknown size gets its length from the initialiser (partial)

Under the conditions of C68, for non-empty initialisers in which a designation with several designators is not followed by another designation; otherwise the length is wrong (C69_lost_length_false).

* `Kefir.Init.C69_lost_length_false` [p]
* `Kefir.Init.C69_unknown_size_partial` [pcq]

### C70 Declaration specifiers mean what C17 says, in any order (partial)

Proved for specifiers in which long does not follow double, without _Atomic and _Complex, and without qualifiers on array, function and va_list typedef names (CoveredSpecs); what is accepted is characterised exactly up to superfluous int and a leading short. Refutations: C70_*_false.

* `Kefir.Declr.C70_alignment` [pq]
* `Kefir.Declr.C70_double_long_false` [pcq]
* `Kefir.Declr.C70_keyword_types` [pcq]
* `Kefir.Declr.C70_no_type_specifier_false` [pcq]
* `Kefir.Declr.C70_order_partial` [pq]
* `Kefir.Declr.C70_other_types` [pcq]
* `Kefir.Declr.C70_qualified_array_false` [p]
* `Kefir.Declr.C70_short_struct_false` [p]
* `Kefir.Declr.C70_specifiers_partial` [pq]
* `Kefir.Declr.C70_storage` [pcq]
* `Kefir.Declr.C70_storage_unique` [pq]
* `Kefir.Declr.C70_superfluous_int_false` [pcq]

### C71 A declarator gives its identifier the type that C17 prescribes (partial)

The analysis of declarators, under the conditions of C70 on all specifiers, parameters complete. Refutations: C71_*_false. Structures, unions, enumerations and expressions are parameters.

* `Kefir.Declr.C71_declaration_partial` [pq]
* `Kefir.Declr.C71_distinct_parameters` [pq]
* `Kefir.Declr.C71_identifier` [p]
* `Kefir.Declr.C71_identifier_list_false` [p]
* `Kefir.Declr.C71_identifiers_distinct_false` [p]
* `Kefir.Declr.C71_incomplete_parameter_false` [p]
* `Kefir.Declr.C71_parameter_qualifiers_false` [p]
* `Kefir.Declr.C71_parameter_specifiers_false` [p]
* `Kefir.Declr.C71_type_name_partial` [pq]
* `Kefir.Declr.C71_void_ellipsis_false` [pcq]

### C72 No declaration derives a type that C17 forbids (partial)

Not inside the types that functions return, nor for qualified function and array types, nor for array lengths (C72_*_false).

* `Kefir.Declr.C72_array_length_false` [pq]
* `Kefir.Declr.C72_derived_types_partial` [pcq]
* `Kefir.Declr.C72_qualified_functions_false` [p]
* `Kefir.Declr.C72_return_types_false` [p]
* `Kefir.Declr.C72_static_arrays` [p]
* `Kefir.Declr.C72_type_names_false` [p]

### C73 Declarations and type names are parsed as the C17 grammar says (partial)

Acceptance is proved for the grammar that C17 and kefir have in common (Dialect.common): without _Atomic(type), array lengths that start with *, and parameters whose abstract declarator starts with a parenthesised typedef name; soundness is proved for kefir's dialect. Each difference is refuted (C73_*_false). Attributes are left out, and the typedef scope is fixed.

* `Kefir.DeclParser.C73_atomic_false` [pq]
* `Kefir.DeclParser.C73_atomic_open_false` [pq]
* `Kefir.DeclParser.C73_common_is_accepted` [p]
* `Kefir.DeclParser.C73_common_is_c17` [p]
* `Kefir.DeclParser.C73_declarators_accepted` [pcq]
* `Kefir.DeclParser.C73_declarators_partial` [pcq]
* `Kefir.DeclParser.C73_expressions_accepted` [pcq]
* `Kefir.DeclParser.C73_expressions_partial` [pcq]
* `Kefir.DeclParser.C73_expressions_terminate` [pcq]
* `Kefir.DeclParser.C73_grammar_closed` [pq]
* `Kefir.DeclParser.C73_initializers_partial` [pcq]
* `Kefir.DeclParser.C73_members_accepted` [pcq]
* `Kefir.DeclParser.C73_members_partial` [pcq]
* `Kefir.DeclParser.C73_one_rule` [pcq]
* `Kefir.DeclParser.C73_parameter_false` [p]
* `Kefir.DeclParser.C73_parameter_star_false` [p]
* `Kefir.DeclParser.C73_parameters_accepted` [pcq]
* `Kefir.DeclParser.C73_parameters_partial` [pcq]
* `Kefir.DeclParser.C73_specifiers_accepted` [pcq]
* `Kefir.DeclParser.C73_specifiers_false` [pq]
* `Kefir.DeclParser.C73_specifiers_partial` [pcq]
* `Kefir.DeclParser.C73_star_bound_false` [pq]
* `Kefir.DeclParser.C73_terminates` [pcq]
* `Kefir.DeclParser.C73_type_names_accepted` [pcq]
* `Kefir.DeclParser.C73_type_names_partial` [pcq]
* `Kefir.DeclParser.C73_unambiguous` [pcq]

### C74 A translation unit is parsed as the C17 grammar says (partial)

Acceptance is proved for kefir's scopes and hence for all units that mean the same with the scopes of C17 (Dialect.common); soundness for kefir's dialect. Where the scopes differ from 6.2.1, the property is refuted (C74_*_false). Names of parameters and enumeration constants inside of parameter lists and specifiers do not hide typedef names in the specification; attributes and asm are left out.

* `Kefir.UnitParser.C74_common_is_accepted` [p]
* `Kefir.UnitParser.C74_common_is_c17` [pq]
* `Kefir.UnitParser.C74_declarations_accepted` [pcq]
* `Kefir.UnitParser.C74_declarations_partial` [pcq]
* `Kefir.UnitParser.C74_for_scope_false` [p]
* `Kefir.UnitParser.C74_label_false` [p]
* `Kefir.UnitParser.C74_nearest_if` [pcq]
* `Kefir.UnitParser.C74_own_initializer_false` [p]
* `Kefir.UnitParser.C74_parameter_false` [p]
* `Kefir.UnitParser.C74_parameter_scope_false` [p]
* `Kefir.UnitParser.C74_statements_accepted` [pcq]
* `Kefir.UnitParser.C74_statements_partial` [pcq]
* `Kefir.UnitParser.C74_terminates` [pcq]
* `Kefir.UnitParser.C74_unambiguous` [pcq]
* `Kefir.UnitParser.C74_units_accepted` [pcq]
* `Kefir.UnitParser.C74_units_partial` [pcq]

### C75 Every well-typed expression is accepted and has the type that C17 gives it (partial)

Proved for the rules that C17 and kefir have in common (Lang.common): C17 without qualified array members, pointer arithmetic on late completed structures, null pointer constants of enumerated type, addresses of string literals, casts to qualified void, members of qualified anonymous structures, each refuted by C75_*_false; relations between types (compatibility, promotions, composite types) must hold for C17 and kefir. Compound literals, builtins, GNU extensions and the values of constant expressions are left out.

* `Kefir.ExprType.C75_anonymous_false` [p]
* `Kefir.ExprType.C75_array_member_false` [pq]
* `Kefir.ExprType.C75_compatible_partial` [pcq]
* `Kefir.ExprType.C75_complete_partial` [pq]
* `Kefir.ExprType.C75_enum_null_false` [p]
* `Kefir.ExprType.C75_late_completion_false` [p]
* `Kefir.ExprType.C75_promotes` [pcq]
* `Kefir.ExprType.C75_shared` [p]
* `Kefir.ExprType.C75_string_address_false` [p]
* `Kefir.ExprType.C75_void_cast_false` [p]

### C76 No expression that violates a constraint is accepted (partial)

Proved against C17 extended by the features that the specification lists (Feature); most of them are refuted as C17 by C76_*_false. The same parts of expressions as in C75.

* `Kefir.ExprType.C76_array_target_false` [p]
* `Kefir.ExprType.C76_compare_false` [p]
* `Kefir.ExprType.C76_const_member_false` [p]
* `Kefir.ExprType.C76_function_arithmetic_false` [p]
* `Kefir.ExprType.C76_function_order_false` [p]
* `Kefir.ExprType.C76_generic_false` [p]
* `Kefir.ExprType.C76_incomplete_arithmetic_false` [p]
* `Kefir.ExprType.C76_integer_to_pointer_false` [p]
* `Kefir.ExprType.C76_lost_qualifiers_false` [p]
* `Kefir.ExprType.C76_register_false` [p]
* `Kefir.ExprType.C76_rvalue_member_false` [p]
* `Kefir.ExprType.C76_sizeof_false` [p]
* `Kefir.ExprType.C76_sound_partial` [pq]
* `Kefir.ExprType.C76_type` [pq]
* `Kefir.ExprType.C76_void_argument_false` [p]
* `Kefir.ExprType.C76_void_function_false` [p]

### C77 Return statements obey 6.8.6.4 (partial)

Both directions, for the languages of C75 and C76.

* `Kefir.ExprType.C77_return_complete_partial` [pq]
* `Kefir.ExprType.C77_return_sound_partial` [pq]

### C78 The preprocessor reads the longest preprocessing token (partial)

The longest token is read with its value, position and end for every good codec (ASCII characters encode as themselves), except at punctuator dead ends, before \u or \U that names no character, for identifiers of more than 255 characters and wide string numbers above 2^31-1; texts with a stray quote (undefined) are left out. Whitespace with its newline flag, the end and texts without a token are covered. Refuted: two dots (C78_dead_end_false), other characters such as @ (C78_other_character_false), a\u; (C78_backslash_false), \u0041 accepted (C78_universal_name_false), L"\xffffffff" rejected (C78_wide_number_false), out of range u character constants truncated (C78_out_of_range_false).

* `Kefir.PpToken.C78_backslash_false` [pcq]
* `Kefir.PpToken.C78_dead_end_false` [pcq]
* `Kefir.PpToken.C78_end` [pcq]
* `Kefir.PpToken.C78_longest_partial` [pcq]
* `Kefir.PpToken.C78_no_token_partial` [pcq]
* `Kefir.PpToken.C78_other_character_false` [pcq]
* `Kefir.PpToken.C78_out_of_range_false` [pcq]
* `Kefir.PpToken.C78_universal_name_false` [pcq]
* `Kefir.PpToken.C78_whitespace` [pcq]
* `Kefir.PpToken.C78_wide_number_false` [pcq]

### C79 Preprocessed output can be read back (partial)

Proved for tokens that are Printable and Separated: all identifiers and numbers of ASCII characters, all punctuators (digraphs become their primary spelling), whitespace, single ASCII character constants, ASCII strings without a null character before an octal digit, all u and U strings, wide strings of printable characters; no token runs into the next. What is left out is refuted by C79_*_false: L, u and U character constants, multicharacter constants, bytes outside ASCII, null before a digit, wide strings with quotes, universal character names in identifiers, adjacent tokens that merge.

* `Kefir.PpToken.C79_adjacent_false` [pcq]
* `Kefir.PpToken.C79_high_byte_false` [pcq]
* `Kefir.PpToken.C79_multicharacter_false` [pcq]
* `Kefir.PpToken.C79_null_digit_false` [pcq]
* `Kefir.PpToken.C79_round_trip_partial` [pcq]
* `Kefir.PpToken.C79_unicode_character_false` [pcq]
* `Kefir.PpToken.C79_universal_name_false` [pcq]
* `Kefir.PpToken.C79_wide_character_false` [pcq]
* `Kefir.PpToken.C79_wide_quote_false` [pcq]

### C80 The # operator retains the spelling of its argument (partial)

Proved for arguments of identifiers, numbers, punctuators other than digraphs, unprefixed character constants and narrow strings without escapes, quotes and question marks, and whitespace tokens. Refuted: escape sequences (C80_escape_false), ? and quotes get backslashes (C80_quote_false), digraphs (C80_digraph_false), prefixes of character constants are lost (C80_prefix_false), two blanks stay two (C80_whitespace_false).

* `Kefir.PpToken.C80_digraph_false` [pcq]
* `Kefir.PpToken.C80_escape_false` [pcq]
* `Kefir.PpToken.C80_prefix_false` [pcq]
* `Kefir.PpToken.C80_quote_false` [pcq]
* `Kefir.PpToken.C80_stringify_partial` [pcq]
* `Kefir.PpToken.C80_whitespace_false` [pcq]

### C81 Preprocessing numbers and identifiers become the tokens they spell (partial)

Proved: every number of ASCII characters that is an integer or floating constant becomes it (C81_constant); a number is converted if and only if it is a constant or in the list Lax, and otherwise an error is reported (C81_number_partial); identifiers up to 255 ASCII characters become keywords or stay (C81_identifier_partial); the others are passed on (C81_others). Refuted: 0x1.8 without exponent accepted (C81_no_exponent_false), 0x..5 read as .5 (C81_two_dots_false), 18446744073709551616 becomes 0 (C81_overflow_false), identifiers with universal character names are refused (C81_universal_name_false).

* `Kefir.PpToken.C81_constant` [pcq]
* `Kefir.PpToken.C81_constant_unique` [pcq]
* `Kefir.PpToken.C81_identifier_partial` [pcq]
* `Kefir.PpToken.C81_no_exponent_false` [pcq]
* `Kefir.PpToken.C81_number_partial` [pcq]
* `Kefir.PpToken.C81_others` [pcq]
* `Kefir.PpToken.C81_overflow_false` [pcq]
* `Kefir.PpToken.C81_two_dots_false` [pcq]
* `Kefir.PpToken.C81_universal_name_false` [pcq]

### C82 Adjacent string literals become one (partial)

Proved for literals that encode characters (up to U+FFFF for UTF-16 literals), each without prefix or with the same prefix. Refuted: "a" "\xff" is an error (C82_high_byte_false), escapes in an unprefixed literal merge into one character beside a prefixed one (C82_escape_false), literals with different prefixes are left as two tokens (C82_prefixes_false).

* `Kefir.PpToken.C82_escape_false` [pcq]
* `Kefir.PpToken.C82_high_byte_false` [pcq]
* `Kefir.PpToken.C82_prefixes_false` [pcq]
* `Kefir.PpToken.C82_translation_partial` [pcq]

### C83 Automatic objects that are alive at the same time do not share storage (proved)

For every tree of scopes whose automatic objects have complete types that are not variable length arrays, with the layouts of C21. Alignment is relative to the start of the locals and needs requested alignments that are powers of two; the alignment of the start is the subject of C84.

* `Kefir.Locals.C83_aligned` [pcq]
* `Kefir.Locals.C83_disjoint` [pcq]
* `Kefir.Locals.C83_storage` [pcq]

### C84 The pieces of storage in a stack frame do not overlap (partial)

Proved for functions whose parameters have alignments that are powers of two, whose local objects form one structure (as the translator declares them) and which fetch no aggregate passed in registers from variable arguments; objects are aligned if their alignment divides 16. Refuted: a size is taken for an alignment when an aggregate is fetched from variable arguments, and a parameter overlaps the register save area (C84_varargs_false); several separate local objects (C84_locals_false, not reachable from C); alignments above 16 (C84_aligned_false).

* `Kefir.Call.C84_aligned_false` [pcq]
* `Kefir.Call.C84_aligned_partial` [pq]
* `Kefir.Call.C84_frame_partial` [pcq]
* `Kefir.Call.C84_locals_false` [pcq]
* `Kefir.Call.C84_varargs_false` [pcq]

### C85 A function receives the values it has been called with (proved)

For all parameter types apart from bit-fields and padding, which are no types of parameters, whenever locations are assigned (C22). The model says what the emitted instructions do; the operand stack, the objects arguments point to, the arguments on the stack and the frame are separate memories.

* `Kefir.Call.C85_arguments_arrive` [pcq]

### C86 Variable arguments are fetched with the values they were passed with (partial)

Proved for named parameters that take a multiple of eight bytes on the stack and variable arguments that are neither long doubles nor aligned to more than sixteen bytes, for any number of them and everything done in between that leaves the register save area alone. Refuted without these conditions: va_start does not round up the size of the named parameters (C86_stack_false), va_arg does not align long doubles (C86_long_double_false), larger alignments are relative to different origins (C86_alignment_false). Aggregates fetched from registers share one place, so an earlier one is lost when the next is fetched (C86_kept_false). Addresses are unbounded numbers.

* `Kefir.Call.C86_alignment_false` [pcq]
* `Kefir.Call.C86_copy` [pq]
* `Kefir.Call.C86_kept_false` [pcq]
* `Kefir.Call.C86_long_double_false` [pcq]
* `Kefir.Call.C86_stack_false` [pcq]
* `Kefir.Call.C86_varargs_partial` [pcq]

### C87 A call yields the value that the function returns (partial)

Proved for all types of results whose eightbytes in registers have all got a class. Of an aggregate that is returned on the floating point stack only the ten bytes of the long double arrive, the others are padding. Refuted: a function that returns a structure with an eightbyte of padding cannot be compiled (C87_padding_false). va_list is not returned by functions. The operand stacks are kept apart from memory; addresses are below 2^64.

* `Kefir.Call.C87_padding_false` [pcq]
* `Kefir.Call.C87_result_arrives_partial` [pcq]

### C88 Directives are recognised and read as the standard says (partial)

Proved for all files whose lines are plain: no comments before the # or between it and the name, # not written as a digraph, no digit after the name, no #pragma, no comment with a newline at the end of #else, #endif, #ifdef, #ifndef, #undef and #include <...>. Refuted without these conditions (C88_*_false); a file that ends inside a header name is never finished (C88_header_end_false). That accepted text is a directive of the standard is not claimed (a trailing comma in a parameter list, missing white space after a macro name and tokens after #else are accepted).

* `Kefir.Directive.C88_comment_after_false` [pcq]
* `Kefir.Directive.C88_comment_before_false` [pcq]
* `Kefir.Directive.C88_comment_inside_false` [pcq]
* `Kefir.Directive.C88_deterministic` [pcq]
* `Kefir.Directive.C88_digraph_false` [pcq]
* `Kefir.Directive.C88_directives_partial` [pcq]
* `Kefir.Directive.C88_double_hash_false` [pcq]
* `Kefir.Directive.C88_header_end_false` [pcq]
* `Kefir.Directive.C88_name_false` [pcq]
* `Kefir.Directive.C88_pragma_false` [pcq]

### C89 Tags name the types the standard says they name (partial)

Proved for all translation units in which no tag is declared alone, or mentioned in its own definition, while only an outer scope declares it, no enumeration is mentioned before its definition, and the tag of a type that was incomplete where an accessed object or member was declared names that type at the access and, for objects, at the end of the function outside of its blocks. Refuted without each of these conditions (C89_*_false). Members and objects are pointers to the type of their specifier.

* `Verif.Tags.C89_alone_false` [p]
* `Verif.Tags.C89_block_false` [p]
* `Verif.Tags.C89_enum_false` [p]
* `Verif.Tags.C89_hidden_false` [p]
* `Verif.Tags.C89_hidden_kind_false` [p]
* `Verif.Tags.C89_later_false` [p]
* `Verif.Tags.C89_self_false` [p]
* `Verif.Tags.C89_self_refused_false` [p]
* `Verif.Tags.C89_tags_partial` [pcq]

### C90 Address constants have the value of the expression (partial)

Value: proved for everything that is accepted except addresses cut to narrower types, addresses on both sides of an integer operator, differences of pointers, computed addresses as conditions, and arithmetic in types narrower than eight bytes (C17). Acceptance: proved for the address constants without *, without & or [] on string literals, without arrays that are members or elements, without arrays on the left of ->. Each exception is refuted (C90_*_false). Compound literals, floating-point values and comparison of addresses are not modelled.

* `Verif.AddrConst.C90_accepted_partial` [pq]
* `Verif.AddrConst.C90_array_member_false` [p]
* `Verif.AddrConst.C90_arrow_array_false` [p]
* `Verif.AddrConst.C90_condition_false` [p]
* `Verif.AddrConst.C90_determined_partial` [pcq]
* `Verif.AddrConst.C90_difference_false` [p]
* `Verif.AddrConst.C90_garbage_false` [p]
* `Verif.AddrConst.C90_indirection_false` [p]
* `Verif.AddrConst.C90_literal_false` [p]
* `Verif.AddrConst.C90_narrow_false` [p]
* `Verif.AddrConst.C90_value_partial` [pcq]

### C91 Enumeration constants have the values of their enumerators (partial)

Proved for constant expressions of integer types that are promoted to signed types (the others: C17): values, scopes, refusals and the type of the enumeration. Constants that do not fit int are not refused (C91_next_false, C91_representable_false), and INT64_MAX is incremented (C91_increment_false). Tags are in C89.

* `Kefir.Enumerators.C91_increment_false` [pq]
* `Kefir.Enumerators.C91_next_false` [pq]
* `Kefir.Enumerators.C91_refused_partial` [pcq]
* `Kefir.Enumerators.C91_representable_false` [pq]
* `Kefir.Enumerators.C91_values_partial` [pcq]

### C92 An included file is processed as if it stood in place of the directive (partial)

Soundness, pasting, guards, missing files and the order of the search are proved in full. Acceptance needs that nothing on the search path is a directory or unresolvable: then the search ends with an error instead of going on (C92_search_false, C92_directory_false). Nesting is bounded by an arbitrary number; the program exhausts its stack on a file that includes itself (C92_self).

* `Kefir.Include.C92_accepted_partial` [pcq]
* `Kefir.Include.C92_directory_false` [pcq]
* `Kefir.Include.C92_found` [pq]
* `Kefir.Include.C92_found_partial` [pq]
* `Kefir.Include.C92_guard` [pcq]
* `Kefir.Include.C92_included` [pcq]
* `Kefir.Include.C92_missing` [pcq]
* `Kefir.Include.C92_pasted` [pcq]
* `Kefir.Include.C92_search_false` [pcq]
* `Kefir.Include.C92_self` [pcq]

### C93 The assembly text of data defines the objects and string literals of the program (partial)

That the text defines the images of the emission (C40), the sections and the literals is proved in full (C93_data), and that objects lie at multiples of their alignments (C93_aligned). Together with C40 for the initialiser (C93_object_partial; missing as in C40). String literals of wide characters are not aligned (C93_literal_alignment_false).

* `Kefir.AsmData.C93_aligned` [pq]
* `Kefir.AsmData.C93_data` [pcq]
* `Kefir.AsmData.C93_literal_alignment_false` [pcq]
* `Kefir.AsmData.C93_object_partial` [pcq]

### C94 A group that is not selected is skipped up to the directive that ends it, whatever it contains (partial)

Proved for every text in which the skipped lines and the one that ends the group are plain (C94_skip_partial): comments neither go over the end of a line nor come before the name of a directive, # is not spelled %:, a directive name is not followed by digits, and #else or #elif by #. Each restriction is shown to be necessary (the C94_…_false theorems).

* `Kefir.Skip.C94_comment_before_false` [pcq]
* `Kefir.Skip.C94_comment_false` [pcq]
* `Kefir.Skip.C94_digraph_false` [pcq]
* `Kefir.Skip.C94_lines` [pq]
* `Kefir.Skip.C94_name_false` [pcq]
* `Kefir.Skip.C94_nested_else_false` [pcq]
* `Kefir.Skip.C94_skip_partial` [pcq]

### C95 Command-line options have the effect that is described, however they are written and in whatever order (partial)

Proved for every command line with full names and numbers for times (C95_options_partial), with the refusal of everything that is not an option (C95_refused), the converse for all accepted command lines, abbreviations included (C95_accepted), the exclusion of -p and -P (C95_exclusive) and the use of the settings (C95_run_partial). Not so: --dump-asm and --include-path are described and refused (C95_help_false), ambiguous abbreviations are accepted (C95_abbreviation_false), times that are not numbers (C95_number_false), -p --dump-ast -P (C95_conflict_false), macro names that are not identifiers (C95_macro_false), --pp-timestamp is ignored by --preprocess (C95_time_false).

* `Kefir.Cli.C95_abbreviation_false` [pcq]
* `Kefir.Cli.C95_accepted` [pcq]
* `Kefir.Cli.C95_conflict_false` [pcq]
* `Kefir.Cli.C95_exclusive` [pcq]
* `Kefir.Cli.C95_help_false` [pcq]
* `Kefir.Cli.C95_macro_false` [pcq]
* `Kefir.Cli.C95_number_false` [pcq]
* `Kefir.Cli.C95_options_partial` [pcq]
* `Kefir.Cli.C95_refused` [pcq]
* `Kefir.Cli.C95_run_partial` [pcq]
* `Kefir.Cli.C95_time_false` [pcq]

### C96 The assembly text of a function is the table that its instructions stand for (partial)

Proved for all functions with names of at most 219 characters, without names that are operators of the assembler and without va_arg of padding (C96_body_partial, C96_jump_partial, C96_defined_partial), without repeated va_arg of va_list (C96_accepted_partial) and without va_arg of bits (C96_routine_partial); gates have different labels (C96_gates). Without these conditions it is false: C96_long_name_false, C96_padding_false, C96_va_list_false, C96_bits_false, C96_vgate_false.

* `Kefir.AsmCode.C96_accepted_partial` [pcq]
* `Kefir.AsmCode.C96_bits_false` [pcq]
* `Kefir.AsmCode.C96_body_partial` [pcq]
* `Kefir.AsmCode.C96_defined_partial` [pcq]
* `Kefir.AsmCode.C96_gates` [pcq]
* `Kefir.AsmCode.C96_jump_partial` [pcq]
* `Kefir.AsmCode.C96_long_name_false` [pcq]
* `Kefir.AsmCode.C96_padding_false` [pcq]
* `Kefir.AsmCode.C96_routine_partial` [pcq]
* `Kefir.AsmCode.C96_va_list_false` [pcq]
* `Kefir.AsmCode.C96_vgate_false` [pcq]

### C97 When the body of a function begins, each named parameter holds the value of its argument (partial)

Proved for all parameters but qualified long double in an identifier list or unnamed in a prototype, and _Bool in an identifier list passed with upper bits that are not an extension (C97_parameters_partial; with the body, C97_call_partial, for the statements of C36). Without these conditions it is false: C97_qualified_false, C97_unnamed_false, C97_bool_false. Size expressions of variably modified parameters are not modelled.

* `Kefir.Entry.C97_bool_false` [pq]
* `Kefir.Entry.C97_call_partial` [pcq]
* `Kefir.Entry.C97_parameters_partial` [pcq]
* `Kefir.Entry.C97_qualified_false` [pq]
* `Kefir.Entry.C97_unnamed_false` [pq]

### C98 After #line, __LINE__ counts from the given number and __FILE__ is the given name (partial)

C98_line_partial: the first token after replacement is not white space, and the next line does not begin with a comment; lines below 2^32. Without these conditions it is false: C98_comment_false, C98_leading_comment_false. C98_first_lines is the case without #line; C98_number_unique says that the constant determines the line. Tokens that come from a user macro, whose location is that of the macro name, are not modelled.

* `Kefir.LineDir.C98_comment_false` [pcq]
* `Kefir.LineDir.C98_first_lines` [pcq]
* `Kefir.LineDir.C98_leading_comment_false` [pcq]
* `Kefir.LineDir.C98_line_partial` [pcq]
* `Kefir.LineDir.C98_number_unique` [pq]

### C99 A caller reads the errors that were reported, the latest first, and nothing is written outside their room (partial)

C99_record_partial and C99_overflow_partial: the location printed in front of a message with a format has at most 240 characters, and no call follows while a warning is the latest of 32 reports. Without these conditions it is false: C99_long_name_false (a file name of 240 characters makes vsnprintf write outside the payload), C99_warning_false (the error after the warning is lost).

* `Kefir.Errors.C99_long_name_false` [pcq]
* `Kefir.Errors.C99_overflow_partial` [pcq]
* `Kefir.Errors.C99_record_partial` [pcq]
* `Kefir.Errors.C99_warning_false` [pcq]

### C100 Values of initialisers go to the bytes that their designators name (partial)

Slots are proved distinct, within range and independent of the other initialisers for all types (C100_slots). The bytes are proved to be those of the last value given for a part (C100_value_partial, with C40), also without a condition on gaps for objects of at most 128 parts (C100_small_partial). Missing: the values of single bit-fields (C55), several members of one union, and uses of slots with gaps (C40_gap_false). C100_empty_struct_false: the tree of a type whose traversal fails is emptied and success is reported.

* `Kefir.Slots.C100_empty_struct_false` [pq]
* `Kefir.Slots.C100_slots` [pcq]
* `Kefir.Slots.C100_small_partial` [pcq]
* `Kefir.Slots.C100_value_partial` [pcq]

### C101 Unnamed objects have storage of their own (proved)

C101_local goes from the analysis of a function to the address that the instructions of the translator compute, with the frame of C83. C101_global is about the names of the objects defined outside of functions. Requested alignments are powers of two for the statement about alignment.

* `Kefir.Temps.C101_global` [pcq]
* `Kefir.Temps.C101_local` [pcq]

### C102 Arguments and results of calls have the types and values C prescribes (partial)

C102_arguments_partial and C102_indirect_partial are about the code in front of the INVOKE, C102_declaration about the IR declaration, C102_received_partial goes on to the entry of the called function (C97), C102_scalar_result_partial and C102_aggregate_result are about the code behind the INVOKE. Missing: expressions excluded in C13 to C16 and the parameters excluded in C97; results of type _Bool that the called function does not extend to the whole register (C102_bool_result_false).

* `Kefir.Passing.C102_aggregate_result` [pcq]
* `Kefir.Passing.C102_arguments_partial` [pcq]
* `Kefir.Passing.C102_bool_result_false` [pq]
* `Kefir.Passing.C102_declaration` [pcq]
* `Kefir.Passing.C102_indirect_partial` [pcq]
* `Kefir.Passing.C102_received_partial` [pcq]
* `Kefir.Passing.C102_scalar_result_partial` [pcq]

### C103 Alignment specifiers are obeyed (partial)

C103_accepted_partial and C103_object_partial need types that have the alignment of the type named by the specifiers and requests that are zero or powers of two; placement is for requests up to 128. C103_order is proved in full. Without these hypotheses the property is false: C103_large_false, C103_pointer_false, C103_pointer_rejected_false, C103_power_false, C103_negative_false. Offsets are relative to the storage the object is part of; the start of the storage is in C84 and C93.

* `Kefir.Alignas.C103_accepted_partial` [pq]
* `Kefir.Alignas.C103_large_false` [p]
* `Kefir.Alignas.C103_negative_false` [-]
* `Kefir.Alignas.C103_object_partial` [pcq]
* `Kefir.Alignas.C103_order` [pcq]
* `Kefir.Alignas.C103_pointer_false` [p]
* `Kefir.Alignas.C103_pointer_rejected_false` [p]
* `Kefir.Alignas.C103_power_false` [pq]

### C104 Variable length arrays have their size and storage of their own (partial)

C104_size_partial and C104_declaration_partial exclude arrays of known length with elements of variable length (C104_inner_false) and lengths outside the expressions of C13. C104_storage_partial excludes blocks left in front of their first declaration (C104_jump_false). C104_released_partial and C104_released_inner_partial need one array per block; for two it is false (C104_leak_false, C104_released_false). C104_builtin_partial is for blocks with one array; otherwise storage of the built-in function can be released early (C104_builtin_false). Jumps within the declaring block and the move of the operand stack are not modelled.

* `Kefir.Vla.C104_builtin_false` [p]
* `Kefir.Vla.C104_builtin_partial` [pcq]
* `Kefir.Vla.C104_declaration_partial` [pcq]
* `Kefir.Vla.C104_inner_false` [pq]
* `Kefir.Vla.C104_jump_false` [p]
* `Kefir.Vla.C104_leak_false` [pcq]
* `Kefir.Vla.C104_released_false` [pcq]
* `Kefir.Vla.C104_released_inner_partial` [pq]
* `Kefir.Vla.C104_released_partial` [pq]
* `Kefir.Vla.C104_size_partial` [pcq]
* `Kefir.Vla.C104_storage_partial` [pcq]

### C105 Intermediate values and objects survive taking and giving back storage (proved)

C105_values relates every execution of the byte-level opcodes to a list of values and the storage of C104; C105_objects is about the bytes above the storage in use, C105_room says when operations succeed, C105_scope that the condition on the end of a scope holds for the programs of C104_storage_partial.

* `Kefir.Carry.C105_objects` [pcq]
* `Kefir.Carry.C105_room` [pcq]
* `Kefir.Carry.C105_scope` [pcq]
* `Kefir.Carry.C105_values` [pcq]

### C106 No jump leads into the scope of a variable length array, and jumps out of it release the array (partial)

C106_rejects is proved in full. C106_accepts_partial excludes blocks entered that declare an array behind the target (C106_accepts_false). C106_release_partial excludes blocks left in front of their first declaration (C104_jump_false) and jumps within a block, between two of its declarations, to a label between the same two (C106_stays_false). Pointers to arrays of variable length are not recorded by the compiler and not modelled.

* `Kefir.JumpVla.C106_accepts_false` [p]
* `Kefir.JumpVla.C106_accepts_partial` [pcq]
* `Kefir.JumpVla.C106_rejects` [pcq]
* `Kefir.JumpVla.C106_release_partial` [pcq]
* `Kefir.JumpVla.C106_stays_false` [p]

### C107 The type, the constant value and the code of a generic selection come from one association, the one C prescribes (partial)

C107_passes, the agreement of the passes, is proved in full. C107_result_partial, the choice that C prescribes, is for the types of C61 and C62 and for selections that obey 6.5.1.1p2, which is not checked (C107_ambiguous_false). The default association is not checked if another matches (C107_default_false), and selections cannot be used as lvalues although they are accepted as such (C107_lvalue_false).

* `Kefir.Generic.C107_ambiguous_false` [p]
* `Kefir.Generic.C107_default_false` [p]
* `Kefir.Generic.C107_lvalue_false` [p]
* `Kefir.Generic.C107_passes` [pq]
* `Kefir.Generic.C107_result_partial` [pcq]

### C108 A static assertion is accepted exactly if its condition is not zero (partial)

C108_assertion_partial is for conditions without arithmetic in unsigned long and without the operations for which the evaluator differs from C (C17); C108_never_wrong_partial admits unsigned long. Outside of these the property is false: a violated assertion is accepted (C108_accepted_false), a valid one fails (C108_failed_false) or makes the compiler overflow (C108_undefined_false). Conditions with floating or address constants are not modelled.

* `Kefir.Assert.C108_accepted_false` [pq]
* `Kefir.Assert.C108_assertion_partial` [pcq]
* `Kefir.Assert.C108_failed_false` [pq]
* `Kefir.Assert.C108_never_wrong_partial` [pcq]
* `Kefir.Assert.C108_not_constant` [pq]
* `Kefir.Assert.C108_undefined_false` [pq]

## Findings

Places where the code at the pinned commit deviates from C17 or from its own interface.  Items followed by theorem names are
proved of the model; the others were seen while reading and are not modelled.

### Containers and utilities
* `kefir_hashtree_insert` reports success when the allocation for an empty tree fails (C42).
* `kefir_vector_copy` overwrites the target's elements; `kefir_vector_realloc` rejects an allocated empty vector (C45).
* `kefir_block_tree_get` does not check its allocation; `kefir_list_free` leaves `tail` and `length` stale.
* UTF-16 string buffers store only the high surrogate of characters from U+10000 on (`C27_surrogate_false`).
* JSON output: `\a`, `\v`, `\?` and raw control characters, non-finite numbers, several outermost values (C29 `*_false`).

### Lexer
* Integer constants are reduced modulo 2^64 (`C07_overflow_accepted`); `08` is read as `0` followed by `8`.
* `..x` and `%:%x` match no punctuator (`C08_dead_end_unmatched`).
* Hexadecimal escapes wrap at 2^32 (`C11_hex_overflow_accepted`).
* A character constant that is never closed loops for ever at the terminating null character (`C38_unclosed_false`); header names likewise.
* `0x..5` and hexadecimal floating constants without exponent are accepted; `"\xff" L"a"` is rejected.

### Preprocessor
* Arguments are macro-expanded before `#` and `##` (`C57_stringize_false`, `C57_pasting_false`); the result of `##` is rescanned for parameters (`C57_rescan_false`).
* Only the macro's own name is painted, so mutual recursion does not terminate (`C33_mutual_recursion_false`, `C33_completed_later_false`); the skip flag is ignored in `#if` (`C33_if_condition_false`); `##` may loop (`C33_pasting_false`).
* `1e ## +`, `L ## "x"`, `. ## 5` are rejected; `# x ## y` leaves `##` in the text (`C59_number_sign_false`, `C59_stringize_operand_false`).
* Unterminated `#if` and repeated `#else` are accepted (`C60_unterminated_false`, `C60_repeated_else_false`).
* A comment before `#` hides the directive; comments over several lines in skipped groups are not recognised; unknown directives are skipped silently; `F(a)` is rejected for `F(x, ...)`; function-like macro names without parentheses in `#if` are not replaced by 0; `%:` is not `#`.

### Parser
* A postfix operator after a compound literal is rejected (`C34_literal_postfix_false`).
* `f(a,)`, `{}` and `_Alignof(expression)` are accepted.
* An assignment expression is parsed as a unary expression first and then again as a conditional one: time is exponential in the nesting of parentheses.
* `_Atomic(type)` never consumes its closing parenthesis; storage-class specifiers are accepted in type names.

### Types and expressions
* `long` and `long long` share a rank (C12); `sizeof` has type `int` (C13).
* The conditional operator does not convert its operands to the common type (C13 `*_false`); a `long double` condition unbalances the stack (C37).
* Truth of `float` and `double` is tested on raw bits (C15, C16).
* `%=` and `>>=` choose signedness by the right operand; compound assignments in `unsigned int` leave an untruncated value; `_Bool` targets (C39).
* Bit-fields of width 64 have mask 0 (C19).
* Constant expressions: operations in `unsigned int` are not reduced modulo 2^32 and shifts take their signedness from the common type (C17 `*_false`); `e % 0`, `INT64_MIN / -1`, wide shifts are host undefined behaviour (C18 `*_false`).
* Compatibility: untagged enumerations (`strcmp(NULL)`), bit-field members against ordinary ones (null dereference, C62 `*_false`); unions look up fields in the wrong type, ellipsis checked in one direction only (C35, C61 `*_false`); the composite of a complete and an incomplete structure is incomplete.

### Statements
* `switch` leaves its value on the operand stack when no case matches, so a loop around it grows the stack (`C36_switch_stack_false`).
* A `long double` third clause of `for` pops one of two words (`C36_for_tail_stack_false`).
* Case constants are not converted to the promoted type of the controlling expression (`C36_case_conversion_false`, `C63_duplicate_case_false`).
* `return x` with `x` of a qualified type is not converted to the return type (`C36_return_conversion_false`).
* `main` falling off its end returns an unspecified value; parameters of qualified `long double` type are mis-ordered; a scalar initialiser for an aggregate leaves an address on the stack; jumping out of a statement expression leaves operands on the stack.

### Layout, ABI and static data
* Bit-field offsets wrap for runs over 256 bits (`C20_long_run_false`); `:0` only ends the byte (`C54_zero_width_false`).
* A requested alignment overwrites the natural-alignment flag (`C53_flag_false`).
* Nested structures with padding are classified wrongly or rejected (`C23_nested_false`, `C22_total_false`).
* `kefir_ir_data_set_bitfield` masks one bit too many (`C55_order_false`, `C55_63_false`); runs over 64 bits are undefined behaviour (`C40_long_run_false`).
* Values after a gap of 128 slots are not seen (`C56_gap_false`, `C40_gap_false`); a union emits its first initialised member (`C40_union_false`).

### Declarations
* `extern _Thread_local` in a block is treated as `extern` (`C65_block_extern_thread_false`); `static int x; extern int x = 5;` is rejected (`C65_extern_initialized_false`).
* Typedef names may be redefined as compatible or variably modified types (`C65_typedef_same_false`, `C65_typedef_variably_modified_false`) and initialised (`C65_typedef_initializer_false`).
* Static arrays of pointers to variable length arrays and initialised pointers to variable length arrays are rejected (`C65_static_pointers_false`, `C65_initialized_pointer_false`); `register _Alignas` is accepted (`C65_aligned_register_false`).
* `extern int a[5]; int a[] = {1, 2};` makes an array of 2 (`C65_composite_initializer_false`); a size given in a block persists (`C65_block_composite_false`).
* Inline definitions are exported (`C67_inline_false`).
* Read, not modelled: allocation of scoped identifiers is not checked; after a failure `init_declarator.c` frees an alignment that the scoped identifier owns already; qualifiers of parameters are dropped; block-scope static initialisers need not be constant; `struct S { struct S *p; }` in a block refers to an outer `struct S`, and so does `struct S;`.

### Initialisers
* Rejected or crashing although C17 allows it: unnamed bit-fields at the end of a structure (`C68_trailing_bitfield_false`, null pointer) or in a union (`C68_union_bitfield_false`); brace elision into qualified structures (`C68_qualified_false`); an expression for a designated structure (`C68_designated_aggregate_false`, `C68_designated_literal_false`); a structure value two levels down (`C68_nested_structure_false`).
* Stored to the wrong place: after a designator into an anonymous member (`C68_after_anonymous_false`), braces around the initialiser of an anonymous member (`C68_anonymous_braces_false`), anonymous members of nested structures (`C68_anonymous_base_false`), after an elided brace with the missing-braces option (`C68_designated_aggregate_false`).
* `char a[2] = "ab";` with automatic storage duration writes three characters (`C68_string_overflow_false`); a static object is not reset by a later list (`C68_static_reset_false`).
* Accepted although C17 forbids it: excess initialisers (`C68_excess_false`), extra braces and items for scalars (`C68_scalar_braces_false`), a string literal for an element of a character array (`C68_designated_string_false`).
* The length of an array of unknown size is lost after a nested designation (`C69_lost_length_false`).

### Specifiers and declarators
* Rejected although C17 allows it: `double long` (`C70_double_long_false`), a parameter of incomplete type in a declaration that is no definition (`C71_incomplete_parameter_false`); `_Atomic` and `_Complex` always.
* Accepted although C17 forbids it: no type specifier (`C70_no_type_specifier_false`), superfluous `int` (`C70_superfluous_int_false`), `short struct S` (`C70_short_struct_false`), `inline` and `_Alignas` on unnamed parameters (`C71_parameter_specifiers_false`), a list of identifiers outside of a definition (`C71_identifier_list_false`), `(void, ...)` (`C71_void_ellipsis_false`), array lengths of zero and below (`C72_array_length_false`), invalid types inside return types (`C72_return_types_false`), in type names (`C72_type_names_false`) and through qualified function types (`C72_qualified_functions_false`).
* Qualifiers of an array from a typedef name do not reach its elements (`C70_qualified_array_false`); qualifiers of named parameters are dropped (`C71_parameter_qualifiers_false`).
* `int f(a, a);` is accepted (`C71_identifiers_distinct_false`).
* Read, not modelled: `_Alignas` values need not be powers of two.

### Parsing of declarations
* Rejected although C17 derives it: `_Atomic(int)`, of which the closing parenthesis is not consumed (`C73_atomic_false`), `int [*p]` (`C73_star_bound_false`), a parameter `int (T *)` where `T` is a typedef name (`C73_parameter_star_false`).
* A parameter `int (T)`, where `T` is a typedef name, is parsed as a parameter with the name `T` (`C73_parameter_false`).
* Accepted although C17 does not derive it: `_Atomic(int` (`C73_atomic_open_false`), storage classes in type names and members, no type specifier, structures without members (`C73_specifiers_false`).
* Parameters do not hide typedef names in the body of the function: `typedef int T; int f(int T, int x) { T * x; }` is accepted with a declaration of `x` in place of the product (`C74_parameter_false`).
* A declared name hides a typedef only after the whole declaration: the initialiser of `char T = sizeof(T);` is parsed as the size of the type (`C74_own_initializer_false`).
* Names declared in a `for` statement stay in scope (`C74_for_scope_false`), and so do those of old-style parameters (`C74_parameter_scope_false`): valid programs are rejected.
* A label with the name of a typedef is rejected in a block (`C74_label_false`).

### Expression types
* `sizeof` and `_Alignof` have type `int` (`C76_sizeof_false`).
* Accepted although C17 forbids it: `p = 1;` (`C76_integer_to_pointer_false`), `p == 1` (`C76_compare_false`), assignment to structures with `const` members (`C76_const_member_false`), to members of structure values (`C76_rvalue_member_false`), to arrays that are not declared objects (`C76_array_target_false`) and to elements of array members of `const` structures (`C76_lost_qualifiers_false`), addresses of members of `register` objects (`C76_register_false`), arithmetic on and ordering of functions (`C76_function_arithmetic_false`, `C76_function_order_false`), `++` on pointers to incomplete types (`C76_incomplete_arithmetic_false`), functions as `void *` (`C76_void_function_false`), `void` arguments (`C76_void_argument_false`), several associations for one type (`C76_generic_false`).
* Refused although C17 allows it: arithmetic on pointers to structures completed later (`C75_late_completion_false`), `&"abc"` (`C75_string_address_false`), casts to `const void` (`C75_void_cast_false`), null pointer constants of enumerated type (`C75_enum_null_false`), members of qualified anonymous structures (`C75_anonymous_false`), array members of `const` structures as arrays of `const` (`C75_array_member_false`).

### Preprocessing tokens
* Two dots (`C78_dead_end_false`) and characters that are no other token, such as `@` or a lone backslash (`C78_other_character_false`), are errors everywhere, even in groups that are skipped or as macro arguments.
* `\u0041` and other universal character names that 6.4.3p2 forbids are accepted (`C78_universal_name_false`); `a\u;` is an error (`C78_backslash_false`).
* `L"\xffffffff"` is rejected although `wchar_t` has four bytes (`C78_wide_number_false`); `u'\x12345'` is accepted and truncated (`C78_out_of_range_false`).
* `-E` prints `L'a'` as `'a'` (`C79_wide_character_false`), `u'a'` as `a` (`C79_unicode_character_false`) and `'ab'` as `'b'` (`C79_multicharacter_false`); bytes outside ASCII in strings as eleven octal digits (`C79_high_byte_false`), a null character before a digit so that the digit joins it (`C79_null_digit_false`), quotes in wide strings without backslash (`C79_wide_quote_false`), universal character names encoded, which the tokenizer refuses (`C79_universal_name_false`). Tokens that macros put next to each other merge (`C79_adjacent_false`).
* `#` prints its argument in the same way instead of keeping its spelling: `#"\x41"` (`C80_escape_false`), `"?'"` (`C80_quote_false`), `<:` (`C80_digraph_false`), `L'a'` (`C80_prefix_false`), two blanks (`C80_whitespace_false`).
* Conversion to tokens: hexadecimal floating constants need no exponent (`C81_no_exponent_false`); the scanner of decimal constants goes on where that of hexadecimal ones gave up, so `0x..5` is `.5` (`C81_two_dots_false`); integers from 2^64 on wrap (`C81_overflow_false`); identifiers with universal character names are refused (`C81_universal_name_false`).
* Joining string literals: the bytes of numeric escapes are decoded as characters, so `"a" "\xff"` is refused (`C82_high_byte_false`) and `"\xC3\xA9" u"x"` has two characters (`C82_escape_false`); literals with different prefixes stay two tokens (`C82_prefixes_false`).

### Storage of automatic objects

* The parameter of the union of nested scopes counts scopes that declare nothing, for which there is no entry, so the union takes entries that follow as members. The objects nevertheless are apart (C83); only the frame is larger than necessary (the example in `Verif/Locals/Props.lean`).

### Frames and calls

* `update_frame_temporaries_type` takes the size of an aggregate for its alignment (`function.c:106-107`). In a function that fetches a 9-byte structure from its variable arguments the room for the parameters is computed with other offsets than the ones used; the last byte of a parameter then is the first byte of the register save area (`C84_varargs_false`).
* The frame is aligned to 16 bytes only; `_Alignas(32)` on a local object has no effect on its address (`C84_aligned_false`).
* The room for several separate nodes of the type of the locals is computed relative to the frame, their places relative to the locals (`C84_locals_false`); the translator always builds one structure.
* `va_start` does not round up the size of the named parameters on the stack to eight bytes: after a 20-byte structure the next argument on the stack is read four bytes too early (`C86_stack_false`).
* `va_arg(ap, long double)` does not align the address to sixteen bytes, although the calling function does: with an odd number of words before it on the stack the value is read eight bytes too early (`C86_long_double_false`).
* `va_arg` aligns the address of an aggregate with an alignment above sixteen, the calling function its offset (`C86_alignment_false`).
* All aggregates that `va_arg` puts together from registers are put to the same place, so `g(va_arg(ap, struct pair), va_arg(aq, struct pair))` passes one of them twice (`C86_kept_false`).
* A function that returns a structure with an eightbyte of padding, such as `struct { _Alignas(16) char c; }`, is refused as not supported: neither end handles the class NO_CLASS (`epilogue.c:152-154`, `invoke.c:366-367`) (`C87_padding_false`).

### Directives

* A comment before `#` hides a directive (`C88_comment_before_false`), a comment after `#` too (`C88_comment_inside_false`); the digraph `%:` is not recognised (`C88_digraph_false`).
* A comment that goes on over the end of a line `#else`, `#endif`, `#ifdef X`, `#undef X` or `#include <x>` is cut at the newline, and directives inside the comment are carried out (`C88_comment_after_false`).
* `#if0` is read as `#if 0` (`C88_name_false`); `#pragma` is not known (`C88_pragma_false`); `##` at the beginning of a line is taken for an unknown directive (`C88_double_hash_false`).
* The scanner never returns for a file that ends inside a header name (`C88_header_end_false`).

### Tags

* `struct A;` in a block declares nothing if an outer scope declares `A` (`C89_alone_false`).
* The tag of a definition is declared after its members. `struct A { struct A *next; };` in a block points to the outer `struct A` (`C89_self_false`), and is refused if the outer `A` is a union (`C89_self_refused_false`).
* `enum E` is accepted before the enumeration is defined (`C89_enum_false`).
* A type that was incomplete is completed by whatever its tag names at the access: an inner type of the same name (`C89_hidden_false`), even a union for a structure (`C89_hidden_kind_false`).
* The translator completes types once more, with the tags that are visible outside of the blocks of the function at its end. An access to an object that a block declares before the block completes its type is refused (`C89_block_false`), and a structure declared at the end of a function changes the layout that earlier accesses use (`C89_later_false`).

### Address constants

* `&*a`, `&"abc"[1]`, `&t->m` for an array `t`, and arrays that are members or elements (`s.n`, `m[1]`) are refused as initialisers of static objects (`C90_indirection_false`, `C90_literal_false`, `C90_arrow_array_false`, `C90_array_member_false`).
* An address cast to a narrower integer type or to `_Bool` stays the whole address (`C90_narrow_false`).
* `5L - (long) &x` and `(long) &x + (long) &s` are accepted; the result is computed from memory the compiler never assigned (`C90_garbage_false`).
* The difference of two pointers is divided as an unsigned number: `(int *) 4 - (int *) 8` is 2^62 - 1 (`C90_difference_false`).
* The address of an object is taken for true whatever is added to it (`C90_condition_false`).

### Enumerators

* Constants that do not fit `int` are accepted: `enum { A = 2147483647, B }` makes `B` 2147483648 with type `int` (`C91_next_false`), and the type chosen for an enumeration need not represent its constants (`C91_representable_false`).
* `enum { A = 9223372036854775807 }` makes the compiler increment `INT64_MAX` (`C91_increment_false`).

### Inclusion

* The search for a file ends at the first place that fails for a reason other than absence: a regular file `sys` next to the source makes `#include "sys/x.h"` fail with `ENOTDIR` although `x.h` is in a later directory (`C92_search_false`); so does a directory with the name of the file (`C92_directory_false`).
* There is no limit on the nesting of inclusions: a file that includes itself exhausts the stack (`C92_self`: no run is accepted).
* Tokens after the name are ignored (`#include "a.h" b` is accepted; 6.10.2 makes it a syntax error after replacement).

### Assembly text of data

* String literals are emitted one after the other in `.rodata` without alignment: a `u`, `U` or `L` literal after a literal of odd size starts at an odd address (`C93_literal_alignment_false`).
* Only the name `mod` is escaped in operands of code, and no name in data: in Intel syntax, an object called `eq`, `shl`, `offset`, or like a register is read as an operator or register. The specification takes every identifier for a name.
* `isprint(*literal)` is given a `char`, negative for bytes from 128 on (undefined in C; glibc answers as assumed here).
* `integral_static_data` gives an `int64_t` to `%02x` for bit-fields (`static_data.c` 180), and `word_static_data` `0` (an `int`) to `%016lx` (207): the types do not match the formats.

### Skipped groups

* Comments are not recognised in a skipped group: an `#endif`, `#else` or `#elif` inside a comment of several lines ends the group, and processing goes on inside the comment (`C94_comment_false`). A comment before the `#` hides the directive (`C94_comment_before_false`).
* `%:endif` does not end a group (`C94_digraph_false`); `#else1` does (`C94_name_false`).
* In a nested conditional, the line of an `#elif` or `#else` is not skipped: if a `#` follows, the rest of the line is taken for another directive (`C94_nested_else_false`).

### Command line

* `--dump-asm` and `--include-path` of the help text do not exist: both are refused as unknown (`C95_help_false`). The table has `--include-dir`, which the help text does not mention.
* Options without letter all have `val` 0, so `getopt_long` does not consider an abbreviation of several of them ambiguous: `--dump` prints tokens, `--no-feature` switches off the first feature of the table (`C95_abbreviation_false`).
* `--pp-timestamp=noon` is accepted as 0 (`C95_number_false`); the help text does not mention the argument. `--preprocess` ignores the option altogether (`C95_time_false`): `dump_preprocessed_impl` lacks the assignment of `lex_file`.
* `-p --dump-ast -P` is accepted (`C95_conflict_false`); the result is consistent, the last action counts.
* `-D1+1=3` is accepted (`C95_macro_false`); the macro can never be used. `-DX -DX` is refused.
* Not modelled, seen in reading: `--dump-runtime-code`, `--help` and `--version` ignore `--output`; the output file is opened (and emptied) before the input is read, so that `-o a.c a.c` destroys the source, and opened a second time by `--preprocess`, `--dump-tokens` and `--dump-ast`; with `--preprocess --include f` the tokens of `f` have already been converted, so that their white space is lost (`int x` is printed as `intx`).

### Assembly text of code

* Labels of appended routines are printed into a buffer of 256 characters: with a function name of 244 or more characters, `va_arg(ap, int)` and `va_arg(ap, double)` share one label, and the code for the first is used for both, silently (`C96_long_name_false`).
* `va_arg` of `va_list` itself, the second time in a function for the same type node: refused with `KEFIR_ALREADY_EXISTS` (`C96_va_list_false`); all other kinds accept that the routine exists already.
* `va_arg` of padding, or of the place behind the last node of a type, is accepted and writes no entry, so that all jump targets behind it are wrong (`C96_padding_false`). The translator does not produce it.
* The label of the routine for bits does not contain their number (`C96_bits_false`). The translator does not produce it.
* Two declarations of the same name that are called by pointers have gates with the same label (`C96_vgate_false`). The translator uses unnamed declarations for such calls.
* `GETGLOBAL` of a name like `eq`, `shl`, `not` is written as it is; only `mod` is escaped (a comment in `asmgen.c` says so). The theorems exclude these names.
* `__kefirrt_load_long_double_vararg` is not in the list of external symbols; GNU as does not need it.

### Entry of functions

* `f(d) const long double d; {…}`: the test for `long double` looks at the qualified type, so only one word is exchanged with the address; the value is stored at an address made of its own upper word (`C97_qualified_false`).
* `void f(int n, const long double) {…}`: for the same reason only one of two words is dropped, and `n` becomes the upper word of the unnamed argument (`C97_unnamed_false`).
* `f(b) _Bool b; {…}`: the conversion to `_Bool` looks at all 64 bits of the register of the promoted `int`, of which the ABI defines 32 (`C97_bool_false`). Code made by kefir extends, other compilers need not.
* Named parameters of a prototype are defined with the unqualified type, so `const` on them has no effect (`function_declaration_context.c` 260-282).

### Line control

* A comment that begins the line after `#line` is read together with the newline, before the line is set: the newlines in it are not counted, and neither is the newline after a `//` comment (`C98_comment_false`).
* `#line/**/5`, or any macro replacement that begins with white space, is refused: the first token must be the number (`C98_leading_comment_false`).
* Tokens after the file name are ignored, and numbers above 2^32 are cut; 6.10.4 leaves both undefined.
* Not modelled: `__STDC_ISO_10646__` (`predefined_macro.c`, `macro_stdc_iso_10646_apply`) does not set the location of its token, which `kefir_token_new_pp_number` leaves uninitialised; an error message that shows it reads a wild pointer.
* Not modelled: `type/enum.c` 46-48 and 85-87 pass a null identifier to `strcmp` when one of two enumerations has no tag.

### Record of errors

* `kefir_set_source_errorf` subtracts the length of `name@line:column ` from the room for the message, which is 240; for longer locations the difference wraps and `vsnprintf` is called with a pointer behind the payload and a size near 2^64 (`C99_long_name_false`). File names of that length come from the command line and from `#line`.
* When 32 errors are kept and the latest is a warning, the next error does not replace it, although with fewer errors it would: the caller is told of the warning (`C99_warning_false`).

### C100: a type tree that could not be made is reported as made

`kefir_ir_type_tree_init` (`source/ir/type_tree.c:123-145`) frees its trees when the traversal of the type fails and
then returns `KEFIR_OK`.  The caller works with a tree without nodes (`C100_empty_struct_false`).

### C101: addresses of temporaries in constant expressions

Not modelled, found on the way: `source/ast/constant_expression/lvalue_constant_reference.c` keeps a pointer to a local
array in the address constant of a compound literal outside of functions (`base.literal = buf`, where `buf` ends with
the block).  For a compound literal inside of a function it makes an address constant with the symbol
`__kefirrt_temporaries`, although the object is automatic.  `kefir_ast_temporaries_next_block` is only called by
tests: in the compiler all temporaries of a function are in one group, and `C101_local` makes them pairwise disjoint.

### C102: results of type `_Bool`

The System V ABI leaves all but the lowest eight bits of the register of a `_Bool` result open.  The translator normalises
the word with an instruction that compares all 64 bits with zero (`typeconv.c` 109-157, `KEFIR_IROPCODE_TRUNCATE1`), so a
function compiled by another compiler can return 0 and the call has the value 1: `C102_bool_result_false`.

### C102: bit-fields as variable arguments

`kefir_ast_type_function_default_argument_convertion_promotion` promotes a bit-field as an object of its declared type: an
`unsigned` of three bits to `unsigned int` where C17 6.3.1.1p2 says `int`.  The words are the same
(`C102_arguments_partial` covers them), the type in the declaration is not (example beside `C102_declaration`).

### C103: large alignments

An entry of an IR type has eight bits for an alignment (`headers/kefir/ir/type.h` 60), and nothing checks that the
requested one fits.  `_Alignas(256) int x;` is accepted, the field is 0, and the object is aligned as any `int`:
`C103_large_false`.

### C103: alignment of pointers

The alignment is compared with that of the type of the declaration specifiers, not of the declarator
(`declarator.c` 1002-1011).  `_Alignas(2) char *p;` is accepted and the pointer can lie at an address that is not a
multiple of eight (`C103_pointer_false`); `_Alignas(8) long double *p;` is rejected (`C103_pointer_rejected_false`).

### C103: values that are no alignments

Any integer is accepted.  `_Alignas(6) int x;` puts `x` at offset 6 (`C103_power_false`); `_Alignas(-1) int x;` becomes
the alignment 255 (`C103_negative_false`).

### C104: more than one array in a block

At the end of a block the storage goes back to what it was at the latest `PUSHSCOPE`, that is, in front of the last array
(`amd64_sysv.s` 1134-1152), and only the first saved cell is used (`compound_statement.c` 50-58).  The arrays in front of the
last one are never released: a loop whose body declares two arrays loses storage with every iteration
(`C104_leak_false`, for every number of iterations).

### C104: jump in front of the declaration

`{ int a[n]; { if (c) goto out; int b[n]; } out: ... }`: whether a block releases storage is decided by whether it contains a
declaration, not by whether that was reached (`jump.c` 47-64).  The jump releases `a`, which is alive; the next array is put
at the same place (`C104_jump_false`).

### C104: the built-in function between two arrays

`__builtin_alloca` clears the cell of the scope so that its storage is not released.  If a block declares an array before and
another one after the call, the cell gets back the value from before the call, and the end of the block around it releases
the storage (`C104_builtin_false`).

### C104: arrays of known length with elements of variable length

`int a[3][n]` is an ordinary array whose elements are two words each: its size is 48, whatever `n` is
(`C104_inner_false`).

### C106: labels in front of a declaration

`goto l; ... { l: ; int a[n]; }` obeys 6.8.6.1, but a block that is entered must not contain any array (`jump.c` 39-43), so
it is rejected (`C106_accepts_false`).

### C106: jumps back within a block

`{ int a[n]; l: ...; if (c) goto l; int b[n]; }`: after the comparison of the arrays, the next entry of the block decides whether
storage is released (`jump.c` 73-76, 82), although it belongs to `b`, which has not been declared yet.  The jump releases
`a`, which stays in scope (`C106_stays_false`).

### C107: generic selections as lvalues

`_Generic(x, int: y) = 1;` passes the analysis, since the selection gets the properties of `y`, but the translation of lvalues
(`lvalue.c` 351-358) has no case for generic selections, so the program is rejected (`C107_lvalue_false`).

### C107: unchecked associations

`_Generic(1, int: 1, int: 2)` is accepted (`C107_ambiguous_false`), and so is `_Generic(1, int: 1, default: undeclared)`
(`C107_default_false`).

### C108: unsigned conditions

`_Static_assert(0xffffffffu + 1u, "")` is violated but accepted (`C108_accepted_false`), `_Static_assert(-1 == 0xffffffffu, "")`
holds but is reported as failed (`C108_failed_false`), both because constant expressions are computed in 64 bits.
