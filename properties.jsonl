{"id": "C01", "title": "Variable-length integers round-trip", "statement": "Encoding an unsigned integer with the variable-length format and decoding the resulting bytes (followed by anything) returns the same integer and reports exactly the number of bytes the encoder produced; no value of the type is rejected.", "quantifier": "every value of the 8/16/32/64-bit unsigned type and every byte sequence that follows it", "why_tests_cant": "2^64 values; the decoder's overflow guard depends on the value's magnitude and only misbehaves near the top of each type", "anchors": ["include/algorithm.h: to_varint, from_varint"]}
{"id": "C02", "title": "Variable-length encoding is prefix-free and minimal in framing", "statement": "Every byte of an encoding except the last has its continuation bit set and the last has it clear, so no encoding is a proper prefix of another and a reader always knows where a number ends.", "quantifier": "every pair of unsigned integers", "why_tests_cant": "quantifies over all pairs of values", "anchors": ["include/algorithm.h: to_varint"]}
{"id": "C03", "title": "Alignment helpers", "statement": "For a power-of-two alignment, rounding down gives the largest multiple not above the size, rounding up gives the smallest multiple not below it (when it does not wrap the machine word), the alignment test agrees with divisibility, and the doubling helper returns the first element of size, 2*size, 4*size... that reaches the request.", "quantifier": "every 64-bit size and every power-of-two alignment", "why_tests_cant": "2^64 x 64 combinations including wrap-around", "anchors": ["include/common.h: _align, __is_aligned, _alignf, _alignd"]}
{"id": "C04", "title": "Jump displacement encoding", "statement": "Storing a jump displacement in a jump instruction and reading it back yields the same displacement, for all displacements that fit a signed 24-bit field, whichever of the short or long forms is chosen and whatever the instruction held before; displacements that do not fit are rejected with an overflow error rather than truncated; the jump kind is not disturbed.", "quantifier": "every 32-bit displacement, every jump kind and every previous content of the instruction", "why_tests_cant": "2^32 displacements times previous contents", "anchors": ["modules/core/xil.cpp: jmp_xil_t::set_step, jmp_xil_t::step", "modules/core/__xil.h: jmp_xil_t", "include/common.h: in_range, value_of_bits, set_value_of_bits"]}
{"id": "C05", "title": "Metadata references pack and unpack", "statement": "A metadata reference built from a table index, an extra tag and a count gives the three parts back; references whose parts do not fit the bit fields are silently truncated, so distinct objects can collide exactly when their index agrees modulo 2^20, the tag modulo 2^3 and the count modulo 2^9.", "quantifier": "every 32-bit index, count and tag", "why_tests_cant": "2^96 triples", "anchors": ["modules/core/__xil.h: ref_t"]}
{"id": "C06", "title": "Instruction stream splits where it was written", "statement": "Reading a method's instruction bytes yields exactly the sequence of instructions that was written: same count, same boundaries, same operation and operands, for every sequence of instructions the compiler can build.", "quantifier": "every finite sequence of well-formed instructions of every kind with every operand value", "why_tests_cant": "unbounded sequences; a single wrong size shifts every later boundary", "anchors": ["modules/core/xil.cpp: __size_of, xil_reader_t::read, xil_buffer_writer_t::write", "modules/core/__xil.h: size_of overloads, push_xil_t, pop_xil_t, pick_xil_t, jmp_xil_t, call_xil_t, new_xil_t, copy_xil_t, init_xil_t"]}
{"id": "C07", "title": "Variable operands survive instruction encoding", "statement": "An instruction that loads, stores or peeks a local variable or argument - by value, by address or through its content - decodes to the same variable number it was built with, for every 16-bit variable number.", "quantifier": "every instruction kind x storage kind x variable number 0..65535", "why_tests_cant": "variable numbers of 15 and above use a different encoding; methods with that many variables are rare in tests", "anchors": ["modules/core/__xil.h: push_xil_t::set_identity, pop_xil_t, pick_xil_t, size_of"]}
{"id": "C08", "title": "Instruction reader makes progress", "statement": "Reading an arbitrary byte buffer as instructions terminates: every successful read advances the cursor.", "quantifier": "every byte buffer", "why_tests_cant": "the failing inputs are specific malformed header bytes", "anchors": ["modules/core/xil.cpp: xil_reader_t::read, __size_of"]}
{"id": "C09", "title": "Type codes map one to one", "statement": "Converting a value type to its instruction type code and back returns the original value type for every type that has a code, and two different value types never share a code.", "quantifier": "every value type", "why_tests_cant": "finite but needs the whole table", "anchors": ["modules/core/xil.cpp: to_xil_type", "modules/core/__vtype_traits.h: to_vtype"]}
{"id": "C10", "title": "Metadata heap keeps what was stored", "statement": "A string or block appended to an assembly's metadata heap can be read back unchanged at the position returned, no matter how many further strings and blocks are appended afterwards and how often the buffer is regrown.", "quantifier": "every sequence of append operations", "why_tests_cant": "unbounded histories with reallocation", "anchors": ["modules/core/__assembly_layout.h: mt_heap_buffer_t, mt_heap_t", "modules/core/assembly_layout.cpp: append_string, append_block, __check_grow_size, read_block"]}
{"id": "C11", "title": "Metadata strings are interned", "statement": "Appending equal strings returns the same position, appending different non-empty strings returns different positions, and the empty string is always the null resource.", "quantifier": "every sequence of append operations", "why_tests_cant": "unbounded histories", "anchors": ["modules/core/assembly_layout.cpp: append_string"]}
{"id": "C12", "title": "Constant folding computes the language's integer result", "statement": "When the compiler folds a binary operator over two integer constants the constant it produces has the type the operator table assigns and the value obtained by converting both operands to that type and applying the operator there.", "quantifier": "every pair of integer constants of every pair of the eight integer types and every arithmetic or bitwise operator", "why_tests_cant": "2^128 operand pairs per type pair", "anchors": ["modules/core/expression_executor.cpp: execute, __binary_execute_t", "modules/core/__vtype_traits.h: __binary_op_t, X_DEFINE_BINARY_OPS"]}
{"id": "C13", "title": "Folded comparisons agree with numeric order", "statement": "When the compiler folds <, <=, >, >=, == or != over two integer constants the result is the comparison of their mathematical values.", "quantifier": "every pair of integer constants of every pair of integer types", "why_tests_cant": "fails only for mixed signedness at particular values", "anchors": ["modules/core/__vtype_traits.h: __binary_op_t", "modules/core/expression_executor.cpp"]}
{"id": "C14", "title": "Folded increment and decrement", "statement": "Folding ++x / --x yields the updated value and folding x++ / x-- yields the old value, wrapped to the operand's type.", "quantifier": "every integer constant of every integer type", "why_tests_cant": "all values; confusion of the four operators is only visible on the value", "anchors": ["modules/core/expression_executor.cpp: execute (unitary)"]}
{"id": "C15", "title": "Folded negation", "statement": "Folding unary minus on an integer constant gives the negated mathematical value whenever the result type can hold it.", "quantifier": "every integer constant of every type that supports unary minus", "why_tests_cant": "2^64 values", "anchors": ["modules/core/__vtype_traits.h: __unitary_op_t, X_DEFINE_UNITARY_OPS"]}
{"id": "C16", "title": "Operator result types are coherent", "statement": "The static result type of an arithmetic operator on two integer types does not depend on operand order and is at least 32 bits wide; comparison operators always give bool.", "quantifier": "every operator and pair of types", "why_tests_cant": "whole table", "anchors": ["modules/core/__vtype_traits.h: get_binary_vtype, get_unitary_vtype"]}
{"id": "C17", "title": "String literals denote what was written", "statement": "Reading a double-quoted literal returns exactly the text whose escape-encoded form stands between the quotes and leaves the reader just after the closing quote; a literal that is not closed is reported as an error and never read past the end of the source.", "quantifier": "every text and every following source", "why_tests_cant": "unbounded strings of arbitrary characters and escapes", "anchors": ["modules/compile/token_reader.cpp: __read_string, __try_escape_char"]}
{"id": "C18", "title": "Verbatim string literals", "statement": "Reading a verbatim (@\") literal returns the text between the quotes with every doubled quote read as one quote.", "quantifier": "every text", "why_tests_cant": "unbounded strings", "anchors": ["modules/compile/token_reader.cpp: __read_multiline_string"]}
{"id": "C19", "title": "Character literal reading terminates", "statement": "Reading a character literal terminates on every source text, returns the character for well-formed literals and reports an error otherwise.", "quantifier": "every source text", "why_tests_cant": "hangs only on unterminated literals", "anchors": ["modules/compile/token_reader.cpp: __read_char"]}
{"id": "C20", "title": "Comments are skipped exactly", "statement": "A line comment ends before the first line end or at the end of the source; a block comment ends after the first */ following its opening and an unclosed one is reported; nothing else is consumed.", "quantifier": "every source text", "why_tests_cant": "unbounded texts", "anchors": ["modules/compile/token_reader.cpp: __read_line_comment, __read_multiline_comment"]}
{"id": "C21", "title": "Keywords are recognised only as whole words", "statement": "A keyword token is produced exactly when the maximal run of word characters at the cursor equals the keyword; an identifier that merely starts with a keyword is read as one identifier.", "quantifier": "every source text and every keyword", "why_tests_cant": "unbounded texts", "anchors": ["modules/compile/__token_reader.h: __equals_keyword", "modules/lang_cs/cs_token_reader.cpp: next"]}
{"id": "C22", "title": "Integer literals denote their positional value", "statement": "Parsing the digits of an integer literal in radix 2, 8, 10 or 16, with digit separators anywhere between them, yields the positional value of the digits in the first of the types permitted for that literal form (radix and U/L suffixes) able to hold it, and consumes exactly the characters of the literal; a leading minus sign negates the value.", "quantifier": "every digit sequence of any length", "why_tests_cant": "unbounded digit sequences around the type limits", "anchors": ["algorithm/numeric.cpp: __integer_op_t, __parser_t, __multi_parser_t, __numeric_parser_t"]}
{"id": "C23", "title": "Integer literal overflow is detected", "statement": "A literal whose positional value does not fit the widest permitted type is reported as overflow and no literal that fits is.", "quantifier": "every digit sequence", "why_tests_cant": "the check works with max/radix and max%radix at the boundary", "anchors": ["algorithm/numeric.cpp: __integer_op_t"]}
{"id": "C24", "title": "Operator expressions group by priority and associativity", "statement": "Parsing a sequence of operands and operators builds the expression tree in which tighter operators bind first and operators of equal priority associate in their declared direction, for every expression built from the language's binary, prefix and postfix operators and parentheses.", "quantifier": "every expression of any size", "why_tests_cant": "unbounded expressions and nesting", "anchors": ["modules/compile/analyze_stack.cpp: analyze_stack_t", "modules/core/core.cpp: __system_operator_property_t"]}
{"id": "C25", "title": "Operands keep their order", "statement": "Reading the leaves and operators of a parsed operator expression from left to right gives back the token sequence that was parsed: nothing is lost, duplicated or reordered.", "quantifier": "every token sequence the parser accepts", "why_tests_cant": "unbounded", "anchors": ["modules/compile/analyze_stack.cpp"]}
{"id": "C26", "title": "Exit analysis is sound", "statement": "The ways of leaving a statement that the compiler computes include every way an execution can actually leave it, so code the compiler drops as unreachable really is unreachable and a method that can fall off its end gets a return or a diagnostic.", "quantifier": "every statement tree and every run of it", "why_tests_cant": "unbounded nesting and all runs", "anchors": ["modules/compile/statements.cpp: exit_type of all statements", "modules/compile/__statements.h: unreached, exit_type_of", "modules/compile/ast.cpp: __walk_post_analysis"]}
{"id": "C27", "title": "Jumps land on their labels", "statement": "After a method is finalised, every jump's displacement leads from the jump to the first real instruction after the label it names; labels themselves produce no instruction; a jump to a label that was never placed is reported.", "quantifier": "every sequence of instructions, labels and jumps", "why_tests_cant": "unbounded instruction sequences", "anchors": ["modules/core/core.cpp: xil_pool_t::commit, jmp_manager_t::commit"]}
{"id": "C28", "title": "Switch dispatch", "statement": "A compiled switch transfers control to the case whose constant equals the value, to the default case (or past the switch) otherwise, for every value and every set of distinct case constants; duplicate constants are rejected.", "quantifier": "every table and every 32-bit value", "why_tests_cant": "unbounded tables x 2^32 values", "anchors": ["modules/compile/statements.cpp: switch_statement_t::__compile_as_switch", "modules/core/core.cpp: switch_manager_t::commit", "modules/exec/commands.cpp: switch command"]}
{"id": "C29", "title": "Small vector behaves as a sequence", "statement": "The growable vector with inline storage behaves as a sequence under push_back, pop_back, truncate, indexing, iteration and clear, whatever the inline capacity and wherever the switch to heap storage happens.", "quantifier": "every operation sequence and every inline capacity", "why_tests_cant": "unbounded operation histories", "anchors": ["algorithm/__collections.h: svector_t"]}
{"id": "C30", "title": "Row heap hands out distinct, stable, enumerable objects", "statement": "Objects obtained from the row heap are pairwise distinct and keep their value until they are deleted; indexing and iteration visit them in creation order.", "quantifier": "every operation sequence and every row size", "why_tests_cant": "unbounded histories across row boundaries", "anchors": ["algorithm/__collections.h: heap_t"]}
{"id": "C31", "title": "Byte heap allocations do not overlap", "statement": "Memory blocks obtained from the small-object heap are pairwise disjoint, are at least as large as requested, and freed blocks may be handed out again only after they were freed.", "quantifier": "every sequence of allocations and releases", "why_tests_cant": "unbounded histories", "anchors": ["algorithm/collections.cpp: xheap_t"]}
{"id": "C32", "title": "Bit array behaves as a set of positions", "statement": "Setting and clearing bits changes exactly the addressed bit; reading returns the last value set; searching returns the first set position not below the start.", "quantifier": "every operation sequence and every position", "why_tests_cant": "unbounded histories with growth", "anchors": ["algorithm/collections.cpp: bit_array_t"]}
{"id": "C33", "title": "Resource pool never hands out an object in use", "statement": "A pooled object is handed out to at most one user between acquire and release.", "quantifier": "every sequence of acquire and release", "why_tests_cant": "unbounded histories with trimming", "anchors": ["algorithm/__collections.h: respool_t"]}
{"id": "C34", "title": "Tree snapshot restores the same tree", "statement": "Storing a tree to a flat sequence and restoring it gives a tree with the same values, the same shape and the same child order.", "quantifier": "every tree", "why_tests_cant": "unbounded trees; child counts are stored in one byte", "anchors": ["algorithm/__collections.h: lr_tree_state_t, lr_tree_node_t"]}
{"id": "C35", "title": "Sorted map lookup", "statement": "After commit, looking up a key in the array-backed map finds exactly the entries appended under that key.", "quantifier": "every sequence of appended entries and every key", "why_tests_cant": "unbounded", "anchors": ["algorithm/__collections.h: fixed_map_t, small_map_t"]}
{"id": "C36", "title": "Composite keys are totally ordered", "statement": "Comparison of composite keys is a strict total order and two keys compare equal exactly when all their components are equal.", "quantifier": "every triple of keys of any sizes", "why_tests_cant": "unbounded key sizes", "anchors": ["include/algorithm.h: multikey_t"]}
{"id": "C37", "title": "C-string primitives", "statement": "String comparison orders strings lexicographically by code unit and reports equal exactly for equal strings; substring search returns the first occurrence or nothing.", "quantifier": "every pair of NUL-terminated strings", "why_tests_cant": "unbounded strings", "anchors": ["algorithm/string.cpp: __strcmp, __strstr, __str_equals, strlen"]}
{"id": "C38", "title": "Fast memory copy equals memmove", "statement": "The fast copy leaves the destination with the bytes the source had before the call, for every length, alignment and overlap, and changes nothing else.", "quantifier": "every memory content, pair of addresses and length", "why_tests_cant": "all overlaps, alignments and lengths", "anchors": ["algorithm/algorithm.cpp: quick_copy", "include/algorithm.h: quick_copy"]}
{"id": "C39", "title": "Minimum and maximum selection", "statement": "The selection helpers return the smallest (largest) element of a non-empty sequence.", "quantifier": "every non-empty sequence", "why_tests_cant": "unbounded sequences", "anchors": ["include/algorithm.h: select_min, select_max"]}
{"id": "C40", "title": "Pointer tagging", "statement": "Combining an 8-byte-aligned pointer with a tag below 8 gives both back; replacing either part leaves the other unchanged.", "quantifier": "every aligned 64-bit pointer and tag", "why_tests_cant": "2^61 x 8 values", "anchors": ["include/algorithm.h: incorp, incorp_p, incorp_v, set_incorp_p, set_incorp_v"]}
{"id": "C41", "title": "Flag sets", "statement": "Adding, removing, testing and combining enum flags are the corresponding set operations.", "quantifier": "every pair of flag values", "why_tests_cant": "2^128 pairs", "anchors": ["include/common.h: bit_or, bit_and, bit_xor, enum_t"]}
{"id": "C42", "title": "Access control", "statement": "A member is accessible exactly when the language's accessibility rules say so for the relation between the accessing type and the declaring type.", "quantifier": "every accessibility level, nesting and inheritance relation", "why_tests_cant": "unbounded nesting and inheritance", "anchors": ["modules/core/core.cpp: check_access, __check_type_access, __check_member_access"]}
{"id": "C43", "title": "Call dispatch kind", "statement": "A call is compiled to a dynamically dispatched call exactly when the target may be overridden or is an interface member, and to a direct call otherwise.", "quantifier": "every method description", "why_tests_cant": "whole decision table", "anchors": ["modules/core/xil.cpp: call_type_of_method"]}
{"id": "C44", "title": "Method bodies survive serialisation", "statement": "The variables, switch tables, protected blocks and instructions read from a stored method body are exactly those written.", "quantifier": "every method body", "why_tests_cant": "unbounded numbers of variables, tables, rows and blocks; counts live in bit fields", "anchors": ["modules/core/core.cpp: local_variables_t::write, switch_table_t::write", "modules/exec/parser.h: method_reader_t", "include/modules/core.h: method_stub_t"]}
{"id": "C45", "title": "Array creation and element addressing", "statement": "An array created with given dimension lengths reports those lengths, its total length is their product, and element addresses of distinct valid index tuples are distinct and inside the allocation.", "quantifier": "every rank and every vector of lengths", "why_tests_cant": "unbounded rank and lengths", "anchors": ["modules/mm/mm.cpp: new_array, get_array_lengths, get_array_length_of_dimension", "modules/exec/commands.cpp: array element commands"]}
{"id": "C46", "title": "Semaphore", "statement": "The number of holders of the semaphore never exceeds the permits and a released permit is never lost.", "quantifier": "every interleaving of acquire, try_acquire and release, including spurious wake-ups", "why_tests_cant": "all schedules", "anchors": ["algorithm/__thread.h, algorithm/thread.cpp: semaphore_t"]}
{"id": "C47", "title": "Per-object locks", "statement": "At most one thread is inside the critical section of a given object at a time and locks of different objects are independent.", "quantifier": "every interleaving of enter and exit on any set of objects", "why_tests_cant": "all schedules", "anchors": ["algorithm/__thread.h, algorithm/thread.cpp: object_lock_manager_t"]}
{"id": "C48", "title": "String interning", "statement": "Interning returns the same id for equal strings and different ids for different strings, for every history of interned strings.", "quantifier": "every history", "why_tests_cant": "unbounded", "anchors": ["algorithm/__string.h: tspool_t, tsid_t"]}
{"id": "C49", "title": "GUID text form round-trips", "statement": "Parsing the textual form of a GUID yields the same 16 bytes and printing is its inverse.", "quantifier": "all 2^128 GUIDs", "why_tests_cant": "2^128 values", "anchors": ["include/common.h: guid_t", "common/common.cpp"]}
{"id": "C50", "title": "Protected block lookup", "statement": "When an exception is raised at an instruction the handler chosen is the innermost protected block containing that instruction whose kind and type match.", "quantifier": "every block table and instruction position", "why_tests_cant": "unbounded block tables", "anchors": ["modules/exec/parser.cpp: __parse_normal_commands_", "include/modules/exec.h: exec_method_block_manager_t"]}
{"id": "C51", "title": "Splitting loses nothing", "statement": "Splitting a sequence at a separator yields the maximal separator-free pieces in order; joined back they give the original.", "quantifier": "every sequence and separator predicate", "why_tests_cant": "unbounded sequences", "anchors": ["include/algorithm.h: split_if, split_array"]}
{"id": "C52", "title": "Variadic minimum, maximum and comparison", "statement": "The variadic minimum (maximum) of any non-empty argument list is its least (greatest) member, and the pairwise comparison chain orders by the first differing pair.", "quantifier": "every argument list", "why_tests_cant": "unbounded arity and all values", "anchors": ["include/algorithm.h: max, min, cmp"]}
{"id": "C53", "title": "Character classes", "statement": "Every character-class test (digit, letter, word, whitespace, line end, digit of a radix) and case conversion answers correctly for every one of the 2^32 character values.", "quantifier": "all 2^32 wchar_t values", "why_tests_cant": "2^32 values", "anchors": ["algorithm/__string.h: is_digit, digit_value, to_upper, to_lower", "algorithm/string.cpp: __char_property_t::init"]}
{"id": "C54", "title": "Case-insensitive comparison and search", "statement": "Comparing or searching without regard to case gives the same answer as comparing or searching the upper-cased texts, and never reads past a terminator.", "quantifier": "every pair of NUL-terminated strings", "why_tests_cant": "unbounded strings", "anchors": ["algorithm/string.cpp: __char_ignorecase_op_t, stricmp, stristr"]}
{"id": "C55", "title": "Metadata heap survives saving and loading", "statement": "Writing an assembly's metadata heap to a file and loading it into a fresh heap reproduces every stored byte at the same position, whatever follows it in the file; a file that is too short is refused.", "quantifier": "every heap history, every file tail, every truncation", "why_tests_cant": "unbounded heaps and every truncation point", "anchors": ["modules/core/assembly_layout.cpp: write_to", "modules/core/__assembly_layout.h: __read_heap"]}
{"id": "C56", "title": "Constants survive in an assembly", "statement": "Every numeric, character and boolean constant stored in an assembly is read back with the same type and the same value, and two constants share a row only if they are the same constant.", "quantifier": "every constant value of every type, every history of constants", "why_tests_cant": "2^64 values per type, unbounded histories", "anchors": ["modules/core/assembly_writer.cpp: __commit_constant, __commit_constant_number, __assign_uint64", "modules/core/__assembly_layout.h: read_const, __read_const_number, __read_uint64"]}
{"id": "C58", "title": "Typed numbers compare by value", "statement": "Comparing two typed integers (of any integer, boolean or character types) gives the answer of comparing the numbers they denote.", "quantifier": "all pairs of typed values", "why_tests_cant": "2^128 pairs", "anchors": ["common/common.cpp: __compare_tvalue, tvalue_t::operator <"]}
{"id": "C59", "title": "Negating and reinterpreting typed numbers", "statement": "The negation of a typed integer denotes the negated number; reinterpreting it as unsigned and back (or signed and back) is the identity.", "quantifier": "all typed values", "why_tests_cant": "2^64 values per type", "anchors": ["common/common.cpp: tvalue_t::operator -, to_unsigned, to_signed"]}
{"id": "C57", "title": "An assembly file keeps every table row and the heap", "statement": "Writing an assembly to a stream and reading the stream back gives, for each of the 31 metadata tables, the same number of rows, each with the same members, and a heap with the same bytes at the same positions; and no file cut short at any byte is accepted.", "quantifier": "every assembly: all tables with any number of rows below 2^32 and any member contents, every heap filled by any history of operations, every cut position", "why_tests_cant": "The number of tables, rows, members and cut points is unbounded; a test saves and loads a few assemblies and cannot see a member that is declared but never listed for writing unless it looks at precisely that member.", "anchors": ["modules/core/__assembly_layout.h: mt_t, mt_manager_t", "modules/core/assembly_writer.cpp: write", "modules/core/assembly_reader.cpp: read"]}
{"id": "C60", "title": "A byte buffer printed as hexadecimal determines the bytes", "statement": "Streaming a byte buffer prints two upper-case hexadecimal digits per byte in order, separated by single spaces, so different buffers print differently.", "quantifier": "every byte buffer of any length", "why_tests_cant": "The number of buffers is unbounded; a test prints a few.", "anchors": ["include/common.h: operator << (stream_t &, const buffer_t &), __digit_to_char"]}
{"id": "C61", "title": "Constant folding agrees with execution", "statement": "Whenever the compiler folds an operator over constants and the virtual machine has an instruction for the same operand types, both give the same type and value.", "quantifier": "every operator, pair of operand types and pair of operand values", "why_tests_cant": "2^128 operand pairs per type pair, two independent implementations", "anchors": ["modules/core/expression_executor.cpp: execute", "modules/exec/commands.cpp: __binary_command_t, __new_al_command, __new_cmp_command"]}
{"id": "C62", "title": "Literals with a decimal point denote the fraction they spell", "statement": "Parsing digits, a decimal point, digits, an optional exponent and an optional F or L suffix yields the number the text spells, in double, float or long double.", "quantifier": "every literal of any length", "why_tests_cant": "unbounded digit sequences; exponents and separators interact", "anchors": ["algorithm/numeric.cpp: __float_op_t, __numeric_parser_t"]}
{"id": "C63", "title": "Hexadecimal literals may be written with the suffix H", "statement": "A literal made of hexadecimal digits that begins with a decimal digit and ends with H denotes the value of its digits in radix 16.", "quantifier": "every such literal", "why_tests_cant": "the digits overlap the suffix letters", "anchors": ["algorithm/numeric.cpp: __do_continue_read"]}
{"id": "C64", "title": "Tokens tile the source", "statement": "Reading all tokens of a source text terminates, and the tokens with the white space between them make up the source text: every token is as long as the text it stands for, no character is skipped, read twice or read out of order, and reading ends only at the end of the text or at a NUL.", "quantifier": "every source text", "why_tests_cant": "unbounded texts; every combination of tokens", "anchors": ["modules/lang_cs/cs_token_reader.cpp: next", "modules/compile/token_reader.cpp"]}
{"id": "C65", "title": "Operators are read by longest match", "statement": "At an operator or punctuation mark the reader takes the longest spelling of the language that the text begins with and gives the token every value that spelling may have.", "quantifier": "every source text and every operator", "why_tests_cant": "every pair of adjacent operators", "anchors": ["modules/lang_cs/cs_token_reader.cpp: next"]}
{"id": "C66", "title": "A sign after an operand is an operator", "statement": "A + or - that follows an operand (a name, a constant, a closing bracket) is read as an operator; elsewhere, directly before a number, it is the sign of the number.", "quantifier": "every source text", "why_tests_cant": "depends on the whole preceding text", "anchors": ["modules/lang_cs/cs_token_reader.cpp: next, __last_value"]}
{"id": "C67", "title": "White space and comments only separate tokens", "statement": "Putting white space or a comment before a token does not change the token read.", "quantifier": "every source text and every position between tokens", "why_tests_cant": "unbounded texts", "anchors": ["modules/compile/token_reader.cpp: __skip_whitespace", "modules/lang_cs/cs_token_reader.cpp: next"]}
{"id": "C68", "title": "Conditional expressions nest", "statement": "A conditional expression a ? b : c is parsed into a condition and two branches, each colon belongs to the nearest question mark before it that has none yet, and conditionals in the last branch nest to the right.", "quantifier": "every nesting of conditional expressions of any depth", "why_tests_cant": "unbounded nesting", "anchors": ["modules/compile/analyze_stack.cpp: __combine_expressions", "modules/lang_cs/utils.cpp: __cs_token_property_t::init", "modules/lang_cs/services.cpp: build_expression"]}
{"id": "C69", "title": "Compiled control flow follows the statements", "statement": "The commands that a method is compiled to do what its statements say: from every state they return, throw, run off the end or run for ever exactly when the statements do, and end in the same state; control never leaves the commands of an accepted method.", "quantifier": "every method body (any nesting of loops, conditions, switches and blocks), every initial state, every compiler option", "why_tests_cant": "unbounded programs and unbounded executions", "anchors": ["modules/compile/statements.cpp: compile members", "modules/compile/xilx.cpp: write members", "modules/core/core.cpp: xil_pool_t::commit, jmp_manager_t::commit, switch_manager_t::commit", "modules/exec/commands.cpp: jump and switch commands"]}
{"id": "C70", "title": "The set of super types is complete", "statement": "The super types recorded for a type are exactly the types it reaches through base classes and interfaces, in any number of steps, even when the declarations are cyclic.", "quantifier": "every declaration graph of types", "why_tests_cant": "unbounded inheritance graphs", "anchors": ["modules/core/core.cpp: __collect_super_types, has_super_type, is_super_type"]}
{"id": "C71", "title": "Virtual calls run the most derived override", "statement": "A virtual call on an object runs the method of the most derived class, among the object's class and its bases, that overrides the called method.", "quantifier": "every chain of classes, every choice of virtual and overriding methods, every receiver class", "why_tests_cant": "unbounded class hierarchies", "anchors": ["modules/rt/rt.cpp: __build_vfunctions, get_virtual_count, get_virtual_method_offset", "modules/exec/commands.cpp: __get_virtual_exec_method"]}
{"id": "C72", "title": "Interface calls run the implementation of the object's class", "statement": "A call through an interface runs the object's class's implementation of the method: an explicit implementation first, otherwise the nearest method with the prototype, overridden by more derived classes as virtual methods are; a class that does not implement a method of its interface is refused.", "quantifier": "every class hierarchy and interface", "why_tests_cant": "unbounded class hierarchies", "anchors": ["modules/rt/rt.cpp: __build_interface, __build_interface_override, __build_interfaces", "modules/exec/commands.cpp: interface calls"]}
{"id": "C73", "title": "Casts and type tests follow the declared hierarchy", "statement": "is, as and casts accept an object exactly when its class is, or derives from, the target class, or it or one of its base classes has the target interface, directly or by extension; the answer does not depend on the tests made before.", "quantifier": "every hierarchy, every sequence of tests", "why_tests_cant": "unbounded hierarchies and histories", "anchors": ["modules/exec/commands.cpp: cast commands", "include/modules/rt.h: try_search_vtable_interface, is_base_type"]}
{"id": "C74", "title": "finally clauses run exactly once on the way out", "statement": "When control leaves protected code, by an exception, a jump or a return, each finally clause that is left is executed exactly once, innermost first; then the innermost handler that takes the exception receives that exception, or the jump target runs, or the method returns its value.", "quantifier": "every nesting of try statements, every instruction, every exception type and every state of the blocks waiting", "why_tests_cant": "the nesting depth and the number of handlers are unbounded, and exceptions may be raised while others are being handled", "anchors": ["modules/exec/commands.cpp: __process_exception, __process_finally, __process_finally_for_return, __end_finally_command_t", "include/modules/exec.h: block_queue_t, exception_stack_t", "modules/compile/statements.cpp: try_statement_t::compile"]}
{"id": "C75", "title": "Local variables in scope together never share memory", "statement": "The frame that the virtual machine lays out for a method gives every local variable a place inside the frame, and two variables that are in scope at the same time have no byte in common, while variables of regions that are not open together may share memory.", "quantifier": "every sequence of declarations, with any indices, sizes and storage types", "why_tests_cant": "regions nest without bound, and the layout sorts and packs variables depending on all their sizes", "anchors": ["modules/rt/layout.cpp: locals_layout_t::append, commit, __arrange_variables_f, __set_offsets", "modules/rt/__layout.h: locals_layout_t, unit_align"]}
{"id": "C76", "title": "Names stand for the innermost declaration, and what is in scope has its own memory", "statement": "A block may use every name declared around it and hides those it declares itself; a name declared twice in one block is an error; names end with their block. The index written for each local variable tells the virtual machine exactly which variables are in scope where it is declared, so that the variables in scope at any point of a method have separate memory.", "quantifier": "every method: any nesting of blocks, any declarations, any point in it", "why_tests_cant": "blocks nest without bound and the memory of a variable depends on all others", "anchors": ["modules/core/core.cpp: variable_region_t", "modules/compile/ast.cpp: statement_group_st_ast_node_t::on_walk, for_st_ast_node_t::on_walk, catch_ast_node_t::on_walk", "modules/core/core.cpp: define_temp_local"]}
{"id": "C77", "title": "A compiled method computes what its source says", "statement": "When the virtual machine executes a call of a static method over integers and truth values, the call returns, replaces its arguments by one value and leaves the rest of the stack alone; that value is the one the source text gives: operands are evaluated from left to right, && and || evaluate the second operand only if it decides, assigned, passed and returned values are converted to the type of their destination, calls may nest and recurse. The optimisation level makes no difference.", "quantifier": "every program of such methods, every optimisation level, every call with any arguments and any contents of the stack, any depth of recursion", "why_tests_cant": "programs, arguments and recursion are unbounded, and the unused bytes of stack units are unspecified", "anchors": ["modules/compile/expression.cpp: compile, __compile_arguments, __try_compile_constant_expression, __compile_add", "modules/lang_cs/expressions.cpp: cs_condition_expression_t", "modules/compile/xilx.cpp: local_assign_xilx_t::write, return_xilx_t::write", "modules/exec/commands.cpp: call, ret, push, pop, pick commands", "include/modules/exec.h: command_execute_context_t::stub_push"]}
{"id": "C78", "title": "A call means the method that the overloading rules select", "statement": "A call by name on a class takes, in the class and then in its base classes one after the other, the method with exactly the parameter types of the call; if there is none, the only method whose parameters accept the arguments; several such methods are an error, and none at all is an error after the last base class. An argument is accepted if it has the type of the parameter, is null for a reference type, is widened numerically without loss of integer values, or has a type derived from it; ref wants the same type and out converts the other way. On an interface all interfaces above it are searched. The order of declaration does not matter. For a generic method, the type arguments that are inferred or given make the arguments fit. Constructors of base classes do not create derived objects, and an operator means the static method that defines it.", "quantifier": "every set of classes, interfaces, generic types and methods, every call with any number of arguments", "why_tests_cant": "class hierarchies, overload sets and types are unbounded", "anchors": ["modules/core/core.cpp: is_vtype_compatible, is_type_compatible, __argument_type_analyzer_t, __compare_method, __method_analyzer_t, __type_get_member_t", "include/modules/core.h: __member_vector_t<method_t *>", "modules/compile/ast_utils.cpp: find_method, find_constructor, has_default_constructor, __walk_op_expression"]}
{"id": "C79", "title": "Every field of an object has a place of its own", "statement": "The fields that an object has, be they declared by its class, by a base class or inside a field that is a structure, lie inside of the object, are aligned to their width, and two fields that are not part of one another share no byte; the place of a field is the same in objects of derived classes. A new object has zeros in all fields whatever was in its memory. After any sequence of assignments each field holds what was assigned to it last. Assigning a structure copies all that can be read through it and changes nothing else. A created tuple holds the values it was created from.", "quantifier": "every program's types, every order that the sort gives to equal fields, every object, every memory contents, every sequence of assignments", "why_tests_cant": "Programs can declare any number of fields of any sizes in any order and nest structures to any depth; a test covers a few classes", "anchors": ["modules/rt/__layout.h: type_layout_t", "modules/rt/rt.cpp: on_caculate_layout, get_size, get_field_offset", "modules/mm/mm.cpp: new_obj", "modules/exec/commands.cpp: field commands", "modules/rtlib/array.cpp: tuple_set_range"]}
{"id": "C80", "title": "A type that is its own base is reported, and no other", "statement": "For every type of a program, the compiler reports a circular base type exactly when the type derives from itself, directly or through other classes, interfaces or instances of generic types; the check ends even when types above the type go in circles, and the super type it names is the first one of the declaration that leads back to the type.", "quantifier": "every program, with any number of types, super types and generic instances, and every type of it", "why_tests_cant": "Inheritance graphs are unbounded and may contain circles that do not touch the type", "anchors": ["modules/compile/ast.cpp: __check_circle_base_types", "modules/core/core.cpp: each_super_type, to_general"]}
{"id": "C81", "title": "Circular constraints of type parameters are reported, and only those", "statement": "When the constraints of the type parameters of a declaration make a parameter depend on itself, directly or through others, an error is reported; when no parameter depends on itself, none is.", "quantifier": "every list of constraint clauses, with any number of parameters", "why_tests_cant": "Constraint graphs are unbounded", "anchors": ["modules/compile/ast.cpp: __check_generic_template_constraints_t"]}
{"id": "C82", "title": "Members that cannot stand beside each other are reported, and only those", "statement": "When a type declares two members with the same name that are not methods with different signatures or indexed properties with different indexes, the later one is reported; a member that is reported is in such a conflict with the member named; no member other than a constructor or destructor has the name of its type.", "quantifier": "every list of members of a type, in every order, of every kind and signature", "why_tests_cant": "A type can have any number of members with any signatures", "anchors": ["modules/core/core.cpp: check_duplicate, __is_params_equals, __search_member", "modules/compile/ast.cpp: __check_duplicate"]}
{"id": "C83", "title": "A member whose modifiers are accepted obeys the rules of overriding and access", "statement": "A member is accepted exactly when its modifiers obey the rules: members of interfaces have no modifiers, body or fields; virtual, abstract and overriding members are neither private nor static; an overriding member overrides the nearest inherited member of its name and signature, which is virtual, not sealed, of the same type, of the same kind and as accessible; abstract members are in abstract types; only overriding members are sealed; external members are static methods without body.", "quantifier": "every program, every chain of base classes of any length, every member with every combination of modifiers", "why_tests_cant": "The rules range over all combinations of modifiers and all chains of base classes", "anchors": ["modules/compile/ast.cpp: __check_modifier", "modules/core/core.cpp: type_t::check_duplicate"]}
{"id": "C84", "title": "Enumerators have the values that were written", "statement": "After compilation every enumerator has the value its expression stands for, zero if it is the first and has none, and one more than the enumerator before otherwise; a value that is no number or does not fit the underlying type is reported, and nothing else is.", "quantifier": "every enumeration with any underlying integer type, any number of enumerators and any constant expressions over enumerators", "why_tests_cant": "the values depend on the order of the declarations and on chains of references of any length, and the bounds on pairs of 64-bit types", "anchors": ["modules/compile/ast.cpp: __enum_fields_init_stub_t::__fill_value", "modules/compile/ast.cpp: __fields_init_stub_t::continue_", "modules/core/core.cpp: field_variable_t::execute", "common/common.cpp: __compare_tvalue"]}
{"id": "C85", "title": "Circular definitions of enumerators are reported and compilation ends", "statement": "A circular definition is reported for an enumerator with a written value exactly when following the enumerators it needs leads to one that needs itself; an enumeration with such a circle is never accepted silently; and whatever is written, after finitely many rounds every enumerator has a value.", "quantifier": "every enumeration, with references between its enumerators in any direction", "why_tests_cant": "circles may have any length and go through enumerators without a value; that the rounds end is a statement about all enumerations", "anchors": ["modules/compile/ast.cpp: __fields_init_stub_t::__is_circular_defination", "modules/compile/ast.cpp: __fields_init_stub_t::continue_", "modules/compile/ast.cpp: __walk_analysis_init_fields"]}
{"id": "C86", "title": "An assembly that is read back has the declarations that were written", "statement": "When the compiler writes an assembly file and the file is read again, every type, typedef, method, parameter, property, field, event, attribute, type argument and constant comes back with the attributes it had: names, modifiers, types, base types, nested types, members in order, default values, accessor methods; the objects that were one object (a type used in two places) are one again, and the references compiled into method bodies name the same declarations.", "quantifier": "every program (any graph of declarations, of any size and nesting, with generic, array and foreign types), every list of references asked for by method bodies", "why_tests_cant": "The graph of declarations is arbitrary and cyclic, rows are written in the order a queue meets them, and references are indices into tables; a test sees a few shapes.", "anchors": ["modules/core/assembly_writer.cpp", "modules/core/assembly_reader.cpp", "modules/core/__assembly_layout.h", "modules/core/__xil.h:ref_t"]}
{"id": "C87", "title": "Writing an assembly ends, and a program without errors is written and readable", "statement": "For every finite program, whatever its declarations name and however they name each other in circles, writing its assembly terminates, with success or with an error. If the program has no errors (every declaration complete, every type parameter used only where it is in scope), writing succeeds, and the file that was written can be read: no reference the reader follows leads to a missing row or to a kind of type the reader refuses.", "quantifier": "all programs: every set of declarations and every way in which they name each other, every order in which classes, type definitions and method bodies are written", "why_tests_cant": "The writer follows references through a work queue and looks up type parameters that must already have rows. Whether every such lookup happens after the row exists depends on the whole graph of declarations; tests cover a few graphs, and circular ones are unbounded in shape.", "anchors": ["modules/core/assembly_writer.cpp", "modules/core/assembly_reader.cpp"]}
{"id": "C88", "title": "The name of a type means the innermost type of that name", "statement": "A name of a type in a program means: a type parameter that can be seen (of the method, of the class, of the classes around); else the type that the innermost enclosing class with the first part of the name leads to; else the one in the innermost enclosing namespace; else the one in the assembly or in an import, with the prefix or alias of the import; else the first one that a using gives. In one namespace the reading counts that takes the fewest parts for namespaces. The compiler finds exactly this type, finds none when there is none, and reports no error for it. A using added at the end changes no name that already has a meaning; the full name of a class after :: means the class; a typedef stands for what it is defined as, with its arguments put in.", "quantifier": "all sets of declared classes and typedefs in any number of assemblies, all places in a program, all names with any number of parts and type arguments, all lists of imports and usings", "why_tests_cant": "The rules are about all combinations of nesting, namespaces, imports and usings; a test shows one.", "anchors": ["modules/compile/ast_utils.cpp: __type_resolver_t", "modules/core/assembly.cpp: types_t::get_general_type, get_type_def, new_generic_type"]}
{"id": "C89", "title": "Members belong to their classes at run time", "statement": "In a loaded assembly the class the virtual machine finds for a method, a field or a nested class is the class it was declared in, and a class of another assembly is found by its namespace, its name and the number of its type parameters.", "quantifier": "every program the compiler writes, every member row of the tables, every reference in a method body", "why_tests_cant": "the search relies on the order in which the writer lays out the lists of all classes; tests see a few classes", "anchors": ["modules/rt/assembly_loader.cpp: __binary_find, search_host, get_host_by_method_ref, get_host_by_field_ref, get_host_by_nest_type_ref, get_type", "include/modules/rt.h: new_entity", "modules/rt/rt.cpp: assembly_analyzer_t::get_type", "modules/core/assembly_writer.cpp: __assign_mts"]}
{"id": "C90", "title": "Types at run time are identical exactly when they are the same type", "statement": "While a program runs, the virtual machine has one object for every type it has met: two references, in the same or in different assemblies and wherever they occur, lead to the same object exactly when they mean the same class, the same instance of a generic class inside the same type, or the same array type. What a reference means where type parameters have values is what its declaration says with every type parameter replaced by its value, a parameter that stands for several types by all of them, and an inner parameter hiding an outer one with its name. The type of a field of an instance, and the class of a method that runs in an instance, are those with the type arguments of the instance.", "quantifier": "all assemblies that can be read, all references to types in them, all nesting of generic classes, all values of type parameters, all sequences of lookups", "why_tests_cant": "The objects are made on demand in any order, types nest without bound, and a second object for one type shows only where the two are compared or their layouts differ.", "anchors": ["modules/rt/rt.cpp:assembly_analyzer_t::get_type", "modules/rt/rt.cpp:__to_generic", "modules/rt/rt.cpp:__fetch_type", "modules/rt/rt.cpp:get_field", "modules/rt/rt.cpp:rt_pool_t::to_generic_type", "modules/rt/layout.cpp:generic_param_manager_builder_t"]}
{"id": "C91", "title": "A call of a method of another assembly runs that method", "statement": "When a program calls a method of a class of another assembly, the method that runs is the method of that class with the name, the number of type parameters, the result type and the parameter kinds and types of the one the program was compiled against, with the type parameters of the class replaced by their values, however many overloads the class has. When the class no longer has such a method the call is stopped, and no other method runs in its place.", "quantifier": "all pairs of assemblies, all references to methods, all values of type parameters, all states of the pool of type objects", "why_tests_cant": "Overloads, type arguments and pairs of assemblies are unbounded; a test of some overloads does not show that no other list of overloads is confused", "anchors": ["modules/rt/rt.cpp: assembly_analyzer_t::__get_method, rt_method_t::compare_to, rt_general_type_t::each_method", "modules/core/assembly_writer.cpp: __assign_mt", "include/modules/rt.h: method_prototype_t"]}
{"id": "C92", "title": "The graph made of a grammar accepts the sentences of the grammar", "statement": "The compiler is driven by a grammar: rules with alternatives, sequences, optional and repeated elements, groups and references to other rules. Before it reads a program, it turns every rule into a graph in which each token or reference is linked to what may follow it, and merges alike nodes. For every grammar, a sequence of tokens is a sentence of a rule exactly when it can be read along the graph of the rule from its beginning to an end; for the grammar of the language there is a graph for every rule and this holds for every rule and every sequence of tokens.", "quantifier": "all grammars (any number of rules, any nesting of groups, any recursion between rules), all rules, all sequences of tokens, and whatever is matched by rules that are left to other analyzers", "why_tests_cant": "The set of sentences of a rule is infinite and rules are recursive; tests try some programs, while a wrong link shows only for a sequence that uses the link in a particular combination of optional and repeated elements.", "anchors": ["modules/compile/analyze_tree.cpp: __combine_repeat_type, __substract_repeat_type, __revise_repeat, __is_illusory, __exchange_branch, __join, __do_merge_branch", "modules/compile/__analyze_tree.h: analyze_node_t", "modules/lang_cs/text.src: __pattern"]}
{"id": "C93", "title": "What the compiler reports of a program is a reading of it", "statement": "When the analyzer of the compiler goes through the tokens of a program and finds no error, its reports are right: the tokens can be given values, each one of those the token can have, such that every reported instance of a rule (from one token to another) is a sentence of that rule, and the values that are set are these values. If a reading of the whole program was found, the program is a sentence of the grammar, and the reports are those of one derivation of it, complete and each after those within it, whatever way of choosing among several readings is used. Conversely, a program that is no sentence should be rejected, a sentence should be accepted, and the compiler should get ready for every grammar.", "quantifier": "all graphs of rules, all sequences of tokens with several possible values, all ways of merging and choosing among readings; for the actual grammar all programs", "why_tests_cant": "the readings of a program are unbounded in number and depth, and a test sees single programs; the choice among readings depends on addresses", "anchors": ["modules/compile/analyze_tree.cpp:analyze_context_t::go", "modules/compile/analyze_tree.cpp:analyze_context_t::__check_end_node", "modules/compile/analyze_tree.cpp:analyze_context_t::__stack_grow", "modules/compile/analyze_tree.cpp:analyze_context_t::__merge_leaves", "modules/compile/analyze_tree.cpp:analyze_normal_path_node_t::__append_subnodes", "modules/compile/analyze_tree.cpp:__left_cycle_t"]}
{"id": "C94", "title": "The syntax tree is built along the reading of the program", "statement": "When a program has been read, the builder of every instance of a rule is called exactly once, after the builders of the instances within it, and receives exactly the nodes made of its parts and its remaining tokens, in source order; an instance for which no node is made leaves its parts to the instance around it; the result of compiling the text is the node made of the whole.", "quantifier": "every program, every grammar, every set of builders with state", "why_tests_cant": "Programs and grammars are unbounded, and where nodes overlap depends on the nesting of all instances", "anchors": ["modules/compile/ast_factory.cpp: ast_factory_t::match", "modules/compile/ast_factory.cpp: ast_builder_t::build", "modules/compile/analyze_tree.cpp: analyzer_element_reader_t::append_ast", "modules/compile/__analyze_tree.h: lang_ast_build_elements_t"]}
{"id": "C95", "title": "What is written is in the nodes of the syntax tree, in its order and role", "statement": "For every rule of the language and everything that can be written for it, the node that the compiler builds contains every sub-node and every name that was written (or an error is reported), the parts of a list are in the order of the source, lists with gaps such as array lengths and generic arguments keep an entry for every gap, and two parts that play different roles (the two branches of if, the three parts of for, the return type and the owner of a method) are never at the same place of the node.", "quantifier": "all rules of the grammar and all sequences of parts derivable from them, of any length", "why_tests_cant": "There are infinitely many instances of every rule; a part that a builder overlooks or overwrites disappears without an error, and only the combination that a test happens to write would show it.", "anchors": ["modules/lang_cs/ast_builder.cpp: apply_token, apply_ast, on_completed", "modules/lang_cs/services.cpp: build_ast", "modules/lang_cs/text.src", "modules/compile/__ast.h: set_child, append_child, set_child_with_check", "modules/compile/analyze_tree.cpp: __merge", "modules/compile/ast_factory.cpp: build"]}
{"id": "C96", "title": "Paths with . and .. lead where they should", "statement": "A path that the tools make absolute names the same place: names are kept, . stays, .. goes up by one, and a path that is already settled is unchanged; a relative path is taken from the current directory. The file that an assembly is written to is the file from which the loader reads it, and different assembly names have different files.", "quantifier": "all paths, all nesting of . and .., all directories and names", "why_tests_cant": "Paths are unbounded, and the text is rewritten in place by a scan whose state depends on everything before; only unusual combinations go wrong", "anchors": ["lib/file.cpp: make_absolute, absolute_path", "include/lib.h: path_combine", "modules/compile/compile.cpp: __get_assembly_path", "modules/rt/assembly_loader.cpp: default_rt_assembly_loader_t"]}
{"id": "C97", "title": "A build compiles every project once, after those it imports", "statement": "Building a solution compiles every project at most once; a project is compiled only after the projects it imports; the build is free of errors exactly if every project is sound, every import exists and no project needs itself; circular imports are reported; a build without errors writes the assembly of every project.", "quantifier": "all solutions: any number of projects, any imports", "why_tests_cant": "Dependency graphs are unbounded, and a wrong order or an unnoticed circle shows only for particular graphs", "anchors": ["modules/compile/compile.cpp: compiler_t::compile, __compile_project, __load_assembly", "modules/compile/ast.cpp: import_ast_node_t", "modules/core/core.cpp: xpool"]}
{"id": "C98", "title": "Files named with * and ? are exactly those that fit", "statement": "When source files are given as directory/filter, exactly the files of that directory are taken whose names fit the filter, where * stands for any text, ? for one character and every other character for itself; a path without * and ? names one file; what does not exist is refused.", "quantifier": "all filters, all names, all directories", "why_tests_cant": "Filters and names are unbounded; a character that the filter treats as special shows only with that character", "anchors": ["include/lib.h: __wildcard_to_regex, all_files", "lib/file.cpp: split_path_filter", "modules/april/util.h: each_files"]}
{"id": "C99", "title": "The command line is read as it is written", "statement": "Arguments are accepted exactly if they are files and defined options written as --name=value, --name value, --name, -abc or -abc value; the files are taken in order, the last value of an option counts, and compiling or running is started exactly for well-written lines with a file, no request for help and a level of optimization from 0 to 3. The exit status of the process says whether it succeeded; help is shown for every command; the documented commands and levels exist.", "quantifier": "all sequences of arguments, all sets of options with different names and letters", "why_tests_cant": "Command lines are unbounded and options can be mixed, clustered and repeated; only single lines can be tried", "anchors": ["external/cmdline/cmdline.h: parse, set_option, check", "modules/april/april.cpp: april_options_t::parse, __main, april_t::execute"]}
{"id": "C100", "title": "A session makes the projects it was told to, and runs the right assembly", "statement": "Calls of begin_project, add_file and commit_project are accepted exactly if they make one project after another, each with a source file; each project has exactly the source files that were named, each once, and its name, which is different from the other names; mixed types of files are refused; run starts the only executable project, or the only executable assembly if no project is executable, and otherwise reports why not; a program runs with the assemblies it was compiled with.", "quantifier": "all sequences of calls, all sets of files, all sets of projects and assemblies", "why_tests_cant": "Sequences of calls and sets of files are unbounded; files are dropped and names clash only for particular combinations", "anchors": ["modules/april/compiler.cpp: april_compiler_t, april_xcompiler_t", "modules/april/util.cpp: file_type_of"]}
{"id": "C101", "title": "Compiled programs compute what their source says", "statement": "Take a program of static methods whose bodies use variables, expressions, if, while, do, for, switch, break, continue, return and calls of each other (also recursive ones). If, read as source code, a call has a result, then the compiled program, run by the virtual machine, returns from that call with exactly that result on the stack and the rest of the stack as it was; this is so at every optimisation level.", "quantifier": "all programs of supported methods, all arguments, all depths of calls and numbers of loop rounds, all optimisation levels, all contents of unwritten memory", "why_tests_cant": "there are infinitely many programs and inputs, and each construct must work inside of every other; tests run a few programs", "anchors": ["modules/compile/statements.cpp: compile of each statement", "modules/compile/expression.cpp: compile", "modules/compile/xilx.cpp: write", "modules/core/core.cpp: xil_pool_t::commit, method_t::compile", "modules/exec/commands.cpp: jmp, switch, call, ret commands", "modules/april/compiler.cpp: optimize"]}
{"id": "C102", "title": "The passes of the compiler visit each part once and in order", "statement": "While compiling, a visit of a part of the program can ask for further visits in the same or in later passes. Each visit that is asked for happens exactly once, no other happens, the visits happen in the order of the passes, and within one pass in the order in which they were asked for. So a pass sees everything that the passes before it did.", "quantifier": "every behaviour of the visits (what they ask for may depend on everything done so far), every state, every starting point", "why_tests_cant": "What a visit asks for depends on the program being compiled; a test compiles a few programs and sees only their result, not the order of all visits of all programs.", "anchors": ["include/modules/core.h ast_walk_queue_t", "include/modules/core.h ast_walk", "modules/core/core.cpp ast_walk_context_t::__walk"]}
{"id": "C103", "title": "A plain name means the declaration of the innermost scope", "statement": "Every plain name in a program is bound to the declaration with this name in the innermost scope around it: block, for, catch, method with its parameters, class, the classes around it. A name declared twice in a scope is reported, except methods that share a name, and nothing else is reported. Where no name stands before its declaration this is the usual rule that a local counts from its declaration on.", "quantifier": "every program: all nestings of classes, methods, properties, fields, blocks, for, catch, and all names in them", "why_tests_cant": "Names are looked up after all scopes have been filled; whether each lookup sees exactly the right scope depends on the nesting and on the order of declarations, and there are unboundedly many of both.", "anchors": ["modules/core/core.cpp variable_region_t::get, variable_region_t::__check_duplicate, ast_context_t::push", "modules/compile/ast_utils.cpp variable_defination_t, __walk_name", "modules/compile/ast.cpp defination_st_ast_node_t, method_ast_node_t, type_def_ast_node_t, expression_ast_node_t::on_walk"]}
{"id": "C104", "title": "Reading and assigning members and elements", "statement": "A statement or expression that reads or assigns (with =, a compound operator, ++ or --) a variable, a field, an array element, a property or an indexer, calls a method or creates an object does, when compiled and executed, what the source says: the parts of the left side are evaluated once and before the right side, the place is read and written once, the value of the expression is there for whoever uses it, nothing else stays on the operand stack.", "quantifier": "all such expressions, of any nesting, over all states of variables and heap, whatever the called methods do", "why_tests_cant": "the compiler emits the same sub-expression in several places and drops results by looking at the expressions around a call; a test sees a few shapes with operands without effects", "anchors": ["modules/compile/expression.cpp:__pre_compile_assign_to", "modules/compile/expression.cpp:__compile_assign_to", "modules/compile/expression.cpp:__compile_inc", "modules/compile/expression.cpp:__try_pop_empty_for_method", "modules/exec/commands.cpp:__pop_command_t"]}
{"id": "C105", "title": "Programs of classes do what they say", "statement": "A program of classes with fields, virtual and overriding methods, constructors, base calls and loops, compiled and executed by the virtual machine, computes what its source says: each method does what its statements do, a call of a virtual method runs the override of the most derived class of the object, and the result and the heap are those of the source; where the source has no result, neither has the machine, and a result does not depend on how deeply calls may be nested.", "quantifier": "all programs of any number of classes and methods within the constructs for which the parts are right, all receivers, arguments and heaps, any nesting of calls, loops of any length", "why_tests_cant": "each part can be right while the whole is wrong: what a call does depends on the class of an object that exists only at run time and on code compiled elsewhere; a test runs one program on one input", "anchors": ["modules/compile/expression.cpp:__compile_method", "modules/compile/statements.cpp", "modules/core/core.cpp:method_t::compile", "modules/rt/rt.cpp:vtbl", "modules/exec/commands.cpp:__call_virtual_method_command_t"]}
{"id": "C106", "title": "A name behind a dot is the member of the nearest type", "statement": "What the compiler takes e.n for is the accessible member of the nearest type, going up from the type of e, that declares n; a static member is accepted only behind a type and any other only behind an object; e.n(...) is a call of the method picked in the type of e; an expression that has such a meaning is accepted with it, and one that has none is rejected. This holds for classes and interfaces with any number of members and any height of the tower.", "quantifier": "every program of classes and interfaces without cycles, every expression of names, this, base, members and calls, of every depth, in every static or instance method", "why_tests_cant": "There are infinitely many towers of types and nested expressions; a test sees one lookup in one hierarchy, and never that no nearer declaration is skipped", "anchors": ["modules/compile/ast_utils.cpp: __walk_member, __walk_fieldx, __try_get_member, __walk_function", "modules/core/core.cpp: __type_get_member_t, __general_type_like_base_t::get_member", "modules/compile/expression.cpp: __check_static_member, __is_instance, __compile_variable"]}
{"id": "C107", "title": "Compiled try statements do what they say", "statement": "A method with try, catch, finally, throw, break and continue, in any nesting with conditions and loops, compiled and executed by the virtual machine, does what its source says: an exception runs the first catch clause for it of the nearest try that has one, with the exception in its variable; every finally clause on the way runs, innermost first, once, also when a loop is left or continued through it; the method ends normally with the same variables and with nothing left waiting, or it is left with the same exception.", "quantifier": "all methods of such statements, of any nesting and length, all values of variables and all actions that may raise any exception, loops of any number of rounds", "why_tests_cant": "the commands, the table of blocks and the queue of clauses must agree at each command; a test sees a few nestings, and a clause left in the queue shows only at a later exception", "anchors": ["modules/compile/statements.cpp:try_statement_t::compile", "modules/compile/statements.cpp:break_statement_t::compile", "modules/compile/statements.cpp:__need_leave", "modules/compile/statements.cpp:__statement_pass", "modules/exec/commands.cpp:__process_exception", "modules/exec/commands.cpp:__process_finally", "modules/exec/exec.h:exception_block_queue_t"]}
{"id": "C108", "title": "An array initialiser gives every element its value", "statement": "`new T[...] { ... }` is accepted exactly if its braces form a rectangle (with the lengths that are left out taken from it); the new array has those lengths, every index reads the value of the expression written at that place, expressions are evaluated once, from left to right, and nothing outside of the array is written.", "quantifier": "all nestings of braces of any size, all numbers of dimensions, all expressions (with effects and exceptions), all element sizes, all contents of the stack", "why_tests_cant": "The shapes of nested braces and the expressions in them are unbounded; a test sees a few arrays, and a write behind an array shows only by accident.", "anchors": ["modules/core/core.cpp:array_initializer_t::check", "modules/compile/ast.cpp:new_array_ast_node_t::__walk_default", "modules/compile/expression.cpp:__sys_t<new_array_expression_t>::compile", "modules/exec/commands.cpp:__init_command_t"]}
{"id": "C109", "title": "Compiled expressions over references do what the source says", "statement": "A method body of assignments, `??=`, calls and a result expression with `??`, `is`, `as`, casts, string constants and values that stand where references are wanted gives, at every optimisation level, the result of its source: `a ?? b` evaluates `b` only if `a` is null, `x ??= e` assigns only if `x` is null, `is` and `as` never throw, casts and unboxing throw exactly if the object is not of the type (or is null, for unboxing), values become new objects; effects on parameters and heap and exceptions are the same.", "quantifier": "all bodies and expressions of any depth, all optimisation levels, all methods that are called, all type tests, all parameters, stacks and heaps", "why_tests_cant": "Nesting of expressions, the optimisation level, what constants the compiler sees and the state of the heap combine without bound; a test sees one program at one level.", "anchors": ["modules/compile/expression.cpp:__compile_null_coalescing", "modules/compile/expression.cpp:__compile_null_coalescing_assign", "modules/compile/expression.cpp:__post_compile_expression", "modules/compile/expression.cpp:__try_compile_constant_expression", "modules/core/expression_executor.cpp:binary_expression_t::execute", "modules/exec/commands.cpp:__cast_command_t"]}
{"id": "C110", "title": "The integer functions of System.Math give what their names say", "statement": "Max, Min, Abs and Sign of System.Math, compiled at any optimisation level and called from any program of supported methods, give the greater value, the smaller value, the absolute value and the sign, for every argument of every integer type. (The absolute value of the smallest value of a type does not exist in it: there the library gives the negative argument back, or the interpreter runs into undefined behaviour.)", "quantifier": "every integer type with an overload, every argument, every optimisation level, every program with the library, every state of the machine at a call", "why_tests_cant": "two arguments of 64 bits cannot be enumerated, and the caller's stack and the level vary", "anchors": ["core_lib/System/Math.cs: Max, Min, Abs, Sign", "modules/compile/expression.cpp: question_expression compile", "modules/exec/commands.cpp"]}
{"id": "C111", "title": "Console output is what was written, in order", "statement": "Calls of Console.Write and Console.WriteLine write their texts one behind the other: strings and characters as they are, integers as decimal numerals without leading zeros, truth values as True and False, and a line end after each WriteLine; they leave the stack of the caller as it was. Array.Rank, Length and GetLength give the lengths the array was made with. (Not so: WriteLine of an UInt64 or a null string writes no line end, WriteLine of a Boolean ends with two characters, strings end at a character 0, a character outside of the locale C silences the console for good, GetLength does not check its argument.)", "quantifier": "every sequence of calls, every argument of every overload but Single and Double, every state of the stack and the stream; every list of array lengths", "why_tests_cant": "values, strings and histories of calls cannot be enumerated; that one lost character silences everything later only shows in long histories", "anchors": ["modules/rtlib/system.cpp: console_write_*", "modules/rtlib/array.cpp: array_get_*", "modules/rtlib/rtlib.cpp: get_libfunc", "modules/exec/commands.cpp: __internal_call_command_t", "core_lib/System/Console.cs", "core_lib/System/Internal.cs"]}
{"id": "C112", "title": "Calls keep to their own variables, ref parameters reach the caller's variable, and delegates run their method", "statement": "A method that is called works on its own parameters and local variables only; when it returns, its result is the value of the call and the caller goes on behind the call with its operands and variables as they were, except that an assignment to a ref or out parameter is an assignment to the variable that was passed. Calling a delegate calls the method it was made of on the instance it was made of. Recursion of any depth, what the stack held before and which other methods ran before make no difference.", "quantifier": "every program over calls, virtual calls, ref arguments and delegates, every number of instructions executed, every depth of calls, every content of the stack before the start", "why_tests_cant": "Commands are made once for a key and shared by all methods, so that what an assignment does can depend on which other method was called first; and frames on one stack can only be shown not to overlap for the depths that a test reaches.", "anchors": ["modules/exec/commands.cpp: get_command, __pop_argument_addr, __call_command_t, __delegate_call_command_t, __ret_command_t, execute_commands", "include/modules/exec.h: push_calling, restore_stack, switch_to", "modules/rt/layout.cpp: params_layout_t", "modules/exec/parser.cpp: exec_method_t", "modules/exec/exec.cpp: get_commands", "core_lib/System/System.cs: MulticastDelegate"]}
{"id": "C113", "title": "Structs are values", "statement": "A variable of a struct type has fields of its own: assigning a struct to a variable or field, passing it to a parameter and returning it copies all its fields, constructing it gives the fields what the constructor assigned, a method of a struct works on the variable it is called on, and no other variable changes. Nesting of structs, recursion of any depth, a target that is also read or changed by the expression assigned to it, and what the stack held before make no difference.", "quantifier": "every program over structs, nested structs, methods, constructors and calls, every depth of calls, every content of the stack before the start", "why_tests_cant": "Structs are built in place at an address that is passed along: whether a half-built struct is visible to the code that builds it, and whether addresses into frames overlap, depends on every combination of target, callee and depth; a test sees the few it was written for.", "anchors": ["modules/compile/expression.cpp: __compile_argument, __compile_assign, __need_object_copy, __pre_call_method, __compile_new_struct_object, __do_custom_struct_return, this_expression_t::compile", "modules/compile/xilx.cpp: return_xilx_t::write", "modules/exec/commands.cpp: stack_alloc, __memory_copy_operation_t, __ret_command_t, __offset_of_argument"]}
{"id": "C114", "title": "A source in several languages is divided into its parts, and each part is read in its language", "statement": "Between <` with the name of a language and `> a source file may contain a source in another language, to any depth. A file is accepted exactly when these are properly nested and the languages exist; it is divided into its texts, each with the language it is written in; the parser of each source is given all its tokens and the trees of the sources embedded in it, in their order; and reading never leaves the text.", "quantifier": "every text, every table of languages, every lexical analyser, every depth of nesting", "why_tests_cant": "Which texts are read by whom depends on the order and the depth of all embedded parts, and reading beyond the end depends on what ends the file; a test shows only the nestings it contains.", "anchors": ["modules/compile/utils.cpp: code_section_builder_t::__build, __read_lang", "modules/compile/compile.cpp: code_t::sections, lang_id_of", "modules/compile/analyze_tree.cpp: analyzer_element_reader_t::__read_next_element, __analyze_ast, analyze_ast"]}
{"id": "C115", "title": "An object is constructed from the root of its class chain down, every constructor and initial value once", "statement": "new with arguments for a constructor of the class constructs the part of the base class first, with the arguments written behind : base, then gives the fields of the class their initial values in the order of declaration, then runs the body of the constructor; a class without constructors has one without parameters. A field that no constructor assigns has its written initial value, or 0. new with arguments for which the class has no constructor is rejected.", "quantifier": "every program of classes, of any depth of inheritance, every body of a constructor, all arguments", "why_tests_cant": "What a new object contains depends on the whole chain of base classes and on which constructor each of them selects; tests cover the chains they write down.", "anchors": ["modules/compile/ast.cpp: __method_utils_t::revise_constructor, __get_base_contructor, __init_fields, __check_default_value, type_ast_node_t::__append_default_constructor, new_ast_node_t::on_walk", "modules/compile/ast_utils.cpp: find_constructor", "modules/core/core.cpp: __type_get_member_t", "modules/compile/expression.cpp: __check_constructor_calltype"]}
{"id": "C116", "title": "Evaluating an expression at compile time does not change what the program does", "statement": "From optimisation level 1 on an expression is replaced by a constant only when each run of it gives this constant and changes nothing: no assignment, call or variable is lost, strings are joined as at run time, and a constant of a class is the same constant with and without the name of the class in front.", "quantifier": "every expression of any depth, every table of constants, all values of the variables, whatever calls do, every optimisation level", "why_tests_cant": "Which expressions are taken for constants depends on what is nested in them and on what names stand for; tests with one kind of operand do not show what another does.", "anchors": ["modules/core/expression_executor.cpp: unitary_expression_t::execute, binary_expression_t::execute, type_cast_expression_t::execute", "modules/core/core.cpp: cvalue_t::to_string, cvalue_t::change_type, name_expression_t::execute", "modules/compile/expression.cpp: __try_compile_constant_expression", "algorithm/string.cpp: escape_string"]}
{"id": "C117", "title": "Constants of a class have the values that are written", "statement": "The constants of a class have the values of their expressions in whatever order they are declared, a constant without expression has the default value of its type; a constant that needs itself is an error; the value is one of the declared type; and the compiler comes to an end.", "quantifier": "every class with any number of fields and constants in any order, expressions of any depth over them, any operators, any number of passes", "why_tests_cant": "Which constants are known when one is looked at depends on the order of declaration and on chains of any length; an endless loop shows only for inputs nobody thought of.", "anchors": ["modules/compile/ast.cpp: __fields_init_stub_t::continue_, __is_circular_defination, __is_all_fields_initialized, __general_fields_init_stub_t::__fill_value, __walk_analysis, __walk_analysis_init_fields", "modules/core/core.cpp: field_variable_t::execute"]}
{"id": "C118", "title": "Names with dots are what is written, and one text is one name", "statement": "However names of namespaces, assemblies and packages are made - from a text, from parts, by putting two together, as parent or child of another, from a source file or from a compiled assembly - the same text is the same object, names never change, the parts are the pieces between the dots, and the parent put together with the last part is the name again.", "quantifier": "every history of calls of any length, all texts", "why_tests_cant": "The names are shared through one cache: what a text stands for depends on who asked for it first.", "anchors": ["modules/core/core.cpp: mname_t::parse, combine, get_parent, get_child, to_mname, to_internal, commit", "include/modules/core.h: mname_operate_context_t::from_cache, mname_t::join", "include/algorithm.h: split", "modules/core/assembly_reader.cpp: __to_namespace", "modules/compile/ast.cpp: mname_ast_node_t::on_commit"]}
{"id": "C119", "title": "A parameter that stands for any number of arguments refers to the first of them", "statement": "In a method with a parameter T ... items, whatever other parameters it has and whatever the types of the arguments are, each argument is found where the caller put it, and the pointer that items gives leads to the first packed argument with the others behind it; so every item of new Tuple<...>(...) holds the argument given for it.", "quantifier": "all methods (static or not), all parameters before and after, all numbers and sizes of packed arguments, all contents of the stack", "why_tests_cant": "The place depends on the number and the size of all arguments of each instantiation.", "anchors": ["modules/rt/layout.cpp: params_layout_t::append, offset_of, extends_offset", "modules/rt/__layout.h: params_layout_t", "modules/exec/parser.cpp: parameters of a method", "modules/exec/commands.cpp: __push_params_address_command_t, argument commands", "include/modules/exec.h: push_calling", "core_lib/System/System.cs: Tuple"]}
{"id": "C120", "title": "A program starts in the method marked [EntryPoint], and attributes are checked", "statement": "Running an accepted program starts with the one method marked [EntryPoint], which is public static, without parameters, type parameters and result; a second mark and every departure from that form is reported for the method, and nothing else is. Internal methods have to be static extern, exactly the methods marked [Inline] are always put in line, the basic types of the language are the types marked [Internal], and attributes of the program itself do nothing at compile time.", "quantifier": "all programs: any number of attributes of any kind on anything, in any order", "why_tests_cant": "What a mark does depends on the marks that were committed before it; combinations of modifiers are many.", "anchors": ["modules/core/system_type.cpp: __entrypoint_attribute_type_impl_t, __internal_attribute_type_impl_t, __inline_attribute_type_impl_t", "modules/core/core.cpp: attribute_t::commit, module_t::commit", "include/common.h: bit_has_flag", "modules/exec/exec.cpp: executor_t::execute"]}
{"id": "C121", "title": "Members of generic types and methods have their types with the arguments in place of the parameters", "statement": "A field, result or parameter of a generic class that is used with arguments has the written type in which every type parameter, at any depth of arrays and type arguments, is its argument; type parameters of the method itself stay; a packed parameter becomes one parameter for each of the arguments it stands for. In a generic method that is called with type arguments the same holds for its own parameters and those of its class.", "quantifier": "all types of any depth over any parameters, all argument lists at least as long as the parameters, all methods with any number of parameters, all enclosing types", "why_tests_cant": "Types nest without bound; a wrong replacement shows only for some combination of array, generic argument and owner of the parameter.", "anchors": ["modules/core/core.cpp: __type_transform_t, __search_type, generic_method_t::__revise_type, has_generic_params, __general_type_like_base_t::__find_type, __type_at, __transform_member, __transform_params"]}
{"id": "C122", "title": "Type arguments meet the constraints of the type parameters", "statement": "A use of a generic type or method is accepted exactly when each argument converts to the types its where clause names, is a reference type for class, a value type for struct, and has a public constructor without parameters for new(). A use with type parameters of the place it is in is accepted only when every instance of the place makes it correct. The clauses of a declaration are accepted exactly when they are well formed and not circular.", "quantifier": "all types, conversions, clauses with any number of types, all places with any nesting of generic types and their clauses", "why_tests_cant": "The check depends on the clauses of the place as well as on those of the generic; soundness is about every later instantiation.", "anchors": ["modules/compile/ast.cpp: __check_generic_constraints_t, __generic_param_types_t, __check_generic_template_constraints_t, general_type_name_ast_node_t::__walk_analysis, function_ast_node_t::__walk_analysis"]}
{"id": "C123", "title": "An object has the virtual table of its class", "statement": "Whatever a program did before, once an object exists a virtual call on it uses the table built for the type of the object, a cast of it succeeds exactly when its class is, or is derived from, the class asked for, and its size was known when memory for it was taken. Objects and arrays of every type that is no interface can be created.", "quantifier": "all sets of types with any inheritance, fields, generic instances and arrays, and all histories of fields being read, variables laid out, objects created, values boxed and exceptions raised, with exceptions between", "why_tests_cant": "Tables and sizes are made lazily, each at its first use; which use comes first depends on the history of the whole program.", "anchors": ["modules/rt/rt.cpp: rt_general_type_t::pre_new, rt_generic_type_t::pre_new, rt_array_type_t::pre_new, rt_type_t::get_size, __build_vtbl", "modules/exec/commands.cpp: __new_object, __push_box_command_t, __get_virtual_exec_method, __cast_test", "modules/mm/mm.cpp: new_array"]}
{"id": "C124", "title": "A method called through a virtual table runs with the types of its class", "statement": "When a virtual call on an object, or a call through an interface, reaches a method, the code that runs is that of the method, its references are those of the assembly of its class, and each type parameter of the class stands for the argument the class of the object gives to it, through all the base classes between, and each type parameter of the method for the argument of the call.", "quantifier": "all classes, generic or not, in any assemblies, derived from each other with any type arguments, all objects and methods", "why_tests_cant": "Which method runs with which types depends on the class of the object, on how many base classes are between, and on the assemblies they are in.", "anchors": ["modules/exec/commands.cpp: __get_virtual_exec_method", "modules/exec/parser.cpp: method_parser_t", "modules/rt/layout.cpp: generic_param_manager_builder_t"]}
{"id": "C125", "title": "A method used as a value is a delegate of that method and of the object it is named with", "statement": "When the name of a method, plain or behind a dot, is assigned to a variable of a delegate type, and the compiler accepts it, then the method has the result and the parameters of the delegate type and is one of the class that is meant, the variable holds afterwards that method together with the object before the dot (or the object the program runs on, or none for a static method), and nothing else is changed; of several methods with the name the one with these parameters is taken; an object before a static method, or none for another one, is an error.", "quantifier": "all programs and classes, all methods and overloads, all forms of naming a method, all states of the stack", "why_tests_cant": "Which method is meant depends on what surrounds the name, and what the delegate gets on what the expression before it pushed; a test sees one form at a time.", "anchors": ["modules/compile/ast_utils.cpp: pick_type_from_current_context, __pick_method_from_current_context, __walk_name, __try_get_member", "modules/compile/expression.cpp: __compile_method_variable, __compile_assign", "modules/exec/commands.cpp: delegate_init"]}
{"id": "C126", "title": "A tree of linked nodes is a tree whatever is done with it", "statement": "After any sequence of adding children and siblings, attaching, finding and removing nodes, every node has just the children it was given and not deprived of, in the order they were put, is below one node at most and never below itself, every call ends and returns what it should, and walking, picking the leaves and measuring the height of a node give what is in the tree.", "quantifier": "all sequences of calls, all trees and values, all contents of unused memory, all predicates", "why_tests_cant": "A wrong link shows only in a later walk, after some particular sequence of calls; a test runs one sequence.", "anchors": ["algorithm/__collections.h: lr_tree_node_t, new_lr_tree_root, walk_tree, pick_leaves"]}
{"id": "C127", "title": "Lists that are thinned out, caches and pools give what was put into them", "statement": "A list contains what was appended, without what a walk's predicate refused, and the predicate is asked about each element once and in order; nothing outside the buffer is touched, however large it grows. A cache asks its creator once for each key and gives that value ever after. The objects a pool has given out are different ones and keep their contents, and no more are made than were ever in use at once.", "quantifier": "all sequences of operations, all predicates and creators with a state, all sizes", "why_tests_cant": "The buffer is moved at sizes a test may not reach, and a pool gives the same object twice only after a particular sequence of releases.", "anchors": ["algorithm/__collections.h: walk_list_t, auto_cache_t, respool_wrapper_t"]}
{"id": "C128", "title": "An assembly is loaded once and is the same for everyone", "statement": "While a program runs, every use of an assembly's name gives the same assembly, whatever has become of its file, and different names give different ones; each assembly has an index of its own, the indices are the first numbers, and an index gives back its assembly; an assembly that is missing is an error that leaves no trace; an assembly is found at the path given for it or else next to the main one.", "quantifier": "all sequences of loading the main assembly, loading by package and name and reading by index, all changes to the files between them, all providers", "why_tests_cant": "Which assembly is asked for first, and by whom, depends on what the program executes; two copies show only in their static fields.", "anchors": ["modules/rt/rt.cpp: rt_assemblies_t::load_main_assembly, load_assembly, at, __revise_assembly", "modules/april/compiler.cpp: __rt_assembly_provider_t", "modules/rt/assembly_loader.cpp: load_assembly"]}
{"id": "C129", "title": "An index expression means the indexer that fits it", "statement": "On an object, x[i] means the indexer whose parameters have exactly the types of the arguments, otherwise the only one they can be converted to, in the class itself or else in the nearest base class that has one; more than one is an error, none is an error; indexers that implement an interface explicitly and plain properties are never meant; the order of declaration does not matter. On an array it means an element.", "quantifier": "all classes, interfaces and hierarchies, all lists of properties, all types and numbers of arguments", "why_tests_cant": "Which indexers fit depends on the whole hierarchy and on all conversions; a test tries a few types.", "anchors": ["modules/compile/ast_utils.cpp: __walk_index", "modules/core/core.cpp: __property_index_analyzer_t, __general_type_like_base_t::get_member, __type_get_member_t"]}
{"id": "C130", "title": "Virtual methods of generic classes can be overridden and called", "statement": "When classes of a hierarchy have type parameters, an object of each of its classes can be made, and the call of a virtual method runs the method of the class nearest to the class of the object that overrides it: the method whose prototype is that of the called one after the type parameters are replaced by the type arguments. It does not matter whether the call names the overridden or the overriding method, nor which method contains the call.", "quantifier": "all hierarchies with generic and other classes, all lists of methods, all type arguments, all calling methods", "why_tests_cant": "Whether an override is recognised depends on the types the type parameters stand for at every level of the hierarchy; tests instantiate a few.", "anchors": ["modules/rt/rt.cpp: __build_vfunctions, get_virtual_method_offset, get_prototype, rt_method_t::compare_to, rt_general_type_t::search_method, rt_generic_type_t::search_method, assembly_analyzer_t::get_type"]}
{"id": "C131", "title": "A class can implement a generic interface", "statement": "When a class implements an interface with type arguments, objects of it and of all classes derived from it can be made, and a call of a method of the interface runs the method whose prototype is that of the interface's method after the type parameters are replaced by the type arguments, each by those of the class or interface it belongs to. The names that type parameters have do not matter.", "quantifier": "all generic and other interfaces and classes, all hierarchies, all lists of methods, all type arguments and names of type parameters", "why_tests_cant": "Whether a method implements another depends on what type parameters of the same or other names stand for on both sides; tests use a few names and types.", "anchors": ["modules/rt/rt.cpp: __build_interfaces, __build_interface, __build_interface_override", "modules/rt/layout.cpp: generic_param_manager_t::type_at"]}
{"id": "C132", "title": "The items of a tuple are the values it was made with", "statement": "A tuple made of n values has members Item1 to Itemn of the types of the values, besides Count, and no other items; reading ItemK gives the K-th value, for all numbers and types of items.", "quantifier": "all lists of types of items, all values, all positions, all places of the fields in memory", "why_tests_cant": "Items are laid out in an order of sizes, read by methods that are made at run time and found by names with numbers; tests use two or three items.", "anchors": ["modules/core/core.cpp: __transform_tuple_type", "modules/rt/rt.cpp: rt_generic_type_t::__get_tuple_members, each_method", "modules/rt/rt_commands.cpp: to_method_body", "modules/exec/parser.cpp: dynamic_method_reader_t::read_next, __parse_dynamic_commands", "modules/exec/commands.cpp: new_command, new_ret_command"]}
{"id": "C133", "title": "What is made in a pool lives as long as the pool", "statement": "Every object that is made in a pool has memory of its own until the pool goes; then its destructor runs once and its memory is given back once, as is memory that was asked for without being an object; giving something back earlier is allowed. With the default memory manager an object goes when it is deleted.", "quantifier": "all sequences of calls of a pool or of the default memory manager, all addresses that the system gives, all states of memory before", "why_tests_cant": "Which objects are destroyed depends on all calls made before and on the addresses; giving back twice, or never, or reading an erased iterator, passes tests that only look at values.", "anchors": ["include/common.h: memory_t::new_obj, delete_obj, pool_t", "common/common.cpp: pool_t::alloc, pool_t::free, ~pool_t, default_memory_t"]}
{"id": "C134", "title": "Walking several sequences at once gives the items at the same positions", "statement": "A loop over a zip of sequences sees one row for each position that all of them have, in order, with the items at that position in the order of the sequences; taking a row apart gives every variable its item. A second loop over the same zip sees the same rows.", "quantifier": "all numbers of sequences, all lengths, all items, all variables", "why_tests_cant": "The iterators advance in a chain that stops at the first sequence at its end and share their state; tests use sequences of one length and loop once.", "anchors": ["algorithm/__collections.h: zip, tie, __zip_iterator_t, __zip_iterator_impl_t, __zip_container_t"]}
{"id": "C135", "title": "Errors are shown at the code they are about", "statement": "An error names the line and the column of the code it is about, different places have different positions, and below it the whole line of the code is shown with marks that stand under the code; this holds in every line of every file and at its end.", "quantifier": "all source files, all places and pieces of code in them, all lengths of lines, both kinds of line ends", "why_tests_cant": "The line is found by a binary search in an array of line starts and by loops that run to both sides; first and last lines, ends of lines and of files are easily missed.", "anchors": ["modules/compile/analyze_utils.cpp: codepos_helper_t::pos_of, __ensure_initialized", "modules/core/core.cpp: code_unit_t::current_line_pos", "modules/compile/compile.cpp: format_code_line, __to_prefix_space, console_logger_t::log"]}
{"id": "C136", "title": "New objects and arrays start out with zeros", "statement": "The bytes of a new object or array are all zero, whatever was in that memory before and whatever its size, its type and length stand before it, and making it changes no memory but its own.", "quantifier": "all contents of memory, all addresses, all sizes of types, all lengths of arrays", "why_tests_cant": "Memory is cleared by unrolled code in pieces, and the pieces at the end, of every size, and what lies beyond them have to be right; tests run on memory that is zero already.", "anchors": ["modules/mm/mm.cpp: default_rt_heap_t::new_obj, default_rt_heap_t::new_array, __zero_memory, __zero, __zero_t, __set_object_type, __set_array_length", "include/algorithm.h: zero_object, __zero_bytes_t", "include/modules/mm.h: get_array_lengths"]}
{"id": "C137", "title": "Types of the core library are known under their own names", "statement": "The compiler finds each type of the core library under its name \u2014 with its namespace and the number and kinds of its type parameters \u2014, never another type, whatever types a program declares and in whatever order; no two types have the same full name.", "quantifier": "all sets of types in all namespaces and assemblies, all names, all numbers and kinds of type parameters, all arrays of them, all orders of declarations", "why_tests_cant": "Names are put together from parts, with dots that stand between parts and also for parameters; whether two of them can coincide is a question about all names.", "anchors": ["modules/core/core.cpp: general_type_t::to_identity, __to_identity_no_gerneric_args, general_type_t::to_short_name, generic_param_t::to_identity, array_type_t::to_identity, xpool_t::append_new_type, xpool_t::__get_specified_type, xpool_t::is_core_assembly", "include/modules/core.h: CoreType_Array, CoreType_TArray, CoreType_Tuple"]}
{"id": "C138", "title": "Types have their own names at run time", "statement": "The name of a type at run time tells which type it is: two types with the same name are the same class, or instances of the same generic type with the same arguments, or arrays of the same elements and dimensions; this holds however deep arguments and arrays are nested.", "quantifier": "all classes, all instances of generic types to any depth, all arrays of arrays, all names", "why_tests_cant": "Names of instances and arrays are put together from other names with commas and brackets; whether two of them can coincide is a question about all types.", "anchors": ["modules/rt/rt.cpp: rt_general_type_t::get_name, rt_generic_type_t::get_name, rt_array_type_t::get_name"]}
