{
 "claims": [
  {
   "property": "C01",
   "status": "partial",
   "theorems": [
    "Verif.Varint.varint_roundtrip_partial",
    "Verif.Varint.varint_rejected_iff",
    "Verif.Varint.varint_roundtrip_refuted"
   ],
   "note": "The decoder refuses values needing the incomplete last 7-bit group (>= 2^28 for 32 bits, >= 2^63 for 64 bits): refuted, with the exact set of rejected values; all other values round-trip."
  },
  {
   "property": "C02",
   "status": "proved",
   "theorems": [
    "Verif.Varint.varint_framing",
    "Verif.Varint.varint_prefix_free",
    "Verif.Varint.varint_length"
   ],
   "note": "Continuation bits, prefix-freeness (including injectivity) and minimal length for every width >= 8."
  },
  {
   "property": "C03",
   "status": "proved",
   "theorems": [
    "Verif.Bits.align_floor",
    "Verif.Bits.isAligned_iff",
    "Verif.Bits.alignf_ceil",
    "Verif.Bits.alignd_doubles",
    "Verif.Bits.alignd_diverges_refuted",
    "Verif.Bits.alignf_wraps"
   ],
   "note": "Rounding up needs the no-wrap hypothesis stated in the property; the doubling helper is proved for requests up to 2^63 and shown to diverge above."
  },
  {
   "property": "C04",
   "status": "proved",
   "theorems": [
    "Verif.Bits.jmp_step_roundtrip",
    "Verif.Bits.jmp_setModel",
    "Verif.Bits.jmp_tbl_roundtrip"
   ],
   "note": ""
  },
  {
   "property": "C05",
   "status": "proved",
   "theorems": [
    "Verif.Bits.ref_parts",
    "Verif.Bits.ref_word_roundtrip",
    "Verif.Bits.word_ref_roundtrip",
    "Verif.Bits.ref_collide_iff",
    "Verif.Bits.ref_beq_iff",
    "Verif.Bits.ref_beq_equivalence",
    "Verif.Bits.ref_nth"
   ],
   "note": ""
  },
  {
   "property": "C06",
   "status": "partial",
   "theorems": [
    "Verif.Xil.stream_split",
    "Verif.Xil.stream_boundaries",
    "Verif.Xil.stream_decode_partial",
    "Verif.Xil.stream_refuted"
   ],
   "note": "Count and boundaries for every buildable instruction; operations and operands for every sequence without the operand forms whose size the code forgets. In general the claim is false (two methods with the same bytes)."
  },
  {
   "property": "C07",
   "status": "partial",
   "theorems": [
    "Verif.Xil.var_operand_iff",
    "Verif.Xil.var_operand_partial",
    "Verif.Xil.var_operand_refuted"
   ],
   "note": "Exact characterisation of the instruction forms that keep their variable number; the general claim is refuted."
  },
  {
   "property": "C08",
   "status": "partial",
   "theorems": [
    "Verif.Xil.read_advances_iff",
    "Verif.Xil.reader_terminates_partial",
    "Verif.Xil.reader_terminates_refuted"
   ],
   "note": "A read advances exactly on known commands; on an unknown command byte the reader loops for ever (refuted)."
  },
  {
   "property": "C09",
   "status": "partial",
   "theorems": [
    "Verif.Xil.type_code_partial",
    "Verif.Xil.type_code_refuted",
    "Verif.Xil.type_code_surjective"
   ],
   "note": "Holds for every type but void/default, which share code 0 (refuted)."
  },
  {
   "property": "C10",
   "status": "partial",
   "theorems": [
    "Verif.Heap.heap_total",
    "Verif.Heap.heap_keeps_strings",
    "Verif.Heap.heap_keeps_blocks",
    "Verif.Heap.heap_keeps_bytes",
    "Verif.Heap.heap_entity_partial",
    "Verif.Heap.heap_last_entity_refuted",
    "Verif.Heap.heap_string_nul_refuted"
   ],
   "note": "Strings without embedded NUL and all blocks are read back unchanged in every later state. The code refuses a typed read of the entity stored last (off-by-one) and cuts strings at an embedded NUL: both refuted with witnesses."
  },
  {
   "property": "C11",
   "status": "proved",
   "theorems": [
    "Verif.Heap.heap_interns"
   ],
   "note": "Below the 64 MB limit the writer enforces."
  },
  {
   "property": "C12",
   "status": "partial",
   "theorems": [
    "Verif.Fold.Props.fold_arith_partial",
    "Verif.Fold.Props.fold_exact_partial",
    "Verif.Fold.Props.fold_ub_iff",
    "Verif.Fold.Props.fold_defined",
    "Verif.Fold.Props.fold_mixed",
    "Verif.Fold.Props.fold_mixed_refuted",
    "Verif.Fold.Props.fold_div_zero_refuted",
    "Verif.Fold.Props.fold_int_char_refuted",
    "Verif.Fold.Props.fold_char_int"
   ],
   "note": "Type and value proved for every pair of integer types except uint32 with int8/int16/int32, where the code is wrong (exact characterisation and counterexample proved). Division by zero and signed overflow are undefined behaviour in the compiler (characterised)."
  },
  {
   "property": "C13",
   "status": "partial",
   "theorems": [
    "Verif.Fold.Props.fold_cmp_partial",
    "Verif.Fold.Props.fold_cmp_types",
    "Verif.Fold.Props.fold_cmp_refuted",
    "Verif.Fold.Props.fold_cmp_char"
   ],
   "note": "Proved unless a negative operand is compared in an unsigned type, where the code is wrong (refuted)."
  },
  {
   "property": "C14",
   "status": "partial",
   "theorems": [
    "Verif.Fold.Props.fold_inc_partial",
    "Verif.Fold.Props.fold_inc_dec_refuted",
    "Verif.Fold.Props.fold_inc_ub"
   ],
   "note": "++x and x-- proved; --x and x++ are swapped in the code and refuted for every value."
  },
  {
   "property": "C15",
   "status": "partial",
   "theorems": [
    "Verif.Fold.Props.fold_neg_partial",
    "Verif.Fold.Props.fold_neg_refuted",
    "Verif.Fold.Props.fold_not"
   ],
   "note": "Proved for six of the eight types; uint32 and uint64 refuted."
  },
  {
   "property": "C16",
   "status": "proved",
   "theorems": [
    "Verif.Fold.Props.result_types",
    "Verif.Fold.Props.result_types_hold",
    "Verif.Fold.Props.result_types_other",
    "Verif.Fold.Props.result_types_sym",
    "Verif.Fold.Props.result_types_char_refuted",
    "Verif.Fold.Props.fold_type"
   ],
   "note": "The char remark is outside the property (integer types)."
  },
  {
   "property": "C17",
   "status": "partial",
   "theorems": [
    "Verif.Lex.Props.string_literal_partial",
    "Verif.Lex.Props.string_literal_sound",
    "Verif.Lex.Props.string_literal_total",
    "Verif.Lex.Props.string_unclosed",
    "Verif.Lex.Props.string_formfeed_refuted",
    "Verif.Lex.Props.string_nul_refuted",
    "Verif.Lex.Props.escape_iff"
   ],
   "note": "Proved for every text without NUL and every escape except \\f. The code violates the property for \\f (read as the letter f) and for texts with a NUL (cut there): both refuted with witnesses. The converse (an error-free literal is closed and correctly encoded) is complete."
  },
  {
   "property": "C18",
   "status": "partial",
   "theorems": [
    "Verif.Lex.Props.verbatim_literal_partial",
    "Verif.Lex.Props.verbatim_quote_refuted",
    "Verif.Lex.Props.verbatim_unclosed"
   ],
   "note": "Texts without a quote. For every text with a doubled quote the code reports an error and stops after it (refuted in general)."
  },
  {
   "property": "C19",
   "status": "partial",
   "theorems": [
    "Verif.Lex.Props.readChar_iff",
    "Verif.Lex.Props.char_plain",
    "Verif.Lex.Props.char_escaped_partial",
    "Verif.Lex.Props.char_formfeed_refuted",
    "Verif.Lex.Props.char_termination_refuted",
    "Verif.Lex.Props.char_hang_loops",
    "Verif.Lex.Props.char_sound",
    "Verif.Lex.Props.hang_only_char"
   ],
   "note": "Exact characterisation of the literals on which the loop never ends; well-formed literals are read correctly except \\f; error-free results are well formed."
  },
  {
   "property": "C20",
   "status": "partial",
   "theorems": [
    "Verif.Lex.Props.line_comment",
    "Verif.Lex.Props.block_comment",
    "Verif.Lex.Props.block_unclosed_refuted"
   ],
   "note": "Line and closed block comments complete; an unclosed block comment is reported but its token is one character longer than the text (refuted)."
  },
  {
   "property": "C21",
   "status": "proved",
   "theorems": [
    "Verif.Lex.Props.keyword_whole_word",
    "Verif.Lex.Props.keyword_sound"
   ],
   "note": "Both directions, for every word and every following text. What follows a section of source code is taken not to be a word character."
  },
  {
   "property": "C22",
   "status": "partial",
   "theorems": [
    "Verif.Numeric.Props.integer_literal_partial",
    "Verif.Numeric.Props.integer_literal_upto10",
    "Verif.Numeric.Props.literal_value_exact",
    "Verif.Numeric.Props.zero_literal",
    "Verif.Numeric.Props.integer_literal_separator_refuted",
    "Verif.Numeric.Props.negative_literal_partial",
    "Verif.Numeric.Props.negative_literal_refuted"
   ],
   "note": "Unsigned literals of every radix, suffix and length are covered. Refuted: separator after a hexadecimal letter; -2147483648 (undefined behaviour), -9223372036854775809, negative hexadecimal literals."
  },
  {
   "property": "C23",
   "status": "partial",
   "theorems": [
    "Verif.Numeric.Props.overflow_iff_partial",
    "Verif.Numeric.Props.no_silent_wrap_partial",
    "Verif.Numeric.Props.number_token_error_refuted"
   ],
   "note": "Overflow exactly above the largest type. Refuted at token level: every number token carries an error."
  },
  {
   "property": "C24",
   "status": "partial",
   "theorems": [
    "Verif.Parse.Props.grouped_parses_partial",
    "Verif.Parse.Props.sequence_parses_partial",
    "Verif.Parse.Props.grouping_unique",
    "Verif.Parse.Props.tighter_first",
    "Verif.Parse.Props.left_chain",
    "Verif.Parse.Props.right_chain",
    "Verif.Parse.Props.parse_ends",
    "Verif.Parse.Props.comments_ignored",
    "Verif.Parse.Props.prefix_postfix_refuted",
    "Verif.Parse.Props.boxes_closed"
   ],
   "note": "Every grouped tree (any size, boxes, all operators) is what the parser builds from its text, and every sequence of units has one. Missing, because the code does something else: an operand with both a prefix and a postfix operator (- - a ++ groups neither way), see prefix_postfix_refuted."
  },
  {
   "property": "C25",
   "status": "partial",
   "theorems": [
    "Verif.Parse.Props.reading_kept_partial",
    "Verif.Parse.Props.sequence_kept_partial",
    "Verif.Parse.Props.reading_kept_refuted",
    "Verif.Parse.Props.missing_operator_rejected",
    "Verif.Parse.Props.enough_operands"
   ],
   "note": "Proved for every grouped expression and every sequence of units; refuted for sequences that are no expressions but are accepted (a b; x + a . - b)."
  },
  {
   "property": "C26",
   "status": "partial",
   "theorems": [
    "Verif.Stmt.Props.exit_sound_partial",
    "Verif.Stmt.Props.body_sound_partial",
    "Verif.Stmt.Props.dropped_unreachable_partial",
    "Verif.Stmt.Props.method_end_partial",
    "Verif.Stmt.Props.method_result_partial",
    "Verif.Stmt.Props.exit_while_refuted",
    "Verif.Stmt.Props.method_end_refuted",
    "Verif.Stmt.Props.exit_break_refuted",
    "Verif.Stmt.Props.exit_do_refuted",
    "Verif.Stmt.Props.exit_until_refuted",
    "Verif.Stmt.Props.exit_switch_refuted",
    "Verif.Stmt.Props.exit_switch_known_refuted",
    "Verif.Stmt.Props.exit_catch_refuted",
    "Verif.Stmt.Props.exit_finally_refuted"
   ],
   "note": "Proved for every statement tree outside the shapes the analysis gets wrong (tidy); each of those shapes is refuted with a concrete program, among them while (c) { return; }, after which live code is dropped and a method can run off its end."
  },
  {
   "property": "C27",
   "status": "proved",
   "theorems": [
    "Verif.Stmt.Props.labels_vanish",
    "Verif.Stmt.Props.jumps_land",
    "Verif.Stmt.Props.unplaced_reported",
    "Verif.Stmt.Props.compiled_labels"
   ],
   "note": "For code of less than 2^31 instructions. That no label is placed twice is a hypothesis of jumps_land, proved for everything the compiler generates (compiled_labels)."
  },
  {
   "property": "C28",
   "status": "partial",
   "theorems": [
    "Verif.Stmt.Props.switch_rows_partial",
    "Verif.Stmt.Props.switch_lands_partial",
    "Verif.Stmt.Props.duplicate_rejected",
    "Verif.Stmt.Props.switch_rows_refuted",
    "Verif.Stmt.Props.two_defaults_refuted",
    "Verif.Stmt.Props.method_follows_partial"
   ],
   "note": "Proved for up to 65535 rows; refuted at 65536 rows (16-bit count). A switch with fewer than two constants is turned into an if or a plain statement, see C69."
  },
  {
   "property": "C29",
   "status": "partial",
   "theorems": [
    "Verif.SVector.Props.vector_is_sequence",
    "Verif.SVector.Props.vector_refuses",
    "Verif.SVector.Props.push_own_refuted",
    "Verif.SVector.Props.push_own_partial"
   ],
   "note": "Every history of push, pop, truncate, clear, insert and indexed write refines a list, for every positive inline capacity and up to 2^63 elements. Pushing an element of the vector itself when it grows is refuted. The constructor from a pair of iterators (which leaves the count uninitialised) and move assignment are not modelled."
  },
  {
   "property": "C30",
   "status": "partial",
   "theorems": [
    "Verif.RowHeap.Props.heap_is_sequence_partial",
    "Verif.RowHeap.Props.places_distinct",
    "Verif.RowHeap.Props.objects_stable",
    "Verif.RowHeap.Props.last_is_newest",
    "Verif.RowHeap.Props.behind_end_refused",
    "Verif.RowHeap.Props.delete_loses_refuted",
    "Verif.RowHeap.Props.delete_before_row_refuted",
    "Verif.RowHeap.Props.delete_full_row_refuted",
    "Verif.RowHeap.Props.last_after_delete_refuted"
   ],
   "note": "Proved for creation, insertion, clearing and deletions within the last row; the code's deletion from an earlier row loses or overwrites objects, which is refuted with witnesses."
  },
  {
   "property": "C31",
   "status": "partial",
   "theorems": [
    "Verif.XHeap.Props.blocks_disjoint_partial",
    "Verif.XHeap.Props.objects_destroyed_partial",
    "Verif.XHeap.Props.zero_size_refuted",
    "Verif.XHeap.Props.arrays_disjoint"
   ],
   "note": "Proved for every history of requests of 1 to 2^63 bytes and for the heap of object arrays. Freed blocks are never handed out again: free does nothing. A request of zero bytes indexes before the table."
  },
  {
   "property": "C32",
   "status": "partial",
   "theorems": [
    "Verif.BitArray.Props.get_last_set",
    "Verif.BitArray.Props.index_of_first_partial",
    "Verif.BitArray.Props.search_empty_refuted",
    "Verif.BitArray.Props.growth_overreads_refuted"
   ],
   "note": "Reading gives the last write and the search gives the least match, for every history in which the buffer was allocated large enough; refuted: growth copies from past the old buffer, and a search before the first write follows a null pointer."
  },
  {
   "property": "C33",
   "status": "proved",
   "theorems": [
    "Verif.Respool.Props.pool_exclusive",
    "Verif.Respool.Props.pool_destroys_once",
    "Verif.Respool.Props.pool_bounded"
   ],
   "note": "Every call runs under the pool's mutex, so every interleaving is a sequence of calls; the creator is assumed to give addresses that are not live."
  },
  {
   "property": "C34",
   "status": "partial",
   "theorems": [
    "Verif.LrTree.Props.restore_store_partial",
    "Verif.LrTree.Props.restore_store_null",
    "Verif.LrTree.Props.wide_tree_refuted"
   ],
   "note": "Proved for every tree in which no node has more than 255 children; refuted for 256 children, whose count is kept in a byte."
  },
  {
   "property": "C35",
   "status": "proved",
   "theorems": [
    "Verif.LrTree.Props.fixed_map_find",
    "Verif.LrTree.Props.fixed_map_overflow",
    "Verif.LrTree.Props.small_map_last",
    "Verif.LrTree.Props.small_map_keys",
    "Verif.LrTree.Props.small_map_at"
   ],
   "note": "For every strict weak order and every order std::sort may leave among equal keys; std::sort and std::equal_range are modelled by their specification."
  },
  {
   "property": "C36",
   "status": "proved",
   "theorems": [
    "Verif.Algo.multikey_strict_total",
    "Verif.Algo.multikey_eq_iff",
    "Verif.Algo.multikey_operators",
    "Verif.Algo.multikey_shorter_first"
   ],
   "note": "Component counts below 2^31 (the loop counter is a C int)."
  },
  {
   "property": "C37",
   "status": "proved",
   "theorems": [
    "Verif.CStr.strlen_spec",
    "Verif.CStr.strcmp_lexicographic",
    "Verif.CStr.strcmp_equal_iff",
    "Verif.CStr.strcmp_negative_unit",
    "Verif.CStr.strstr_first",
    "Verif.CStr.strchr_first"
   ],
   "note": "Dictionary order for texts of Unicode characters (units below 2^31); equality and search for every text."
  },
  {
   "property": "C38",
   "status": "partial",
   "theorems": [
    "Verif.Copy.quick_copy_memmove_partial",
    "Verif.Copy.quick_copy_frame",
    "Verif.Copy.quick_copy_refuted",
    "Verif.Copy.quick_copy_refuted_all",
    "Verif.Copy.quick_copyT_memmove_partial",
    "Verif.Copy.quick_copyT_refuted",
    "Verif.Copy.quick_copyBackT_refuted",
    "Verif.Copy.quick_zero_memzero",
    "Verif.Copy.quick_zeroT_memzero"
   ],
   "note": "Holds when the regions do not overlap in the harmful direction; refuted for the overlapping case."
  },
  {
   "property": "C39",
   "status": "partial",
   "theorems": [
    "Verif.Algo.select_first_max",
    "Verif.Algo.selectMax_is_min",
    "Verif.Algo.selectMin_is_max",
    "Verif.Algo.selectMin_correct_iff",
    "Verif.Algo.selectMax_correct_iff",
    "Verif.Algo.select_refuted"
   ],
   "note": "The code violates the property: select_min returns the maximum and select_max the minimum. What they do return is proved for every sequence; the claim is refuted with a witness."
  },
  {
   "property": "C40",
   "status": "partial",
   "theorems": [
    "Verif.Bits.incorp_parts",
    "Verif.Bits.setIncorpV_partial",
    "Verif.Bits.setIncorpV_refuted",
    "Verif.Bits.setIncorpP_partial",
    "Verif.Bits.setIncorpP_refuted"
   ],
   "note": "Combining and splitting is proved; replacing one part is false of the code (refuted, exact effect proved)."
  },
  {
   "property": "C41",
   "status": "partial",
   "theorems": [
    "Verif.Bits.flags_or_union",
    "Verif.Bits.flags_add_union",
    "Verif.Bits.flags_remove_diff",
    "Verif.Bits.flags_has_iff",
    "Verif.Bits.flags_hasOnly_iff",
    "Verif.Bits.flags_match_iff",
    "Verif.Bits.bitAndInt_refuted",
    "Verif.Bits.bitHasFlag_repeated_refuted"
   ],
   "note": "All enum operations proved; the integer instantiation of bit_and folds with xor and bit_has_flag xors its flags (refuted)."
  },
  {
   "property": "C42",
   "status": "partial",
   "theorems": [
    "Verif.Access.Props.access_sound",
    "Verif.Access.Props.type_access_sound",
    "Verif.Access.Props.access_exact_partial",
    "Verif.Access.Props.type_access_exact_partial",
    "Verif.Access.Props.access_sound_supers",
    "Verif.Access.Props.access_exact_supers_partial",
    "Verif.Access.Props.assembly_cross",
    "Verif.Access.Props.nested_sibling_refuted",
    "Verif.Access.Props.nested_protected_refuted",
    "Verif.Access.Props.assembly_private_refuted",
    "Verif.Access.Props.generic_base_refuted",
    "Verif.Access.Props.assembly_own",
    "Verif.Access.Props.default_access"
   ],
   "note": "Everything that is granted is accessible by the rules (sound, for every type); for code in a top-level type the check is exact. Refuted for nested types (private siblings, protected members inherited by the enclosing type), generic base instances and assembly-level code."
  },
  {
   "property": "C43",
   "status": "partial",
   "theorems": [
    "Verif.Dispatch.Props.virtual_iff_overridable",
    "Verif.Dispatch.Props.direct_not_overridden",
    "Verif.Dispatch.Props.base_call_direct",
    "Verif.Dispatch.Props.sealed_class_refuted"
   ],
   "note": "Exact for every declaration; a direct call's target is not overridden in any accepted hierarchy in which sealed classes have no subclasses. Refuted below a sealed class: deriving from it is not rejected."
  },
  {
   "property": "C44",
   "status": "partial",
   "theorems": [
    "Verif.Body.Props.body_round_trip_partial",
    "Verif.Body.Props.body_instructions_partial",
    "Verif.Body.Props.variables_by_number",
    "Verif.Body.Props.row_count_partial",
    "Verif.Body.Props.row_count_refuted",
    "Verif.Body.Props.variables_refuted"
   ],
   "note": "Every body with fewer than 65536 variables, tables, blocks and rows per table, and the instruction operands of C06; refuted at 65536 variables, and from 32768 rows (signed count in the virtual machine)."
  },
  {
   "property": "C45",
   "status": "partial",
   "theorems": [
    "Verif.Arr.Props.lengths_partial",
    "Verif.Arr.Props.element_partial",
    "Verif.Arr.Props.element_distinct",
    "Verif.Arr.Props.element_disjoint",
    "Verif.Arr.Props.inside_partial",
    "Verif.Arr.Props.out_of_range_partial",
    "Verif.Arr.Props.inside_refuted",
    "Verif.Arr.Props.inside_struct_refuted",
    "Verif.Arr.Props.negative_refuted",
    "Verif.Arr.Props.dimension_refuted",
    "Verif.Arr.Props.pick_refuted",
    "Verif.Arr.Props.dimensions_refuted",
    "Verif.Arr.Props.zero_length_refuted",
    "Verif.Arr.Props.element_size_partial"
   ],
   "note": "Lengths, total and row-major places are exact for all positive lengths whose product is an int32, distinct elements never overlap, and with one dimension every element is in the allocation. Refuted: allocation for two or more dimensions, for structures and small classes; negative indices, indices beyond their dimension, unchecked pick, 10/18/... dimensions, zero lengths."
  },
  {
   "property": "C46",
   "status": "partial",
   "theorems": [
    "Verif.Sync.Props.conserved_partial",
    "Verif.Sync.Props.holders_partial",
    "Verif.Sync.Props.acquire_partial",
    "Verif.Sync.Props.release_partial",
    "Verif.Sync.Props.woken_partial",
    "Verif.Sync.Props.spurious_refuted",
    "Verif.Sync.Props.lost_refuted",
    "Verif.Sync.Props.timeout_refuted",
    "Verif.Sync.Props.deadlock_refuted"
   ],
   "note": "Transition system of semaphore_t with any number of threads and any schedule. Without spurious wake-ups the permits held and free always add up to the permits; release by a holder and the end of an acquire that was notified always succeed. Refuted with reachable states: a spurious wake-up takes a permit that is not there (two holders of one permit), a release before wait is lost for ever, a timeout can strand a later waiter, and the two mutexes deadlock."
  },
  {
   "property": "C47",
   "status": "proved",
   "theorems": [
    "Verif.Sync.Props.exclusive",
    "Verif.Sync.Props.independent",
    "Verif.Sync.Props.enter_ok",
    "Verif.Sync.Props.exit_ok",
    "Verif.Sync.Props.mutexes_distinct",
    "Verif.Sync.Props.reenter_refuted"
   ],
   "note": "Transition system of object_lock_manager_t with any number of threads and objects, with the clean-up and reuse of mutexes. exit is called by a thread that has the lock. The locks are not recursive (reenter_refuted): a thread that enters twice waits for itself."
  },
  {
   "property": "C48",
   "status": "proved",
   "theorems": [
    "Verif.Intern.Props.same_id_iff",
    "Verif.Intern.Props.id_denotes"
   ],
   "note": "The set is an unbalanced search tree with the search of libstdc++; the allocator is any function that gives an unused address."
  },
  {
   "property": "C49",
   "status": "partial",
   "theorems": [
    "Verif.Guid.guid_parse_iff",
    "Verif.Guid.guid_parse_unique",
    "Verif.Guid.guid_roundtrip_partial",
    "Verif.Guid.guid_roundtrip_refuted",
    "Verif.Guid.guid_text_injective_refuted",
    "Verif.Guid.guid_short_refuted",
    "Verif.Guid.guid_overflow_refuted",
    "Verif.Guid.guid_trailing_refuted",
    "Verif.Guid.guid_eq_iff",
    "Verif.Guid.guid_lt_total",
    "Verif.Guid.guid_lt_trans"
   ],
   "note": "Parsing accepts exactly the text form (characters after the 36th are ignored). Print/parse round-trips iff no byte is below 16 (printed unpadded): refuted in general. Short text is read past its end and text without hyphens overflows the 16 bytes."
  },
  {
   "property": "C50",
   "status": "partial",
   "theorems": [
    "Verif.Block.Props.handler_partial",
    "Verif.Block.Props.handler_innermost",
    "Verif.Block.Props.handler_none",
    "Verif.Block.Props.handler_refuted",
    "Verif.Block.Props.isBaseType_spec"
   ],
   "note": "For every tree of try statements, compiled to its block table: at every command that some clause guards, the search gives the innermost matching clause and the finally clauses on the way. Refuted for commands no clause guards in a method that has blocks: the search reads past the table."
  },
  {
   "property": "C51",
   "status": "proved",
   "theorems": [
    "Verif.Algo.split_pieces",
    "Verif.Algo.split_empty",
    "Verif.Algo.split_array_runs"
   ],
   "note": ""
  },
  {
   "property": "C52",
   "status": "proved",
   "theorems": [
    "Verif.Algo.maxOf_spec",
    "Verif.Algo.minOf_spec",
    "Verif.Algo.cmpPairs_spec"
   ],
   "note": ""
  },
  {
   "property": "C53",
   "status": "partial",
   "theorems": [
    "Verif.CStr.char_classes",
    "Verif.CStr.digit_value_partial",
    "Verif.CStr.digit_value_refuted",
    "Verif.CStr.case_conversion_partial",
    "Verif.CStr.case_conversion_high",
    "Verif.CStr.case_conversion_refuted"
   ],
   "note": "Class tests proved for all characters. digit_value, to_upper and to_lower cut the character to 8 bits: proved for 7-bit characters, refuted for wide ones."
  },
  {
   "property": "C54",
   "status": "partial",
   "theorems": [
    "Verif.CStr.stricmp_partial",
    "Verif.CStr.stristr_partial",
    "Verif.CStr.stricmp_refuted"
   ],
   "note": "Proved for 7-bit texts; refuted for wide characters (wrong equality and an out-of-bounds read)."
  },
  {
   "property": "C55",
   "status": "proved",
   "theorems": [
    "Verif.Heap.heap_saved_loaded",
    "Verif.Heap.heap_truncated"
   ],
   "note": "Reads by std::istream are modelled as prefix reads."
  },
  {
   "property": "C56",
   "status": "partial",
   "theorems": [
    "Verif.Value.constant_narrow_partial",
    "Verif.Value.constant_wide_partial",
    "Verif.Value.constant_wide_refuted",
    "Verif.Value.constant_extern_partial",
    "Verif.Value.constant_type_refuted",
    "Verif.Value.constants_kept_partial"
   ],
   "note": "Constants of at most 32 bits are kept. The code loses 64-bit constants stored inline unless their low 16 bits are zero, throws for the last external one, and merges equal constants of different types: exact characterisation and refutations proved."
  },
  {
   "property": "C58",
   "status": "partial",
   "theorems": [
    "Verif.Value.compare_partial",
    "Verif.Value.compare_refuted",
    "Verif.Value.compare_cycle_refuted"
   ],
   "note": "Proved for all pairs but unsigned 64-bit against negative, where the code is wrong (refuted, including a cycle)."
  },
  {
   "property": "C59",
   "status": "partial",
   "theorems": [
    "Verif.Value.negate_partial",
    "Verif.Value.negate_refuted",
    "Verif.Value.reinterpret_inverse",
    "Verif.Value.reinterpret_value"
   ],
   "note": "Negation is wrong for non-zero unsigned 32/64-bit values (refuted); reinterpretation fully proved."
  },
  {
   "property": "C57",
   "status": "partial",
   "theorems": [
    "Verif.Table.file_roundtrip_partial",
    "Verif.Table.file_truncated",
    "Verif.Table.members_written",
    "Verif.Table.type_members_written_partial",
    "Verif.Table.type_defs_refuted",
    "Verif.Table.file_type_defs_refuted",
    "Verif.Table.directory_offset_refuted"
   ],
   "note": "Every member of every row survives except type.type_defs, which is declared but missing from the list of written members (refuted with proof). Truncation at every byte is refused. The recorded table offsets are wrong but unused."
  },
  {
   "property": "C60",
   "status": "proved",
   "theorems": [
    "Verif.Guid.dump_spec",
    "Verif.Guid.toChars_spec",
    "Verif.Guid.dump_injective"
   ],
   "note": "Proved for every buffer."
  },
  {
   "property": "C61",
   "status": "partial",
   "theorems": [
    "Verif.Fold.Props.fold_agrees_partial",
    "Verif.Fold.Props.vm_total",
    "Verif.Fold.Props.fold_agrees_refuted",
    "Verif.Fold.Props.vm_shift"
   ],
   "note": "Equality proved wherever both sides answer (floating point: type only, values are not modelled); operand types the compiler folds but the machine cannot run are exhibited."
  },
  {
   "property": "C62",
   "status": "partial",
   "theorems": [
    "Verif.Numeric.Props.decimal_fraction_partial",
    "Verif.Numeric.Props.radix_never_ten",
    "Verif.Numeric.Props.exponent_refuted"
   ],
   "note": "Exact value before rounding; the rounding of repeated multiplications in the floating type is not modelled. Refuted: exponents."
  },
  {
   "property": "C63",
   "status": "partial",
   "theorems": [
    "Verif.Numeric.Props.hex_suffix_partial",
    "Verif.Numeric.Props.hex_suffix_refuted"
   ],
   "note": "Refuted when a digit is F or the first digit is 0."
  },
  {
   "property": "C64",
   "status": "partial",
   "theorems": [
    "Verif.Lex.Props.next_tiles_partial",
    "Verif.Lex.Props.next_eof_iff",
    "Verif.Lex.Props.tokens_tile",
    "Verif.Lex.Props.reading_ends",
    "Verif.Lex.Props.reading_completes"
   ],
   "note": "Complete except for the length of the token of an unclosed block comment and for character literals on which the reader hangs (C19, C20)."
  },
  {
   "property": "C65",
   "status": "proved",
   "theorems": [
    "Verif.Lex.Props.operator_longest"
   ],
   "note": "For all texts; comments and signs of numbers (C66) are excluded as they are not operators."
  },
  {
   "property": "C66",
   "status": "partial",
   "theorems": [
    "Verif.Lex.Props.sign_number",
    "Verif.Lex.Props.sign_operator_partial",
    "Verif.Lex.Props.sign_after_name",
    "Verif.Lex.Props.sign_after_bracket_refuted",
    "Verif.Lex.Props.digit_number",
    "Verif.Lex.Props.number_prev"
   ],
   "note": "After names and constants. Refuted after closing brackets and after contextual keywords used as names."
  },
  {
   "property": "C67",
   "status": "partial",
   "theorems": [
    "Verif.Lex.Props.blank_ignored",
    "Verif.Lex.Props.operand_irrelevant_partial",
    "Verif.Lex.Props.comment_not_blank_refuted"
   ],
   "note": "White space complete. A comment changes how a following sign is read (refuted); anywhere else it makes no difference."
  },
  {
   "property": "C68",
   "status": "partial",
   "theorems": [
    "Verif.Parse.Props.conditional_parses_partial",
    "Verif.Parse.Props.conditional_chain",
    "Verif.Parse.Props.conditional_refuted"
   ],
   "note": "Proved when the middle part is tighter than the conditional or boxed; refuted for assignments and nested is/as conditionals in the middle part."
  },
  {
   "property": "C69",
   "status": "partial",
   "theorems": [
    "Verif.Stmt.Props.method_follows_partial",
    "Verif.Stmt.Props.never_lost_partial",
    "Verif.Stmt.Props.continue_refuted",
    "Verif.Stmt.Props.switch_as_if_refuted",
    "Verif.Stmt.Props.switch_known_refuted",
    "Verif.Stmt.Props.goto_refuted"
   ],
   "note": "Full equivalence (both directions, termination included) for plain statements. Missing: try (leave and finally), jumps inside expressions. Refuted for continue in loops that test last, for goto, and for one-constant switches turned into an if whose cases fall through."
  },
  {
   "property": "C70",
   "status": "proved",
   "theorems": [
    "Verif.Access.Props.super_types_exact"
   ],
   "note": ""
  },
  {
   "property": "C71",
   "status": "partial",
   "theorems": [
    "Verif.Dispatch.Props.virtual_call_partial",
    "Verif.Dispatch.Props.override_before_virtual_refuted",
    "Verif.Dispatch.Props.hidden_method_refuted",
    "Verif.Dispatch.Props.override_across_assemblies_refuted"
   ],
   "note": "Every hierarchy where each class's virtual methods precede its overrides, nothing is hidden and, for an override as target, all is in one assembly; each of these three conditions is shown necessary."
  },
  {
   "property": "C72",
   "status": "partial",
   "theorems": [
    "Verif.Dispatch.Props.interface_call_partial",
    "Verif.Dispatch.Props.leaf_override",
    "Verif.Dispatch.Props.inherited_override_refuted",
    "Verif.Dispatch.Props.override_implements_refuted"
   ],
   "note": "Proved when the object's class is the one with the interface, or itself overrides the method; refuted for classes further down."
  },
  {
   "property": "C73",
   "status": "partial",
   "theorems": [
    "Verif.Dispatch.Props.type_test_partial",
    "Verif.Dispatch.Props.casts",
    "Verif.Dispatch.Props.no_interface_refuted"
   ],
   "note": "Every hierarchy and every history of tests; refuted for interface tests on objects whose class has no interface (out-of-range read)."
  },
  {
   "property": "C74",
   "status": "partial",
   "theorems": [
    "Verif.Block.Props.throw_partial",
    "Verif.Block.Props.throw_out_partial",
    "Verif.Block.Props.leave_partial",
    "Verif.Block.Props.leave_inside",
    "Verif.Block.Props.return_partial",
    "Verif.Block.Props.leaving_partial",
    "Verif.Block.Props.returning_partial",
    "Verif.Block.Props.leaving_refuted",
    "Verif.Block.Props.wrong_exception_refuted",
    "Verif.Block.Props.stale_handler_refuted",
    "Verif.Block.Props.return_value_partial",
    "Verif.Block.Props.return_value_refuted",
    "Verif.Block.Props.no_clauses"
   ],
   "note": "Within one call, with finally bodies that leave the waiting blocks and held exceptions as they were: each clause once, innermost first, then handler with the exception, target or return. Refuted: handler gets an exception raised inside a finally clause; replaced exceptions leave a stale handler waiting; return in protected code loses its value; jumps where only catch clauses guard read past the table."
  },
  {
   "property": "C75",
   "status": "partial",
   "theorems": [
    "Verif.Layout.Props.locals_partial",
    "Verif.Layout.Props.locals_one_kind_partial",
    "Verif.Layout.Props.mixture_refuted",
    "Verif.Layout.Props.skip_refuted",
    "Verif.Layout.Props.unaligned_refuted",
    "Verif.Layout.Props.wrap_refuted"
   ],
   "note": "For every sequence of declarations (sizes summing to less than 16 bits) in which indices of one storage type tell the scopes among themselves, and structs with references are in one run: the layout succeeds, everything is inside the frame and variables in scope together are disjoint; without conditions on the order when all are references or all are values. Refuted otherwise: structs with references in nested regions overlap and leave the frame; a skipped index reads past a vector; offsets are not aligned; 16-bit offsets wrap."
  },
  {
   "property": "C76",
   "status": "partial",
   "theorems": [
    "Verif.Regions.Props.names",
    "Verif.Regions.Props.index_tells_scope",
    "Verif.Regions.Props.in_scope_disjoint_partial",
    "Verif.Regions.Props.temporary_refuted"
   ],
   "note": "Name lookup, duplicates and the indices are exact for every sequence of blocks and declarations; at every point of a method the variables in scope are disjoint under the conditions of C75. Refuted: the temporary variable of an expression may be put over a variable in scope."
  },
  {
   "property": "C77",
   "status": "partial",
   "theorems": [
    "Verif.Expr.Props.method_call_correct_partial",
    "Verif.Expr.Props.levels_agree_partial",
    "Verif.Expr.Props.and_refuted",
    "Verif.Expr.Props.or_refuted",
    "Verif.Expr.Props.widening_refuted",
    "Verif.Expr.Props.neutral_refuted",
    "Verif.Expr.Props.negate_refuted",
    "Verif.Expr.Props.once_refuted"
   ],
   "note": "Proved for every program of supported methods, every level, arguments, recursion depth and any unspecified stack bytes. Missing: programs outside of the supported set, where the code is wrong (each restriction has a refuting program: && and || are not short-circuit, the value of ?: is not converted to a wider type, neutral operands change the type, level 2 rejects locals that are written once); conversions between integers and truth values; loops and branches between statements (C27, C28, C101); other types."
  },
  {
   "property": "C78",
   "status": "partial",
   "theorems": [
    "Verif.Overload.conversions_partial",
    "Verif.Overload.widening_keeps_values",
    "Verif.Overload.class_call_partial",
    "Verif.Overload.class_call_unique",
    "Verif.Overload.generic_methods_last",
    "Verif.Overload.order_irrelevant_partial",
    "Verif.Overload.interface_call_partial",
    "Verif.Overload.found_is_applicable_partial",
    "Verif.Overload.given_types_applicable_partial",
    "Verif.Overload.null_for_number_refuted",
    "Verif.Overload.enums_mixed_refuted",
    "Verif.Overload.type_parameters_mixed_refuted",
    "Verif.Overload.class_type_parameter_refuted",
    "Verif.Overload.fixed_argument_ignored_refuted",
    "Verif.Overload.inference_one_level_refuted",
    "Verif.Overload.array_parameter_refuted",
    "Verif.Overload.unfit_generic_hides_refuted",
    "Verif.Overload.two_generic_refuted",
    "Verif.Overload.no_arguments_refuted",
    "Verif.Overload.byte_to_short_refuted",
    "Verif.Overload.constructor_inherited_refuted",
    "Verif.Overload.default_constructor_refuted",
    "Verif.Overload.constructor_found_partial",
    "Verif.Overload.operator_overload_refuted"
   ],
   "note": "The choice is proved to be the one of the rules, for every hierarchy and every call of methods without type parameters, when no null meets a value type, no two type parameters or enums are mixed; whatever is found with inferred or given type arguments is proved to fit when the generic parameter types have only type parameters inside. Refuted: null for a number, mixed enums and type parameters, type parameters of the class, fixed type arguments ignored, inference through one level only, arrays of type parameters, a generic method that does not fit hides the base class, two generic methods, generic method without arguments, byte to short, inherited constructors, default constructors, operators. Missing: params and extends parameters, accessibility, explicit interface implementations."
  },
  {
   "property": "C79",
   "status": "partial",
   "theorems": [
    "Verif.Fields.field_places_partial",
    "Verif.Fields.field_place_stable",
    "Verif.Fields.assignments_partial",
    "Verif.Fields.structure_copy_partial",
    "Verif.Fields.tuple_items_partial",
    "Verif.Fields.offsets_wrap_refuted",
    "Verif.Fields.recursive_structure_refuted"
   ],
   "note": "Proved for all classes, base classes and nested structures whose fields take at most 65528 bytes, for every order of equal fields. Beyond that 16-bit offsets wrap and fields overlap, and a structure that contains itself has no size (refuted theorems). Static fields are not modelled."
  },
  {
   "property": "C80",
   "status": "proved",
   "theorems": [
    "Verif.Decl.circle_reported",
    "Verif.Decl.circle_named"
   ],
   "note": "Exact for every finite program whose super types are types of the program."
  },
  {
   "property": "C81",
   "status": "partial",
   "theorems": [
    "Verif.Decl.constraint_cycle_reported",
    "Verif.Decl.constraint_report_partial",
    "Verif.Decl.constraint_diamond_refuted"
   ],
   "note": "Every circular set of constraints is reported. The converse fails: constraints are reported whenever a parameter can be reached in two ways (T : U, V; U : W; V : W)."
  },
  {
   "property": "C82",
   "status": "partial",
   "theorems": [
    "Verif.Decl.declared_twice_partial",
    "Verif.Decl.duplicate_clash_partial",
    "Verif.Decl.name_of_type",
    "Verif.Decl.explicit_twice_refuted",
    "Verif.Decl.nested_parameter_refuted",
    "Verif.Decl.concrete_type_read_refuted",
    "Verif.Decl.enclosing_parameter_refuted",
    "Verif.Decl.static_constructor_refuted"
   ],
   "note": "Proved for members that implement no interface explicitly and whose parameter types are plain types or the method's own type parameters. The refuted theorems show that the remaining cases fail in the code."
  },
  {
   "property": "C83",
   "status": "partial",
   "theorems": [
    "Verif.Decl.modifiers_checked_partial",
    "Verif.Decl.override_partial",
    "Verif.Decl.override_kind_refuted"
   ],
   "note": "Exact characterisation of what is accepted. Missing: warnings, and that the overridden member is of the same kind, which is false: a method may override a property."
  },
  {
   "property": "C84",
   "status": "partial",
   "theorems": [
    "Verif.Enums.enum_values_partial",
    "Verif.Enums.enum_range_partial",
    "Verif.Enums.ulong_constant_rejected",
    "Verif.Enums.ulong_constant_refuted",
    "Verif.Enums.negative_constant_refuted",
    "Verif.Enums.forward_reference_refuted",
    "Verif.Enums.reports_kept",
    "Verif.Enums.unset_waits"
   ],
   "note": "Proved when references go to enumerators declared before and ulong meets only ulong; then the reports and the values are exactly right. Refuted: a reference to a later enumerator without a written value silently gives 0; -1 is accepted for ulong; a ulong constant that fits a signed type is rejected. Missing: floating-point constants, constants of other types (taken as literals)."
  },
  {
   "property": "C85",
   "status": "proved",
   "theorems": [
    "Verif.Enums.circular_exact",
    "Verif.Enums.circular_reported",
    "Verif.Enums.rounds_end"
   ],
   "note": "One enumeration; constants of other types are literals."
  },
  {
   "property": "C86",
   "status": "partial",
   "theorems": [
    "Verif.Props.declarations_roundtrip_partial",
    "Verif.Props.loaded_references",
    "Verif.Props.wide_class_refuted",
    "Verif.Props.owner_refuted",
    "Verif.Props.foreign_attribute_refuted",
    "Verif.Props.two_arguments_refuted",
    "Verif.Props.nested_typedef_refuted",
    "Verif.Props.foreign_generic_refuted"
   ],
   "note": "Proved for programs whose lists have fewer than 512 elements, whose tables have at most 2^20 rows and whose attribute constructors and accessors are methods of the assembly itself, given that writing and reading succeed. Refuted: 512 methods in a class are lost; the interface of an explicit implementation, and the attributes of methods, are not written; the constructor of a foreign attribute is read as an own method; attributes with two arguments are refused; nested typedefs are written twice; a call of a foreign generic method with a T[] parameter makes the file unreadable. Missing: that writing and reading succeed; the sorting of members; resolution of foreign references; generic methods and fields of generic types in bodies."
  },
  {
   "property": "C87",
   "status": "partial",
   "theorems": [
    "Verif.Props.writing_ends",
    "Verif.Props.legal_written_and_read_partial",
    "Verif.Props.two_arguments_refuted",
    "Verif.Props.foreign_generic_refuted"
   ],
   "note": "Termination for every finite program; success of writing and reading for every program without errors whose lists are short, whose attributes have at most one argument, and that uses no generic type of a type parameter in a foreign method. For those excluded it is false of the code, with witnesses."
  },
  {
   "property": "C88",
   "status": "partial",
   "theorems": [
    "Verif.Names.name_means_partial",
    "Verif.Names.names_found_partial",
    "Verif.Names.using_added",
    "Verif.Names.full_name",
    "Verif.Names.inner_class_hides",
    "Verif.Names.typedef_of_typedef",
    "Verif.Names.typedef_filled",
    "Verif.Names.typedef_plain",
    "Verif.Names.typedef_of_instance",
    "Verif.Names.typedef_parts",
    "Verif.Names.typedef_param_refuted",
    "Verif.Names.root_param_refuted",
    "Verif.Names.alias_sibling_refuted",
    "Verif.Names.alias_foreign_refuted",
    "Verif.Names.alias_argument_refuted",
    "Verif.Names.keyword_refuted",
    "Verif.Names.typedef_order_refuted"
   ],
   "note": "proved for names whose parts before the last are no typedefs, outside of definitions of typedefs with parameters; refuted: App.T in a typedef with the parameter T, ::T in a class with the parameter T, paths through typedefs (neighbours of the class are found, classes of foreign classes are not), a typedef used before it, a class System.Int32 of the program changes int"
  },
  {
   "property": "C89",
   "status": "partial",
   "theorems": [
    "Verif.Props.member_host_partial",
    "Verif.Props.used_member_class_partial",
    "Verif.Props.nested_host_partial",
    "Verif.Props.class_by_name_partial",
    "Verif.Props.entry_class_refuted",
    "Verif.Props.wide_host_refuted",
    "Verif.Props.nested_name_refuted"
   ],
   "note": "Proved for all written programs with lists below 512 elements and member tables below 2^20 rows. Missing because the code fails there: the class around the class of the entry point, long lists, nested classes with the same name in another assembly."
  },
  {
   "property": "C90",
   "status": "partial",
   "theorems": [
    "Verif.Props.Rt.object_identity",
    "Verif.Props.Rt.object_stays",
    "Verif.Props.Rt.type_found",
    "Verif.Props.Rt.values_of_instance",
    "Verif.Props.Rt.values_collected",
    "Verif.Props.Rt.field_type_partial",
    "Verif.Props.Rt.self_type",
    "Verif.Props.Rt.same_name_refuted",
    "Verif.Props.Rt.field_cache_refuted",
    "Verif.Props.Rt.method_params_refuted",
    "Verif.Props.Rt.missing_host_refuted"
   ],
   "note": "Identity is proved for every sequence of lookups, the lookup for every reference that has a meaning, and that the values of type parameters can be collected when they have different names. The code fails the property in four places, shown on concrete assemblies: a class whose type parameter has the name of one around it, a field reference that is used for two instances, a generic method with params, and an instance whose outer class is missing."
  },
  {
   "property": "C91",
   "status": "partial",
   "theorems": [
    "Verif.Props.Mref.call_found_partial",
    "Verif.Props.Mref.call_missing_partial",
    "Verif.Props.Mref.generic_method_refuted",
    "Verif.Props.Mref.nested_method_refuted"
   ],
   "note": "Proved for every class that is not nested and every instance of one, whose type parameters have different names and stand for one type each, over every reached pool: the first method with the signature is found, and without one the call is stopped. Missing: generic methods whose parameters use their own type parameters and methods of classes nested in generic classes (both refuted with witnesses), type parameters that stand for several types, the methods added to tuples, and the cache of methods by reference."
  },
  {
   "property": "C92",
   "status": "partial",
   "theorems": [
    "Verif.Props.Gram.language_graphs",
    "Verif.Props.Gram.sentences_accepted",
    "Verif.Props.Gram.accepted_sentences_partial",
    "Verif.Props.Gram.repetitions_combine",
    "Verif.Props.Gram.revision_same",
    "Verif.Props.Gram.nothing_matched",
    "Verif.Props.Gram.merging_adds_refuted",
    "Verif.Props.Gram.empty_alternative_refuted",
    "Verif.Props.Gram.two_empty_refuted",
    "Verif.Props.Gram.empty_loop_refuted",
    "Verif.Props.Gram.nothing_matched_refuted"
   ],
   "note": "Proved in both directions for the grammar of the language (language_graphs) and for every grammar whose merged nodes agree on coming first; without that condition nothing is lost (sentences_accepted) but something may be added (merging_adds_refuted). Flags, weights and names of nodes and the run of the analyzer over the graph are not modelled."
  },
  {
   "property": "C93",
   "status": "partial",
   "theorems": [
    "Verif.Props.Anl.reports_are_reading",
    "Verif.Props.Anl.reading_accepted",
    "Verif.Props.Anl.programs_are_sentences",
    "Verif.Props.Anl.truncated_refuted",
    "Verif.Props.Anl.shared_way_refuted",
    "Verif.Props.Anl.dead_cycle_refuted",
    "Verif.Props.Anl.left_cycle_refuted"
   ],
   "note": "that reports are right is proved for all graphs and, with C92, for the actual grammar; that wrong programs are rejected and sentences accepted does not hold (refuted); comments, repair of wrong programs and the criteria of choice are not modelled (any choice is allowed)"
  },
  {
   "property": "C94",
   "status": "partial",
   "theorems": [
    "Verif.Props.Elems.tree_built",
    "Verif.Props.Elems.leaves_in_order",
    "Verif.Props.Elems.always_built",
    "Verif.Props.Elems.no_token_refuted"
   ],
   "note": "Proved for every program in which no error is found, with the analyzer of C93 and arbitrary builders with state: the result is what the builders make of a tree of the program whose leaves are its tokens in order; building always ends with a node, also for a program that is not read to its end. Refuted for a program without tokens, for which an element before the first is accessed. Not modelled: what the builders of the language do with their elements, flags of references, source positions, and repairing programs with errors."
  },
  {
   "property": "C95",
   "status": "partial",
   "theorems": [
    "Verif.Props.Nodes.parts_kept_partial",
    "Verif.Props.Nodes.parts_in_order",
    "Verif.Props.Nodes.roles_kept_partial",
    "Verif.Props.Nodes.array_lengths_kept",
    "Verif.Props.Nodes.generic_args_kept",
    "Verif.Props.Nodes.array_type_kept",
    "Verif.Props.Nodes.flags_survive",
    "Verif.Props.Nodes.lone_flag_kept",
    "Verif.Props.Nodes.plain_grammar",
    "Verif.Props.Nodes.new_initializer_refuted",
    "Verif.Props.Nodes.namespace_using_refuted",
    "Verif.Props.Nodes.attribute_values_refuted",
    "Verif.Props.Nodes.conversion_role_refuted",
    "Verif.Props.Nodes.accessor_refuted"
   ],
   "note": "Proved for all rules and all sequences of parts, apart from the parts named in ignored and displaces. Refuted for those: object initializers and using in a namespace are dropped silently, of several values of an attribute only the last is kept, the target type of a conversion operator is taken as the owner type; an accessor of the wrong kind fails an assertion. What a builder does with keywords other than names is not modelled."
  },
  {
   "property": "C96",
   "status": "partial",
   "theorems": [
    "Verif.Paths.path_resolved_partial",
    "Verif.Paths.relative_resolved",
    "Verif.Paths.settled_path_kept",
    "Verif.Paths.rooted_never_refused",
    "Verif.Paths.nested_dots_refuted",
    "Verif.Paths.last_dots_refuted",
    "Verif.Paths.root_lost_refuted",
    "Verif.Paths.above_root_refuted",
    "Verif.Paths.outside_read_refuted",
    "Verif.Paths.combined_with_one_slash",
    "Verif.Paths.loader_finds_assembly",
    "Verif.Paths.assembly_paths_distinct"
   ],
   "note": "Proved for rooted paths in which every run of dots follows names that it does not use up, and for relative paths. Refuted for .. after an already shortened part, .. at the end, and .. up to or above the root, where the text before the path is read."
  },
  {
   "property": "C97",
   "status": "partial",
   "theorems": [
    "Verif.Build.every_project_once",
    "Verif.Build.imports_come_first",
    "Verif.Build.clean_build_iff",
    "Verif.Build.circle_reported",
    "Verif.Build.clean_build_writes_all",
    "Verif.Build.written_is_sound",
    "Verif.Build.same_name_refuted",
    "Verif.Build.failed_build_writes_refuted",
    "Verif.Build.last_project_taken"
   ],
   "note": "Proved for all solutions whose projects have different names. With two projects of the same name the second one is never compiled and a null pointer is used when its assembly is written; a build with errors still writes assemblies."
  },
  {
   "property": "C98",
   "status": "partial",
   "theorems": [
    "Verif.Wild.filter_chooses_partial",
    "Verif.Wild.filter_accepted",
    "Verif.Wild.split_at_last_slash",
    "Verif.Wild.filtered_files_partial",
    "Verif.Wild.plain_file",
    "Verif.Wild.missing_file",
    "Verif.Wild.plus_refuted",
    "Verif.Wild.bar_refuted",
    "Verif.Wild.directory_refuted",
    "Verif.Wild.bare_filter_refuted"
   ],
   "note": "Proved for filters without + ^ $ | and names without ends of line. Refuted for + and |, which are not escaped; a directory names no files; a filter without a directory is refused."
  },
  {
   "property": "C99",
   "status": "partial",
   "theorems": [
    "Verif.Cmd.line_read",
    "Verif.Cmd.one_reading",
    "Verif.Cmd.compile_order",
    "Verif.Cmd.run_order",
    "Verif.Cmd.last_value",
    "Verif.Cmd.exception_exit",
    "Verif.Cmd.unknown_command",
    "Verif.Cmd.level_digit",
    "Verif.Cmd.failed_compile_refuted",
    "Verif.Cmd.help_refuted",
    "Verif.Cmd.build_refuted",
    "Verif.Cmd.level_4_refuted"
   ],
   "note": "Reading of the command line proved in full, in both directions. Refuted: a program with errors ends the process with 0, help for a command fails an assertion, the documented command build and level 4 do not exist."
  },
  {
   "property": "C100",
   "status": "partial",
   "theorems": [
    "Verif.Session.session_iff_partial",
    "Verif.Session.session_projects_partial",
    "Verif.Session.compile_iff",
    "Verif.Session.default_name",
    "Verif.Session.compile_type_iff",
    "Verif.Session.default_run_iff",
    "Verif.Session.named_run_iff",
    "Verif.Session.named_run_errors",
    "Verif.Session.same_assembly",
    "Verif.Session.levels_grow",
    "Verif.Session.mixed_files_refuted",
    "Verif.Session.same_directory_refuted",
    "Verif.Session.project_name_refuted",
    "Verif.Session.project_name_kept_in_solution",
    "Verif.Session.two_solutions_refuted"
   ],
   "note": "Proved for calls of add_file that do not name sources and other files together. Refuted: sources after an assembly in one call are dropped, two unnamed projects in directories of the same name get the same name and one is not compiled, the name in a project file is ignored, with two solutions a program is run with an assembly of the other solution."
  },
  {
   "property": "C101",
   "status": "partial",
   "theorems": [
    "Verif.Flow.Props.program_call_correct_partial",
    "Verif.Flow.Props.program_levels_agree_partial",
    "Verif.Flow.Props.do_continue_refuted",
    "Verif.Flow.Props.squares_refuted"
   ],
   "note": "Joins C69 (statements) and C77 (expressions and calls) into one theorem about whole methods. Proved for supported programs: the expressions and statements for which C69 and C77 do not refute the property, integer and truth values. Missing: exceptions, objects, floating point, methods without a result, programs that do not end. Refuted: continue in a do loop skips the test; from level 2 on a local written once with a value that is not constant is refused."
  },
  {
   "property": "C102",
   "status": "partial",
   "theorems": [
    "Verif.Queue.Props.visits_partial",
    "Verif.Queue.Props.backward_refuted"
   ],
   "note": "Visits are a permutation of what was asked for, sorted by pass, first in first out within a pass. Partial: a visit must not ask for a visit in an earlier pass; such a request is silently dropped (backward_refuted). Passes are modelled as one sequential run; the visits themselves are any function."
  },
  {
   "property": "C103",
   "status": "partial",
   "theorems": [
    "Verif.Scope.Props.reports",
    "Verif.Scope.Props.binds",
    "Verif.Scope.Props.lexical_partial",
    "Verif.Scope.Props.base_ignored",
    "Verif.Scope.Props.hoisted_refuted",
    "Verif.Scope.Props.itself_refuted",
    "Verif.Scope.Props.duplicate_local_refuted",
    "Verif.Scope.Props.inherited_refuted",
    "Verif.Scope.Props.nested_outer_refuted"
   ],
   "note": "reports and binds hold for all programs. The usual reading (a local counts from its declaration on) is proved where names reach back only; otherwise a local is visible before its declaration (hoisted_refuted, itself_refuted). A duplicate local is reported and then crashes the compiler (duplicate_local_refuted); inherited fields are not found by a plain name (inherited_refuted, base_ignored). C76 looks a name up during the visit; here the lookups happen in the later pass, as in the code."
  },
  {
   "property": "C104",
   "status": "partial",
   "theorems": [
    "Verif.Place.Props.statement_partial",
    "Verif.Place.Props.value_partial",
    "Verif.Place.Props.order_refuted",
    "Verif.Place.Props.twice_refuted",
    "Verif.Place.Props.receiver_twice_refuted",
    "Verif.Place.Props.property_inc_refuted",
    "Verif.Place.Props.property_compound_refuted",
    "Verif.Place.Props.indexer_assign_refuted",
    "Verif.Place.Props.element_value_refuted",
    "Verif.Place.Props.property_value_refuted",
    "Verif.Place.Props.chain_refuted",
    "Verif.Place.Props.property_chain_refuted",
    "Verif.Place.Props.static_refuted",
    "Verif.Place.Props.element_written",
    "Verif.Place.Props.field_written",
    "Verif.Place.Props.class_kept",
    "Verif.Place.Props.indexer_virtual_refuted"
   ],
   "note": "proved for the fragment ok: reads, assignments whose left parts are unaffected by the right side, compound assignments whose left parts have no effects; refuted outside it: evaluation order, double evaluation, property ++ and compound assignment, indexer assignment, the value of element and property assignments, chained calls as statements, static fields, a virtual indexer (its setter is never dispatched). Not modelled: copies of custom structs, constant folding, ref arguments"
  },
  {
   "property": "C105",
   "status": "partial",
   "theorems": [
    "Verif.Classes.Props.program_partial",
    "Verif.Classes.Props.source_says",
    "Verif.Classes.Props.source_says_void",
    "Verif.Classes.Props.new_object",
    "Verif.Classes.Props.deeper",
    "Verif.Classes.Props.result_unique",
    "Verif.Classes.Props.call_dispatched_partial"
   ],
   "note": "Joins C69 (statements), C104 (expressions with objects) and C71 (virtual tables) into one theorem about whole programs of classes. Proved for Program.Fine: the constructs the three do not refute. Missing: try, static methods and fields, interfaces, generics, several assemblies; exceptions and undefined behaviour are no result"
  },
  {
   "property": "C106",
   "status": "partial",
   "theorems": [
    "Verif.Member.Props.found",
    "Verif.Member.Props.not_found",
    "Verif.Member.Props.only_one_found",
    "Verif.Member.Props.accepted_means_partial",
    "Verif.Member.Props.meant_accepted_partial",
    "Verif.Member.Props.never_mistaken_partial",
    "Verif.Member.Props.meaning_unique",
    "Verif.Member.Props.hidden_refuted",
    "Verif.Member.Props.ambiguous_refuted",
    "Verif.Member.Props.shadowed_refuted",
    "Verif.Member.Props.crash_refuted",
    "Verif.Member.Props.static_call_refuted",
    "Verif.Member.Props.plain_static_refuted",
    "Verif.Member.Props.left_static_refuted",
    "Verif.Member.Props.left_property_refuted",
    "Verif.Member.Props.alias_refuted",
    "Verif.Member.Props.const_refuted"
   ],
   "note": "Lookup is right for all towers of types. Expressions: accepted if and only if they have a meaning, except for the cases that are refuted: an inaccessible member hides an accessible one, two interfaces compete, a variable takes over a call behind a dot, calls are not checked for static, static members by their plain names, plain names in front of a dot, names for types behind a dot, constants behind an object."
  },
  {
   "property": "C107",
   "status": "partial",
   "theorems": [
    "Verif.Try.Props.normal_partial",
    "Verif.Try.Props.thrown_partial",
    "Verif.Try.Props.ends_partial",
    "Verif.Try.Props.honest_of_clear",
    "Verif.Try.Props.unguarded_refuted",
    "Verif.Try.Props.break_refuted",
    "Verif.Try.Props.rethrow_refuted",
    "Verif.Try.Props.fall_refuted",
    "Verif.Try.Props.endless_refuted",
    "Verif.Try.Props.swapped_refuted",
    "Verif.Try.Props.stale_refuted",
    "Verif.Try.Props.break_finally_refuted"
   ],
   "note": "Proved for the methods that Fits and Honest describe (no exception outside of the try statements of a method that has one, no break out of a try without finally or out of a finally clause, no rethrow, no exception in a finally clause, the analysis of exits right about the parts of each try); each of the methods left out is refuted by a witness. return, switch and the other loops are not in this model."
  },
  {
   "property": "C108",
   "status": "partial",
   "theorems": [
    "Verif.Init.Props.check_shape",
    "Verif.Init.Props.shape_unique",
    "Verif.Init.Props.lengths_shape",
    "Verif.Init.Props.accepted_iff",
    "Verif.Init.Props.accepted_shape",
    "Verif.Init.Props.needs_initialiser",
    "Verif.Init.Props.made_partial",
    "Verif.Init.Props.room_one",
    "Verif.Init.Props.given_partial",
    "Verif.Init.Props.statement_partial",
    "Verif.Init.Props.given_refuted",
    "Verif.Init.Props.several_refuted",
    "Verif.Init.Props.overflow_refuted",
    "Verif.Init.Props.levels_refuted",
    "Verif.Init.Props.length_refuted",
    "Verif.Init.Props.depth_refuted",
    "Verif.Init.Props.rows_refuted",
    "Verif.Init.Props.narrow_refuted",
    "Verif.Init.Props.statement_refuted",
    "Verif.Init.Props.struct_refuted"
   ],
   "note": "Proved: acceptance is exactly rectangularity up to 32 levels; with room in the memory (always with one dimension) the array has the lengths of the shape and each index reads the value written there, expressions run once from left to right. Refuted: given lengths and the number of dimensions are not compared with the initialiser, several dimensions write behind the memory, elements are not converted, a statement leaves constants on the stack, the error for too many levels is never reported."
  },
  {
   "property": "C109",
   "status": "partial",
   "theorems": [
    "Verif.Refs.refs_correct_partial",
    "Verif.Refs.refs_levels_agree_partial",
    "Verif.Refs.fold_refuted",
    "Verif.Refs.coal_string_constant",
    "Verif.Refs.assign_string_refuted",
    "Verif.Refs.coalAssign_value_refuted",
    "Verif.Refs.coalAssign_null_refuted",
    "Verif.Refs.enum_refuted",
    "Verif.Refs.call_box_refuted",
    "Verif.Refs.call_string_refuted",
    "Verif.Refs.constant_object_refuted",
    "Verif.Refs.cast_box_refuted",
    "Verif.Refs.is_value_refuted"
   ],
   "note": "Proved for all bodies of the supported expressions at all levels. The expressions left out are the ones that fail: string constants as operands from level 1 on, ??= as a value, enums and call results as objects, constants for object parameters, is on values; each is refuted."
  },
  {
   "property": "C110",
   "status": "partial",
   "theorems": [
    "Verif.MathLib.max_correct",
    "Verif.MathLib.min_correct",
    "Verif.MathLib.abs_correct",
    "Verif.MathLib.sign_correct",
    "Verif.MathLib.abs_smallest_refuted",
    "Verif.MathLib.abs_undefined_refuted",
    "Verif.MathLib.supported_lib"
   ],
   "note": "Max, Min and Sign for all arguments of all integer types; Abs for all but the smallest value, where the claim is false (abs_smallest_refuted, abs_undefined_refuted). The overloads for Single and Double and the functions of the runtime library are not modelled."
  },
  {
   "property": "C111",
   "status": "partial",
   "theorems": [
    "Verif.Console.console_partial",
    "Verif.Console.consoles_partial",
    "Verif.Console.start_ok",
    "Verif.Console.boolean_line",
    "Verif.Console.array_partial",
    "Verif.Console.decimal_numeral",
    "Verif.Console.numeral_unique",
    "Verif.Console.uint64_line_refuted",
    "Verif.Console.null_line_refuted",
    "Verif.Console.nul_refuted",
    "Verif.Console.lost_refuted",
    "Verif.Console.dimension_refuted",
    "Verif.Console.dimension_wraps_refuted",
    "Verif.Console.redeclared_refuted"
   ],
   "note": "All overloads but Single and Double, for every history of calls; the cases in which the claim is false are left out and refuted. Which characters the stream can encode is a parameter (ASCII at least)."
  },
  {
   "property": "C112",
   "status": "partial",
   "theorems": [
    "Verif.Calls.calls_partial",
    "Verif.Calls.endless_partial",
    "Verif.Calls.shows_unique",
    "Verif.Calls.ref_refuted",
    "Verif.Calls.ref_fault_refuted",
    "Verif.Calls.static_delegate_refuted",
    "Verif.Calls.virtual_delegate_refuted",
    "Verif.Calls.ref_value_refuted"
   ],
   "note": "Proved for all programs in which no ordinary parameter and ref parameter of the same type at the same offset are both assigned to, no value of an assignment to a ref parameter is used, and delegates are of instance methods that are not overridden. For the others the claim is false: a ref assignment can stay in the callee (ref_refuted), an ordinary one can write through an integer (ref_fault_refuted), a delegate of a static method leaves a unit on the stack (static_delegate_refuted), one of a virtual method runs the base method (virtual_delegate_refuted), a chained assignment to a ref parameter cannot be loaded (ref_value_refuted)."
  },
  {
   "property": "C113",
   "status": "partial",
   "theorems": [
    "Verif.Structs.structs_partial",
    "Verif.Structs.structs_unique_partial",
    "Verif.Structs.call_keeps_partial",
    "Verif.Structs.assigned",
    "Verif.Structs.others",
    "Verif.Structs.new_default_refuted",
    "Verif.Structs.this_refuted",
    "Verif.Structs.argument_refuted"
   ],
   "note": "Proved for all programs without new S(), without this as a value, and without a struct variable passed to a call whose result is followed by a dot. For these the claim is false: new S() leaves the fields as they were (new_default_refuted), t = this copies nothing (this_refuted), F(s).x does not copy s (argument_refuted). That the machine gives nothing when the source has no result is not claimed. Not in the model: ref parameters of struct type, structs in objects and arrays, boxing, operators."
  },
  {
   "property": "C114",
   "status": "partial",
   "theorems": [
    "Verif.Sections.split_sound",
    "Verif.Sections.split_complete",
    "Verif.Sections.split_same",
    "Verif.Sections.elements_given",
    "Verif.Sections.elements_partial",
    "Verif.Sections.inside_partial",
    "Verif.Sections.plain",
    "Verif.Sections.rest_refuted",
    "Verif.Sections.inside_refuted",
    "Verif.Sections.empty_refuted"
   ],
   "note": "The division is proved in full. That everything is read is proved for sources in which no token follows an embedded source before the next one or the end; otherwise that text is silently left out (rest_refuted), and elements_given says exactly what is read. That reading stays in the text is proved for files that end with white space and false otherwise (inside_refuted). <`lq`> is refused (empty_refuted)."
  },
  {
   "property": "C115",
   "status": "partial",
   "theorems": [
    "Verif.Ctors.construct_partial",
    "Verif.Ctors.initialised_partial",
    "Verif.Ctors.rejected",
    "Verif.Ctors.value_needed",
    "Verif.Ctors.inherited_refuted",
    "Verif.Ctors.value_refuted",
    "Verif.Ctors.zero_refuted"
   ],
   "note": "Proved for programs with constant initial values in which every : base fits a constructor of the base class itself and constructors assign only fields of their class and its base classes. Otherwise a base class's constructor is used for an object of a derived class, whose initial values and constructors are then skipped (inherited_refuted); a program with an initial value that is not constant is rejected as a whole (value_refuted); an initial value 0 is not assigned after the base constructor changed the field through a virtual method, while other values are (zero_refuted)."
  },
  {
   "property": "C116",
   "status": "partial",
   "theorems": [
    "Verif.ConstExec.number_sound",
    "Verif.ConstExec.string_partial",
    "Verif.ConstExec.level_zero",
    "Verif.ConstExec.variable_kept",
    "Verif.ConstExec.string_operand",
    "Verif.ConstExec.join_refuted",
    "Verif.ConstExec.assign_refuted",
    "Verif.ConstExec.variable_refuted",
    "Verif.ConstExec.qualified_refuted",
    "Verif.ConstExec.qualified_number"
   ],
   "note": "Proved for all expressions that are replaced by a number, and for strings without binary operators. Every binary operator with a constant string operand is replaced by a constant, whatever it is (string_operand): assignments of string literals are lost (assign_refuted), a string plus a variable becomes one fixed text (variable_refuted), two strings are never joined right (join_refuted, for all strings), A.S is not S (qualified_refuted), A.N is not a constant (qualified_number). What operators give for numbers is C12, C13, C14 and C61."
  },
  {
   "property": "C117",
   "status": "partial",
   "theorems": [
    "Verif.Consts.values_partial",
    "Verif.Consts.circular_reported",
    "Verif.Consts.endless",
    "Verif.Consts.endless_refuted",
    "Verif.Consts.range_refuted"
   ],
   "note": "The values are proved for every order of declaration, and that circles are reported. The value is not checked against or converted to the declared type (range_refuted), and a constant whose value is a field without initial value that is no constant keeps the compiler going for ever (endless, for all such classes). Enumerations are C84 and C85."
  },
  {
   "property": "C118",
   "status": "partial",
   "theorems": [
    "Verif.DotNames.one_object",
    "Verif.DotNames.kept",
    "Verif.DotNames.parse_text",
    "Verif.DotNames.parse_empty",
    "Verif.DotNames.parse_partial",
    "Verif.DotNames.combine_partial",
    "Verif.DotNames.combine_none",
    "Verif.DotNames.parent_partial",
    "Verif.DotNames.child_partial",
    "Verif.DotNames.simple_partial",
    "Verif.DotNames.dotted_refuted"
   ],
   "note": "One object per text, and that names never change, is proved for all histories. The parts are proved to be the pieces for all histories in which simple names have no dots. The reader of assemblies makes the name of a namespace with to_mname, which takes a text with dots for one part: dotted_refuted shows for every history and every new text that the name then has one part and no parent for the rest of the compilation."
  },
  {
   "property": "C119",
   "status": "partial",
   "theorems": [
    "Verif.Pack.arguments_found",
    "Verif.Pack.pointer_value",
    "Verif.Pack.pointer_iff",
    "Verif.Pack.packed_partial",
    "Verif.Pack.tuple_partial",
    "Verif.Pack.static_refuted",
    "Verif.Pack.second_refuted"
   ],
   "note": "Each argument by itself is found, for all methods. The pointer to the packed arguments is right exactly when one unit of arguments is in front of them (pointer_iff): for instance methods whose first parameter it is, like the constructor of Tuple, whose items are proved to hold the arguments. In a static method without parameters in front it leaves out the first argument and finds the stub of the call (static_refuted), with a parameter in front it finds that one (second_refuted). Missing: nothing else; the property is false of the code there."
  },
  {
   "property": "C120",
   "status": "partial",
   "theorems": [
    "Verif.Attrs.starts_marked",
    "Verif.Attrs.second_reported",
    "Verif.Attrs.form_reported",
    "Verif.Attrs.proper_accepted",
    "Verif.Attrs.accepted_partial",
    "Verif.Attrs.private_refuted",
    "Verif.Attrs.internal_methods",
    "Verif.Attrs.inline_exact",
    "Verif.Attrs.internal_known",
    "Verif.Attrs.internal_types",
    "Verif.Attrs.user_nothing"
   ],
   "note": "Proved for all programs, except that the entry point need not be public: the test for public looks at a bit of the number of the access modifier, and private and protected internal have it too (private_refuted). accepted_partial gives the form for all other access modifiers."
  },
  {
   "property": "C121",
   "status": "partial",
   "theorems": [
    "Verif.Subst.names_partial",
    "Verif.Subst.member_partial",
    "Verif.Subst.method_partial",
    "Verif.Subst.generic_method_partial",
    "Verif.Subst.enclosed_refuted",
    "Verif.Subst.own_array_refuted",
    "Verif.Subst.host_refuted",
    "Verif.Subst.method_array_refuted",
    "Verif.Subst.method_array_wrong"
   ],
   "note": "Proved for members over the parameters of a class that is in no class with arguments, and for generic methods when no type parameter is in an array. Otherwise the code is wrong: a class in a class with arguments makes the search go round without end (enclosed_refuted), the method's own parameter in an array or a type argument is lost (own_array_refuted), the enclosing type of a generic type is lost (host_refuted), and T[] of a generic method stays T[] (method_array_refuted)."
  },
  {
   "property": "C122",
   "status": "partial",
   "theorems": [
    "Verif.Where.use_partial",
    "Verif.Where.generic_use_partial",
    "Verif.Where.declaration",
    "Verif.Where.value_refuted",
    "Verif.Where.field_refuted",
    "Verif.Where.unknown_refuted",
    "Verif.Where.self_refuted",
    "Verif.Where.struct_constraint_refuted",
    "Verif.Where.enclosing_refuted",
    "Verif.Where.shadow_refuted",
    "Verif.Where.messages_refuted"
   ],
   "note": "Clauses: proved in full. Uses with types: exact, unless a name is used twice in nested generics or a constraint becomes a struct. Uses with type parameters: sound without struct clauses, in methods, for clauses without parameters in them; for the rest the code is wrong (the refuted theorems): a parameter without clause passes as a value type, a use outside of a method with a parameter uses a null pointer, and so does a clause for an unknown name."
  },
  {
   "property": "C123",
   "status": "partial",
   "theorems": [
    "Verif.Ready.general_partial",
    "Verif.Ready.cast_partial",
    "Verif.Ready.cast_interface_partial",
    "Verif.Ready.table_own",
    "Verif.Ready.size_known",
    "Verif.Ready.element_size_known",
    "Verif.Ready.creation",
    "Verif.Ready.generic_partial",
    "Verif.Ready.generic_lost",
    "Verif.Ready.generic_refuted",
    "Verif.Ready.box_refuted",
    "Verif.Ready.array_refuted",
    "Verif.Ready.interface_array_refuted",
    "Verif.Ready.reference_room_refuted"
   ],
   "note": "Proved for every history for types that are not generic, and for generic types when an object is created before their size is asked for. Otherwise the code is wrong: a generic type whose size is known gets no table (generic_refuted, generic_lost), so a boxed generic struct has none (box_refuted); arrays never have one (array_refuted); arrays of interfaces can not be created (interface_array_refuted); the room for an array of small objects is too small for the references (reference_room_refuted)."
  },
  {
   "property": "C124",
   "status": "partial",
   "theorems": [
    "Verif.Vcall.plain_partial",
    "Verif.Vcall.generic_partial",
    "Verif.Vcall.own_partial",
    "Verif.Vcall.inherited_partial",
    "Verif.Vcall.generic_base_refuted",
    "Verif.Vcall.wrong_type_refuted",
    "Verif.Vcall.assembly_refuted",
    "Verif.Vcall.generic_method_refuted"
   ],
   "note": "Proved without generics, for the methods of a generic class itself, and, with an exact condition, for those it inherits from classes of its assembly. Otherwise the code is wrong: a class that is not generic can not run what it inherits from a generic one (generic_base_refuted), names of type parameters are mixed up (wrong_type_refuted), code is read from the wrong assembly (assembly_refuted), and type arguments of virtual methods are lost (generic_method_refuted). Nested classes and parameters for several types are not modelled here."
  },
  {
   "property": "C125",
   "status": "partial",
   "theorems": [
    "Verif.Mval.made_iff",
    "Verif.Mval.made_partial",
    "Verif.Mval.otherwise_fault",
    "Verif.Mval.name_signature",
    "Verif.Mval.dot_signature",
    "Verif.Mval.overload_partial",
    "Verif.Mval.context_nearest",
    "Verif.Mval.initial_value",
    "Verif.Mval.plain_refuted",
    "Verif.Mval.static_of_object_refuted",
    "Verif.Mval.method_of_type_refuted",
    "Verif.Mval.dot_overload_refuted",
    "Verif.Mval.var_refuted",
    "Verif.Mval.argument_refuted"
   ],
   "note": "The method always fits the delegate, and the exact condition under which the variable gets the right object is proved. The code is wrong for the plain name of a method that is not static (plain_refuted), accepts an object before a static method and a type before another one (static_of_object_refuted, method_of_type_refuted), throws for several methods behind a dot (dot_overload_refuted), does not notice several methods for var (var_refuted), and takes the type for an argument from outside the call (argument_refuted). ref parameters in delegate types and boxed delegates are not modelled."
  },
  {
   "property": "C126",
   "status": "partial",
   "theorems": [
    "Verif.Links.calls_mean",
    "Verif.Links.stay_trees",
    "Verif.Links.walks",
    "Verif.Links.leaves_partial",
    "Verif.Links.heights",
    "Verif.Links.finds",
    "Verif.Links.leaf_alone_refuted",
    "Verif.Links.removed_refuted",
    "Verif.Links.twice_refuted"
   ],
   "note": "Proved for all sequences of calls in which a node is attached only when it is below no other and not above its new place. The code does not pick the leaf of a tree of one node (leaf_alone_refuted), leaves the parent in a node that was removed (removed_refuted) and makes a ring of a node that is attached twice (twice_refuted)."
  },
  {
   "property": "C127",
   "status": "partial",
   "theorems": [
    "Verif.Stash.list_is",
    "Verif.Stash.walk_filters",
    "Verif.Stash.part_partial",
    "Verif.Stash.part_refuted",
    "Verif.Stash.behind_refuted",
    "Verif.Stash.cache_once",
    "Verif.Stash.firsts_once",
    "Verif.Stash.pool_safe",
    "Verif.Stash.pool_fresh",
    "Verif.Stash.twice_refuted"
   ],
   "note": "Proved for walks over the whole list, for all caches and for pools to which only objects in use are given back. A walk over a part of the list drops what is behind the part (part_refuted) and one that starts behind the end adds elements (behind_refuted); an object given back twice is given out twice (twice_refuted)."
  },
  {
   "property": "C128",
   "status": "partial",
   "theorems": [
    "Verif.Loaded.same_each_time",
    "Verif.Loaded.main_each_time",
    "Verif.Loaded.names_apart",
    "Verif.Loaded.by_index",
    "Verif.Loaded.index_back",
    "Verif.Loaded.index_range",
    "Verif.Loaded.failed_again",
    "Verif.Loaded.where_found",
    "Verif.Loaded.main_twice_refuted",
    "Verif.Loaded.never_main_refuted",
    "Verif.Loaded.null_refuted"
   ],
   "note": "Proved for all sequences of calls. The main assembly is not known by its name: an assembly that refers back to it gets another copy (main_twice_refuted, never_main_refuted). A provider that gives a null pointer makes the program follow it instead of reporting that there is no such assembly (null_refuted)."
  },
  {
   "property": "C129",
   "status": "partial",
   "theorems": [
    "Verif.Indexers.class_index_partial",
    "Verif.Indexers.class_index_unique",
    "Verif.Indexers.order_irrelevant_partial",
    "Verif.Indexers.interface_index_partial",
    "Verif.Indexers.found_is_indexer",
    "Verif.Indexers.exact_only",
    "Verif.Indexers.array_element",
    "Verif.Indexers.own_parameter_refuted",
    "Verif.Indexers.other_parameter_refuted",
    "Verif.Indexers.rank_refuted"
   ],
   "note": "Proved for indexers without type parameters in their parameters, and for the pairs of types for which conversions mean what they should (C78); found_is_indexer for all. Inside a generic class, an indexer with the class's type parameter stops the compiler with an exception (own_parameter_refuted, other_parameter_refuted). The number and the types of the indices of an array are not checked (rank_refuted)."
  },
  {
   "property": "C130",
   "status": "partial",
   "theorems": [
    "Verif.Gvirt.call_partial",
    "Verif.Gvirt.call_override_partial",
    "Verif.Gvirt.type_parameter_refuted",
    "Verif.Gvirt.type_parameter_generic_refuted",
    "Verif.Gvirt.below_generic_refuted",
    "Verif.Gvirt.generic_method_refuted",
    "Verif.Gvirt.generic_base_refuted",
    "Verif.Gvirt.open_base_refuted"
   ],
   "note": "Proved for all hierarchies, generic or not, whose methods do not mention type parameters in their prototypes, when the virtual methods of a class are before its overriding ones and nothing is hidden (see C71). Otherwise it is false: an override of a method with a type parameter in its prototype (type_parameter_refuted, type_parameter_generic_refuted), a class below a generic one that overrides with its type parameter (below_generic_refuted) and the override of a generic method (generic_method_refuted) use the null pointer when the first object is made; a call that names the override of a method of a generic class is an exception (generic_base_refuted); a call of a virtual method of a class that hands its type parameter on to its base class uses the null pointer (open_base_refuted)."
  },
  {
   "property": "C131",
   "status": "partial",
   "theorems": [
    "Verif.Giface.implementation_partial",
    "Verif.Giface.missing_refused",
    "Verif.Giface.override_partial",
    "Verif.Giface.captured_refuted",
    "Verif.Giface.nested_refuted",
    "Verif.Giface.below_generic_refuted"
   ],
   "note": "Proved for all interfaces, classes and type arguments when every type parameter that a method mentions has one meaning in the interface, the class of the object and the class of the method. Otherwise it is false: type parameters of the interface take the place of those of the class with the same name, so that another method runs (captured_refuted) or no object can be made (nested_refuted); the type parameters of a generic base class are not known (below_generic_refuted)."
  },
  {
   "property": "C132",
   "status": "partial",
   "theorems": [
    "Verif.Tuples.item_partial",
    "Verif.Tuples.members",
    "Verif.Tuples.body_round_trip",
    "Verif.Tuples.structure_item_refuted"
   ],
   "note": "Proved for all tuples that fit into 16 bits and all items that are not structures. False of items that are structures: the method made for the item returns like one that gives back a structure but copies nothing to the place for it (structure_item_refuted)."
  },
  {
   "property": "C133",
   "status": "partial",
   "theorems": [
    "Verif.Pools.objects_partial",
    "Verif.Pools.bytes_refuted",
    "Verif.Pools.free_refuted",
    "Verif.Pools.throwing_refuted",
    "Verif.Pools.default_delete",
    "Verif.Pools.default_balanced",
    "Verif.Pools.realloc_refuted"
   ],
   "note": "Proved for all sequences of calls that make objects and bytes in a pool, and for all of the default memory manager. False otherwise: bytes that are no object are never given back (bytes_refuted), giving anything back to a pool early reads an iterator that is erased or at the end (free_refuted), after a constructor that throws the end of the pool runs a destructor of what is no object (throwing_refuted), and realloc does not keep the content (realloc_refuted)."
  },
  {
   "property": "C134",
   "status": "partial",
   "theorems": [
    "Verif.Zips.rows_partial",
    "Verif.Zips.rows_unique",
    "Verif.Zips.same_length",
    "Verif.Zips.tied",
    "Verif.Zips.again_refuted"
   ],
   "note": "Proved for the first loop over all sequences. A second loop over the same container sees only the first row, because the iterators share the positions (again_refuted)."
  },
  {
   "property": "C135",
   "status": "partial",
   "theorems": [
    "Verif.Codepos.position_partial",
    "Verif.Codepos.positions_differ",
    "Verif.Codepos.line_partial",
    "Verif.Codepos.line_end",
    "Verif.Codepos.end_refuted",
    "Verif.Codepos.first_line_refuted",
    "Verif.Codepos.last_line_refuted"
   ],
   "note": "Positions are proved for all places within all files, lines and marks for all lines but the first and a last one without an end. False otherwise: the end of a file is at 0:0 (end_refuted), in the first line memory before the code is read (first_line_refuted), in a last line without an end the zero after the code is shown (last_line_refuted)."
  },
  {
   "property": "C136",
   "status": "partial",
   "theorems": [
    "Verif.Zeros.new_object",
    "Verif.Zeros.new_array_partial",
    "Verif.Zeros.new_array_only",
    "Verif.Zeros.several_refuted",
    "Verif.Zeros.large_refuted",
    "Verif.Zeros.zero_object"
   ],
   "note": "Proved for all objects and for arrays of one dimension with elements of up to 8 bytes; that no other memory changes is proved for all. False for arrays of several dimensions (several_refuted) and for elements of more than 8 bytes (large_refuted), of which only a part is allocated and cleared."
  },
  {
   "property": "C137",
   "status": "partial",
   "theorems": [
    "Verif.Identity.distinct_partial",
    "Verif.Identity.nested_partial",
    "Verif.Identity.nested_refuted",
    "Verif.Identity.core_found_partial",
    "Verif.Identity.core_only"
   ],
   "note": "Proved for all types that are not nested in others and their arrays, and for nested ones whose namespaces have equally many parts and whose hosts have no parameter of the kind params. False in general: a type in a namespace A.B and one nested in the type A.B have the same full name (nested_refuted)."
  },
  {
   "property": "C138",
   "status": "partial",
   "theorems": [
    "Verif.TypeNames.names_differ_partial",
    "Verif.TypeNames.nested_refuted",
    "Verif.TypeNames.template_refuted",
    "Verif.TypeNames.nested_instance"
   ],
   "note": "Proved for all types that are not nested in others and are no templates. False otherwise: nested types without type parameters all have the name of their host and a dot (nested_refuted), and a template has the name of its instance with a class that is called like its parameter (template_refuted)."
  }
 ]
}