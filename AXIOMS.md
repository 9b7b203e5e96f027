# Axioms of the theorems named in MANIFEST.json

Output of `#print axioms` for each theorem (names without the leading `Verif.`).  No other axioms occur.

## none

* C09: `Xil.type_code_partial`, `Xil.type_code_refuted`
* C100: `Session.project_name_refuted`
* C118: `DotNames.parse_empty`
* C124: `Vcall.generic_base_refuted`, `Vcall.assembly_refuted`
* C125: `Mval.context_nearest`
* C126: `Links.twice_refuted`
* C127: `Stash.twice_refuted`
* C129: `Indexers.class_index_unique`
* C137: `Identity.nested_refuted`
* C30: `RowHeap.Props.delete_loses_refuted`, `RowHeap.Props.delete_before_row_refuted`
* C37: `CStr.strcmp_negative_unit`
* C39: `Algo.select_refuted`
* C42: `Access.Props.assembly_private_refuted`, `Access.Props.default_access`
* C43: `Dispatch.Props.sealed_class_refuted`
* C45: `Arr.Props.element_size_partial`
* C49: `Guid.guid_text_injective_refuted`
* C50: `Block.Props.handler_none`
* C57: `Table.members_written`
* C74: `Block.Props.return_value_partial`, `Block.Props.return_value_refuted`
* C78: `Overload.class_call_unique`
* C93: `Props.Anl.reading_accepted`

## propext

* C05: `Bits.ref_parts`
* C100: `Session.default_name`
* C103: `Scope.Props.hoisted_refuted`, `Scope.Props.itself_refuted`, `Scope.Props.duplicate_local_refuted`, `Scope.Props.inherited_refuted`, `Scope.Props.nested_outer_refuted`
* C104: `Place.Props.order_refuted`, `Place.Props.twice_refuted`, `Place.Props.receiver_twice_refuted`, `Place.Props.static_refuted`, `Place.Props.class_kept`, `Place.Props.indexer_virtual_refuted`
* C106: `Member.Props.meaning_unique`
* C108: `Init.Props.shape_unique`, `Init.Props.lengths_shape`, `Init.Props.needs_initialiser`, `Init.Props.levels_refuted`
* C109: `Refs.fold_refuted`, `Refs.call_box_refuted`, `Refs.call_string_refuted`
* C111: `Console.start_ok`
* C112: `Calls.shows_unique`
* C113: `Structs.new_default_refuted`, `Structs.this_refuted`, `Structs.argument_refuted`
* C115: `Ctors.inherited_refuted`, `Ctors.zero_refuted`
* C116: `ConstExec.number_sound`, `ConstExec.level_zero`, `ConstExec.variable_kept`, `ConstExec.string_operand`, `ConstExec.assign_refuted`, `ConstExec.variable_refuted`, `ConstExec.qualified_number`
* C117: `Consts.range_refuted`
* C118: `DotNames.combine_none`
* C121: `Subst.enclosed_refuted`, `Subst.host_refuted`, `Subst.method_array_refuted`
* C123: `Ready.reference_room_refuted`
* C124: `Vcall.plain_partial`, `Vcall.generic_partial`, `Vcall.own_partial`, `Vcall.inherited_partial`
* C128: `Loaded.main_twice_refuted`, `Loaded.null_refuted`
* C130: `Gvirt.below_generic_refuted`, `Gvirt.generic_method_refuted`, `Gvirt.open_base_refuted`
* C134: `Zips.tied`
* C137: `Identity.core_only`
* C138: `TypeNames.nested_refuted`, `TypeNames.nested_instance`
* C14: `Fold.Props.fold_inc_ub`
* C16: `Fold.Props.result_types_sym`, `Fold.Props.result_types_char_refuted`
* C17: `Lex.Props.escape_iff`
* C19: `Lex.Props.readChar_iff`
* C24: `Parse.Props.comments_ignored`, `Parse.Props.boxes_closed`
* C25: `Parse.Props.reading_kept_refuted`
* C29: `SVector.Props.push_own_refuted`
* C30: `RowHeap.Props.places_distinct`, `RowHeap.Props.last_after_delete_refuted`
* C34: `LrTree.Props.restore_store_null`, `LrTree.Props.wide_tree_refuted`
* C35: `LrTree.Props.small_map_last`, `LrTree.Props.small_map_at`
* C42: `Access.Props.generic_base_refuted`
* C43: `Dispatch.Props.virtual_iff_overridable`, `Dispatch.Props.base_call_direct`
* C45: `Arr.Props.inside_refuted`, `Arr.Props.inside_struct_refuted`, `Arr.Props.dimension_refuted`, `Arr.Props.pick_refuted`, `Arr.Props.zero_length_refuted`
* C46: `Sync.Props.spurious_refuted`, `Sync.Props.deadlock_refuted`
* C49: `Guid.guid_trailing_refuted`
* C51: `Algo.split_empty`
* C53: `CStr.digit_value_refuted`
* C54: `CStr.stricmp_refuted`
* C57: `Table.type_members_written_partial`, `Table.type_defs_refuted`
* C58: `Value.compare_refuted`, `Value.compare_cycle_refuted`
* C59: `Value.reinterpret_inverse`
* C62: `Numeric.Props.radix_never_ten`
* C68: `Parse.Props.conditional_refuted`
* C71: `Dispatch.Props.override_before_virtual_refuted`, `Dispatch.Props.hidden_method_refuted`, `Dispatch.Props.override_across_assemblies_refuted`
* C72: `Dispatch.Props.leaf_override`, `Dispatch.Props.inherited_override_refuted`, `Dispatch.Props.override_implements_refuted`
* C73: `Dispatch.Props.casts`
* C74: `Block.Props.wrong_exception_refuted`, `Block.Props.stale_handler_refuted`, `Block.Props.no_clauses`
* C79: `Fields.recursive_structure_refuted`
* C82: `Decl.nested_parameter_refuted`, `Decl.concrete_type_read_refuted`, `Decl.enclosing_parameter_refuted`
* C83: `Decl.override_kind_refuted`
* C84: `Enums.ulong_constant_refuted`, `Enums.negative_constant_refuted`
* C86: `Props.wide_class_refuted`, `Props.owner_refuted`, `Props.foreign_attribute_refuted`, `Props.two_arguments_refuted`, `Props.nested_typedef_refuted`, `Props.foreign_generic_refuted`
* C87: `Props.two_arguments_refuted`, `Props.foreign_generic_refuted`
* C88: `Names.typedef_of_typedef`, `Names.typedef_filled`, `Names.typedef_plain`, `Names.typedef_parts`
* C89: `Props.nested_name_refuted`
* C90: `Props.Rt.same_name_refuted`, `Props.Rt.field_cache_refuted`, `Props.Rt.method_params_refuted`
* C91: `Props.Mref.generic_method_refuted`, `Props.Mref.nested_method_refuted`
* C94: `Props.Elems.leaves_in_order`
* C95: `Props.Nodes.accessor_refuted`
* C97: `Build.same_name_refuted`, `Build.failed_build_writes_refuted`

## Quot.sound, propext

* C03: `Bits.alignd_doubles`, `Bits.alignd_diverges_refuted`, `Bits.alignf_wraps`
* C04: `Bits.jmp_setModel`
* C05: `Bits.ref_word_roundtrip`, `Bits.word_ref_roundtrip`, `Bits.ref_collide_iff`, `Bits.ref_beq_iff`, `Bits.ref_beq_equivalence`, `Bits.ref_nth`
* C06: `Xil.stream_split`, `Xil.stream_refuted`
* C07: `Xil.var_operand_refuted`
* C08: `Xil.reader_terminates_refuted`
* C09: `Xil.type_code_surjective`
* C10: `Heap.heap_string_nul_refuted`
* C100: `Session.compile_iff`, `Session.compile_type_iff`
* C101: `Flow.Props.do_continue_refuted`, `Flow.Props.squares_refuted`
* C102: `Queue.Props.backward_refuted`
* C103: `Scope.Props.reports`, `Scope.Props.binds`, `Scope.Props.lexical_partial`, `Scope.Props.base_ignored`
* C104: `Place.Props.statement_partial`, `Place.Props.value_partial`, `Place.Props.property_inc_refuted`, `Place.Props.property_compound_refuted`, `Place.Props.indexer_assign_refuted`, `Place.Props.element_value_refuted`, `Place.Props.property_value_refuted`, `Place.Props.chain_refuted`, `Place.Props.property_chain_refuted`, `Place.Props.element_written`, `Place.Props.field_written`
* C105: `Classes.Props.new_object`
* C106: `Member.Props.hidden_refuted`, `Member.Props.ambiguous_refuted`, `Member.Props.shadowed_refuted`, `Member.Props.crash_refuted`, `Member.Props.static_call_refuted`, `Member.Props.plain_static_refuted`, `Member.Props.left_static_refuted`, `Member.Props.left_property_refuted`, `Member.Props.alias_refuted`, `Member.Props.const_refuted`
* C107: `Try.Props.honest_of_clear`, `Try.Props.unguarded_refuted`, `Try.Props.break_refuted`, `Try.Props.rethrow_refuted`, `Try.Props.fall_refuted`, `Try.Props.endless_refuted`, `Try.Props.swapped_refuted`, `Try.Props.stale_refuted`, `Try.Props.break_finally_refuted`
* C108: `Init.Props.check_shape`, `Init.Props.accepted_iff`, `Init.Props.accepted_shape`, `Init.Props.room_one`, `Init.Props.statement_partial`, `Init.Props.overflow_refuted`, `Init.Props.length_refuted`, `Init.Props.depth_refuted`, `Init.Props.rows_refuted`, `Init.Props.narrow_refuted`, `Init.Props.statement_refuted`, `Init.Props.struct_refuted`
* C109: `Refs.coal_string_constant`, `Refs.assign_string_refuted`, `Refs.coalAssign_value_refuted`, `Refs.coalAssign_null_refuted`, `Refs.enum_refuted`, `Refs.constant_object_refuted`, `Refs.cast_box_refuted`, `Refs.is_value_refuted`
* C110: `MathLib.supported_lib`
* C111: `Console.decimal_numeral`, `Console.numeral_unique`
* C112: `Calls.ref_refuted`, `Calls.ref_fault_refuted`, `Calls.static_delegate_refuted`, `Calls.virtual_delegate_refuted`, `Calls.ref_value_refuted`
* C113: `Structs.assigned`
* C114: `Sections.split_complete`, `Sections.split_same`
* C115: `Ctors.rejected`
* C116: `ConstExec.string_partial`, `ConstExec.join_refuted`, `ConstExec.qualified_refuted`
* C119: `Pack.arguments_found`, `Pack.pointer_value`, `Pack.packed_partial`, `Pack.static_refuted`, `Pack.second_refuted`
* C12: `Fold.Props.fold_defined`, `Fold.Props.fold_mixed_refuted`, `Fold.Props.fold_int_char_refuted`
* C120: `Attrs.starts_marked`, `Attrs.second_reported`, `Attrs.form_reported`, `Attrs.private_refuted`, `Attrs.internal_methods`, `Attrs.inline_exact`, `Attrs.internal_known`, `Attrs.internal_types`, `Attrs.user_nothing`
* C122: `Where.enclosing_refuted`
* C123: `Ready.general_partial`, `Ready.cast_partial`, `Ready.cast_interface_partial`, `Ready.table_own`, `Ready.size_known`, `Ready.element_size_known`, `Ready.creation`, `Ready.generic_partial`, `Ready.generic_lost`, `Ready.generic_refuted`, `Ready.box_refuted`, `Ready.array_refuted`, `Ready.interface_array_refuted`
* C124: `Vcall.wrong_type_refuted`
* C125: `Mval.made_iff`, `Mval.made_partial`, `Mval.otherwise_fault`, `Mval.initial_value`, `Mval.plain_refuted`, `Mval.static_of_object_refuted`, `Mval.method_of_type_refuted`, `Mval.dot_overload_refuted`, `Mval.var_refuted`, `Mval.argument_refuted`
* C126: `Links.leaf_alone_refuted`, `Links.removed_refuted`
* C127: `Stash.part_refuted`, `Stash.behind_refuted`, `Stash.cache_once`, `Stash.firsts_once`, `Stash.pool_safe`, `Stash.pool_fresh`
* C129: `Indexers.found_is_indexer`, `Indexers.array_element`, `Indexers.own_parameter_refuted`, `Indexers.other_parameter_refuted`, `Indexers.rank_refuted`
* C13: `Fold.Props.fold_cmp_types`, `Fold.Props.fold_cmp_refuted`, `Fold.Props.fold_cmp_char`
* C130: `Gvirt.generic_base_refuted`
* C132: `Tuples.body_round_trip`
* C133: `Pools.free_refuted`, `Pools.throwing_refuted`, `Pools.default_delete`, `Pools.realloc_refuted`
* C138: `TypeNames.names_differ_partial`
* C16: `Fold.Props.result_types`, `Fold.Props.result_types_other`, `Fold.Props.fold_type`
* C17: `Lex.Props.string_formfeed_refuted`, `Lex.Props.string_nul_refuted`
* C19: `Lex.Props.char_formfeed_refuted`
* C22: `Numeric.Props.literal_value_exact`, `Numeric.Props.integer_literal_separator_refuted`, `Numeric.Props.negative_literal_refuted`
* C23: `Numeric.Props.number_token_error_refuted`
* C25: `Parse.Props.enough_operands`
* C26: `Stmt.Props.exit_while_refuted`, `Stmt.Props.method_end_refuted`, `Stmt.Props.exit_break_refuted`, `Stmt.Props.exit_do_refuted`, `Stmt.Props.exit_until_refuted`, `Stmt.Props.exit_switch_refuted`, `Stmt.Props.exit_switch_known_refuted`, `Stmt.Props.exit_catch_refuted`, `Stmt.Props.exit_finally_refuted`
* C27: `Stmt.Props.labels_vanish`, `Stmt.Props.unplaced_reported`
* C28: `Stmt.Props.duplicate_rejected`, `Stmt.Props.switch_rows_refuted`, `Stmt.Props.two_defaults_refuted`
* C30: `RowHeap.Props.behind_end_refused`
* C31: `XHeap.Props.zero_size_refuted`
* C32: `BitArray.Props.search_empty_refuted`
* C35: `LrTree.Props.small_map_keys`
* C36: `Algo.multikey_shorter_first`
* C37: `CStr.strlen_spec`, `CStr.strstr_first`, `CStr.strchr_first`
* C38: `Copy.quick_copy_refuted`, `Copy.quick_copyT_refuted`
* C39: `Algo.select_first_max`, `Algo.selectMax_is_min`, `Algo.selectMin_is_max`, `Algo.selectMin_correct_iff`, `Algo.selectMax_correct_iff`
* C40: `Bits.setIncorpV_refuted`, `Bits.setIncorpP_refuted`
* C41: `Bits.flags_or_union`, `Bits.flags_add_union`, `Bits.bitAndInt_refuted`, `Bits.bitHasFlag_repeated_refuted`
* C42: `Access.Props.access_sound`, `Access.Props.type_access_sound`, `Access.Props.access_exact_partial`, `Access.Props.type_access_exact_partial`, `Access.Props.access_sound_supers`, `Access.Props.access_exact_supers_partial`, `Access.Props.assembly_cross`, `Access.Props.nested_sibling_refuted`, `Access.Props.nested_protected_refuted`, `Access.Props.assembly_own`
* C43: `Dispatch.Props.direct_not_overridden`
* C44: `Body.Props.body_round_trip_partial`, `Body.Props.row_count_partial`, `Body.Props.row_count_refuted`, `Body.Props.variables_refuted`
* C45: `Arr.Props.element_distinct`, `Arr.Props.element_disjoint`, `Arr.Props.inside_partial`, `Arr.Props.out_of_range_partial`, `Arr.Props.negative_refuted`
* C46: `Sync.Props.conserved_partial`, `Sync.Props.holders_partial`, `Sync.Props.release_partial`, `Sync.Props.woken_partial`, `Sync.Props.lost_refuted`, `Sync.Props.timeout_refuted`
* C47: `Sync.Props.enter_ok`, `Sync.Props.reenter_refuted`
* C49: `Guid.guid_short_refuted`, `Guid.guid_overflow_refuted`
* C50: `Block.Props.isBaseType_spec`
* C51: `Algo.split_array_runs`
* C52: `Algo.maxOf_spec`, `Algo.minOf_spec`, `Algo.cmpPairs_spec`
* C56: `Value.constant_narrow_partial`, `Value.constant_type_refuted`
* C57: `Table.file_type_defs_refuted`, `Table.directory_offset_refuted`
* C59: `Value.negate_refuted`, `Value.reinterpret_value`
* C60: `Guid.dump_spec`
* C61: `Fold.Props.fold_agrees_partial`, `Fold.Props.vm_total`, `Fold.Props.fold_agrees_refuted`
* C62: `Numeric.Props.exponent_refuted`
* C63: `Numeric.Props.hex_suffix_refuted`
* C66: `Lex.Props.sign_after_bracket_refuted`
* C67: `Lex.Props.comment_not_blank_refuted`
* C69: `Stmt.Props.continue_refuted`, `Stmt.Props.switch_as_if_refuted`, `Stmt.Props.switch_known_refuted`, `Stmt.Props.goto_refuted`
* C70: `Access.Props.super_types_exact`
* C72: `Dispatch.Props.interface_call_partial`
* C73: `Dispatch.Props.no_interface_refuted`
* C75: `Layout.Props.skip_refuted`, `Layout.Props.unaligned_refuted`, `Layout.Props.wrap_refuted`
* C77: `Expr.Props.and_refuted`, `Expr.Props.or_refuted`, `Expr.Props.widening_refuted`, `Expr.Props.neutral_refuted`, `Expr.Props.negate_refuted`, `Expr.Props.once_refuted`
* C78: `Overload.conversions_partial`, `Overload.widening_keeps_values`, `Overload.inference_one_level_refuted`, `Overload.array_parameter_refuted`, `Overload.two_generic_refuted`, `Overload.no_arguments_refuted`, `Overload.constructor_inherited_refuted`, `Overload.default_constructor_refuted`, `Overload.operator_overload_refuted`
* C79: `Fields.offsets_wrap_refuted`
* C81: `Decl.constraint_report_partial`, `Decl.constraint_diamond_refuted`
* C82: `Decl.explicit_twice_refuted`, `Decl.static_constructor_refuted`
* C84: `Enums.ulong_constant_rejected`, `Enums.reports_kept`
* C88: `Names.using_added`, `Names.root_param_refuted`, `Names.alias_sibling_refuted`, `Names.alias_foreign_refuted`, `Names.alias_argument_refuted`, `Names.keyword_refuted`, `Names.typedef_order_refuted`
* C89: `Props.entry_class_refuted`, `Props.wide_host_refuted`
* C90: `Props.Rt.values_collected`, `Props.Rt.missing_host_refuted`
* C92: `Props.Gram.repetitions_combine`, `Props.Gram.revision_same`, `Props.Gram.merging_adds_refuted`, `Props.Gram.empty_alternative_refuted`, `Props.Gram.two_empty_refuted`, `Props.Gram.empty_loop_refuted`, `Props.Gram.nothing_matched_refuted`
* C93: `Props.Anl.reports_are_reading`, `Props.Anl.truncated_refuted`, `Props.Anl.shared_way_refuted`, `Props.Anl.dead_cycle_refuted`, `Props.Anl.left_cycle_refuted`
* C94: `Props.Elems.no_token_refuted`
* C95: `Props.Nodes.array_lengths_kept`, `Props.Nodes.generic_args_kept`, `Props.Nodes.lone_flag_kept`, `Props.Nodes.plain_grammar`, `Props.Nodes.conversion_role_refuted`
* C96: `Paths.assembly_paths_distinct`
* C97: `Build.last_project_taken`
* C98: `Wild.filter_chooses_partial`, `Wild.filter_accepted`, `Wild.split_at_last_slash`, `Wild.filtered_files_partial`, `Wild.plain_file`, `Wild.missing_file`, `Wild.directory_refuted`, `Wild.bare_filter_refuted`
* C99: `Cmd.last_value`, `Cmd.level_digit`

## Classical.choice, Quot.sound, propext

* C01: `Varint.varint_roundtrip_partial`, `Varint.varint_rejected_iff`, `Varint.varint_roundtrip_refuted`
* C02: `Varint.varint_framing`, `Varint.varint_prefix_free`, `Varint.varint_length`
* C03: `Bits.align_floor`, `Bits.isAligned_iff`, `Bits.alignf_ceil`
* C04: `Bits.jmp_step_roundtrip`, `Bits.jmp_tbl_roundtrip`
* C06: `Xil.stream_boundaries`, `Xil.stream_decode_partial`
* C07: `Xil.var_operand_iff`, `Xil.var_operand_partial`
* C08: `Xil.read_advances_iff`, `Xil.reader_terminates_partial`
* C10: `Heap.heap_total`, `Heap.heap_keeps_strings`, `Heap.heap_keeps_blocks`, `Heap.heap_keeps_bytes`, `Heap.heap_entity_partial`, `Heap.heap_last_entity_refuted`
* C100: `Session.session_iff_partial`, `Session.session_projects_partial`, `Session.default_run_iff`, `Session.named_run_iff`, `Session.named_run_errors`, `Session.same_assembly`, `Session.levels_grow`, `Session.mixed_files_refuted`, `Session.same_directory_refuted`, `Session.project_name_kept_in_solution`, `Session.two_solutions_refuted`
* C101: `Flow.Props.program_call_correct_partial`, `Flow.Props.program_levels_agree_partial`
* C102: `Queue.Props.visits_partial`
* C105: `Classes.Props.program_partial`, `Classes.Props.source_says`, `Classes.Props.source_says_void`, `Classes.Props.deeper`, `Classes.Props.result_unique`, `Classes.Props.call_dispatched_partial`
* C106: `Member.Props.found`, `Member.Props.not_found`, `Member.Props.only_one_found`, `Member.Props.accepted_means_partial`, `Member.Props.meant_accepted_partial`, `Member.Props.never_mistaken_partial`
* C107: `Try.Props.normal_partial`, `Try.Props.thrown_partial`, `Try.Props.ends_partial`
* C108: `Init.Props.made_partial`, `Init.Props.given_partial`, `Init.Props.given_refuted`, `Init.Props.several_refuted`
* C109: `Refs.refs_correct_partial`, `Refs.refs_levels_agree_partial`
* C11: `Heap.heap_interns`
* C110: `MathLib.max_correct`, `MathLib.min_correct`, `MathLib.abs_correct`, `MathLib.sign_correct`, `MathLib.abs_smallest_refuted`, `MathLib.abs_undefined_refuted`
* C111: `Console.console_partial`, `Console.consoles_partial`, `Console.boolean_line`, `Console.array_partial`, `Console.uint64_line_refuted`, `Console.null_line_refuted`, `Console.nul_refuted`, `Console.lost_refuted`, `Console.dimension_refuted`, `Console.dimension_wraps_refuted`, `Console.redeclared_refuted`
* C112: `Calls.calls_partial`, `Calls.endless_partial`
* C113: `Structs.structs_partial`, `Structs.structs_unique_partial`, `Structs.call_keeps_partial`, `Structs.others`
* C114: `Sections.split_sound`, `Sections.elements_given`, `Sections.elements_partial`, `Sections.inside_partial`, `Sections.plain`, `Sections.rest_refuted`, `Sections.inside_refuted`, `Sections.empty_refuted`
* C115: `Ctors.construct_partial`, `Ctors.initialised_partial`, `Ctors.value_needed`, `Ctors.value_refuted`
* C117: `Consts.values_partial`, `Consts.circular_reported`, `Consts.endless`, `Consts.endless_refuted`
* C118: `DotNames.one_object`, `DotNames.kept`, `DotNames.parse_text`, `DotNames.parse_partial`, `DotNames.combine_partial`, `DotNames.parent_partial`, `DotNames.child_partial`, `DotNames.simple_partial`, `DotNames.dotted_refuted`
* C119: `Pack.pointer_iff`, `Pack.tuple_partial`
* C12: `Fold.Props.fold_arith_partial`, `Fold.Props.fold_exact_partial`, `Fold.Props.fold_ub_iff`, `Fold.Props.fold_mixed`, `Fold.Props.fold_div_zero_refuted`, `Fold.Props.fold_char_int`
* C120: `Attrs.proper_accepted`, `Attrs.accepted_partial`
* C121: `Subst.names_partial`, `Subst.member_partial`, `Subst.method_partial`, `Subst.generic_method_partial`, `Subst.own_array_refuted`, `Subst.method_array_wrong`
* C122: `Where.use_partial`, `Where.generic_use_partial`, `Where.declaration`, `Where.value_refuted`, `Where.field_refuted`, `Where.unknown_refuted`, `Where.self_refuted`, `Where.struct_constraint_refuted`, `Where.shadow_refuted`, `Where.messages_refuted`
* C124: `Vcall.generic_method_refuted`
* C125: `Mval.name_signature`, `Mval.dot_signature`, `Mval.overload_partial`
* C126: `Links.calls_mean`, `Links.stay_trees`, `Links.walks`, `Links.leaves_partial`, `Links.heights`, `Links.finds`
* C127: `Stash.list_is`, `Stash.walk_filters`, `Stash.part_partial`
* C128: `Loaded.same_each_time`, `Loaded.main_each_time`, `Loaded.names_apart`, `Loaded.by_index`, `Loaded.index_back`, `Loaded.index_range`, `Loaded.failed_again`, `Loaded.where_found`, `Loaded.never_main_refuted`
* C129: `Indexers.class_index_partial`, `Indexers.order_irrelevant_partial`, `Indexers.interface_index_partial`, `Indexers.exact_only`
* C13: `Fold.Props.fold_cmp_partial`
* C130: `Gvirt.call_partial`, `Gvirt.call_override_partial`, `Gvirt.type_parameter_refuted`, `Gvirt.type_parameter_generic_refuted`
* C131: `Giface.implementation_partial`, `Giface.missing_refused`, `Giface.override_partial`, `Giface.captured_refuted`, `Giface.nested_refuted`, `Giface.below_generic_refuted`
* C132: `Tuples.item_partial`, `Tuples.members`, `Tuples.structure_item_refuted`
* C133: `Pools.objects_partial`, `Pools.bytes_refuted`, `Pools.default_balanced`
* C134: `Zips.rows_partial`, `Zips.rows_unique`, `Zips.same_length`, `Zips.again_refuted`
* C135: `Codepos.position_partial`, `Codepos.positions_differ`, `Codepos.line_partial`, `Codepos.line_end`, `Codepos.end_refuted`, `Codepos.first_line_refuted`, `Codepos.last_line_refuted`
* C136: `Zeros.new_object`, `Zeros.new_array_partial`, `Zeros.new_array_only`, `Zeros.several_refuted`, `Zeros.large_refuted`, `Zeros.zero_object`
* C137: `Identity.distinct_partial`, `Identity.nested_partial`, `Identity.core_found_partial`
* C138: `TypeNames.template_refuted`
* C14: `Fold.Props.fold_inc_partial`, `Fold.Props.fold_inc_dec_refuted`
* C15: `Fold.Props.fold_neg_partial`, `Fold.Props.fold_neg_refuted`, `Fold.Props.fold_not`
* C16: `Fold.Props.result_types_hold`
* C17: `Lex.Props.string_literal_partial`, `Lex.Props.string_literal_sound`, `Lex.Props.string_literal_total`, `Lex.Props.string_unclosed`
* C18: `Lex.Props.verbatim_literal_partial`, `Lex.Props.verbatim_quote_refuted`, `Lex.Props.verbatim_unclosed`
* C19: `Lex.Props.char_plain`, `Lex.Props.char_escaped_partial`, `Lex.Props.char_termination_refuted`, `Lex.Props.char_hang_loops`, `Lex.Props.char_sound`, `Lex.Props.hang_only_char`
* C20: `Lex.Props.line_comment`, `Lex.Props.block_comment`, `Lex.Props.block_unclosed_refuted`
* C21: `Lex.Props.keyword_whole_word`, `Lex.Props.keyword_sound`
* C22: `Numeric.Props.integer_literal_partial`, `Numeric.Props.integer_literal_upto10`, `Numeric.Props.zero_literal`, `Numeric.Props.negative_literal_partial`
* C23: `Numeric.Props.overflow_iff_partial`, `Numeric.Props.no_silent_wrap_partial`
* C24: `Parse.Props.grouped_parses_partial`, `Parse.Props.sequence_parses_partial`, `Parse.Props.grouping_unique`, `Parse.Props.tighter_first`, `Parse.Props.left_chain`, `Parse.Props.right_chain`, `Parse.Props.parse_ends`, `Parse.Props.prefix_postfix_refuted`
* C25: `Parse.Props.reading_kept_partial`, `Parse.Props.sequence_kept_partial`, `Parse.Props.missing_operator_rejected`
* C26: `Stmt.Props.exit_sound_partial`, `Stmt.Props.body_sound_partial`, `Stmt.Props.dropped_unreachable_partial`, `Stmt.Props.method_end_partial`, `Stmt.Props.method_result_partial`
* C27: `Stmt.Props.jumps_land`, `Stmt.Props.compiled_labels`
* C28: `Stmt.Props.switch_rows_partial`, `Stmt.Props.switch_lands_partial`, `Stmt.Props.method_follows_partial`
* C29: `SVector.Props.vector_is_sequence`, `SVector.Props.vector_refuses`, `SVector.Props.push_own_partial`
* C30: `RowHeap.Props.heap_is_sequence_partial`, `RowHeap.Props.objects_stable`, `RowHeap.Props.last_is_newest`, `RowHeap.Props.delete_full_row_refuted`
* C31: `XHeap.Props.blocks_disjoint_partial`, `XHeap.Props.objects_destroyed_partial`, `XHeap.Props.arrays_disjoint`
* C32: `BitArray.Props.get_last_set`, `BitArray.Props.index_of_first_partial`, `BitArray.Props.growth_overreads_refuted`
* C33: `Respool.Props.pool_exclusive`, `Respool.Props.pool_destroys_once`, `Respool.Props.pool_bounded`
* C34: `LrTree.Props.restore_store_partial`
* C35: `LrTree.Props.fixed_map_find`, `LrTree.Props.fixed_map_overflow`
* C36: `Algo.multikey_strict_total`, `Algo.multikey_eq_iff`, `Algo.multikey_operators`
* C37: `CStr.strcmp_lexicographic`, `CStr.strcmp_equal_iff`
* C38: `Copy.quick_copy_memmove_partial`, `Copy.quick_copy_frame`, `Copy.quick_copy_refuted_all`, `Copy.quick_copyT_memmove_partial`, `Copy.quick_copyBackT_refuted`, `Copy.quick_zero_memzero`, `Copy.quick_zeroT_memzero`
* C40: `Bits.incorp_parts`, `Bits.setIncorpV_partial`, `Bits.setIncorpP_partial`
* C41: `Bits.flags_remove_diff`, `Bits.flags_has_iff`, `Bits.flags_hasOnly_iff`, `Bits.flags_match_iff`
* C44: `Body.Props.body_instructions_partial`, `Body.Props.variables_by_number`
* C45: `Arr.Props.lengths_partial`, `Arr.Props.element_partial`, `Arr.Props.dimensions_refuted`
* C46: `Sync.Props.acquire_partial`
* C47: `Sync.Props.exclusive`, `Sync.Props.independent`, `Sync.Props.exit_ok`, `Sync.Props.mutexes_distinct`
* C48: `Intern.Props.same_id_iff`, `Intern.Props.id_denotes`
* C49: `Guid.guid_parse_iff`, `Guid.guid_parse_unique`, `Guid.guid_roundtrip_partial`, `Guid.guid_roundtrip_refuted`, `Guid.guid_eq_iff`, `Guid.guid_lt_total`, `Guid.guid_lt_trans`
* C50: `Block.Props.handler_partial`, `Block.Props.handler_innermost`, `Block.Props.handler_refuted`
* C51: `Algo.split_pieces`
* C53: `CStr.char_classes`, `CStr.digit_value_partial`, `CStr.case_conversion_partial`, `CStr.case_conversion_high`, `CStr.case_conversion_refuted`
* C54: `CStr.stricmp_partial`, `CStr.stristr_partial`
* C55: `Heap.heap_saved_loaded`, `Heap.heap_truncated`
* C56: `Value.constant_wide_partial`, `Value.constant_wide_refuted`, `Value.constant_extern_partial`, `Value.constants_kept_partial`
* C57: `Table.file_roundtrip_partial`, `Table.file_truncated`
* C58: `Value.compare_partial`
* C59: `Value.negate_partial`
* C60: `Guid.toChars_spec`, `Guid.dump_injective`
* C61: `Fold.Props.vm_shift`
* C62: `Numeric.Props.decimal_fraction_partial`
* C63: `Numeric.Props.hex_suffix_partial`
* C64: `Lex.Props.next_tiles_partial`, `Lex.Props.next_eof_iff`, `Lex.Props.tokens_tile`, `Lex.Props.reading_ends`, `Lex.Props.reading_completes`
* C65: `Lex.Props.operator_longest`
* C66: `Lex.Props.sign_number`, `Lex.Props.sign_operator_partial`, `Lex.Props.sign_after_name`, `Lex.Props.digit_number`, `Lex.Props.number_prev`
* C67: `Lex.Props.blank_ignored`, `Lex.Props.operand_irrelevant_partial`
* C68: `Parse.Props.conditional_parses_partial`, `Parse.Props.conditional_chain`
* C69: `Stmt.Props.method_follows_partial`, `Stmt.Props.never_lost_partial`
* C71: `Dispatch.Props.virtual_call_partial`
* C73: `Dispatch.Props.type_test_partial`
* C74: `Block.Props.throw_partial`, `Block.Props.throw_out_partial`, `Block.Props.leave_partial`, `Block.Props.leave_inside`, `Block.Props.return_partial`, `Block.Props.leaving_partial`, `Block.Props.returning_partial`, `Block.Props.leaving_refuted`
* C75: `Layout.Props.locals_partial`, `Layout.Props.locals_one_kind_partial`, `Layout.Props.mixture_refuted`
* C76: `Regions.Props.names`, `Regions.Props.index_tells_scope`, `Regions.Props.in_scope_disjoint_partial`, `Regions.Props.temporary_refuted`
* C77: `Expr.Props.method_call_correct_partial`, `Expr.Props.levels_agree_partial`
* C78: `Overload.class_call_partial`, `Overload.generic_methods_last`, `Overload.order_irrelevant_partial`, `Overload.interface_call_partial`, `Overload.found_is_applicable_partial`, `Overload.given_types_applicable_partial`, `Overload.null_for_number_refuted`, `Overload.enums_mixed_refuted`, `Overload.type_parameters_mixed_refuted`, `Overload.class_type_parameter_refuted`, `Overload.fixed_argument_ignored_refuted`, `Overload.unfit_generic_hides_refuted`, `Overload.byte_to_short_refuted`, `Overload.constructor_found_partial`
* C79: `Fields.field_places_partial`, `Fields.field_place_stable`, `Fields.assignments_partial`, `Fields.structure_copy_partial`, `Fields.tuple_items_partial`
* C80: `Decl.circle_reported`, `Decl.circle_named`
* C81: `Decl.constraint_cycle_reported`
* C82: `Decl.declared_twice_partial`, `Decl.duplicate_clash_partial`, `Decl.name_of_type`
* C83: `Decl.modifiers_checked_partial`, `Decl.override_partial`
* C84: `Enums.enum_values_partial`, `Enums.enum_range_partial`, `Enums.forward_reference_refuted`, `Enums.unset_waits`
* C85: `Enums.circular_exact`, `Enums.circular_reported`, `Enums.rounds_end`
* C86: `Props.declarations_roundtrip_partial`, `Props.loaded_references`
* C87: `Props.writing_ends`, `Props.legal_written_and_read_partial`
* C88: `Names.name_means_partial`, `Names.names_found_partial`, `Names.full_name`, `Names.inner_class_hides`, `Names.typedef_of_instance`, `Names.typedef_param_refuted`
* C89: `Props.member_host_partial`, `Props.used_member_class_partial`, `Props.nested_host_partial`, `Props.class_by_name_partial`
* C90: `Props.Rt.object_identity`, `Props.Rt.object_stays`, `Props.Rt.type_found`, `Props.Rt.values_of_instance`, `Props.Rt.field_type_partial`, `Props.Rt.self_type`
* C91: `Props.Mref.call_found_partial`, `Props.Mref.call_missing_partial`
* C92: `Props.Gram.language_graphs`, `Props.Gram.sentences_accepted`, `Props.Gram.accepted_sentences_partial`, `Props.Gram.nothing_matched`
* C93: `Props.Anl.programs_are_sentences`
* C94: `Props.Elems.tree_built`, `Props.Elems.always_built`
* C95: `Props.Nodes.parts_kept_partial`, `Props.Nodes.parts_in_order`, `Props.Nodes.roles_kept_partial`, `Props.Nodes.array_type_kept`, `Props.Nodes.flags_survive`, `Props.Nodes.new_initializer_refuted`, `Props.Nodes.namespace_using_refuted`, `Props.Nodes.attribute_values_refuted`
* C96: `Paths.path_resolved_partial`, `Paths.relative_resolved`, `Paths.settled_path_kept`, `Paths.rooted_never_refused`, `Paths.nested_dots_refuted`, `Paths.last_dots_refuted`, `Paths.root_lost_refuted`, `Paths.above_root_refuted`, `Paths.outside_read_refuted`, `Paths.combined_with_one_slash`, `Paths.loader_finds_assembly`
* C97: `Build.every_project_once`, `Build.imports_come_first`, `Build.clean_build_iff`, `Build.circle_reported`, `Build.clean_build_writes_all`, `Build.written_is_sound`
* C98: `Wild.plus_refuted`, `Wild.bar_refuted`
* C99: `Cmd.line_read`, `Cmd.one_reading`, `Cmd.compile_order`, `Cmd.run_order`, `Cmd.exception_exit`, `Cmd.unknown_command`, `Cmd.failed_compile_refuted`, `Cmd.help_refuted`, `Cmd.build_refuted`, `Cmd.level_4_refuted`
