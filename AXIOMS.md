# Axioms each theorem of the manifest depends on

Output of `#print axioms`, one line per theorem (made by tools/tables.py).

| property | theorem | axioms |
|---|---|---|
| C01 | `Conduit.C01_split_path` | propext, Classical.choice, Quot.sound |
| C01 | `Conduit.C01_rsplit_path` | propext, Classical.choice, Quot.sound |
| C01 | `Conduit.C01_join_split` | propext, Classical.choice, Quot.sound |
| C01 | `Conduit.C01_split_join` | propext, Classical.choice, Quot.sound |
| C01 | `Conduit.C01_rsplit_join` | propext, Classical.choice, Quot.sound |
| C01 | `Conduit.C01_join_assoc` | propext, Quot.sound |
| C01 | `Conduit.C01_split_vector` | propext, Quot.sound |
| C01 | `Conduit.C01_trim` | propext, Quot.sound |
| C02 | `Conduit.C02_unescape_escape` | propext, Quot.sound |
| C02 | `Conduit.C02_no_raw_control` | propext, Quot.sound |
| C02 | `Conduit.C02_quotes_escaped` | propext, Quot.sound |
| C03 | `Conduit.C03_json_literal` | propext, Quot.sound |
| C03 | `Conduit.C03_json_literal_false` | propext, Quot.sound |
| C03 | `Conduit.C03_conduit_json_literal` | propext, Quot.sound |
| C03 | `Conduit.C03_conduit_json_false` | propext, Classical.choice, Quot.sound |
| C03 | `Conduit.C03_object_member_roundtrip` | propext, Classical.choice, Quot.sound |
| C04 | `Conduit.C04_sanitize_json` | propext, Classical.choice, Quot.sound |
| C04 | `Conduit.C04_parse_sanitized` | propext, Classical.choice, Quot.sound |
| C04 | `Conduit.C04_sanitize_relaxed_partial` | propext, Classical.choice, Quot.sound |
| C04 | `Conduit.C04_sanitize_identity_partial` | propext, Classical.choice, Quot.sound |
| C04 | `Conduit.C04_comment_quote_false` | propext, Classical.choice, Quot.sound |
| C04 | `Conduit.C04_root_string_false` | propext, Classical.choice, Quot.sound |
| C04 | `Conduit.C04_backslash_false` | propext, Classical.choice, Quot.sound |
| C04 | `Conduit.C04_root_keyword_false` | propext, Classical.choice, Quot.sound |
| C05 | `Conduit.Base64.C05_roundtrip` | propext, Classical.choice, Quot.sound |
| C05 | `Conduit.Base64.C05_length` | propext, Classical.choice, Quot.sound |
| C05 | `Conduit.Base64.C05_large_false` | propext, Classical.choice, Quot.sound |
| C06 | `Conduit.Base64.C06_encode_in_bounds` | propext, Classical.choice, Quot.sound |
| C06 | `Conduit.Base64.C06_decode_extent` | propext, Classical.choice, Quot.sound |
| C06 | `Conduit.Base64.C06_decode_false` | propext, Quot.sound |
| C06 | `Conduit.Base64.C06_decode_in_bounds_partial` | propext, Classical.choice, Quot.sound |
| C06 | `Conduit.Base64.C06_decode_overrun_le_two` | propext, Classical.choice, Quot.sound |
| C06 | `Conduit.Base64.C06_decode_overrun_iff` | propext, Classical.choice, Quot.sound |
| C06 | `Conduit.Base64.C06_own_text_in_bounds` | propext, Classical.choice, Quot.sound |
| C07 | `Conduit.C07_name_to_id_of_name` | none |
| C07 | `Conduit.C07_names_distinct` | none |
| C07 | `Conduit.C07_unknown_name` | propext |
| C07 | `Conduit.C07_name_to_id_iff` | propext, Classical.choice, Quot.sound |
| C07 | `Conduit.C07_default_bytes` | none |
| C08 | `Conduit.C08_element_in_span` | propext, Classical.choice, Quot.sound |
| C08 | `Conduit.C08_span_least` | propext, Quot.sound |
| C08 | `Conduit.C08_strided` | propext, Quot.sound |
| C08 | `Conduit.C08_elements_disjoint` | propext, Quot.sound |
| C08 | `Conduit.C08_zero_elements_false` | none |
| C09 | `Conduit.C09_is_compact_false` | none |
| C09 | `Conduit.C09_is_compact_partial` | propext, Quot.sound |
| C10 | `Conduit.C10_compact_to` | propext, Quot.sound |
| C10 | `Conduit.C10_compact_is_compact` | propext, Quot.sound |
| C10 | `Conduit.C10_idempotent` | none |
| C11 | `Conduit.C11_history_refines_ordered_map` | propext, Classical.choice, Quot.sound |
| C11 | `Conduit.C11_name_index_agree` | propext, Classical.choice, Quot.sound |
| C12 | `Conduit.C12_rename_child` | propext, Classical.choice, Quot.sound |
| C13 | `Conduit.C13_remove_index` | propext, Classical.choice, Quot.sound |
| C13 | `Conduit.C13_remove_child_by_name` | propext, Classical.choice, Quot.sound |
| C14 | `Conduit.C14_fetch_plain_partial` | propext, Classical.choice, Quot.sound |
| C14 | `Conduit.C14_fetch_local` | propext, Classical.choice, Quot.sound |
| C14 | `Conduit.C14_leading_slash_false` | propext, Classical.choice, Quot.sound |
| C14 | `Conduit.C14_parent_false` | propext, Classical.choice, Quot.sound |
| C15 | `Conduit.C15_has_path_fetch_existing_partial` | propext, Classical.choice, Quot.sound |
| C15 | `Conduit.C15_no_undefined` | propext, Classical.choice, Quot.sound |
| C15 | `Conduit.C15_leading_slash_false` | propext, Classical.choice, Quot.sound |
| C15 | `Conduit.C15_parent_overloads_differ` | propext, Classical.choice, Quot.sound |
| C15 | `Conduit.C15_has_path_tables` | propext, Classical.choice, Quot.sound |
| C16 | `Conduit.C16_compact_layout` | propext, Quot.sound |
| C16 | `Conduit.C16_compact_keeps_shape` | propext |
| C16 | `Conduit.C16_compact_sizes` | propext, Classical.choice, Quot.sound |
| C16 | `Conduit.C16_compact_idempotent` | propext |
| C17 | `Conduit.C17_is_compact_partial` | propext, Classical.choice, Quot.sound |
| C17 | `Conduit.C17_cancel_false` | propext |
| C17 | `Conduit.C17_empty_array_false` | none |
| C18 | `Conduit.C18_equals_same_partial` | propext, Classical.choice, Quot.sound |
| C18 | `Conduit.C18_equals_equivalence_partial` | propext, Classical.choice, Quot.sound |
| C18 | `Conduit.C18_equals_leaf` | propext, Classical.choice, Quot.sound |
| C18 | `Conduit.C18_not_reflexive` | propext, Classical.choice, Quot.sound |
| C19 | `Conduit.C19_compatible_fits_partial` | propext, Classical.choice, Quot.sound |
| C19 | `Conduit.C19_compatible_leaves_partial` | propext, Classical.choice, Quot.sound |
| C19 | `Conduit.C19_compatible_refl_partial` | propext, Classical.choice, Quot.sound |
| C19 | `Conduit.C19_compatible_trans_partial` | propext, Classical.choice, Quot.sound |
| C19 | `Conduit.C19_not_transitive` | propext, Classical.choice, Quot.sound |
| C20 | `Conduit.C20_schema_json_partial` | propext, Classical.choice, Quot.sound |
| C20 | `Conduit.C20_schema_json_exact_partial` | propext, Classical.choice, Quot.sound |
| C20 | `Conduit.C20_child_named_dtype_false` | propext, Classical.choice, Quot.sound |
| C20 | `Conduit.C20_quote_in_name_false` | propext, Classical.choice, Quot.sound |
| C20 | `Conduit.C20_backslash_in_name_false` | propext, Classical.choice, Quot.sound |
| C20 | `Conduit.C20_negative_stride_false` | propext, Classical.choice, Quot.sound |
| C20 | `Conduit.C20_empty_leaf_equals_false` | propext, Classical.choice, Quot.sound |
| C21 | `Conduit.C21_compact_to_values` | propext, Classical.choice, Quot.sound |
| C21 | `Conduit.C21_compact_to_block` | propext, Classical.choice, Quot.sound |
| C22 | `Conduit.C22_serialize_stream` | propext, Classical.choice, Quot.sound |
| C22 | `Conduit.C22_serialize_vector_partial` | propext, Classical.choice, Quot.sound |
| C22 | `Conduit.C22_serialize_vector_overflow` | propext, Quot.sound |
| C22 | `Conduit.C22_serialize_vector_underflow` | propext, Quot.sound |
| C22 | `Conduit.C22_serialize_vector_misplaced` | propext, Quot.sound |
| C23 | `Conduit.C23_save_load_partial` | propext, Classical.choice, Quot.sound |
| C23 | `Conduit.C23_save_load_files_partial` | propext, Classical.choice, Quot.sound |
| C23 | `Conduit.C23_child_named_dtype_false` | propext, Classical.choice, Quot.sound |
| C24 | `Conduit.C24_set_node_deep_copy` | propext, Classical.choice, Quot.sound |
| C24 | `Conduit.C24_set_node_frame` | propext, Classical.choice, Quot.sound |
| C25 | `Conduit.C25_set_external_schema` | propext, Quot.sound |
| C25 | `Conduit.C25_set_external_node` | propext, Quot.sound |
| C25 | `Conduit.C25_set_external_ptr` | propext, Quot.sound |
| C26 | `Conduit.C26_update_merges` | propext, Classical.choice, Quot.sound |
| C26 | `Conduit.C26_update_leaf_partial` | propext, Classical.choice, Quot.sound |
| C26 | `Conduit.C26_update_keeps` | propext, Classical.choice, Quot.sound |
| C26 | `Conduit.C26_update_idempotent` | propext, Classical.choice, Quot.sound |
| C26 | `Conduit.C26_update_into_empty` | propext, Classical.choice, Quot.sound |
| C26 | `Conduit.C26_byte_order_false` | propext, Quot.sound |
| C26 | `Conduit.C26_longer_leaf_false` | propext, Quot.sound |
| C26 | `Conduit.C26_object_into_list_ub` | propext |
| C27 | `Conduit.C27_update_compatible` | propext, Classical.choice, Quot.sound |
| C27 | `Conduit.C27_update_compatible_elements` | propext, Classical.choice, Quot.sound |
| C28 | `Conduit.C28_diff_exact` | propext, Classical.choice, Quot.sound |
| C28 | `Conduit.C28_difference_reported_partial` | propext, Classical.choice, Quot.sound |
| C28 | `Conduit.C28_reflexive` | propext, Classical.choice, Quot.sound |
| C28 | `Conduit.C28_symmetric` | propext, Classical.choice, Quot.sound |
| C28 | `Conduit.C28_epsilon_zero` | propext, Classical.choice, Quot.sound |
| C28 | `Conduit.C28_within_epsilon` | propext, Classical.choice, Quot.sound |
| C28 | `Conduit.C28_nan_false` | propext, Classical.choice, Quot.sound |
| C28 | `Conduit.C28_overflow_false` | propext, Classical.choice, Quot.sound |
| C28 | `Conduit.C28_byte_order_false` | propext, Classical.choice, Quot.sound |
| C28 | `Conduit.C28_relaxint_false` | propext, Classical.choice, Quot.sound |
| C29 | `Conduit.C29_diff_compatible_exact` | propext, Classical.choice, Quot.sound |
| C29 | `Conduit.C29_diff_implies_compatible` | propext, Classical.choice, Quot.sound |
| C29 | `Conduit.C29_difference_reported_partial` | propext, Classical.choice, Quot.sound |
| C30 | `Conduit.C30_set_vector_partial` | propext, Classical.choice, Quot.sound |
| C30 | `Conduit.C30_set_scalar_partial` | propext, Classical.choice, Quot.sound |
| C30 | `Conduit.C30_set_array_partial` | propext, Classical.choice, Quot.sound |
| C30 | `Conduit.C30_set_string` | propext, Classical.choice, Quot.sound |
| C30 | `Conduit.C30_set_string_elements_partial` | propext, Classical.choice, Quot.sound |
| C30 | `Conduit.C30_longer_leaf_keeps_elements` | propext, Quot.sound |
| C30 | `Conduit.C30_other_byte_order_false` | propext |
| C30 | `Conduit.C30_vector_clobbers_neighbours` | propext |
| C30 | `Conduit.C30_array_overread` | propext |
| C30 | `Conduit.C30_strided_string_false` | propext |
| C31 | `Conduit.C31_write_exact` | propext, Classical.choice, Quot.sound |
| C31 | `Conduit.C31_other_elements` | propext, Classical.choice, Quot.sound |
| C31 | `Conduit.C31_other_leaves` | propext, Classical.choice, Quot.sound |
| C32 | `Conduit.C32_endian_swap_values` | propext, Classical.choice, Quot.sound |
| C32 | `Conduit.C32_endian_swap_back` | propext, Classical.choice, Quot.sound |
| C32 | `Conduit.C32_shared_memory_false` | propext |
| C32 | `Conduit.C32_endian_names` | none |
| C33 | `Conduit.C33_lockstep_partial` | propext, Classical.choice, Quot.sound |
| C33 | `Conduit.C33_parents` | propext, Classical.choice, Quot.sound |
| C33 | `Conduit.C33_add_child_on_list_false` | propext, Classical.choice, Quot.sound |
| C33 | `Conduit.C33_swap_siblings_false` | propext, Classical.choice, Quot.sound |
| C34 | `Conduit.C34_swap_partial` | propext, Classical.choice, Quot.sound |
| C34 | `Conduit.C34_move_partial` | propext, Classical.choice, Quot.sound |
| C34 | `Conduit.C34_swap_parents_false` | propext, Classical.choice, Quot.sound |
| C34 | `Conduit.C34_swap_dangling_false` | propext, Classical.choice, Quot.sound |
| C34 | `Conduit.C33_swap_siblings_false` | propext, Classical.choice, Quot.sound |
| C35 | `Conduit.C35_blocks_partial` | propext, Classical.choice, Quot.sound |
| C35 | `Conduit.C35_no_double_free_partial` | propext, Classical.choice, Quot.sound |
| C35 | `Conduit.C35_fetch` | propext, Classical.choice, Quot.sound |
| C35 | `Conduit.C35_setters` | propext, Classical.choice, Quot.sound |
| C35 | `Conduit.C35_destroy` | propext, Classical.choice, Quot.sound |
| C35 | `Conduit.C35_empty_schema_leak_false` | propext, Classical.choice, Quot.sound |
| C35 | `Conduit.C35_empty_schema_frees_user_false` | propext, Classical.choice, Quot.sound |
| C36 | `Conduit.C36_is_contiguous` | propext, Classical.choice, Quot.sound |
| C36 | `Conduit.C36_contiguous_with_partial` | propext, Classical.choice, Quot.sound |
| C36 | `Conduit.C36_contiguous_with_empty_first` | propext, Classical.choice, Quot.sound |
| C36 | `Conduit.C36_contiguous_with_false` | propext |
| C36 | `Conduit.C36_contiguous_after_partial` | propext, Classical.choice, Quot.sound |
| C36 | `Conduit.C36_contiguous_data_ptr` | propext, Classical.choice, Quot.sound |
| C36 | `Conduit.C36_bytes_consecutive` | propext, Classical.choice, Quot.sound |
| C36 | `Conduit.C36_contiguous_of_bytes` | propext, Classical.choice, Quot.sound |
| C36 | `Conduit.C36_contents` | propext, Classical.choice, Quot.sound |
| C36 | `Conduit.C36_strided_false` | propext, Quot.sound |
| C37 | `Conduit.C37_forward_loop` | propext, Classical.choice, Quot.sound |
| C37 | `Conduit.C37_peek_next` | propext, Quot.sound |
| C37 | `Conduit.C37_previous_undoes_next` | propext, Classical.choice, Quot.sound |
| C37 | `Conduit.C37_in_bounds` | propext, Classical.choice, Quot.sound |
| C37 | `Conduit.C37_peek_previous_false` | propext |
| C37 | `Conduit.C37_backward_loop_skips_last` | propext, Classical.choice, Quot.sound |
| C37 | `Conduit.C37_removed_child_ub` | propext |
| C38 | `Conduit.C38_min` | propext, Classical.choice, Quot.sound |
| C38 | `Conduit.C38_max` | propext, Classical.choice, Quot.sound |
| C38 | `Conduit.C38_count` | propext, Classical.choice, Quot.sound |
| C38 | `Conduit.C38_sum` | propext, Classical.choice, Quot.sound |
| C38 | `Conduit.C38_sum_modular` | propext, Classical.choice, Quot.sound |
| C38 | `Conduit.C38_sum_overflow` | propext |
| C38 | `Conduit.C38_byte_order_ignored` | propext |
| C39 | `Conduit.C39_copy_partial` | propext, Classical.choice, Quot.sound |
| C39 | `Conduit.C39_external_partial` | propext, Classical.choice, Quot.sound |
| C39 | `Conduit.C39_strided_sibling_false` | propext, Classical.choice, Quot.sound |
| C39 | `Conduit.C39_empty_list_of_false` | propext, Classical.choice, Quot.sound |
| C40 | `Conduit.C40_out_of_bounds_iff` | propext, Classical.choice, Quot.sound |
| C40 | `Conduit.C40_loaded_partial` | propext, Classical.choice, Quot.sound |
| C40 | `Conduit.C40_incomplete_refused` | propext, Classical.choice, Quot.sound |
| C40 | `Conduit.C40_overread_false` | propext, Classical.choice, Quot.sound |
| C40 | `Conduit.C40_overwrite_false` | propext, Classical.choice, Quot.sound |
| C40 | `Conduit.C40_element_bytes_false` | propext, Classical.choice, Quot.sound |
| C41 | `Conduit.C41_value_fits` | propext, Classical.choice, Quot.sound |
| C41 | `Conduit.C41_message_size` | propext, Classical.choice, Quot.sound |
| C42 | `Conduit.C42_to_int` | propext, Classical.choice, Quot.sound |
| C42 | `Conduit.C42_accessor_get` | propext, Classical.choice, Quot.sound |
| C42 | `Conduit.C42_accessor_set` | propext, Classical.choice, Quot.sound |
| C42 | `Conduit.C42_accessor_fill` | propext, Classical.choice, Quot.sound |
| C43 | `Conduit.C43_factor` | propext, Quot.sound |
| C43 | `Conduit.C43_factor_small` | propext, Quot.sound |
| C44 | `Conduit.C44_node_protocol` | propext, Classical.choice, Quot.sound |
| C44 | `Conduit.C44_relay_protocol` | propext, Classical.choice, Quot.sound |
| C44 | `Conduit.C44_no_extension_partial` | propext, Classical.choice, Quot.sound |
| C44 | `Conduit.C44_bare_name_false` | propext |
| C44 | `Conduit.C44_colon_directory_false` | propext |
| C44 | `Conduit.C44_relay_extends_node` | propext |
| C45 | `Conduit.Mpi.C45_probe_partial` | propext, Classical.choice, Quot.sound |
| C45 | `Conduit.Mpi.C45_probe_overflow` | propext |
| C45 | `Conduit.Mpi.C45_probe_sound` | propext |
| C45 | `Conduit.Mpi.C45_safe_tag` | propext, Classical.choice, Quot.sound |
| C46 | `Conduit.C46_send_recv_merges_partial` | propext, Classical.choice, Quot.sound |
| C46 | `Conduit.C46_send_recv_partial` | propext, Classical.choice, Quot.sound |
| C46 | `Conduit.C46_subnode_false` | propext, Classical.choice, Quot.sound |
| C46 | `Conduit.C46_external_leaves_false` | propext, Classical.choice, Quot.sound |
| C46 | `Conduit.C46_empty_object_false` | propext, Classical.choice, Quot.sound |
| C46 | `Conduit.C46_size_wraps_false` | propext, Quot.sound |
| C47 | `Conduit.C47_read_partial` | propext, Classical.choice, Quot.sound |
| C47 | `Conduit.C47_check` | propext, Quot.sound |
| C47 | `Conduit.C47_long_row_false` | propext, Classical.choice, Quot.sound |
| C47 | `Conduit.C47_no_header_false` | propext, Classical.choice, Quot.sound |
| C47 | `Conduit.C47_trailing_comma_false` | propext, Classical.choice, Quot.sound |
| C47 | `Conduit.C47_roundtrip_partial` | propext, Classical.choice, Quot.sound |
| C47 | `Conduit.C47_no_columns_false` | propext, Classical.choice, Quot.sound |
| C47 | `Conduit.C47_number_name_false` | propext, Classical.choice, Quot.sound |
| C47 | `Conduit.C47_comma_name_false` | propext, Classical.choice, Quot.sound |
| C47 | `Conduit.C47_endian_false` | propext, Classical.choice, Quot.sound |
| C48 | `Conduit.O2M.C48_index` | propext, Quot.sound |
| C48 | `Conduit.O2M.C48_forward_partial` | propext, Quot.sound |
| C48 | `Conduit.O2M.C48_backward_partial` | propext, Quot.sound |
| C48 | `Conduit.O2M.C48_peek_next` | propext, Quot.sound |
| C48 | `Conduit.O2M.C48_empty_group_false` | propext |
| C48 | `Conduit.O2M.C48_indices_disagree` | propext |
| C48 | `Conduit.O2M.C48_index_size` | propext, Quot.sound |
| C48 | `Conduit.O2M.C48_group_count_disagree` | propext |
| C49 | `Conduit.O2M.C49_prefix_sums` | propext, Quot.sound |
| C49 | `Conduit.O2M.C49_partition` | propext, Quot.sound |
| C50 | `Conduit.O2M.C50_compact_partial` | propext, Quot.sound |
| C50 | `Conduit.O2M.C50_compact_plain` | propext |
| C50 | `Conduit.O2M.C50_single_group_false` | propext |
| C50 | `Conduit.O2M.C50_two_arrays_ub` | propext |
| C50 | `Conduit.O2M.C50_empty_group_diverges` | propext, Quot.sound |
| C51 | `Conduit.ND.C51_index` | propext, Quot.sound |
| C51 | `Conduit.ND.C51_injective` | propext, Classical.choice, Quot.sound |
| C51 | `Conduit.ND.C51_default_strides` | propext, Classical.choice, Quot.sound |
| C51 | `Conduit.ND.C51_default_covers` | propext, Quot.sound |
| C51 | `Conduit.ND.C51_short_tuple` | propext, Quot.sound |
| C52 | `Conduit.MCArray.C52_to_contiguous_partial` | propext, Classical.choice, Quot.sound |
| C52 | `Conduit.MCArray.C52_to_interleaved_partial` | propext, Classical.choice, Quot.sound |
| C52 | `Conduit.MCArray.C52_contiguous_layout` | propext, Quot.sound |
| C52 | `Conduit.MCArray.C52_contiguous_disjoint` | propext, Quot.sound |
| C52 | `Conduit.MCArray.C52_interleaved_layout` | propext, Quot.sound |
| C52 | `Conduit.MCArray.C52_interleaved_disjoint` | propext, Quot.sound |
| C52 | `Conduit.MCArray.C52_is_interleaved` | propext, Quot.sound |
| C52 | `Conduit.MCArray.C52_list_false` | propext, Classical.choice, Quot.sound |
| C52 | `Conduit.MCArray.C52_slash_false` | propext, Classical.choice, Quot.sound |
| C52 | `Conduit.MCArray.C52_no_components_false` | propext, Classical.choice, Quot.sound |
| C52 | `Conduit.MCArray.C52_in_place_false` | propext, Classical.choice, Quot.sound |
| C53 | `Conduit.MCArray.C53_exact` | propext, Classical.choice, Quot.sound |
| C53 | `Conduit.MCArray.C53_verify_partial` | propext, Classical.choice, Quot.sound |
| C53 | `Conduit.MCArray.C53_order_dependent` | propext |
| C54 | `Conduit.Log.C54_verdict_is_conjunction` | propext, Classical.choice, Quot.sound |
| C54 | `Conduit.Log.C54_failure_is_final` | propext, Classical.choice, Quot.sound |
| C55 | `Conduit.C55_array_summary` | propext, Quot.sound |
| C55 | `Conduit.C55_array_no_threshold` | propext, Quot.sound |
| C55 | `Conduit.C55_child_summary` | propext, Quot.sound |
| C56 | `Conduit.C56_ids_fresh` | propext, Classical.choice, Quot.sound |
| C56 | `Conduit.C56_id_selects_pair` | propext, Classical.choice, Quot.sound |
| C56 | `Conduit.C56_default_pair` | propext, Classical.choice, Quot.sound |
| C57 | `Conduit.C57_split_file_path` | propext, Classical.choice, Quot.sound |
| C57 | `Conduit.C57_rsplit_file_path_false` | propext, Classical.choice, Quot.sound |
| C57 | `Conduit.C57_rsplit_file_path_partial` | propext, Classical.choice, Quot.sound |
| C58 | `Conduit.C58_assign_partial` | propext, Classical.choice, Quot.sound |
| C58 | `Conduit.C58_set_self_loses_value` | propext, Quot.sound |
| C58 | `Conduit.C58_set_from_own_view_undefined` | propext, Quot.sound |
| C58 | `Conduit.C58_set_from_child_undefined` | propext, Classical.choice, Quot.sound |
| C58 | `Conduit.C58_set_from_parent_undefined` | propext, Classical.choice, Quot.sound |
| C59 | `Conduit.Log.C59_remove_valid` | propext |
| C59 | `Conduit.Log.C59_remove_invalid` | propext |
| C59 | `Conduit.Log.C59_remove_optional` | propext |
| C59 | `Conduit.Log.C59_remove_valid_keeps` | propext |
| C59 | `Conduit.Log.C59_failing_child_dropped` | propext |
| C60 | `Conduit.C60_set_schema` | propext, Classical.choice, Quot.sound |
| C60 | `Conduit.C60_set_schema_data` | propext, Classical.choice, Quot.sound |
| C60 | `Conduit.C60_negative_span_false` | propext |
| C61 | `Conduit.C61_base64_json_partial` | propext, Classical.choice, Quot.sound |
| C61 | `Conduit.C61_child_named_dtype_false` | propext, Classical.choice, Quot.sound |
| C62 | `Conduit.C62_own_memory_partial` | propext, Classical.choice, Quot.sound |
| C62 | `Conduit.C62_null_zeros_partial` | propext, Classical.choice, Quot.sound |
| C62 | `Conduit.C62_named_leaf_aliases_false` | propext, Classical.choice, Quot.sound |
| C62 | `Conduit.C62_named_leaf_null_false` | propext, Classical.choice, Quot.sound |
| C63 | `Conduit.C63_detailed_json_partial` | propext, Classical.choice, Quot.sound |
| C63 | `Conduit.C63_scalar_nan_false` | propext, Classical.choice, Quot.sound |
| C63 | `Conduit.C63_backslash_false` | propext, Classical.choice, Quot.sound |
| C64 | `Conduit.C64_read_json` | propext, Classical.choice, Quot.sound |
| C64 | `Conduit.C64_plain_json_partial` | propext, Classical.choice, Quot.sound |
| C64 | `Conduit.C64_integers_kept` | propext, Classical.choice, Quot.sound |
| C64 | `Conduit.C64_root_null_false` | propext, Classical.choice, Quot.sound |
| C64 | `Conduit.C64_big_array_false` | propext, Classical.choice, Quot.sound |
| C64 | `Conduit.C64_numeric_strings_false` | propext, Classical.choice, Quot.sound |
| C65 | `Conduit.C65_verify` | propext, Classical.choice, Quot.sound |
| C65 | `Conduit.C65_empty_column_false` | propext, Classical.choice, Quot.sound |
| C65 | `Conduit.C65_zero_length_false` | propext, Classical.choice, Quot.sound |
| C66 | `Conduit.Matset.C66_full_to_element` | propext, Classical.choice, Quot.sound |
| C66 | `Conduit.Matset.C66_full_to_material` | propext, Classical.choice, Quot.sound |
| C66 | `Conduit.Matset.C66_element_to_material` | propext, Classical.choice, Quot.sound |
| C66 | `Conduit.Matset.C66_element_to_full` | propext, Classical.choice, Quot.sound |
| C66 | `Conduit.Matset.C66_material_to_full_partial` | propext, Classical.choice, Quot.sound |
| C66 | `Conduit.Matset.C66_material_to_element_partial` | propext, Classical.choice, Quot.sound |
| C66 | `Conduit.Matset.C66_full_element_full` | propext, Classical.choice, Quot.sound |
| C66 | `Conduit.Matset.C66_gap_in_ids_is_ub` | propext, Quot.sound |
| C66 | `Conduit.Matset.C66_empty_element_breaks_round_trip` | propext, Quot.sound |
| C66 | `Conduit.Matset.C66_empty_last_element_lost` | propext, Quot.sound |
| C66 | `Conduit.Matset.C66_material_dominant_unibuffer_lost` | propext, Quot.sound |
| C66 | `Conduit.Matset.C66_unknown_material` | propext, Quot.sound |
| C66 | `Conduit.Matset.C66_duplicate_lost` | propext, Quot.sound |
| C66 | `Conduit.Matset.C66_no_offsets_lost` | propext, Quot.sound |
| C67 | `Conduit.Matset.C67_full_to_element` | propext, Classical.choice, Quot.sound |
| C67 | `Conduit.Matset.C67_full_to_material` | propext, Quot.sound |
| C67 | `Conduit.Matset.C67_element_to_material` | propext, Quot.sound |
| C67 | `Conduit.Matset.C67_element_to_full` | propext, Classical.choice, Quot.sound |
| C67 | `Conduit.Matset.C67_material_to_full_partial` | propext, Classical.choice, Quot.sound |
| C67 | `Conduit.Matset.C67_material_to_element_partial` | propext, Classical.choice, Quot.sound |
| C67 | `Conduit.Matset.C67_field_order` | propext, Quot.sound |
| C68 | `Conduit.Matset.C68_full` | propext, Classical.choice, Quot.sound |
| C68 | `Conduit.Matset.C68_material` | propext, Classical.choice, Quot.sound |
| C68 | `Conduit.Matset.C68_element_partial` | propext, Classical.choice, Quot.sound |
| C68 | `Conduit.Matset.C68_material_unibuffer_partial` | propext, Classical.choice, Quot.sound |
| C68 | `Conduit.Matset.C68_empty_group_never_ends` | propext |
| C68 | `Conduit.Matset.C68_empty_zone_is_error` | propext |
| C68 | `Conduit.Matset.C68_scattered_group_misread` | propext |
| C68 | `Conduit.Matset.C68_narrow_ids_overflow` | propext |
| C68 | `Conduit.Matset.C68_negative_number_misread` | propext |
| C68 | `Conduit.Matset.C68_clean_values_lost` | propext |
| C68 | `Conduit.Matset.C68_unknown_material` | propext |
| C69 | `Conduit.Matset.C69_species` | propext, Classical.choice, Quot.sound |
| C69 | `Conduit.Matset.C69_of_mixture` | propext, Classical.choice, Quot.sound |
| C69 | `Conduit.Matset.C69_unpacked_not_beside` | propext |
| C69 | `Conduit.Matset.C69_wide_map_is_error` | propext |
| C69 | `Conduit.Matset.C69_order_is_error` | propext |
| C69 | `Conduit.Matset.C69_short_species_is_ub` | propext |
| C70 | `Conduit.Mesh.C70_uniform_explicit` | propext, Classical.choice, Quot.sound |
| C70 | `Conduit.Mesh.C70_rectilinear_explicit` | propext, Classical.choice, Quot.sound |
| C70 | `Conduit.Mesh.C70_commute` | propext, Classical.choice, Quot.sound |
| C70 | `Conduit.Mesh.C70_length` | propext, Classical.choice, Quot.sound |
| C70 | `Conduit.Mesh.C70_length_explicit` | propext, Classical.choice, Quot.sound |
| C70 | `Conduit.Mesh.C70_integer_false` | propext, Quot.sound |
| C71 | `Conduit.Mesh.C71_uniform` | propext, Classical.choice, Quot.sound |
| C71 | `Conduit.Mesh.C71_rectilinear` | propext, Classical.choice, Quot.sound |
| C71 | `Conduit.Mesh.C71_structured` | propext, Classical.choice, Quot.sound |
| C71 | `Conduit.Mesh.C71_corner_coordinates` | propext, Classical.choice, Quot.sound |
| C71 | `Conduit.Mesh.C71_to_structured` | propext, Classical.choice, Quot.sound |
| C71 | `Conduit.Mesh.C71_narrow_dims_false` | propext, Classical.choice, Quot.sound |
| C71 | `Conduit.Mesh.C71_strided_false` | propext, Quot.sound |
| C71 | `Conduit.Mesh.C71_narrow_origin_false` | propext, Quot.sound |
| C72 | `Conduit.Mesh.C72_widest` | propext, Classical.choice, Quot.sound |
| C72 | `Conduit.Mesh.C72_sign_false` | propext, Quot.sound |
| C73 | `Conduit.Mesh.C73_pairwise` | propext, Classical.choice, Quot.sound |
| C73 | `Conduit.Mesh.C73_maxshare` | propext, Classical.choice, Quot.sound |
| C73 | `Conduit.Mesh.C73_round` | propext, Classical.choice, Quot.sound |
| C73 | `Conduit.Mesh.C73_is_pairwise` | propext, Quot.sound |
| C73 | `Conduit.Mesh.C73_is_maxshare` | propext, Quot.sound |
| C73 | `Conduit.Mesh.AdjEx.C73_narrow_false` | propext, Quot.sound |
| C74 | `Conduit.Mesh.C74_pairwise` | propext, Classical.choice, Quot.sound |
| C74 | `Conduit.Mesh.C74_maxshare` | propext, Classical.choice, Quot.sound |
| C74 | `Conduit.Mesh.AdjEx.C74_maxshare_order_false` | propext, Classical.choice, Quot.sound |
| C74 | `Conduit.Mesh.AdjEx.C74_detached_false` | propext, Quot.sound |
| C74 | `Conduit.Mesh.AdjEx.C74_repeated_false` | propext, Quot.sound |
| C75 | `Conduit.Mesh.C75_canonicalize` | propext, Classical.choice, Quot.sound |
| C75 | `Conduit.Mesh.C75_is_canonical` | propext, Classical.choice, Quot.sound |
| C75 | `Conduit.Mesh.C75_names_inj` | propext, Classical.choice, Quot.sound |
| C75 | `Conduit.Mesh.AdjEx.C75_swapped_false` | propext |
| C75 | `Conduit.Mesh.AdjEx.C75_same_neighbors_false` | propext |
| C76 | `Conduit.Kd.C76_sound` | propext, Quot.sound |
| C76 | `Conduit.Kd.C76_stored_partial` | propext, Quot.sound |
| C76 | `Conduit.Kd.C76_stored_in_box_partial` | propext, Quot.sound |
| C76 | `Conduit.Kd.C76_unique_partial` | propext, Quot.sound |
| C76 | `Conduit.Kd.C76_normal` | propext, Classical.choice, Quot.sound |
| C76 | `Conduit.Kd.C76_query_partial` | propext, Classical.choice, Quot.sound |
| C76 | `Conduit.Kd.C76_misses_near_false` | propext, Classical.choice, Quot.sound |
| C76 | `Conduit.Kd.C76_first_false` | propext, Classical.choice, Quot.sound |
| C76 | `Conduit.Kd.C76_flat_not_found` | propext, Classical.choice, Quot.sound |
| C76 | `Conduit.Kd.C76_flat_false` | propext, Classical.choice, Quot.sound |
| C77 | `Conduit.Kd.C77_order` | propext, Quot.sound |
| C77 | `Conduit.Hilbert.C77_hilbert` | propext, Classical.choice, Quot.sound |
| C77 | `Conduit.Hilbert.C77_quadrants` | propext, Quot.sound |
| C77 | `Conduit.Hilbert.C77_convention_false` | propext, Classical.choice, Quot.sound |
| C77 | `Conduit.Hilbert.C77_cluster_false` | propext, Classical.choice, Quot.sound |
| C78 | `Conduit.Mesh.C78_explicit_partial` | propext, Classical.choice, Quot.sound |
| C78 | `Conduit.Mesh.C78_grid_partial` | propext, Classical.choice, Quot.sound |
| C78 | `Conduit.Mesh.ReorderEx.C78_offsets_false` | propext, Quot.sound |
| C78 | `Conduit.Mesh.ReorderEx.C78_in_place_false` | propext, Quot.sound |
| C78 | `Conduit.Mesh.ReorderEx.C78_units_false` | propext, Quot.sound |
| C78 | `Conduit.Mesh.ReorderEx.C78_material_false` | propext, Quot.sound |
| C78 | `Conduit.Mesh.ReorderEx.C78_mixed_false` | propext |
| C78 | `Conduit.Mesh.ReorderEx.C78_single_shape_false` | propext, Quot.sound |
| C79 | `Conduit.Mesh.C79_widest_64` | propext, Classical.choice, Quot.sound |
| C79 | `Conduit.Mesh.C79_offsets_partial` | propext, Classical.choice, Quot.sound |
| C79 | `Conduit.Mesh.C79_offsets_64` | propext, Classical.choice, Quot.sound |
| C79 | `Conduit.Mesh.C79_offsets_kept` | propext, Quot.sound |
| C79 | `Conduit.Mesh.C79_generate_partial` | propext, Classical.choice, Quot.sound |
| C79 | `Conduit.Mesh.C79_generate_kept` | propext, Quot.sound |
| C79 | `Conduit.Mesh.C79_offsets_polyhedra` | propext, Classical.choice, Quot.sound |
| C79 | `Conduit.Mesh.C79_points_partial` | propext, Classical.choice, Quot.sound |
| C79 | `Conduit.Mesh.C79_points_64` | propext, Classical.choice, Quot.sound |
| C79 | `Conduit.Mesh.C79_points_given` | propext, Classical.choice, Quot.sound |
| C79 | `Conduit.Mesh.C79_points_polyhedra` | propext, Classical.choice, Quot.sound |
| C79 | `Conduit.Mesh.C79_offsets_false` | propext, Quot.sound |
| C79 | `Conduit.Mesh.C79_points_false` | propext, Quot.sound |
| C79 | `Conduit.Mesh.C79_one_destination_false` | propext, Quot.sound |
| C80 | `Conduit.Mesh.C80_add` | propext, Classical.choice, Quot.sound |
| C80 | `Conduit.Mesh.C80_build_partial` | propext, Classical.choice, Quot.sound |
| C80 | `Conduit.Mesh.C80_rectilinear_false` | propext, Quot.sound |
| C80 | `Conduit.Mesh.C80_uniform_false` | propext, Classical.choice, Quot.sound |
| C81 | `Conduit.Mesh.C81_found` | propext, Classical.choice, Quot.sound |
| C81 | `Conduit.Mesh.C81_missing_point` | propext, Classical.choice, Quot.sound |
| C81 | `Conduit.Mesh.C81_search_partial` | propext, Classical.choice, Quot.sound |
| C81 | `Conduit.Mesh.C81_collision_false` | propext, Classical.choice, Quot.sound |
| C82 | `Conduit.Mesh.C82_sides_partial` | propext, Classical.choice, Quot.sound |
| C82 | `Conduit.Mesh.C82_fits` | propext, Classical.choice, Quot.sound |
| C82 | `Conduit.Mesh.C82_facets` | propext, Classical.choice, Quot.sound |
| C82 | `Conduit.Mesh.C82_oriented` | propext |
| C82 | `Conduit.Mesh.C82_oriented_false` | propext |
| C82 | `Conduit.Mesh.C82_collision_false` | propext, Classical.choice, Quot.sound |
| C82 | `Conduit.Mesh.C82_wedge_false` | propext, Quot.sound |
| C82 | `Conduit.Mesh.C82_narrow_false` | propext, Quot.sound |
| C83 | `Conduit.Mesh.C83_lines_partial` | propext, Classical.choice, Quot.sound |
| C83 | `Conduit.Mesh.C83_large_false` | propext, Classical.choice, Quot.sound |
| C83 | `Conduit.Mesh.C83_gap_false` | propext, Quot.sound |
| C83 | `Conduit.Mesh.C83_order_false` | propext, Quot.sound |
| C83 | `Conduit.Mesh.C83_collision_false` | propext, Quot.sound |
| C84 | `Conduit.Mesh.C84_verdict_partial` | propext, Classical.choice, Quot.sound |
| C84 | `Conduit.Mesh.C84_report_partial` | propext, Classical.choice, Quot.sound |
| C84 | `Conduit.Mesh.C84_total_partial` | propext, Classical.choice, Quot.sound |
| C84 | `Conduit.Mesh.C84_fresh` | propext, Classical.choice, Quot.sound |
| C84 | `Conduit.Mesh.C84_parts_partial` | propext, Classical.choice, Quot.sound |
| C84 | `Conduit.Mesh.C84_parts_total_partial` | propext, Classical.choice, Quot.sound |
| C84 | `Conduit.Mesh.C84_named_valid_false` | propext, Classical.choice, Quot.sound |
| C84 | `Conduit.Mesh.C84_shape_map_false` | propext, Classical.choice, Quot.sound |
| C84 | `Conduit.Mesh.C84_faces_false` | propext, Classical.choice, Quot.sound |
| C84 | `Conduit.Mesh.C84_species_false` | propext, Classical.choice, Quot.sound |
| C84 | `Conduit.Mesh.C84_volume_fractions_false` | propext, Classical.choice, Quot.sound |
| C84 | `Conduit.Mesh.C84_windows_false` | propext, Classical.choice, Quot.sound |
| C84 | `Conduit.Mesh.C84_lenient_false` | propext, Classical.choice, Quot.sound |
| C84 | `Conduit.Mesh.C84_mlarray_false` | propext, Classical.choice, Quot.sound |
| C84 | `Conduit.Mesh.C84_named_info_false` | propext, Classical.choice, Quot.sound |
| C85 | `Conduit.Mesh.C85_verdict_partial` | propext, Classical.choice, Quot.sound |
| C85 | `Conduit.Mesh.C85_fresh` | propext, Classical.choice, Quot.sound |
| C85 | `Conduit.Mesh.C85_domain_partial` | propext, Classical.choice, Quot.sound |
| C85 | `Conduit.Mesh.C85_domains_partial` | propext, Classical.choice, Quot.sound |
| C85 | `Conduit.Mesh.C85_accepted_partial` | propext, Classical.choice, Quot.sound |
| C85 | `Conduit.Mesh.C85_coordset_false` | propext, Classical.choice, Quot.sound |
| C85 | `Conduit.Mesh.C85_matset_false` | propext, Classical.choice, Quot.sound |
| C85 | `Conduit.Mesh.C85_field_false` | propext, Classical.choice, Quot.sound |
| C85 | `Conduit.Mesh.C85_systems_false` | propext, Classical.choice, Quot.sound |
| C85 | `Conduit.Mesh.C85_no_domains_false` | propext, Classical.choice, Quot.sound |
| C86 | `Conduit.Files.C86_shared` | propext, Quot.sound |
| C86 | `Conduit.Files.C86_used` | propext, Quot.sound |
| C86 | `Conduit.Files.C86_unique` | propext, Quot.sound |
| C86 | `Conduit.Files.C86_none` | propext |
| C87 | `Conduit.Files.C87_written` | propext, Classical.choice, Quot.sound |
| C87 | `Conduit.Files.C87_failed` | propext, Classical.choice, Quot.sound |
| C87 | `Conduit.Files.C87_possible` | propext, Classical.choice, Quot.sound |
| C87 | `Conduit.Files.C87_root` | propext, Quot.sound |
| C87 | `Conduit.Files.C87_read` | propext, Quot.sound |
| C88 | `Conduit.MeshIO.C88_write_partial` | propext, Classical.choice, Quot.sound |
| C88 | `Conduit.MeshIO.C88_save_partial` | propext, Classical.choice, Quot.sound |
| C88 | `Conduit.MeshIO.C88_series_partial` | propext, Classical.choice, Quot.sound |
| C88 | `Conduit.MeshIO.C88_names` | propext, Classical.choice, Quot.sound |
| C88 | `Conduit.MeshIO.C88_two_names_false` | propext, Classical.choice, Quot.sound |
| C88 | `Conduit.MeshIO.C88_fewer_false` | propext, Classical.choice, Quot.sound |
| C88 | `Conduit.MeshIO.C88_path_false` | propext, Classical.choice, Quot.sound |
| C88 | `Conduit.MeshIO.C88_field_named_false` | propext, Classical.choice, Quot.sound |
| C89 | `Conduit.MeshIO.C89_expand` | propext, Classical.choice, Quot.sound |
| C89 | `Conduit.MeshIO.C89_old_root_partial` | propext, Classical.choice, Quot.sound |
| C89 | `Conduit.MeshIO.C89_expand_false` | none |
| C89 | `Conduit.MeshIO.C89_percent_false` | propext, Classical.choice, Quot.sound |
| C90 | `Conduit.Part.C90_split_keeps` | propext, Classical.choice, Quot.sound |
| C90 | `Conduit.Part.C90_split_inside` | propext, Classical.choice, Quot.sound |
| C90 | `Conduit.Part.C90_split_field` | propext, Classical.choice, Quot.sound |
| C90 | `Conduit.Part.C90_split_value` | propext, Quot.sound |
| C90 | `Conduit.Part.Case.C90_halves_false` | propext |
| C91 | `Conduit.Part.C91_keeps` | propext, Classical.choice, Quot.sound |
| C91 | `Conduit.Part.C91_reaches` | propext, Classical.choice, Quot.sound |
| C91 | `Conduit.Part.C91_hangs` | propext, Classical.choice, Quot.sound |
| C91 | `Conduit.Part.Case.C91_grid_false` | propext, Classical.choice, Quot.sound |
| C91 | `Conduit.Part.Case.C91_empty_false` | propext |
| C92 | `Conduit.Part.C92_all_partial` | propext, Classical.choice, Quot.sound |
| C92 | `Conduit.Part.C92_selections_partial` | propext, Classical.choice, Quot.sound |
| C92 | `Conduit.Part.C92_field_partial` | propext, Classical.choice, Quot.sound |
| C92 | `Conduit.Part.C92_respects` | propext, Classical.choice, Quot.sound |
| C92 | `Conduit.Part.C92_exact` | propext, Classical.choice, Quot.sound |
| C92 | `Conduit.Part.C92_groups` | propext, Classical.choice, Quot.sound |
| C92 | `Conduit.Part.C92_hangs` | propext, Classical.choice, Quot.sound |
| C92 | `Conduit.Part.C92_zero` | propext, Classical.choice, Quot.sound |
| C92 | `Conduit.Part.C92_target` | propext, Quot.sound |
| C92 | `Conduit.Part.C92_place` | propext, Classical.choice, Quot.sound |
| C92 | `Conduit.Part.C92_ids` | propext, Quot.sound |
| C92 | `Conduit.Part.Case.C92_ranges_false` | propext |
| C92 | `Conduit.Part.Case.C92_many_false` | propext |
| C92 | `Conduit.Part.Case.C92_last_false` | propext |
| C92 | `Conduit.Part.Case.C92_minus_false` | propext |
| C92 | `Conduit.Part.Case.C92_wide_false` | propext |
| C92 | `Conduit.Part.Case.C92_named_false` | propext |
| C93 | `Conduit.Part.C93_extract_partial` | propext, Classical.choice, Quot.sound |
| C93 | `Conduit.Part.C93_corner_coordinates` | propext |
| C93 | `Conduit.Part.XCase.C93_line_false` | propext, Quot.sound |
| C93 | `Conduit.Part.XCase.C93_no_offsets_false` | propext, Quot.sound |
| C93 | `Conduit.Part.XCase.C93_material_field_false` | propext, Quot.sound |
| C93 | `Conduit.Part.XCase.C93_no_fields_no_mapping` | propext, Quot.sound |
| C93 | `Conduit.Part.XCase.C93_negative_false` | propext, Quot.sound |
| C94 | `Conduit.Part.C94_uniform_box_partial` | propext, Classical.choice, Quot.sound |
| C94 | `Conduit.Part.C94_uniform_exact` | propext |
| C94 | `Conduit.Part.C94_rectilinear_box_partial` | propext, Classical.choice, Quot.sound |
| C94 | `Conduit.Part.C94_structured_box_partial` | propext, Classical.choice, Quot.sound |
| C94 | `Conduit.Part.BoxCase.C94_no_origin_false` | propext, Quot.sound |
| C94 | `Conduit.Part.BoxCase.C94_order_false` | propext, Classical.choice, Quot.sound |
| C94 | `Conduit.Part.BoxCase.C94_structured_origin_false` | propext, Quot.sound |
| C95 | `Conduit.Merge.C95_merge` | propext, Classical.choice, Quot.sound |
| C95 | `Conduit.Merge.C95_shared` | propext, Classical.choice, Quot.sound |
| C95 | `Conduit.Merge.C95_apart` | propext, Classical.choice, Quot.sound |
| C95 | `Conduit.Merge.Case.C95_gap_false` | propext, Classical.choice, Quot.sound |
| C95 | `Conduit.Merge.Case.C95_own_false` | propext, Classical.choice, Quot.sound |
| C95 | `Conduit.Merge.Case.C95_uniform_false` | propext, Classical.choice, Quot.sound |
| C95 | `Conduit.Merge.Case.C95_spherical_false` | propext, Classical.choice, Quot.sound |
| C95 | `Conduit.Merge.Case.C95_radial_false` | propext, Classical.choice, Quot.sound |
| C95 | `Conduit.Merge.Case.C95_xz_false` | propext, Classical.choice, Quot.sound |
| C95 | `Conduit.Merge.Case.C95_logical_false` | propext, Classical.choice, Quot.sound |
| C95 | `Conduit.Merge.Case.C95_same_false` | propext, Classical.choice, Quot.sound |
| C96 | `Conduit.Comb.C96_fixed` | propext, Classical.choice, Quot.sound |
| C96 | `Conduit.Comb.C96_polygons` | propext, Classical.choice, Quot.sound |
| C96 | `Conduit.Comb.C96_shared` | propext, Classical.choice, Quot.sound |
| C96 | `Conduit.Comb.C96_single` | propext, Classical.choice, Quot.sound |
| C96 | `Conduit.Comb.Case.C96_order` | propext, Classical.choice, Quot.sound |
| C96 | `Conduit.Comb.Case.C96_type` | propext, Classical.choice, Quot.sound |
| C96 | `Conduit.Comb.Case.C96_offsets` | propext, Classical.choice, Quot.sound |
| C96 | `Conduit.Comb.Case.C96_second` | propext, Classical.choice, Quot.sound |
| C96 | `Conduit.Comb.Case.C96_points` | propext, Classical.choice, Quot.sound |
| C97 | `Conduit.Back.C97_back` | propext, Classical.choice, Quot.sound |
| C97 | `Conduit.Back.C97_agree` | propext, Classical.choice, Quot.sound |
| C97 | `Conduit.Back.C97_round` | propext, Classical.choice, Quot.sound |
| C97 | `Conduit.Back.Case.C97_missing` | propext |
| C97 | `Conduit.Back.Case.C97_twice` | propext |
| C97 | `Conduit.Back.Case.C97_unknown` | propext |
| C97 | `Conduit.Back.Case.C97_order` | propext |
| C97 | `Conduit.Back.Case.C97_sizes` | propext |
| C97 | `Conduit.Back.Case.C97_unnumbered` | propext |
| C97 | `Conduit.Back.Case.C97_nothing` | propext |
| C97 | `Conduit.Back.Case.C97_disagree` | propext |
| C98 | `Conduit.C98_gather` | propext, Classical.choice, Quot.sound |
| C98 | `Conduit.C98_all_gather` | propext, Classical.choice, Quot.sound |
| C98 | `Conduit.C98_subnode` | propext, Classical.choice, Quot.sound |
| C98 | `Conduit.C98_sum_overflows_false` | propext |
| C99 | `Conduit.C99_broadcast` | propext, Classical.choice, Quot.sound |
| C99 | `Conduit.C99_same_numbers` | propext, Classical.choice, Quot.sound |
| C99 | `Conduit.C99_in_place` | propext, Classical.choice, Quot.sound |
| C99 | `Conduit.C99_longer_leaf_false` | propext, Classical.choice, Quot.sound |
| C99 | `Conduit.C99_byte_order_false` | propext, Classical.choice, Quot.sound |
| C99 | `Conduit.C99_subnode_false` | propext, Classical.choice, Quot.sound |
| C99 | `Conduit.C99_external_leaves_false` | propext, Classical.choice, Quot.sound |
| C100 | `Conduit.C100_send_recv` | propext, Classical.choice, Quot.sound |
| C100 | `Conduit.C100_broadcast` | propext, Classical.choice, Quot.sound |
| C100 | `Conduit.C100_subnode` | propext |
| C100 | `Conduit.C100_short_message_false` | propext |
| C100 | `Conduit.C100_byte_order_false` | propext |
| C101 | `Conduit.C101_list_of` | propext, Classical.choice, Quot.sound |
| C101 | `Conduit.C101_list_of_external` | propext, Quot.sound |
| C101 | `Conduit.C101_example` | propext |
| C101 | `Conduit.C101_list_of_external_twice_false` | propext |
| C102 | `Conduit.C102_all_gather` | propext, Classical.choice, Quot.sound |
| C102 | `Conduit.C102_gather` | propext, Classical.choice, Quot.sound |
| C102 | `Conduit.C102_example` | propext |
| C102 | `Conduit.C102_gather_object_false` | propext |
| C102 | `Conduit.C102_gather_offset_false` | propext |
| C103 | `Conduit.C103_all_reduce` | propext, Classical.choice, Quot.sound |
| C103 | `Conduit.C103_reduce` | propext, Classical.choice, Quot.sound |
| C103 | `Conduit.C103_example` | propext |
| C103 | `Conduit.C103_offset_false` | propext |
| C103 | `Conduit.C103_byte_order_false` | propext |
| C104 | `Conduit.C104_irecv_wait` | propext, Classical.choice, Quot.sound |
| C104 | `Conduit.C104_irecv_wait_all` | propext, Classical.choice, Quot.sound |
| C104 | `Conduit.irecvDests_ok` | propext, Classical.choice, Quot.sound |
| C104 | `Conduit.C104_two` | propext |
| C104 | `Conduit.C104_short_message` | propext |
| C104 | `Conduit.C104_written_between_false` | propext |
| C105 | `Conduit.C105_communicate` | propext, Classical.choice, Quot.sound |
| C105 | `Conduit.C105_new_nodes` | propext, Classical.choice, Quot.sound |
| C105 | `Conduit.swap_ok` | propext, Classical.choice, Quot.sound |
| C105 | `Conduit.C105_swap` | propext, Classical.choice, Quot.sound |
| C105 | `Conduit.C105_large_tags_false` | propext, Classical.choice, Quot.sound |
| C105 | `Conduit.C105_no_partner_false` | propext, Classical.choice, Quot.sound |
| C106 | `Conduit.C106_isend` | propext, Classical.choice, Quot.sound |
| C106 | `Conduit.C106_isend_irecv` | propext, Classical.choice, Quot.sound |
| C106 | `Conduit.C106_written_strided` | propext |
| C106 | `Conduit.C106_written_compact_false` | propext |
| C107 | `Conduit.C107_reset` | propext |
| C107 | `Conduit.C107_sequence` | propext |
| C107 | `Conduit.C107_compact_to` | propext, Quot.sound |
| C107 | `Conduit.C107_set` | propext, Classical.choice, Quot.sound |
| C107 | `Conduit.C107_set_schema` | propext, Quot.sound |
| C107 | `Conduit.C107_set_schema_data` | propext, Quot.sound |
| C107 | `Conduit.C107_set_external` | propext |
| C107 | `Conduit.C107_set_external_schema` | propext |
| C107 | `Conduit.C107_set_external_node` | propext |
| C107 | `Conduit.C107_load` | propext, Quot.sound |
| C107 | `Conduit.C107_list_of` | propext, Quot.sound |
| C107 | `Conduit.C107_set_scalar` | propext, Quot.sound |
| C107 | `Conduit.C107_set_array` | propext, Quot.sound |
| C107 | `Conduit.C107_set_vector` | propext, Quot.sound |
| C107 | `Conduit.C107_set_string` | propext, Quot.sound |
| C107 | `Conduit.C107_update` | propext, Classical.choice, Quot.sound |
| C107 | `Conduit.C107_update_compatible` | propext, Classical.choice, Quot.sound |
| C107 | `Conduit.C107_history` | propext, Classical.choice, Quot.sound |
| C107 | `Conduit.C107_history_example` | propext |
| C107 | `Conduit.C107_example` | propext |
| C107 | `Conduit.C107_empty_schema_false` | propext |
| C108 | `Conduit.C108_recv` | propext, Classical.choice, Quot.sound |
| C108 | `Conduit.C108_irecv_wait` | propext, Classical.choice, Quot.sound |
| C108 | `Conduit.C108_isend_wait` | propext, Quot.sound |
| C108 | `Conduit.C108_recv_using_schema` | propext, Classical.choice, Quot.sound |
| C108 | `Conduit.C108_broadcast_using_schema` | propext, Classical.choice, Quot.sound |
| C108 | `Conduit.C108_example` | propext |
| C108 | `Conduit.C108_irecv_example` | propext |
| C108 | `Conduit.C108_recv_empty_false` | propext |
