{
 "claims": [
  {
   "property": "C01",
   "status": "proved",
   "theorems": [
    "Conduit.C01_split_path",
    "Conduit.C01_rsplit_path",
    "Conduit.C01_join_split",
    "Conduit.C01_split_join",
    "Conduit.C01_rsplit_join",
    "Conduit.C01_join_assoc",
    "Conduit.C01_split_vector",
    "Conduit.C01_trim"
   ],
   "note": "split/rsplit/join/trim specifications on every string."
  },
  {
   "property": "C02",
   "status": "proved",
   "theorems": [
    "Conduit.C02_unescape_escape",
    "Conduit.C02_no_raw_control",
    "Conduit.C02_quotes_escaped"
   ],
   "note": "round trip, no raw control characters, quotes preceded by an odd number of backslashes."
  },
  {
   "property": "C03",
   "status": "partial",
   "theorems": [
    "Conduit.C03_json_literal",
    "Conduit.C03_json_literal_false",
    "Conduit.C03_conduit_json_literal",
    "Conduit.C03_conduit_json_false",
    "Conduit.C03_object_member_roundtrip"
   ],
   "note": "Exact characterisation at literal level; the unrestricted claim is refuted for other control characters (json) and for inner backslashes (conduit_json)."
  },
  {
   "property": "C04",
   "status": "partial",
   "theorems": [
    "Conduit.C04_sanitize_json",
    "Conduit.C04_parse_sanitized",
    "Conduit.C04_sanitize_relaxed_partial",
    "Conduit.C04_sanitize_identity_partial",
    "Conduit.C04_comment_quote_false",
    "Conduit.C04_root_string_false",
    "Conduit.C04_backslash_false",
    "Conduit.C04_root_keyword_false"
   ],
   "note": "Identity on every JSON document that is an object or array and whose strings and names do not end in a backslash (any white space, escapes, numbers, keywords), and it is then read as its value; exact result for relaxed documents (comments dropped, bare words quoted, rest unchanged); refuted for the excluded shapes: a root string, a root keyword, literals ending in a backslash, and comments containing quotes."
  },
  {
   "property": "C05",
   "status": "proved",
   "theorems": [
    "Conduit.Base64.C05_roundtrip",
    "Conduit.Base64.C05_length",
    "Conduit.Base64.C05_large_false"
   ],
   "note": "for inputs below 2^31 bytes (the code casts the size to int)."
  },
  {
   "property": "C06",
   "status": "partial",
   "theorems": [
    "Conduit.Base64.C06_encode_in_bounds",
    "Conduit.Base64.C06_decode_extent",
    "Conduit.Base64.C06_decode_false",
    "Conduit.Base64.C06_decode_in_bounds_partial",
    "Conduit.Base64.C06_decode_overrun_le_two",
    "Conduit.Base64.C06_decode_overrun_iff",
    "Conduit.Base64.C06_own_text_in_bounds"
   ],
   "note": "Encoder bound proved; decoder extent exact for every text; claim refuted for texts whose length is not a multiple of 4."
  },
  {
   "property": "C07",
   "status": "proved",
   "theorems": [
    "Conduit.C07_name_to_id_of_name",
    "Conduit.C07_names_distinct",
    "Conduit.C07_unknown_name",
    "Conduit.C07_name_to_id_iff",
    "Conduit.C07_default_bytes"
   ],
   "note": "names, ids and element sizes."
  },
  {
   "property": "C08",
   "status": "proved",
   "theorems": [
    "Conduit.C08_element_in_span",
    "Conduit.C08_span_least",
    "Conduit.C08_strided",
    "Conduit.C08_elements_disjoint",
    "Conduit.C08_zero_elements_false"
   ],
   "note": "stated for at least one element; for zero elements a negative span is exhibited."
  },
  {
   "property": "C09",
   "status": "partial",
   "theorems": [
    "Conduit.C09_is_compact_false",
    "Conduit.C09_is_compact_partial"
   ],
   "note": "Refuted in general; proved for non-overlapping elements of natural size."
  },
  {
   "property": "C10",
   "status": "proved",
   "theorems": [
    "Conduit.C10_compact_to",
    "Conduit.C10_compact_is_compact",
    "Conduit.C10_idempotent"
   ],
   "note": ""
  },
  {
   "property": "C11",
   "status": "proved",
   "theorems": [
    "Conduit.C11_history_refines_ordered_map",
    "Conduit.C11_name_index_agree"
   ],
   "note": "Refinement of the name table / order vector / children vector to ordered association lists, for all call histories at all positions."
  },
  {
   "property": "C12",
   "status": "proved",
   "theorems": [
    "Conduit.C12_rename_child"
   ],
   "note": ""
  },
  {
   "property": "C13",
   "status": "proved",
   "theorems": [
    "Conduit.C13_remove_index",
    "Conduit.C13_remove_child_by_name"
   ],
   "note": ""
  },
  {
   "property": "C14",
   "status": "partial",
   "theorems": [
    "Conduit.C14_fetch_plain_partial",
    "Conduit.C14_fetch_local",
    "Conduit.C14_leading_slash_false",
    "Conduit.C14_parent_false"
   ],
   "note": "Proved for paths of proper names; refuted for a leading slash and for \"..\"."
  },
  {
   "property": "C15",
   "status": "partial",
   "theorems": [
    "Conduit.C15_has_path_fetch_existing_partial",
    "Conduit.C15_no_undefined",
    "Conduit.C15_leading_slash_false",
    "Conduit.C15_parent_overloads_differ",
    "Conduit.C15_has_path_tables"
   ],
   "note": "Proved for paths of proper names, absence of undefined behaviour for all paths; refuted for a leading slash, overloads disagree on \"..\"."
  },
  {
   "property": "C16",
   "status": "proved",
   "theorems": [
    "Conduit.C16_compact_layout",
    "Conduit.C16_compact_keeps_shape",
    "Conduit.C16_compact_sizes",
    "Conduit.C16_compact_idempotent"
   ],
   "note": "For schemas whose counts are not negative."
  },
  {
   "property": "C17",
   "status": "partial",
   "theorems": [
    "Conduit.C17_is_compact_partial",
    "Conduit.C17_cancel_false",
    "Conduit.C17_empty_array_false"
   ],
   "note": "Proved for trees whose data leaves have natural element size, at least one element and stride >= element size. Two witnesses show the claim false in general (paddings of opposite sign cancel; a zero-length leaf)."
  },
  {
   "property": "C18",
   "status": "partial",
   "theorems": [
    "Conduit.C18_equals_same_partial",
    "Conduit.C18_equals_equivalence_partial",
    "Conduit.C18_equals_leaf",
    "Conduit.C18_not_reflexive"
   ],
   "note": "Equivalence and meaning proved for slash-free names. C18_not_reflexive: a reachable schema with a child named \"a/b\" is not equal to itself."
  },
  {
   "property": "C19",
   "status": "partial",
   "theorems": [
    "Conduit.C19_compatible_fits_partial",
    "Conduit.C19_compatible_leaves_partial",
    "Conduit.C19_compatible_refl_partial",
    "Conduit.C19_compatible_trans_partial",
    "Conduit.C19_not_transitive"
   ],
   "note": "Meaning and reflexivity for slash-free names; transitivity needs the middle schema to have the names of the right one. C19_not_transitive is the counterexample."
  },
  {
   "property": "C20",
   "status": "partial",
   "theorems": [
    "Conduit.C20_schema_json_partial",
    "Conduit.C20_schema_json_exact_partial",
    "Conduit.C20_child_named_dtype_false",
    "Conduit.C20_quote_in_name_false",
    "Conduit.C20_backslash_in_name_false",
    "Conduit.C20_negative_stride_false",
    "Conduit.C20_empty_leaf_equals_false"
   ],
   "note": "text-level round trip (print, sanitize, parse, walk) for every schema whose names need no escaping and are not 'dtype' and whose layout fields are not negative; the excluded cases are shown false by witnesses"
  },
  {
   "property": "C21",
   "status": "proved",
   "theorems": [
    "Conduit.C21_compact_to_values",
    "Conduit.C21_compact_to_block"
   ],
   "note": "Value preservation for every readable tree and layout; the result is one fresh block holding the element bytes in order."
  },
  {
   "property": "C22",
   "status": "partial",
   "theorems": [
    "Conduit.C22_serialize_stream",
    "Conduit.C22_serialize_vector_partial",
    "Conduit.C22_serialize_vector_overflow",
    "Conduit.C22_serialize_vector_underflow",
    "Conduit.C22_serialize_vector_misplaced"
   ],
   "note": "stream form proved for all trees; vector form proved for trees where no non-last child is strided, false otherwise (witnesses: overflow, underflow, misplaced bytes)"
  },
  {
   "property": "C23",
   "status": "partial",
   "theorems": [
    "Conduit.C23_save_load_partial",
    "Conduit.C23_save_load_files_partial",
    "Conduit.C23_child_named_dtype_false"
   ],
   "note": "round trip through the two files including the schema's JSON text, for names that survive C20; shown false for a child named dtype; file system errors not modelled"
  },
  {
   "property": "C24",
   "status": "proved",
   "theorems": [
    "Conduit.C24_set_node_deep_copy",
    "Conduit.C24_set_node_frame"
   ],
   "note": "Value equality and two-way independence for every later memory."
  },
  {
   "property": "C25",
   "status": "proved",
   "theorems": [
    "Conduit.C25_set_external_schema",
    "Conduit.C25_set_external_node",
    "Conduit.C25_set_external_ptr"
   ],
   "note": "set_external (schema, node and pointer forms) aliases exactly, for every later memory; writes are C31."
  },
  {
   "property": "C26",
   "status": "partial",
   "theorems": [
    "Conduit.C26_update_merges",
    "Conduit.C26_update_leaf_partial",
    "Conduit.C26_update_keeps",
    "Conduit.C26_update_idempotent",
    "Conduit.C26_update_into_empty",
    "Conduit.C26_byte_order_false",
    "Conduit.C26_longer_leaf_false",
    "Conduit.C26_object_into_list_ub"
   ],
   "note": "update refines merge; leaf values carried, silent paths kept, idempotent. Full value equality refuted where dest has a same-type leaf (byte order ignored, longer leaf keeps tail); object into non-empty list is ub."
  },
  {
   "property": "C27",
   "status": "proved",
   "theorems": [
    "Conduit.C27_update_compatible",
    "Conduit.C27_update_compatible_elements"
   ],
   "note": "Same node tree, element-exact overlay, no other byte changes; trees must not share element bytes."
  },
  {
   "property": "C28",
   "status": "partial",
   "theorems": [
    "Conduit.C28_diff_exact",
    "Conduit.C28_difference_reported_partial",
    "Conduit.C28_reflexive",
    "Conduit.C28_symmetric",
    "Conduit.C28_epsilon_zero",
    "Conduit.C28_within_epsilon",
    "Conduit.C28_nan_false",
    "Conduit.C28_overflow_false",
    "Conduit.C28_byte_order_false",
    "Conduit.C28_relaxint_false"
   ],
   "note": "diff returns \"no difference\" exactly for SameV (C28_diff_exact), is reflexive for every epsilon >= 0 and symmetric, epsilon 0 and epsilon > 0 characterised on IEEE values; a real difference is reported as such for int32/int64 values in the middle half of the range. False in general and proved so: NaN equals everything, the stored difference overflows (undefined behaviour), the declared byte order is ignored, relaxint looks at first elements only. The verdict is modelled, not the info report."
  },
  {
   "property": "C29",
   "status": "partial",
   "theorems": [
    "Conduit.C29_diff_compatible_exact",
    "Conduit.C29_diff_implies_compatible",
    "Conduit.C29_difference_reported_partial"
   ],
   "note": "diff_compatible returns \"no difference\" exactly for SameV with prefixes (C29_diff_compatible_exact) and is implied by diff; a missing part is reported for int32/int64 values in the middle half of the range (else signed overflow). Verdict only, not the info report."
  },
  {
   "property": "C30",
   "status": "partial",
   "theorems": [
    "Conduit.C30_set_vector_partial",
    "Conduit.C30_set_scalar_partial",
    "Conduit.C30_set_array_partial",
    "Conduit.C30_set_string",
    "Conduit.C30_set_string_elements_partial",
    "Conduit.C30_longer_leaf_keeps_elements",
    "Conduit.C30_other_byte_order_false",
    "Conduit.C30_vector_clobbers_neighbours",
    "Conduit.C30_array_overread",
    "Conduit.C30_strided_string_false"
   ],
   "note": "proved for fresh and exactly matching leaves, C-string claim for packed string leaves; false for longer, byte-swapped and strided compatible leaves (witness theorems)"
  },
  {
   "property": "C31",
   "status": "proved",
   "theorems": [
    "Conduit.C31_write_exact",
    "Conduit.C31_other_elements",
    "Conduit.C31_other_leaves"
   ],
   "note": "Element writes are exact; other elements and disjoint (interleaved) leaves keep their values."
  },
  {
   "property": "C32",
   "status": "proved",
   "theorems": [
    "Conduit.C32_endian_swap_values",
    "Conduit.C32_endian_swap_back",
    "Conduit.C32_shared_memory_false",
    "Conduit.C32_endian_names"
   ],
   "note": "for trees whose elements do not share bytes; false otherwise (C32_shared_memory_false)"
  },
  {
   "property": "C33",
   "status": "partial",
   "theorems": [
    "Conduit.C33_lockstep_partial",
    "Conduit.C33_parents",
    "Conduit.C33_add_child_on_list_false",
    "Conduit.C33_swap_siblings_false"
   ],
   "note": "over all histories of allowed calls (every mutating Node call; excluded are exactly the calls the witnesses show to break it, foreign deletes, and snapshot-read sources inside/around the destination); false for add_child on a list with children and swap of siblings with the receiver first"
  },
  {
   "property": "C34",
   "status": "partial",
   "theorems": [
    "Conduit.C34_swap_partial",
    "Conduit.C34_move_partial",
    "Conduit.C34_swap_parents_false",
    "Conduit.C34_swap_dangling_false",
    "Conduit.C33_swap_siblings_false"
   ],
   "note": "contents, places, names and lockstep proved for any two nodes none inside the other (siblings: receiver behind); false for parent pointers of the exchanged children and for siblings in the other order"
  },
  {
   "property": "C35",
   "status": "partial",
   "theorems": [
    "Conduit.C35_blocks_partial",
    "Conduit.C35_no_double_free_partial",
    "Conduit.C35_fetch",
    "Conduit.C35_setters",
    "Conduit.C35_destroy",
    "Conduit.C35_empty_schema_leak_false",
    "Conduit.C35_empty_schema_frees_user_false"
   ],
   "note": "over all histories of allowed calls; false for a schema with empty root (leak, later free of user memory) and after the calls that break C33"
  },
  {
   "property": "C36",
   "status": "partial",
   "theorems": [
    "Conduit.C36_is_contiguous",
    "Conduit.C36_contiguous_with_partial",
    "Conduit.C36_contiguous_with_empty_first",
    "Conduit.C36_contiguous_with_false",
    "Conduit.C36_contiguous_after_partial",
    "Conduit.C36_contiguous_data_ptr",
    "Conduit.C36_bytes_consecutive",
    "Conduit.C36_contiguous_of_bytes",
    "Conduit.C36_contents",
    "Conduit.C36_strided_false"
   ],
   "note": "is_contiguous, contiguous_data_ptr and their byte-level meaning are proved for every tree and address assignment; contiguous_with(p) is characterised for all trees: as claimed when the tree begins with data, but for a tree that begins with an empty child the code ignores p (C36_contiguous_with_false), so the claim is false in general; a strided leaf counts as gap-free (C36_strided_false)"
  },
  {
   "property": "C37",
   "status": "partial",
   "theorems": [
    "Conduit.C37_forward_loop",
    "Conduit.C37_peek_next",
    "Conduit.C37_previous_undoes_next",
    "Conduit.C37_in_bounds",
    "Conduit.C37_peek_previous_false",
    "Conduit.C37_backward_loop_skips_last",
    "Conduit.C37_removed_child_ub"
   ],
   "note": "Forward loop, peek_next, previous-after-next and in-bounds proved for every call history; refuted for peek_previous (returns the current child), for the reverse loop (skips the last child), and when children are removed during a loop."
  },
  {
   "property": "C38",
   "status": "partial",
   "theorems": [
    "Conduit.C38_min",
    "Conduit.C38_max",
    "Conduit.C38_count",
    "Conduit.C38_sum",
    "Conduit.C38_sum_modular",
    "Conduit.C38_sum_overflow",
    "Conduit.C38_byte_order_ignored"
   ],
   "note": "Integer leaves in machine byte order: min, max, count exact; sum exact when no intermediate overflow (unsigned: modular). Refuted for byte-swapped leaves and for signed overflow."
  },
  {
   "property": "C39",
   "status": "partial",
   "theorems": [
    "Conduit.C39_copy_partial",
    "Conduit.C39_external_partial",
    "Conduit.C39_strided_sibling_false",
    "Conduit.C39_empty_list_of_false"
   ],
   "note": "Copying walk: proved for documents without inline values/addresses in which whatever follows a leaf with gaps states its offsets (values on the same bytes of the buffer). External walk: proved without the condition on offsets (schema equal, every leaf on the buffer). The general claim is false: witnesses for a strided leaf followed by one without offset and for an empty list_of."
  },
  {
   "property": "C40",
   "status": "partial",
   "theorems": [
    "Conduit.C40_out_of_bounds_iff",
    "Conduit.C40_loaded_partial",
    "Conduit.C40_incomplete_refused",
    "Conduit.C40_overread_false",
    "Conduit.C40_overwrite_false",
    "Conduit.C40_element_bytes_false"
   ],
   "note": "False in general (three witness documents: read past the buffer, decode past the buffer, element_bytes smaller than the type). Proved exactly when a document is loaded in bounds, that a fitting document with a forward layout gives a readable node with the decoded values, and that incomplete documents are refused. Texts of 2 GiB and \\u escapes are not modelled."
  },
  {
   "property": "C41",
   "status": "proved",
   "theorems": [
    "Conduit.C41_value_fits",
    "Conduit.C41_message_size"
   ],
   "note": "all pairs of integer types."
  },
  {
   "property": "C42",
   "status": "proved",
   "theorems": [
    "Conduit.C42_to_int",
    "Conduit.C42_accessor_get",
    "Conduit.C42_accessor_set",
    "Conduit.C42_accessor_fill"
   ],
   "note": "integer leaves in machine byte order; float and string leaves are not modelled."
  },
  {
   "property": "C43",
   "status": "proved",
   "theorems": [
    "Conduit.C43_factor",
    "Conduit.C43_factor_small"
   ],
   "note": ""
  },
  {
   "property": "C44",
   "status": "partial",
   "theorems": [
    "Conduit.C44_node_protocol",
    "Conduit.C44_relay_protocol",
    "Conduit.C44_no_extension_partial",
    "Conduit.C44_bare_name_false",
    "Conduit.C44_colon_directory_false",
    "Conduit.C44_relay_extends_node"
   ],
   "note": "Proved for file names with an extension; refuted for bare names equal to an extension and for directories containing a colon (relay)."
  },
  {
   "property": "C45",
   "status": "partial",
   "theorems": [
    "Conduit.Mpi.C45_probe_partial",
    "Conduit.Mpi.C45_probe_overflow",
    "Conduit.Mpi.C45_probe_sound",
    "Conduit.Mpi.C45_safe_tag"
   ],
   "note": "Probing is exact for limits below 2^30-1 and refuted above (int overflow in the loop); every probed tag is valid; safe_tag proved."
  },
  {
   "property": "C46",
   "status": "partial",
   "theorems": [
    "Conduit.C46_send_recv_merges_partial",
    "Conduit.C46_send_recv_partial",
    "Conduit.C46_subnode_false",
    "Conduit.C46_external_leaves_false",
    "Conduit.C46_empty_object_false",
    "Conduit.C46_size_wraps_false"
   ],
   "note": "Sent and received by update semantics for any node whose schema stands alone when compact and contiguous, names as in C20, message < 2 GiB; false (proved witnesses) for sub-nodes of compact trees, adjacent external leaves, childless objects and messages of 2 GiB and more."
  },
  {
   "property": "C47",
   "status": "partial",
   "theorems": [
    "Conduit.C47_read_partial",
    "Conduit.C47_check",
    "Conduit.C47_long_row_false",
    "Conduit.C47_no_header_false",
    "Conduit.C47_trailing_comma_false",
    "Conduit.C47_roundtrip_partial",
    "Conduit.C47_no_columns_false",
    "Conduit.C47_number_name_false",
    "Conduit.C47_comma_name_false",
    "Conduit.C47_endian_false"
   ],
   "note": "The claim is false: rows longer than the header and files without header index outside the column list (C47_long_row_false, C47_no_header_false prove it for every such file). Proved: full outcome of read_csv for every file with a usable header, over every heap reached by calls; write_csv then read_csv gives the same columns, components, lengths and the numbers the texts say, for writable names; number parsing/printing are parameters. Witnesses for trailing comma, numeric names, commas, no columns, endianness."
  },
  {
   "property": "C48",
   "status": "partial",
   "theorems": [
    "Conduit.O2M.C48_index",
    "Conduit.O2M.C48_forward_partial",
    "Conduit.O2M.C48_backward_partial",
    "Conduit.O2M.C48_peek_next",
    "Conduit.O2M.C48_empty_group_false",
    "Conduit.O2M.C48_indices_disagree",
    "Conduit.O2M.C48_index_size",
    "Conduit.O2M.C48_group_count_disagree"
   ],
   "note": "Forward and backward DATA traversals proved for relations whose groups are non-empty runs; refuted for empty groups and non-consecutive indices (iterator and index disagree)."
  },
  {
   "property": "C49",
   "status": "proved",
   "theorems": [
    "Conduit.O2M.C49_prefix_sums",
    "Conduit.O2M.C49_partition"
   ],
   "note": ""
  },
  {
   "property": "C50",
   "status": "partial",
   "theorems": [
    "Conduit.O2M.C50_compact_partial",
    "Conduit.O2M.C50_compact_plain",
    "Conduit.O2M.C50_single_group_false",
    "Conduit.O2M.C50_two_arrays_ub",
    "Conduit.O2M.C50_empty_group_diverges"
   ],
   "note": "Proved for one data array, at least two groups, none empty; refuted for a single group (nothing copied), two data arrays (out of bounds write), an empty first group (does not end)."
  },
  {
   "property": "C51",
   "status": "proved",
   "theorems": [
    "Conduit.ND.C51_index",
    "Conduit.ND.C51_injective",
    "Conduit.ND.C51_default_strides",
    "Conduit.ND.C51_default_covers",
    "Conduit.ND.C51_short_tuple"
   ],
   "note": ""
  },
  {
   "property": "C52",
   "status": "partial",
   "theorems": [
    "Conduit.MCArray.C52_to_contiguous_partial",
    "Conduit.MCArray.C52_to_interleaved_partial",
    "Conduit.MCArray.C52_contiguous_layout",
    "Conduit.MCArray.C52_contiguous_disjoint",
    "Conduit.MCArray.C52_interleaved_layout",
    "Conduit.MCArray.C52_interleaved_disjoint",
    "Conduit.MCArray.C52_is_interleaved",
    "Conduit.MCArray.C52_list_false",
    "Conduit.MCArray.C52_slash_false",
    "Conduit.MCArray.C52_no_components_false",
    "Conduit.MCArray.C52_in_place_false"
   ],
   "note": "Both conversions modelled on node trees and memory (schema by Schema::fetch, set(schema), update): the values arrive, the source is untouched, the result is one new buffer with the stated positions and without overlap, for every object of numeric components. Missing: lists, names with '/', no components, and converting in place, for which the claim is false (witnesses)."
  },
  {
   "property": "C53",
   "status": "partial",
   "theorems": [
    "Conduit.MCArray.C53_exact",
    "Conduit.MCArray.C53_verify_partial",
    "Conduit.MCArray.C53_order_dependent"
   ],
   "note": "Exact characterisation; refuted for zero-length components."
  },
  {
   "property": "C54",
   "status": "proved",
   "theorems": [
    "Conduit.Log.C54_verdict_is_conjunction",
    "Conduit.Log.C54_failure_is_final"
   ],
   "note": ""
  },
  {
   "property": "C55",
   "status": "proved",
   "theorems": [
    "Conduit.C55_array_summary",
    "Conduit.C55_array_no_threshold",
    "Conduit.C55_child_summary"
   ],
   "note": "arrays, accessors and the children of objects and lists."
  },
  {
   "property": "C56",
   "status": "proved",
   "theorems": [
    "Conduit.C56_ids_fresh",
    "Conduit.C56_id_selects_pair",
    "Conduit.C56_default_pair"
   ],
   "note": "Registry and function selection; which id a node carries is not part of this model."
  },
  {
   "property": "C57",
   "status": "partial",
   "theorems": [
    "Conduit.C57_split_file_path",
    "Conduit.C57_rsplit_file_path_false",
    "Conduit.C57_rsplit_file_path_partial"
   ],
   "note": "split_file_path proved; rsplit_file_path refuted when a separator directly follows the drive letter, proved otherwise."
  },
  {
   "property": "C58",
   "status": "partial",
   "theorems": [
    "Conduit.C58_assign_partial",
    "Conduit.C58_set_self_loses_value",
    "Conduit.C58_set_from_own_view_undefined",
    "Conduit.C58_set_from_child_undefined",
    "Conduit.C58_set_from_parent_undefined"
   ],
   "note": "operator= keeps the value on self assignment; refuted for set(self), for a source viewing the destination's own buffer, and for a source inside the destination or around it"
  },
  {
   "property": "C59",
   "status": "partial",
   "theorems": [
    "Conduit.Log.C59_remove_valid",
    "Conduit.Log.C59_remove_invalid",
    "Conduit.Log.C59_remove_optional",
    "Conduit.Log.C59_remove_valid_keeps",
    "Conduit.Log.C59_failing_child_dropped"
   ],
   "note": "Proved for remove_valid/invalid/optional; refuted: a failing child below a passing parent is dropped (known FIXME in the code)."
  },
  {
   "property": "C60",
   "status": "proved",
   "theorems": [
    "Conduit.C60_set_schema",
    "Conduit.C60_set_schema_data",
    "Conduit.C60_negative_span_false"
   ],
   "note": "all schemas with forward layout and non negative span. Outside that: a leaf with zero elements and a stride above its element size spans a negative number of bytes, where set(schema, data) is undefined behaviour (C60_negative_span_false)."
  },
  {
   "property": "C61",
   "status": "partial",
   "theorems": [
    "Conduit.C61_base64_json_partial",
    "Conduit.C61_child_named_dtype_false"
   ],
   "note": "Proved for every readable node with names as in C20 and less than 2 GiB of data, any white space indentation; a child named dtype breaks it (witness)."
  },
  {
   "property": "C62",
   "status": "partial",
   "theorems": [
    "Conduit.C62_own_memory_partial",
    "Conduit.C62_null_zeros_partial",
    "Conduit.C62_named_leaf_aliases_false",
    "Conduit.C62_named_leaf_null_false"
   ],
   "note": "Proved for documents in which every leaf is an object with its properties; false for a leaf given by its type name only (witnesses: it aliases the caller's buffer; without a buffer it has no memory)."
  },
  {
   "property": "C63",
   "status": "partial",
   "theorems": [
    "Conduit.C63_detailed_json_partial",
    "Conduit.C63_scalar_nan_false",
    "Conduit.C63_backslash_false"
   ],
   "note": "Round trip proved for every tree and indentation under conditions on the values: floating point texts that the C library reads back, scalar numbers neither NaN nor infinite, strings without backslashes or unnamed control characters; names printable. Witness theorems show that a scalar NaN and a backslash break it."
  },
  {
   "property": "C64",
   "status": "partial",
   "theorems": [
    "Conduit.C64_read_json",
    "Conduit.C64_plain_json_partial",
    "Conduit.C64_integers_kept",
    "Conduit.C64_root_null_false",
    "Conduit.C64_big_array_false",
    "Conduit.C64_numeric_strings_false"
   ],
   "note": "Reading is proved for every document that names no member twice, has no integer from 2^63 in an integer array and no string ending in a backslash; printing and reading back under the value conditions of C63. Witnesses: root null, big integers in arrays, numeric strings."
  },
  {
   "property": "C65",
   "status": "partial",
   "theorems": [
    "Conduit.C65_verify",
    "Conduit.C65_empty_column_false",
    "Conduit.C65_zero_length_false"
   ],
   "note": "False for a column without components (its first component is read, C65_empty_column_false) and for components of length 0 before others (C65_zero_length_false). Otherwise the verdict is exact."
  },
  {
   "property": "C66",
   "status": "partial",
   "theorems": [
    "Conduit.Matset.C66_full_to_element",
    "Conduit.Matset.C66_full_to_material",
    "Conduit.Matset.C66_element_to_material",
    "Conduit.Matset.C66_element_to_full",
    "Conduit.Matset.C66_material_to_full_partial",
    "Conduit.Matset.C66_material_to_element_partial",
    "Conduit.Matset.C66_full_element_full",
    "Conduit.Matset.C66_gap_in_ids_is_ub",
    "Conduit.Matset.C66_empty_element_breaks_round_trip",
    "Conduit.Matset.C66_empty_last_element_lost",
    "Conduit.Matset.C66_material_dominant_unibuffer_lost",
    "Conduit.Matset.C66_unknown_material",
    "Conduit.Matset.C66_duplicate_lost",
    "Conduit.Matset.C66_no_offsets_lost"
   ],
   "note": "All six conversions are proved for well formed matsets. Partial because the full claim is false: from the sparse by material form every element must have a material (gaps in the element ids are written out of bounds, C66_gap_in_ids_is_ub, and a full matset with an empty element leads there, C66_empty_element_breaks_round_trip); a uni-buffer material dominant matset and one without offsets convert to nothing."
  },
  {
   "property": "C67",
   "status": "partial",
   "theorems": [
    "Conduit.Matset.C67_full_to_element",
    "Conduit.Matset.C67_full_to_material",
    "Conduit.Matset.C67_element_to_material",
    "Conduit.Matset.C67_element_to_full",
    "Conduit.Matset.C67_material_to_full_partial",
    "Conduit.Matset.C67_material_to_element_partial",
    "Conduit.Matset.C67_field_order"
   ],
   "note": "Proved for all six conversions under the hypotheses of C66; for the full form the field must list the materials in the matset's order (otherwise C67_field_order: error or misaligned arrays)."
  },
  {
   "property": "C68",
   "status": "partial",
   "theorems": [
    "Conduit.Matset.C68_full",
    "Conduit.Matset.C68_material",
    "Conduit.Matset.C68_element_partial",
    "Conduit.Matset.C68_material_unibuffer_partial",
    "Conduit.Matset.C68_empty_group_never_ends",
    "Conduit.Matset.C68_empty_zone_is_error",
    "Conduit.Matset.C68_scattered_group_misread",
    "Conduit.Matset.C68_narrow_ids_overflow",
    "Conduit.Matset.C68_negative_number_misread",
    "Conduit.Matset.C68_clean_values_lost",
    "Conduit.Matset.C68_unknown_material"
   ],
   "note": "Proved for all four layouts (the multi-buffer ones in full; the uni-buffer ones when each group is consecutive) under the condition that every element has a material above epsilon and the arrays fit the matset's integer type. False otherwise, with witnesses: a group without entries makes the loop run forever, an element without material is an error, scattered groups are misread, narrow integers overflow, negative material numbers are taken for mixed zones."
  },
  {
   "property": "C69",
   "status": "proved",
   "theorems": [
    "Conduit.Matset.C69_species",
    "Conduit.Matset.C69_of_mixture",
    "Conduit.Matset.C69_unpacked_not_beside",
    "Conduit.Matset.C69_wide_map_is_error",
    "Conduit.Matset.C69_order_is_error",
    "Conduit.Matset.C69_short_species_is_ub"
   ],
   "note": "C69_species for any matset in silo form whose lists end and use numbers of the material map; C69_of_mixture for the arrays matset::to_silo makes (C68). The hypotheses are those the function states (same materials in the same order, 32 bit map) plus a value per element for each species; witnesses show each is needed. int overflow is not modelled."
  },
  {
   "property": "C70",
   "status": "partial",
   "theorems": [
    "Conduit.Mesh.C70_uniform_explicit",
    "Conduit.Mesh.C70_rectilinear_explicit",
    "Conduit.Mesh.C70_commute",
    "Conduit.Mesh.C70_length",
    "Conduit.Mesh.C70_length_explicit",
    "Conduit.Mesh.C70_integer_false"
   ],
   "note": "Every grid point keeps its coordinate for uniform coordsets (exactly if the coordset has a float64 leaf, else rounded to float32) and for rectilinear coordsets with floating point arrays (exactly); the two ways from uniform to explicit agree; lengths agree. False for rectilinear coordsets with integer arrays: they are stored as float32 (C70_integer_false)."
  },
  {
   "property": "C71",
   "status": "partial",
   "theorems": [
    "Conduit.Mesh.C71_uniform",
    "Conduit.Mesh.C71_rectilinear",
    "Conduit.Mesh.C71_structured",
    "Conduit.Mesh.C71_corner_coordinates",
    "Conduit.Mesh.C71_to_structured",
    "Conduit.Mesh.C71_narrow_dims_false",
    "Conduit.Mesh.C71_strided_false",
    "Conduit.Mesh.C71_narrow_origin_false"
   ],
   "note": "Proved when the topology's integer type holds the point numbers (and element counts). False otherwise: int8 dims or an int8 origin make numbers wrap; offsets and strides of strided structured topologies are ignored; elements/origin is dropped by to_structured."
  },
  {
   "property": "C72",
   "status": "proved",
   "theorems": [
    "Conduit.Mesh.C72_widest",
    "Conduit.Mesh.C72_sign_false"
   ],
   "note": "For all trees. That the type holds the values of every leaf is not part of the claim and is false (C72_sign_false)."
  },
  {
   "property": "C73",
   "status": "partial",
   "theorems": [
    "Conduit.Mesh.C73_pairwise",
    "Conduit.Mesh.C73_maxshare",
    "Conduit.Mesh.C73_round",
    "Conduit.Mesh.C73_is_pairwise",
    "Conduit.Mesh.C73_is_maxshare",
    "Conduit.Mesh.AdjEx.C73_narrow_false"
   ],
   "note": "Neighbors and values are integer arrays whose numbers fit both index_t and the widest integer type of the adjset; group names distinct and without '/'. mesh::verify inside find_domain_id is given by its result. Beyond that type the values are cut (C73_narrow_false: a float array beside int8 leaves)."
  },
  {
   "property": "C74",
   "status": "partial",
   "theorems": [
    "Conduit.Mesh.C74_pairwise",
    "Conduit.Mesh.C74_maxshare",
    "Conduit.Mesh.AdjEx.C74_maxshare_order_false",
    "Conduit.Mesh.AdjEx.C74_detached_false",
    "Conduit.Mesh.AdjEx.C74_repeated_false"
   ],
   "note": "to_pairwise: proved for distinct neighbors in each group; fails if a neighbor is repeated (C74_repeated_false) or the destination has no ancestor with a domain id (C74_detached_false). to_maxshare: proved for pairwise groups ascending by a global id; without that order it fails even if all domains list their groups alike (C74_maxshare_order_false)."
  },
  {
   "property": "C75",
   "status": "partial",
   "theorems": [
    "Conduit.Mesh.C75_canonicalize",
    "Conduit.Mesh.C75_is_canonical",
    "Conduit.Mesh.C75_names_inj",
    "Conduit.Mesh.AdjEx.C75_swapped_false",
    "Conduit.Mesh.AdjEx.C75_same_neighbors_false"
   ],
   "note": "Holds if no two groups have the same neighbors and no group already has the name an earlier one is to get; otherwise the rename is an error (C75_swapped_false, C75_same_neighbors_false). is_canonical: decimal ids are read back without the int range of atoi."
  },
  {
   "property": "C76",
   "status": "partial",
   "theorems": [
    "Conduit.Kd.C76_sound",
    "Conduit.Kd.C76_stored_partial",
    "Conduit.Kd.C76_stored_in_box_partial",
    "Conduit.Kd.C76_unique_partial",
    "Conduit.Kd.C76_normal",
    "Conduit.Kd.C76_query_partial",
    "Conduit.Kd.C76_misses_near_false",
    "Conduit.Kd.C76_first_false",
    "Conduit.Kd.C76_flat_not_found",
    "Conduit.Kd.C76_flat_false"
   ],
   "note": "Proved: a lookup ends and reports only points within the tolerance; with exact arithmetic (or if the enlarged extents contain the point) a query at the coordinates of a stored point succeeds, for all sizes, dimensions and sort orders; without the tree the lowest id is reported and 'not found' is exact. The full claim is false: a near point across a cut is missed (C76_misses_near_false), the tree does not report the lowest id (C76_first_false), and a constant coordinate whose enlargement is absorbed makes every query fail (C76_flat_false)."
  },
  {
   "property": "C77",
   "status": "proved",
   "theorems": [
    "Conduit.Kd.C77_order",
    "Conduit.Hilbert.C77_hilbert",
    "Conduit.Hilbert.C77_quadrants",
    "Conduit.Hilbert.C77_convention_false",
    "Conduit.Hilbert.C77_cluster_false"
   ],
   "note": "Both orders proved to be permutations for any comparison results; the Hilbert result is the place of each element along the curve, and in two dimensions quarters are visited one after the other. Witnesses: the Hilbert result is the inverse of the list that reorder takes (C77_convention_false); a cluster in one quarter keeps its input order (C77_cluster_false)."
  },
  {
   "property": "C78",
   "status": "partial",
   "theorems": [
    "Conduit.Mesh.C78_explicit_partial",
    "Conduit.Mesh.C78_grid_partial",
    "Conduit.Mesh.ReorderEx.C78_offsets_false",
    "Conduit.Mesh.ReorderEx.C78_in_place_false",
    "Conduit.Mesh.ReorderEx.C78_units_false",
    "Conduit.Mesh.ReorderEx.C78_material_false",
    "Conduit.Mesh.ReorderEx.C78_mixed_false",
    "Conduit.Mesh.ReorderEx.C78_single_shape_false"
   ],
   "note": "Proved for every topology with sizes and offsets that is neither polyhedral nor mixed, every list of elements, explicit, uniform and rectilinear coordsets and destinations that are new nodes, if the new offsets fit the type of the old ones. The full claim is false: narrow offsets wrap (C78_offsets_false), a uniform coordset reordered in place loses its points (C78_in_place_false), units and material values are lost (C78_units_false, C78_material_false), mixed shapes read outside of a table (C78_mixed_false), single shapes without sizes fail (C78_single_shape_false)."
  },
  {
   "property": "C79",
   "status": "partial",
   "theorems": [
    "Conduit.Mesh.C79_widest_64",
    "Conduit.Mesh.C79_offsets_partial",
    "Conduit.Mesh.C79_offsets_64",
    "Conduit.Mesh.C79_offsets_kept",
    "Conduit.Mesh.C79_generate_partial",
    "Conduit.Mesh.C79_generate_kept",
    "Conduit.Mesh.C79_offsets_polyhedra",
    "Conduit.Mesh.C79_points_partial",
    "Conduit.Mesh.C79_points_64",
    "Conduit.Mesh.C79_points_given",
    "Conduit.Mesh.C79_points_polyhedra",
    "Conduit.Mesh.C79_offsets_false",
    "Conduit.Mesh.C79_points_false",
    "Conduit.Mesh.C79_one_destination_false"
   ],
   "note": "Full claim fails when the widest integer type in the tree does not hold the offsets (C79_offsets_false, C79_points_false) and for one-destination generate_offsets on polyhedra (C79_one_destination_false); proved whenever the type holds them (always with a 64 bit leaf), for given offsets and for polyhedra. Stream topologies are not modelled."
  },
  {
   "property": "C80",
   "status": "partial",
   "theorems": [
    "Conduit.Mesh.C80_add",
    "Conduit.Mesh.C80_build_partial",
    "Conduit.Mesh.C80_rectilinear_false",
    "Conduit.Mesh.C80_uniform_false"
   ],
   "note": "Proved for explicit coordsets; false for the others: a rectilinear coordset gives wrong coordinates (C80_rectilinear_false), a uniform one an error (C80_uniform_false)."
  },
  {
   "property": "C81",
   "status": "partial",
   "theorems": [
    "Conduit.Mesh.C81_found",
    "Conduit.Mesh.C81_missing_point",
    "Conduit.Mesh.C81_search_partial",
    "Conduit.Mesh.C81_collision_false"
   ],
   "note": "Elements that are there are always found and an element with a missing point never; the converse needs that no two different elements collide in the hash, which does happen (C81_collision_false)."
  },
  {
   "property": "C82",
   "status": "partial",
   "theorems": [
    "Conduit.Mesh.C82_sides_partial",
    "Conduit.Mesh.C82_fits",
    "Conduit.Mesh.C82_facets",
    "Conduit.Mesh.C82_oriented",
    "Conduit.Mesh.C82_oriented_false",
    "Conduit.Mesh.C82_collision_false",
    "Conduit.Mesh.C82_wedge_false",
    "Conduit.Mesh.C82_narrow_false"
   ],
   "note": "Proved without hash collisions and when the integer type of the topology holds the numbers (C82_fits: always for a 64-bit array); false in general (C82_collision_false, C82_narrow_false). The tables: C82_facets for all six shapes, C82_oriented for tets and hexes; false for wedges and pyramids (C82_oriented_false), whose neighbours may share no side (C82_wedge_false)."
  },
  {
   "property": "C83",
   "status": "partial",
   "theorems": [
    "Conduit.Mesh.C83_lines_partial",
    "Conduit.Mesh.C83_large_false",
    "Conduit.Mesh.C83_gap_false",
    "Conduit.Mesh.C83_order_false",
    "Conduit.Mesh.C83_collision_false"
   ],
   "note": "Proved for polygons of up to 32 points, without hash collisions, when the offsets are missing or those of polygons one after the other and the integer type holds the numbers; false otherwise (C83_large_false for every larger polygon, C83_gap_false, C83_order_false, C83_collision_false)."
  },
  {
   "property": "C84",
   "status": "partial",
   "theorems": [
    "Conduit.Mesh.C84_verdict_partial",
    "Conduit.Mesh.C84_report_partial",
    "Conduit.Mesh.C84_total_partial",
    "Conduit.Mesh.C84_fresh",
    "Conduit.Mesh.C84_parts_partial",
    "Conduit.Mesh.C84_parts_total_partial",
    "Conduit.Mesh.C84_named_valid_false",
    "Conduit.Mesh.C84_shape_map_false",
    "Conduit.Mesh.C84_faces_false",
    "Conduit.Mesh.C84_species_false",
    "Conduit.Mesh.C84_volume_fractions_false",
    "Conduit.Mesh.C84_windows_false",
    "Conduit.Mesh.C84_lenient_false",
    "Conduit.Mesh.C84_mlarray_false",
    "Conduit.Mesh.C84_named_info_false"
   ],
   "note": "Verdict, report and termination are proved for trees without a node named valid (an entry of that name raises an error) and, for termination, with the few nodes read unchecked of the expected type; the claims that fail are shown by witnesses."
  },
  {
   "property": "C85",
   "status": "partial",
   "theorems": [
    "Conduit.Mesh.C85_verdict_partial",
    "Conduit.Mesh.C85_fresh",
    "Conduit.Mesh.C85_domain_partial",
    "Conduit.Mesh.C85_domains_partial",
    "Conduit.Mesh.C85_accepted_partial",
    "Conduit.Mesh.C85_coordset_false",
    "Conduit.Mesh.C85_matset_false",
    "Conduit.Mesh.C85_field_false",
    "Conduit.Mesh.C85_systems_false",
    "Conduit.Mesh.C85_no_domains_false"
   ],
   "note": "Missing because false (witnessed by the _false theorems): meshes that verify accepts whose coordsets have axes of no one system, matsets without a material, fields without values for a material, same-named coordsets in different systems, nodes named valid. Of cycle and time of several domains nothing is said; names are not split at '/'."
  },
  {
   "property": "C86",
   "status": "proved",
   "theorems": [
    "Conduit.Files.C86_shared",
    "Conduit.Files.C86_used",
    "Conduit.Files.C86_unique",
    "Conduit.Files.C86_none"
   ],
   "note": "Counts as natural numbers."
  },
  {
   "property": "C87",
   "status": "proved",
   "theorems": [
    "Conduit.Files.C87_written",
    "Conduit.Files.C87_failed",
    "Conduit.Files.C87_possible",
    "Conduit.Files.C87_root",
    "Conduit.Files.C87_read"
   ],
   "note": "MPI max/min_all_reduce and Allgather as their definition; arrays as functions; errors of a handle's destructor not modelled."
  },
  {
   "property": "C88",
   "status": "partial",
   "theorems": [
    "Conduit.MeshIO.C88_write_partial",
    "Conduit.MeshIO.C88_save_partial",
    "Conduit.MeshIO.C88_series_partial",
    "Conduit.MeshIO.C88_names",
    "Conduit.MeshIO.C88_two_names_false",
    "Conduit.MeshIO.C88_fewer_false",
    "Conduit.MeshIO.C88_path_false",
    "Conduit.MeshIO.C88_field_named_false"
   ],
   "note": "Round trip for meshes that conform (IsDomain), can be indexed (Indexable, one coordinate system per coordset name), without a child named valid, with entry names that are single path steps and numeric cycle, time and domain_id; paths and protocols without : { }, not directly under /; root_only with several domains only without a directory in the path; write_mesh without truncate only where no file begins with the path. A single domain has no entry named topologies in a collection. Basic protocols (conduit_bin); the json loss of types is not modelled. The _false theorems show that these exclusions are needed."
  },
  {
   "property": "C89",
   "status": "partial",
   "theorems": [
    "Conduit.MeshIO.C89_expand",
    "Conduit.MeshIO.C89_old_root_partial",
    "Conduit.MeshIO.C89_expand_false",
    "Conduit.MeshIO.C89_percent_false"
   ],
   "note": "As for C88, without % in the path and the protocol and with fewer than 2^31 domains. C89_expand is full for %02d to %09d; %d is refuted."
  },
  {
   "property": "C90",
   "status": "proved",
   "theorems": [
    "Conduit.Part.C90_split_keeps",
    "Conduit.Part.C90_split_inside",
    "Conduit.Part.C90_split_field",
    "Conduit.Part.C90_split_value",
    "Conduit.Part.Case.C90_halves_false"
   ],
   "note": "Two ranges of one element each are split into both and none: the parts keep the elements but one is empty (C90_halves_false)."
  },
  {
   "property": "C91",
   "status": "proved",
   "theorems": [
    "Conduit.Part.C91_keeps",
    "Conduit.Part.C91_reaches",
    "Conduit.Part.C91_hangs",
    "Conduit.Part.Case.C91_grid_false",
    "Conduit.Part.Case.C91_empty_false"
   ],
   "note": "Single rank. With no elements selected and a target above 1 selections[-1] is read (C91_empty_false); a grid of one cell and target 2 loops forever (C91_grid_false)."
  },
  {
   "property": "C92",
   "status": "partial",
   "theorems": [
    "Conduit.Part.C92_all_partial",
    "Conduit.Part.C92_selections_partial",
    "Conduit.Part.C92_field_partial",
    "Conduit.Part.C92_respects",
    "Conduit.Part.C92_exact",
    "Conduit.Part.C92_groups",
    "Conduit.Part.C92_hangs",
    "Conduit.Part.C92_zero",
    "Conduit.Part.C92_target",
    "Conduit.Part.C92_place",
    "Conduit.Part.C92_ids",
    "Conduit.Part.Case.C92_ranges_false",
    "Conduit.Part.Case.C92_many_false",
    "Conduit.Part.Case.C92_last_false",
    "Conduit.Part.Case.C92_minus_false",
    "Conduit.Part.Case.C92_wide_false",
    "Conduit.Part.Case.C92_named_false"
   ],
   "note": "The plan: which elements go to which output domain. Missing: that extract and combine build meshes of those elements. Several ranges, too large targets, a last domain without elements, values of -1 or beyond 2^31 and targets below the number of values do not give what one would expect (the _false theorems)."
  },
  {
   "property": "C93",
   "status": "partial",
   "theorems": [
    "Conduit.Part.C93_extract_partial",
    "Conduit.Part.C93_corner_coordinates",
    "Conduit.Part.XCase.C93_line_false",
    "Conduit.Part.XCase.C93_no_offsets_false",
    "Conduit.Part.XCase.C93_material_field_false",
    "Conduit.Part.XCase.C93_no_fields_no_mapping",
    "Conduit.Part.XCase.C93_negative_false"
   ],
   "note": "Not covered: polyhedra, matsets. False for grids of one dimension, polygons without offsets, meshes with a field that has only matset_values, negative numbers; without the child fields no mapping is written."
  },
  {
   "property": "C94",
   "status": "partial",
   "theorems": [
    "Conduit.Part.C94_uniform_box_partial",
    "Conduit.Part.C94_uniform_exact",
    "Conduit.Part.C94_rectilinear_box_partial",
    "Conduit.Part.C94_structured_box_partial",
    "Conduit.Part.BoxCase.C94_no_origin_false",
    "Conduit.Part.BoxCase.C94_order_false",
    "Conduit.Part.BoxCase.C94_structured_origin_false"
   ],
   "note": "Uniform grids need origin and spacing, with children in the order of the axes (rectilinear: values); otherwise false. Coordinates of a uniform box are exact only if origin + d * spacing is. The origin of the elements of a structured grid is lost."
  },
  {
   "property": "C95",
   "status": "partial",
   "theorems": [
    "Conduit.Merge.C95_merge",
    "Conduit.Merge.C95_shared",
    "Conduit.Merge.C95_apart",
    "Conduit.Merge.Case.C95_gap_false",
    "Conduit.Merge.Case.C95_own_false",
    "Conduit.Merge.Case.C95_uniform_false",
    "Conduit.Merge.Case.C95_spherical_false",
    "Conduit.Merge.Case.C95_radial_false",
    "Conduit.Merge.Case.C95_xz_false",
    "Conduit.Merge.Case.C95_logical_false",
    "Conduit.Merge.Case.C95_same_false"
   ],
   "note": "Proved for explicit cartesian coordsets (float or integer arrays, mixed dimensions); uniform and rectilinear ones are modelled but not covered. Refuted: points within the tolerance of coordsets whose boxes do not overlap are not merged (C95_gap_false); repeated points of one coordset become one or not depending on the others (C95_own_false); shared points of uniform coordsets with fractional origins are not merged (C95_uniform_false); overlapping spherical coordsets get x, y, z under r, theta, phi (C95_spherical_false); a lone axis r is renamed z (C95_radial_false), axes x and z lose z (C95_xz_false), logical coordsets give nothing (C95_logical_false); without separation equal points can become different ones when a tree node was split in between (C95_same_false)."
  },
  {
   "property": "C96",
   "status": "partial",
   "theorems": [
    "Conduit.Comb.C96_fixed",
    "Conduit.Comb.C96_polygons",
    "Conduit.Comb.C96_shared",
    "Conduit.Comb.C96_single",
    "Conduit.Comb.Case.C96_order",
    "Conduit.Comb.Case.C96_type",
    "Conduit.Comb.Case.C96_offsets",
    "Conduit.Comb.Case.C96_second",
    "Conduit.Comb.Case.C96_points"
   ],
   "note": "Proved for two or more chunks with one unstructured topology on an explicit cartesian coordset, fields of one name of one type with the components in the same order, shapes with a fixed number of points or packed polygons with lines, triangles and quadrilaterals; for one chunk without conditions. Missing: polyhedra (build_polyhedral_output), combine_as_structured (a parameter of the model), chunks of other kinds, cylindrical and spherical coordsets, matsets and adjsets (not combined by the code). C96_order, C96_type, C96_offsets, C96_second and C96_points show that the claim is false without the conditions: components are matched by place and not by name, bytes of one type are taken for another, offsets of polygons are not read, a second topology with fields raises, topologies of points lose their elements."
  },
  {
   "property": "C97",
   "status": "partial",
   "theorems": [
    "Conduit.Back.C97_back",
    "Conduit.Back.C97_agree",
    "Conduit.Back.C97_round",
    "Conduit.Back.Case.C97_missing",
    "Conduit.Back.Case.C97_twice",
    "Conduit.Back.Case.C97_unknown",
    "Conduit.Back.Case.C97_order",
    "Conduit.Back.Case.C97_sizes",
    "Conduit.Back.Case.C97_unnumbered",
    "Conduit.Back.Case.C97_nothing",
    "Conduit.Back.Case.C97_disagree"
   ],
   "note": "Proved for partitions with each element of a domain that appears in exactly one place, points with global numbers in all domains if fields on points are asked for, at least one field name and none twice, fields alike in all new domains and, if the original domain has the field already, of the same shape and size there; most of these are shown to be needed (C97_missing, C97_twice, C97_unknown, C97_order, C97_sizes, C97_unnumbered, C97_nothing). Without MPI; how hash tables are ordered and how components are stored is not looked at; fields that are arrays of characters are left out."
  },
  {
   "property": "C98",
   "status": "proved",
   "theorems": [
    "Conduit.C98_gather",
    "Conduit.C98_all_gather",
    "Conduit.C98_subnode",
    "Conduit.C98_sum_overflows_false"
   ],
   "note": "Model/Gather. C98_subnode: also for the sub-node send_using_schema cannot send. C98_sum_overflows_false: from 2 GiB in all on, the sum of the int counts overflows."
  },
  {
   "property": "C99",
   "status": "proved",
   "theorems": [
    "Conduit.C99_broadcast",
    "Conduit.C99_same_numbers",
    "Conduit.C99_in_place",
    "Conduit.C99_longer_leaf_false",
    "Conduit.C99_byte_order_false",
    "Conduit.C99_subnode_false",
    "Conduit.C99_external_leaves_false"
   ],
   "note": "Model/Bcast. C99_in_place: a strided and an external leaf are filled where they are. The conditions are needed: C99_longer_leaf_false (sizes of MPI_Bcast differ), C99_byte_order_false (other declared byte order: other numbers), C99_subnode_false and C99_external_leaves_false (offsets of a larger tree or of single leaves are sent)."
  },
  {
   "property": "C100",
   "status": "proved",
   "theorems": [
    "Conduit.C100_send_recv",
    "Conduit.C100_broadcast",
    "Conduit.C100_subnode",
    "Conduit.C100_short_message_false",
    "Conduit.C100_byte_order_false"
   ],
   "note": "send, recv, isend (its message) and broadcast; irecv and wait are not modelled. If a node is compact and contiguous by addresses, it is assumed to lie in one block. Witnesses: a message shorter than a strided leaf sets its other elements to zero; nodes that declare other byte orders get the same bytes."
  },
  {
   "property": "C101",
   "status": "proved",
   "theorems": [
    "Conduit.C101_list_of",
    "Conduit.C101_list_of_external",
    "Conduit.C101_example",
    "Conduit.C101_list_of_external_twice_false"
   ],
   "note": "list_of for every node; list_of_external for nodes that are not lists with entries, where it is false (witness: the second call leaves two nodes with four schemas). The number of entries is not negative."
  },
  {
   "property": "C102",
   "status": "proved",
   "theorems": [
    "Conduit.C102_all_gather",
    "Conduit.C102_gather",
    "Conduit.C102_example",
    "Conduit.C102_gather_object_false",
    "Conduit.C102_gather_offset_false"
   ],
   "note": "The hypothesis of gather is needed: an object with one leaf makes gather pass a null pointer, and a leaf with an offset is gathered from the wrong bytes (witnesses). If a node is compact and contiguous by addresses, it is assumed to lie in one block. The sent node does not share memory with recv_node."
  },
  {
   "property": "C103",
   "status": "proved",
   "theorems": [
    "Conduit.C103_all_reduce",
    "Conduit.C103_reduce",
    "Conduit.C103_example",
    "Conduit.C103_offset_false",
    "Conduit.C103_byte_order_false"
   ],
   "note": "Model of reduce and all_reduce with any MPI operation; ranks with different types or counts are erroneous in MPI. The failing cases (leaf at an offset, declared byte order) are shown by C103_offset_false and C103_byte_order_false."
  },
  {
   "property": "C104",
   "status": "partial",
   "theorems": [
    "Conduit.C104_irecv_wait",
    "Conduit.C104_irecv_wait_all",
    "Conduit.irecvDests_ok",
    "Conduit.C104_two",
    "Conduit.C104_short_message",
    "Conduit.C104_written_between_false"
   ],
   "note": "Proved for nodes whose compact trees lie in one run (Transferable), fewer than 2^31 bytes and no writes by the program into the nodes between irecv and wait; C104_written_between_false shows the last is needed. MPI is trusted to write the message into the buffer it was given. isend is C106."
  },
  {
   "property": "C105",
   "status": "partial",
   "theorems": [
    "Conduit.C105_communicate",
    "Conduit.C105_new_nodes",
    "Conduit.swap_ok",
    "Conduit.C105_swap",
    "Conduit.C105_large_tags_false",
    "Conduit.C105_no_partner_false"
   ],
   "note": "Proved for nodes that can be sent (Sendable, as in C46), receiving nodes apart in memory, tags from 0 to MPI's limit and a send for each receive; false for tags above the limit (C105_large_tags_false). MPI's order of messages is trusted; logging is not modelled."
  },
  {
   "property": "C106",
   "status": "partial",
   "theorems": [
    "Conduit.C106_isend",
    "Conduit.C106_isend_irecv",
    "Conduit.C106_written_strided",
    "Conduit.C106_written_compact_false"
   ],
   "note": "Proved for nodes as in C100 (Transferable) and programs that leave the request's memory, and the elements of a compact node, alone until wait; C106_written_compact_false shows that the last is needed. MPI is trusted to send the bytes at the pointer it was given."
  },
  {
   "property": "C107",
   "status": "proved",
   "theorems": [
    "Conduit.C107_reset",
    "Conduit.C107_sequence",
    "Conduit.C107_compact_to",
    "Conduit.C107_set",
    "Conduit.C107_set_schema",
    "Conduit.C107_set_schema_data",
    "Conduit.C107_set_external",
    "Conduit.C107_set_external_schema",
    "Conduit.C107_set_external_node",
    "Conduit.C107_load",
    "Conduit.C107_list_of",
    "Conduit.C107_set_scalar",
    "Conduit.C107_set_array",
    "Conduit.C107_set_vector",
    "Conduit.C107_set_string",
    "Conduit.C107_update",
    "Conduit.C107_update_compatible",
    "Conduit.C107_history",
    "Conduit.C107_history_example",
    "Conduit.C107_example",
    "Conduit.C107_empty_schema_false"
   ],
   "note": "For nodes of which none of the empty type owns a buffer (Clean, which C107_history proves of every node made by the calls listed). Set to an empty schema is excluded: C107_empty_schema_false. The claim is about calls that succeed. In the histories arrays have lengths that are not negative and schemas sizes that are not. Memory-mapped nodes are not modelled."
  },
  {
   "property": "C108",
   "status": "partial",
   "theorems": [
    "Conduit.C108_recv",
    "Conduit.C108_irecv_wait",
    "Conduit.C108_isend_wait",
    "Conduit.C108_recv_using_schema",
    "Conduit.C108_broadcast_using_schema",
    "Conduit.C108_example",
    "Conduit.C108_irecv_example",
    "Conduit.C108_recv_empty_false"
   ],
   "note": "For nodes of which none of the empty type owns a buffer (Clean) and calls that succeed; between irecv or isend and wait the memory is left alone. wait_all is not covered here (C104 has its buffers). False for recv into an empty node: C108_recv_empty_false. MPI's own memory is not modelled."
  }
 ]
}
