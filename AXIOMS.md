# Axioms per theorem

From `#print axioms` on every theorem named in MANIFEST.json (888 theorems, namespace `Oct.Props`).
All three axioms are those of Lean's own library; there is none of ours.

## none (30)

C105_nothing, C105_plain, C105_then, C119_slot_partial, C120_plain, C120_then, C124_instance, C127_iter_new, C127_slot_len, C144_boxed_partial, C149_slot, C27_false_empty_to_vec, C28_false_overflow, C28_set_len, C47_idempotent, C47_nesting, C48_slice_hash_partial, C48_str_hash, C51_false_default, C59_causes, C59_complete, C64_name, C66_legal_partial, C79_from_raw_parts, C84_false_slot, C84_false_slot_full, C84_means, C84_slot_set_byte, C96_features_partial, C97_traits

## `propext` (98)

C06_length_not_the_reason, C100_false_capacity, C100_false_empty, C104_false_self, C104_false_writer, C105_lock, C110_enum, C110_map, C110_one, C110_set, C110_struct, C110_tuple, C112_needs_borrows, C117_false_size, C117_size_partial, C119_slot_false_options, C11_false_hash_set, C120_lazy, C121_false_alias, C121_false_usize, C122_false_back, C122_false_clone, C122_false_given, C124_decode, C124_encode, C124_unbounded, C124_unbounded_decode, C124_without_into, C125_false, C125_unlooped, C127_false_copy, C127_false_enlarge, C127_false_unchecked, C12_false_hash_set, C132_akin, C133_encodes, C136_false_order, C136_false_own, C136_false_reader, C137_torn, C138_false_step, C144_false_lost, C145_false_replaced, C146_crate, C149_all, C149_stops, C149_write, C152_plain, C154_plain, C156_plain, C18_declared_is_corrected_partial, C18_false_result, C18_false_sized_slice, C20_false_result, C20_false_sized_slice, C22_failed_write_clobbers, C25_false_index_len, C25_false_remaining, C25_false_wrong_item, C25_false_zero, C26_false_after_next, C37_cover, C48_slice_cmp, C48_str_cmp, C51_false_clone, C61_view, C62_view, C63_false, C64_false, C65_same, C66_false, C69_cells, C72_panic_false, C75_encode, C81_replaced, C84_slot_index_one, C85_slot_eq, C86_cow, C87_decode_partial, C87_encode, C88_decode_error, C88_decode_generic, C88_decode_root, C88_encode_generic, C88_encode_root, C88_false_list, C88_string_reached, C89_false_decode, C89_false_encode, C89_false_tuple, C89_wrappers, C91_recursive_encoding, C95_false_hash_set, C96_false_features, C96_features_exact, C97_one_impl, C97_traits_back, C98_unwraps

## `Quot.sound`, `propext` (189)

C01_output_is_log, C01_output_write, C02_input_is_queue, C02_input_read, C06_oversized_rejected, C09_false_hash_set, C09_false_sized_slice, C09_false_sized_slice_stream, C101_decodes, C101_false_calls, C102_false_allocations, C103_false_idle, C103_false_lacking, C105_false_endless, C105_result, C106_false_mixture, C106_moments_partial, C107_agrees, C107_by_hand, C108_agrees, C109_agrees, C110_conversions, C110_decoded, C110_enum_decoded, C110_items, C110_map_decoded, C110_set_decoded, C110_struct_decoded, C110_tuple_decoded, C111_contents_partial, C111_false_swapped, C111_reported, C111_slot_invariant, C114_agrees_nth, C114_borrowed, C114_nth_false, C115_cells_false, C115_collect_partial, C115_destroyed_partial, C118_computed_partial, C118_false, C118_parts_partial, C119_slot_false, C120_encoded_partial, C120_false_cell, C120_false_ring, C120_false_self, C120_false_two, C120_kept, C120_once, C120_value_partial, C121_false_renamed, C123_text, C124_params, C125_sharing, C126_equal_partial, C126_order, C127_slot_parts_needed, C127_unchecked_callers, C129_needs_octets, C131_agrees, C132_akin_map, C132_akin_set, C132_decode, C132_equals, C132_model, C132_ordered, C133_octets, C133_stream, C133_string, C133_work, C134_decoded, C134_decoded_set, C134_false_empty, C134_false_lost, C135_entries, C135_misread_false_char, C135_not_back, C135_reads_false_bool, C135_reads_false_duration, C135_reads_false_sized_slice, C136_no_deadlock_partial, C137_changes, C137_exclusive, C13_false_hash_set, C140_before, C140_false_length, C140_false_noticed, C141_lost_false, C141_once, C144_agree, C144_asks, C144_budget, C144_false_aborts, C144_same, C145_fixed, C146_lists, C149_room, C152_calls, C153_agrees, C154_calls, C155_touched, C155_where, C156_calls, C15_false_system_time, C16_false_duration, C16_false_infallible, C17_false_char, C19_false_empty_enum, C19_false_sized_slice, C19_false_sized_str, C19_max_bounds_decoding_ok_partial, C19_max_bounds_decoding_partial, C21_is_empty_is_full, C21_set_len_copy, C23_false_set_len, C23_false_stale, C27_false_from_array, C33_bool_decode, C33_bound_decode, C33_option_decode, C33_result_decode, C34_four_octets, C35_never_zero, C36_bad_discriminant, C36_discriminants, C36_rule, C43_unassigned, C44_lock, C47_causes_partial, C47_false_discriminant, C47_structure, C49_announced_length_c_string, C49_announced_length_seq, C50_array, C50_seq, C54_false_unbalanced, C58_encodings, C65_struct, C66_arguments, C68_nth_false, C68_nth_partial, C69_failed_false, C69_iterator_false, C69_slice_false, C70_failed_write_false, C70_stale_false, C72_poisoned_partial, C74_alone_partial, C74_false, C75_example, C75_failures, C75_max_size, C75_middle_misread, C75_never_misread, C75_reads, C76_failures, C76_nested_false, C76_new_reads_old_false, C76_old_reads_new_partial, C77_copy, C77_pointer, C77_slice, C78_remaining, C80_array, C80_set_len, C80_sized_slice, C80_vec, C81_decodes, C82_false, C82_items_lost, C83_false, C83_plain, C85_output_eq, C85_output_eq_slice, C87_false_enum, C87_false_item, C88_encode_error_iff, C89_decode_enum, C89_decode_struct, C89_encode_enum, C89_encode_struct, C89_map, C89_result, C89_tuple, C91_false_hash_set, C93_false_loop, C96_places, C99_false_from_u64

## `Classical.choice`, `Quot.sound`, `propext` (571)

C03_encode_exact, C03_numbers, C04_encode_ok_iff_fits, C04_encode_too_small, C05_encodable_never_err, C05_error_iff_unencodable, C07_first_bad_item_array, C07_first_bad_item_seq, C08_decode, C08_isize, C08_usize, C09_exactly, C09_round_trip_exact_partial, C09_round_trip_partial, C09_whatever, C100_into_string_partial, C100_into_vec_partial, C101_calls, C101_calls_partial, C102_allocations, C102_allocations_partial, C103_reserved, C103_reserved_partial, C104_exactly, C104_false_cycle, C104_false_stuck, C104_no_deadlock_partial, C105_ends_partial, C105_exactly, C105_finishes_partial, C105_fits, C105_over_partial, C106_exclusive, C106_steady, C107_encode, C108_prefix_free_partial, C108_round_trip_partial, C109_bound_partial, C109_false_result, C109_false_sized_slice, C10_exactly, C10_streaming_partial, C112_safe, C112_safe_from, C113_inputs, C113_outputs, C113_read, C113_slices, C114_agrees, C114_once_partial, C114_quiet_partial, C115_clone_false, C116_attained_partial, C116_exactly, C116_false_discriminant, C116_false_empty, C116_false_result, C116_false_slice, C116_false_str, C116_longest_partial, C117_octets_partial, C117_portable_partial, C117_time_false, C119_fill, C119_list, C119_octet, C119_slice, C119_str, C119_width, C11_false_adjacent, C11_false_empty, C11_injective_partial, C11_trailing_partial, C120_defined, C120_ends_partial, C120_fair_partial, C120_no_deadlock_partial, C121_decode_alias, C121_decode_struct_partial, C121_encode_alias, C121_encode_struct_partial, C121_enum_partial, C121_false_names, C121_false_other, C121_false_taken, C121_size_alias, C121_size_struct_partial, C122_agrees, C122_false_again, C122_false_undefined, C122_histories_partial, C122_no_nth_partial, C123_false_box, C123_false_copy, C123_false_nth, C123_frame, C123_histories_partial, C123_lists_partial, C123_refs, C123_total, C124_decode_needed, C124_encode_needed, C124_sized, C125_bounded, C125_exactly, C125_forever, C125_has_encoding, C125_never, C125_overflows, C125_partial, C125_succeeds, C125_tree, C126_comparable, C126_decoded_partial, C126_equivalence, C126_false_empty, C126_false_exhausted, C126_false_nan, C126_false_order, C126_false_time, C126_false_zero, C126_floats, C126_iff_partial, C126_length, C126_same_octets_partial, C127_false_own, C127_from_raw_parts, C127_from_raw_parts_needed, C127_history_partial, C127_into_raw_parts, C127_set_len_needed, C127_set_len_shorter, C127_slot_parts, C127_text_parts, C127_unchecked_partial, C128_decodable, C128_one_of_four, C128_reachable, C128_short, C128_stops, C129_backward, C129_char_indices, C129_chars, C129_collect, C129_empty_full, C129_forward, C129_needs_utf8, C129_offset, C129_order, C129_positions, C129_size_hint, C12_false_any, C12_prefix_free_partial, C130_runs_out, C131_anywhere, C131_exactly, C131_false, C131_partial, C131_text, C132_encode, C132_encodings_differ, C132_entries, C133_calls_partial, C133_emits, C133_false_calls, C133_writes, C134_read, C135_encode, C135_never_misread_partial, C135_octets, C135_reads_partial, C135_received_alike, C135_received_partial, C135_refused, C136_ends_partial, C137_outer, C137_through, C138_collect_exactly, C138_false_collect, C138_false_skip, C138_loops, C138_prudent_partial, C138_rev, C138_rev_std, C138_std, C139_between, C139_false_text, C139_finite, C139_parts, C139_slice, C139_text_partial, C13_truncated_partial, C140_array_partial, C140_exactly, C140_fixed, C140_noticed_partial, C140_seq_partial, C140_struct_partial, C141_destroyed_partial, C141_paired, C142_keeps, C142_pieces, C142_prompt, C142_sent, C142_state, C143_alone, C143_drained, C143_fewest, C143_packed, C144_enough, C144_inline, C145_decoded, C145_exactly, C145_false_found, C145_peek, C145_poke, C145_writes, C146_behind, C146_false, C146_leaves, C146_same, C146_sorts_partial, C147_apart, C147_decode, C147_decode_text, C147_decode_typed, C147_encode, C147_encode_text, C147_false, C147_others, C147_others_text, C147_reports, C147_sources, C148_contents_exactly, C148_false, C148_past_partial, C148_replayed, C148_secret_partial, C148_served_partial, C148_stranger, C148_written, C149_contents, C149_errors, C149_false, C14_locality, C150_ended, C150_false, C150_looked, C150_looked_get, C150_once, C150_stacked_exactly, C150_stacked_partial, C150_tree, C150_written, C151_ended, C151_kept, C151_len, C151_stacked, C151_touched, C151_tree, C151_written, C152_compiles, C152_conflict, C152_forbidden, C152_slot, C152_slot_compiles, C152_stacked, C152_tree, C153_ended, C153_stacked, C153_touched, C153_tree, C153_written, C154_compiles, C154_same, C155_agrees, C155_ended, C155_input, C155_kept, C155_stacked, C155_tree, C155_written, C156_compiles, C156_ended, C156_same, C157_iter_exactly, C157_iter_kept, C157_not_stacked, C157_slice_each, C157_slice_exactly, C157_slice_kept, C157_slot_exactly, C157_slot_kept, C157_slot_ptr, C157_stream_exactly, C157_stream_kept, C157_stream_ptr, C157_stream_read, C158_differ, C158_iter, C158_slice, C158_slice_each, C158_slot, C158_slot_ptr, C158_stream, C158_stream_ptr, C158_stream_read, C158_stricter, C159_iter, C159_slice, C159_slot, C15_decoded_encodable_partial, C15_reencode_exactly, C15_reencode_partial, C160_iter, C160_slice, C160_slot, C161_differ, C161_iter, C161_slice, C161_slot, C162_neither, C162_stacked_only, C162_tree_only, C163_differ, C163_slot, C164_once, C164_slot, C165_each, C165_others, C166_differ, C166_each, C16_all_panics_partial, C16_exactly, C16_no_other_panic_partial, C17_exactly, C17_no_ub_partial, C17_only_invalid_char_partial, C18_corrected_bound_partial, C18_exactly, C18_max_bounds_encoding_partial, C19_exactly, C19_furthest, C19_most_taken, C19_ok_exactly, C20_new_slot_holds_any_value_partial, C20_writes_exactly, C21_slot_invariant, C22_failed_write, C22_write_exact, C23_exactly, C23_read_contents_partial, C24_each_once, C24_fused, C24_iterator_refines, C25_false_agrees_iff_exhausted, C25_nth_partial, C26_size_hint_no_next_partial, C26_size_hint_partial, C27_clone_each_ref, C27_decoded, C27_default, C27_from_array_partial, C27_from_iter, C27_into_vec_partial, C27_new, C27_observers, C27_set_index, C28_copy_from_slice_partial, C29_always_valid, C29_decode, C29_decode_values, C29_from_char, C29_from_text, C29_from_utf8, C30_collect, C31_accepts_iff, C31_string_decode, C31_string_short, C32_c_string_decode, C33_bool_encode, C33_bound_encode, C33_option_encode, C33_result_encode, C34_accepts_iff, C34_char_partial, C34_false_surrogate, C35_non_zero, C36_bad_field, C36_encode, C37_assigned, C37_cases, C37_unassigned, C38_concat, C38_regroup, C38_single, C38_split, C38_tuple, C39_array, C39_c_strings, C39_ranges, C39_sequences, C39_texts, C39_wrappers, C40_false_always, C40_false_always_set, C40_false_empty, C40_false_witness, C40_map_partial, C40_set_partial, C41_date, C41_decode, C41_documented, C41_encode_partial, C41_false_documented, C41_false_nearest, C42_decode_partial, C42_false_overflow, C42_round_trip, C43_false_localhost, C43_false_order, C43_ip_partial, C43_wrapped, C43_wrapped_decode, C44_ref_cell, C45_false_sized_slice, C45_owned_partial, C45_sized_slice_exactly, C45_sized_slice_partial, C45_sized_str, C46_false_sized_slice, C46_sized_slice_exactly, C46_sized_slice_partial, C46_sized_str, C48_false_slice_hash, C48_slice_eq, C48_slice_eq_lawful, C48_str_eq, C48_str_hash_prefix_free, C49_announced_length_string, C49_fixed_size, C51_exactly, C51_into_raw_parts_partial, C52_accepted, C53_impossible, C53_neither, C53_possible, C53_rejected, C54_canonical_partial, C54_exactly, C54_false_loose, C54_injective_partial, C55_balanced_exactly, C55_balanced_partial, C55_exactly, C55_false, C56_reach, C57_elements, C57_tight, C58_exclusive, C58_unambiguous, C60_deterministic, C60_refused, C61_decode, C61_encode, C62_decode, C62_encode, C63_exact, C63_literal, C63_sound, C63_taken_partial, C64_exact, C64_sound, C64_taken_partial, C65_enum, C65_exact, C67_enum_exactly, C67_enum_partial, C67_struct_exactly, C67_struct_partial, C68_array_false, C68_once_partial, C68_vector_partial, C69_accounted_partial, C69_all_dropped_partial, C69_decoded_false, C69_read_partial, C70_answered_partial, C70_datagram_partial, C70_faithful_partial, C70_responses, C71_array, C71_fields, C71_snapshot, C72_in_order_partial, C73_forward, C73_had, C76_encode, C77_copy_undefined, C77_encode, C77_never_undefined, C77_views, C77_write, C78_char_false, C78_decode, C78_never_undefined_partial, C78_read, C78_read_into, C79_history, C79_no_leak, C79_possible, C79_undefined_from, C79_undefined_only_char, C80_c_string, C80_string, C80_undefined_only_char, C80_write_cell, C81_balance, C81_no_double_free, C82_anywhere, C82_error_anywhere, C82_error_exactly, C82_error_freed, C82_exactly, C82_freed, C82_no_leak_partial, C82_unbounded_false, C83_exactly, C83_owned, C83_owned_partial, C83_owning, C84_slice_assign, C84_slice_index, C84_slot_assign, C84_slot_index, C84_slot_read_back_partial, C84_str_assign, C84_str_assign_when, C84_str_index, C86_decode, C86_encode, C86_never_decode, C86_never_encode, C88_string, C90_code_point, C90_decode_messages, C90_decode_reports, C90_encode_messages, C90_encode_reports, C90_ends_with_cause, C90_hextet, C90_input, C90_octet, C90_output, C90_string_messages, C91_recursive_round_trip_partial, C92_recursive_outcome, C93_exactly, C93_never, C93_recursive_ends_partial, C94_exactly, C94_exceeded, C94_false_chain, C94_hierarchical, C94_recursive_depth_partial, C95_delimited_partial, C95_recursive_prefix_free_partial, C98_benchmarks_decode, C98_benchmarks_encode, C99_from_u64_exact, C99_from_u64_partial
