{
 "claims": [
  {
   "property": "C01",
   "status": "proved",
   "theorems": [
    "Oct.Props.C01_output_is_log",
    "Oct.Props.C01_output_write"
   ],
   "note": "Refinement of the stream to a log, for all histories of writes."
  },
  {
   "property": "C02",
   "status": "proved",
   "theorems": [
    "Oct.Props.C02_input_is_queue",
    "Oct.Props.C02_input_read"
   ],
   "note": "Refinement of the stream to a queue, for all histories of reads."
  },
  {
   "property": "C03",
   "status": "proved",
   "theorems": [
    "Oct.Props.C03_encode_exact",
    "Oct.Props.C03_numbers"
   ],
   "note": "The format (Spec.wire) is that of README.md, save for IP addresses: the documentation says big-endian, the code and Spec.wire are little-endian (see C43), and hash maps and sets, which are written without a length (see C40)."
  },
  {
   "property": "C04",
   "status": "proved",
   "theorems": [
    "Oct.Props.C04_encode_too_small",
    "Oct.Props.C04_encode_ok_iff_fits"
   ],
   "note": ""
  },
  {
   "property": "C05",
   "status": "proved",
   "theorems": [
    "Oct.Props.C05_error_iff_unencodable",
    "Oct.Props.C05_encodable_never_err"
   ],
   "note": "Holds with the documented exception of the SystemTime of exactly -2^63 seconds."
  },
  {
   "property": "C06",
   "status": "proved",
   "theorems": [
    "Oct.Props.C06_oversized_rejected",
    "Oct.Props.C06_length_not_the_reason"
   ],
   "note": ""
  },
  {
   "property": "C07",
   "status": "proved",
   "theorems": [
    "Oct.Props.C07_first_bad_item_seq",
    "Oct.Props.C07_first_bad_item_array"
   ],
   "note": "LinkedList reports a plain (index, error) pair where the others report ItemEncodeError."
  },
  {
   "property": "C08",
   "status": "proved",
   "theorems": [
    "Oct.Props.C08_usize",
    "Oct.Props.C08_isize",
    "Oct.Props.C08_decode"
   ],
   "note": ""
  },
  {
   "property": "C09",
   "status": "partial",
   "theorems": [
    "Oct.Props.C09_round_trip_partial",
    "Oct.Props.C09_round_trip_exact_partial",
    "Oct.Props.C09_false_sized_slice",
    "Oct.Props.C09_false_sized_slice_stream",
    "Oct.Props.C09_false_hash_set",
    "Oct.Props.C09_exactly",
    "Oct.Props.C09_whatever"
   ],
   "note": "False for hash maps, hash sets and sized slices that are not full (of items with octets); proved for all other values, and C09_exactly shows that these are exactly the values that come back."
  },
  {
   "property": "C10",
   "status": "partial",
   "theorems": [
    "Oct.Props.C10_streaming_partial",
    "Oct.Props.C10_exactly"
   ],
   "note": "As C09; C10_exactly is an equivalence."
  },
  {
   "property": "C11",
   "status": "partial",
   "theorems": [
    "Oct.Props.C11_injective_partial",
    "Oct.Props.C11_false_hash_set",
    "Oct.Props.C11_trailing_partial",
    "Oct.Props.C11_false_adjacent",
    "Oct.Props.C11_false_empty"
   ],
   "note": "Proved for all values without hash maps and sets in them, and for those that have them only at their end. False of two hash sets in a row, whatever the keys (witness for each type of keys), and of hash sets whose keys have no octets."
  },
  {
   "property": "C12",
   "status": "partial",
   "theorems": [
    "Oct.Props.C12_prefix_free_partial",
    "Oct.Props.C12_false_hash_set",
    "Oct.Props.C12_false_any"
   ],
   "note": "Proved for all values without hash maps and sets in them; false of hash sets of every type of keys (witness for each)."
  },
  {
   "property": "C13",
   "status": "partial",
   "theorems": [
    "Oct.Props.C13_truncated_partial",
    "Oct.Props.C13_false_hash_set"
   ],
   "note": "As C09; counterexample with hash sets."
  },
  {
   "property": "C14",
   "status": "proved",
   "theorems": [
    "Oct.Props.C14_locality"
   ],
   "note": ""
  },
  {
   "property": "C15",
   "status": "partial",
   "theorems": [
    "Oct.Props.C15_decoded_encodable_partial",
    "Oct.Props.C15_reencode_partial",
    "Oct.Props.C15_false_system_time",
    "Oct.Props.C15_reencode_exactly"
   ],
   "note": "False for the SystemTime of -2^63 seconds with overflow checks; proved otherwise; C15_reencode_exactly tells exactly which decoded values come back again."
  },
  {
   "property": "C16",
   "status": "partial",
   "theorems": [
    "Oct.Props.C16_no_other_panic_partial",
    "Oct.Props.C16_all_panics_partial",
    "Oct.Props.C16_false_duration",
    "Oct.Props.C16_false_infallible",
    "Oct.Props.C16_exactly"
   ],
   "note": "False for Duration (overflow) and Infallible; proved for all types without them, and the exact set of panics for all types. C16_exactly says of which types it is true."
  },
  {
   "property": "C17",
   "status": "partial",
   "theorems": [
    "Oct.Props.C17_no_ub_partial",
    "Oct.Props.C17_only_invalid_char_partial",
    "Oct.Props.C17_false_char",
    "Oct.Props.C17_exactly"
   ],
   "note": "False for char (surrogates DE00..DFFF are accepted); proved for all types without char, and invalid char is shown to be the only cause. C17_exactly says of which types it is true."
  },
  {
   "property": "C18",
   "status": "partial",
   "theorems": [
    "Oct.Props.C18_exactly",
    "Oct.Props.C18_max_bounds_encoding_partial",
    "Oct.Props.C18_corrected_bound_partial",
    "Oct.Props.C18_declared_is_corrected_partial",
    "Oct.Props.C18_false_sized_slice",
    "Oct.Props.C18_false_result"
   ],
   "note": "False for sized slices (the length prefix is not counted) and for Result (uses size_of instead of MAX_ENCODED_SIZE); proved for all other types, and a corrected bound proved for all types. C18_exactly: it is true of a type just if its longest encoding, computed from the format, is no longer than MAX_ENCODED_SIZE."
  },
  {
   "property": "C19",
   "status": "partial",
   "theorems": [
    "Oct.Props.C19_max_bounds_decoding_ok_partial",
    "Oct.Props.C19_max_bounds_decoding_partial",
    "Oct.Props.C19_false_sized_str",
    "Oct.Props.C19_false_empty_enum",
    "Oct.Props.C19_false_sized_slice",
    "Oct.Props.C19_most_taken",
    "Oct.Props.C19_furthest",
    "Oct.Props.C19_ok_exactly",
    "Oct.Props.C19_exactly"
   ],
   "note": "False for sized slices, the error path of sized strings, and empty enumerations; proved otherwise. C19_exactly and C19_ok_exactly say of which types it is true: the octets taken at most are computed from the format, and some input takes as many."
  },
  {
   "property": "C20",
   "status": "partial",
   "theorems": [
    "Oct.Props.C20_writes_exactly",
    "Oct.Props.C20_new_slot_holds_any_value_partial",
    "Oct.Props.C20_false_sized_slice",
    "Oct.Props.C20_false_result"
   ],
   "note": "Follows C18 and C09; false for sized slices and Result. C20_writes_exactly: writing succeeds for all encodable values just if the longest encoding (C116) is no longer than MAX_ENCODED_SIZE."
  },
  {
   "property": "C21",
   "status": "proved",
   "theorems": [
    "Oct.Props.C21_slot_invariant",
    "Oct.Props.C21_set_len_copy",
    "Oct.Props.C21_is_empty_is_full"
   ],
   "note": "Invariant over all histories of safe operations, including those that fail."
  },
  {
   "property": "C22",
   "status": "proved",
   "theorems": [
    "Oct.Props.C22_write_exact",
    "Oct.Props.C22_failed_write",
    "Oct.Props.C22_failed_write_clobbers"
   ],
   "note": "The contents may be overwritten by a failed write (proved as C22_failed_write_clobbers); only the length is promised."
  },
  {
   "property": "C23",
   "status": "partial",
   "theorems": [
    "Oct.Props.C23_exactly",
    "Oct.Props.C23_read_contents_partial",
    "Oct.Props.C23_false_stale",
    "Oct.Props.C23_false_set_len"
   ],
   "note": "False: read uses the whole buffer (two witnesses). Proved when decoding the contents alone does not run short, and C23_exactly: for all other contents there is a history of the slot with which the stale octets decide."
  },
  {
   "property": "C24",
   "status": "proved",
   "theorems": [
    "Oct.Props.C24_iterator_refines",
    "Oct.Props.C24_each_once",
    "Oct.Props.C24_fused"
   ],
   "note": "Refinement of the iterator over its partly initialised buffer to a deque, for all interleavings (also with clones and mutation through as_mut_slice)."
  },
  {
   "property": "C25",
   "status": "partial",
   "theorems": [
    "Oct.Props.C25_nth_partial",
    "Oct.Props.C25_false_agrees_iff_exhausted",
    "Oct.Props.C25_false_zero",
    "Oct.Props.C25_false_wrong_item",
    "Oct.Props.C25_false_remaining",
    "Oct.Props.C25_false_index_len"
   ],
   "note": "False: nth(k) returns another item or leaves others behind (witnesses); proved exactly when the two agree. The model is of items that are moved when read; for plain data see C122."
  },
  {
   "property": "C26",
   "status": "partial",
   "theorems": [
    "Oct.Props.C26_size_hint_partial",
    "Oct.Props.C26_size_hint_no_next_partial",
    "Oct.Props.C26_false_after_next"
   ],
   "note": "False once next has been called (witness); proved in the states reachable without next, with the exact value returned otherwise."
  },
  {
   "property": "C27",
   "status": "partial",
   "theorems": [
    "Oct.Props.C27_new",
    "Oct.Props.C27_from_iter",
    "Oct.Props.C27_default",
    "Oct.Props.C27_from_array_partial",
    "Oct.Props.C27_false_from_array",
    "Oct.Props.C27_observers",
    "Oct.Props.C27_set_index",
    "Oct.Props.C27_clone_each_ref",
    "Oct.Props.C27_into_vec_partial",
    "Oct.Props.C27_false_empty_to_vec",
    "Oct.Props.C27_decoded"
   ],
   "note": "False for From<[T; N]>, which drops the moved items again, and for conversion of an empty slice to a vector (zero-size allocation); the rest proved."
  },
  {
   "property": "C28",
   "status": "partial",
   "theorems": [
    "Oct.Props.C28_copy_from_slice_partial",
    "Oct.Props.C28_false_overflow",
    "Oct.Props.C28_set_len"
   ],
   "note": "False: no bounds check, so longer data overflow the buffer (witness); proved when the data fit."
  },
  {
   "property": "C29",
   "status": "proved",
   "theorems": [
    "Oct.Props.C29_from_text",
    "Oct.Props.C29_from_utf8",
    "Oct.Props.C29_from_char",
    "Oct.Props.C29_decode",
    "Oct.Props.C29_always_valid",
    "Oct.Props.C29_decode_values"
   ],
   "note": "Over every safe constructor and operation, as an inductive closure."
  },
  {
   "property": "C30",
   "status": "proved",
   "theorems": [
    "Oct.Props.C30_collect"
   ],
   "note": ""
  },
  {
   "property": "C31",
   "status": "proved",
   "theorems": [
    "Oct.Props.C31_string_decode",
    "Oct.Props.C31_accepts_iff",
    "Oct.Props.C31_string_short"
   ],
   "note": "Validity is defined by the UTF-8 encoding of chars, independently of the model of the validator."
  },
  {
   "property": "C32",
   "status": "proved",
   "theorems": [
    "Oct.Props.C32_c_string_decode"
   ],
   "note": ""
  },
  {
   "property": "C33",
   "status": "proved",
   "theorems": [
    "Oct.Props.C33_bool_encode",
    "Oct.Props.C33_bool_decode",
    "Oct.Props.C33_option_encode",
    "Oct.Props.C33_option_decode",
    "Oct.Props.C33_result_encode",
    "Oct.Props.C33_result_decode",
    "Oct.Props.C33_bound_encode",
    "Oct.Props.C33_bound_decode"
   ],
   "note": ""
  },
  {
   "property": "C34",
   "status": "partial",
   "theorems": [
    "Oct.Props.C34_four_octets",
    "Oct.Props.C34_char_partial",
    "Oct.Props.C34_accepts_iff",
    "Oct.Props.C34_false_surrogate"
   ],
   "note": "False: the check for surrogates covers only D800..DDFF, so DE00..DFFF are accepted (undefined behaviour, witness for every such number); the exact set of accepted numbers is proved."
  },
  {
   "property": "C35",
   "status": "proved",
   "theorems": [
    "Oct.Props.C35_non_zero",
    "Oct.Props.C35_never_zero"
   ],
   "note": ""
  },
  {
   "property": "C36",
   "status": "proved",
   "theorems": [
    "Oct.Props.C36_discriminants",
    "Oct.Props.C36_rule",
    "Oct.Props.C36_encode",
    "Oct.Props.C36_bad_discriminant",
    "Oct.Props.C36_bad_field"
   ],
   "note": ""
  },
  {
   "property": "C37",
   "status": "proved",
   "theorems": [
    "Oct.Props.C37_assigned",
    "Oct.Props.C37_unassigned",
    "Oct.Props.C37_cases",
    "Oct.Props.C37_cover"
   ],
   "note": ""
  },
  {
   "property": "C38",
   "status": "proved",
   "theorems": [
    "Oct.Props.C38_concat",
    "Oct.Props.C38_split",
    "Oct.Props.C38_single",
    "Oct.Props.C38_tuple",
    "Oct.Props.C38_regroup"
   ],
   "note": ""
  },
  {
   "property": "C39",
   "status": "proved",
   "theorems": [
    "Oct.Props.C39_sequences",
    "Oct.Props.C39_texts",
    "Oct.Props.C39_c_strings",
    "Oct.Props.C39_wrappers",
    "Oct.Props.C39_array",
    "Oct.Props.C39_ranges"
   ],
   "note": ""
  },
  {
   "property": "C40",
   "status": "partial",
   "theorems": [
    "Oct.Props.C40_false_always",
    "Oct.Props.C40_false_always_set",
    "Oct.Props.C40_map_partial",
    "Oct.Props.C40_set_partial",
    "Oct.Props.C40_false_empty",
    "Oct.Props.C40_false_witness"
   ],
   "note": "False for every map and set type: the encoder does not write the length the decoder expects (witnesses for the empty map and a silently wrong map). Proved: what the encoder writes, and that the decoder inverts the encoding with the length in front."
  },
  {
   "property": "C41",
   "status": "partial",
   "theorems": [
    "Oct.Props.C41_encode_partial",
    "Oct.Props.C41_decode",
    "Oct.Props.C41_false_nearest",
    "Oct.Props.C41_date",
    "Oct.Props.C41_documented",
    "Oct.Props.C41_false_documented"
   ],
   "note": "False: the fraction is truncated toward the epoch, so 1.9 s encodes as 1 (witness on every platform). Proved: truncation, exact decoding, and that dates are encoded as their timestamps by the Gregorian calendar; of the documented examples, that of 1989 is wrong (C41_false_documented)."
  },
  {
   "property": "C42",
   "status": "partial",
   "theorems": [
    "Oct.Props.C42_round_trip",
    "Oct.Props.C42_decode_partial",
    "Oct.Props.C42_false_overflow"
   ],
   "note": "False: an overflowing duration panics instead of reporting an error (proved for all such inputs). The rest proved."
  },
  {
   "property": "C43",
   "status": "partial",
   "theorems": [
    "Oct.Props.C43_ip_partial",
    "Oct.Props.C43_false_order",
    "Oct.Props.C43_false_localhost",
    "Oct.Props.C43_wrapped",
    "Oct.Props.C43_wrapped_decode",
    "Oct.Props.C43_unassigned"
   ],
   "note": "False: the octets are written in reverse of network order (proved for every address). Proved: the little-endian format and the round trip."
  },
  {
   "property": "C44",
   "status": "proved",
   "theorems": [
    "Oct.Props.C44_lock",
    "Oct.Props.C44_ref_cell"
   ],
   "note": ""
  },
  {
   "property": "C45",
   "status": "partial",
   "theorems": [
    "Oct.Props.C45_sized_slice_exactly",
    "Oct.Props.C45_owned_partial",
    "Oct.Props.C45_sized_str",
    "Oct.Props.C45_false_sized_slice",
    "Oct.Props.C45_sized_slice_partial"
   ],
   "note": "False for sized slices of every capacity that are not full; proved for all other types implementing DecodeBorrowed and for full sized slices; C45_sized_slice_exactly is an equivalence."
  },
  {
   "property": "C46",
   "status": "partial",
   "theorems": [
    "Oct.Props.C46_sized_slice_exactly",
    "Oct.Props.C46_sized_str",
    "Oct.Props.C46_sized_slice_partial",
    "Oct.Props.C46_false_sized_slice"
   ],
   "note": "False for sized slices that are not full; proved for sized strings and for full sized slices; C46_sized_slice_exactly is an equivalence."
  },
  {
   "property": "C47",
   "status": "partial",
   "theorems": [
    "Oct.Props.C47_nesting",
    "Oct.Props.C47_causes_partial",
    "Oct.Props.C47_idempotent",
    "Oct.Props.C47_false_discriminant",
    "Oct.Props.C47_structure"
   ],
   "note": "False for negative discriminants, which are sign-extended; proved for all other causes at any nesting, and for structures' fields."
  },
  {
   "property": "C48",
   "status": "partial",
   "theorems": [
    "Oct.Props.C48_slice_eq",
    "Oct.Props.C48_slice_eq_lawful",
    "Oct.Props.C48_slice_cmp",
    "Oct.Props.C48_slice_hash_partial",
    "Oct.Props.C48_false_slice_hash",
    "Oct.Props.C48_str_eq",
    "Oct.Props.C48_str_cmp",
    "Oct.Props.C48_str_hash",
    "Oct.Props.C48_str_hash_prefix_free"
   ],
   "note": "Hashing like the slice is false for every sized slice (the length is not fed to the hasher); equality, ordering and string hashing proved."
  },
  {
   "property": "C49",
   "status": "proved",
   "theorems": [
    "Oct.Props.C49_announced_length_seq",
    "Oct.Props.C49_announced_length_string",
    "Oct.Props.C49_announced_length_c_string",
    "Oct.Props.C49_fixed_size"
   ],
   "note": ""
  },
  {
   "property": "C50",
   "status": "proved",
   "theorems": [
    "Oct.Props.C50_array",
    "Oct.Props.C50_seq"
   ],
   "note": "Exact characterisation, in both directions."
  },
  {
   "property": "C51",
   "status": "partial",
   "theorems": [
    "Oct.Props.C51_into_raw_parts_partial",
    "Oct.Props.C51_false_default",
    "Oct.Props.C51_false_clone",
    "Oct.Props.C51_exactly"
   ],
   "note": "False after Default and Clone, whose tail bytes are uninitialised (witnesses); proved for all other ways to make and change sized strings, decoding included. C51_exactly: those that are full, or do not come from Default or Clone."
  },
  {
   "property": "C52",
   "status": "proved",
   "theorems": [
    "Oct.Props.C52_accepted"
   ],
   "note": "Complete characterisation by a relation defined independently of the decoder; deviations of the code from its documentation (sized slices) are in the relation."
  },
  {
   "property": "C53",
   "status": "proved",
   "theorems": [
    "Oct.Props.C53_rejected",
    "Oct.Props.C53_neither",
    "Oct.Props.C53_possible",
    "Oct.Props.C53_impossible"
   ],
   "note": "As C52, for errors; panics and undefined behaviour are exactly the rest. The types that can be rejected at all are characterised exactly (Refusing)."
  },
  {
   "property": "C54",
   "status": "partial",
   "theorems": [
    "Oct.Props.C54_exactly",
    "Oct.Props.C54_canonical_partial",
    "Oct.Props.C54_injective_partial",
    "Oct.Props.C54_false_loose",
    "Oct.Props.C54_false_unbalanced"
   ],
   "note": "False for bool, Option, Result and Duration, which accept several encodings, and for maps, sets and sized slices (witnesses); proved for all types made without them. C54_exactly says of which types it is true."
  },
  {
   "property": "C55",
   "status": "partial",
   "theorems": [
    "Oct.Props.C55_balanced_exactly",
    "Oct.Props.C55_exactly",
    "Oct.Props.C55_balanced_partial",
    "Oct.Props.C55_false"
   ],
   "note": "False for maps, sets and sized slices (witnesses); proved for all types made without them; C55_balanced_exactly tells for every decoded value of any type whether it holds, and that decoding never takes fewer octets. C55_exactly says of which types it is true."
  },
  {
   "property": "C56",
   "status": "proved",
   "theorems": [
    "Oct.Props.C56_reach"
   ],
   "note": ""
  },
  {
   "property": "C57",
   "status": "proved",
   "theorems": [
    "Oct.Props.C57_elements",
    "Oct.Props.C57_tight"
   ],
   "note": "With a witness that the factor is the best possible."
  },
  {
   "property": "C58",
   "status": "proved",
   "theorems": [
    "Oct.Props.C58_unambiguous",
    "Oct.Props.C58_exclusive",
    "Oct.Props.C58_encodings"
   ],
   "note": "For all types, also those with defects."
  },
  {
   "property": "C59",
   "status": "proved",
   "theorems": [
    "Oct.Props.C59_causes",
    "Oct.Props.C59_complete"
   ],
   "note": ""
  },
  {
   "property": "C60",
   "status": "proved",
   "theorems": [
    "Oct.Props.C60_refused",
    "Oct.Props.C60_deterministic"
   ],
   "note": "Complete characterisation by a relation defined independently of the encoder."
  },
  {
   "property": "C61",
   "status": "proved",
   "theorems": [
    "Oct.Props.C61_encode",
    "Oct.Props.C61_decode",
    "Oct.Props.C61_view"
   ],
   "note": "Emitted code is modelled as patterns, captures and statements and evaluated; equal to the model's recursion for all declarations."
  },
  {
   "property": "C62",
   "status": "proved",
   "theorems": [
    "Oct.Props.C62_encode",
    "Oct.Props.C62_decode",
    "Oct.Props.C62_view"
   ],
   "note": "As C61; for the representation and discriminants as Rust defines them."
  },
  {
   "property": "C63",
   "status": "partial",
   "theorems": [
    "Oct.Props.C63_sound",
    "Oct.Props.C63_exact",
    "Oct.Props.C63_taken_partial",
    "Oct.Props.C63_false",
    "Oct.Props.C63_literal"
   ],
   "note": "False for negative, parenthesised, constant and byte-literal discriminants, which make the macros panic; proved exactly when they are taken, and that they are then right."
  },
  {
   "property": "C64",
   "status": "partial",
   "theorems": [
    "Oct.Props.C64_sound",
    "Oct.Props.C64_exact",
    "Oct.Props.C64_name",
    "Oct.Props.C64_taken_partial",
    "Oct.Props.C64_false"
   ],
   "note": "False for repr(C), repr(C, u8) and repr(align(..)), which make the macros panic; proved exactly when a representation is found, and that it is then right."
  },
  {
   "property": "C65",
   "status": "proved",
   "theorems": [
    "Oct.Props.C65_struct",
    "Oct.Props.C65_enum",
    "Oct.Props.C65_same",
    "Oct.Props.C65_exact"
   ],
   "note": ""
  },
  {
   "property": "C66",
   "status": "partial",
   "theorems": [
    "Oct.Props.C66_arguments",
    "Oct.Props.C66_legal_partial",
    "Oct.Props.C66_false"
   ],
   "note": "False for parameters with defaults, which are repeated in the impl header; proved for all others."
  },
  {
   "property": "C67",
   "status": "partial",
   "theorems": [
    "Oct.Props.C67_struct_partial",
    "Oct.Props.C67_enum_partial",
    "Oct.Props.C67_struct_exactly",
    "Oct.Props.C67_enum_exactly"
   ],
   "note": "Partial for the same values as C09; C67_struct_exactly and C67_enum_exactly are equivalences."
  },
  {
   "property": "C68",
   "status": "partial",
   "theorems": [
    "Oct.Props.C68_once_partial",
    "Oct.Props.C68_vector_partial",
    "Oct.Props.C68_array_false",
    "Oct.Props.C68_nth_false",
    "Oct.Props.C68_nth_partial"
   ],
   "note": "False for From<[T; N]> of every non-empty array (the array is dropped after it was copied) and for nth (witness); proved for all histories of the other operations, with into_vec up to its allocation of zero octets."
  },
  {
   "property": "C69",
   "status": "partial",
   "theorems": [
    "Oct.Props.C69_accounted_partial",
    "Oct.Props.C69_all_dropped_partial",
    "Oct.Props.C69_read_partial",
    "Oct.Props.C69_slice_false",
    "Oct.Props.C69_iterator_false",
    "Oct.Props.C69_decoded_false",
    "Oct.Props.C69_cells",
    "Oct.Props.C69_failed_false"
   ],
   "note": "False: dropping a sized slice or an iterator drops no items, a decoded slice leaves the items beyond its length behind, a failing decoding those decoded so far. Proved: exact accounting of every item, and that reading to the end or converting to a vector drops all."
  },
  {
   "property": "C70",
   "status": "partial",
   "theorems": [
    "Oct.Props.C70_faithful_partial",
    "Oct.Props.C70_answered_partial",
    "Oct.Props.C70_datagram_partial",
    "Oct.Props.C70_responses",
    "Oct.Props.C70_stale_false",
    "Oct.Props.C70_failed_write_false"
   ],
   "note": "False when a foreign or cut datagram arrives (the slot completes it with stale octets) and when the unchecked write of the documented client fails (witnesses); proved for all schedules of requests that can be encoded, for message types whose maximum size bounds their encodings."
  },
  {
   "property": "C71",
   "status": "proved",
   "theorems": [
    "Oct.Props.C71_snapshot",
    "Oct.Props.C71_array",
    "Oct.Props.C71_fields"
   ],
   "note": "For every split of the encoder into steps; instances for arrays and structures."
  },
  {
   "property": "C72",
   "status": "partial",
   "theorems": [
    "Oct.Props.C72_in_order_partial",
    "Oct.Props.C72_poisoned_partial",
    "Oct.Props.C72_panic_false"
   ],
   "note": "False when a thread panics while it writes: poisoning is ignored, and the half-made update is encoded (witness for both locks); proved for all schedules without such panics. When a lock is poisoned is proved for all schedules."
  },
  {
   "property": "C73",
   "status": "proved",
   "theorems": [
    "Oct.Props.C73_had",
    "Oct.Props.C73_forward"
   ],
   "note": "Loads may give any value that coherence allows."
  },
  {
   "property": "C74",
   "status": "partial",
   "theorems": [
    "Oct.Props.C74_alone_partial",
    "Oct.Props.C74_false"
   ],
   "note": "False (witness, even with loads that give the newest value); proved when nobody else stores."
  },
  {
   "property": "C75",
   "status": "proved",
   "theorems": [
    "Oct.Props.C75_encode",
    "Oct.Props.C75_reads",
    "Oct.Props.C75_never_misread",
    "Oct.Props.C75_failures",
    "Oct.Props.C75_max_size",
    "Oct.Props.C75_example",
    "Oct.Props.C75_middle_misread"
   ],
   "note": "Hash map keys and hash set items may not have grown. Variants added in front of others are misread both ways (witness)."
  },
  {
   "property": "C76",
   "status": "partial",
   "theorems": [
    "Oct.Props.C76_old_reads_new_partial",
    "Oct.Props.C76_failures",
    "Oct.Props.C76_encode",
    "Oct.Props.C76_new_reads_old_false",
    "Oct.Props.C76_nested_false"
   ],
   "note": "Proved for the old program at the top level, with the rest left in the stream, and that octets are appended. False for the new program, which panics on old structures, and inside other types, where structures are misread without an error (witnesses)."
  },
  {
   "property": "C77",
   "status": "proved",
   "theorems": [
    "Oct.Props.C77_pointer",
    "Oct.Props.C77_copy",
    "Oct.Props.C77_copy_undefined",
    "Oct.Props.C77_slice",
    "Oct.Props.C77_write",
    "Oct.Props.C77_views",
    "Oct.Props.C77_encode",
    "Oct.Props.C77_never_undefined"
   ],
   "note": "For every program of writes that does what encode does; with existence of runs, so not vacuous."
  },
  {
   "property": "C78",
   "status": "partial",
   "theorems": [
    "Oct.Props.C78_read",
    "Oct.Props.C78_read_into",
    "Oct.Props.C78_remaining",
    "Oct.Props.C78_decode",
    "Oct.Props.C78_never_undefined_partial",
    "Oct.Props.C78_char_false"
   ],
   "note": "False for char (C17); proved for all other types, and for all types that memory stays the same and that the result is that of the list model."
  },
  {
   "property": "C79",
   "status": "proved",
   "theorems": [
    "Oct.Props.C79_history",
    "Oct.Props.C79_possible",
    "Oct.Props.C79_no_leak",
    "Oct.Props.C79_undefined_from",
    "Oct.Props.C79_undefined_only_char",
    "Oct.Props.C79_from_raw_parts"
   ],
   "note": "Undefined only if a char is decoded from invalid octets (C17), as in the model of slots as values."
  },
  {
   "property": "C80",
   "status": "proved",
   "theorems": [
    "Oct.Props.C80_vec",
    "Oct.Props.C80_array",
    "Oct.Props.C80_sized_slice",
    "Oct.Props.C80_string",
    "Oct.Props.C80_c_string",
    "Oct.Props.C80_undefined_only_char",
    "Oct.Props.C80_write_cell",
    "Oct.Props.C80_set_len"
   ],
   "note": ""
  },
  {
   "property": "C81",
   "status": "proved",
   "theorems": [
    "Oct.Props.C81_decodes",
    "Oct.Props.C81_balance",
    "Oct.Props.C81_replaced",
    "Oct.Props.C81_no_double_free"
   ],
   "note": "Panics are taken to unwind."
  },
  {
   "property": "C82",
   "status": "partial",
   "theorems": [
    "Oct.Props.C82_exactly",
    "Oct.Props.C82_anywhere",
    "Oct.Props.C82_freed",
    "Oct.Props.C82_error_exactly",
    "Oct.Props.C82_error_anywhere",
    "Oct.Props.C82_error_freed",
    "Oct.Props.C82_false",
    "Oct.Props.C82_no_leak_partial",
    "Oct.Props.C82_items_lost",
    "Oct.Props.C82_unbounded_false"
   ],
   "note": "False for Vec, [T; N] and SizedSlice of items that own allocations (witness): for every k up to 65534 there are k + 3 octets that lose k boxes. Proved for all types in which such items are plain; what is lost otherwise is computed exactly. The types for which a failing decoding can lose something are characterised exactly (Leaky), and so proved for all others; and so are those for which a decoding that returns an error can (LeakyOnError), since panics may be counted as the caller's fault."
  },
  {
   "property": "C83",
   "status": "partial",
   "theorems": [
    "Oct.Props.C83_exactly",
    "Oct.Props.C83_owned",
    "Oct.Props.C83_owning",
    "Oct.Props.C83_false",
    "Oct.Props.C83_owned_partial",
    "Oct.Props.C83_plain"
   ],
   "note": "False for SizedSlice of items that own allocations (witness); proved for all types without such slices. The types for which something is not owned are characterised exactly (Spilling), and so proved for all others."
  },
  {
   "property": "C84",
   "status": "partial",
   "theorems": [
    "Oct.Props.C84_means",
    "Oct.Props.C84_slot_index",
    "Oct.Props.C84_slot_index_one",
    "Oct.Props.C84_slot_assign",
    "Oct.Props.C84_slot_set_byte",
    "Oct.Props.C84_false_slot",
    "Oct.Props.C84_false_slot_full",
    "Oct.Props.C84_slot_read_back_partial",
    "Oct.Props.C84_slice_index",
    "Oct.Props.C84_slice_assign",
    "Oct.Props.C84_str_index",
    "Oct.Props.C84_str_assign",
    "Oct.Props.C84_str_assign_when"
   ],
   "note": "False for slots (two witnesses): Index looks at the contents, IndexMut at the whole buffer. Proved for slots if the part lies within the contents and the index does not depend on the length, and for sized slices and sized strings wholly."
  },
  {
   "property": "C85",
   "status": "proved",
   "theorems": [
    "Oct.Props.C85_output_eq",
    "Oct.Props.C85_output_eq_slice",
    "Oct.Props.C85_slot_eq"
   ],
   "note": ""
  },
  {
   "property": "C86",
   "status": "proved",
   "theorems": [
    "Oct.Props.C86_encode",
    "Oct.Props.C86_decode",
    "Oct.Props.C86_cow",
    "Oct.Props.C86_never_encode",
    "Oct.Props.C86_never_decode"
   ],
   "note": "For every type for which the bounds of the impls hold (computed by Ty.encErr and Ty.decErr)."
  },
  {
   "property": "C87",
   "status": "partial",
   "theorems": [
    "Oct.Props.C87_encode",
    "Oct.Props.C87_false_item",
    "Oct.Props.C87_false_enum",
    "Oct.Props.C87_decode_partial"
   ],
   "note": "Proved for encode errors. False for decode errors (two witnesses): ItemDecodeError has no bound on the error of the item, and EnumDecodeError bounds D by its Decode error, although UnassignedDiscriminant holds a D; converting such an error panics. Proved for types made of Infallible by collections."
  },
  {
   "property": "C88",
   "status": "partial",
   "theorems": [
    "Oct.Props.C88_encode_root",
    "Oct.Props.C88_decode_root",
    "Oct.Props.C88_encode_generic",
    "Oct.Props.C88_decode_generic",
    "Oct.Props.C88_encode_error_iff",
    "Oct.Props.C88_false_list",
    "Oct.Props.C88_decode_error",
    "Oct.Props.C88_string",
    "Oct.Props.C88_string_reached"
   ],
   "note": "False for LinkedList, whose item error is a pair and so no Error (witness); an error type is an Error exactly if no LinkedList occurs in the type. The root of an unassigned discriminant is replaced by that of the generic error."
  },
  {
   "property": "C89",
   "status": "partial",
   "theorems": [
    "Oct.Props.C89_encode_struct",
    "Oct.Props.C89_encode_enum",
    "Oct.Props.C89_decode_struct",
    "Oct.Props.C89_decode_enum",
    "Oct.Props.C89_false_encode",
    "Oct.Props.C89_false_decode",
    "Oct.Props.C89_false_tuple",
    "Oct.Props.C89_tuple",
    "Oct.Props.C89_map",
    "Oct.Props.C89_result",
    "Oct.Props.C89_wrappers"
   ],
   "note": "False (witnesses): LinkedList and RefCell for Encode, char and Result for Decode, tuples and maps of types with different errors. The exact condition is proved for structures, enumerations, tuples, maps, sets and results."
  },
  {
   "property": "C90",
   "status": "proved",
   "theorems": [
    "Oct.Props.C90_encode_messages",
    "Oct.Props.C90_decode_messages",
    "Oct.Props.C90_encode_reports",
    "Oct.Props.C90_decode_reports",
    "Oct.Props.C90_ends_with_cause",
    "Oct.Props.C90_input",
    "Oct.Props.C90_output",
    "Oct.Props.C90_code_point",
    "Oct.Props.C90_octet",
    "Oct.Props.C90_string_messages",
    "Oct.Props.C90_hextet"
   ],
   "note": "Display of integers and of BorrowError is taken from the standard library. Utf16Error and StringError included."
  },
  {
   "property": "C91",
   "status": "partial",
   "theorems": [
    "Oct.Props.C91_recursive_round_trip_partial",
    "Oct.Props.C91_recursive_encoding",
    "Oct.Props.C91_false_hash_set"
   ],
   "note": "Missing: as for C09 (hash maps, hash sets, sized slices that are not full; witness). References in keys of hash maps and sets are not modelled."
  },
  {
   "property": "C92",
   "status": "proved",
   "theorems": [
    "Oct.Props.C92_recursive_outcome"
   ],
   "note": ""
  },
  {
   "property": "C93",
   "status": "partial",
   "theorems": [
    "Oct.Props.C93_recursive_ends_partial",
    "Oct.Props.C93_false_loop",
    "Oct.Props.C93_exactly",
    "Oct.Props.C93_never"
   ],
   "note": "False for declarations that lead back to themselves without reading anything, such as struct Loop { next: Box<Loop> } (witness): the call never returns, whatever the input. Proved for all others, with a bound on the depth. C93_exactly: these are all; for finitely many declarations without Infallible, either decoding ends on all inputs, or there is a declared type with which it ends on none (C93_never)."
  },
  {
   "property": "C94",
   "status": "partial",
   "theorems": [
    "Oct.Props.C94_recursive_depth_partial",
    "Oct.Props.C94_false_chain",
    "Oct.Props.C94_exactly",
    "Oct.Props.C94_exceeded",
    "Oct.Props.C94_hierarchical"
   ],
   "note": "False for recursive types (witness): with Option<Box<_>>, each octet of input is one nested call, so that input decides how much stack is used. Proved for types that do not contain themselves; for the others, C93 bounds the depth by the length of the input. C94_exactly: some depth is enough for all inputs just if decoding cannot go from one declared type to the next without end (types without Infallible)."
  },
  {
   "property": "C95",
   "status": "partial",
   "theorems": [
    "Oct.Props.C95_recursive_prefix_free_partial",
    "Oct.Props.C95_delimited_partial",
    "Oct.Props.C95_false_hash_set"
   ],
   "note": "Missing: values with hash maps or sets in them (witness)."
  },
  {
   "property": "C96",
   "status": "partial",
   "theorems": [
    "Oct.Props.C96_features_partial",
    "Oct.Props.C96_features_exact",
    "Oct.Props.C96_false_features",
    "Oct.Props.C96_places"
   ],
   "note": "False (witness for every configuration without std): names resolve exactly if both alloc and std are set, so the crate does not stand without std. The places are listed exactly: the imports of CStringDecodeError and SystemTimeDecodeError, three uses of NullString and its payload, and std in the impls for atomics. Only names that stand under a condition are modelled, not type checking."
  },
  {
   "property": "C97",
   "status": "proved",
   "theorems": [
    "Oct.Props.C97_traits",
    "Oct.Props.C97_traits_back",
    "Oct.Props.C97_one_impl"
   ],
   "note": "The arguments of types and the bounds on them are left out here (the bounds on errors are C89)."
  },
  {
   "property": "C98",
   "status": "proved",
   "theorems": [
    "Oct.Props.C98_benchmarks_encode",
    "Oct.Props.C98_unwraps",
    "Oct.Props.C98_benchmarks_decode"
   ],
   "note": "The blocks labelled oct only; memory is taken to suffice."
  },
  {
   "property": "C99",
   "status": "partial",
   "theorems": [
    "Oct.Props.C99_from_u64_partial",
    "Oct.Props.C99_from_u64_exact",
    "Oct.Props.C99_false_from_u64"
   ],
   "note": "False for every number from 256 on (witness); the value that is made is given exactly: two numbers are made the same exactly if they agree modulo 1024."
  },
  {
   "property": "C100",
   "status": "partial",
   "theorems": [
    "Oct.Props.C100_into_string_partial",
    "Oct.Props.C100_into_vec_partial",
    "Oct.Props.C100_false_capacity",
    "Oct.Props.C100_false_empty"
   ],
   "note": "False unless the sized string is full (witness); for the empty string the conversion is undefined behaviour (witness)."
  },
  {
   "property": "C101",
   "status": "partial",
   "theorems": [
    "Oct.Props.C101_decodes",
    "Oct.Props.C101_calls",
    "Oct.Props.C101_calls_partial",
    "Oct.Props.C101_false_calls"
   ],
   "note": "False for collections whose items have no octets (witness: Vec<()> makes 65536 calls for two octets). Proved for all others; for every type there is a bound per octet in which such collections count 65535 times."
  },
  {
   "property": "C102",
   "status": "partial",
   "theorems": [
    "Oct.Props.C102_allocations",
    "Oct.Props.C102_allocations_partial",
    "Oct.Props.C102_false_allocations"
   ],
   "note": "False for collections whose items have no octets (witness: LinkedList<()> makes 65535 nodes for two octets). Proved for all others; the account is that of C81 (proved to agree)."
  },
  {
   "property": "C103",
   "status": "partial",
   "theorems": [
    "Oct.Props.C103_reserved",
    "Oct.Props.C103_reserved_partial",
    "Oct.Props.C103_false_lacking",
    "Oct.Props.C103_false_idle"
   ],
   "note": "False for decodings that do not succeed (witness: Vec<u8> reserves 65535 octets for two octets, then finds none) and for collections whose items have a size but no octets (witness: Vec<RefCell<()>>). Proved for the rest; failing decodings reserve at most 65535 items per level of nesting more. Items are counted, not their sizes."
  },
  {
   "property": "C104",
   "status": "partial",
   "theorems": [
    "Oct.Props.C104_no_deadlock_partial",
    "Oct.Props.C104_false_self",
    "Oct.Props.C104_false_stuck",
    "Oct.Props.C104_false_writer",
    "Oct.Props.C104_false_cycle",
    "Oct.Props.C104_exactly"
   ],
   "note": "False for locks that contain themselves (witnesses: a Mutex under every policy, an RwLock if waiting writers go first); such an encoder never returns, under any schedule. Proved for all others, with no bound on threads, contents or schedules. C104_exactly: encoders of finitely many mutexes are free of deadlocks just if no mutex contains itself."
  },
  {
   "property": "C105",
   "status": "partial",
   "theorems": [
    "Oct.Props.C105_ends_partial",
    "Oct.Props.C105_over_partial",
    "Oct.Props.C105_finishes_partial",
    "Oct.Props.C105_result",
    "Oct.Props.C105_lock",
    "Oct.Props.C105_then",
    "Oct.Props.C105_plain",
    "Oct.Props.C105_nothing",
    "Oct.Props.C105_false_endless",
    "Oct.Props.C105_exactly",
    "Oct.Props.C105_fits"
   ],
   "note": "False for an RwLock that contains itself (witness: no end). Proved for all others: a bound on the steps, that all threads can always be brought to their end, and what is encoded. C105_exactly: encoders of finitely many locks of either kind come to their end with success, if the output is long enough, just if no lock contains itself."
  },
  {
   "property": "C106",
   "status": "partial",
   "theorems": [
    "Oct.Props.C106_moments_partial",
    "Oct.Props.C106_false_mixture",
    "Oct.Props.C106_steady",
    "Oct.Props.C106_exclusive"
   ],
   "note": "False, even for two references to one lock (witness). Proved instead: each lock is encoded as it was at one moment, the moments come in order, guards exclude each other, and what is guarded stays as it is."
  },
  {
   "property": "C107",
   "status": "proved",
   "theorems": [
    "Oct.Props.C107_agrees",
    "Oct.Props.C107_encode",
    "Oct.Props.C107_by_hand"
   ],
   "note": "The error values of others are taken to be among those of the crate. The crate's own types, seen as such, are encoded as in the model of the other claims (C107_agrees)."
  },
  {
   "property": "C108",
   "status": "partial",
   "theorems": [
    "Oct.Props.C108_agrees",
    "Oct.Props.C108_round_trip_partial",
    "Oct.Props.C108_prefix_free_partial"
   ],
   "note": "False of sized slices that are not full (C09), and of hash maps and sets (C134). Proved for all the rest. The crate's own types, seen as such, are decoded as in the model of the other claims (C108_agrees)."
  },
  {
   "property": "C109",
   "status": "partial",
   "theorems": [
    "Oct.Props.C109_agrees",
    "Oct.Props.C109_bound_partial",
    "Oct.Props.C109_false_result",
    "Oct.Props.C109_false_sized_slice"
   ],
   "note": "False of Result and SizedSlice even if the bounds of their items are right (witnesses). Proved for all the rest. The crate's own types, seen as such, are measured as in the model of the other claims (C109_agrees)."
  },
  {
   "property": "C110",
   "status": "proved",
   "theorems": [
    "Oct.Props.C110_items",
    "Oct.Props.C110_decoded",
    "Oct.Props.C110_struct",
    "Oct.Props.C110_conversions",
    "Oct.Props.C110_one",
    "Oct.Props.C110_tuple",
    "Oct.Props.C110_struct_decoded",
    "Oct.Props.C110_enum",
    "Oct.Props.C110_tuple_decoded",
    "Oct.Props.C110_enum_decoded",
    "Oct.Props.C110_map",
    "Oct.Props.C110_set",
    "Oct.Props.C110_map_decoded",
    "Oct.Props.C110_set_decoded"
   ],
   "note": "Stated for arrays, slices, vectors and linked lists, for hash maps and sets, for tuples, structures and variants."
  },
  {
   "property": "C111",
   "status": "partial",
   "theorems": [
    "Oct.Props.C111_slot_invariant",
    "Oct.Props.C111_reported",
    "Oct.Props.C111_contents_partial",
    "Oct.Props.C111_false_swapped"
   ],
   "note": "Length and capacity are proved for all impls. False of the contents if the impl puts another stream in place of the one it was handed (witness: the slot has the length of what was written elsewhere). Proved of the contents for the others."
  },
  {
   "property": "C112",
   "status": "proved",
   "theorems": [
    "Oct.Props.C112_safe",
    "Oct.Props.C112_safe_from",
    "Oct.Props.C112_needs_borrows"
   ],
   "note": "What the borrow checker allows is stated (Spec/Client), not derived: regions that are borrowed mutably are apart from all others that are borrowed. Pointers are checked for bounds, initialisation and overlap; aliasing models of references are the matter of C150 and C151. C112_needs_borrows shows that the rules are needed."
  },
  {
   "property": "C113",
   "status": "proved",
   "theorems": [
    "Oct.Props.C113_slices",
    "Oct.Props.C113_read",
    "Oct.Props.C113_outputs",
    "Oct.Props.C113_inputs"
   ],
   "note": "As for C112."
  },
  {
   "property": "C114",
   "status": "partial",
   "theorems": [
    "Oct.Props.C114_once_partial",
    "Oct.Props.C114_quiet_partial",
    "Oct.Props.C114_borrowed",
    "Oct.Props.C114_nth_false",
    "Oct.Props.C114_agrees",
    "Oct.Props.C114_agrees_nth"
   ],
   "note": "False of nth, if a destructor of a skipped item panics (witness, for every iterator and index from 2 on), and of From<[T; N]> (C68). Proved for all the rest, but for the allocation of zero octets by into_vec (C27). Hash maps are in C141; how unwinding runs destructors is stated in the model (Model/Unwind), not derived. Where nothing panics, this model agrees with that of C68 and C69 (C114_agrees, C114_agrees_nth)."
  },
  {
   "property": "C115",
   "status": "partial",
   "theorems": [
    "Oct.Props.C115_destroyed_partial",
    "Oct.Props.C115_cells_false",
    "Oct.Props.C115_clone_false",
    "Oct.Props.C115_collect_partial"
   ],
   "note": "False of arrays, vectors and sized slices, and of clones (witnesses, for every place of the failure). Proved for linked lists and for the fields of tuples, structures and variants, whatever the destructors do, unless the program aborts; and for what is left of an iterator that panics while a sized slice is collected from it."
  },
  {
   "property": "C116",
   "status": "partial",
   "theorems": [
    "Oct.Props.C116_exactly",
    "Oct.Props.C116_longest_partial",
    "Oct.Props.C116_attained_partial",
    "Oct.Props.C116_false_str",
    "Oct.Props.C116_false_result",
    "Oct.Props.C116_false_empty",
    "Oct.Props.C116_false_discriminant",
    "Oct.Props.C116_false_slice"
   ],
   "note": "False of Result (size_of is used), of sized slices (which exceed the declared maximum, C18), of sized strings with a capacity beyond 65535, and of types with parts of which no value can be encoded (witnesses). Proved for all other types; the length of the longest encoding is proved for all types with SizedEncode (C116_longest_partial), and C116_exactly follows: the property is true just if it equals MAX_ENCODED_SIZE."
  },
  {
   "property": "C117",
   "status": "partial",
   "theorems": [
    "Oct.Props.C117_octets_partial",
    "Oct.Props.C117_portable_partial",
    "Oct.Props.C117_size_partial",
    "Oct.Props.C117_time_false",
    "Oct.Props.C117_false_size"
   ],
   "note": "False of times that the other platform does not have, which are refused (proved for all of them), and of the size of Result (witness). Proved for all the rest, up to what C09 lacks; hash maps and sets are left as they are."
  },
  {
   "property": "C118",
   "status": "partial",
   "theorems": [
    "Oct.Props.C118_computed_partial",
    "Oct.Props.C118_false",
    "Oct.Props.C118_parts_partial"
   ],
   "note": "False on every target (witness: a tuple of four boxes of arrays that each exist). Proved: exactly when the constant is computed, that it then has the value without overflow, and that those of its parts are computed then."
  },
  {
   "property": "C119",
   "status": "partial",
   "theorems": [
    "Oct.Props.C119_slice",
    "Oct.Props.C119_str",
    "Oct.Props.C119_slot_partial",
    "Oct.Props.C119_slot_false",
    "Oct.Props.C119_slot_false_options",
    "Oct.Props.C119_fill",
    "Oct.Props.C119_octet",
    "Oct.Props.C119_width",
    "Oct.Props.C119_list"
   ],
   "note": "Proved of sized slices and sized strings, with any Debug of their items. False of slots (witnesses: {:#?} of every slot with contents, {:x?}, width), which are always shown as by {:?} (proved). Writers that fail are C149."
  },
  {
   "property": "C120",
   "status": "partial",
   "theorems": [
    "Oct.Props.C120_once",
    "Oct.Props.C120_kept",
    "Oct.Props.C120_value_partial",
    "Oct.Props.C120_encoded_partial",
    "Oct.Props.C120_defined",
    "Oct.Props.C120_no_deadlock_partial",
    "Oct.Props.C120_ends_partial",
    "Oct.Props.C120_fair_partial",
    "Oct.Props.C120_lazy",
    "Oct.Props.C120_plain",
    "Oct.Props.C120_then",
    "Oct.Props.C120_false_ring",
    "Oct.Props.C120_false_self",
    "Oct.Props.C120_false_two",
    "Oct.Props.C120_false_cell"
   ],
   "note": "False of initialisers that force the value they make, directly or by others (witnesses: a LazyLock that waits for itself, two that wait for each other, a LazyCell that panics). Proved for all others: no deadlock, a bound of the steps, every fair schedule ends, and what is encoded. That initialisers are called at most once and values stay is proved without exception. How std forces values is stated in the model (Model/Lazy) from its documentation and source."
  },
  {
   "property": "C121",
   "status": "partial",
   "theorems": [
    "Oct.Props.C121_encode_struct_partial",
    "Oct.Props.C121_decode_struct_partial",
    "Oct.Props.C121_size_struct_partial",
    "Oct.Props.C121_encode_alias",
    "Oct.Props.C121_decode_alias",
    "Oct.Props.C121_size_alias",
    "Oct.Props.C121_enum_partial",
    "Oct.Props.C121_false_renamed",
    "Oct.Props.C121_false_taken",
    "Oct.Props.C121_false_names",
    "Oct.Props.C121_false_other",
    "Oct.Props.C121_false_usize",
    "Oct.Props.C121_false_alias"
   ],
   "note": "False where a type alias or parameter has the name of the representation (witness: with `type u8 = u16;`, repr(u8) is encoded in two octets; proved of all aliases), where a constant has a name that is bound (proved for `stream`), where `usize` is another type, and where the crate goes by another name. Proved for all other places and all structures and enumerations. Names of types of fields are taken to mean the same for the type and the impl."
  },
  {
   "property": "C122",
   "status": "partial",
   "theorems": [
    "Oct.Props.C122_histories_partial",
    "Oct.Props.C122_no_nth_partial",
    "Oct.Props.C122_agrees",
    "Oct.Props.C122_false_again",
    "Oct.Props.C122_false_given",
    "Oct.Props.C122_false_back",
    "Oct.Props.C122_false_undefined",
    "Oct.Props.C122_false_clone"
   ],
   "note": "False of nth (witnesses, on every fresh iterator with more than one item: the item that nth returned comes again; others: an item that was given before, undefined for zero and for the number of items, undefined on clones). Proved for all histories without nth; for those with nth it is proved what is done instead and exactly when it is defined. C24 and C25 are about items that are moved; C122_agrees relates the two."
  },
  {
   "property": "C123",
   "status": "partial",
   "theorems": [
    "Oct.Props.C123_histories_partial",
    "Oct.Props.C123_lists_partial",
    "Oct.Props.C123_total",
    "Oct.Props.C123_frame",
    "Oct.Props.C123_refs",
    "Oct.Props.C123_text",
    "Oct.Props.C123_false_copy",
    "Oct.Props.C123_false_box",
    "Oct.Props.C123_false_nth"
   ],
   "note": "False of copy_from_slice with too much data, of into_boxed_slice of nothing and of nth (witnesses, in memory). Proved for all other histories; for those with these operations too, memory is proved to behave as the values of Model/SizedSlice do (C123_histories_partial), and what was there before is left alone (C123_frame). Destructors of items are C68, C69 and C114; moving an object to another place is not modelled where the code does not name it."
  },
  {
   "property": "C124",
   "status": "proved",
   "theorems": [
    "Oct.Props.C124_encode",
    "Oct.Props.C124_encode_needed",
    "Oct.Props.C124_decode",
    "Oct.Props.C124_decode_needed",
    "Oct.Props.C124_sized",
    "Oct.Props.C124_unbounded",
    "Oct.Props.C124_without_into",
    "Oct.Props.C124_unbounded_decode",
    "Oct.Props.C124_params",
    "Oct.Props.C124_instance"
   ],
   "note": "What rustc has to find is modelled for the bounds on the three traits and their error types; other bounds that impls ask for are taken to be declared, and fields of other generic items are not modelled. Where a bound says T: Encode<Error = E> for a certain E, some type is taken to have that error type. C124_unbounded and C124_without_into are the consequences that users meet: struct S<T>(T) and struct S<T: Encode>(T) cannot be derived."
  },
  {
   "property": "C125",
   "status": "partial",
   "theorems": [
    "Oct.Props.C125_unlooped",
    "Oct.Props.C125_tree",
    "Oct.Props.C125_succeeds",
    "Oct.Props.C125_never",
    "Oct.Props.C125_partial",
    "Oct.Props.C125_false",
    "Oct.Props.C125_sharing",
    "Oct.Props.C125_exactly",
    "Oct.Props.C125_overflows",
    "Oct.Props.C125_forever",
    "Oct.Props.C125_bounded",
    "Oct.Props.C125_has_encoding"
   ],
   "note": "False where declared types refer back to themselves without writing anything, such as struct Loop(&'static Loop): encode calls itself without end (C125_false). C125_partial has that it ends for unlooped objects and for declarations that write something before each reference back. C125_exactly says of each object whether encoding it ends on all buffers, C125_bounded whether one number of nested calls is enough for all of them, and C125_has_encoding whether it can be encoded at all. C125_sharing: shared objects are encoded once per way to them, so that a + 1 objects may give 2^(a+2) - 2 octets. Locks held by somebody else are left out (C104, C105)."
  },
  {
   "property": "C126",
   "status": "partial",
   "theorems": [
    "Oct.Props.C126_equal_partial",
    "Oct.Props.C126_length",
    "Oct.Props.C126_same_octets_partial",
    "Oct.Props.C126_iff_partial",
    "Oct.Props.C126_decoded_partial",
    "Oct.Props.C126_equivalence",
    "Oct.Props.C126_order",
    "Oct.Props.C126_floats",
    "Oct.Props.C126_false_zero",
    "Oct.Props.C126_false_nan",
    "Oct.Props.C126_false_order",
    "Oct.Props.C126_false_empty",
    "Oct.Props.C126_false_time",
    "Oct.Props.C126_false_exhausted",
    "Oct.Props.C126_comparable"
   ],
   "note": "False of floats (0.0 == -0.0, NaN), hash maps and sets (order of iteration, no length), times between seconds and inclusive ranges that were iterated to their end; each with a witness. Proved both ways for all other types (C126_iff_partial); equal values of any type that has == take as many octets (C126_length)."
  },
  {
   "property": "C127",
   "status": "partial",
   "theorems": [
    "Oct.Props.C127_from_raw_parts",
    "Oct.Props.C127_from_raw_parts_needed",
    "Oct.Props.C127_into_raw_parts",
    "Oct.Props.C127_set_len_shorter",
    "Oct.Props.C127_set_len_needed",
    "Oct.Props.C127_history_partial",
    "Oct.Props.C127_false_copy",
    "Oct.Props.C127_false_enlarge",
    "Oct.Props.C127_false_own",
    "Oct.Props.C127_text_parts",
    "Oct.Props.C127_unchecked_partial",
    "Oct.Props.C127_false_unchecked",
    "Oct.Props.C127_unchecked_callers",
    "Oct.Props.C127_iter_new",
    "Oct.Props.C127_slot_len",
    "Oct.Props.C127_slot_parts",
    "Oct.Props.C127_slot_parts_needed"
   ],
   "note": "False of SizedStr::from_utf8_unchecked, whose documentation says nothing of the length: for every capacity there is ASCII text for which the call writes past the array (C127_false_unchecked). The safe copy_from_slice is undefined in programs as documented, too (C28). The condition of SizedSlice::set_len is not needed as it stands, and copy_from_slice breaks it itself (C127_false_enlarge, C127_false_own). Everything else is proved to suffice, and to be needed."
  },
  {
   "property": "C128",
   "status": "proved",
   "theorems": [
    "Oct.Props.C128_stops",
    "Oct.Props.C128_short",
    "Oct.Props.C128_one_of_four",
    "Oct.Props.C128_reachable",
    "Oct.Props.C128_decodable"
   ],
   "note": "Completes C52 and C53: values, errors, stops and lack of octets are told apart by relations on octets, and C16_exactly and C17_exactly follow."
  },
  {
   "property": "C129",
   "status": "proved",
   "theorems": [
    "Oct.Props.C129_chars",
    "Oct.Props.C129_forward",
    "Oct.Props.C129_backward",
    "Oct.Props.C129_char_indices",
    "Oct.Props.C129_positions",
    "Oct.Props.C129_offset",
    "Oct.Props.C129_size_hint",
    "Oct.Props.C129_collect",
    "Oct.Props.C129_order",
    "Oct.Props.C129_empty_full",
    "Oct.Props.C129_needs_octets",
    "Oct.Props.C129_needs_utf8"
   ],
   "note": "The iterators of core are modelled down to the bit operations on octets, with their unchecked steps as undefined behaviour, which is proved never to be met; C129_needs_utf8 shows that it would be without the UTF-8 invariant of C29."
  },
  {
   "property": "C130",
   "status": "proved",
   "theorems": [
    "Oct.Props.C130_runs_out"
   ],
   "note": "For all types, by induction over how decoders are put together."
  },
  {
   "property": "C131",
   "status": "partial",
   "theorems": [
    "Oct.Props.C131_false",
    "Oct.Props.C131_agrees",
    "Oct.Props.C131_partial",
    "Oct.Props.C131_exactly",
    "Oct.Props.C131_anywhere",
    "Oct.Props.C131_text"
   ],
   "note": "False on machines of 16 and 32 bits: two octets make Vec::decode panic with a capacity overflow if 65535 items take more than isize::MAX octets (C131_false). Exactly the types for which this can happen are told (C131_exactly), types whose largest collections fit never do it (C131_partial), nothing else changes (C131_agrees), and texts reserve less than the input has (C131_text). The sizes of types and the layout of hash tables are parameters."
  },
  {
   "property": "C132",
   "status": "proved",
   "theorems": [
    "Oct.Props.C132_decode",
    "Oct.Props.C132_model",
    "Oct.Props.C132_ordered",
    "Oct.Props.C132_akin",
    "Oct.Props.C132_akin_set",
    "Oct.Props.C132_akin_map",
    "Oct.Props.C132_encode",
    "Oct.Props.C132_encodings_differ",
    "Oct.Props.C132_entries",
    "Oct.Props.C132_equals"
   ],
   "note": "The order after each insertion is a parameter that may depend on the stream and on where it is. Removes the simplification of Model/Decode that new entries come last (C132_model). C132_encodings_differ shows that the octets themselves may come in another order, as is to be expected of maps without order (cf. C126)."
  },
  {
   "property": "C133",
   "status": "partial",
   "theorems": [
    "Oct.Props.C133_encodes",
    "Oct.Props.C133_writes",
    "Oct.Props.C133_stream",
    "Oct.Props.C133_work",
    "Oct.Props.C133_calls_partial",
    "Oct.Props.C133_emits",
    "Oct.Props.C133_false_calls",
    "Oct.Props.C133_octets",
    "Oct.Props.C133_string"
   ],
   "note": "False for collections whose items write nothing: 65535 units are two octets and 65539 calls (C133_false_calls, for each type some value of which is encoded as nothing, which C133_emits tells). The exact work is told for all types and values (C133_work). Otherwise eight calls for each part of the type and octet are enough (C133_calls_partial); the bound on writes needs no hypothesis (C133_writes). Texts and vectors of octets are written octet by octet (C133_octets, C133_string)."
  },
  {
   "property": "C134",
   "status": "partial",
   "theorems": [
    "Oct.Props.C134_decoded",
    "Oct.Props.C134_decoded_set",
    "Oct.Props.C134_read",
    "Oct.Props.C134_false_empty",
    "Oct.Props.C134_false_lost"
   ],
   "note": "False where what is encoded is to be decoded: no length is written, so an empty map is never read back (C134_false_empty, for all keys and values), and others become something else without an error (C134_false_lost). Proved with the number of entries in front (C134_read). Keys are taken whole; hash and == are one relation, whether the table takes a key in it for the new one."
  },
  {
   "property": "C135",
   "status": "partial",
   "theorems": [
    "Oct.Props.C135_encode",
    "Oct.Props.C135_octets",
    "Oct.Props.C135_received_partial",
    "Oct.Props.C135_reads_partial",
    "Oct.Props.C135_received_alike",
    "Oct.Props.C135_never_misread_partial",
    "Oct.Props.C135_refused",
    "Oct.Props.C135_entries",
    "Oct.Props.C135_reads_false_sized_slice",
    "Oct.Props.C135_reads_false_bool",
    "Oct.Props.C135_reads_false_duration",
    "Oct.Props.C135_misread_false_char",
    "Oct.Props.C135_not_back"
   ],
   "note": "What is written is the same for all exchanges (C135_encode, C135_octets), and what the new program receives is the value if that survives its own round trip (C135_received_partial: not maps, sets and sized slices that are not full, cf. C09). Of octets that nobody has encoded, the claim is false for six exchanges, where the old type takes what is not an encoding: sized slices as sequences (C135_reads_false_sized_slice), bool as a number, Option and Result as enumerations (C135_reads_false_bool), Duration as numbers (C135_reads_false_duration), and char, where the old program is undefined (C135_misread_false_char). Proved of all other exchanges (Recast true). Keys of hash maps have to stay different."
  },
  {
   "property": "C136",
   "status": "partial",
   "theorems": [
    "Oct.Props.C136_no_deadlock_partial",
    "Oct.Props.C136_ends_partial",
    "Oct.Props.C136_false_own",
    "Oct.Props.C136_false_order",
    "Oct.Props.C136_false_reader"
   ],
   "note": "False in general: a thread that encodes a mutex of which it holds a guard waits for ever (C136_false_own), so do threads that take locks in different orders, where encode counts as taking the locks in the value (C136_false_order), and readers of an RwLock behind a waiting writer (C136_false_reader). Proved of all programs that take locks in one order and drop their guards."
  },
  {
   "property": "C137",
   "status": "proved",
   "theorems": [
    "Oct.Props.C137_outer",
    "Oct.Props.C137_through",
    "Oct.Props.C137_exclusive",
    "Oct.Props.C137_changes",
    "Oct.Props.C137_torn"
   ],
   "note": "C137_changes: only a thread with a guard to write through, or of a mutex, changes what a lock protects, and nobody else has a guard of it then. Of all programs that change the locks only while they hold the outer lock. C137_torn shows that this is needed. The call is the one for the outer lock itself or through a guard of it; of calls for larger values with several outer locks, C106 tells that each is encoded at a moment of its own."
  },
  {
   "property": "C138",
   "status": "partial",
   "theorems": [
    "Oct.Props.C138_prudent_partial",
    "Oct.Props.C138_loops",
    "Oct.Props.C138_rev",
    "Oct.Props.C138_std",
    "Oct.Props.C138_rev_std",
    "Oct.Props.C138_collect_exactly",
    "Oct.Props.C138_false_collect",
    "Oct.Props.C138_false_skip",
    "Oct.Props.C138_false_step"
   ],
   "note": "False in general: collect into a Vec is undefined for one item and wherever the allocator grants no more than what is asked (C138_collect_exactly tells exactly when, C138_false_collect for an allocator that grants what is asked), skip repeats an item or is undefined (C138_false_skip), step_by panics or is undefined (C138_false_step). Proved of all programs that do not call nth and ask for the number of items only before they take from the front, of loops and extend, and of everything that uses rev() and does not ask for the number of items after taking from the back of rev(). What std calls is written down from its source as of Rust 1.85, which is not part of the repository."
  },
  {
   "property": "C139",
   "status": "partial",
   "theorems": [
    "Oct.Props.C139_slice",
    "Oct.Props.C139_text_partial",
    "Oct.Props.C139_parts",
    "Oct.Props.C139_false_text",
    "Oct.Props.C139_finite",
    "Oct.Props.C139_between"
   ],
   "note": "False of sized strings: the char that does not fit has been taken out of the iterator and is lost (C139_false_text). Proved of sized slices in full, and of sized strings otherwise."
  },
  {
   "property": "C140",
   "status": "partial",
   "theorems": [
    "Oct.Props.C140_before",
    "Oct.Props.C140_struct_partial",
    "Oct.Props.C140_seq_partial",
    "Oct.Props.C140_array_partial",
    "Oct.Props.C140_exactly",
    "Oct.Props.C140_fixed",
    "Oct.Props.C140_noticed_partial",
    "Oct.Props.C140_false_length",
    "Oct.Props.C140_false_noticed"
   ],
   "note": "False of fields of no fixed size: with the length of a vector changed, the fields behind it are others, without an error (C140_false_length); C140_exactly: true of a type just if all its values take as many octets, which those of fixed size do (C140_fixed). What is before the damage is always decoded as before (C140_before). Changes go unnoticed in types like bool, which accept several octets for one value (C140_false_noticed); in the types of C54_exactly they do not."
  },
  {
   "property": "C141",
   "status": "partial",
   "theorems": [
    "Oct.Props.C141_once",
    "Oct.Props.C141_destroyed_partial",
    "Oct.Props.C141_paired",
    "Oct.Props.C141_lost_false"
   ],
   "note": "Used after destruction or destroyed twice: proved never, whatever the calls do (C141_once). If a table comes out, all rounds have been made and each key has its value (C141_paired). That nothing is lost is false with std's tables, whose destructor gives up if that of a key panics (C141_lost_false: the error is replaced by the panic, and the other keys are not destroyed), which is not oct's doing. Proved if no destructor panics, or with a table that goes on (C141_destroyed_partial). The table is described by what insert does, not modelled."
  },
  {
   "property": "C142",
   "status": "proved",
   "theorems": [
    "Oct.Props.C142_pieces",
    "Oct.Props.C142_state",
    "Oct.Props.C142_keeps",
    "Oct.Props.C142_prompt",
    "Oct.Props.C142_sent"
   ],
   "note": "Proved for all types and all ways to cut. The program is what users of the crate write, not part of it; it catches the panic for lack of input. C142_state is an equivalence with a description by the format; C142_sent says exactly which values arrive (those of C09)."
  },
  {
   "property": "C143",
   "status": "proved",
   "theorems": [
    "Oct.Props.C143_packed",
    "Oct.Props.C143_fewest",
    "Oct.Props.C143_alone",
    "Oct.Props.C143_drained"
   ],
   "note": "Proved. The program is what users of the crate write, not part of it; it catches the panic for lack of room and puts nothing behind what it left. That datagrams decode to what was put into them is proved of values of the kind that comes back (Supported, as in C09)."
  },
  {
   "property": "C144",
   "status": "partial",
   "theorems": [
    "Oct.Props.C144_same",
    "Oct.Props.C144_agree",
    "Oct.Props.C144_asks",
    "Oct.Props.C144_budget",
    "Oct.Props.C144_enough",
    "Oct.Props.C144_inline",
    "Oct.Props.C144_false_aborts",
    "Oct.Props.C144_false_lost",
    "Oct.Props.C144_boxed_partial"
   ],
   "note": "False: a refused request aborts the program, and two octets are enough to make Vec ask for 65535 items (C144_false_aborts); into_boxed_slice panics and loses its items (C144_false_lost). Proved: what is asked for does not depend on the allocator, the result is that of Model/Decode or the program aborts at the first refusal (C144_same), what is asked for by the time a value has come (C144_asks, an independent relation), and how much is enough (C144_enough). What is freed is not followed; sizes of nodes and tables are parameters."
  },
  {
   "property": "C145",
   "status": "partial",
   "theorems": [
    "Oct.Props.C145_peek",
    "Oct.Props.C145_poke",
    "Oct.Props.C145_writes",
    "Oct.Props.C145_decoded",
    "Oct.Props.C145_fixed",
    "Oct.Props.C145_exactly",
    "Oct.Props.C145_false_found",
    "Oct.Props.C145_false_replaced"
   ],
   "note": "False: MAX_ENCODED_SIZE is only a bound, so a field behind an Option is read from the wrong octets (C145_false_found), and a longer value written over a shorter one destroys what is behind it (C145_false_replaced). Proved where what is before takes MAX_ENCODED_SIZE octets (C145_peek) and old and new take the same number (C145_poke, C145_decoded), for all places in all types; a sufficient condition on types (C145_fixed), and, for an octet behind a field, an exact one (C145_exactly)."
  },
  {
   "property": "C146",
   "status": "partial",
   "theorems": [
    "Oct.Props.C146_behind",
    "Oct.Props.C146_sorts_partial",
    "Oct.Props.C146_same",
    "Oct.Props.C146_crate",
    "Oct.Props.C146_leaves",
    "Oct.Props.C146_lists",
    "Oct.Props.C146_false"
   ],
   "note": "False: numbers are encoded with their least octet first, and collections and texts with their lengths (C146_false; C146_leaves decides it for every type not made of others but SystemTime; C146_lists: no Vec, slice or LinkedList). Proved for types made of octets and truth values (C146_sorts_partial, C146_behind). That no other composed type sorts is not proved: some do, such as SizedSlice<(), 9>."
  },
  {
   "property": "C147",
   "status": "partial",
   "theorems": [
    "Oct.Props.C147_encode_text",
    "Oct.Props.C147_decode_text",
    "Oct.Props.C147_others_text",
    "Oct.Props.C147_encode",
    "Oct.Props.C147_decode",
    "Oct.Props.C147_decode_typed",
    "Oct.Props.C147_reports",
    "Oct.Props.C147_apart",
    "Oct.Props.C147_others",
    "Oct.Props.C147_sources",
    "Oct.Props.C147_false"
   ],
   "note": "False of decode errors of different types: EnumDecodeError::UnassignedDiscriminant and GenericDecodeError::UnassignedDiscriminant look alike (C147_false). Proved: this is the only way in which decode errors of any types look alike (C147_decode), so those of one type are told apart (C147_decode_typed, C147_reports); encode errors are in any case (C147_encode), and so are those of strings and streams (C147_others). Of the options of formatters, only the alternate form is modelled."
  },
  {
   "property": "C148",
   "status": "partial",
   "theorems": [
    "Oct.Props.C148_secret_partial",
    "Oct.Props.C148_past_partial",
    "Oct.Props.C148_written",
    "Oct.Props.C148_contents_exactly",
    "Oct.Props.C148_served_partial",
    "Oct.Props.C148_replayed",
    "Oct.Props.C148_stranger",
    "Oct.Props.C148_false"
   ],
   "note": "False: read decodes the whole buffer, so after any datagram was served, whoever sends a beginning of it (an empty datagram will do) is sent the answer to it once more, for all message types and handlers (C148_replayed, C148_stranger), which can tell requests of others apart (C148_false). Proved: a program that looks at a slot only where it is known what is there learns nothing else (C148_secret_partial, C148_past_partial); the condition on as_slice is exact (C148_contents_exactly), that on read is sufficient (not shown to be necessary at a given capacity). A server is not affected by datagrams that do not end too early (C148_served_partial). The server of the documentation serves once; here it goes on, as in C70."
  },
  {
   "property": "C149",
   "status": "partial",
   "theorems": [
    "Oct.Props.C149_errors",
    "Oct.Props.C149_write",
    "Oct.Props.C149_room",
    "Oct.Props.C149_stops",
    "Oct.Props.C149_all",
    "Oct.Props.C149_contents",
    "Oct.Props.C149_slot",
    "Oct.Props.C149_false"
   ],
   "note": "False of options: errors are shown without them, as write! is used (C149_false, for all errors). Proved otherwise: C149_errors with all writers, C149_room, C149_stops, C149_contents, C149_slot. Of the standard library it is assumed that numbers are written as documented, in any pieces (StdLawful); errors of items by others are covered by C149_write. The derived Debug of errors with writers that fail is not modelled."
  },
  {
   "property": "C150",
   "status": "partial",
   "theorems": [
    "Oct.Props.C150_tree",
    "Oct.Props.C150_stacked_partial",
    "Oct.Props.C150_stacked_exactly",
    "Oct.Props.C150_false",
    "Oct.Props.C150_once",
    "Oct.Props.C150_ended",
    "Oct.Props.C150_looked",
    "Oct.Props.C150_looked_get",
    "Oct.Props.C150_written"
   ],
   "note": "False under Stacked Borrows: each_mut makes its pointers anew in each turn of its loop, so that all but the last of the references that it returns are invalid (C150_false, for every sized slice of two items or more). Proved exactly which programs are defined (C150_stacked_exactly), that all are under Tree Borrows (C150_tree), that all would be if the pointer was made once (C150_once), and that what the borrow checker forbids is undefined (C150_ended, C150_looked, C150_looked_get, C150_written). Simplifications of the aliasing models are stated in Model/Borrows; iterators are not covered, slots are in C151."
  },
  {
   "property": "C151",
   "status": "proved",
   "theorems": [
    "Oct.Props.C151_stacked",
    "Oct.Props.C151_tree",
    "Oct.Props.C151_ended",
    "Oct.Props.C151_kept",
    "Oct.Props.C151_len",
    "Oct.Props.C151_touched",
    "Oct.Props.C151_written"
   ],
   "note": "The borrow checker does not follow pointers; those that as_ptr and as_mut_ptr return are asked to be used as references are. C151_ended and C151_written show that what is asked is needed, and C151_touched that what is modelled as written and read is what should be. Kept across set_len, a pointer may still be written by under Stacked Borrows but not under Tree Borrows (C151_kept), and across len under both (C151_len). Simplifications are stated in Model/Borrows and Model/SlotBorrows: streams are within write and read, and what Input::read returns is looked at at once."
  },
  {
   "property": "C152",
   "status": "proved",
   "theorems": [
    "Oct.Props.C152_plain",
    "Oct.Props.C152_calls",
    "Oct.Props.C152_stacked",
    "Oct.Props.C152_tree",
    "Oct.Props.C152_slot",
    "Oct.Props.C152_compiles",
    "Oct.Props.C152_slot_compiles",
    "Oct.Props.C152_forbidden",
    "Oct.Props.C152_conflict"
   ],
   "note": "Asked of the program only that what is copied and set as the length fits (which the methods check). C152_calls says which functions are entered, with which arguments, and which references they make. C152_forbidden and C152_conflict show what protectors do forbid. Simplifications are those of C150 and C151; of the functions of the standard library those are entered that are given a reference to the buffer."
  },
  {
   "property": "C153",
   "status": "proved",
   "theorems": [
    "Oct.Props.C153_stacked",
    "Oct.Props.C153_tree",
    "Oct.Props.C153_touched",
    "Oct.Props.C153_ended",
    "Oct.Props.C153_written",
    "Oct.Props.C153_agrees"
   ],
   "note": "`nth` must be called with a positive index that is in the buffer, which is what a call that returns does (C153_agrees; the others are the undefined ones of C25). C153_ended and C153_written say what may no longer be used. Destructors write to what they destroy and do nothing else; copies of items are made by reading."
  },
  {
   "property": "C154",
   "status": "proved",
   "theorems": [
    "Oct.Props.C154_plain",
    "Oct.Props.C154_calls",
    "Oct.Props.C154_same",
    "Oct.Props.C154_compiles"
   ],
   "note": "Nothing is asked of the program; C154_compiles is for those of C153. C154_calls says what each method consists of. References that are returned only to be passed on are made once, when they are passed; destructors and `clone` of items do nothing but write to, or read, the item."
  },
  {
   "property": "C155",
   "status": "proved",
   "theorems": [
    "Oct.Props.C155_stacked",
    "Oct.Props.C155_tree",
    "Oct.Props.C155_input",
    "Oct.Props.C155_touched",
    "Oct.Props.C155_ended",
    "Oct.Props.C155_written",
    "Oct.Props.C155_kept",
    "Oct.Props.C155_where",
    "Oct.Props.C155_agrees"
   ],
   "note": "The reference that a stream was made with is taken for the owner of the buffer. What is asked of the program is what the borrow checker asks, and of pointers what it asks of references. C155_ended, C155_written and C155_kept say what may no longer be used; C155_agrees that the model is that of the streams."
  },
  {
   "property": "C156",
   "status": "proved",
   "theorems": [
    "Oct.Props.C156_plain",
    "Oct.Props.C156_calls",
    "Oct.Props.C156_same",
    "Oct.Props.C156_compiles",
    "Oct.Props.C156_ended"
   ],
   "note": "Asks only that what is copied to and from is elsewhere (`Behind`); C156_compiles is for programs of C155. C156_calls says what each method consists of. Methods of the slice that is copied to or from are not calls; `remaining` is entered with `capacity` and `position` only."
  },
  {
   "property": "C157",
   "status": "proved",
   "theorems": [
    "Oct.Props.C157_slot_ptr",
    "Oct.Props.C157_stream_ptr",
    "Oct.Props.C157_stream_read",
    "Oct.Props.C157_slice_each",
    "Oct.Props.C157_slice_kept",
    "Oct.Props.C157_slice_exactly",
    "Oct.Props.C157_slot_kept",
    "Oct.Props.C157_slot_exactly",
    "Oct.Props.C157_iter_kept",
    "Oct.Props.C157_iter_exactly",
    "Oct.Props.C157_stream_kept",
    "Oct.Props.C157_stream_exactly",
    "Oct.Props.C157_not_stacked"
   ],
   "note": "Nothing is asked of the programs but that they are defined without what is looked at. C157_…_kept are for all references and pointers, the others for those that are shared. C157_not_stacked has the witness for Stacked Borrows."
  },
  {
   "property": "C158",
   "status": "proved",
   "theorems": [
    "Oct.Props.C158_slot_ptr",
    "Oct.Props.C158_stream_ptr",
    "Oct.Props.C158_stream_read",
    "Oct.Props.C158_slice_each",
    "Oct.Props.C158_slice",
    "Oct.Props.C158_slot",
    "Oct.Props.C158_iter",
    "Oct.Props.C158_stream",
    "Oct.Props.C158_stricter",
    "Oct.Props.C158_differ"
   ],
   "note": "Nothing is asked of the programs but that they are defined without what is looked at. C158_stricter and C158_differ are for sized slices. References that are not shared are not in this claim."
  },
  {
   "property": "C159",
   "status": "proved",
   "theorems": [
    "Oct.Props.C159_slice",
    "Oct.Props.C159_slot",
    "Oct.Props.C159_iter"
   ],
   "note": "Nothing is asked of the programs but that they are defined without the last use. The raw pointers are not in this claim: those of as_mut_ptr are in C163, and those of each_mut in C165."
  },
  {
   "property": "C160",
   "status": "proved",
   "theorems": [
    "Oct.Props.C160_slice",
    "Oct.Props.C160_slot",
    "Oct.Props.C160_iter"
   ],
   "note": "Nothing is asked of the programs but that they are defined without what is looked at. This is about looking; C161 is about putting. The raw pointers are not in this claim: those of as_mut_ptr are in C164, and those of each_mut in C166."
  },
  {
   "property": "C161",
   "status": "proved",
   "theorems": [
    "Oct.Props.C161_slice",
    "Oct.Props.C161_slot",
    "Oct.Props.C161_iter",
    "Oct.Props.C161_differ"
   ],
   "note": "Nothing is asked of the programs but that they are defined without what is put. C161_differ is for sized slices. The raw pointers are not in this claim: those of as_mut_ptr are in C164, and those of each_mut in C166."
  },
  {
   "property": "C162",
   "status": "proved",
   "theorems": [
    "Oct.Props.C162_stacked_only",
    "Oct.Props.C162_tree_only",
    "Oct.Props.C162_neither"
   ],
   "note": "The first program writes by a pointer, which is unsafe, so that it compiles; the second does not compile unless the lifetime of the slice was extended. Programs that compile and are otherwise safe are right by both (C151)."
  },
  {
   "property": "C163",
   "status": "proved",
   "theorems": [
    "Oct.Props.C163_slot",
    "Oct.Props.C163_differ"
   ],
   "note": "Nothing is asked of the programs but that they are defined without the last use. This is about Stacked Borrows; C164 is about Tree Borrows. The pointers of each_mut are in C165."
  },
  {
   "property": "C164",
   "status": "proved",
   "theorems": [
    "Oct.Props.C164_slot",
    "Oct.Props.C164_once"
   ],
   "note": "Nothing is asked of the programs but that they are defined without the last use. The pointers of each_mut are in C166."
  },
  {
   "property": "C165",
   "status": "proved",
   "theorems": [
    "Oct.Props.C165_each",
    "Oct.Props.C165_others"
   ],
   "note": "Nothing is asked of the programs but that they are defined without the last use, and of the item that it is in the buffer. This is about Stacked Borrows; C166 is about Tree Borrows."
  },
  {
   "property": "C166",
   "status": "proved",
   "theorems": [
    "Oct.Props.C166_each",
    "Oct.Props.C166_differ"
   ],
   "note": "Nothing is asked of the programs but that they are defined without the last use, and of the item that it is in the buffer."
  }
 ]
}