{
 "claims": [
  {
   "property": "C01",
   "status": "proved",
   "theorems": [
    "IMU.Props.C01_stringToUint32_exact"
   ],
   "note": ""
  },
  {
   "property": "C02",
   "status": "proved",
   "theorems": [
    "IMU.Props.C02_quickPow10_exact"
   ],
   "note": ""
  },
  {
   "property": "C03",
   "status": "proved",
   "theorems": [
    "IMU.Props.C03_round_trip_value",
    "IMU.Props.C03_round_trips"
   ],
   "note": ""
  },
  {
   "property": "C04",
   "status": "proved",
   "theorems": [
    "IMU.Props.C04_deserialise_layout",
    "IMU.Props.C04_serialise_layout"
   ],
   "note": ""
  },
  {
   "property": "C05",
   "status": "proved",
   "theorems": [
    "IMU.Props.C05_deserialise_frame",
    "IMU.Props.C05_serialise_frame"
   ],
   "note": ""
  },
  {
   "property": "C06",
   "status": "proved",
   "theorems": [
    "IMU.Props.C06_blobBE_copies",
    "IMU.Props.C06_blobLE_limit",
    "IMU.Props.C06_blobLE_reverses",
    "IMU.Props.C06_blob_round_trip"
   ],
   "note": ""
  },
  {
   "property": "C07",
   "status": "proved",
   "theorems": [
    "IMU.Props.C07_swap_exchanges",
    "IMU.Props.C07_swap_involutive"
   ],
   "note": ""
  },
  {
   "property": "C08",
   "status": "proved",
   "theorems": [
    "IMU.Props.C08_char_classes"
   ],
   "note": ""
  },
  {
   "property": "C09",
   "status": "proved",
   "theorems": [
    "IMU.Props.C09_reflect_any_width",
    "IMU.Props.C09_reflect_involutive",
    "IMU.Props.C09_reflect_mirrors"
   ],
   "note": ""
  },
  {
   "property": "C10",
   "status": "proved",
   "theorems": [
    "IMU.Props.C10_out_of_range",
    "IMU.Props.C10_single_bit",
    "IMU.Props.C10_toggle_involutive"
   ],
   "note": ""
  },
  {
   "property": "C11",
   "status": "proved",
   "theorems": [
    "IMU.Props.C11_rotl32_defined",
    "IMU.Props.C11_rotl32_inverse",
    "IMU.Props.C11_rotl32_rotates"
   ],
   "note": ""
  },
  {
   "property": "C12",
   "status": "proved",
   "theorems": [
    "IMU.Props.C12_tables"
   ],
   "note": ""
  },
  {
   "property": "C13",
   "status": "proved",
   "theorems": [
    "IMU.Props.C13_generator",
    "IMU.Props.C13_generator_short",
    "IMU.Props.C13_loop"
   ],
   "note": ""
  },
  {
   "property": "C14",
   "status": "proved",
   "theorems": [
    "IMU.Props.C14_functions",
    "IMU.Props.C14_injective",
    "IMU.Props.C14_remainder"
   ],
   "note": ""
  },
  {
   "property": "C15",
   "status": "proved",
   "theorems": [
    "IMU.Props.C15_one_call",
    "IMU.Props.C15_pieces"
   ],
   "note": ""
  },
  {
   "property": "C16",
   "status": "proved",
   "theorems": [
    "IMU.Props.C16_burst",
    "IMU.Props.C16_functions",
    "IMU.Props.C16_single_bit"
   ],
   "note": ""
  },
  {
   "property": "C17",
   "status": "proved",
   "theorems": [
    "IMU.Props.C17_affine",
    "IMU.Props.C17_difference",
    "IMU.Props.C17_initial"
   ],
   "note": ""
  },
  {
   "property": "C18",
   "status": "proved",
   "theorems": [
    "IMU.Props.C18_depends",
    "IMU.Props.C18_reads",
    "IMU.Props.C18_returns"
   ],
   "note": ""
  },
  {
   "property": "C19",
   "status": "proved",
   "theorems": [
    "IMU.Props.C19_lsb_first"
   ],
   "note": ""
  },
  {
   "property": "C20",
   "status": "proved",
   "theorems": [
    "IMU.Props.C20_documented",
    "IMU.Props.C20_exceptions",
    "IMU.Props.C20_poly_matters"
   ],
   "note": ""
  },
  {
   "property": "C21",
   "status": "proved",
   "theorems": [
    "IMU.Props.C21_queue_is_fifo"
   ],
   "note": ""
  },
  {
   "property": "C22",
   "status": "proved",
   "theorems": [
    "IMU.Props.C22_accepted_calls",
    "IMU.Props.C22_rejected_calls"
   ],
   "note": ""
  },
  {
   "property": "C23",
   "status": "proved",
   "theorems": [
    "IMU.Props.C23_queue_stays_inside"
   ],
   "note": ""
  },
  {
   "property": "C24",
   "status": "proved",
   "theorems": [
    "IMU.Props.C24_limit_necessary"
   ],
   "note": ""
  },
  {
   "property": "C25",
   "status": "proved",
   "theorems": [
    "IMU.Props.C25_init_validates",
    "IMU.Props.C25_null_queue"
   ],
   "note": ""
  },
  {
   "property": "C26",
   "status": "proved",
   "theorems": [
    "IMU.Props.C26_init",
    "IMU.Props.C26_pq_refines",
    "IMU.Props.C26_spec_deterministic"
   ],
   "note": ""
  },
  {
   "property": "C27",
   "status": "proved",
   "theorems": [
    "IMU.Props.C27_dequeue_empty",
    "IMU.Props.C27_dequeue_max"
   ],
   "note": ""
  },
  {
   "property": "C28",
   "status": "proved",
   "theorems": [
    "IMU.Props.C28_eviction",
    "IMU.Props.C28_room"
   ],
   "note": ""
  },
  {
   "property": "C29",
   "status": "proved",
   "theorems": [
    "IMU.Props.C29_conservation"
   ],
   "note": ""
  },
  {
   "property": "C30",
   "status": "proved",
   "theorems": [
    "IMU.Props.C30_pq_stays_inside"
   ],
   "note": ""
  },
  {
   "property": "C31",
   "status": "proved",
   "theorems": [
    "IMU.Props.C31_map_init",
    "IMU.Props.C31_map_refines"
   ],
   "note": ""
  },
  {
   "property": "C32",
   "status": "proved",
   "theorems": [
    "IMU.Props.C32_entry_count",
    "IMU.Props.C32_failure_changes_nothing",
    "IMU.Props.C32_insert_fails_iff"
   ],
   "note": ""
  },
  {
   "property": "C33",
   "status": "proved",
   "theorems": [
    "IMU.Props.C33_map_stays_inside"
   ],
   "note": ""
  },
  {
   "property": "C34",
   "status": "proved",
   "theorems": [
    "IMU.Props.C34_init_exact",
    "IMU.Props.C34_negative_capacity",
    "IMU.Props.C34_negative_key_size",
    "IMU.Props.C34_negative_value_size",
    "IMU.Props.C34_null_map",
    "IMU.Props.C34_offset_overflow"
   ],
   "note": ""
  },
  {
   "property": "C35",
   "status": "proved",
   "theorems": [
    "IMU.Props.C35_run_beyond",
    "IMU.Props.C35_run_schedule",
    "IMU.Props.C35_run_steps"
   ],
   "note": ""
  },
  {
   "property": "C36",
   "status": "proved",
   "theorems": [
    "IMU.Props.C36_add",
    "IMU.Props.C36_add_full"
   ],
   "note": ""
  },
  {
   "property": "C37",
   "status": "proved",
   "theorems": [
    "IMU.Props.C37_first_n",
    "IMU.Props.C37_history",
    "IMU.Props.C37_init",
    "IMU.Props.C37_null_add"
   ],
   "note": ""
  },
  {
   "property": "C38",
   "status": "proved",
   "theorems": [
    "IMU.Props.C38_bubble_sorts"
   ],
   "note": ""
  },
  {
   "property": "C39",
   "status": "proved",
   "theorems": [
    "IMU.Props.C39_selection_sorts"
   ],
   "note": ""
  },
  {
   "property": "C40",
   "status": "proved",
   "theorems": [
    "IMU.Props.C40_insertion_sorts",
    "IMU.Props.C40_too_large"
   ],
   "note": ""
  },
  {
   "property": "C41",
   "status": "proved",
   "theorems": [
    "IMU.Props.C41_heap_sorts"
   ],
   "note": ""
  },
  {
   "property": "C42",
   "status": "proved",
   "theorems": [
    "IMU.Props.C42_bubble_stable",
    "IMU.Props.C42_heap_unstable",
    "IMU.Props.C42_insertion_stable",
    "IMU.Props.C42_selection_unstable"
   ],
   "note": ""
  },
  {
   "property": "C43",
   "status": "proved",
   "theorems": [
    "IMU.Props.C43_bubble_any",
    "IMU.Props.C43_heap_any",
    "IMU.Props.C43_insertion_any",
    "IMU.Props.C43_selection_any"
   ],
   "note": ""
  },
  {
   "property": "C44",
   "status": "proved",
   "theorems": [
    "IMU.Props.C44_heap_odd_depends",
    "IMU.Props.C44_heap_oob_even",
    "IMU.Props.C44_heap_oob_one"
   ],
   "note": ""
  },
  {
   "property": "C45",
   "status": "proved",
   "theorems": [
    "IMU.Props.C45_insertion_oob"
   ],
   "note": ""
  },
  {
   "property": "C46",
   "status": "proved",
   "theorems": [
    "IMU.Props.C46_all_agree",
    "IMU.Props.C46_bubble_idempotent",
    "IMU.Props.C46_insertion_idempotent",
    "IMU.Props.C46_selection_idempotent",
    "IMU.Props.C46_stable_agree"
   ],
   "note": ""
  },
  {
   "property": "C47",
   "status": "proved",
   "theorems": [
    "IMU.Props.C47_bytes",
    "IMU.Props.C47_rfc8439"
   ],
   "note": ""
  },
  {
   "property": "C48",
   "status": "proved",
   "theorems": [
    "IMU.Props.C48_involution"
   ],
   "note": ""
  },
  {
   "property": "C49",
   "status": "proved",
   "theorems": [
    "IMU.Props.C49_in_place"
   ],
   "note": ""
  },
  {
   "property": "C50",
   "status": "proved",
   "theorems": [
    "IMU.Props.C50_seekable"
   ],
   "note": ""
  },
  {
   "property": "C51",
   "status": "proved",
   "theorems": [
    "IMU.Props.C51_distinct",
    "IMU.Props.C51_reuse",
    "IMU.Props.C51_wraps"
   ],
   "note": ""
  },
  {
   "property": "C52",
   "status": "proved",
   "theorems": [
    "IMU.Props.C52_empty",
    "IMU.Props.C52_needs",
    "IMU.Props.C52_reads_only"
   ],
   "note": ""
  },
  {
   "property": "C53",
   "status": "proved",
   "theorems": [
    "IMU.Props.C53_encrypt",
    "IMU.Props.C53_needs_nul"
   ],
   "note": ""
  },
  {
   "property": "C54",
   "status": "proved",
   "theorems": [
    "IMU.Props.C54_decrypt_exact",
    "IMU.Props.C54_encrypt_inverse",
    "IMU.Props.C54_large_shift",
    "IMU.Props.C54_round_trip_fails",
    "IMU.Props.C54_round_trip_iff"
   ],
   "note": ""
  },
  {
   "property": "C55",
   "status": "proved",
   "theorems": [
    "IMU.Props.C55_round_trip_fails",
    "IMU.Props.C55_vernam_round_trip"
   ],
   "note": ""
  },
  {
   "property": "C56",
   "status": "proved",
   "theorems": [
    "IMU.Props.C56_decrypt_may_truncate",
    "IMU.Props.C56_longer_message_fails",
    "IMU.Props.C56_right_length",
    "IMU.Props.C56_wrong_length"
   ],
   "note": ""
  },
  {
   "property": "C57",
   "status": "proved",
   "theorems": [
    "IMU.Props.C57_vernam_difference",
    "IMU.Props.C57_vernam_sum"
   ],
   "note": ""
  },
  {
   "property": "C58",
   "status": "proved",
   "theorems": [
    "IMU.Props.C58_encode",
    "IMU.Props.C58_injective"
   ],
   "note": ""
  },
  {
   "property": "C59",
   "status": "proved",
   "theorems": [
    "IMU.Props.C59_round_trip",
    "IMU.Props.C59_short_fails"
   ],
   "note": ""
  },
  {
   "property": "C60",
   "status": "proved",
   "theorems": [
    "IMU.Props.C60_encode_overflow",
    "IMU.Props.C60_encode_status"
   ],
   "note": ""
  },
  {
   "property": "C61",
   "status": "proved",
   "theorems": [
    "IMU.Props.C61_encode_bounds",
    "IMU.Props.C61_off_by_one"
   ],
   "note": ""
  },
  {
   "property": "C62",
   "status": "proved",
   "theorems": [
    "IMU.Props.C62_decode",
    "IMU.Props.C62_short"
   ],
   "note": ""
  },
  {
   "property": "C63",
   "status": "proved",
   "theorems": [
    "IMU.Props.C63_footprint",
    "IMU.Props.C63_reads_behind",
    "IMU.Props.C63_reads_out_of_bounds"
   ],
   "note": ""
  },
  {
   "property": "C64",
   "status": "proved",
   "theorems": [
    "IMU.Props.C64_additions",
    "IMU.Props.C64_build"
   ],
   "note": ""
  },
  {
   "property": "C65",
   "status": "proved",
   "theorems": [
    "IMU.Props.C65_add",
    "IMU.Props.C65_end",
    "IMU.Props.C65_start"
   ],
   "note": ""
  },
  {
   "property": "C66",
   "status": "proved",
   "theorems": [
    "IMU.Props.C66_trailing_comma",
    "IMU.Props.C66_unchanged",
    "IMU.Props.C66_witness"
   ],
   "note": ""
  },
  {
   "property": "C67",
   "status": "proved",
   "theorems": [
    "IMU.Props.C67_additions",
    "IMU.Props.C67_bounds",
    "IMU.Props.C67_empty",
    "IMU.Props.C67_full",
    "IMU.Props.C67_witness"
   ],
   "note": ""
  },
  {
   "property": "C68",
   "status": "proved",
   "theorems": [
    "IMU.Props.C68_findByKey",
    "IMU.Props.C68_lookup"
   ],
   "note": ""
  },
  {
   "property": "C69",
   "status": "proved",
   "theorems": [
    "IMU.Props.C69_build_then_find",
    "IMU.Props.C69_lookup",
    "IMU.Props.C69_proviso"
   ],
   "note": ""
  },
  {
   "property": "C70",
   "status": "proved",
   "theorems": [
    "IMU.Props.C70_runs",
    "IMU.Props.C70_suffix",
    "IMU.Props.C70_wrong"
   ],
   "note": ""
  },
  {
   "property": "C71",
   "status": "proved",
   "theorems": [
    "IMU.Props.C71_footprint",
    "IMU.Props.C71_huge"
   ],
   "note": ""
  },
  {
   "property": "C72",
   "status": "proved",
   "theorems": [
    "IMU.Props.C72_published",
    "IMU.Props.crc_names",
    "IMU.Props.crc_checks"
   ],
   "note": "crc_names: all 45 functions have exactly one catalogue entry; crc_checks: the catalogue parameters give the published check values"
  },
  {
   "property": "C73",
   "status": "proved",
   "theorems": [
    "IMU.Props.C73_functions",
    "IMU.Props.C73_residue",
    "IMU.Props.C73_send"
   ],
   "note": ""
  },
  {
   "property": "C74",
   "status": "proved",
   "theorems": [
    "IMU.Props.C74_functions",
    "IMU.Props.C74_odd_errors",
    "IMU.Props.C74_undetected",
    "IMU.Props.C74_which"
   ],
   "note": ""
  },
  {
   "property": "C75",
   "status": "proved",
   "theorems": [
    "IMU.Props.C75_all",
    "IMU.Props.C75_functions",
    "IMU.Props.C75_orders",
    "IMU.Props.C75_two_bits"
   ],
   "note": ""
  },
  {
   "property": "C76",
   "status": "proved",
   "theorems": [
    "IMU.Props.C76_few_bits",
    "IMU.Props.C76_functions",
    "IMU.Props.C76_sharp"
   ],
   "note": ""
  },
  {
   "property": "C77",
   "status": "proved",
   "theorems": [
    "IMU.Props.C77_key_reuse",
    "IMU.Props.C77_one_key"
   ],
   "note": ""
  },
  {
   "property": "C78",
   "status": "proved",
   "theorems": [
    "IMU.Props.C78_distinct",
    "IMU.Props.C78_period",
    "IMU.Props.C78_shifts_add"
   ],
   "note": ""
  },
  {
   "property": "C79",
   "status": "proved",
   "theorems": [
    "IMU.Props.C79_malleable",
    "IMU.Props.C79_prefix",
    "IMU.Props.C79_reuse_leaks"
   ],
   "note": ""
  },
  {
   "property": "C80",
   "status": "proved",
   "theorems": [
    "IMU.Props.C80_empty",
    "IMU.Props.C80_every_value",
    "IMU.Props.C80_numerals"
   ],
   "note": ""
  },
  {
   "property": "C81",
   "status": "proved",
   "theorems": [
    "IMU.Props.C81_big_endian_order",
    "IMU.Props.C81_little_endian_order",
    "IMU.Props.C81_opposite"
   ],
   "note": ""
  },
  {
   "property": "C82",
   "status": "proved",
   "theorems": [
    "IMU.Props.C82_equidistributed",
    "IMU.Props.C82_forge",
    "IMU.Props.C82_functions"
   ],
   "note": ""
  },
  {
   "property": "C83",
   "status": "proved",
   "theorems": [
    "IMU.Props.C83_ascii",
    "IMU.Props.C83_exactly",
    "IMU.Props.C83_json"
   ],
   "note": ""
  },
  {
   "property": "C84",
   "status": "proved",
   "theorems": [
    "IMU.Props.C84_backslash",
    "IMU.Props.C84_injection"
   ],
   "note": ""
  },
  {
   "property": "C85",
   "status": "proved",
   "theorems": [
    "IMU.Props.C85_end_to_end"
   ],
   "note": ""
  },
  {
   "property": "C86",
   "status": "proved",
   "theorems": [
    "IMU.Props.C86_bubble_elements",
    "IMU.Props.C86_heap_elements",
    "IMU.Props.C86_insertion_elements",
    "IMU.Props.C86_selection_elements"
   ],
   "note": ""
  },
  {
   "property": "C87",
   "status": "proved",
   "theorems": [
    "IMU.Props.C87_float64_nan",
    "IMU.Props.C87_float64_sorted",
    "IMU.Props.C87_int32_sorted",
    "IMU.Props.C87_integers_unique",
    "IMU.Props.C87_uint64_sorted"
   ],
   "note": ""
  },
  {
   "property": "C88",
   "status": "proved",
   "theorems": [
    "IMU.Props.C88_interleaving",
    "IMU.Props.C88_noninterference"
   ],
   "note": ""
  },
  {
   "property": "C89",
   "status": "proved",
   "theorems": [
    "IMU.Props.C89_combine",
    "IMU.Props.C89_determines",
    "IMU.Props.C89_exchange"
   ],
   "note": ""
  },
  {
   "property": "C90",
   "status": "proved",
   "theorems": [
    "IMU.Props.C90_bursts",
    "IMU.Props.C90_fraction",
    "IMU.Props.C90_functions",
    "IMU.Props.C90_longer",
    "IMU.Props.C90_next"
   ],
   "note": ""
  },
  {
   "property": "C91",
   "status": "proved",
   "theorems": [
    "IMU.Props.C91_distinct",
    "IMU.Props.C91_same_polynomial"
   ],
   "note": ""
  },
  {
   "property": "C92",
   "status": "proved",
   "theorems": [
    "IMU.Props.C92_fifo",
    "IMU.Props.C92_linearizable",
    "IMU.Props.C92_uninterrupted_dequeue",
    "IMU.Props.C92_uninterrupted_enqueue",
    "IMU.Props.C92_wait_free"
   ],
   "note": ""
  },
  {
   "property": "C93",
   "status": "proved",
   "theorems": [
    "IMU.Props.C93_duplicated",
    "IMU.Props.C93_lost",
    "IMU.Props.C93_not_linearizable",
    "IMU.Props.C93_two_consumers",
    "IMU.Props.C93_two_producers"
   ],
   "note": ""
  },
  {
   "property": "C94",
   "status": "proved",
   "theorems": [
    "IMU.Props.C94_bubble",
    "IMU.Props.C94_heap",
    "IMU.Props.C94_insertion",
    "IMU.Props.C94_instances",
    "IMU.Props.C94_selection"
   ],
   "note": ""
  },
  {
   "property": "C95",
   "status": "proved",
   "theorems": [
    "IMU.Props.C95_bubble",
    "IMU.Props.C95_bubble_best",
    "IMU.Props.C95_heap",
    "IMU.Props.C95_insertion",
    "IMU.Props.C95_insertion_best",
    "IMU.Props.C95_selection"
   ],
   "note": ""
  },
  {
   "property": "C96",
   "status": "proved",
   "theorems": [
    "IMU.Props.C96_constant_time",
    "IMU.Props.C96_same_code",
    "IMU.Props.C96_total"
   ],
   "note": ""
  },
  {
   "property": "C97",
   "status": "proved",
   "theorems": [
    "IMU.Props.C97_base64",
    "IMU.Props.C97_base64_digits",
    "IMU.Props.C97_crc16",
    "IMU.Props.C97_crc32",
    "IMU.Props.C97_crc8",
    "IMU.Props.C97_same_code"
   ],
   "note": ""
  },
  {
   "property": "C98",
   "status": "proved",
   "theorems": [
    "IMU.Props.C98_decrypt",
    "IMU.Props.C98_encrypt",
    "IMU.Props.C98_same_code"
   ],
   "note": ""
  },
  {
   "property": "C99",
   "status": "proved",
   "theorems": [
    "IMU.Props.C99_decode",
    "IMU.Props.C99_encode",
    "IMU.Props.C99_round_trip"
   ],
   "note": ""
  },
  {
   "property": "C100",
   "status": "proved",
   "theorems": [
    "IMU.Props.C100_end_wraps",
    "IMU.Props.C100_same",
    "IMU.Props.C100_wraps"
   ],
   "note": ""
  },
  {
   "property": "C101",
   "status": "proved",
   "theorems": [
    "IMU.Props.C101_alphabets",
    "IMU.Props.C101_outside",
    "IMU.Props.C101_same"
   ],
   "note": ""
  },
  {
   "property": "C102",
   "status": "proved",
   "theorems": [
    "IMU.Props.C102_limit_necessary"
   ],
   "note": ""
  },
  {
   "property": "C103",
   "status": "proved",
   "theorems": [
    "IMU.Props.C103_bubble_limit",
    "IMU.Props.C103_heap_limit",
    "IMU.Props.C103_insertion_limit",
    "IMU.Props.C103_int_min",
    "IMU.Props.C103_nothing_to_do",
    "IMU.Props.C103_selection_limit"
   ],
   "note": ""
  },
  {
   "property": "C104",
   "status": "proved",
   "theorems": [
    "IMU.Props.C104_pq_own_full",
    "IMU.Props.C104_pq_own_reject",
    "IMU.Props.C104_pq_own_room",
    "IMU.Props.C104_pq_value",
    "IMU.Props.C104_queue_own",
    "IMU.Props.C104_queue_target"
   ],
   "note": ""
  },
  {
   "property": "C105",
   "status": "proved",
   "theorems": [
    "IMU.Props.C105_all",
    "IMU.Props.C105_detects",
    "IMU.Props.C105_functions",
    "IMU.Props.C105_misses",
    "IMU.Props.C105_tables",
    "IMU.Props.C105_unique"
   ],
   "note": ""
  },
  {
   "property": "C106",
   "status": "proved",
   "theorems": [
    "IMU.Props.C106_insertion_in_itself",
    "IMU.Props.C106_nested",
    "IMU.Props.C106_overwritten",
    "IMU.Props.C106_remains"
   ],
   "note": ""
  },
  {
   "property": "C107",
   "status": "proved",
   "theorems": [
    "IMU.Props.C107_any_message",
    "IMU.Props.C107_both_ends",
    "IMU.Props.C107_dead_line",
    "IMU.Props.C107_leading",
    "IMU.Props.C107_numbers",
    "IMU.Props.C107_table",
    "IMU.Props.C107_trailing"
   ],
   "note": ""
  },
  {
   "property": "C108",
   "status": "proved",
   "theorems": [
    "IMU.Props.C108_blobBE_overlap",
    "IMU.Props.C108_blobLE_in_place",
    "IMU.Props.C108_blobLE_overlap",
    "IMU.Props.C108_swap_overlap"
   ],
   "note": ""
  },
  {
   "property": "C109",
   "status": "proved",
   "theorems": [
    "IMU.Props.C109_after_the_check",
    "IMU.Props.C109_dequeue_met_by_dequeue",
    "IMU.Props.C109_dequeue_met_by_enqueue_harmless",
    "IMU.Props.C109_dequeue_met_by_enqueue_loses",
    "IMU.Props.C109_enqueue_met_by_dequeue",
    "IMU.Props.C109_enqueue_met_by_enqueue",
    "IMU.Props.C109_quiet",
    "IMU.Props.C109_undefined"
   ],
   "note": ""
  },
  {
   "property": "C110",
   "status": "proved",
   "theorems": [
    "IMU.Props.C110_ends",
    "IMU.Props.C110_fills",
    "IMU.Props.C110_full",
    "IMU.Props.C110_history",
    "IMU.Props.C110_restart",
    "IMU.Props.C110_run"
   ],
   "note": ""
  },
  {
   "property": "C111",
   "status": "proved",
   "theorems": [
    "IMU.Props.C111_insert_meets_lookup",
    "IMU.Props.C111_insert_meets_update",
    "IMU.Props.C111_last_place",
    "IMU.Props.C111_lookup_meets_new_key",
    "IMU.Props.C111_lookup_meets_update",
    "IMU.Props.C111_quiet",
    "IMU.Props.C111_two_new_keys",
    "IMU.Props.C111_update_meets_new_key"
   ],
   "note": ""
  },
  {
   "property": "C112",
   "status": "proved",
   "theorems": [
    "IMU.Props.C112_add_own_key",
    "IMU.Props.C112_add_own_value",
    "IMU.Props.C112_encode_defined",
    "IMU.Props.C112_encode_exact",
    "IMU.Props.C112_encode_near",
    "IMU.Props.C112_find",
    "IMU.Props.C112_find_in_place",
    "IMU.Props.C112_find_none"
   ],
   "note": ""
  },
  {
   "property": "C113",
   "status": "proved",
   "theorems": [
    "IMU.Props.C113_bubble",
    "IMU.Props.C113_insertion",
    "IMU.Props.C113_nearly_sorted",
    "IMU.Props.C113_reversed",
    "IMU.Props.C113_sorted"
   ],
   "note": ""
  },
  {
   "property": "C114",
   "status": "proved",
   "theorems": [
    "IMU.Props.C114_full",
    "IMU.Props.C114_lookup",
    "IMU.Props.C114_lookup_fails",
    "IMU.Props.C114_new_key",
    "IMU.Props.C114_own_key",
    "IMU.Props.C114_own_value",
    "IMU.Props.C114_update",
    "IMU.Props.C114_value_in_free_key_place",
    "IMU.Props.C114_value_over_free_key_place"
   ],
   "note": ""
  },
  {
   "property": "C115",
   "status": "proved",
   "theorems": [
    "IMU.Props.C115_add",
    "IMU.Props.C115_lost",
    "IMU.Props.C115_quiet",
    "IMU.Props.C115_run_meets_addition",
    "IMU.Props.C115_run_meets_additions",
    "IMU.Props.C115_run_meets_init"
   ],
   "note": ""
  },
  {
   "property": "C116",
   "status": "proved",
   "theorems": [
    "IMU.Props.C116_dequeue_free",
    "IMU.Props.C116_dequeue_front",
    "IMU.Props.C116_dequeue_over_element",
    "IMU.Props.C116_enqueue",
    "IMU.Props.C116_pq_dequeue",
    "IMU.Props.C116_pq_free_place",
    "IMU.Props.C116_pq_over_newer",
    "IMU.Props.C116_pq_over_older",
    "IMU.Props.C116_rear"
   ],
   "note": ""
  },
  {
   "property": "C117",
   "status": "proved",
   "theorems": [
    "IMU.Props.C117_chacha_behind",
    "IMU.Props.C117_chacha_behind_loses",
    "IMU.Props.C117_chacha_exact",
    "IMU.Props.C117_chacha_key_in_result",
    "IMU.Props.C117_chacha_one_block",
    "IMU.Props.C117_chacha_right_bytes",
    "IMU.Props.C117_vernam_decrypt",
    "IMU.Props.C117_vernam_encrypt",
    "IMU.Props.C117_vernam_front_decrypt",
    "IMU.Props.C117_vernam_front_encrypt",
    "IMU.Props.C117_vernam_front_round_trip",
    "IMU.Props.C117_vernam_self_decrypt",
    "IMU.Props.C117_vernam_self_encrypt",
    "IMU.Props.C117_vernam_self_round_trip"
   ],
   "note": ""
  },
  {
   "property": "C118",
   "status": "proved",
   "theorems": [
    "IMU.Props.C118_caesar_32",
    "IMU.Props.C118_caesar_decrypt",
    "IMU.Props.C118_caesar_encrypt",
    "IMU.Props.C118_caesar_round_trip_iff",
    "IMU.Props.C118_caesar_targets",
    "IMU.Props.C118_crc",
    "IMU.Props.C118_utils"
   ],
   "note": ""
  },
  {
   "property": "C119",
   "status": "proved",
   "theorems": [
    "IMU.Props.C119_bubble",
    "IMU.Props.C119_heap",
    "IMU.Props.C119_insertion",
    "IMU.Props.C119_instances",
    "IMU.Props.C119_same",
    "IMU.Props.C119_selection",
    "IMU.Props.C119_selection_most"
   ],
   "note": ""
  },
  {
   "property": "C120",
   "status": "proved",
   "theorems": [
    "IMU.Props.C120_eight",
    "IMU.Props.C120_exchange",
    "IMU.Props.C120_neighbours",
    "IMU.Props.C120_noticed",
    "IMU.Props.C120_same_change",
    "IMU.Props.C120_table"
   ],
   "note": ""
  },
  {
   "property": "C121",
   "status": "proved",
   "theorems": [
    "IMU.Props.C121_circle",
    "IMU.Props.C121_circle_exists",
    "IMU.Props.C121_endless",
    "IMU.Props.C121_first_key",
    "IMU.Props.C121_limit_right",
    "IMU.Props.C121_limit_wrong",
    "IMU.Props.C121_missed",
    "IMU.Props.C121_right"
   ],
   "note": ""
  },
  {
   "property": "C122",
   "status": "proved",
   "theorems": [
    "IMU.Props.C122_decode",
    "IMU.Props.C122_encode",
    "IMU.Props.C122_end_wraps",
    "IMU.Props.C122_round_trip",
    "IMU.Props.C122_same",
    "IMU.Props.C122_wraps"
   ],
   "note": ""
  },
  {
   "property": "C123",
   "status": "proved",
   "theorems": [
    "IMU.Props.C123_drain",
    "IMU.Props.C123_fill_and_drain",
    "IMU.Props.C123_no_wait",
    "IMU.Props.C123_overload",
    "IMU.Props.C123_starvation",
    "IMU.Props.C123_wait"
   ],
   "note": ""
  },
  {
   "property": "C124",
   "status": "proved",
   "theorems": [
    "IMU.Props.C124_damage",
    "IMU.Props.C124_decode_pieces",
    "IMU.Props.C124_decrypt",
    "IMU.Props.C124_encode_local",
    "IMU.Props.C124_encode_pieces",
    "IMU.Props.C124_local"
   ],
   "note": ""
  },
  {
   "property": "C125",
   "status": "proved",
   "theorems": [
    "IMU.Props.C125_all",
    "IMU.Props.C125_bubble",
    "IMU.Props.C125_heap",
    "IMU.Props.C125_insertion",
    "IMU.Props.C125_keys",
    "IMU.Props.C125_selection"
   ],
   "note": ""
  },
  {
   "property": "C126",
   "status": "proved",
   "theorems": [
    "IMU.Props.C126_first_any",
    "IMU.Props.C126_once",
    "IMU.Props.C126_stable",
    "IMU.Props.C126_unstable"
   ],
   "note": ""
  },
  {
   "property": "C127",
   "status": "proved",
   "theorems": [
    "IMU.Props.C127_fifo",
    "IMU.Props.C127_queue",
    "IMU.Props.C127_stack"
   ],
   "note": ""
  },
  {
   "property": "C128",
   "status": "proved",
   "theorems": [
    "IMU.Props.C128_change",
    "IMU.Props.C128_fix",
    "IMU.Props.C128_fix_value"
   ],
   "note": ""
  },
  {
   "property": "C129",
   "status": "proved",
   "theorems": [
    "IMU.Props.C129_map",
    "IMU.Props.C129_map_undo",
    "IMU.Props.C129_pq",
    "IMU.Props.C129_pq_dequeue",
    "IMU.Props.C129_pq_dequeues",
    "IMU.Props.C129_pq_undo",
    "IMU.Props.C129_queue",
    "IMU.Props.C129_queue_overrun",
    "IMU.Props.C129_queue_reread",
    "IMU.Props.C129_queue_undo"
   ],
   "note": ""
  },
  {
   "property": "C130",
   "status": "proved",
   "theorems": [
    "IMU.Props.C130_any_order",
    "IMU.Props.C130_keys",
    "IMU.Props.C130_lookup",
    "IMU.Props.C130_same"
   ],
   "note": ""
  },
  {
   "property": "C131",
   "status": "proved",
   "theorems": [
    "IMU.Props.C131_exchanged",
    "IMU.Props.C131_noticed",
    "IMU.Props.C131_wide",
    "IMU.Props.C131_wrong_character"
   ],
   "note": ""
  },
  {
   "property": "C132",
   "status": "proved",
   "theorems": [
    "IMU.Props.C132_dequeue",
    "IMU.Props.C132_enqueue",
    "IMU.Props.C132_priorities",
    "IMU.Props.C132_queue",
    "IMU.Props.C132_same_code"
   ],
   "note": ""
  },
  {
   "property": "C133",
   "status": "proved",
   "theorems": [
    "IMU.Props.C133_attack",
    "IMU.Props.C133_attack_reachable",
    "IMU.Props.C133_insert",
    "IMU.Props.C133_lookup",
    "IMU.Props.C133_reveals",
    "IMU.Props.C133_same_code"
   ],
   "note": ""
  },
  {
   "property": "C134",
   "status": "proved",
   "theorems": [
    "IMU.Props.C134_decrypt",
    "IMU.Props.C134_direction",
    "IMU.Props.C134_encrypt",
    "IMU.Props.C134_same_code"
   ],
   "note": ""
  },
  {
   "property": "C135",
   "status": "proved",
   "theorems": [
    "IMU.Props.C135_any_order",
    "IMU.Props.C135_exact",
    "IMU.Props.C135_interleaving",
    "IMU.Props.C135_overflow",
    "IMU.Props.C135_same"
   ],
   "note": ""
  },
  {
   "property": "C136",
   "status": "proved",
   "theorems": [
    "IMU.Props.C136_dequeue",
    "IMU.Props.C136_enqueue",
    "IMU.Props.C136_insert",
    "IMU.Props.C136_lookup",
    "IMU.Props.C136_map_worst",
    "IMU.Props.C136_peek",
    "IMU.Props.C136_pq_dequeue",
    "IMU.Props.C136_pq_enqueue",
    "IMU.Props.C136_pq_worst"
   ],
   "note": ""
  },
  {
   "property": "C137",
   "status": "proved",
   "theorems": [
    "IMU.Props.C137_base64",
    "IMU.Props.C137_caesar",
    "IMU.Props.C137_chacha",
    "IMU.Props.C137_crc",
    "IMU.Props.C137_vernam",
    "IMU.Props.C137_vernam_refused"
   ],
   "note": ""
  },
  {
   "property": "C138",
   "status": "proved",
   "theorems": [
    "IMU.Props.C138_defined",
    "IMU.Props.C138_moved",
    "IMU.Props.C138_order",
    "IMU.Props.C138_packed",
    "IMU.Props.C138_rewrite",
    "IMU.Props.C138_sealed",
    "IMU.Props.C138_update",
    "IMU.Props.C138_write"
   ],
   "note": ""
  },
  {
   "property": "C139",
   "status": "proved",
   "theorems": [
    "IMU.Props.C139_answers",
    "IMU.Props.C139_blind",
    "IMU.Props.C139_fifo",
    "IMU.Props.C139_steps",
    "IMU.Props.C139_stuck"
   ],
   "note": ""
  },
  {
   "property": "C140",
   "status": "proved",
   "theorems": [
    "IMU.Props.C140_additions",
    "IMU.Props.C140_blocked",
    "IMU.Props.C140_calls",
    "IMU.Props.C140_final",
    "IMU.Props.C140_open",
    "IMU.Props.C140_stale",
    "IMU.Props.C140_stale_call",
    "IMU.Props.C140_stale_witness",
    "IMU.Props.C140_text"
   ],
   "note": ""
  },
  {
   "property": "C141",
   "status": "proved",
   "theorems": [
    "IMU.Props.C141_bound",
    "IMU.Props.C141_found",
    "IMU.Props.C141_linear",
    "IMU.Props.C141_quadratic",
    "IMU.Props.C141_same_code",
    "IMU.Props.C141_steps",
    "IMU.Props.C141_worst"
   ],
   "note": ""
  },
  {
   "property": "C142",
   "status": "proved",
   "theorems": [
    "IMU.Props.C142_lookups",
    "IMU.Props.C142_refused",
    "IMU.Props.C142_refused_calls",
    "IMU.Props.C142_same_code",
    "IMU.Props.C142_shown",
    "IMU.Props.C142_steps",
    "IMU.Props.C142_tells"
   ],
   "note": ""
  },
  {
   "property": "C143",
   "status": "proved",
   "theorems": [
    "IMU.Props.C143_add",
    "IMU.Props.C143_additions",
    "IMU.Props.C143_bound",
    "IMU.Props.C143_build",
    "IMU.Props.C143_calls",
    "IMU.Props.C143_end",
    "IMU.Props.C143_quadratic",
    "IMU.Props.C143_same_code",
    "IMU.Props.C143_shortest"
   ],
   "note": ""
  },
  {
   "property": "C144",
   "status": "proved",
   "theorems": [
    "IMU.Props.C144_all",
    "IMU.Props.C144_guess",
    "IMU.Props.C144_same_code",
    "IMU.Props.C144_shown",
    "IMU.Props.C144_value"
   ],
   "note": ""
  },
  {
   "property": "C145",
   "status": "proved",
   "theorems": [
    "IMU.Props.C145_add",
    "IMU.Props.C145_build",
    "IMU.Props.C145_same_code",
    "IMU.Props.C145_tells"
   ],
   "note": ""
  },
  {
   "property": "C146",
   "status": "proved",
   "theorems": [
    "IMU.Props.C146_accepted",
    "IMU.Props.C146_most",
    "IMU.Props.C146_same_code",
    "IMU.Props.C146_shown",
    "IMU.Props.C146_steps"
   ],
   "note": ""
  },
  {
   "property": "C147",
   "status": "proved",
   "theorems": [
    "IMU.Props.C147_bubble",
    "IMU.Props.C147_bubble_order",
    "IMU.Props.C147_heap",
    "IMU.Props.C147_heap_order",
    "IMU.Props.C147_insertion",
    "IMU.Props.C147_insertion_order",
    "IMU.Props.C147_same_code",
    "IMU.Props.C147_selection",
    "IMU.Props.C147_selection_order"
   ],
   "note": ""
  },
  {
   "property": "C148",
   "status": "proved",
   "theorems": [
    "IMU.Props.C148_bubble",
    "IMU.Props.C148_heap",
    "IMU.Props.C148_insertion",
    "IMU.Props.C148_reached",
    "IMU.Props.C148_selection"
   ],
   "note": ""
  },
  {
   "property": "C149",
   "status": "proved",
   "theorems": [
    "IMU.Props.C149_blob",
    "IMU.Props.C149_deserialize",
    "IMU.Props.C149_reflect",
    "IMU.Props.C149_same_code",
    "IMU.Props.C149_serialize",
    "IMU.Props.C149_swap"
   ],
   "note": ""
  },
  {
   "property": "C150",
   "status": "proved",
   "theorems": [
    "IMU.Props.C150_add",
    "IMU.Props.C150_init",
    "IMU.Props.C150_run",
    "IMU.Props.C150_run_any",
    "IMU.Props.C150_same_code"
   ],
   "note": ""
  }
 ]
}
