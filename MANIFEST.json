{
 "claims": [
  {
   "property": "C01",
   "status": "proved",
   "theorems": [
    "Dronecan.C01_bytes_roundtrip",
    "Dronecan.C01_bits_roundtrip",
    "Dronecan.C01_bit_positions"
   ],
   "note": ""
  },
  {
   "property": "C02",
   "status": "proved",
   "theorems": [
    "Dronecan.C02_le_be_le",
    "Dronecan.C02_be_le_be",
    "Dronecan.C02_width"
   ],
   "note": ""
  },
  {
   "property": "C03",
   "status": "proved",
   "theorems": [
    "Dronecan.C03_unsigned_saturated",
    "Dronecan.C03_unsigned_truncated",
    "Dronecan.C03_boolean"
   ],
   "note": ""
  },
  {
   "property": "C04",
   "status": "partial",
   "theorems": [
    "Dronecan.C04_signed_truncated",
    "Dronecan.C04_signed_saturated_partial",
    "Dronecan.C04_signed_saturated_counterexample",
    "Dronecan.C04_signed_saturated_wide_partial"
   ],
   "note": "False of the code for saturated signed widths 54..64 (floating-point limit computation); proved for truncated mode at every width, for saturated mode up to 53 bits, and the wide behaviour is characterised exactly."
  },
  {
   "property": "C05",
   "status": "proved",
   "theorems": [
    "Dronecan.C05_wire_layout",
    "Dronecan.C05_bytes_little_endian"
   ],
   "note": ""
  },
  {
   "property": "C06",
   "status": "proved",
   "theorems": [
    "Dronecan.C06_roundtrip",
    "Dronecan.C06_roundtrip_tao",
    "Dronecan.C06_roundtrip_bytes",
    "Dronecan.C06_roundtrip_exact",
    "Dronecan.C06_content_is_canonical",
    "Dronecan.C06_api_roundtrip"
   ],
   "note": ""
  },
  {
   "property": "C07",
   "status": "proved",
   "theorems": [
    "Dronecan.C07_encoded_size",
    "Dronecan.CodecBounds.C07_max_attained",
    "Dronecan.CodecBounds.C07_min_attained"
   ],
   "note": ""
  },
  {
   "property": "C08",
   "status": "proved",
   "theorems": [
    "Dronecan.C08_terminates",
    "Dronecan.C08_consumes_prefix",
    "Dronecan.C08_decoded_reencodes"
   ],
   "note": ""
  },
  {
   "property": "C09",
   "status": "partial",
   "theorems": [
    "Dronecan.C09_counterexample",
    "Dronecan.C09_encoder_output_partial",
    "Dronecan.C09_pow2_partial"
   ],
   "note": "False of the code (decoder does not check the declared maximum); counterexamples proved, plus what does hold."
  },
  {
   "property": "C10",
   "status": "partial",
   "theorems": [
    "Dronecan.C10_field_elements",
    "Dronecan.C10_api_objects",
    "Dronecan.C10_step",
    "Dronecan.C10_history",
    "Dronecan.C10_reads",
    "Dronecan.C10_pop",
    "Dronecan.C10_integer_elements",
    "Dronecan.C10_object_elements",
    "Dronecan.C10_counterexample",
    "Dronecan.C10_failed_unchanged_partial"
   ],
   "note": "Capacity and list semantics proved for every history. The clause 'failed operations leave the contents unchanged' is false for assigning a whole list to an array field (and for extend): counterexample proved, true for every single-element operation, and the exact contents left behind are characterised."
  },
  {
   "property": "C11",
   "status": "proved",
   "theorems": [
    "Dronecan.C11_other_field_refused",
    "Dronecan.C11_active_field",
    "Dronecan.C11_stays_active",
    "Dronecan.C11_read_activates",
    "Dronecan.C11_encoding"
   ],
   "note": ""
  },
  {
   "property": "C12",
   "status": "proved",
   "theorems": [
    "Dronecan.C12_header_roundtrip",
    "Dronecan.C12_no_overlap",
    "Dronecan.C12_id_roundtrip",
    "Dronecan.C12_anonymous_dtid"
   ],
   "note": ""
  },
  {
   "property": "C13",
   "status": "proved",
   "theorems": [
    "Dronecan.C13_succeeds_iff",
    "Dronecan.C13_frame_sequence"
   ],
   "note": ""
  },
  {
   "property": "C14",
   "status": "proved",
   "theorems": [
    "Dronecan.C14_bytes_roundtrip",
    "Dronecan.C14_header_roundtrip",
    "Dronecan.C14_end_to_end",
    "Dronecan.C14_by_direction",
    "Dronecan.C14_received_attributes"
   ],
   "note": ""
  },
  {
   "property": "C15",
   "status": "partial",
   "theorems": [
    "Dronecan.C15_exact_partial",
    "Dronecan.C15_counterexample",
    "Dronecan.C15_roundup_least"
   ],
   "note": "False of the code (a 62-byte payload gives a 63-byte frame); the exact set of payload lengths for which it holds is proved."
  },
  {
   "property": "C16",
   "status": "proved",
   "theorems": [
    "Dronecan.C16_repeatable"
   ],
   "note": ""
  },
  {
   "property": "C17",
   "status": "proved",
   "theorems": [
    "Dronecan.C17_accepts_iff",
    "Dronecan.C17_refuses_with_transfer_error",
    "Dronecan.C17_from_frames"
   ],
   "note": ""
  },
  {
   "property": "C18",
   "status": "proved",
   "theorems": [
    "Dronecan.C18_double_error",
    "Dronecan.C18_crc_changes",
    "Dronecan.C18_altered_payload_refused",
    "Dronecan.C18_altered_crc_refused",
    "Dronecan.C18_end_to_end"
   ],
   "note": ""
  },
  {
   "property": "C19",
   "status": "proved",
   "theorems": [
    "Dronecan.C19_odd_loss_detected",
    "Dronecan.C19_truncation_detected",
    "Dronecan.C19_duplicate_detected",
    "Dronecan.C19_swap_detected"
   ],
   "note": ""
  },
  {
   "property": "C20",
   "status": "proved",
   "theorems": [
    "Dronecan.C20_non_interference"
   ],
   "note": ""
  },
  {
   "property": "C21",
   "status": "proved",
   "theorems": [
    "Dronecan.C21_reassembled_iff",
    "Dronecan.C21_kept_iff",
    "Dronecan.C21_empty_frame_ignored",
    "Dronecan.C21_key_and_flags"
   ],
   "note": ""
  },
  {
   "property": "C22",
   "status": "partial",
   "theorems": [
    "Dronecan.C22_counterexample",
    "Dronecan.C22_nothing_stale_partial",
    "Dronecan.C22_first_stale_partial",
    "Dronecan.C22_repeated_partial"
   ],
   "note": "False of the code (deleting while iterating raises RuntimeError after the first deletion); exact behaviour of one call and of repeated calls proved."
  },
  {
   "property": "C23",
   "status": "proved",
   "theorems": [
    "Dronecan.C23_request_is_accepted",
    "Dronecan.C23_broadcast_is_accepted",
    "Dronecan.C23_transfer_id",
    "Dronecan.C23_on_the_wire"
   ],
   "note": ""
  },
  {
   "property": "C24",
   "status": "proved",
   "theorems": [
    "Dronecan.C24_request_accepted",
    "Dronecan.C24_at_most_once",
    "Dronecan.C24_exactly_once",
    "Dronecan.C24_stays_once",
    "Dronecan.C24_raising_counterexample"
   ],
   "note": "The assumption that callbacks do not raise is necessary: C24_raising_counterexample."
  },
  {
   "property": "C25",
   "status": "proved",
   "theorems": [
    "Dronecan.C25_only_own_response",
    "Dronecan.C25_delivered",
    "Dronecan.C25_unmatched_ignored"
   ],
   "note": ""
  },
  {
   "property": "C26",
   "status": "proved",
   "theorems": [
    "Dronecan.C26_standard_frames",
    "Dronecan.C26_incomplete",
    "Dronecan.C26_message",
    "Dronecan.C26_request_here",
    "Dronecan.C26_request_elsewhere",
    "Dronecan.C26_response_here",
    "Dronecan.C26_response_elsewhere",
    "Dronecan.C26_response_sniffed"
   ],
   "note": ""
  },
  {
   "property": "C27",
   "status": "proved",
   "theorems": [
    "Dronecan.C27_table",
    "Dronecan.C27_handles_distinct",
    "Dronecan.C27_remove_absent",
    "Dronecan.C27_remove_twice",
    "Dronecan.C27_remove_type"
   ],
   "note": ""
  },
  {
   "property": "C28",
   "status": "proved",
   "theorems": [
    "Dronecan.C28_catching",
    "Dronecan.C28_propagating"
   ],
   "note": ""
  },
  {
   "property": "C29",
   "status": "proved",
   "theorems": [
    "Dronecan.C29_calls_raise",
    "Dronecan.C29_never_transmits"
   ],
   "note": ""
  },
  {
   "property": "C30",
   "status": "proved",
   "theorems": [
    "Dronecan.C30_never_changes",
    "Dronecan.C30_only_valid",
    "Dronecan.C30_assignments"
   ],
   "note": ""
  },
  {
   "property": "C31",
   "status": "partial",
   "theorems": [
    "Dronecan.C31_wire",
    "Dronecan.C31_nonzero_partial",
    "Dronecan.C31_zero_becomes_default",
    "Dronecan.C31_responses",
    "Dronecan.C31_counterexample"
   ],
   "note": "False of the code for priority 0 (`priority or DEFAULT` replaces it by 20): counterexample proved; proved for 1..31 on every history, and for responses including 0."
  },
  {
   "property": "C32",
   "status": "partial",
   "theorems": [
    "Dronecan.C32_spin0",
    "Dronecan.C32_spin0_receives",
    "Dronecan.C32_counterexample",
    "Dronecan.C32_spin_timeout_partial"
   ],
   "note": "Proved for spin(0). False of the code for spin(timeout), which counts only the first frame: counterexample proved, and the value it does return is characterised."
  },
  {
   "property": "C33",
   "status": "proved",
   "theorems": [
    "Dronecan.C33_never_early",
    "Dronecan.C33_order",
    "Dronecan.C33_poll_complete"
   ],
   "note": ""
  },
  {
   "property": "C34",
   "status": "proved",
   "theorems": [
    "Dronecan.C34_one_shot_once",
    "Dronecan.C34_called_when_due",
    "Dronecan.C34_never_after_cancel",
    "Dronecan.C34_cancel_iff_pending",
    "Dronecan.C34_cancel_result",
    "Dronecan.C34_cancel_in_callback"
   ],
   "note": ""
  },
  {
   "property": "C35",
   "status": "proved",
   "theorems": [
    "Dronecan.C35_no_drift"
   ],
   "note": ""
  },
  {
   "property": "C36",
   "status": "proved",
   "theorems": [
    "Dronecan.Monitor.C36_heard",
    "Dronecan.Monitor.C36_last_heard",
    "Dronecan.Monitor.C36_sweep",
    "Dronecan.Monitor.C36_kept",
    "Dronecan.Monitor.C36_get"
   ],
   "note": "The sweep theorem is about sweeps that complete (an update callback that raises aborts the sweep); the last-heard characterisation assumes callbacks that do not raise."
  },
  {
   "property": "C37",
   "status": "proved",
   "theorems": [
    "Dronecan.Monitor.C37_spacing",
    "Dronecan.Monitor.C37_asked",
    "Dronecan.Monitor.C37_bounded",
    "Dronecan.Monitor.C37_discovered"
   ],
   "note": "A GetNodeInfo request (not response) of the node, which the sniffing handler also receives, resets the retry counter and is counted as a reset; \"raises AttributeError afterwards\" is modelled."
  },
  {
   "property": "C38",
   "status": "partial",
   "theorems": [
    "Dronecan.Monitor.C38_counterexample",
    "Dronecan.Monitor.C38_events_partial"
   ],
   "note": "False of the code when an update callback raises inside get(): the OFFLINE event is emitted but the entry stays. Counterexample proved; proved for every history with callbacks that do not raise."
  },
  {
   "property": "C39",
   "status": "proved",
   "theorems": [
    "Dronecan.Alloc.C39_moment",
    "Dronecan.Alloc.C39_unique",
    "Dronecan.Alloc.C39_start"
   ],
   "note": ""
  },
  {
   "property": "C40",
   "status": "partial",
   "theorems": [
    "Dronecan.Alloc.C40_counterexample",
    "Dronecan.Alloc.C40_stable_partial"
   ],
   "note": "False of the code: if the monitor reports the device under another node ID, it is granted that one later. Counterexample proved; proved for histories in which the initial table and the monitor know the device under no other node ID."
  },
  {
   "property": "C41",
   "status": "partial",
   "theorems": [
    "Dronecan.Alloc.C41_counterexample",
    "Dronecan.Alloc.C41_range_partial"
   ],
   "note": "False of the code: a device that asks for a free ID below the range gets it. Counterexample proved; proved that the ID never exceeds the upper end, and lies in the range unless the device asked for one below it."
  },
  {
   "property": "C42",
   "status": "proved",
   "theorems": [
    "Dronecan.Alloc.C42_grant",
    "Dronecan.Alloc.C42_completes"
   ],
   "note": ""
  },
  {
   "property": "C43",
   "status": "proved",
   "theorems": [
    "Dronecan.Coll.C43_getitem",
    "Dronecan.Coll.C43_contains",
    "Dronecan.Coll.C43_iter",
    "Dronecan.Coll.C43_iter_exact",
    "Dronecan.Coll.C43_len",
    "Dronecan.Coll.C43_len_iter"
   ],
   "note": ""
  },
  {
   "property": "C44",
   "status": "proved",
   "theorems": [
    "Dronecan.Files.C44_read",
    "Dronecan.Files.C44_fetch",
    "Dronecan.Files.C44_info",
    "Dronecan.Files.C44_missing"
   ],
   "note": "A path that is not valid UTF-8 makes the handlers raise before their try block; this is modelled (the file then is not served)."
  },
  {
   "property": "C45",
   "status": "partial",
   "theorems": [
    "Dronecan.Files.C45_counterexample",
    "Dronecan.Files.C45_counterexample_dots",
    "Dronecan.Files.C45_tame_partial",
    "Dronecan.Files.C45_exact"
   ],
   "note": "False of the code: absolute requests, and requests with enough \"..\", are served from anywhere (counterexamples proved). Proved for all relative requests that do not climb above their starting point, and that these are exactly the safe ones (C45_exact)."
  },
  {
   "property": "C46",
   "status": "proved",
   "theorems": [
    "Dronecan.Serial.C46_fifo",
    "Dronecan.Serial.C46_read",
    "Dronecan.Serial.C46_flush",
    "Dronecan.Serial.C46_write"
   ],
   "note": ""
  },
  {
   "property": "C47",
   "status": "partial",
   "theorems": [
    "Dronecan.Slcan.C47_counterexample",
    "Dronecan.Slcan.C47_extended_partial",
    "Dronecan.Slcan.C47_text_partial",
    "Dronecan.Slcan.C47_standard_rx"
   ],
   "note": "False of the code for standard (11-bit) frames: sending one raises TypeError (format string with one conversion for two arguments), proved as C47_counterexample. Proved for every extended frame, classic or FD, with or without time stamp; and that the receiving side parses standard lines (C47_standard_rx)."
  },
  {
   "property": "C48",
   "status": "partial",
   "theorems": [
    "Dronecan.Slcan.C48_stream_partial",
    "Dronecan.Slcan.C48_split_partial",
    "Dronecan.Slcan.C48_malformed_partial",
    "Dronecan.Slcan.C48_counterexample",
    "Dronecan.Slcan.C48_malformed_counterexample",
    "Dronecan.Slcan.C48_cli_partial",
    "Dronecan.Slcan.C48_delivered"
   ],
   "note": "False of the code around command-line mode: the rest of the read in which a command ends is treated as command output, and a response line that is not UTF-8 loses the frame lines after it (counterexamples proved). Proved for all streams and splits while no command is executed, and for all streams and splits while one command is outstanding (until its end of text or deadline). What becomes of the lines processed: C48_delivered (a line for which a time stamp estimator raises is dropped, C142)."
  },
  {
   "property": "C49",
   "status": "partial",
   "theorems": [
    "Dronecan.LogFile.C49_roundtrip_partial",
    "Dronecan.LogFile.C49_truncated_partial",
    "Dronecan.LogFile.C49_stamp_partial",
    "Dronecan.LogFile.C49_refused",
    "Dronecan.LogFile.C49_counterexample"
   ],
   "note": "Frames, order, flags and truncation proved for all logs, cut points and ways of calling receive. The time stamp is false in the last microsecond: int(ts*1e6) truncates a float product, so 0.000249 is read back as 0.000248 (C49_counterexample); C49_stamp_partial bounds the error. Floats are modelled as rationals rounded to 53 bits."
  },
  {
   "property": "C50",
   "status": "partial",
   "theorems": [
    "Dronecan.LogFile.C50_none",
    "Dronecan.LogFile.C50_counterexample",
    "Dronecan.LogFile.C50_start_partial"
   ],
   "note": "False: get_last_timestamp returns None for every log that can be opened (C50_none, C50_counterexample). The first time stamp is reported correctly (C50_start_partial)."
  },
  {
   "property": "C51",
   "status": "proved",
   "theorems": [
    "Dronecan.Packet.C51_mcast",
    "Dronecan.Packet.C51_mcast_altered",
    "Dronecan.Packet.C51_mcast_header",
    "Dronecan.Packet.C51_socketcan",
    "Dronecan.Packet.C51_mcast_layout",
    "Dronecan.Packet.C51_socketcan_layout"
   ],
   "note": ""
  },
  {
   "property": "C52",
   "status": "proved",
   "theorems": [
    "Dronecan.Can.C52_roundup",
    "Dronecan.Can.C52_padding",
    "Dronecan.Can.C52_inverse",
    "Dronecan.Can.C52_valid",
    "Dronecan.Can.C52_bound"
   ],
   "note": ""
  },
  {
   "property": "C53",
   "status": "proved",
   "theorems": [
    "Dronecan.Timestamps.C53_resolved"
   ],
   "note": ""
  },
  {
   "property": "C54",
   "status": "partial",
   "theorems": [
    "Dronecan.Timestamps.C54_sane_partial",
    "Dronecan.Timestamps.C54_not_early",
    "Dronecan.Timestamps.C54_arguments",
    "Dronecan.Timestamps.C54_exceeds",
    "Dronecan.Timestamps.C54_counterexample",
    "Dronecan.Timestamps.C54_no_delay_partial",
    "Dronecan.Timestamps.C54_reference",
    "Dronecan.Timestamps.C54_statistics"
   ],
   "note": "False of the code if a fixed delay is configured: its sign is wrong, the first estimate is later than the arrival by the fixed delay (C54_exceeds, C54_counterexample). Proved: no failure, estimates never decrease (also across resynchronisation), none later than arrival + fixed delay, none earlier than the event; in full for a fixed delay of zero. For overflowing clocks the disagreement assumption of C53 is needed. Exact arithmetic; C160 is about rounding."
  },
  {
   "property": "C55",
   "status": "proved",
   "theorems": [
    "Dronecan.Signature.C55_pieces",
    "Dronecan.Signature.C55_range",
    "Dronecan.Signature.C55_resume",
    "Dronecan.Signature.C55_altered"
   ],
   "note": ""
  },
  {
   "property": "C56",
   "status": "proved",
   "theorems": [
    "Dronecan.Namespaces.C56_unique",
    "Dronecan.Namespaces.C56_accepted_iff"
   ],
   "note": ""
  },
  {
   "property": "C57",
   "status": "proved",
   "theorems": [
    "Dronecan.Text.C57_layout",
    "Dronecan.Text.C57_tokens"
   ],
   "note": ""
  },
  {
   "property": "C58",
   "status": "proved",
   "theorems": [
    "Dronecan.Parser.C58_at_most",
    "Dronecan.Parser.C58_less_than",
    "Dronecan.Parser.C58_exactly",
    "Dronecan.Parser.C58_refused",
    "Dronecan.Parser.C58_decimal",
    "Dronecan.Parser.C58_array_type",
    "Dronecan.Parser.C58_digits"
   ],
   "note": ""
  },
  {
   "property": "C59",
   "status": "proved",
   "theorems": [
    "Dronecan.Float16.C59_decode",
    "Dronecan.Float16.C59_nearest",
    "Dronecan.Float16.C59_overflow",
    "Dronecan.Float16.C59_roundtrip",
    "Dronecan.Float16.C59_nan",
    "Dronecan.Float16.C59_double_rounding",
    "Dronecan.Float16.C59_too_large"
   ],
   "note": ""
  },
  {
   "property": "C60",
   "status": "proved",
   "theorems": [
    "Dronecan.Introspect.C60_truthful",
    "Dronecan.Introspect.C60_complete",
    "Dronecan.Introspect.C60_float_raises"
   ],
   "note": ""
  },
  {
   "property": "C61",
   "status": "partial",
   "theorems": [
    "Dronecan.C61_counterexample",
    "Dronecan.C61_content_copied_partial",
    "Dronecan.C61_aliased_forever_partial",
    "Dronecan.C61_independent_partial",
    "Dronecan.C61_write_takes_effect",
    "Dronecan.C61_append_partial"
   ],
   "note": "False of the code (assignment makes a shallow copy that shares its fields); counterexample proved, plus faithful content at assignment, permanent aliasing, identity of appended elements (C61_append_partial), and independence of objects that share no structure."
  },
  {
   "property": "C62",
   "status": "proved",
   "theorems": [
    "Dronecan.C62_broadcast",
    "Dronecan.C62_respond",
    "Dronecan.C62_request",
    "Dronecan.C62_receive",
    "Dronecan.C62_remove",
    "Dronecan.C62_fresh"
   ],
   "note": ""
  },
  {
   "property": "C63",
   "status": "proved",
   "theorems": [
    "Dronecan.C63_responds",
    "Dronecan.C63_node_info",
    "Dronecan.C63_matches",
    "Dronecan.C63_no_result",
    "Dronecan.C63_never_answers_responses",
    "Dronecan.C63_message_handlers"
   ],
   "note": ""
  },
  {
   "property": "C64",
   "status": "proved",
   "theorems": [
    "Dronecan.C64_spin_deadline"
   ],
   "note": ""
  },
  {
   "property": "C65",
   "status": "proved",
   "theorems": [
    "Dronecan.C65_no_drift",
    "Dronecan.C65_all_due",
    "Dronecan.C65_never_empty",
    "Dronecan.C65_publishes"
   ],
   "note": ""
  },
  {
   "property": "C66",
   "status": "proved",
   "theorems": [
    "Dronecan.Files.C66_hits"
   ],
   "note": ""
  },
  {
   "property": "C67",
   "status": "partial",
   "theorems": [
    "Dronecan.Namespaces.C67_counterexample",
    "Dronecan.Namespaces.C67_lookup_partial",
    "Dronecan.Namespaces.C67_kept"
   ],
   "note": "False of the code for data type ID 0: it is accepted and checked for uniqueness but never registered, because load_dsdl tests the truth of the ID (C67_counterexample). Proved for every other ID, and that other entries are kept."
  },
  {
   "property": "C68",
   "status": "proved",
   "theorems": [
    "Dronecan.Monitor.C68_view",
    "Dronecan.Monitor.C68_discovered"
   ],
   "note": ""
  },
  {
   "property": "C69",
   "status": "proved",
   "theorems": [
    "Dronecan.Alloc.C69_known",
    "Dronecan.Alloc.C69_unique_id",
    "Dronecan.Alloc.C69_node_id",
    "Dronecan.Alloc.C69_found"
   ],
   "note": ""
  },
  {
   "property": "C70",
   "status": "proved",
   "theorems": [
    "Dronecan.Serial.C70_config",
    "Dronecan.Serial.C70_keepalive"
   ],
   "note": ""
  },
  {
   "property": "C71",
   "status": "proved",
   "theorems": [
    "Dronecan.LogFile.C71_sound",
    "Dronecan.LogFile.C71_corrupt"
   ],
   "note": ""
  },
  {
   "property": "C72",
   "status": "proved",
   "theorems": [
    "Dronecan.LogFile.C72_pacing",
    "Dronecan.LogFile.C72_past",
    "Dronecan.LogFile.C72_future"
   ],
   "note": ""
  },
  {
   "property": "C73",
   "status": "proved",
   "theorems": [
    "Dronecan.Slcan.C73_line",
    "Dronecan.Slcan.C73_short",
    "Dronecan.Slcan.C73_bound",
    "Dronecan.Slcan.C73_number"
   ],
   "note": ""
  },
  {
   "property": "C74",
   "status": "proved",
   "theorems": [
    "Dronecan.Slcan.C74_order",
    "Dronecan.Slcan.C74_expired",
    "Dronecan.Slcan.C74_lines",
    "Dronecan.Slcan.C74_answered"
   ],
   "note": ""
  },
  {
   "property": "C75",
   "status": "proved",
   "theorems": [
    "Dronecan.Parser.C75_accepted",
    "Dronecan.Parser.C75_serializable"
   ],
   "note": ""
  },
  {
   "property": "C76",
   "status": "partial",
   "theorems": [
    "Dronecan.Parser.C76_name_counterexample",
    "Dronecan.Parser.C76_range_counterexample",
    "Dronecan.Parser.C76_names_partial",
    "Dronecan.Parser.C76_range_partial"
   ],
   "note": "False of the code: an array of padding (void3[4]) is accepted without a name, and an int64 constant of 2**63 is accepted because the range is computed with float division (C76_name_counterexample, C76_range_counterexample). Proved: exactly which types can be without a name (C76_names_partial) and the range that is enforced (C76_range_partial)."
  },
  {
   "property": "C77",
   "status": "proved",
   "theorems": [
    "Dronecan.Parser.C77_layout"
   ],
   "note": ""
  },
  {
   "property": "C79",
   "status": "proved",
   "theorems": [
    "Dronecan.Parser.C79_constants"
   ],
   "note": ""
  },
  {
   "property": "C78",
   "status": "proved",
   "theorems": [
    "Dronecan.Parser.C78_text",
    "Dronecan.Parser.C78_reparse",
    "Dronecan.Parser.C78_determines"
   ],
   "note": ""
  },
  {
   "property": "C80",
   "status": "proved",
   "theorems": [
    "Dronecan.Parser.C80_file_name",
    "Dronecan.Parser.C80_order",
    "Dronecan.Parser.C80_only"
   ],
   "note": ""
  },
  {
   "property": "C81",
   "status": "proved",
   "theorems": [
    "Dronecan.Parser.C81_structures",
    "Dronecan.Parser.C81_reference"
   ],
   "note": ""
  },
  {
   "property": "C82",
   "status": "proved",
   "theorems": [
    "Dronecan.Parser.C82_depth",
    "Dronecan.Parser.C82_recursion"
   ],
   "note": ""
  },
  {
   "property": "C83",
   "status": "partial",
   "theorems": [
    "Dronecan.Parser.C83_counterexample",
    "Dronecan.Parser.C83_prefix_partial",
    "Dronecan.Parser.C83_located_partial"
   ],
   "note": "False of the code: the search directory is compared as text, so /a/nsfoo/X.uavcan is accepted as ns.foo.X for the search directory /a/ns (C83_counterexample). Proved: a search directory is a beginning of the file name (C83_prefix_partial) and the files of nested structures lie in a search directory (C83_located_partial)."
  },
  {
   "property": "C84",
   "status": "partial",
   "theorems": [
    "Dronecan.Parser.C84_counterexample",
    "Dronecan.Parser.C84_found_partial"
   ],
   "note": "False of the code: a directory with a dot in its name gives a namespace that is looked up in nested directories (C84_counterexample). Proved for directories named like components of a namespace, and that it is the same file if no other says the same name (C84_found_partial)."
  },
  {
   "property": "C85",
   "status": "proved",
   "theorems": [
    "Dronecan.Parser.C85_source",
    "Dronecan.Parser.C85_file",
    "Dronecan.Parser.C85_unique"
   ],
   "note": ""
  },
  {
   "property": "C86",
   "status": "proved",
   "theorems": [
    "Dronecan.Parser.C86_dsdl_signature",
    "Dronecan.Parser.C86_data_type_signature",
    "Dronecan.Parser.C86_nested",
    "Dronecan.Parser.C86_plain",
    "Dronecan.Parser.C86_files"
   ],
   "note": ""
  },
  {
   "property": "C87",
   "status": "partial",
   "theorems": [
    "Dronecan.Parser.C87_counterexample",
    "Dronecan.Parser.C87_last_partial"
   ],
   "note": "False of the code: the value so far is fed back with its octets in the other order, which is not injective, so two nested structures with overridden signatures 0x1234 and 0xf35b8145983a67 before another structure give the same data type signature (C87_counterexample). Proved: it holds if the definitions differ in the last nested structure only, in particular with one nested structure (C87_last_partial)."
  },
  {
   "property": "C88",
   "status": "proved",
   "theorems": [
    "Dronecan.Writer.C88_order",
    "Dronecan.Writer.C88_bus",
    "Dronecan.Writer.C88_quiet",
    "Dronecan.Writer.C88_all_sent",
    "Dronecan.Writer.C88_bounded",
    "Dronecan.Writer.C88_send_raises",
    "Dronecan.Writer.C88_send",
    "Dronecan.Writer.C88_drain"
   ],
   "note": ""
  },
  {
   "property": "C89",
   "status": "partial",
   "theorems": [
    "Dronecan.Mcast.C89_own_counterexample",
    "Dronecan.Mcast.C89_port_counterexample",
    "Dronecan.Mcast.C89_counterexample",
    "Dronecan.Mcast.C89_exact_partial",
    "Dronecan.Mcast.C89_steady_partial"
   ],
   "note": "False of the code: the port of the own sending socket is noted once, at the first reception, so after a reconnection the driver delivers its own frames (C89_own_counterexample); and only the port is compared, so another machine that happens to send from the same port is ignored (C89_port_counterexample). Proved: exactly which datagrams are delivered (C89_exact_partial); the statement holds while the sockets do not fail, if no other machine sends from the same port (C89_steady_partial)."
  },
  {
   "property": "C90",
   "status": "proved",
   "theorems": [
    "Dronecan.Mcast.C90_sent",
    "Dronecan.Mcast.C90_all",
    "Dronecan.Mcast.C90_round",
    "Dronecan.Mcast.C90_prompt",
    "Dronecan.Mcast.C90_lost",
    "Dronecan.Mcast.C90_alive"
   ],
   "note": ""
  },
  {
   "property": "C91",
   "status": "proved",
   "theorems": [
    "Dronecan.C91_received",
    "Dronecan.C91_broadcast",
    "Dronecan.C91_request",
    "Dronecan.C91_respond",
    "Dronecan.C91_only"
   ],
   "note": ""
  },
  {
   "property": "C92",
   "status": "proved",
   "theorems": [
    "Dronecan.C92_handled",
    "Dronecan.C92_each",
    "Dronecan.C92_only",
    "Dronecan.C92_end_to_end"
   ],
   "note": ""
  },
  {
   "property": "C93",
   "status": "partial",
   "theorems": [
    "Dronecan.C93_counterexample",
    "Dronecan.C93_partial",
    "Dronecan.C93_answer",
    "Dronecan.C93_round_trip",
    "Dronecan.C93_node_info"
   ],
   "note": "False of the code: transfer IDs repeat after 32 requests, so a 33rd request to the same service replaces the first one in the dictionary of outstanding requests; when the first one times out, the entry of the 33rd is deleted and its response is ignored (C93_counterexample). Proved: the statement as long as no request is sent while another one with the same server, service and transfer ID is waiting, request callbacks do not raise, and transfer hooks do not add hooks (C93_partial); and the whole round trip from the handler of the server to the callback of the client under the same conditions (C93_round_trip)."
  },
  {
   "property": "C94",
   "status": "proved",
   "theorems": [
    "Dronecan.Mavcan.C94_order",
    "Dronecan.Mavcan.C94_sent",
    "Dronecan.Mavcan.C94_received",
    "Dronecan.Mavcan.C94_progress",
    "Dronecan.Mavcan.C94_capacity",
    "Dronecan.Mavcan.C94_readonly",
    "Dronecan.Mavcan.C94_get_bus"
   ],
   "note": ""
  },
  {
   "property": "C95",
   "status": "proved",
   "theorems": [
    "Dronecan.Mavcan.C95_delivered"
   ],
   "note": ""
  },
  {
   "property": "C96",
   "status": "partial",
   "theorems": [
    "Dronecan.Mavcan.C96_counterexample",
    "Dronecan.Mavcan.C96_switch_counterexample",
    "Dronecan.Mavcan.C96_rate_partial",
    "Dronecan.Mavcan.C96_renewed_partial",
    "Dronecan.Mavcan.C96_bus_partial"
   ],
   "note": "False of the code: the clock is not looked at after a message has been received, so while messages keep arriving (at most 5 ms apart) forwarding is never renewed (C96_counterexample), and a change of the bus is never announced (C96_switch_counterexample). Proved: after every frame sent and every vain wait forwarding was requested within the last second (C96_renewed_partial), never more often than once a second (C96_rate_partial), always for the bus selected last (C96_bus_partial)."
  },
  {
   "property": "C97",
   "status": "partial",
   "theorems": [
    "Dronecan.Mavcan.C97_filter_partial",
    "Dronecan.Mavcan.C97_partial",
    "Dronecan.Mavcan.C97_counterexample"
   ],
   "note": "False of the code: only the first 16 identifiers of the list are requested (C97_counterexample). Proved: exactly the first 16, sorted, directly after every request to forward (C97_filter_partial); the statement for lists of at most 16 identifiers (C97_partial)."
  },
  {
   "property": "C98",
   "status": "partial",
   "theorems": [
    "Dronecan.Display.C98_partial",
    "Dronecan.Display.C98_raises",
    "Dronecan.Display.C98_unset",
    "Dronecan.Display.C98_counterexample"
   ],
   "note": "False of the code: a non-empty dynamic array of 8-bit integers anywhere in what is shown raises AttributeError, since is_printable is called on an integer (C98_raises, C98_counterexample). Proved: the statement for all other values (C98_partial); with C98_raises every value is covered."
  },
  {
   "property": "C99",
   "status": "partial",
   "theorems": [
    "Dronecan.Display.C99_partial",
    "Dronecan.Display.C99_transfer",
    "Dronecan.Display.C99_header",
    "Dronecan.Display.C99_comment",
    "Dronecan.Display.C99_text",
    "Dronecan.Display.C99_negative",
    "Dronecan.Display.C99_nonfinite",
    "Dronecan.Display.C99_counterexample"
   ],
   "note": "False of the code: the quotes are those of Python, so texts with a backslash or a control character and no single quotes, or with both kinds of quotes, are read as other texts or not at all (C99_text: exactly these); infinities and NaN are strings in YAML (C99_nonfinite, C99_counterexample); a dynamic array of int8 raises ValueError if the first item that is not a character is negative (C99_negative). Proved: the statement for all values in which none of these is shown (C99_partial), also for transfers (C99_transfer); every integer field is on a line of its own with the name value_to_constant_name gives as a comment (C99_comment)."
  },
  {
   "property": "C100",
   "status": "partial",
   "theorems": [
    "Dronecan.SlcanDriver.C100_order",
    "Dronecan.SlcanDriver.C100_callbacks",
    "Dronecan.SlcanDriver.C100_lines",
    "Dronecan.SlcanDriver.C100_frames_partial",
    "Dronecan.SlcanDriver.C100_end",
    "Dronecan.SlcanDriver.C100_gives_up",
    "Dronecan.SlcanDriver.C100_stops",
    "Dronecan.SlcanDriver.C100_response",
    "Dronecan.SlcanDriver.C100_refused",
    "Dronecan.SlcanDriver.C100_receive",
    "Dronecan.SlcanDriver.C100_deadline",
    "Dronecan.SlcanTime.C100_counterexample"
   ],
   "note": "All of it is proved except that a frame line is lost when a time stamp estimator raises, which happens when the real-time clock has been set back (C142; C100_counterexample); C100_frames_partial is for histories in which that does not happen."
  },
  {
   "property": "C101",
   "status": "partial",
   "theorems": [
    "Dronecan.SlcanDriver.C101_accepts",
    "Dronecan.SlcanDriver.C101_order",
    "Dronecan.SlcanDriver.C101_errors",
    "Dronecan.SlcanDriver.C101_hooks",
    "Dronecan.SlcanDriver.C101_partial",
    "Dronecan.SlcanDriver.C101_written",
    "Dronecan.SlcanDriver.C101_dead",
    "Dronecan.SlcanDriver.C101_command",
    "Dronecan.SlcanDriver.C101_counterexample"
   ],
   "note": "False of the code: send accepts standard frames, but the TX worker raises an exception for each of them, so that they are never written (C101_counterexample). Proved: order, completeness and hooks for everything offered (C101_order, C101_errors, C101_hooks), and the statement for extended frames (C101_partial)."
  },
  {
   "property": "C102",
   "status": "partial",
   "theorems": [
    "Dronecan.SlcanInit.C102_partial",
    "Dronecan.SlcanInit.C102_success",
    "Dronecan.SlcanInit.C102_unknown",
    "Dronecan.SlcanInit.C102_answer",
    "Dronecan.SlcanInit.C102_script",
    "Dronecan.SlcanInit.C102_closed",
    "Dronecan.SlcanInit.C102_counterexample",
    "Dronecan.SlcanInit.C102_late_counterexample"
   ],
   "note": "False of the code: an ACK is not attributed to a command, so the end of a frame line received while the channel is being closed (C102_counterexample) or a late answer (C102_late_counterexample) makes the refusal of O go unnoticed. Proved: the statement for adapters that answer in time and send nothing else that looks like an answer (C102_partial), the commands sent (C102_script), unsupported rates (C102_unknown), success (C102_success)."
  },
  {
   "property": "C103",
   "status": "partial",
   "theorems": [
    "Dronecan.SlcanInit.C103_partial",
    "Dronecan.SlcanInit.C103_back",
    "Dronecan.SlcanInit.C103_counterexample"
   ],
   "note": "False of the code: RetrySerial.retry forgets a failed initialisation, and the next write goes to an adapter that is not ready (C103_counterexample). Proved: the statement if the last initialisation needed did not fail, for prompt and quiet adapters (C103_partial)."
  },
  {
   "property": "C104",
   "status": "partial",
   "theorems": [
    "Dronecan.PythonCan.C104_order",
    "Dronecan.PythonCan.C104_partial",
    "Dronecan.PythonCan.C104_fd",
    "Dronecan.PythonCan.C104_send_raises",
    "Dronecan.PythonCan.C104_send",
    "Dronecan.PythonCan.C104_counterexample"
   ],
   "note": "False of the code: if flush_tx_buffer raises ENOBUFS after send has succeeded, the frame is sent again (C104_counterexample). Proved: the statement if flush_tx_buffer does not raise (C104_partial), what is on the bus and reported in general (C104_order), refusals and the limit of the queue (C104_fd, C104_send, C104_send_raises)."
  },
  {
   "property": "C105",
   "status": "partial",
   "theorems": [
    "Dronecan.PythonCan.C105_order",
    "Dronecan.PythonCan.C105_partial",
    "Dronecan.PythonCan.C105_waits",
    "Dronecan.PythonCan.C105_no_wait",
    "Dronecan.PythonCan.C105_counterexample"
   ],
   "note": "False of the code: standard, remote and error frames are returned as extended data frames; the timeout is multiplied by 1000 although Bus.recv takes seconds; without a timeout receive does not wait (C105_counterexample). Proved: order, identifier, data and hooks for all messages (C105_order), the statement for extended data frames (C105_partial), what the timeout means (C105_waits, C105_no_wait)."
  },
  {
   "property": "C106",
   "status": "partial",
   "theorems": [
    "Dronecan.IoHooks.C106_once",
    "Dronecan.IoHooks.C106_truthful",
    "Dronecan.IoHooks.C106_called",
    "Dronecan.IoHooks.C106_partial",
    "Dronecan.IoHooks.C106_remove",
    "Dronecan.IoHooks.C106_counterexample"
   ],
   "note": "False of the code: the loop runs over the live list, so a hook that removes itself makes the next hook miss the frame (C106_counterexample). Proved for all behaviours of the hooks: at most once and in order (C106_once), only registered hooks with the right arguments (C106_truthful), which hooks are called (C106_called), removal (C106_remove); the statement if no hook is removed while the frame passes (C106_partial)."
  },
  {
   "property": "C107",
   "status": "partial",
   "theorems": [
    "Dronecan.QueueApi.C107_send",
    "Dronecan.QueueApi.C107_receive",
    "Dronecan.QueueApi.C107_partial",
    "Dronecan.QueueApi.C107_limits",
    "Dronecan.QueueApi.C107_returns",
    "Dronecan.QueueApi.C107_counterexample",
    "Dronecan.QueueApi.C107_dies",
    "Dronecan.QueueApi.C107_room"
   ],
   "note": "False of the code: send_frame calls the hooks before it finds the queue full, so they see frames that are refused (C107_counterexample); and the process does not catch the exception of a full reception queue, so it dies when the application does not read for long enough (C107_dies). Proved for all interleavings: order and completeness of both directions (C107_send, C107_receive), exactly when frames are refused and the process dies (C107_limits), that receive returns when it should (C107_returns), the statement while the queues do not overflow (C107_partial)."
  },
  {
   "property": "C108",
   "status": "partial",
   "theorems": [
    "Dronecan.Closing.C108_partial",
    "Dronecan.Closing.C108_others",
    "Dronecan.Closing.C108_twice",
    "Dronecan.Closing.C108_first",
    "Dronecan.Closing.C108_types",
    "Dronecan.Closing.C108_counterexample"
   ],
   "note": "False of the code: NodeMonitor.close does not remove the handler for GetNodeInfo, so a closed monitor keeps updating its registry and emitting events when responses pass (C108_counterexample). Proved for all histories: nothing else is called late (C108_partial), other objects are unaffected (C108_others), the first close returns and the second raises (C108_first, C108_twice); Node.remove_handlers removes the handlers of that type only (C108_types)."
  },
  {
   "property": "C109",
   "status": "partial",
   "theorems": [
    "Dronecan.SocketReceive.C109_order",
    "Dronecan.SocketReceive.C109_kernel",
    "Dronecan.SocketReceive.C109_partial",
    "Dronecan.SocketReceive.C109_counterexample",
    "Dronecan.SocketReceive.C109_timeout",
    "Dronecan.SocketReceive.C109_forever",
    "Dronecan.SocketReceive.C109_prompt",
    "Dronecan.SocketReceive.C109_feedback",
    "Dronecan.SocketReceive.C109_writer",
    "Dronecan.SocketReceive.C109_writer_always"
   ],
   "note": "False of the code: the flags of can_id are masked, so that a remote transmission request is returned as a data frame with as many zeros as it asks for (C109_counterexample). Proved: the statement without such messages (C109_partial); what is returned for every sequence of messages of the kernel (C109_kernel) and of arbitrary messages and exceptions of the socket (C109_order); the waiting times (C109_timeout, C109_forever; negative timeouts wait for ever); exceptions of the writer thread (C109_feedback); the model of transmission is unchanged (C109_writer), and goes on while the main thread waits (C109_writer_always)."
  },
  {
   "property": "C110",
   "status": "partial",
   "theorems": [
    "Dronecan.SocketReceive.C110_partial",
    "Dronecan.SocketReceive.C110_future",
    "Dronecan.SocketReceive.C110_counterexample"
   ],
   "note": "False of the code: when the real clock is set forward by less than 50 ms, time stamps lie in the future by nearly as much (C110_counterexample, C110_future). Proved for all histories (C110_partial): never more than a microsecond too early nor 50 ms too late, and exact up to the fixed delay as long as the real clock gains at most 100 ppm on the monotonic one."
  },
  {
   "property": "C111",
   "status": "partial",
   "theorems": [
    "Dronecan.FloatField.C111_wide",
    "Dronecan.FloatField.C111_double",
    "Dronecan.FloatField.C111_half",
    "Dronecan.FloatField.C111_partial",
    "Dronecan.FloatField.C111_counterexample",
    "Dronecan.FloatField.C111_int"
   ],
   "note": "False of the code: a float for a float16 field is rounded to single precision first, so that the result need not be nearest (C111_counterexample). Proved: the statement for float32 and float64 fields, with ties to even (C111_wide, C111_double: float64 fields keep every float), for float16 fields and numbers of single precision (C111_partial), the exact double rounding of float16 fields (C111_half), and what integers do (C111_int: in truncated fields, those that have no float raise OverflowError)."
  },
  {
   "property": "C112",
   "status": "partial",
   "theorems": [
    "Dronecan.FloatField.C112_partial",
    "Dronecan.FloatField.C112_counterexample"
   ],
   "note": "False of the code: an infinity that was received in a saturated field and is assigned to another one becomes the greatest number (C112_counterexample). Proved for all numbers, and for infinities in truncated fields (C112_partial)."
  },
  {
   "property": "C113",
   "status": "partial",
   "theorems": [
    "Dronecan.Attributes.C113_partial",
    "Dronecan.Attributes.C113_nothing_else",
    "Dronecan.Attributes.C113_root_types",
    "Dronecan.Attributes.C113_counterexample"
   ],
   "note": "False of the code: each call starts from an empty tree, so types loaded by earlier calls disappear from the attributes (C113_counterexample), and only sub-namespaces are copied to the module, so a type directly in a root namespace of the package is not an attribute (C113_root_types: uavcan.T is found nowhere, com.T only below thirdparty). Proved for all sequences of calls: no call raises and the types of the last call that are not directly in such a root are found (C113_partial); whatever is found is the last type of that full name of the last call (C113_nothing_else)."
  },
  {
   "property": "C114",
   "status": "partial",
   "theorems": [
    "Dronecan.C114_when",
    "Dronecan.C114_partial",
    "Dronecan.C114_kinds",
    "Dronecan.C114_counterexample"
   ],
   "note": "False of the code: call_handlers does not look at the direction. With a node monitor, the node's own GetNodeInfo handler is called with responses that pass between other nodes, and the monitor's sniffing handler with requests to the node (C114_counterexample). Proved for all histories: the exact condition under which a handler is called (C114_when), the two ways in which the direction can be wrong (C114_partial), and that messages and services are never confused (C114_kinds)."
  },
  {
   "property": "C115",
   "status": "partial",
   "theorems": [
    "Dronecan.EndToEnd.C115_broadcast",
    "Dronecan.EndToEnd.C115_request",
    "Dronecan.EndToEnd.C115_respond",
    "Dronecan.EndToEnd.C115_frames",
    "Dronecan.EndToEnd.C115_mcast",
    "Dronecan.EndToEnd.C115_socketcan_sent",
    "Dronecan.EndToEnd.C115_socketcan",
    "Dronecan.EndToEnd.C115_mavlink",
    "Dronecan.EndToEnd.C115_pythoncan",
    "Dronecan.EndToEnd.C115_slcan_partial",
    "Dronecan.EndToEnd.C115_counterexample"
   ],
   "note": "Proved for multicast, SocketCAN, MAVLink and python-can (which has classic CAN only), and for SLCAN with frames of lengths that exist. False for SLCAN in general: a CAN FD payload of 62 bytes gives a frame of 63 bytes (C15), the adapter's time stamp is then taken for data, and the transfer is lost (C115_counterexample). For SLCAN also under the condition that no time stamp estimator raises (C142 says when)."
  },
  {
   "property": "C116",
   "status": "partial",
   "theorems": [
    "Dronecan.MakeDriver.C116_kinds",
    "Dronecan.MakeDriver.C116_partial",
    "Dronecan.MakeDriver.C116_no_bitrate",
    "Dronecan.MakeDriver.C116_counterexample"
   ],
   "note": "Proved for all names, except that with python-can installed the name of a CAN interface needs the keyword argument bitrate; without it KeyError is raised (C116_no_bitrate, C116_counterexample: make_driver('can0'), an example from the docstring)."
  },
  {
   "property": "C117",
   "status": "partial",
   "theorems": [
    "Dronecan.SlcanProcess.C117_only",
    "Dronecan.SlcanProcess.C117_rx",
    "Dronecan.SlcanProcess.C117_loop",
    "Dronecan.SlcanProcess.C117_exit",
    "Dronecan.SlcanProcess.C117_partial",
    "Dronecan.SlcanProcess.C117_hangs",
    "Dronecan.SlcanProcess.C117_traffic",
    "Dronecan.SlcanProcess.C117_counterexample"
   ],
   "note": "The first half is proved (C117_only, C117_rx). The second is false: while RetrySerial (the default) cannot reopen a port that is gone, the RX worker never looks at should_exit, so that a process whose parent has died stays for ever (C117_hangs, C117_counterexample); and when the RX worker has given up, the process goes on as long as the application keeps sending (C117_traffic). Proved if no call hangs and, where the end of the RX worker is the only reason, nothing is sent meanwhile (C117_loop, C117_exit, C117_partial)."
  },
  {
   "property": "C118",
   "status": "proved",
   "theorems": [
    "Dronecan.LogFile.C118_open",
    "Dronecan.LogFile.C118_replay",
    "Dronecan.LogFile.C118_unpaced",
    "Dronecan.LogFile.C118_paced",
    "Dronecan.LogFile.C118_progress"
   ],
   "note": "C118_open, C118_replay, C118_unpaced (speedup=-1), C118_paced (speedup>0), C118_progress."
  },
  {
   "property": "C119",
   "status": "partial",
   "theorems": [
    "Dronecan.Monitor.C119_partial",
    "Dronecan.Monitor.C119_recursion",
    "Dronecan.Monitor.C119_sweep",
    "Dronecan.Monitor.C119_counterexample",
    "Dronecan.Monitor.C119_without"
   ],
   "note": "False: get notifies before it deletes, so that a callback that looks up the node it is told to be offline makes get call itself until the stack is exhausted, whatever its size (C119_recursion, C119_counterexample); and get may delete a node that the sweep still has in its snapshot, whereupon the sweep raises KeyError and leaves the rest (C119_sweep). Proved if no callback looks up a node while it is told that one is offline (C119_partial). If the callbacks look up nothing the monitor is that of C36-C38 (C119_without)."
  },
  {
   "property": "C120",
   "status": "partial",
   "theorems": [
    "Dronecan.AllocSys.C120_known_partial",
    "Dronecan.AllocSys.C120_discovered",
    "Dronecan.AllocSys.C120_owner",
    "Dronecan.AllocSys.C120_reported_partial",
    "Dronecan.AllocSys.C120_honest_partial",
    "Dronecan.AllocSys.C120_counterexample",
    "Dronecan.AllocSys.C120_unheard"
   ],
   "note": "False: a device that appears under a node ID recorded for another device is ignored, and the recorded device gets the ID again while it is in use (C120_counterexample); a node first heard through a GetNodeInfo request or a response with an unreadable name is not reported to the server, which grants its ID to whoever asks (C120_unheard). Proved in full if all GetNodeInfo transfers are readable responses and no device reports its unique ID under an ID recorded for another (C120_honest_partial); without the last condition: only to the device recorded (C120_known_partial). Without conditions: an ID recorded for a device is granted to no other (C120_owner), and nothing is granted while a listed node may still be asked (C120_discovered); after a node with a free ID tells its unique ID, the ID is granted to no other (C120_reported_partial)."
  },
  {
   "property": "C121",
   "status": "partial",
   "theorems": [
    "Dronecan.Writer.C121_counterexample",
    "Dronecan.Writer.C121_deaf",
    "Dronecan.Writer.C121_silent",
    "Dronecan.Writer.C121_returns",
    "Dronecan.Writer.C121_orderly_partial",
    "Dronecan.PythonCan.C121_python_can_counterexample",
    "Dronecan.PythonCan.C121_python_can_silent",
    "Dronecan.PythonCan.C121_python_can_returns"
   ],
   "note": "False: frames that wait when the driver is closed are neither sent nor reported (C121_counterexample, C121_python_can_counterexample), and send_frame goes on accepting frames of which nothing is ever heard (C121_deaf). Proved for all histories: nothing is sent after close has returned and the waiting frames stay in the queue (C121_silent, C121_python_can_silent); after the flag is set the writer thread makes at most one further step in SocketCAN (C121_returns) and finishes what it has in hand in python-can (C121_python_can_returns). If nothing waits and nothing is in hand when close is called, each accepted frame has its report (C121_orderly_partial). Looking at the flag and sending are one step of the model, so nothing is claimed about the time between the flag being set and close returning."
  },
  {
   "property": "C122",
   "status": "partial",
   "theorems": [
    "Dronecan.McastUrl.C122_counterexample",
    "Dronecan.McastUrl.C122_partial",
    "Dronecan.McastUrl.C122_apart",
    "Dronecan.McastUrl.C122_exact",
    "Dronecan.McastUrl.C122_bound",
    "Dronecan.McastUrl.C122_dead"
   ],
   "note": "False: no name is refused (C122_counterexample): a name with a further colon gives the first bus, otherwise Python's int reads it, with blanks, sign and underscores (C122_exact); if that raises or the number has more than 8 bits, the I/O process dies and the driver goes on accepting frames (C122_dead). For the documented names it is proved in full (C122_partial, C122_apart)."
  },
  {
   "property": "C123",
   "status": "partial",
   "theorems": [
    "Dronecan.TextField.C123_signed_counterexample",
    "Dronecan.TextField.C123_cut_counterexample",
    "Dronecan.TextField.C123_counterexample",
    "Dronecan.TextField.C123_partial",
    "Dronecan.TextField.C123_refused",
    "Dronecan.TextField.C123_signed",
    "Dronecan.TextField.C123_decode",
    "Dronecan.TextField.C123_other",
    "Dronecan.TextField.C123_encode",
    "Dronecan.TextField.C123_wire"
   ],
   "note": "False: arrays of int8 count as string-like, and text beyond ASCII put into them is changed (C123_signed_counterexample; exactly the ASCII texts read back: C123_signed); a text that is too long leaves its beginning in the field, possibly with half a character (C123_cut_counterexample; exactly what is left: C123_refused). For uint8 arrays and texts that fit it is proved in full (C123_partial), also through the wire (C123_wire). The UTF-8 codec of Python is modelled after table 3-7 of the Unicode standard and proved to be the relation of RFC 3629 in both directions."
  },
  {
   "property": "C124",
   "status": "partial",
   "theorems": [
    "Dronecan.LogMonitor.C124_level_counterexample",
    "Dronecan.LogMonitor.C124_cut_counterexample",
    "Dronecan.LogMonitor.C124_counterexample",
    "Dronecan.LogMonitor.C124_exact",
    "Dronecan.LogMonitor.C124_partial"
   ],
   "note": "False: the levels 4 to 7 give IndexError (C124_level_counterexample), texts that are not valid UTF-8 give UnicodeDecodeError (C124_cut_counterexample); nothing is logged then. For messages made by assigning one of the four levels and texts that fit, from the sender's assignments through the wire to the log line: C124_partial; for all messages exactly when and what is logged: C124_exact."
  },
  {
   "property": "C125",
   "status": "partial",
   "theorems": [
    "Dronecan.FileWire.C125_counterexample",
    "Dronecan.FileWire.C125_partial",
    "Dronecan.FileWire.C125_refused",
    "Dronecan.FileWire.C125_raised",
    "Dronecan.FileWire.C125_info",
    "Dronecan.FileWire.C125_made",
    "Dronecan.FileWire.C125_exchange",
    "Dronecan.FileWire.C125_file",
    "Dronecan.FileWire.C125_size"
   ],
   "note": "False: a request whose path is not valid UTF-8 is not answered, since the arguments of the logger call are evaluated before the try (C125_counterexample; exactly those requests: C125_refused). All other requests are answered with the bytes or the error: C125_partial; likewise GetInfo: C125_info. From the client's assignments (C125_made) through both nodes and the frames on the bus to the client's callback: C125_exchange; the answers put together are the file: C125_file."
  },
  {
   "property": "C126",
   "status": "partial",
   "theorems": [
    "Dronecan.AllocWire.C126_heard",
    "Dronecan.AllocWire.C126_answer",
    "Dronecan.AllocWire.C126_catches_nothing",
    "Dronecan.AllocWire.C126_counterexample",
    "Dronecan.AllocWire.C126_partial",
    "Dronecan.AllocWire.C126_refused",
    "Dronecan.AllocWire.C126_exchange",
    "Dronecan.AllocWire.C126_understood",
    "Dronecan.AllocWire.C126_size"
   ],
   "note": "False: the search for a free node ID stops above the lowest one of the range (range(hi, lo, -1)), so a device that does not ask for it does not get the lowest one when it alone is free (C126_counterexample; exactly when the third request is not answered: C126_refused). In all other cases the device gets a node ID: C126_partial. Frames of the device to the nodes: C126_heard; answers of the server to the frames of its node: C126_answer; from the device to the device: C126_exchange."
  },
  {
   "property": "C127",
   "status": "proved",
   "theorems": [
    "Dronecan.MonitorWire.C127_heard",
    "Dronecan.MonitorWire.C127_seen",
    "Dronecan.MonitorWire.C127_told",
    "Dronecan.MonitorWire.C127_asks",
    "Dronecan.MonitorWire.C127_raises",
    "Dronecan.MonitorWire.C127_answer",
    "Dronecan.MonitorWire.C127_exchange",
    "Dronecan.MonitorWire.C127_size"
   ],
   "note": "Status to the frames of its node: C127_told; at the monitor: C127_heard; the request of the monitor to frames: C127_asks; the answer of the built-in handler to the callback: C127_answer (under the conditions of C93); at the monitor: C127_seen; all of it: C127_exchange. The update callbacks do not raise and do not call the node."
  },
  {
   "property": "C128",
   "status": "partial",
   "theorems": [
    "Dronecan.SerialWire.C128_messages",
    "Dronecan.SerialWire.C128_told",
    "Dronecan.SerialWire.C128_heard",
    "Dronecan.SerialWire.C128_counterexample",
    "Dronecan.SerialWire.C128_partial",
    "Dronecan.SerialWire.C128_size"
   ],
   "note": "False: handle_Targetted does not look at serial_id, so a port takes the bytes for any device of its node (C128_counterexample). If no others are sent from the node to the node: C128_partial (from port to port). The messages that a history broadcasts: C128_messages; to the frames: C128_told; at the port: C128_heard."
  },
  {
   "property": "C129",
   "status": "partial",
   "theorems": [
    "Dronecan.DriverClose.C129_mav_dead",
    "Dronecan.DriverClose.C129_mav_calls",
    "Dronecan.DriverClose.C129_mav_full",
    "Dronecan.DriverClose.C129_mav_returns",
    "Dronecan.DriverClose.C129_mav_waiting",
    "Dronecan.DriverClose.C129_mav_asked",
    "Dronecan.DriverClose.C129_mav_hangs",
    "Dronecan.DriverClose.C129_mav_counterexample",
    "Dronecan.DriverClose.C129_full_counterexample",
    "Dronecan.DriverClose.C129_sl_dead",
    "Dronecan.DriverClose.C129_sl_polite",
    "Dronecan.DriverClose.C129_sl_command",
    "Dronecan.DriverClose.C129_sl_returns",
    "Dronecan.DriverClose.C129_sl_again",
    "Dronecan.DriverClose.C129_sl_hangs",
    "Dronecan.DriverClose.C129_sl_counterexample",
    "Dronecan.DriverClose.C129_mc_counterexample",
    "Dronecan.DriverClose.C129_mc_goes_on",
    "Dronecan.DriverClose.C129_counterexample"
   ],
   "note": "False for each of them (C129_counterexample): MAVCAN.close joins a process that waits for its frames to be written into a pipe that nobody reads (C129_mav_counterexample, C129_mav_hangs), and raises queue.Full when called again (C129_full_counterexample; exactly when: C129_mav_full); SLCAN.close blocks in put when the queue is full and the process does not take from it, even if it dies (C129_sl_counterexample, C129_sl_hangs); mcast.close does nothing (C129_mc_counterexample, C129_mc_goes_on). What holds: C129_mav_dead, C129_mav_asked, C129_mav_returns, C129_sl_dead, C129_sl_polite, C129_sl_returns, C129_sl_again."
  },
  {
   "property": "C130",
   "status": "proved",
   "theorems": [
    "Dronecan.Loaded.C130_same",
    "Dronecan.Loaded.C130_type",
    "Dronecan.Loaded.C130_registered",
    "Dronecan.Loaded.C130_broadcast",
    "Dronecan.Loaded.C130_request",
    "Dronecan.Loaded.C130_respond",
    "Dronecan.Loaded.C130_copy"
   ],
   "note": "For files that agree with each other and an ID that only the files of the type have (OwnId; otherwise the tables hold the type that was loaded last). The tables are those of C67."
  },
  {
   "property": "C131",
   "status": "partial",
   "theorems": [
    "Dronecan.Mismatch.C131_partial",
    "Dronecan.Mismatch.C131_close",
    "Dronecan.Mismatch.C131_crc_counterexample",
    "Dronecan.Mismatch.C131_counterexample"
   ],
   "note": "False: transfers of one frame carry no CRC and are decoded as if they were of the node's own type (C131_counterexample), and the CRCs of different signatures can be the same (C131_crc_counterexample). Proved for transfers of several frames if the CRCs of the signatures differ (C131_partial), which they do if the signatures differ within 16 consecutive bits or in an odd number of bits (C131_close)."
  },
  {
   "property": "C132",
   "status": "partial",
   "theorems": [
    "Dronecan.SlcanOpen.C132_returned",
    "Dronecan.SlcanOpen.C132_alive",
    "Dronecan.SlcanOpen.C132_raised",
    "Dronecan.SlcanOpen.C132_patient",
    "Dronecan.SlcanOpen.C132_timely",
    "Dronecan.SlcanOpen.C132_prompt",
    "Dronecan.SlcanOpen.C132_gone",
    "Dronecan.SlcanOpen.C132_no_reopen",
    "Dronecan.SlcanOpen.C132_gives_up",
    "Dronecan.SlcanOpen.C132_partial",
    "Dronecan.SlcanOpen.C132_lost_counterexample",
    "Dronecan.SlcanOpen.C132_counterexample",
    "Dronecan.SlcanOpen.C132_deaf_counterexample"
   ],
   "note": "False: the RX worker is started before the end of the initialisation is reported; frames that it reports before are lost (C132_lost_counterexample), and its exceptions make the constructor raise (C132_counterexample). With auto_reopen=False, except on Windows, nothing is ever received: the port is a serial.Serial, which has no select_read (C132_no_reopen, C132_deaf_counterexample). Proved otherwise (C132_partial); what is lost and raised exactly: C132_returned, C132_raised; the times: C132_timely, C132_prompt; the end of the process: C132_gone, C132_alive."
  },
  {
   "property": "C133",
   "status": "partial",
   "theorems": [
    "Dronecan.HandlerClass.C133_class",
    "Dronecan.HandlerClass.C133_function",
    "Dronecan.HandlerClass.C133_new",
    "Dronecan.HandlerClass.C133_uncaught",
    "Dronecan.HandlerClass.C133_methods",
    "Dronecan.HandlerClass.C133_answers",
    "Dronecan.HandlerClass.C133_monitor",
    "Dronecan.HandlerClass.C133_monitor_service",
    "Dronecan.HandlerClass.C133_service_other",
    "Dronecan.HandlerClass.C133_service",
    "Dronecan.HandlerClass.C133_partial",
    "Dronecan.HandlerClass.C133_counterexample"
   ],
   "note": "False of the code: if another handler sniffs the responses of a service then on_request is called with them, as self.request (C133_counterexample); a subclass of node.Monitor registered for a service, sniffing or not, raises AttributeError for every transfer (C133_monitor_service). Proved: what happens to a transfer given to a class or a function (C133_class, C133_function), one object per transfer and registration (C133_new), methods are called only for it (C133_methods), responses (C133_answers), what the dispatcher does with exceptions (C133_uncaught), the base classes (C133_monitor, C133_service, C133_service_other), and that only requests reach on_request if no responses reach the dispatcher (C133_partial)."
  },
  {
   "property": "C134",
   "status": "partial",
   "theorems": [
    "Dronecan.RetrySerial.C134_one",
    "Dronecan.RetrySerial.C134_lock",
    "Dronecan.RetrySerial.C134_lines",
    "Dronecan.RetrySerial.C134_normal",
    "Dronecan.RetrySerial.C134_answers",
    "Dronecan.RetrySerial.C134_away",
    "Dronecan.RetrySerial.C134_partial",
    "Dronecan.RetrySerial.C134_endless",
    "Dronecan.RetrySerial.C134_counterexample",
    "Dronecan.RetrySerial.C134_deaf_counterexample",
    "Dronecan.RetrySerial.C134_deaf_ever",
    "Dronecan.RetrySerial.C134_lost_counterexample"
   ],
   "note": "Proved of all schedules: the lock protects (C134_lock), one port at most is open (C134_one), lines are written once each and in order (C134_lines). The rest is false of the code: operations do not take the lock. After one unplugging the threads may close the port under each other for ever (C134_endless, C134_counterexample); the reading thread may take the answers that the initialisation in the other waits for, which then gives up silently with the channel closed (C134_deaf_counterexample) and all lines are lost from then on (C134_deaf_ever); a line written during the initialisation goes to a closed channel (C134_lost_counterexample). Proved if no operation begins while the lock is held or is in progress when it is taken (C134_partial)."
  },
  {
   "property": "C135",
   "status": "partial",
   "theorems": [
    "Dronecan.LiveIter.C135_sound",
    "Dronecan.LiveIter.C135_ends",
    "Dronecan.LiveIter.C135_partial",
    "Dronecan.LiveIter.C135_complete_partial",
    "Dronecan.LiveIter.C135_raises",
    "Dronecan.LiveIter.C135_counterexample",
    "Dronecan.LiveIter.C135_skips_counterexample",
    "Dronecan.LiveIter.C135_list",
    "Dronecan.LiveIter.C135_discovered",
    "Dronecan.LiveIter.C135_monitor",
    "Dronecan.LiveIter.C135_heard"
   ],
   "note": "Proved: what is handed out is in the registry (C135_sound), the number of steps is bounded (C135_ends), list(find_all()) and are_all_nodes_discovered (C135_list, C135_discovered), and that all operations of the monitor are changes of the kind considered (C135_monitor). The rest is false of the code: a node that appears or disappears between two steps makes the generator raise RuntimeError (C135_raises, C135_counterexample); a stale node that is heard of again is deleted and inserted, after which the generator may silently hand it out twice and leave out another (C135_skips_counterexample). Proved if no node comes or goes (C135_partial), as when only nodes that are listed and not stale are heard of (C135_heard), and, for generators that end without raising, if the array is not rebuilt (C135_complete_partial)."
  },
  {
   "property": "C136",
   "status": "proved",
   "theorems": [
    "Dronecan.DeepCopy.C136_deepcopy",
    "Dronecan.DeepCopy.C136_same",
    "Dronecan.DeepCopy.C136_assign"
   ],
   "note": "By a simulation between the part of the heap that is copied and the copies (C136_deepcopy, C136_same); termination also for structures that contain themselves. C136_assign: what C61 asks for holds if a deep copy is assigned."
  },
  {
   "property": "C137",
   "status": "partial",
   "theorems": [
    "Dronecan.Reentrant.C137_frames",
    "Dronecan.Reentrant.C137_handlers",
    "Dronecan.Reentrant.C137_order_partial",
    "Dronecan.Reentrant.C137_responses",
    "Dronecan.Reentrant.C137_requests",
    "Dronecan.Reentrant.C137_single_partial",
    "Dronecan.Reentrant.C137_raises",
    "Dronecan.Reentrant.C137_propagates",
    "Dronecan.Reentrant.C137_order_counterexample",
    "Dronecan.Reentrant.C137_twice",
    "Dronecan.Reentrant.C137_counterexample"
   ],
   "note": "False: handlers registered later get transfers out of order when an earlier handler calls spin (C137_order_counterexample); a response that arrives again while the callback of the request calls spin calls the callback again, and then spin raises KeyError (C137_twice, C137_counterexample). Proved for all nestings: reassembly (C137_frames), exactly one call per handler and transfer (C137_handlers), the order for handlers with no earlier one that receives something (C137_order_partial), the fate of requests (C137_responses, C137_requests), no other exception than KeyError (C137_raises), and no KeyError and no second call if no response is repeated (C137_single_partial)."
  },
  {
   "property": "C138",
   "status": "partial",
   "theorems": [
    "Dronecan.Bridge.C138_order",
    "Dronecan.Bridge.C138_filter",
    "Dronecan.Bridge.C138_no_echo",
    "Dronecan.Bridge.C138_count",
    "Dronecan.Bridge.C138_partial",
    "Dronecan.Bridge.C138_forwards",
    "Dronecan.Bridge.C138_others",
    "Dronecan.Bridge.C138_counterexample",
    "Dronecan.Bridge.C138_deaf",
    "Dronecan.Bridge.C138_transfer_error",
    "Dronecan.Bridge.C138_storm"
   ],
   "note": "False: any exception but TxQueueFullError from send_frame, such as DriverError for a CAN FD frame or queue.Full of the MAVLink and multicast drivers, and every exception from receive, also TransferError (the except clause names a class that does not exist), ends the thread of the port (C138_counterexample, C138_transfer_error), after which nothing of that port is forwarded (C138_deaf). Proved for all executions: order and number of the frames given to each port (C138_order, C138_forwards, C138_no_echo, C138_count), the filter (C138_filter), independence of the threads (C138_others), and everything if nothing else is raised (C138_partial). If two ports are on the same bus, one frame may be sent without end (C138_storm)."
  },
  {
   "property": "C140",
   "status": "partial",
   "theorems": [
    "Dronecan.MsgidDecode.C140_decimal",
    "Dronecan.MsgidDecode.C140_hex",
    "Dronecan.MsgidDecode.C140_bare",
    "Dronecan.MsgidDecode.C140_partial",
    "Dronecan.MsgidDecode.C140_anonymous",
    "Dronecan.MsgidDecode.C140_refused",
    "Dronecan.MsgidDecode.C140_counterexample",
    "Dronecan.MsgidDecode.C140_anonymous_counterexample"
   ],
   "note": "False: an identifier in hexadecimal without 0x whose digits are all decimal, such as 10015501, is read as a decimal number (C140_counterexample), and for anonymous messages the number printed as the type has the discriminator in it (C140_anonymous_counterexample, C140_anonymous says what is printed). Proved for all other transfers and all numbers with the prefix or with a letter (C140_partial, C140_hex, C140_bare, C140_decimal); what is refused is no number (C140_refused)."
  },
  {
   "property": "C139",
   "status": "partial",
   "theorems": [
    "Dronecan.TcpLink.C139_to_device",
    "Dronecan.TcpLink.C139_partial",
    "Dronecan.TcpLink.C139_safe",
    "Dronecan.TcpLink.C139_log",
    "Dronecan.TcpLink.C139_closed",
    "Dronecan.TcpLink.C139_counterexample"
   ],
   "note": "False for the direction from the device: the number of bytes that send accepts is ignored, so the rest is lost (C139_counterexample), and if the socket is full send raises and the tool ends. Proved: the direction to the device for all executions (C139_to_device), both directions if send takes all (C139_partial), order and no duplication in any case (C139_safe), the log (C139_log); a peer that closes the connection is not noticed (C139_closed)."
  },
  {
   "property": "C141",
   "status": "partial",
   "theorems": [
    "Dronecan.Names.C141_constant",
    "Dronecan.Names.C141_field",
    "Dronecan.Names.C141_silent",
    "Dronecan.Names.C141_read",
    "Dronecan.Names.C141_read_union",
    "Dronecan.Names.C141_partial",
    "Dronecan.Names.C141_refused",
    "Dronecan.Names.C141_union",
    "Dronecan.Names.C141_sent",
    "Dronecan.Names.C141_counterexample"
   ],
   "note": "False: a name that is not declared, such as a misspelled one, becomes an attribute of the Python object without any exception, it can even be read back, and the message is sent with the default (C141_counterexample, C141_silent). Proved: declared fields (C141_field, C141_partial, C141_sent), constants (C141_constant, C141_refused), names that begin with an underscore (C141_refused), unions (C141_union), reading (C141_read, C141_read_union)."
  },
  {
   "property": "C142",
   "status": "partial",
   "theorems": [
    "Dronecan.SlcanTime.C142_options",
    "Dronecan.SlcanTime.C142_zero",
    "Dronecan.SlcanTime.C142_partial",
    "Dronecan.SlcanTime.C142_not_early",
    "Dronecan.SlcanTime.C142_set_back",
    "Dronecan.SlcanTime.C142_once",
    "Dronecan.SlcanTime.C142_counterexample",
    "Dronecan.SlcanTime.C142_worker",
    "Dronecan.SlcanTime.C142_none_lost"
   ],
   "note": "False: if the real-time clock has been set back since the last line with a time stamp, the next such line raises an AssertionError in the estimator of the real time and its frame is lost (C142_set_back, C142_counterexample); it costs one frame (C142_once). A rate error or resynchronisation limit of 0 silently means the default (C142_zero). Proved: all of it for sane clocks (C142_partial, C142_not_early), the options (C142_options), the worker (C142_worker, C142_none_lost). Exact arithmetic."
  },
  {
   "property": "C143",
   "status": "partial",
   "theorems": [
    "Dronecan.Parser.C143_whole",
    "Dronecan.Parser.C143_float",
    "Dronecan.Parser.C143_truncated",
    "Dronecan.Parser.C143_partial",
    "Dronecan.Parser.C143_blank",
    "Dronecan.Parser.C143_hash",
    "Dronecan.Parser.C143_counterexample"
   ],
   "note": "False: a decimal number in an integer type loses its fraction (`uint8 A = 2.5` is 2, and `-0.5` is accepted as 0) and, above 2^53, its last digits (C143_counterexample, C143_truncated). The characters blank and # cannot be written: the blank is removed, the # begins a comment, and the line is refused (C143_blank, C143_hash). Since white space is removed first, `1 2` means 12. Proved: the claim for all other literals and types, including when they are refused (C143_whole, C143_float, C143_partial). Not covered: expressions other than literals, decimal numbers other than zero below 2^-1022."
  },
  {
   "property": "C144",
   "status": "partial",
   "theorems": [
    "Dronecan.Equality.C144_list",
    "Dronecan.Equality.C144_array",
    "Dronecan.Equality.C144_other",
    "Dronecan.Equality.C144_self",
    "Dronecan.Equality.C144_partial",
    "Dronecan.Equality.C144_float",
    "Dronecan.Equality.C144_compound",
    "Dronecan.Equality.C144_search",
    "Dronecan.Equality.C144_assigned",
    "Dronecan.Equality.C144_assigned_float",
    "Dronecan.Equality.C144_text",
    "Dronecan.Equality.C144_text_counterexample",
    "Dronecan.Equality.C144_nan_counterexample",
    "Dronecan.Equality.C144_zero_counterexample",
    "Dronecan.Equality.C144_copy_counterexample",
    "Dronecan.Equality.C144_counterexample"
   ],
   "note": "False: comparing with a text raises ValueError if the array is no dynamic array of 8-bit integers or is not UTF-8 (C144_text_counterexample); an array with NaN is not equal to itself (C144_nan_counterexample); zeros of either sign are equal though sent differently (C144_zero_counterexample); messages are compared by identity, so that arrays of copies are never equal, e.g. that of a message sent and received (C144_copy_counterexample, C144_compound). Proved: lists (C144_list), arrays (C144_array), other objects (C144_other), texts (C144_text), an array and itself (C144_self), what is sent for integers (C144_partial) and floats without NaN and negative zero (C144_float), what was assigned (C144_assigned, C144_assigned_float), searching (C144_search)."
  },
  {
   "property": "C145",
   "status": "partial",
   "theorems": [
    "Dronecan.Enumeration.C145_indices",
    "Dronecan.Enumeration.C145_confirmed",
    "Dronecan.Enumeration.C145_returned",
    "Dronecan.Enumeration.C145_counterexample",
    "Dronecan.Enumeration.C145_partial",
    "Dronecan.Enumeration.C145_stuck",
    "Dronecan.Enumeration.C145_all",
    "Dronecan.Enumeration.C145_raises",
    "Dronecan.Enumeration.C145_deadline",
    "Dronecan.Enumeration.C145_end"
   ],
   "note": "False: any node that sends an indication gets an index, even if it is none of the nodes to be enumerated (C145_counterexample), and then the list is never returned (C145_stuck). Proved: the indices (C145_indices), what was confirmed (C145_confirmed), the list returned (C145_returned), that it is returned if all answer (C145_all), that wrong answers, time-outs and the deadline end the program (C145_raises, C145_deadline, C145_end), and the whole claim when only nodes to be enumerated send indications (C145_partial)."
  },
  {
   "property": "C146",
   "status": "partial",
   "theorems": [
    "Dronecan.FirmwareUpdate.C146_exit",
    "Dronecan.FirmwareUpdate.C146_exits",
    "Dronecan.FirmwareUpdate.C146_quiet",
    "Dronecan.FirmwareUpdate.C146_pace",
    "Dronecan.FirmwareUpdate.C146_counterexample",
    "Dronecan.FirmwareUpdate.C146_given_up",
    "Dronecan.FirmwareUpdate.C146_partial",
    "Dronecan.FirmwareUpdate.C146_again",
    "Dronecan.FirmwareUpdate.C146_others"
   ],
   "note": "False: if the target does not answer a request, or answers that an update is in progress, it is never asked again (C146_counterexample, C146_given_up), e.g. when it was restarting. Proved: when the program ends (C146_exit, C146_exits), no request after the beginning (C146_quiet), one request at a time, four seconds apart (C146_pace), other nodes (C146_others), asked again after other answers (C146_again), the whole claim if all requests are answered otherwise (C146_partial)."
  },
  {
   "property": "C147",
   "status": "partial",
   "theorems": [
    "Dronecan.Options.C147_partial",
    "Dronecan.Options.C147_exact_clock",
    "Dronecan.Options.C147_ignored",
    "Dronecan.Options.C147_counterexample",
    "Dronecan.Options.C147_interval_counterexample",
    "Dronecan.Options.C147_names_counterexample",
    "Dronecan.Options.C147_mavcan",
    "Dronecan.Options.C147_bus_counterexample"
   ],
   "note": "False: a rate error of 0 ppm is replaced by 200 ppm (C147_counterexample), a node_status_interval of 0 by one second (C147_interval_counterexample); the keyword arguments device, device_name, can_driver, self and can_device_name are not ignored but make the call fail, device only after the constructor has waited for the process (C147_names_counterexample); the MAVLink bus number 0, which set_bus refuses, becomes bus -1 (C147_bus_counterexample). Proved: everything else (C147_partial, C147_ignored, C147_mavcan)."
  },
  {
   "property": "C148",
   "status": "partial",
   "theorems": [
    "Dronecan.Extract.C148_unique",
    "Dronecan.Extract.C148_prefix",
    "Dronecan.Extract.C148_partial",
    "Dronecan.Extract.C148_counterexample"
   ],
   "note": "False: the first transfer in the log that is damaged or of an unknown type raises TransferError out of spin and ends the program; all that is recorded after it is lost (C148_counterexample). Proved: it is true if there is no such transfer (C148_partial), and in general the output is exactly the data of the messages recorded up to the first such transfer, or up to ctrl-C (C148_prefix)."
  },
  {
   "property": "C149",
   "status": "partial",
   "theorems": [
    "Dronecan.Threads.C149_partial",
    "Dronecan.Threads.C149_ids_partial",
    "Dronecan.Threads.C149_order_partial",
    "Dronecan.Threads.C149_counterexample"
   ],
   "note": "False: the node has no lock. Two threads that broadcast the same type can read the same transfer ID; if their frames are interleaved then neither message arrives (C149_counterexample). Proved for all schedules if each type is broadcast by one thread only, as in the example of the MAVLink tunnel: every message arrives (C149_partial), transfer IDs count modulo 32 (C149_ids_partial), and each thread's messages are sent in their order (C149_order_partial)."
  },
  {
   "property": "C150",
   "status": "partial",
   "theorems": [
    "Dronecan.Tunnel.C150_served",
    "Dronecan.Tunnel.C150_prefix",
    "Dronecan.Tunnel.C150_end",
    "Dronecan.Tunnel.C150_pieces",
    "Dronecan.Tunnel.C150_arrives",
    "Dronecan.Tunnel.C150_first_only",
    "Dronecan.Tunnel.C150_counterexample"
   ],
   "note": "False for the second client: recv returns no bytes for ever when a client has gone, so accept is never called again (C150_counterexample); only the first client is ever accepted (C150_first_only). Proved: the first client is served in both directions while nothing raises (C150_served, C150_pieces), the messages arrive in all schedules (C150_arrives, with C149), what was broadcast is always a beginning of what was sent (C150_prefix), and an exception in the thread ends everything (C150_end)."
  },
  {
   "property": "C151",
   "status": "proved",
   "theorems": [
    "Dronecan.FirmwareFile.C151_name",
    "Dronecan.FirmwareFile.C151_base64",
    "Dronecan.FirmwareFile.C151_distinct",
    "Dronecan.FirmwareFile.C151_served",
    "Dronecan.FirmwareFile.C151_file",
    "Dronecan.FirmwareFile.C151_only"
   ],
   "note": "The CRC is any function of the path. The definitions of the file types are those of the standard, with capacities and cast modes left open (C125)."
  },
  {
   "property": "C152",
   "status": "proved",
   "theorems": [
    "Dronecan.EndToEnd.C152_record",
    "Dronecan.EndToEnd.C152_replayed",
    "Dronecan.EndToEnd.C152_written"
   ],
   "note": "Puts together C49, C91, C115 and C118. Time stamps are those of C49."
  },
  {
   "property": "C153",
   "status": "partial",
   "theorems": [
    "Dronecan.GnssTools.C153_gaps_partial",
    "Dronecan.GnssTools.C153_rates_partial",
    "Dronecan.GnssTools.C153_counterexample"
   ],
   "note": "Counterexample: time stamps that go back can make the average zero; then a gap raises ZeroDivisionError and is not shown. Proved if the time stamps of each node do not go back. If moreover the times between a node's messages have bounds, the rates shown are within the corresponding bounds, up to rounding."
  },
  {
   "property": "C154",
   "status": "partial",
   "theorems": [
    "Dronecan.GnssTools.C154_plain",
    "Dronecan.GnssTools.C154_stats_partial",
    "Dronecan.GnssTools.C154_rates_partial",
    "Dronecan.GnssTools.C154_file_counterexample",
    "Dronecan.GnssTools.C154_counted_counterexample"
   ],
   "note": "Counterexamples, both with --stats: after two packets of a kind at the same clock reading the next report divides by zero and the data of that message is not written; a kind of packet that came for the first time is in no report until it came again. Proved: everything without --stats; with --stats, if the clock moves on between packets, the file and the reports, where kinds of packet that came twice since the last report have a line. If the times between packets of a kind have bounds, the rates are within the corresponding bounds, up to rounding."
  },
  {
   "property": "C155",
   "status": "proved",
   "theorems": [
    "Dronecan.EndToEnd.C155_crosses",
    "Dronecan.EndToEnd.C155_filter"
   ],
   "note": "The theorem about the bridge (C138) and those about nodes (C91, C115) put together. That a call of send_frame that succeeds puts the frame on the bus, in order, is a hypothesis (`OnBus`)."
  },
  {
   "property": "C156",
   "status": "partial",
   "theorems": [
    "Dronecan.Actuators.C156_value",
    "Dronecan.Actuators.C156_limits_partial",
    "Dronecan.Actuators.C156_limits_counterexample",
    "Dronecan.Actuators.C156_ids_partial",
    "Dronecan.Actuators.C156_id_counterexample",
    "Dronecan.Actuators.C156_runs"
   ],
   "note": "Counterexamples: --actuator-id is converted to a float, which the field does not accept, so that every call with it raises ValueError and the program ends (numbers beyond 255 command actuator 255, negative ones actuator 0); with a limit that is not a number of half precision the value read may be beyond it. Proved: all of it without --actuator-id, the limits if they are numbers of half precision; what happens with --actuator-id."
  },
  {
   "property": "C157",
   "status": "proved",
   "theorems": [
    "Dronecan.Actuators.C157_throttle"
   ],
   "note": "The sine is any number from -1 to 1."
  },
  {
   "property": "C158",
   "status": "partial",
   "theorems": [
    "Dronecan.Actuators.C158_partial",
    "Dronecan.Actuators.C158_raises",
    "Dronecan.Actuators.C158_boolean",
    "Dronecan.Actuators.C158_counterexample"
   ],
   "note": "Counterexample: in saturated signed fields of 54 bits or more the bound is wrong (C04), and infinity reads as a negative number. Proved for unsigned fields and signed ones of up to 53 bits."
  },
  {
   "property": "C159",
   "status": "partial",
   "theorems": [
    "Dronecan.LegacySocket.C159_partial",
    "Dronecan.LegacySocket.C159_fd",
    "Dronecan.LegacySocket.C159_failed",
    "Dronecan.LegacySocket.C159_error",
    "Dronecan.LegacySocket.C159_read",
    "Dronecan.LegacySocket.C159_receive",
    "Dronecan.LegacySocket.C159_fd_counterexample",
    "Dronecan.LegacySocket.C159_counterexample"
   ],
   "note": "Counterexamples: the result of write is not checked, so that a frame whose write failed is reported as sent; send is called without canfd, so that an FD frame is cut to 16 bytes and is on the bus as a classic frame with its first eight bytes. Proved: the statement for classic frames that write accepts; what becomes of FD frames and of failed writes, for all frames; a failed read makes receive raise struct.error."
  },
  {
   "property": "C160",
   "status": "partial",
   "theorems": [
    "Dronecan.FloatStamps.C160_partial",
    "Dronecan.FloatStamps.C160_arrival_partial",
    "Dronecan.FloatStamps.C160_resync",
    "Dronecan.FloatStamps.C160_any_partial",
    "Dronecan.FloatStamps.C160_resolved_partial",
    "Dronecan.FloatStamps.C160_counterexample",
    "Dronecan.FloatStamps.C160_order_counterexample"
   ],
   "note": "Counterexamples: p - (p - q) may exceed q by rounding, so that an estimate is later than the arrival and the next one earlier than the one before. Proved: all of it up to a few units of 2^-52 times the largest clock value (half a microsecond for times of day until 2038), which do not accumulate; this for clocks that do not overflow, the bound by the arrival for any. For clocks that overflow: the number of overflows is found if the clocks disagree by less than half a period less a small margin, and the resolved time is wrong by at most 2^-52 periods per sample."
  },
  {
   "property": "C161",
   "status": "partial",
   "theorems": [
    "Dronecan.FloatTimers.C161_partial",
    "Dronecan.FloatTimers.C161_due",
    "Dronecan.FloatTimers.C161_not_due",
    "Dronecan.FloatTimers.C161_limit_partial",
    "Dronecan.FloatTimers.C161_all_partial",
    "Dronecan.FloatTimers.C161_counterexample",
    "Dronecan.FloatTimers.C161_ends_counterexample",
    "Dronecan.FloatTimers.C161_wait",
    "Dronecan.FloatTimers.C161_wait_deadline",
    "Dronecan.FloatTimers.C161_wait_enough",
    "Dronecan.FloatTimers.C161_wait_range",
    "Dronecan.FloatTimers.C161_spin"
   ],
   "note": "Counterexamples: with a period of 0.1 the third run is not due after three periods, since the deadlines are added up; if the period is lost in rounding, the loop of the scheduler never ends. Proved: never early; the error is at most k times 2^-52 of the largest clock value, and no run is missed; the number of runs is limited; spin waits until the next event, up to rounding and the time between the two readings of the clock that the scheduler makes."
  },
  {
   "property": "C162",
   "status": "partial",
   "theorems": [
    "Dronecan.FloatClocks.C162_partial",
    "Dronecan.FloatClocks.C162_monotonic",
    "Dronecan.FloatClocks.C162_nonneg",
    "Dronecan.FloatClocks.C162_start",
    "Dronecan.FloatClocks.C162_running",
    "Dronecan.FloatClocks.C162_restarted",
    "Dronecan.FloatClocks.C162_counterexample"
   ],
   "note": "Counterexample: half a second less 2^-60 is reported as one second. Proved: nearest up to a unit of rounding (2^-51 of the clock); monotone without exception; a restart is noticed if the node had run more than a second longer."
  },
  {
   "property": "C163",
   "status": "partial",
   "theorems": [
    "Dronecan.FloatClocks.C163_partial",
    "Dronecan.FloatClocks.C163_counterexample"
   ],
   "note": "Counterexample: if the real clock is set forward by less than 50 ms then the time stamps are too late by this. Proved, with rounding errors: never too early by more than a microsecond, never too late by more than 50 ms whatever the real clock does; too early by the microsecond if the real clock has never been more than 100 ppm faster. With exact numbers, and for whole runs of the driver, this is C110."
  },
  {
   "property": "C164",
   "status": "partial",
   "theorems": [
    "Dronecan.Hobbywing.C164_partial",
    "Dronecan.Hobbywing.C164_baud",
    "Dronecan.Hobbywing.C164_frequency",
    "Dronecan.Hobbywing.C164_raw",
    "Dronecan.Hobbywing.C164_ids",
    "Dronecan.Hobbywing.C164_usage",
    "Dronecan.Hobbywing.C164_number",
    "Dronecan.Hobbywing.C164_raw_number",
    "Dronecan.Hobbywing.C164_invalid",
    "Dronecan.Hobbywing.C164_invalid_frequency",
    "Dronecan.Hobbywing.C164_counterexample"
   ],
   "note": "Counterexample: for a bit rate that does not exist, and likewise for a frequency, TypeError is raised, since str.join does not take integers. All else is proved. The definitions are parameters; fields are unsigned, or signed of up to 53 bits."
  },
  {
   "property": "C165",
   "status": "partial",
   "theorems": [
    "Dronecan.RequestThreads.C165_answer",
    "Dronecan.RequestThreads.C165_none_forgotten",
    "Dronecan.RequestThreads.C165_once_partial",
    "Dronecan.RequestThreads.C165_next_id",
    "Dronecan.RequestThreads.C165_quiet_partial",
    "Dronecan.RequestThreads.C165_partial",
    "Dronecan.RequestThreads.C165_counterexample",
    "Dronecan.RequestThreads.C165_quiet_counterexample",
    "Dronecan.RequestThreads.C165_resized",
    "Dronecan.RequestThreads.C165_once_counterexample",
    "Dronecan.RequestThreads.C165_same_transfer_id"
   ],
   "note": "Counterexamples: a response that arrives before the request is registered is lost; one that arrives between the two insertions makes spin raise KeyError, one while spin goes through the dictionary RuntimeError; a callback is called twice if its timer runs before the request is registered and a response follows. Proved for all schedules: callbacks only get answers to their own requests, and none is forgotten. Proved with a hypothesis: at most once, if no thread is delayed in request until its timer runs; nothing raised, if the insertions and the work of spin exclude each other; delivery, if the request is registered, no other is answered by the response and spin is not interrupted."
  },
  {
   "property": "C166",
   "status": "proved",
   "theorems": [
    "Dronecan.Simulators.C166_servo",
    "Dronecan.Simulators.C166_range",
    "Dronecan.Simulators.C166_battery",
    "Dronecan.Simulators.C166_cells",
    "Dronecan.Simulators.C166_cells_refused",
    "Dronecan.Simulators.C166_cells_near"
   ],
   "note": "The sine is any number from -1 to 1. The types of the fields are those of the standard definitions, which are not part of the repository."
  },
  {
   "property": "C167",
   "status": "partial",
   "theorems": [
    "Dronecan.InfoLoop.C167_spacing",
    "Dronecan.InfoLoop.C167_outcome",
    "Dronecan.InfoLoop.C167_late",
    "Dronecan.InfoLoop.C167_asks",
    "Dronecan.InfoLoop.C167_answered",
    "Dronecan.InfoLoop.C167_restarts",
    "Dronecan.InfoLoop.C167_timeout_counterexample",
    "Dronecan.InfoLoop.C167_rate_counterexample"
   ],
   "note": "Counterexamples: the argument timeout_sec=0.5 of the request has no effect, the timeout is the default of a second; the callback raises AttributeError when it runs out, which ends spin early, so a node that does not answer is asked less often than with the rate given, even if nothing is late. Proved for all runs: the distance of the requests, at most one report for each request, none just while its timer is set, errors not before the timeout of request, responses printed."
  },
  {
   "property": "C168",
   "status": "partial",
   "theorems": [
    "Dronecan.MonitorThreads.C168_counterexample",
    "Dronecan.MonitorThreads.C168_get",
    "Dronecan.MonitorThreads.C168_message",
    "Dronecan.MonitorThreads.C168_sweep",
    "Dronecan.MonitorThreads.C168_entry",
    "Dronecan.MonitorThreads.C168_raises",
    "Dronecan.MonitorThreads.C168_partial",
    "Dronecan.MonitorThreads.C168_alive_partial",
    "Dronecan.MonitorThreads.C168_known_partial",
    "Dronecan.MonitorThreads.C168_quiet_counterexample",
    "Dronecan.MonitorThreads.C168_once_counterexample",
    "Dronecan.MonitorThreads.C168_offline_counterexample",
    "Dronecan.MonitorThreads.C168_failed_counterexample",
    "Dronecan.MonitorThreads.C168_filled_counterexample"
   ],
   "note": "Counterexamples: KeyError leaves spin when get deletes an entry that _remove_stale is about to delete; both report it, so that it is offline twice; a node is reported to be offline and deleted just after a message of it; get raises TypeError between the insertion of an entry and its first update, and may return an entry of which nothing is filled in. Proved for all interleavings: whose entry is returned and reported, and which exceptions there can be; everything if the threads exclude each other; and, while no last message is found too old, that nothing is raised or reported to be offline and that announced nodes are found. What get, a message and _remove_stale do while no other thread runs is proved from every state."
  },
  {
   "property": "C169",
   "status": "partial",
   "theorems": [
    "Dronecan.FloatTimeouts.C169_not_early",
    "Dronecan.FloatTimeouts.C169_not_late",
    "Dronecan.FloatTimeouts.C169_node",
    "Dronecan.FloatTimeouts.C169_seconds",
    "Dronecan.FloatTimeouts.C169_inactive",
    "Dronecan.FloatTimeouts.C169_inactive_late",
    "Dronecan.FloatTimeouts.C169_inactive_stays",
    "Dronecan.FloatTimeouts.C169_query",
    "Dronecan.FloatTimeouts.C169_spin_not_late",
    "Dronecan.FloatTimeouts.C169_spin_partial",
    "Dronecan.FloatTimeouts.C169_outdated_counterexample",
    "Dronecan.FloatTimeouts.C169_inactive_counterexample",
    "Dronecan.FloatTimeouts.C169_spin_counterexample"
   ],
   "note": "Counterexamples: rounding can hide at one reading of the clock that a message is outdated, or a transfer inactive by less than a unit of rounding; spin returns too early by less than a unit of rounding. Proved: without exception, nothing is outdated, offline, inactive or forgotten too early; what is outdated is so at every later reading of the clock, what is inactive stays inactive and is so after a unit of rounding; spin is never late and early by a unit of rounding at most."
  },
  {
   "property": "C170",
   "status": "partial",
   "theorems": [
    "Dronecan.FrameText.C170_injective",
    "Dronecan.FrameText.C170_columns",
    "Dronecan.FrameText.C170_byte",
    "Dronecan.FrameText.C170_id",
    "Dronecan.FrameText.C170_printable",
    "Dronecan.FrameText.C170_counterexample"
   ],
   "note": "Counterexample: the constructor accepts a standard frame with an identifier of more than 11 bits, whose text can be that of an extended frame. Proved: for every frame that can be on a bus (identifier of 29 or 11 bits, no more data than the kind of frame holds) the text determines the frame, and identifier and bytes are at fixed columns; for every frame at all the text is printable ASCII. The format of the time stamps is not modelled."
  }
 ]
}