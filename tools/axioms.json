{
 "Webparse.C01_encode_meets_rfc": [
  "Classical.choice",
  "Quot.sound",
  "propext"
 ],
 "Webparse.C01_roundtrip": [
  "Classical.choice",
  "Quot.sound",
  "propext"
 ],
 "Webparse.C01_too_large_rejected": [
  "Classical.choice",
  "Quot.sound",
  "propext"
 ],
 "Webparse.C02_decode_exact": [
  "Classical.choice",
  "Quot.sound",
  "propext"
 ],
 "Webparse.C02_decode_local": [
  "Classical.choice",
  "Quot.sound",
  "propext"
 ],
 "Webparse.C02_truncated_is_error": [
  "Classical.choice",
  "Quot.sound",
  "propext"
 ],
 "Webparse.C03_roundtrip": [
  "Classical.choice",
  "Quot.sound",
  "propext"
 ],
 "Webparse.C03_encode_meets_rfc": [
  "Classical.choice",
  "Quot.sound",
  "propext"
 ],
 "Webparse.C03_table_canonical": [
  "propext"
 ],
 "Webparse.C04_violated": [
  "Quot.sound",
  "propext"
 ],
 "Webparse.C04_accepts_exactly_partial": [
  "Classical.choice",
  "Quot.sound",
  "propext"
 ],
 "Webparse.C04_canonical_partial": [
  "Classical.choice",
  "Quot.sound",
  "propext"
 ],
 "Webparse.C05_encode_lower": [
  "Classical.choice",
  "Quot.sound",
  "propext"
 ],
 "Webparse.C06_size_invariant": [
  "Quot.sound",
  "propext"
 ],
 "Webparse.C07_insert_evicts": [
  "Quot.sound",
  "propext"
 ],
 "Webparse.C07_limit_evicts": [
  "Quot.sound",
  "propext"
 ],
 "Webparse.C08_static_violated": [
  "Classical.choice",
  "Quot.sound",
  "propext"
 ],
 "Webparse.C08_static_partial": [
  "Classical.choice",
  "Quot.sound",
  "propext"
 ],
 "Webparse.C08_dynamic": [
  "Classical.choice",
  "Quot.sound",
  "propext"
 ],
 "Webparse.C08_dynamic_history": [
  "Classical.choice",
  "Quot.sound",
  "propext"
 ],
 "Webparse.C09_violated_by_name_confusion": [
  "Classical.choice",
  "Quot.sound",
  "propext"
 ],
 "Webparse.C09_connection_roundtrip_partial": [
  "Classical.choice",
  "Quot.sound",
  "propext"
 ],
 "Webparse.C09_plain_names_partial": [
  "Classical.choice",
  "Quot.sound",
  "propext"
 ],
 "Webparse.C09_violated_by_large_index": [
  "Classical.choice",
  "Quot.sound",
  "propext"
 ],
 "Webparse.C09_reachable_partial": [
  "Classical.choice",
  "Quot.sound",
  "propext"
 ],
 "Webparse.C09_names_iff_partial": [
  "Classical.choice",
  "Quot.sound",
  "propext"
 ],
 "Webparse.C09_violated_unreachable": [
  "Classical.choice",
  "Quot.sound",
  "propext"
 ],
 "Webparse.C09_singles_iff_partial": [
  "Classical.choice",
  "Quot.sound",
  "propext"
 ],
 "Webparse.C09_violated_hang": [
  "Classical.choice",
  "Quot.sound",
  "propext"
 ],
 "Webparse.C10_violated": [
  "Classical.choice",
  "Quot.sound",
  "propext"
 ],
 "Webparse.C10_size_update_never_ends": [
  "Classical.choice",
  "Quot.sound",
  "propext"
 ],
 "Webparse.C10_terminates_iff_partial": [
  "Classical.choice",
  "Quot.sound",
  "propext"
 ],
 "Webparse.C10_endless_iff_partial": [
  "Classical.choice",
  "Quot.sound",
  "propext"
 ],
 "Webparse.C11_compositional": [
  "Classical.choice",
  "Quot.sound",
  "propext"
 ],
 "Webparse.C11_blocks": [
  "Classical.choice",
  "Quot.sound",
  "propext"
 ],
 "Webparse.C12_table_after": [
  "Classical.choice",
  "Quot.sound",
  "propext"
 ],
 "Webparse.C12_step_safe": [
  "Classical.choice",
  "Quot.sound",
  "propext"
 ],
 "Webparse.C12_run_safe": [
  "Classical.choice",
  "Quot.sound",
  "propext"
 ],
 "Webparse.C13_roundtrip": [
  "Classical.choice",
  "Quot.sound",
  "propext"
 ],
 "Webparse.C13_encode_wire": [
  "propext"
 ],
 "Webparse.C14_short": [
  "Quot.sound",
  "propext"
 ],
 "Webparse.C14_exact": [
  "Quot.sound",
  "propext"
 ],
 "Webparse.C14_ranges": [
  "Quot.sound",
  "propext"
 ],
 "Webparse.C14_kinds": [
  "propext"
 ],
 "Webparse.C14_flags_violated": [
  "Quot.sound",
  "propext"
 ],
 "Webparse.C15_ping": [
  "Classical.choice",
  "Quot.sound",
  "propext"
 ],
 "Webparse.C15_goAway": [
  "Classical.choice",
  "Quot.sound",
  "propext"
 ],
 "Webparse.C15_windowUpdate": [
  "Classical.choice",
  "Quot.sound",
  "propext"
 ],
 "Webparse.C15_reset": [
  "Classical.choice",
  "Quot.sound",
  "propext"
 ],
 "Webparse.C16_violated": [
  "Classical.choice",
  "Quot.sound",
  "propext"
 ],
 "Webparse.C16_never_readable": [
  "Classical.choice",
  "Quot.sound",
  "propext"
 ],
 "Webparse.C16_payload_partial": [
  "Classical.choice",
  "Quot.sound",
  "propext"
 ],
 "Webparse.C16_parse_exact": [
  "Quot.sound",
  "propext"
 ],
 "Webparse.C17_roundtrip": [
  "Classical.choice",
  "Quot.sound",
  "propext"
 ],
 "Webparse.C18_parse_iff": [
  "Classical.choice",
  "Quot.sound",
  "propext"
 ],
 "Webparse.C18_stream_and_ack": [
  "Classical.choice",
  "Quot.sound",
  "propext"
 ],
 "Webparse.C18_no_panic": [
  "Quot.sound",
  "propext"
 ],
 "Webparse.C19_split": [
  "Quot.sound",
  "propext"
 ],
 "Webparse.C19_part_reads_back": [
  "Classical.choice",
  "Quot.sound",
  "propext"
 ],
 "Webparse.C19_reads_back": [
  "Classical.choice",
  "Quot.sound",
  "propext"
 ],
 "Webparse.C19_zero_limit_never_ends": [
  "Quot.sound",
  "propext"
 ],
 "Webparse.C20_padding_kept_partial": [
  "Classical.choice",
  "Quot.sound",
  "propext"
 ],
 "Webparse.C20_violated": [
  "Classical.choice",
  "Quot.sound",
  "propext"
 ],
 "Webparse.C20_pad_too_long": [
  "Classical.choice",
  "Quot.sound",
  "propext"
 ],
 "Webparse.C20_boundary_violated": [
  "Classical.choice",
  "Quot.sound",
  "propext"
 ],
 "Webparse.C20_read_partial": [
  "Classical.choice",
  "Quot.sound",
  "propext"
 ],
 "Webparse.C20_iff_partial": [
  "Classical.choice",
  "Quot.sound",
  "propext"
 ],
 "Webparse.C21_violated_by_end_stream": [
  "Classical.choice",
  "Quot.sound",
  "propext"
 ],
 "Webparse.C21_violated_by_size": [
  "Classical.choice",
  "Quot.sound",
  "propext"
 ],
 "Webparse.C21_block_intact_partial": [
  "Classical.choice",
  "Quot.sound",
  "propext"
 ],
 "Webparse.C21_single_frame_partial": [
  "Quot.sound",
  "propext"
 ],
 "Webparse.C21_no_end_stream_partial": [
  "Quot.sound",
  "propext"
 ],
 "Webparse.C21_iff_partial": [
  "Classical.choice",
  "Quot.sound",
  "propext"
 ],
 "Webparse.C21_violated_always": [
  "Classical.choice",
  "Quot.sound",
  "propext"
 ],
 "Webparse.C21_size_partial": [
  "Classical.choice",
  "Quot.sound",
  "propext"
 ],
 "Webparse.C22_violated": [
  "Classical.choice",
  "Quot.sound",
  "propext"
 ],
 "Webparse.C22_block_roundtrip_partial": [
  "Classical.choice",
  "Quot.sound",
  "propext"
 ],
 "Webparse.C22_connection_partial": [
  "Classical.choice",
  "Quot.sound",
  "propext"
 ],
 "Webparse.C22_read_partial": [
  "Classical.choice",
  "Quot.sound",
  "propext"
 ],
 "Webparse.C22_iff_partial": [
  "Classical.choice",
  "Quot.sound",
  "propext"
 ],
 "Webparse.C23_limit": [
  "Classical.choice",
  "Quot.sound",
  "propext"
 ],
 "Webparse.C24_ids": [
  "Quot.sound",
  "propext"
 ],
 "Webparse.C24_distinct": [
  "Classical.choice",
  "Quot.sound",
  "propext"
 ],
 "Webparse.C25_one": [
  "Classical.choice",
  "Quot.sound",
  "propext"
 ],
 "Webparse.C25_stream": [
  "Classical.choice",
  "Quot.sound",
  "propext"
 ],
 "Webparse.C26_writer_accepts": [
  "Quot.sound",
  "propext"
 ],
 "Webparse.C26_write_wire": [
  "Classical.choice",
  "Quot.sound",
  "propext"
 ],
 "Webparse.C26_roundtrip": [
  "Classical.choice",
  "Quot.sound",
  "propext"
 ],
 "Webparse.C27_read_iff": [
  "Classical.choice",
  "Quot.sound",
  "propext"
 ],
 "Webparse.C27_rewrite": [
  "Classical.choice",
  "Quot.sound",
  "propext"
 ],
 "Webparse.C27_no_panic": [
  "Quot.sound",
  "propext"
 ],
 "Webparse.C28_mask_rfc": [
  "Classical.choice",
  "Quot.sound",
  "propext"
 ],
 "Webparse.C28_involution": [
  "Classical.choice",
  "Quot.sound",
  "propext"
 ],
 "Webparse.C28_length": [
  "Classical.choice",
  "Quot.sound",
  "propext"
 ],
 "Webparse.C28_piecewise": [
  "Classical.choice",
  "Quot.sound",
  "propext"
 ],
 "Webparse.C29_roundtrip": [
  "Classical.choice",
  "Quot.sound",
  "propext"
 ],
 "Webparse.C29_truncated": [
  "Classical.choice",
  "Quot.sound",
  "propext"
 ],
 "Webparse.C29_read_exact": [
  "Classical.choice",
  "Quot.sound",
  "propext"
 ],
 "Webparse.C30_violated": [
  "Quot.sound",
  "propext"
 ],
 "Webparse.C30_returns_zero": [
  "Quot.sound",
  "propext"
 ],
 "Webparse.C30_bytes_written_partial": [
  "Classical.choice",
  "Quot.sound",
  "propext"
 ],
 "Webparse.C30_sizes": [
  "Quot.sound",
  "propext"
 ],
 "Webparse.C31_limit": [
  "Classical.choice",
  "Quot.sound",
  "propext"
 ],
 "Webparse.C31_refused_early": [
  "Classical.choice",
  "Quot.sound",
  "propext"
 ],
 "Webparse.C32_reassemble": [
  "Classical.choice",
  "Quot.sound",
  "propext"
 ],
 "Webparse.C32_accepts_iff": [
  "Classical.choice",
  "Quot.sound",
  "propext"
 ],
 "Webparse.C33_close_bytes": [
  "Classical.choice",
  "Quot.sound",
  "propext"
 ],
 "Webparse.C33_roundtrip": [
  "Classical.choice",
  "Quot.sound",
  "propext"
 ],
 "Webparse.C33_stream": [
  "Classical.choice",
  "Quot.sound",
  "propext"
 ],
 "Webparse.C33_long_control_refused": [
  "Quot.sound",
  "propext"
 ],
 "Webparse.C33_owned_roundtrip": [
  "propext"
 ],
 "Webparse.C34_code_roundtrip": [
  "Quot.sound",
  "propext"
 ],
 "Webparse.C34_name_roundtrip": [
  "Quot.sound",
  "propext"
 ],
 "Webparse.C34_registry": [
  "Quot.sound",
  "propext"
 ],
 "Webparse.C35_getters_partial": [
  "Classical.choice",
  "Quot.sound",
  "propext"
 ],
 "Webparse.C35_violated": [
  "Classical.choice",
  "Quot.sound",
  "propext"
 ],
 "Webparse.C35_map_partial": [
  "Classical.choice",
  "Quot.sound",
  "propext"
 ],
 "Webparse.C35_names_iff_partial": [
  "Classical.choice",
  "Quot.sound",
  "propext"
 ],
 "Webparse.C35_lower_case_partial": [
  "Classical.choice",
  "Quot.sound",
  "propext"
 ],
 "Webparse.C35_letters_partial": [
  "Classical.choice",
  "Quot.sound",
  "propext"
 ],
 "Webparse.C35_no_duplicates": [
  "Classical.choice",
  "Quot.sound",
  "propext"
 ],
 "Webparse.C36_violated": [
  "Classical.choice",
  "Quot.sound",
  "propext"
 ],
 "Webparse.C36_violated_transitivity": [
  "Classical.choice",
  "Quot.sound",
  "propext"
 ],
 "Webparse.C36_violated_hash": [
  "Classical.choice",
  "Quot.sound",
  "propext"
 ],
 "Webparse.C36_complete_partial": [
  "Classical.choice",
  "Quot.sound",
  "propext"
 ],
 "Webparse.C36_hash": [
  "Quot.sound",
  "propext"
 ],
 "Webparse.C36_exact": [
  "Classical.choice",
  "Quot.sound",
  "propext"
 ],
 "Webparse.C36_sound_partial": [
  "Classical.choice",
  "Quot.sound",
  "propext"
 ],
 "Webparse.C36_iff_partial": [
  "Classical.choice",
  "Quot.sound",
  "propext"
 ],
 "Webparse.C36_on_classes_partial": [
  "Classical.choice",
  "Quot.sound",
  "propext"
 ],
 "Webparse.C37_violated_injection": [
  "Classical.choice",
  "Quot.sound",
  "propext"
 ],
 "Webparse.C37_violated": [
  "Classical.choice",
  "Quot.sound",
  "propext"
 ],
 "Webparse.C37_roundtrip_partial": [
  "Classical.choice",
  "Quot.sound",
  "propext"
 ],
 "Webparse.C37_roundtrip_iff": [
  "Classical.choice",
  "Quot.sound",
  "propext"
 ],
 "Webparse.C37_accepts_clean": [
  "Classical.choice",
  "Quot.sound",
  "propext"
 ],
 "Webparse.C38_response": [
  "Classical.choice",
  "Quot.sound",
  "propext"
 ],
 "Webparse.C38_request": [
  "Classical.choice",
  "Quot.sound",
  "propext"
 ],
 "Webparse.C39_response": [
  "Classical.choice",
  "Quot.sound",
  "propext"
 ],
 "Webparse.C39_request": [
  "Classical.choice",
  "Quot.sound",
  "propext"
 ],
 "Webparse.C40_violated": [
  "Classical.choice",
  "Quot.sound",
  "propext"
 ],
 "Webparse.C40_roundtrip_iff_partial": [
  "Classical.choice",
  "Quot.sound",
  "propext"
 ],
 "Webparse.C40_no_injection_partial": [
  "Classical.choice",
  "Quot.sound",
  "propext"
 ],
 "Webparse.C40_serialisable": [
  "Classical.choice",
  "Quot.sound",
  "propext"
 ],
 "Webparse.C40_head_and_body": [
  "Classical.choice",
  "Quot.sound",
  "propext"
 ],
 "Webparse.C41_violated": [
  "Classical.choice",
  "Quot.sound",
  "propext"
 ],
 "Webparse.C41_violated_encoding": [
  "Classical.choice",
  "Quot.sound",
  "propext"
 ],
 "Webparse.C41_violated_injection": [
  "Classical.choice",
  "Quot.sound",
  "propext"
 ],
 "Webparse.C41_roundtrip_iff_partial": [
  "Classical.choice",
  "Quot.sound",
  "propext"
 ],
 "Webparse.C41_exact_partial": [
  "Classical.choice",
  "Quot.sound",
  "propext"
 ],
 "Webparse.C41_violated_connect": [
  "Classical.choice",
  "Quot.sound",
  "propext"
 ],
 "Webparse.C42_wire": [
  "Classical.choice",
  "Quot.sound",
  "propext"
 ],
 "Webparse.C42_roundtrip": [
  "Classical.choice",
  "Quot.sound",
  "propext"
 ],
 "Webparse.C42_sequence": [
  "Classical.choice",
  "Quot.sound",
  "propext"
 ],
 "Webparse.C42_prefix": [
  "Classical.choice",
  "Quot.sound",
  "propext"
 ],
 "Webparse.C42_violated_panic": [
  "Classical.choice",
  "Quot.sound",
  "propext"
 ],
 "Webparse.C42_panic_iff_partial": [
  "Classical.choice",
  "Quot.sound",
  "propext"
 ],
 "Webparse.C43_violated_empty": [
  "Classical.choice",
  "Quot.sound",
  "propext"
 ],
 "Webparse.C43_violated_panic": [
  "Classical.choice",
  "Quot.sound",
  "propext"
 ],
 "Webparse.C43_violated_sign": [
  "Classical.choice",
  "Quot.sound",
  "propext"
 ],
 "Webparse.C43_violated_min": [
  "Classical.choice",
  "Quot.sound",
  "propext"
 ],
 "Webparse.C43_usize_partial": [
  "Classical.choice",
  "Quot.sound",
  "propext"
 ],
 "Webparse.C43_usize_panic_partial": [
  "Classical.choice",
  "Quot.sound",
  "propext"
 ],
 "Webparse.C43_isize_partial": [
  "Classical.choice",
  "Quot.sound",
  "propext"
 ],
 "Webparse.C43_isize_reads_partial": [
  "Classical.choice",
  "Quot.sound",
  "propext"
 ],
 "Webparse.C43_static": [
  "Classical.choice",
  "Quot.sound",
  "propext"
 ],
 "Webparse.C43_roundtrip_usize": [
  "Classical.choice",
  "Quot.sound",
  "propext"
 ],
 "Webparse.C43_roundtrip_isize_partial": [
  "Classical.choice",
  "Quot.sound",
  "propext"
 ],
 "Webparse.C43_body_len_partial": [
  "Classical.choice",
  "Quot.sound",
  "propext"
 ],
 "Webparse.C43_violated_body_len": [
  "Classical.choice",
  "Quot.sound",
  "propext"
 ],
 "Webparse.C44_from_u16": [
  "Quot.sound",
  "propext"
 ],
 "Webparse.C44_from_bytes": [
  "Quot.sound",
  "propext"
 ],
 "Webparse.C44_roundtrip": [
  "Classical.choice",
  "Quot.sound",
  "propext"
 ],
 "Webparse.C44_classes": [
  "Classical.choice",
  "Quot.sound",
  "propext"
 ],
 "Webparse.C45_version_from": [
  "Classical.choice",
  "Quot.sound",
  "propext"
 ],
 "Webparse.C45_version_agree": [
  "Classical.choice",
  "Quot.sound",
  "propext"
 ],
 "Webparse.C45_method": [
  "Classical.choice",
  "Quot.sound",
  "propext"
 ],
 "Webparse.C45_method_text": [
  "Classical.choice",
  "Quot.sound",
  "propext"
 ],
 "Webparse.C45_version": [
  "Classical.choice",
  "Quot.sound",
  "propext"
 ],
 "Webparse.C45_version_text": [
  "Classical.choice",
  "Quot.sound",
  "propext"
 ],
 "Webparse.C45_parse": [
  "Classical.choice",
  "Quot.sound",
  "propext"
 ],
 "Webparse.C46_roundtrip": [
  "Classical.choice",
  "Quot.sound",
  "propext"
 ],
 "Webparse.C46_stands_for": [
  "Classical.choice",
  "Quot.sound",
  "propext"
 ],
 "Webparse.C46_safe": [
  "Classical.choice",
  "Quot.sound",
  "propext"
 ],
 "Webparse.C46_injective": [
  "Classical.choice",
  "Quot.sound",
  "propext"
 ],
 "Webparse.C47_iff_partial": [
  "Classical.choice",
  "Quot.sound",
  "propext"
 ],
 "Webparse.C47_violated": [
  "Classical.choice",
  "Quot.sound",
  "propext"
 ],
 "Webparse.C47_accepts": [
  "Classical.choice",
  "Quot.sound",
  "propext"
 ],
 "Webparse.C47_rejects": [
  "Classical.choice",
  "Quot.sound",
  "propext"
 ],
 "Webparse.C47_result_partial": [
  "Quot.sound",
  "propext"
 ],
 "Webparse.C47_valid_partial": [
  "Quot.sound",
  "propext"
 ],
 "Webparse.C48_violated": [
  "Classical.choice",
  "Quot.sound",
  "propext"
 ],
 "Webparse.C48_violated_host": [
  "Classical.choice",
  "Quot.sound",
  "propext"
 ],
 "Webparse.C48_roundtrip_partial": [
  "Classical.choice",
  "Quot.sound",
  "propext"
 ],
 "Webparse.C48_roundtrip_iff_partial": [
  "Classical.choice",
  "Quot.sound",
  "propext"
 ],
 "Webparse.C49_violated": [
  "Classical.choice",
  "Quot.sound",
  "propext"
 ],
 "Webparse.C49_violated_port": [
  "Classical.choice",
  "Quot.sound",
  "propext"
 ],
 "Webparse.C49_port": [
  "Classical.choice",
  "Quot.sound",
  "propext"
 ],
 "Webparse.C49_origin": [
  "Classical.choice",
  "Quot.sound",
  "propext"
 ],
 "Webparse.C49_domain_partial": [
  "Classical.choice",
  "Quot.sound",
  "propext"
 ],
 "Webparse.C49_parts_partial": [
  "Classical.choice",
  "Quot.sound",
  "propext"
 ],
 "Webparse.C49_absolute_partial": [
  "Classical.choice",
  "Quot.sound",
  "propext"
 ],
 "Webparse.C49_absolute_iff_partial": [
  "Classical.choice",
  "Quot.sound",
  "propext"
 ],
 "Webparse.C49_language_partial": [
  "Classical.choice",
  "Quot.sound",
  "propext"
 ],
 "Webparse.C49_domain_iff_partial": [
  "Classical.choice",
  "Quot.sound",
  "propext"
 ],
 "Webparse.C50_fields": [
  "Classical.choice",
  "Quot.sound",
  "propext"
 ],
 "Webparse.C50_idempotent": [
  "Classical.choice",
  "Quot.sound",
  "propext"
 ],
 "Webparse.C50_empty": [],
 "Webparse.C50_into_empty": [
  "Classical.choice",
  "Quot.sound",
  "propext"
 ],
 "Webparse.C51_iff_partial": [
  "Classical.choice",
  "Quot.sound",
  "propext"
 ],
 "Webparse.C51_violated": [
  "Classical.choice",
  "Quot.sound",
  "propext"
 ],
 "Webparse.C51_roundtrip_partial": [
  "Classical.choice",
  "Quot.sound",
  "propext"
 ],
 "Webparse.C51_text": [
  "Classical.choice",
  "Quot.sound",
  "propext"
 ],
 "Webparse.C51_length": [
  "Classical.choice",
  "Quot.sound",
  "propext"
 ],
 "Webparse.C51_known": [
  "Classical.choice",
  "Quot.sound",
  "propext"
 ],
 "Webparse.C51_parse_length": [
  "Classical.choice",
  "Quot.sound",
  "propext"
 ],
 "Webparse.C52_get": [
  "Quot.sound",
  "propext"
 ],
 "Webparse.C52_insert_returns": [
  "Quot.sound",
  "propext"
 ],
 "Webparse.C52_remove_returns": [
  "Quot.sound",
  "propext"
 ],
 "Webparse.C52_len": [
  "Quot.sound",
  "propext"
 ],
 "Webparse.C52_is_empty": [
  "Quot.sound",
  "propext"
 ],
 "Webparse.C53_contains": [
  "Classical.choice",
  "Quot.sound",
  "propext"
 ],
 "Webparse.C53_detection": [
  "Classical.choice",
  "Quot.sound",
  "propext"
 ],
 "Webparse.C53_upgrade": [
  "Classical.choice",
  "Quot.sound",
  "propext"
 ],
 "Webparse.C54_headers": [
  "Classical.choice",
  "Quot.sound",
  "propext"
 ],
 "Webparse.C54_method": [
  "Classical.choice",
  "Quot.sound",
  "propext"
 ],
 "Webparse.C54_version": [
  "Classical.choice",
  "Quot.sound",
  "propext"
 ],
 "Webparse.C54_status": [
  "Classical.choice",
  "Quot.sound",
  "propext"
 ],
 "Webparse.C54_request": [
  "Classical.choice",
  "Quot.sound",
  "propext"
 ],
 "Webparse.C54_response": [
  "Classical.choice",
  "Quot.sound",
  "propext"
 ],
 "Webparse.C54_response_body": [
  "Classical.choice",
  "Quot.sound",
  "propext"
 ],
 "Webparse.C54_chunk": [
  "Classical.choice",
  "Quot.sound",
  "propext"
 ],
 "Webparse.C54_request_bytes": [
  "Classical.choice",
  "Quot.sound",
  "propext"
 ],
 "Webparse.C54_response_bytes": [
  "Classical.choice",
  "Quot.sound",
  "propext"
 ],
 "Webparse.C54_response_head_bytes": [
  "Classical.choice",
  "Quot.sound",
  "propext"
 ],
 "Webparse.C54_frame": [
  "Classical.choice",
  "Quot.sound",
  "propext"
 ],
 "Webparse.C55_response": [
  "Classical.choice",
  "Quot.sound",
  "propext"
 ],
 "Webparse.C55_violated_request": [
  "Classical.choice",
  "Quot.sound",
  "propext"
 ],
 "Webparse.C55_request_partial": [
  "Classical.choice",
  "Quot.sound",
  "propext"
 ],
 "Webparse.C56_violated": [
  "Classical.choice",
  "Quot.sound",
  "propext"
 ],
 "Webparse.C56_authority_partial": [
  "Classical.choice",
  "Quot.sound",
  "propext"
 ],
 "Webparse.C56_any_authority_partial": [
  "Classical.choice",
  "Quot.sound",
  "propext"
 ],
 "Webparse.C56_violated_always": [
  "Classical.choice",
  "Quot.sound",
  "propext"
 ],
 "Webparse.C56_iff_partial": [
  "Classical.choice",
  "Quot.sound",
  "propext"
 ],
 "Webparse.C57_any_text": [
  "Classical.choice",
  "Quot.sound",
  "propext"
 ],
 "Webparse.C57_violated": [
  "Classical.choice",
  "Quot.sound",
  "propext"
 ],
 "Webparse.C57_never": [
  "Classical.choice",
  "Quot.sound",
  "propext"
 ],
 "Webparse.C58_table_after": [
  "Classical.choice",
  "Quot.sound",
  "propext"
 ],
 "Webparse.C58_connection_partial": [
  "Classical.choice",
  "Quot.sound",
  "propext"
 ],
 "Webparse.C58_violated": [
  "Classical.choice",
  "Quot.sound",
  "propext"
 ],
 "Webparse.C58_panic_iff_partial": [
  "Classical.choice",
  "Quot.sound",
  "propext"
 ],
 "Webparse.C58_table_kept": [
  "Classical.choice",
  "Quot.sound",
  "propext"
 ],
 "Webparse.C59_url": [
  "Classical.choice",
  "Quot.sound",
  "propext"
 ],
 "Webparse.C59_request": [
  "Classical.choice",
  "Quot.sound",
  "propext"
 ],
 "Webparse.C59_response": [
  "Classical.choice",
  "Quot.sound",
  "propext"
 ],
 "Webparse.C60_request": [
  "Classical.choice",
  "Quot.sound",
  "propext"
 ],
 "Webparse.C60_response": [
  "Classical.choice",
  "Quot.sound",
  "propext"
 ],
 "Webparse.C61_builder_partial": [
  "Classical.choice",
  "Quot.sound",
  "propext"
 ],
 "Webparse.C61_roundtrip": [
  "Classical.choice",
  "Quot.sound",
  "propext"
 ],
 "Webparse.C61_refused": [
  "Classical.choice",
  "Quot.sound",
  "propext"
 ],
 "Webparse.C61_text": [
  "Classical.choice",
  "Quot.sound",
  "propext"
 ],
 "Webparse.C61_value": [
  "Classical.choice",
  "Quot.sound",
  "propext"
 ],
 "Webparse.C61_parse_iff": [
  "Classical.choice",
  "Quot.sound",
  "propext"
 ],
 "Webparse.C61_no_panic": [
  "Classical.choice",
  "Quot.sound",
  "propext"
 ],
 "Webparse.C61_violated_upgrade": [
  "Classical.choice",
  "Quot.sound",
  "propext"
 ],
 "Webparse.C61_upgrade_partial": [
  "Classical.choice",
  "Quot.sound",
  "propext"
 ],
 "Webparse.C62_violated_host": [
  "Classical.choice",
  "Quot.sound",
  "propext"
 ],
 "Webparse.C62_violated_scheme": [
  "Classical.choice",
  "Quot.sound",
  "propext"
 ],
 "Webparse.C62_violated_absolute": [
  "Classical.choice",
  "Quot.sound",
  "propext"
 ],
 "Webparse.C62_violated_ipv6": [
  "Classical.choice",
  "Quot.sound",
  "propext"
 ],
 "Webparse.C62_origin_partial": [
  "Classical.choice",
  "Quot.sound",
  "propext"
 ],
 "Webparse.C62_accepts_partial": [
  "Classical.choice",
  "Quot.sound",
  "propext"
 ],
 "Webparse.C62_absolute_partial": [
  "Classical.choice",
  "Quot.sound",
  "propext"
 ],
 "Webparse.C62_connect": [
  "Classical.choice",
  "Quot.sound",
  "propext"
 ],
 "Webparse.C63_violated_host": [
  "Classical.choice",
  "Quot.sound",
  "propext"
 ],
 "Webparse.C63_no_authority": [
  "Classical.choice",
  "Quot.sound",
  "propext"
 ],
 "Webparse.C63_request": [
  "Classical.choice",
  "Quot.sound",
  "propext"
 ],
 "Webparse.C63_url_partial": [
  "Classical.choice",
  "Quot.sound",
  "propext"
 ],
 "Webparse.C63_response": [
  "Classical.choice",
  "Quot.sound",
  "propext"
 ],
 "Webparse.C63_response_parts": [
  "Classical.choice",
  "Quot.sound",
  "propext"
 ],
 "Webparse.C63_url_iff_partial": [
  "Classical.choice",
  "Quot.sound",
  "propext"
 ],
 "Webparse.C63_violated_joined": [
  "Classical.choice",
  "Quot.sound",
  "propext"
 ],
 "Webparse.C64_error": [
  "Classical.choice",
  "Quot.sound",
  "propext"
 ],
 "Webparse.C64_built": [
  "Classical.choice",
  "Quot.sound",
  "propext"
 ],
 "Webparse.C64_violated_lookup": [
  "Classical.choice",
  "Quot.sound",
  "propext"
 ],
 "Webparse.C64_lookup_partial": [
  "Classical.choice",
  "Quot.sound",
  "propext"
 ],
 "Webparse.C64_response_ok": [
  "Classical.choice",
  "Quot.sound",
  "propext"
 ],
 "Webparse.C64_response_built": [
  "Classical.choice",
  "Quot.sound",
  "propext"
 ],
 "Webparse.C64_response_lookup_partial": [
  "Classical.choice",
  "Quot.sound",
  "propext"
 ],
 "Webparse.C64_from_request": [
  "propext"
 ],
 "Webparse.C65_builder": [
  "Classical.choice",
  "Quot.sound",
  "propext"
 ],
 "Webparse.C65_violated_set_url": [
  "Classical.choice",
  "Quot.sound",
  "propext"
 ],
 "Webparse.C65_set_url_partial": [
  "Classical.choice",
  "Quot.sound",
  "propext"
 ],
 "Webparse.C65_get_host": [
  "Classical.choice",
  "Quot.sound",
  "propext"
 ],
 "Webparse.C65_set_url_iff_partial": [
  "Classical.choice",
  "Quot.sound",
  "propext"
 ],
 "Webparse.C66_iff_partial": [
  "Classical.choice",
  "Quot.sound",
  "propext"
 ],
 "Webparse.C66_violated_static": [
  "Classical.choice",
  "Quot.sound",
  "propext"
 ],
 "Webparse.C66_violated_size_update": [
  "Classical.choice",
  "Quot.sound",
  "propext"
 ],
 "Webparse.C66_violated_index": [
  "Classical.choice",
  "Quot.sound",
  "propext"
 ],
 "Webparse.C66_violated_integer": [
  "Classical.choice",
  "Quot.sound",
  "propext"
 ],
 "Webparse.C66_decodes_partial": [
  "Classical.choice",
  "Quot.sound",
  "propext"
 ],
 "Webparse.C67_violated": [
  "Classical.choice",
  "Quot.sound",
  "propext"
 ],
 "Webparse.C67_one_reading": [
  "Classical.choice",
  "Quot.sound",
  "propext"
 ],
 "Webparse.C67_connection_partial": [
  "Classical.choice",
  "Quot.sound",
  "propext"
 ],
 "Webparse.C67_names_iff_partial": [
  "Classical.choice",
  "Quot.sound",
  "propext"
 ],
 "Webparse.C68_iff_partial": [
  "Classical.choice",
  "Quot.sound",
  "propext"
 ],
 "Webparse.C68_refused_iff_partial": [
  "Classical.choice",
  "Quot.sound",
  "propext"
 ],
 "Webparse.C68_violated_static": [
  "Classical.choice",
  "Quot.sound",
  "propext"
 ],
 "Webparse.C68_violated_index": [
  "Classical.choice",
  "Quot.sound",
  "propext"
 ],
 "Webparse.C68_violated_eos": [
  "Classical.choice",
  "Quot.sound",
  "propext"
 ],
 "Webparse.C68_sound_partial": [
  "Classical.choice",
  "Quot.sound",
  "propext"
 ],
 "Webparse.C69_request_final": [
  "Classical.choice",
  "Quot.sound",
  "propext"
 ],
 "Webparse.C69_response_final": [
  "Classical.choice",
  "Quot.sound",
  "propext"
 ],
 "Webparse.C69_request": [
  "Classical.choice",
  "Quot.sound",
  "propext"
 ],
 "Webparse.C69_response": [
  "Classical.choice",
  "Quot.sound",
  "propext"
 ],
 "Webparse.C70_violated_target": [
  "Classical.choice",
  "Quot.sound",
  "propext"
 ],
 "Webparse.C70_violated_escape": [
  "Classical.choice",
  "Quot.sound",
  "propext"
 ],
 "Webparse.C70_violated_tab": [
  "Classical.choice",
  "Quot.sound",
  "propext"
 ],
 "Webparse.C70_violated_response_tab": [
  "Classical.choice",
  "Quot.sound",
  "propext"
 ],
 "Webparse.C70_request_violated": [
  "Classical.choice",
  "Quot.sound",
  "propext"
 ],
 "Webparse.C70_response_violated": [
  "Classical.choice",
  "Quot.sound",
  "propext"
 ],
 "Webparse.C70_response_partial": [
  "Classical.choice",
  "Quot.sound",
  "propext"
 ],
 "Webparse.C70_request_partial": [
  "Classical.choice",
  "Quot.sound",
  "propext"
 ],
 "Webparse.C70_response_iff_partial": [
  "Classical.choice",
  "Quot.sound",
  "propext"
 ],
 "Webparse.C70_url_iff_partial": [
  "Classical.choice",
  "Quot.sound",
  "propext"
 ],
 "Webparse.C70_request_iff_partial": [
  "Classical.choice",
  "Quot.sound",
  "propext"
 ],
 "Webparse.C71_responses": [
  "Classical.choice",
  "Quot.sound",
  "propext"
 ],
 "Webparse.C71_responses_cut": [
  "Classical.choice",
  "Quot.sound",
  "propext"
 ],
 "Webparse.C71_requests_partial": [
  "Classical.choice",
  "Quot.sound",
  "propext"
 ],
 "Webparse.C71_requests_iff_partial": [
  "Classical.choice",
  "Quot.sound",
  "propext"
 ],
 "Webparse.C71_violated_requests": [
  "Classical.choice",
  "Quot.sound",
  "propext"
 ],
 "Webparse.C72_violated": [
  "Classical.choice",
  "Quot.sound",
  "propext"
 ],
 "Webparse.C72_violated_case": [
  "Classical.choice",
  "Quot.sound",
  "propext"
 ],
 "Webparse.C72_violated_substring": [
  "Classical.choice",
  "Quot.sound",
  "propext"
 ],
 "Webparse.C72_spelled_partial": [
  "Classical.choice",
  "Quot.sound",
  "propext"
 ],
 "Webparse.C72_absent": [
  "Classical.choice",
  "Quot.sound",
  "propext"
 ],
 "Webparse.C72_elements_iff_partial": [
  "Classical.choice",
  "Quot.sound",
  "propext"
 ],
 "Webparse.C72_chunked_iff_partial": [
  "Classical.choice",
  "Quot.sound",
  "propext"
 ],
 "Webparse.C72_one_iff_partial": [
  "Classical.choice",
  "Quot.sound",
  "propext"
 ],
 "Webparse.C73_response_partial": [
  "Classical.choice",
  "Quot.sound",
  "propext"
 ],
 "Webparse.C73_request_partial": [
  "Classical.choice",
  "Quot.sound",
  "propext"
 ],
 "Webparse.C73_fields_partial": [
  "Classical.choice",
  "Quot.sound",
  "propext"
 ],
 "Webparse.C73_last_partial": [
  "Classical.choice",
  "Quot.sound",
  "propext"
 ],
 "Webparse.C73_violated_reason": [
  "Classical.choice",
  "Quot.sound",
  "propext"
 ],
 "Webparse.C73_violated_method": [
  "Classical.choice",
  "Quot.sound",
  "propext"
 ],
 "Webparse.C73_violated_response": [
  "Classical.choice",
  "Quot.sound",
  "propext"
 ],
 "Webparse.C73_violated_blanks": [
  "Classical.choice",
  "Quot.sound",
  "propext"
 ],
 "Webparse.C73_violated_names": [
  "Classical.choice",
  "Quot.sound",
  "propext"
 ],
 "Webparse.C73_violated_request": [
  "Classical.choice",
  "Quot.sound",
  "propext"
 ],
 "Webparse.C74_response_iff_partial": [
  "Classical.choice",
  "Quot.sound",
  "propext"
 ],
 "Webparse.C74_request_iff_partial": [
  "Classical.choice",
  "Quot.sound",
  "propext"
 ],
 "Webparse.C74_violated_response": [
  "Classical.choice",
  "Quot.sound",
  "propext"
 ],
 "Webparse.C74_violated_request": [
  "Classical.choice",
  "Quot.sound",
  "propext"
 ],
 "Webparse.C74_violated_smuggle": [
  "Classical.choice",
  "Quot.sound",
  "propext"
 ],
 "Webparse.C74_violated_colon": [
  "Classical.choice",
  "Quot.sound",
  "propext"
 ],
 "Webparse.C74_violated_line": [
  "Classical.choice",
  "Quot.sound",
  "propext"
 ],
 "Webparse.C75_taken_iff_partial": [
  "Classical.choice",
  "Quot.sound",
  "propext"
 ],
 "Webparse.C75_checked_partial": [
  "Classical.choice",
  "Quot.sound",
  "propext"
 ],
 "Webparse.C75_violated_unknown_flag": [
  "Classical.choice",
  "Quot.sound",
  "propext"
 ],
 "Webparse.C75_violated_padded_ping": [
  "Classical.choice",
  "Quot.sound",
  "propext"
 ],
 "Webparse.C75_violated_streams": [
  "Classical.choice",
  "Quot.sound",
  "propext"
 ],
 "Webparse.C75_violated": [
  "Classical.choice",
  "Quot.sound",
  "propext"
 ],
 "Webparse.C75_unknown_kind_partial": [
  "Classical.choice",
  "Quot.sound",
  "propext"
 ],
 "Webparse.C76_stream_partial": [
  "Classical.choice",
  "Quot.sound",
  "propext"
 ],
 "Webparse.C76_flags_partial": [
  "Classical.choice",
  "Quot.sound",
  "propext"
 ],
 "Webparse.C76_questions": [
  "Classical.choice",
  "Quot.sound",
  "propext"
 ],
 "Webparse.C76_violated_priority": [
  "Classical.choice",
  "Quot.sound",
  "propext"
 ],
 "Webparse.C76_violated_ping": [
  "Classical.choice",
  "Quot.sound",
  "propext"
 ],
 "Webparse.C76_violated": [
  "Classical.choice",
  "Quot.sound",
  "propext"
 ],
 "Webparse.C76_flag_bits": [
  "Quot.sound",
  "propext"
 ],
 "Webparse.C77_read_partial": [
  "Classical.choice",
  "Quot.sound",
  "propext"
 ],
 "Webparse.C77_ids_partial": [
  "Classical.choice",
  "Quot.sound",
  "propext"
 ],
 "Webparse.C77_violated_request": [
  "Classical.choice",
  "Quot.sound",
  "propext"
 ],
 "Webparse.C77_violated": [
  "Classical.choice",
  "Quot.sound",
  "propext"
 ],
 "Webparse.C77_violated_step": [
  "Classical.choice",
  "Quot.sound",
  "propext"
 ],
 "Webparse.C77_violated_short": [
  "Classical.choice",
  "Quot.sound",
  "propext"
 ],
 "Webparse.C78_received_partial": [
  "Classical.choice",
  "Quot.sound",
  "propext"
 ],
 "Webparse.C78_exact_partial": [
  "Classical.choice",
  "Quot.sound",
  "propext"
 ],
 "Webparse.C78_hostless_partial": [
  "Classical.choice",
  "Quot.sound",
  "propext"
 ],
 "Webparse.C78_scheme_partial": [
  "propext"
 ],
 "Webparse.C78_violated_query": [
  "Classical.choice",
  "Quot.sound",
  "propext"
 ],
 "Webparse.C78_violated_port": [
  "Classical.choice",
  "Quot.sound",
  "propext"
 ],
 "Webparse.C78_violated_path": [
  "Classical.choice",
  "Quot.sound",
  "propext"
 ],
 "Webparse.C78_violated": [
  "Classical.choice",
  "Quot.sound",
  "propext"
 ],
 "Webparse.C79_setters": [
  "Classical.choice",
  "Quot.sound",
  "propext"
 ],
 "Webparse.C79_switches": [
  "Classical.choice",
  "Quot.sound",
  "propext"
 ],
 "Webparse.C79_read_partial": [
  "Classical.choice",
  "Quot.sound",
  "propext"
 ],
 "Webparse.C79_violated": [
  "Classical.choice",
  "Quot.sound",
  "propext"
 ],
 "Webparse.C80_refines": [
  "Classical.choice",
  "Quot.sound",
  "propext"
 ],
 "Webparse.C80_same_partial": [
  "Classical.choice",
  "Quot.sound",
  "propext"
 ],
 "Webparse.C80_equal_values": [
  "propext"
 ],
 "Webparse.C80_equal_names": [
  "Classical.choice",
  "Quot.sound",
  "propext"
 ],
 "Webparse.C80_violated_length": [
  "Classical.choice",
  "Quot.sound",
  "propext"
 ],
 "Webparse.C80_violated": [
  "Classical.choice",
  "Quot.sound",
  "propext"
 ],
 "Webparse.C81_taken_iff_partial": [
  "Classical.choice",
  "Quot.sound",
  "propext"
 ],
 "Webparse.C81_incomplete_iff_partial": [
  "Classical.choice",
  "Quot.sound",
  "propext"
 ],
 "Webparse.C81_conforming_partial": [
  "Classical.choice",
  "Quot.sound",
  "propext"
 ],
 "Webparse.C81_body_partial": [
  "Classical.choice",
  "Quot.sound",
  "propext"
 ],
 "Webparse.C81_violated_extension": [
  "Classical.choice",
  "Quot.sound",
  "propext"
 ],
 "Webparse.C81_violated_forever": [
  "Classical.choice",
  "Quot.sound",
  "propext"
 ],
 "Webparse.C81_violated_end": [
  "Classical.choice",
  "Quot.sound",
  "propext"
 ],
 "Webparse.C81_violated_space": [
  "Classical.choice",
  "Quot.sound",
  "propext"
 ],
 "Webparse.C81_violated_trailer": [
  "Classical.choice",
  "Quot.sound",
  "propext"
 ],
 "Webparse.C81_violated": [
  "Classical.choice",
  "Quot.sound",
  "propext"
 ],
 "Webparse.C82_connection": [
  "Classical.choice",
  "Quot.sound",
  "propext"
 ],
 "Webparse.C83_taken_iff_partial": [
  "Classical.choice",
  "Quot.sound",
  "propext"
 ],
 "Webparse.C83_conforming_partial": [
  "Classical.choice",
  "Quot.sound",
  "propext"
 ],
 "Webparse.C83_sound_partial": [
  "Classical.choice",
  "Quot.sound",
  "propext"
 ],
 "Webparse.C83_violated_mask": [
  "Classical.choice",
  "Quot.sound",
  "propext"
 ],
 "Webparse.C83_violated_reserved": [
  "Classical.choice",
  "Quot.sound",
  "propext"
 ],
 "Webparse.C83_violated": [
  "Quot.sound",
  "propext"
 ],
 "Webparse.C84_accepts_iff_partial": [
  "Classical.choice",
  "Quot.sound",
  "propext"
 ],
 "Webparse.C84_conforming_partial": [
  "Classical.choice",
  "Quot.sound",
  "propext"
 ],
 "Webparse.C84_violated_fin": [
  "Classical.choice",
  "Quot.sound",
  "propext"
 ],
 "Webparse.C84_violated_control": [
  "Classical.choice",
  "Quot.sound",
  "propext"
 ],
 "Webparse.C84_violated_code": [
  "Classical.choice",
  "Quot.sound",
  "propext"
 ],
 "Webparse.C84_violated": [
  "Classical.choice",
  "Quot.sound",
  "propext"
 ],
 "Webparse.C85_waits_partial": [
  "Classical.choice",
  "Quot.sound",
  "propext"
 ],
 "Webparse.C85_again_partial": [
  "Classical.choice",
  "Quot.sound",
  "propext"
 ],
 "Webparse.C85_violated_always": [
  "Classical.choice",
  "Quot.sound",
  "propext"
 ],
 "Webparse.C85_violated": [
  "Classical.choice",
  "Quot.sound",
  "propext"
 ],
 "Webparse.C86_converts_partial": [
  "Quot.sound",
  "propext"
 ],
 "Webparse.C86_exact_partial": [
  "Quot.sound",
  "propext"
 ],
 "Webparse.C86_panics": [
  "Quot.sound",
  "propext"
 ],
 "Webparse.C86_violated": [
  "propext"
 ],
 "Webparse.C87_built": [
  "Classical.choice",
  "Quot.sound",
  "propext"
 ],
 "Webparse.C87_error": [
  "Classical.choice",
  "Quot.sound",
  "propext"
 ],
 "Webparse.C87_survives_partial": [
  "Classical.choice",
  "Quot.sound",
  "propext"
 ],
 "Webparse.C87_violated_host": [
  "Classical.choice",
  "Quot.sound",
  "propext"
 ],
 "Webparse.C87_violated_user": [
  "Classical.choice",
  "Quot.sound",
  "propext"
 ],
 "Webparse.C87_violated": [
  "Classical.choice",
  "Quot.sound",
  "propext"
 ],
 "Webparse.C87_survives_iff_partial": [
  "Classical.choice",
  "Quot.sound",
  "propext"
 ],
 "Webparse.C88_request_iff_partial": [
  "Classical.choice",
  "Quot.sound",
  "propext"
 ],
 "Webparse.C88_response_iff_partial": [
  "Classical.choice",
  "Quot.sound",
  "propext"
 ],
 "Webparse.C88_violated": [
  "Classical.choice",
  "Quot.sound",
  "propext"
 ],
 "Webparse.C88_request_text": [
  "Classical.choice",
  "Quot.sound",
  "propext"
 ],
 "Webparse.C88_response_text": [
  "Classical.choice",
  "Quot.sound",
  "propext"
 ],
 "Webparse.C88_response_reads_back": [
  "Classical.choice",
  "Quot.sound",
  "propext"
 ],
 "Webparse.C89_same_iff_partial": [
  "Classical.choice",
  "Quot.sound",
  "propext"
 ],
 "Webparse.C89_violated_close": [
  "Classical.choice",
  "Quot.sound",
  "propext"
 ],
 "Webparse.C89_violated": [
  "Classical.choice",
  "Quot.sound",
  "propext"
 ],
 "Webparse.C89_constructors": [
  "Classical.choice",
  "Quot.sound",
  "propext"
 ],
 "Webparse.C89_received_partial": [
  "Classical.choice",
  "Quot.sound",
  "propext"
 ],
 "Webparse.C89_pong": [
  "propext"
 ],
 "Webparse.C89_questions": [
  "propext"
 ],
 "Webparse.C90_iff_partial": [
  "Classical.choice",
  "Quot.sound",
  "propext"
 ],
 "Webparse.C90_one_hearing": [
  "Classical.choice",
  "Quot.sound",
  "propext"
 ],
 "Webparse.C90_heard_partial": [
  "Classical.choice",
  "Quot.sound",
  "propext"
 ],
 "Webparse.C90_connection_partial": [
  "Classical.choice",
  "Quot.sound",
  "propext"
 ],
 "Webparse.C90_violated_end": [
  "Classical.choice",
  "Quot.sound",
  "propext"
 ],
 "Webparse.C90_violated": [
  "Classical.choice",
  "Quot.sound",
  "propext"
 ],
 "Webparse.C91_iff_partial": [
  "Classical.choice",
  "Quot.sound",
  "propext"
 ],
 "Webparse.C91_violated_order": [
  "Classical.choice",
  "Quot.sound",
  "propext"
 ],
 "Webparse.C91_violated": [
  "Classical.choice",
  "Quot.sound",
  "propext"
 ],
 "Webparse.C92_heard_partial": [
  "Classical.choice",
  "Quot.sound",
  "propext"
 ],
 "Webparse.C92_violated_request": [
  "Classical.choice",
  "Quot.sound",
  "propext"
 ],
 "Webparse.C92_violated": [
  "Classical.choice",
  "Quot.sound",
  "propext"
 ],
 "Webparse.C93_iff_partial": [
  "Classical.choice",
  "Quot.sound",
  "propext"
 ],
 "Webparse.C93_plain_is_heard": [
  "Classical.choice",
  "Quot.sound",
  "propext"
 ],
 "Webparse.C93_reported_partial": [
  "Classical.choice",
  "Quot.sound",
  "propext"
 ],
 "Webparse.C93_understood_partial": [
  "Classical.choice",
  "Quot.sound",
  "propext"
 ],
 "Webparse.C93_violated_repeated": [
  "Classical.choice",
  "Quot.sound",
  "propext"
 ],
 "Webparse.C93_violated_continuation": [
  "Classical.choice",
  "Quot.sound",
  "propext"
 ],
 "Webparse.C93_violated_method": [
  "Classical.choice",
  "Quot.sound",
  "propext"
 ],
 "Webparse.C93_violated": [
  "Classical.choice",
  "Quot.sound",
  "propext"
 ],
 "Webparse.C94_accepted_iff_partial": [
  "Classical.choice",
  "Quot.sound",
  "propext"
 ],
 "Webparse.C94_meaning_partial": [
  "Classical.choice",
  "Quot.sound",
  "propext"
 ],
 "Webparse.C94_violated_anything": [
  "Classical.choice",
  "Quot.sound",
  "propext"
 ],
 "Webparse.C94_violated_pseudo": [
  "Classical.choice",
  "Quot.sound",
  "propext"
 ],
 "Webparse.C94_violated": [
  "Classical.choice",
  "Quot.sound",
  "propext"
 ],
 "Webparse.C95_iff_partial": [
  "Classical.choice",
  "Quot.sound",
  "propext"
 ],
 "Webparse.C95_wellformed_partial": [
  "Classical.choice",
  "Quot.sound",
  "propext"
 ],
 "Webparse.C95_violated_injection": [
  "Classical.choice",
  "Quot.sound",
  "propext"
 ],
 "Webparse.C95_violated": [
  "Classical.choice",
  "Quot.sound",
  "propext"
 ],
 "Webparse.C96_iff_partial": [
  "Classical.choice",
  "Quot.sound",
  "propext"
 ],
 "Webparse.C96_last_partial": [
  "Classical.choice",
  "Quot.sound",
  "propext"
 ],
 "Webparse.C96_length_partial": [
  "Classical.choice",
  "Quot.sound",
  "propext"
 ],
 "Webparse.C96_chunked_partial": [
  "Classical.choice",
  "Quot.sound",
  "propext"
 ],
 "Webparse.C96_violated_differing": [
  "Classical.choice",
  "Quot.sound",
  "propext"
 ],
 "Webparse.C96_violated_malformed": [
  "Classical.choice",
  "Quot.sound",
  "propext"
 ],
 "Webparse.C96_violated_negative": [
  "Classical.choice",
  "Quot.sound",
  "propext"
 ],
 "Webparse.C96_violated_name": [
  "Classical.choice",
  "Quot.sound",
  "propext"
 ],
 "Webparse.C96_violated_hidden": [
  "Classical.choice",
  "Quot.sound",
  "propext"
 ],
 "Webparse.C96_violated_smuggle": [
  "Classical.choice",
  "Quot.sound",
  "propext"
 ],
 "Webparse.C96_violated": [
  "Classical.choice",
  "Quot.sound",
  "propext"
 ],
 "Webparse.C97_method_partial": [
  "Classical.choice",
  "Quot.sound",
  "propext"
 ],
 "Webparse.C97_violated_reversed": [
  "Classical.choice",
  "Quot.sound",
  "propext"
 ],
 "Webparse.C97_violated_refused": [
  "Classical.choice",
  "Quot.sound",
  "propext"
 ],
 "Webparse.C97_violated_content": [
  "Classical.choice",
  "Quot.sound",
  "propext"
 ],
 "Webparse.C97_violated": [
  "Classical.choice",
  "Quot.sound",
  "propext"
 ],
 "Webparse.C98_control_partial": [
  "Classical.choice",
  "Quot.sound",
  "propext"
 ],
 "Webparse.C98_data_partial": [
  "Classical.choice",
  "Quot.sound",
  "propext"
 ],
 "Webparse.C98_violated_padded": [
  "Classical.choice",
  "Quot.sound",
  "propext"
 ],
 "Webparse.C98_violated_priority": [
  "Classical.choice",
  "Quot.sound",
  "propext"
 ],
 "Webparse.C98_headers_partial": [
  "Classical.choice",
  "Quot.sound",
  "propext"
 ],
 "Webparse.C98_trailers_partial": [
  "Classical.choice",
  "Quot.sound",
  "propext"
 ],
 "Webparse.C98_violated_head": [
  "Classical.choice",
  "Quot.sound",
  "propext"
 ],
 "Webparse.C98_violated_promise": [
  "Classical.choice",
  "Quot.sound",
  "propext"
 ],
 "Webparse.C98_violated": [
  "Classical.choice",
  "Quot.sound",
  "propext"
 ],
 "Webparse.C99_bound": [
  "Classical.choice",
  "Quot.sound",
  "propext"
 ],
 "Webparse.C99_connection": [
  "Classical.choice",
  "Quot.sound",
  "propext"
 ],
 "Webparse.C99_violated_limit": [
  "Classical.choice",
  "Quot.sound",
  "propext"
 ],
 "Webparse.C99_violated": [
  "Classical.choice",
  "Quot.sound",
  "propext"
 ],
 "Webparse.C100_request_iff_partial": [
  "propext"
 ],
 "Webparse.C100_response_iff_partial": [
  "propext"
 ],
 "Webparse.C100_violated_extension": [
  "propext"
 ],
 "Webparse.C100_violated_clone": [
  "propext"
 ],
 "Webparse.C100_into": [],
 "Webparse.C100_parts_iff_partial": [
  "propext"
 ],
 "Webparse.C100_violated_parts": [
  "propext"
 ],
 "Webparse.C100_binary_partial": [
  "Classical.choice",
  "Quot.sound",
  "propext"
 ],
 "Webparse.C100_violated_error": [
  "Classical.choice",
  "Quot.sound",
  "propext"
 ],
 "Webparse.C101_present": [
  "Quot.sound",
  "propext"
 ],
 "Webparse.C101_absent": [
  "Classical.choice",
  "Quot.sound",
  "propext"
 ],
 "Webparse.C101_assign": [
  "Classical.choice",
  "Quot.sound",
  "propext"
 ],
 "Webparse.C102_read_iff_partial": [
  "Classical.choice",
  "Quot.sound",
  "propext"
 ],
 "Webparse.C102_violated": [
  "Classical.choice",
  "Quot.sound",
  "propext"
 ],
 "Webparse.C102_pong": [
  "Classical.choice",
  "Quot.sound",
  "propext"
 ],
 "Webparse.C102_ping": [
  "Classical.choice",
  "Quot.sound",
  "propext"
 ],
 "Webparse.C102_settings_ack": [
  "Classical.choice",
  "Quot.sound",
  "propext"
 ],
 "Webparse.C103_u64": [
  "Classical.choice",
  "Quot.sound",
  "propext"
 ],
 "Webparse.C103_u64_short": [],
 "Webparse.C103_u64_back": [
  "Classical.choice",
  "Quot.sound",
  "propext"
 ],
 "Webparse.C103_streamId": [
  "Classical.choice",
  "Quot.sound",
  "propext"
 ],
 "Webparse.C103_streamId_iff": [
  "Classical.choice",
  "Quot.sound",
  "propext"
 ],
 "Webparse.C103_streamId_short": [],
 "Webparse.C103_u24": [
  "Quot.sound",
  "propext"
 ],
 "Webparse.C103_increment_partial": [
  "Classical.choice",
  "Quot.sound",
  "propext"
 ],
 "Webparse.C103_violated_increment": [
  "Classical.choice",
  "Quot.sound",
  "propext"
 ],
 "Webparse.C103_errorCode_iff_partial": [
  "Classical.choice",
  "Quot.sound",
  "propext"
 ],
 "Webparse.C103_violated_numbers": [
  "Classical.choice",
  "Quot.sound",
  "propext"
 ],
 "Webparse.C103_violated_frame": [
  "Classical.choice",
  "Quot.sound",
  "propext"
 ],
 "Webparse.C103_violated_serialize": [
  "Classical.choice",
  "Quot.sound",
  "propext"
 ],
 "Webparse.C104_http1_partial": [
  "Classical.choice",
  "Quot.sound",
  "propext"
 ],
 "Webparse.C104_violated_http2": [
  "Classical.choice",
  "Quot.sound",
  "propext"
 ],
 "Webparse.C104_violated_ws": [
  "Classical.choice",
  "Quot.sound",
  "propext"
 ],
 "Webparse.C104_violated": [
  "Classical.choice",
  "Quot.sound",
  "propext"
 ],
 "Webparse.C105_iff_partial": [
  "Classical.choice",
  "Quot.sound",
  "propext"
 ],
 "Webparse.C105_last_partial": [
  "Classical.choice",
  "Quot.sound",
  "propext"
 ],
 "Webparse.C105_length_partial": [
  "Classical.choice",
  "Quot.sound",
  "propext"
 ],
 "Webparse.C105_chunked_partial": [
  "Classical.choice",
  "Quot.sound",
  "propext"
 ],
 "Webparse.C105_violated_untilClose": [
  "Classical.choice",
  "Quot.sound",
  "propext"
 ],
 "Webparse.C105_violated_noContent": [
  "Classical.choice",
  "Quot.sound",
  "propext"
 ],
 "Webparse.C105_violated_coding": [
  "Classical.choice",
  "Quot.sound",
  "propext"
 ],
 "Webparse.C105_violated": [
  "Classical.choice",
  "Quot.sound",
  "propext"
 ],
 "Webparse.C106_origin_iff_partial": [
  "Classical.choice",
  "Quot.sound",
  "propext"
 ],
 "Webparse.C106_unique_partial": [
  "Classical.choice",
  "Quot.sound",
  "propext"
 ],
 "Webparse.C106_violated_path": [
  "Classical.choice",
  "Quot.sound",
  "propext"
 ],
 "Webparse.C106_violated_port": [
  "Classical.choice",
  "Quot.sound",
  "propext"
 ],
 "Webparse.C106_violated_escape": [
  "Classical.choice",
  "Quot.sound",
  "propext"
 ],
 "Webparse.C106_violated_unique": [
  "Classical.choice",
  "Quot.sound",
  "propext"
 ],
 "Webparse.C106_violated": [
  "Classical.choice",
  "Quot.sound",
  "propext"
 ],
 "Webparse.C106_violated_second": [
  "Classical.choice",
  "Quot.sound",
  "propext"
 ],
 "Webparse.C106_absolute_iff_partial": [
  "Classical.choice",
  "Quot.sound",
  "propext"
 ],
 "Webparse.C106_read_iff_partial": [
  "Classical.choice",
  "Quot.sound",
  "propext"
 ],
 "Webparse.C107_violated_built": [
  "Classical.choice",
  "Quot.sound",
  "propext"
 ],
 "Webparse.C107_built_partial": [
  "Classical.choice",
  "Quot.sound",
  "propext"
 ],
 "Webparse.C107_violated_ready": [
  "Classical.choice",
  "Quot.sound",
  "propext"
 ],
 "Webparse.C107_length_partial": [
  "Classical.choice",
  "Quot.sound",
  "propext"
 ],
 "Webparse.C107_ready_iff_partial": [
  "Classical.choice",
  "Quot.sound",
  "propext"
 ],
 "Webparse.C107_violated": [
  "Classical.choice",
  "Quot.sound",
  "propext"
 ],
 "Webparse.C108_violated_lost": [
  "Classical.choice",
  "Quot.sound",
  "propext"
 ],
 "Webparse.C108_length_partial": [
  "Classical.choice",
  "Quot.sound",
  "propext"
 ],
 "Webparse.C108_length_iff_partial": [
  "Classical.choice",
  "Quot.sound",
  "propext"
 ],
 "Webparse.C108_violated_short": [
  "Classical.choice",
  "Quot.sound",
  "propext"
 ],
 "Webparse.C108_violated_chunked": [
  "Classical.choice",
  "Quot.sound",
  "propext"
 ],
 "Webparse.C108_violated_lost_response": [
  "Classical.choice",
  "Quot.sound",
  "propext"
 ],
 "Webparse.C108_response_iff_partial": [
  "Classical.choice",
  "Quot.sound",
  "propext"
 ],
 "Webparse.C108_violated": [
  "Classical.choice",
  "Quot.sound",
  "propext"
 ],
 "Webparse.C108_response_violated": [
  "Classical.choice",
  "Quot.sound",
  "propext"
 ],
 "Webparse.C109_iff_partial": [
  "Classical.choice",
  "Quot.sound",
  "propext"
 ],
 "Webparse.C109_violated_split": [
  "Classical.choice",
  "Quot.sound",
  "propext"
 ],
 "Webparse.C109_printable_partial": [
  "Classical.choice",
  "Quot.sound",
  "propext"
 ],
 "Webparse.C109_response": [
  "Classical.choice",
  "Quot.sound",
  "propext"
 ],
 "Webparse.C109_violated": [
  "Classical.choice",
  "Quot.sound",
  "propext"
 ],
 "Webparse.C110_names": [
  "Classical.choice",
  "Quot.sound",
  "propext"
 ],
 "Webparse.C110_debug": [
  "Classical.choice",
  "Quot.sound",
  "propext"
 ],
 "Webparse.C110_display_iff_partial": [
  "Classical.choice",
  "Quot.sound",
  "propext"
 ],
 "Webparse.C110_violated_display": [
  "Classical.choice",
  "Quot.sound",
  "propext"
 ],
 "Webparse.C110_errors_iff_partial": [
  "propext"
 ],
 "Webparse.C110_violated_errors": [],
 "Webparse.C111_total": [
  "Quot.sound",
  "propext"
 ],
 "Webparse.C111_order_partial": [
  "Quot.sound",
  "propext"
 ],
 "Webparse.C111_violated_equal": [
  "Classical.choice",
  "Quot.sound",
  "propext"
 ],
 "Webparse.C111_violated_eq": [
  "propext"
 ],
 "Webparse.C111_violated_order": [
  "Classical.choice",
  "Quot.sound",
  "propext"
 ],
 "Webparse.C112_request_word": [
  "Classical.choice",
  "Quot.sound",
  "propext"
 ],
 "Webparse.C112_response_word": [
  "Classical.choice",
  "Quot.sound",
  "propext"
 ],
 "Webparse.C112_request_not_response": [
  "Classical.choice",
  "Quot.sound",
  "propext"
 ],
 "Webparse.C112_response_not_request": [
  "Classical.choice",
  "Quot.sound",
  "propext"
 ],
 "Webparse.C112_magic": [
  "Classical.choice",
  "Quot.sound",
  "propext"
 ],
 "Webparse.C112_preface": [
  "Classical.choice",
  "Quot.sound",
  "propext"
 ],
 "Webparse.C112_preface_start": [
  "Classical.choice",
  "Quot.sound",
  "propext"
 ],
 "Webparse.C112_accepted": [
  "Classical.choice",
  "Quot.sound",
  "propext"
 ],
 "Webparse.C113_url": [
  "Classical.choice",
  "Quot.sound",
  "propext"
 ],
 "Webparse.C113_response": [
  "Classical.choice",
  "Quot.sound",
  "propext"
 ],
 "Webparse.C113_request": [
  "Classical.choice",
  "Quot.sound",
  "propext"
 ],
 "Webparse.C113_sharp": [
  "Classical.choice",
  "Quot.sound",
  "propext"
 ],
 "Webparse.C113_chunk": [
  "Classical.choice",
  "Quot.sound",
  "propext"
 ],
 "Webparse.C113_frame": [
  "Classical.choice",
  "Quot.sound",
  "propext"
 ],
 "Webparse.C114_settles_partial": [
  "Classical.choice",
  "Quot.sound",
  "propext"
 ],
 "Webparse.C114_origin_iff_partial": [
  "Classical.choice",
  "Quot.sound",
  "propext"
 ],
 "Webparse.C114_percent_partial": [
  "Classical.choice",
  "Quot.sound",
  "propext"
 ],
 "Webparse.C114_violated_host": [
  "Classical.choice",
  "Quot.sound",
  "propext"
 ],
 "Webparse.C114_violated_passes": [
  "Classical.choice",
  "Quot.sound",
  "propext"
 ],
 "Webparse.C114_violated_user": [
  "Classical.choice",
  "Quot.sound",
  "propext"
 ],
 "Webparse.C114_violated_path": [
  "Classical.choice",
  "Quot.sound",
  "propext"
 ],
 "Webparse.C114_violated": [
  "Classical.choice",
  "Quot.sound",
  "propext"
 ],
 "Webparse.C115_table": [
  "Classical.choice",
  "Quot.sound",
  "propext"
 ],
 "Webparse.C115_own_limit": [
  "Classical.choice",
  "Quot.sound",
  "propext"
 ],
 "Webparse.C115_understood": [
  "Classical.choice",
  "Quot.sound",
  "propext"
 ],
 "Webparse.C116_bytes": [
  "Classical.choice",
  "Quot.sound",
  "propext"
 ],
 "Webparse.C116_iff_partial": [
  "Classical.choice",
  "Quot.sound",
  "propext"
 ],
 "Webparse.C116_ascii_partial": [
  "Classical.choice",
  "Quot.sound",
  "propext"
 ],
 "Webparse.C116_others_partial": [
  "Classical.choice",
  "Quot.sound",
  "propext"
 ],
 "Webparse.C116_violated": [
  "Classical.choice",
  "Quot.sound",
  "propext"
 ],
 "Webparse.C116_roundtrip": [
  "Classical.choice",
  "Quot.sound",
  "propext"
 ],
 "Webparse.C117_iff_partial": [
  "Classical.choice",
  "Quot.sound",
  "propext"
 ],
 "Webparse.C117_injective_partial": [
  "Classical.choice",
  "Quot.sound",
  "propext"
 ],
 "Webparse.C117_roundtrip_partial": [
  "Classical.choice",
  "Quot.sound",
  "propext"
 ],
 "Webparse.C117_request_partial": [
  "Classical.choice",
  "Quot.sound",
  "propext"
 ],
 "Webparse.C117_violated_connect": [
  "Classical.choice",
  "Quot.sound",
  "propext"
 ],
 "Webparse.C117_violated": [
  "Classical.choice",
  "Quot.sound",
  "propext"
 ],
 "Webparse.C118_violated": [
  "propext"
 ],
 "Webparse.C118_request_iff_partial": [
  "propext"
 ],
 "Webparse.C118_response_iff_partial": [
  "propext"
 ],
 "Webparse.C118_discouraged": [
  "propext"
 ],
 "Webparse.C119_right": [
  "Classical.choice",
  "Quot.sound",
  "propext"
 ],
 "Webparse.C119_violated": [
  "Classical.choice",
  "Quot.sound",
  "propext"
 ],
 "Webparse.C119_token_iff_partial": [
  "Classical.choice",
  "Quot.sound",
  "propext"
 ],
 "Webparse.C119_uri_iff_partial": [
  "Classical.choice",
  "Quot.sound",
  "propext"
 ],
 "Webparse.C119_reason_iff_partial": [
  "propext"
 ],
 "Webparse.C119_no_controls": [
  "propext"
 ],
 "Webparse.C120_literals_are_indexed": [
  "Classical.choice",
  "Quot.sound",
  "propext"
 ],
 "Webparse.C120_violated_always": [
  "Classical.choice",
  "Quot.sound",
  "propext"
 ],
 "Webparse.C120_violated": [
  "Classical.choice",
  "Quot.sound",
  "propext"
 ],
 "Webparse.C120_secret_is_stored": [
  "Classical.choice",
  "Quot.sound",
  "propext"
 ],
 "Webparse.C120_received_partial": [
  "Classical.choice",
  "Quot.sound",
  "propext"
 ],
 "Webparse.C120_marks_are_lost": [
  "Classical.choice",
  "Quot.sound",
  "propext"
 ],
 "Webparse.C121_heard_partial": [
  "Classical.choice",
  "Quot.sound",
  "propext"
 ],
 "Webparse.C121_violated_larger": [
  "Classical.choice",
  "Quot.sound",
  "propext"
 ],
 "Webparse.C121_violated": [
  "Classical.choice",
  "Quot.sound",
  "propext"
 ],
 "Webparse.C121_iff_partial": [
  "Classical.choice",
  "Quot.sound",
  "propext"
 ],
 "Webparse.C121_never_announced": [
  "Classical.choice",
  "Quot.sound",
  "propext"
 ],
 "Webparse.C121_violated_silent": [
  "Classical.choice",
  "Quot.sound",
  "propext"
 ],
 "Webparse.C122_heard_partial": [
  "Classical.choice",
  "Quot.sound",
  "propext"
 ],
 "Webparse.C122_violated_received": [
  "Classical.choice",
  "Quot.sound",
  "propext"
 ],
 "Webparse.C122_violated_sent": [
  "Classical.choice",
  "Quot.sound",
  "propext"
 ],
 "Webparse.C122_violated": [
  "Classical.choice",
  "Quot.sound",
  "propext"
 ],
 "Webparse.C123_linear_partial": [
  "Classical.choice",
  "Quot.sound",
  "propext"
 ],
 "Webparse.C123_single_partial": [
  "Classical.choice",
  "Quot.sound",
  "propext"
 ],
 "Webparse.C123_violated_torn": [
  "Classical.choice",
  "Quot.sound",
  "propext"
 ],
 "Webparse.C123_violated": [
  "Classical.choice",
  "Quot.sound",
  "propext"
 ],
 "Webparse.C123_alone_partial": [
  "Classical.choice",
  "Quot.sound",
  "propext"
 ],
 "Webparse.C124_string_partial": [
  "Classical.choice",
  "Quot.sound",
  "propext"
 ],
 "Webparse.C124_bound_partial": [
  "Classical.choice",
  "Quot.sound",
  "propext"
 ],
 "Webparse.C124_text_partial": [
  "Classical.choice",
  "Quot.sound",
  "propext"
 ],
 "Webparse.C124_violated_value": [
  "Classical.choice",
  "Quot.sound",
  "propext"
 ],
 "Webparse.C124_violated": [
  "Classical.choice",
  "Quot.sound",
  "propext"
 ],
 "Webparse.C125_iff_partial": [
  "Classical.choice",
  "Quot.sound",
  "propext"
 ],
 "Webparse.C125_violated_copies": [
  "Classical.choice",
  "Quot.sound",
  "propext"
 ],
 "Webparse.C125_violated": [
  "Classical.choice",
  "Quot.sound",
  "propext"
 ],
 "Webparse.C126_violated_always": [
  "Quot.sound",
  "propext"
 ],
 "Webparse.C126_violated_one": [
  "Quot.sound",
  "propext"
 ],
 "Webparse.C126_violated": [
  "Classical.choice",
  "Quot.sound",
  "propext"
 ],
 "Webparse.C126_new_partial": [
  "Classical.choice",
  "Quot.sound",
  "propext"
 ],
 "Webparse.C126_parts_partial": [
  "propext"
 ],
 "Webparse.C127_response_iff_partial": [
  "Classical.choice",
  "Quot.sound",
  "propext"
 ],
 "Webparse.C127_request_iff_partial": [
  "Classical.choice",
  "Quot.sound",
  "propext"
 ],
 "Webparse.C127_utf8_partial": [
  "Classical.choice",
  "Quot.sound",
  "propext"
 ],
 "Webparse.C127_tokens_partial": [
  "Classical.choice",
  "Quot.sound",
  "propext"
 ],
 "Webparse.C127_violated_response": [
  "Classical.choice",
  "Quot.sound",
  "propext"
 ],
 "Webparse.C127_violated_request": [
  "Classical.choice",
  "Quot.sound",
  "propext"
 ],
 "Webparse.C127_violated": [
  "Classical.choice",
  "Quot.sound",
  "propext"
 ],
 "Webparse.C127_status_partial": [
  "Classical.choice",
  "Quot.sound",
  "propext"
 ],
 "Webparse.C128_one_text": [
  "Classical.choice",
  "Quot.sound",
  "propext"
 ],
 "Webparse.C128_text_utf8": [
  "Classical.choice",
  "Quot.sound",
  "propext"
 ],
 "Webparse.C128_check": [
  "Classical.choice",
  "Quot.sound",
  "propext"
 ],
 "Webparse.C128_url_decode": [
  "Classical.choice",
  "Quot.sound",
  "propext"
 ],
 "Webparse.C128_header_value": [
  "Classical.choice",
  "Quot.sound",
  "propext"
 ],
 "Webparse.C128_header_name": [
  "Classical.choice",
  "Quot.sound",
  "propext"
 ],
 "Webparse.C128_host": [
  "Classical.choice",
  "Quot.sound",
  "propext"
 ],
 "Webparse.C128_message": [
  "Classical.choice",
  "Quot.sound",
  "propext"
 ],
 "Webparse.C128_violated": [
  "Classical.choice",
  "Quot.sound",
  "propext"
 ],
 "Webparse.C128_apart_partial": [
  "Classical.choice",
  "Quot.sound",
  "propext"
 ],
 "Webparse.C128_url_apart_partial": [
  "Classical.choice",
  "Quot.sound",
  "propext"
 ],
 "Webparse.C129_violated_always": [
  "Classical.choice",
  "Quot.sound",
  "propext"
 ],
 "Webparse.C129_request_iff_partial": [
  "Classical.choice",
  "Quot.sound",
  "propext"
 ],
 "Webparse.C129_response_iff_partial": [
  "Classical.choice",
  "Quot.sound",
  "propext"
 ],
 "Webparse.C129_read_only_partial": [
  "Classical.choice",
  "Quot.sound",
  "propext"
 ],
 "Webparse.C129_violated": [
  "Classical.choice",
  "Quot.sound",
  "propext"
 ],
 "Webparse.C130_violated_order": [
  "Classical.choice",
  "Quot.sound",
  "propext"
 ],
 "Webparse.C130_violated_names": [
  "Classical.choice",
  "Quot.sound",
  "propext"
 ],
 "Webparse.C130_violated": [
  "Classical.choice",
  "Quot.sound",
  "propext"
 ],
 "Webparse.C130_symmetric_partial": [
  "Classical.choice",
  "Quot.sound",
  "propext"
 ],
 "Webparse.C130_iff_partial": [
  "Classical.choice",
  "Quot.sound",
  "propext"
 ],
 "Webparse.C130_lookup_partial": [
  "Classical.choice",
  "Quot.sound",
  "propext"
 ],
 "Webparse.C130_clear_iff_partial": [
  "Classical.choice",
  "Quot.sound",
  "propext"
 ],
 "Webparse.C130_system": [
  "Classical.choice",
  "Quot.sound",
  "propext"
 ],
 "Webparse.C130_whole_iff_partial": [
  "Classical.choice",
  "Quot.sound",
  "propext"
 ],
 "Webparse.C131_any": [
  "Classical.choice",
  "Quot.sound",
  "propext"
 ],
 "Webparse.C131_remove_iff_partial": [
  "Quot.sound",
  "propext"
 ],
 "Webparse.C131_violated_remove": [
  "Classical.choice",
  "Quot.sound",
  "propext"
 ],
 "Webparse.C131_violated": [
  "Classical.choice",
  "Quot.sound",
  "propext"
 ],
 "Webparse.C131_reread_iff_partial": [
  "Classical.choice",
  "Quot.sound",
  "propext"
 ],
 "Webparse.C131_first_last_partial": [
  "Classical.choice",
  "Quot.sound",
  "propext"
 ],
 "Webparse.C131_values": [
  "Classical.choice",
  "Quot.sound",
  "propext"
 ],
 "Webparse.C131_names_kept_partial": [
  "Classical.choice",
  "Quot.sound",
  "propext"
 ],
 "Webparse.C132_exact_partial": [
  "Classical.choice",
  "Quot.sound",
  "propext"
 ],
 "Webparse.C132_violated_always": [
  "Classical.choice",
  "Quot.sound",
  "propext"
 ],
 "Webparse.C132_violated": [
  "Classical.choice",
  "Quot.sound",
  "propext"
 ],
 "Webparse.C132_square_partial": [
  "Classical.choice",
  "Quot.sound",
  "propext"
 ],
 "Webparse.C132_insert_exact": [
  "Classical.choice",
  "Quot.sound",
  "propext"
 ],
 "Webparse.C132_few_names_partial": [
  "Classical.choice",
  "Quot.sound",
  "propext"
 ],
 "Webparse.C133_written_iff_partial": [
  "Classical.choice",
  "Quot.sound",
  "propext"
 ],
 "Webparse.C133_frame_iff_partial": [
  "Classical.choice",
  "Quot.sound",
  "propext"
 ],
 "Webparse.C133_violated_control": [
  "Classical.choice",
  "Quot.sound",
  "propext"
 ],
 "Webparse.C133_violated_reserved": [
  "Classical.choice",
  "Quot.sound",
  "propext"
 ],
 "Webparse.C133_message_written_partial": [
  "Classical.choice",
  "Quot.sound",
  "propext"
 ],
 "Webparse.C133_message_iff_partial": [
  "Classical.choice",
  "Quot.sound",
  "propext"
 ],
 "Webparse.C133_built_partial": [
  "Classical.choice",
  "Quot.sound",
  "propext"
 ],
 "Webparse.C133_violated_code": [
  "Classical.choice",
  "Quot.sound",
  "propext"
 ],
 "Webparse.C133_violated_status": [
  "Classical.choice",
  "Quot.sound",
  "propext"
 ],
 "Webparse.C133_violated": [
  "Classical.choice",
  "Quot.sound",
  "propext"
 ],
 "Webparse.C133_owned_iff_partial": [
  "Classical.choice",
  "Quot.sound",
  "propext"
 ],
 "Webparse.C134_response_iff_partial": [
  "Classical.choice",
  "Quot.sound",
  "propext"
 ],
 "Webparse.C134_request_iff_partial": [
  "Classical.choice",
  "Quot.sound",
  "propext"
 ],
 "Webparse.C134_response_only_partial": [
  "Classical.choice",
  "Quot.sound",
  "propext"
 ],
 "Webparse.C134_request_only_partial": [
  "Classical.choice",
  "Quot.sound",
  "propext"
 ],
 "Webparse.C134_violated_octets": [
  "Classical.choice",
  "Quot.sound",
  "propext"
 ],
 "Webparse.C134_violated_version": [
  "Classical.choice",
  "Quot.sound",
  "propext"
 ],
 "Webparse.C134_violated_injection": [
  "Classical.choice",
  "Quot.sound",
  "propext"
 ],
 "Webparse.C134_violated": [
  "Classical.choice",
  "Quot.sound",
  "propext"
 ],
 "Webparse.C134_violated_path": [
  "Classical.choice",
  "Quot.sound",
  "propext"
 ],
 "Webparse.C135_heard_partial": [
  "Classical.choice",
  "Quot.sound",
  "propext"
 ],
 "Webparse.C135_whole_partial": [
  "Classical.choice",
  "Quot.sound",
  "propext"
 ],
 "Webparse.C135_iff_partial": [
  "Classical.choice",
  "Quot.sound",
  "propext"
 ],
 "Webparse.C135_violated_always": [
  "Classical.choice",
  "Quot.sound",
  "propext"
 ],
 "Webparse.C135_violated": [
  "Classical.choice",
  "Quot.sound",
  "propext"
 ],
 "Webparse.C136_heard_partial": [
  "Classical.choice",
  "Quot.sound",
  "propext"
 ],
 "Webparse.C136_one_iff_partial": [
  "Classical.choice",
  "Quot.sound",
  "propext"
 ],
 "Webparse.C136_violated_smuggled": [
  "Classical.choice",
  "Quot.sound",
  "propext"
 ],
 "Webparse.C136_violated": [
  "Classical.choice",
  "Quot.sound",
  "propext"
 ],
 "Webparse.C137_heard_partial": [
  "Classical.choice",
  "Quot.sound",
  "propext"
 ],
 "Webparse.C137_one_iff_partial": [
  "Classical.choice",
  "Quot.sound",
  "propext"
 ],
 "Webparse.C137_violated_bodyless": [
  "Classical.choice",
  "Quot.sound",
  "propext"
 ],
 "Webparse.C137_violated_unframed": [
  "Classical.choice",
  "Quot.sound",
  "propext"
 ],
 "Webparse.C137_violated": [
  "Classical.choice",
  "Quot.sound",
  "propext"
 ],
 "Webparse.C138_heard_iff_partial": [
  "Classical.choice",
  "Quot.sound",
  "propext"
 ],
 "Webparse.C138_violated_payload": [
  "Classical.choice",
  "Quot.sound",
  "propext"
 ],
 "Webparse.C138_violated": [
  "Classical.choice",
  "Quot.sound",
  "propext"
 ],
 "Webparse.C139_agree_partial": [
  "Classical.choice",
  "Quot.sound",
  "propext"
 ],
 "Webparse.C139_violated_smuggled": [
  "Classical.choice",
  "Quot.sound",
  "propext"
 ],
 "Webparse.C139_violated": [
  "Classical.choice",
  "Quot.sound",
  "propext"
 ],
 "Webparse.C140_agree_partial": [
  "Classical.choice",
  "Quot.sound",
  "propext"
 ],
 "Webparse.C140_violated_split": [
  "Classical.choice",
  "Quot.sound",
  "propext"
 ],
 "Webparse.C140_violated": [
  "Classical.choice",
  "Quot.sound",
  "propext"
 ],
 "Webparse.C141_conforming_peer_heard": [
  "Classical.choice",
  "Quot.sound",
  "propext"
 ],
 "Webparse.C141_nothing_else_heard": [
  "Classical.choice",
  "Quot.sound",
  "propext"
 ],
 "Webparse.C142_heard_iff_partial": [
  "Classical.choice",
  "Quot.sound",
  "propext"
 ],
 "Webparse.C142_violated_mask": [
  "Classical.choice",
  "Quot.sound",
  "propext"
 ],
 "Webparse.C142_violated": [
  "Classical.choice",
  "Quot.sound",
  "propext"
 ],
 "Webparse.C142_violated_code": [
  "Classical.choice",
  "Quot.sound",
  "propext"
 ]
}