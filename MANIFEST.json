{
 "claims": [
  {
   "property": "C01",
   "status": "proved",
   "theorems": [
    "Webparse.C01_encode_meets_rfc",
    "Webparse.C01_roundtrip",
    "Webparse.C01_too_large_rejected"
   ],
   "note": "All prefixes 1..8, all leading bits, all naturals; encoder and decoder also tied to an independent RFC 7541 5.1 value function."
  },
  {
   "property": "C02",
   "status": "proved",
   "theorems": [
    "Webparse.C02_decode_exact",
    "Webparse.C02_decode_local",
    "Webparse.C02_truncated_is_error"
   ],
   "note": "Exact characterisation of the accepted prefixes of the buffer, plus locality and truncation."
  },
  {
   "property": "C03",
   "status": "proved",
   "theorems": [
    "Webparse.C03_roundtrip",
    "Webparse.C03_encode_meets_rfc",
    "Webparse.C03_table_canonical"
   ],
   "note": "Also: output is the RFC form, and the table is the canonical code of its lengths."
  },
  {
   "property": "C04",
   "status": "partial",
   "theorems": [
    "Webparse.C04_violated",
    "Webparse.C04_accepts_exactly_partial",
    "Webparse.C04_canonical_partial"
   ],
   "note": "False as stated: EOS is accepted as byte 0 (C04_violated). Proved: exact acceptance with EOS allowed, canonicity without EOS."
  },
  {
   "property": "C05",
   "status": "proved",
   "theorems": [
    "Webparse.C05_encode_lower"
   ],
   "note": ""
  },
  {
   "property": "C06",
   "status": "proved",
   "theorems": [
    "Webparse.C06_size_invariant"
   ],
   "note": "Invariant by induction over any list of insertions and limit changes; includes absence of the panic."
  },
  {
   "property": "C07",
   "status": "proved",
   "theorems": [
    "Webparse.C07_insert_evicts",
    "Webparse.C07_limit_evicts"
   ],
   "note": "IsEviction is a specification of its own: a prefix that fits, maximal among prefixes that fit."
  },
  {
   "property": "C08",
   "status": "partial",
   "theorems": [
    "Webparse.C08_static_violated",
    "Webparse.C08_static_partial",
    "Webparse.C08_dynamic",
    "Webparse.C08_dynamic_history"
   ],
   "note": "False for index 15 (C08_static_violated: the table says accept- instead of accept-charset). Proved for every other static index, for index 0, for past-the-end indices and for the dynamic part over any history."
  },
  {
   "property": "C09",
   "status": "partial",
   "theorems": [
    "Webparse.C09_violated_by_name_confusion",
    "Webparse.C09_connection_roundtrip_partial",
    "Webparse.C09_plain_names_partial",
    "Webparse.C09_violated_by_large_index",
    "Webparse.C09_reachable_partial",
    "Webparse.C09_names_iff_partial",
    "Webparse.C09_violated_unreachable",
    "Webparse.C09_singles_iff_partial",
    "Webparse.C09_violated_hang"
   ],
   "note": "False as stated for two independent reasons (header names that compare equal without being equal; dynamic indices above 126). Exact for both: for headers in reach (not in the dynamic table, or among its 65 newest entries) names from a set are read back if and only if the encoder confuses no two of them (C09_names_iff_partial); for such names, headers sent one in a block are read back if and only if all are in reach (C09_singles_iff_partial). A header out of reach at the end of a block always makes it unreadable (C09_violated_unreachable), and one found as entry 98 to 129 always makes the decoder loop for ever (C09_violated_hang). Not settled: a header out of reach followed by others in its block, outside that range."
  },
  {
   "property": "C10",
   "status": "partial",
   "theorems": [
    "Webparse.C10_violated",
    "Webparse.C10_size_update_never_ends",
    "Webparse.C10_terminates_iff_partial",
    "Webparse.C10_endless_iff_partial"
   ],
   "note": "False: a dynamic table size update is never consumed and the loop spins for ever (for all step counts). Proved: it ends exactly when none is reached, then within one round per byte. Exact without the model's step: a block is endless if and only if an octet 001xxxxx follows representations that are read (C10_endless_iff_partial)."
  },
  {
   "property": "C11",
   "status": "proved",
   "theorems": [
    "Webparse.C11_compositional",
    "Webparse.C11_blocks"
   ],
   "note": "Includes errors and non-termination of the continuation."
  },
  {
   "property": "C12",
   "status": "proved",
   "theorems": [
    "Webparse.C12_table_after",
    "Webparse.C12_step_safe",
    "Webparse.C12_run_safe"
   ],
   "note": "Per step and per run, from any table that satisfies the invariant. Also after a decoding error: C12_table_after."
  },
  {
   "property": "C13",
   "status": "proved",
   "theorems": [
    "Webparse.C13_roundtrip",
    "Webparse.C13_encode_wire"
   ],
   "note": "Flag sets are bytes with named bits only (the only ones FrameHeader can hold); encoder output also given byte by byte."
  },
  {
   "property": "C14",
   "status": "partial",
   "theorems": [
    "Webparse.C14_short",
    "Webparse.C14_exact",
    "Webparse.C14_ranges",
    "Webparse.C14_kinds",
    "Webparse.C14_flags_violated"
   ],
   "note": "Exactness, ranges and kinds proved for all byte strings. The claim on unknown flags is false (C14_flags_violated): a flag byte with an unnamed bit is an error instead of being ignored."
  },
  {
   "property": "C15",
   "status": "proved",
   "theorems": [
    "Webparse.C15_ping",
    "Webparse.C15_goAway",
    "Webparse.C15_windowUpdate",
    "Webparse.C15_reset"
   ],
   "note": "Read back from a longer stream, whatever follows; size returned equals bytes written."
  },
  {
   "property": "C16",
   "status": "partial",
   "theorems": [
    "Webparse.C16_violated",
    "Webparse.C16_never_readable",
    "Webparse.C16_payload_partial",
    "Webparse.C16_parse_exact"
   ],
   "note": "False: the frame header announces length 0 for the five payload bytes, and the exclusive bit is dropped. Proved: the payload itself, and exact acceptance of the reader."
  },
  {
   "property": "C17",
   "status": "proved",
   "theorems": [
    "Webparse.C17_roundtrip"
   ],
   "note": "All legal settings, including the empty ACK."
  },
  {
   "property": "C18",
   "status": "proved",
   "theorems": [
    "Webparse.C18_parse_iff",
    "Webparse.C18_stream_and_ack",
    "Webparse.C18_no_panic"
   ],
   "note": "Acceptance iff, over payloads of any length; last value wins; no panic."
  },
  {
   "property": "C19",
   "status": "proved",
   "theorems": [
    "Webparse.C19_split",
    "Webparse.C19_part_reads_back",
    "Webparse.C19_reads_back",
    "Webparse.C19_zero_limit_never_ends"
   ],
   "note": "C19_split for all limits from 1; reading back for limits below 2^24 (the 24-bit length field); a limit of 0 never ends."
  },
  {
   "property": "C20",
   "status": "partial",
   "theorems": [
    "Webparse.C20_padding_kept_partial",
    "Webparse.C20_violated",
    "Webparse.C20_pad_too_long",
    "Webparse.C20_boundary_violated",
    "Webparse.C20_read_partial",
    "Webparse.C20_iff_partial"
   ],
   "note": "False: padding is left in the data, and a pad length equal to the payload is accepted. Proved: exactly what is returned for every padded DATA frame (C20_read_partial), so the claim holds of a frame exactly if its pad length is zero or over the payload (C20_iff_partial); too-long padding is refused for frames of all kinds."
  },
  {
   "property": "C21",
   "status": "partial",
   "theorems": [
    "Webparse.C21_violated_by_end_stream",
    "Webparse.C21_violated_by_size",
    "Webparse.C21_block_intact_partial",
    "Webparse.C21_single_frame_partial",
    "Webparse.C21_no_end_stream_partial",
    "Webparse.C21_iff_partial",
    "Webparse.C21_violated_always",
    "Webparse.C21_size_partial"
   ],
   "note": "False for two reasons (END_STREAM on the last CONTINUATION; fragment size not bounded by the limit). Proved for all maps, states and limits: frame kinds, stream, END_HEADERS, block intact, size. The claim holds of a call exactly if there is one frame or no END_STREAM and the fragments are within the limit (C21_iff_partial), so it is violated whenever END_STREAM is requested and there are two frames (C21_violated_always); fragments are at most four times the limit and 20 bytes if every field is within the limit (C21_size_partial)."
  },
  {
   "property": "C22",
   "status": "partial",
   "theorems": [
    "Webparse.C22_violated",
    "Webparse.C22_block_roundtrip_partial",
    "Webparse.C22_connection_partial",
    "Webparse.C22_read_partial",
    "Webparse.C22_iff_partial"
   ],
   "note": "False as stated (Headers::encode never writes the parts). A HEADERS frame that fits one frame is read back with its fields and without its parts (C22_read_partial), so the claim holds of it exactly if it has none (C22_iff_partial). Proved once Parts::encode_header has run: blocks for all synchronised states, and whole connections of mixed frames for header blocks that fit one frame."
  },
  {
   "property": "C23",
   "status": "proved",
   "theorems": [
    "Webparse.C23_limit"
   ],
   "note": "For all payloads, states and limits."
  },
  {
   "property": "C24",
   "status": "proved",
   "theorems": [
    "Webparse.C24_ids",
    "Webparse.C24_distinct"
   ],
   "note": "All counts of identifiers, including exhaustion."
  },
  {
   "property": "C25",
   "status": "proved",
   "theorems": [
    "Webparse.C25_one",
    "Webparse.C25_stream"
   ],
   "note": "All sequences of control frames; C22_connection_partial extends this to HEADERS and DATA."
  },
  {
   "property": "C26",
   "status": "proved",
   "theorems": [
    "Webparse.C26_writer_accepts",
    "Webparse.C26_write_wire",
    "Webparse.C26_roundtrip"
   ],
   "note": "All headers the writer accepts, with the bytes characterised against RFC 6455 5.2."
  },
  {
   "property": "C27",
   "status": "proved",
   "theorems": [
    "Webparse.C27_read_iff",
    "Webparse.C27_rewrite",
    "Webparse.C27_no_panic"
   ],
   "note": "Exact: reading succeeds iff the input starts with a legal header in shortest form."
  },
  {
   "property": "C28",
   "status": "proved",
   "theorems": [
    "Webparse.C28_mask_rfc",
    "Webparse.C28_involution",
    "Webparse.C28_length",
    "Webparse.C28_piecewise"
   ],
   "note": "All keys, data and lists of pieces."
  },
  {
   "property": "C29",
   "status": "proved",
   "theorems": [
    "Webparse.C29_roundtrip",
    "Webparse.C29_truncated",
    "Webparse.C29_read_exact"
   ],
   "note": "Both directions, all strict prefixes."
  },
  {
   "property": "C30",
   "status": "partial",
   "theorems": [
    "Webparse.C30_violated",
    "Webparse.C30_returns_zero",
    "Webparse.C30_bytes_written_partial",
    "Webparse.C30_sizes"
   ],
   "note": "False as stated: write_to always returns Ok(0) (dataframe.rs). Proved: the bytes appended are frame_size, for data frames and both message types."
  },
  {
   "property": "C31",
   "status": "proved",
   "theorems": [
    "Webparse.C31_limit",
    "Webparse.C31_refused_early"
   ],
   "note": "Exact: the limited reader returns a frame iff the unlimited one does and it is within the limit."
  },
  {
   "property": "C32",
   "status": "proved",
   "theorems": [
    "Webparse.C32_reassemble",
    "Webparse.C32_accepts_iff"
   ],
   "note": "Exact characterisation of all accepted frame sequences; FIN bits play no part, as in the code."
  },
  {
   "property": "C33",
   "status": "proved",
   "theorems": [
    "Webparse.C33_close_bytes",
    "Webparse.C33_roundtrip",
    "Webparse.C33_stream",
    "Webparse.C33_long_control_refused",
    "Webparse.C33_owned_roundtrip"
   ],
   "note": "Single messages and streams of any number of messages; control messages over 125 octets are refused."
  },
  {
   "property": "C34",
   "status": "proved",
   "theorems": [
    "Webparse.C34_code_roundtrip",
    "Webparse.C34_name_roundtrip",
    "Webparse.C34_registry"
   ],
   "note": "All codes, both ways, and agreement with the registry."
  },
  {
   "property": "C35",
   "status": "partial",
   "theorems": [
    "Webparse.C35_getters_partial",
    "Webparse.C35_violated",
    "Webparse.C35_map_partial",
    "Webparse.C35_names_iff_partial",
    "Webparse.C35_lower_case_partial",
    "Webparse.C35_letters_partial",
    "Webparse.C35_no_duplicates"
   ],
   "note": "Violated: the code's name equality identifies bytes 32 apart, so x- and xM are the same entry. Exact: maps with names from a set behave as maps if and only if no two names of the set are ambiguous (C35_names_iff_partial), in particular for all lower-case names without ~ and all names of letters; no duplicates up to case in any history."
  },
  {
   "property": "C36",
   "status": "partial",
   "theorems": [
    "Webparse.C36_violated",
    "Webparse.C36_violated_transitivity",
    "Webparse.C36_violated_hash",
    "Webparse.C36_complete_partial",
    "Webparse.C36_hash",
    "Webparse.C36_exact",
    "Webparse.C36_sound_partial",
    "Webparse.C36_iff_partial",
    "Webparse.C36_on_classes_partial"
   ],
   "note": "Violated ('-' equals 'M'; not transitive; equal names hash differently). Proved on all byte strings: exact characterisation, completeness, reflexivity, symmetry, hash = hash of lower case; two names are compared and hashed right if and only if they are unambiguous (C36_iff_partial)."
  },
  {
   "property": "C37",
   "status": "partial",
   "theorems": [
    "Webparse.C37_violated_injection",
    "Webparse.C37_violated",
    "Webparse.C37_roundtrip_partial",
    "Webparse.C37_roundtrip_iff",
    "Webparse.C37_accepts_clean"
   ],
   "note": "Violated: CR LF in a value injects a header line; leading spaces are dropped. Proved: exactly the clean maps round-trip, CR-free maps round-trip up to leading spaces, everything accepted is clean."
  },
  {
   "property": "C38",
   "status": "proved",
   "theorems": [
    "Webparse.C38_response",
    "Webparse.C38_request"
   ],
   "note": "Proved for requests and responses, all cut points, any state of the message parsed into."
  },
  {
   "property": "C39",
   "status": "proved",
   "theorems": [
    "Webparse.C39_response",
    "Webparse.C39_request"
   ],
   "note": "Proved for requests and responses."
  },
  {
   "property": "C40",
   "status": "partial",
   "theorems": [
    "Webparse.C40_violated",
    "Webparse.C40_roundtrip_iff_partial",
    "Webparse.C40_no_injection_partial",
    "Webparse.C40_serialisable",
    "Webparse.C40_head_and_body"
   ],
   "note": "Violated through header injection. Proved: a serialised response round-trips exactly if its headers are clean; without CR no injection."
  },
  {
   "property": "C41",
   "status": "partial",
   "theorems": [
    "Webparse.C41_violated",
    "Webparse.C41_violated_encoding",
    "Webparse.C41_violated_injection",
    "Webparse.C41_roundtrip_iff_partial",
    "Webparse.C41_exact_partial",
    "Webparse.C41_violated_connect"
   ],
   "note": "Violated: the query is not written, the path is written without encoding (so an accepted request can be written as a refused one or as one with an injected header). Proved: exactly which requests round-trip, of all whose headers were made with the operations of a header map (C41_exact_partial); an accepted CONNECT request is written as one to connect to the host `/` (C41_violated_connect). The project's own test urltest_001 asserts the part that is violated."
  },
  {
   "property": "C42",
   "status": "partial",
   "theorems": [
    "Webparse.C42_wire",
    "Webparse.C42_roundtrip",
    "Webparse.C42_sequence",
    "Webparse.C42_prefix",
    "Webparse.C42_violated_panic",
    "Webparse.C42_panic_iff_partial"
   ],
   "note": "Round trip, sequences and prefixes proved for data below 2^63 bytes (the most a slice can have). The last part is violated: lengths of 2^64-2 and more panic (exact condition proved; overflow checks on)."
  },
  {
   "property": "C43",
   "status": "partial",
   "theorems": [
    "Webparse.C43_violated_empty",
    "Webparse.C43_violated_panic",
    "Webparse.C43_violated_sign",
    "Webparse.C43_violated_min",
    "Webparse.C43_usize_partial",
    "Webparse.C43_usize_panic_partial",
    "Webparse.C43_isize_partial",
    "Webparse.C43_isize_reads_partial",
    "Webparse.C43_static",
    "Webparse.C43_roundtrip_usize",
    "Webparse.C43_roundtrip_isize_partial",
    "Webparse.C43_body_len_partial",
    "Webparse.C43_violated_body_len"
   ],
   "note": "Violated: empty value read as 0, 2^64 and 2^63 panic, --5 read as -5, the least isize not read back. Exact acceptance conditions and round trips proved."
  },
  {
   "property": "C44",
   "status": "proved",
   "theorems": [
    "Webparse.C44_from_u16",
    "Webparse.C44_from_bytes",
    "Webparse.C44_roundtrip",
    "Webparse.C44_classes"
   ],
   "note": "Proved in full."
  },
  {
   "property": "C45",
   "status": "proved",
   "theorems": [
    "Webparse.C45_version_from",
    "Webparse.C45_version_agree",
    "Webparse.C45_method",
    "Webparse.C45_method_text",
    "Webparse.C45_version",
    "Webparse.C45_version_text",
    "Webparse.C45_parse"
   ],
   "note": "Proved in full."
  },
  {
   "property": "C46",
   "status": "proved",
   "theorems": [
    "Webparse.C46_roundtrip",
    "Webparse.C46_stands_for",
    "Webparse.C46_safe",
    "Webparse.C46_injective"
   ],
   "note": "Proved in full; strings are valid UTF-8, as Rust strings are."
  },
  {
   "property": "C47",
   "status": "partial",
   "theorems": [
    "Webparse.C47_iff_partial",
    "Webparse.C47_violated",
    "Webparse.C47_accepts",
    "Webparse.C47_rejects",
    "Webparse.C47_result_partial",
    "Webparse.C47_valid_partial"
   ],
   "note": "Acceptance is exact. The result is violated for escapes that are not UTF-8: they are replaced by U+FFFD. Proved: exactly what is returned. Exact condition: C47_iff_partial."
  },
  {
   "property": "C48",
   "status": "partial",
   "theorems": [
    "Webparse.C48_violated",
    "Webparse.C48_violated_host",
    "Webparse.C48_roundtrip_partial",
    "Webparse.C48_roundtrip_iff_partial"
   ],
   "note": "Violated: the encoder keeps ? and @, so text may parse to another path, query or host. Exact: among the URLs that text can carry, those read back from their text are those without such characters in the wrong part (C48_roundtrip_iff_partial)."
  },
  {
   "property": "C49",
   "status": "partial",
   "theorems": [
    "Webparse.C49_violated",
    "Webparse.C49_violated_port",
    "Webparse.C49_port",
    "Webparse.C49_origin",
    "Webparse.C49_domain_partial",
    "Webparse.C49_parts_partial",
    "Webparse.C49_absolute_partial",
    "Webparse.C49_absolute_iff_partial",
    "Webparse.C49_language_partial",
    "Webparse.C49_domain_iff_partial"
   ],
   "note": "Violated: http://h/p?q@z has no domain; ? before the first / is dropped, which can change the port. Proved: port always present; exactly which texts are URLs and which URL each is, for every text (C49_language_partial); an absolute URL lacks a host exactly if an @ and a ? follow its first slash (C49_domain_iff_partial); parts are decodings of substrings unless ? comes before the first /."
  },
  {
   "property": "C50",
   "status": "proved",
   "theorems": [
    "Webparse.C50_fields",
    "Webparse.C50_idempotent",
    "Webparse.C50_empty",
    "Webparse.C50_into_empty"
   ],
   "note": "Proved in full."
  },
  {
   "property": "C51",
   "status": "partial",
   "theorems": [
    "Webparse.C51_iff_partial",
    "Webparse.C51_violated",
    "Webparse.C51_roundtrip_partial",
    "Webparse.C51_text",
    "Webparse.C51_length",
    "Webparse.C51_known",
    "Webparse.C51_parse_length"
   ],
   "note": "Violated for None and for extensions named like a known scheme; the rest is proved, acceptance exactly. Exact condition for the round trip: C51_iff_partial."
  },
  {
   "property": "C52",
   "status": "proved",
   "theorems": [
    "Webparse.C52_get",
    "Webparse.C52_insert_returns",
    "Webparse.C52_remove_returns",
    "Webparse.C52_len",
    "Webparse.C52_is_empty"
   ],
   "note": "Proved in full, for any family of types and any history, including extend with extensions of any history; includes that the downcasts never fail."
  },
  {
   "property": "C53",
   "status": "proved",
   "theorems": [
    "Webparse.C53_contains",
    "Webparse.C53_detection",
    "Webparse.C53_upgrade"
   ],
   "note": "Proved in full; the search is case-sensitive, as in the code."
  },
  {
   "property": "C54",
   "status": "proved",
   "theorems": [
    "Webparse.C54_headers",
    "Webparse.C54_method",
    "Webparse.C54_version",
    "Webparse.C54_status",
    "Webparse.C54_request",
    "Webparse.C54_response",
    "Webparse.C54_response_body",
    "Webparse.C54_chunk",
    "Webparse.C54_request_bytes",
    "Webparse.C54_response_bytes",
    "Webparse.C54_response_head_bytes",
    "Webparse.C54_frame"
   ],
   "note": "Proved in full. HTTP/1 encoders are modelled call by call with the buffer as state; frames by the bytes they append."
  },
  {
   "property": "C55",
   "status": "partial",
   "theorems": [
    "Webparse.C55_response",
    "Webparse.C55_violated_request",
    "Webparse.C55_request_partial"
   ],
   "note": "Proved for responses. Violated for requests: partial is cleared before the URL is worked out. Proved: that is the only exception."
  },
  {
   "property": "C56",
   "status": "partial",
   "theorems": [
    "Webparse.C56_violated",
    "Webparse.C56_authority_partial",
    "Webparse.C56_any_authority_partial",
    "Webparse.C56_violated_always",
    "Webparse.C56_iff_partial"
   ],
   "note": "Violated: http://trusted/x@evil has host evil, and whenever an @ follows the first slash the host written becomes the user name (C56_violated_always). Proved for every authority if no @ follows it; for authorities without user information the claim holds exactly then (C56_iff_partial)."
  },
  {
   "property": "C57",
   "status": "partial",
   "theorems": [
    "Webparse.C57_any_text",
    "Webparse.C57_violated",
    "Webparse.C57_never"
   ],
   "note": "Violated for all five names: the text is upper-cased and compared with lower-case names. Proved: no text whatever gives a known scheme, and exactly what it gives instead (C57_any_text, for every mapping that has Unicode's values into ASCII)."
  },
  {
   "property": "C58",
   "status": "partial",
   "theorems": [
    "Webparse.C58_table_after",
    "Webparse.C58_connection_partial",
    "Webparse.C58_violated",
    "Webparse.C58_panic_iff_partial",
    "Webparse.C58_table_kept"
   ],
   "note": "Violated: DATA on stream 0 reaches assert!. Proved: exactly when parsing panics (so no other kind of frame ever does), and that the header table stays valid. The model reads as many payload bytes as the caller hands over. The table stays valid also after refused frames, and over a whole connection that goes on after them no other frame panics (C58_table_after, C58_connection_partial)."
  },
  {
   "property": "C59",
   "status": "proved",
   "theorems": [
    "Webparse.C59_url",
    "Webparse.C59_request",
    "Webparse.C59_response"
   ],
   "note": "Proved in full for the modelled functions."
  },
  {
   "property": "C60",
   "status": "proved",
   "theorems": [
    "Webparse.C60_request",
    "Webparse.C60_response"
   ],
   "note": "Proved in full for the head; for extensions, system values and body see C129."
  },
  {
   "property": "C61",
   "status": "partial",
   "theorems": [
    "Webparse.C61_builder_partial",
    "Webparse.C61_roundtrip",
    "Webparse.C61_refused",
    "Webparse.C61_text",
    "Webparse.C61_value",
    "Webparse.C61_parse_iff",
    "Webparse.C61_no_panic",
    "Webparse.C61_violated_upgrade",
    "Webparse.C61_upgrade_partial"
   ],
   "note": "Header value: proved in full; the base64 crate is not in the repository and its engine is modelled from RFC 4648 (trusted). upgrade_http2: violated for a request that already has a header such as '#onnection' (names are compared byte by byte up to 32, see C35); proved for all header maps whose names are not ambiguous with the three names added."
  },
  {
   "property": "C62",
   "status": "partial",
   "theorems": [
    "Webparse.C62_violated_host",
    "Webparse.C62_violated_scheme",
    "Webparse.C62_violated_absolute",
    "Webparse.C62_violated_ipv6",
    "Webparse.C62_origin_partial",
    "Webparse.C62_accepts_partial",
    "Webparse.C62_absolute_partial",
    "Webparse.C62_connect"
   ],
   "note": "Violated in four ways: a header Zscheme or Zauthority acts as :scheme or :authority, an '@' in the query of an absolute target loses the host so that Host is used, and IPv6 hosts are refused. Proved: the rest, exactly, for origin form, absolute form and CONNECT."
  },
  {
   "property": "C63",
   "status": "partial",
   "theorems": [
    "Webparse.C63_violated_host",
    "Webparse.C63_no_authority",
    "Webparse.C63_request",
    "Webparse.C63_url_partial",
    "Webparse.C63_response",
    "Webparse.C63_response_parts",
    "Webparse.C63_url_iff_partial",
    "Webparse.C63_violated_joined"
   ],
   "note": "Violated: the URL is made by joining the texts and parsing the result, so :authority good.com with :path /x@evil.com is a request to evil.com, and :path .evil.com/ continues the host. Proved: exactly which URL any frame gives (C63_url_iff_partial); method, headers and responses in full."
  },
  {
   "property": "C64",
   "status": "partial",
   "theorems": [
    "Webparse.C64_error",
    "Webparse.C64_built",
    "Webparse.C64_violated_lookup",
    "Webparse.C64_lookup_partial",
    "Webparse.C64_response_ok",
    "Webparse.C64_response_built",
    "Webparse.C64_response_lookup_partial",
    "Webparse.C64_from_request"
   ],
   "note": "Proved for errors, method, URL, version and status. Header lookup is violated for ambiguous names (UserMAgent counts as a User-Agent, see C35) and proved for unambiguous ones."
  },
  {
   "property": "C65",
   "status": "partial",
   "theorems": [
    "Webparse.C65_builder",
    "Webparse.C65_violated_set_url",
    "Webparse.C65_set_url_partial",
    "Webparse.C65_get_host",
    "Webparse.C65_set_url_iff_partial"
   ],
   "note": "Proved for the builder. Violated for set_url, which keeps a Host that is there; the exact value is proved. Exact condition: C65_set_url_iff_partial."
  },
  {
   "property": "C66",
   "status": "partial",
   "theorems": [
    "Webparse.C66_iff_partial",
    "Webparse.C66_violated_static",
    "Webparse.C66_violated_size_update",
    "Webparse.C66_violated_index",
    "Webparse.C66_violated_integer",
    "Webparse.C66_decodes_partial"
   ],
   "note": "Violated four ways: static entry 15 is accept- instead of accept-charset, a table size update makes the decoder loop for ever, indices from 127 on are not read, integers of more than five octets are refused. Proved for all blocks of all other representations. Exact for blocks with indices up to 126: decoded as the RFC says if and only if all representations are plain and all integers short (C66_iff_partial)."
  },
  {
   "property": "C67",
   "status": "partial",
   "theorems": [
    "Webparse.C67_violated",
    "Webparse.C67_one_reading",
    "Webparse.C67_connection_partial",
    "Webparse.C67_names_iff_partial"
   ],
   "note": "Violated: a header named accept- is written as static entry 15, which is accept-charset. Exact: names from a set arrive at every RFC 7541 decoder, whatever is sent, if and only if accept- is not in the set and the encoder confuses no two names of it (C67_names_iff_partial); encoding never fails."
  },
  {
   "property": "C68",
   "status": "partial",
   "theorems": [
    "Webparse.C68_iff_partial",
    "Webparse.C68_refused_iff_partial",
    "Webparse.C68_violated_static",
    "Webparse.C68_violated_index",
    "Webparse.C68_violated_eos",
    "Webparse.C68_sound_partial"
   ],
   "note": "Violated three ways: static entry 15, the lone octet 255 taken for index 127, Huffman strings with the EOS code word accepted. Proved: an accepted block means what it is decoded to, unless after a part the RFC reads it has one of the listed deviating forms. The language of the decoder is given exactly by a small grammar: accepted with these headers and table (C68_iff_partial), refused (C68_refused_iff_partial), endless (C10_endless_iff_partial)."
  },
  {
   "property": "C69",
   "status": "proved",
   "theorems": [
    "Webparse.C69_request_final",
    "Webparse.C69_response_final",
    "Webparse.C69_request",
    "Webparse.C69_response"
   ],
   "note": "Two finality theorems and two segmentation theorems, for requests and responses."
  },
  {
   "property": "C70",
   "status": "partial",
   "theorems": [
    "Webparse.C70_violated_target",
    "Webparse.C70_violated_escape",
    "Webparse.C70_violated_tab",
    "Webparse.C70_violated_response_tab",
    "Webparse.C70_request_violated",
    "Webparse.C70_response_violated",
    "Webparse.C70_response_partial",
    "Webparse.C70_request_partial",
    "Webparse.C70_response_iff_partial",
    "Webparse.C70_url_iff_partial",
    "Webparse.C70_request_iff_partial"
   ],
   "note": "Violated for requests (target `x`, target `/%4`, tab after the version) and for responses (tab after the reason): Partial for every continuation. Exactly when (C70_response_iff_partial, C70_request_iff_partial): the start line is followed by a byte that is neither printable nor a line end, or a field line with an empty value has its CR followed by something that is no line end, or (requests) the head is complete and the target is an incomplete URL, all of which C70_url_iff_partial lists. For every other buffer a continuation brings a verdict."
  },
  {
   "property": "C71",
   "status": "partial",
   "theorems": [
    "Webparse.C71_responses",
    "Webparse.C71_responses_cut",
    "Webparse.C71_requests_partial",
    "Webparse.C71_requests_iff_partial",
    "Webparse.C71_violated_requests"
   ],
   "note": "Responses in full (whole streams and streams cut anywhere); requests: read back exactly if each is one of those C41 can carry (C71_requests_iff_partial), also if the last is cut short (C71_requests_partial); violated for others (C71_violated_requests, C109_violated_split)."
  },
  {
   "property": "C72",
   "status": "partial",
   "theorems": [
    "Webparse.C72_violated",
    "Webparse.C72_violated_case",
    "Webparse.C72_violated_substring",
    "Webparse.C72_spelled_partial",
    "Webparse.C72_absent",
    "Webparse.C72_elements_iff_partial",
    "Webparse.C72_chunked_iff_partial",
    "Webparse.C72_one_iff_partial"
   ],
   "note": "Violated: `Connection: keep-alive` and `Transfer-Encoding: Chunked` are not recognised, `x-unchunked` is. Partial: an option is recognised exactly if some element of the list has the word inside in the code's spelling (C72_elements_iff_partial), so the claim holds of a value of one element exactly if this is the word as spelled or neither is the word nor has it inside (C72_one_iff_partial)."
  },
  {
   "property": "C73",
   "status": "partial",
   "theorems": [
    "Webparse.C73_response_partial",
    "Webparse.C73_request_partial",
    "Webparse.C73_fields_partial",
    "Webparse.C73_last_partial",
    "Webparse.C73_violated_reason",
    "Webparse.C73_violated_method",
    "Webparse.C73_violated_response",
    "Webparse.C73_violated_blanks",
    "Webparse.C73_violated_names",
    "Webparse.C73_violated_request"
   ],
   "note": "Violated: empty reason rejected (always), methods outside the nine rejected (always), repeated names keep only the last value, blanks after values and tabs before them kept, `X-A` and `XMA` confused. Partial: exact description for all heads with a plain reason or a registered method."
  },
  {
   "property": "C74",
   "status": "partial",
   "theorems": [
    "Webparse.C74_response_iff_partial",
    "Webparse.C74_request_iff_partial",
    "Webparse.C74_violated_response",
    "Webparse.C74_violated_request",
    "Webparse.C74_violated_smuggle",
    "Webparse.C74_violated_colon",
    "Webparse.C74_violated_line"
   ],
   "note": "Violated: NUL, bare LF in values (written out again unchanged, so the next recipient may see another header), `Content-Length : 5`, a space as line end. Partial: the exact accepted language as an iff, for responses and requests."
  },
  {
   "property": "C75",
   "status": "partial",
   "theorems": [
    "Webparse.C75_taken_iff_partial",
    "Webparse.C75_checked_partial",
    "Webparse.C75_violated_unknown_flag",
    "Webparse.C75_violated_padded_ping",
    "Webparse.C75_violated_streams",
    "Webparse.C75_violated",
    "Webparse.C75_unknown_kind_partial"
   ],
   "note": "Violated: flag bits without a meaning make a frame unreadable (all kinds) or eat its first byte (bit 8 on PING and others); RST_STREAM and PRIORITY on stream 0, GOAWAY on another stream and PRIORITY longer than five bytes are accepted. Partial: the exact accepted set as an iff, and agreement with the RFC for all other frames."
  },
  {
   "property": "C76",
   "status": "partial",
   "theorems": [
    "Webparse.C76_stream_partial",
    "Webparse.C76_flags_partial",
    "Webparse.C76_questions",
    "Webparse.C76_violated_priority",
    "Webparse.C76_violated_ping",
    "Webparse.C76_violated",
    "Webparse.C76_flag_bits"
   ],
   "note": "Violated: a PRIORITY frame reports stream 0 whatever stream it came on, and an acknowledged PING reports flags 0. Partial: exact value of stream_id and flags for every frame. Proved: the four questions and the setters."
  },
  {
   "property": "C77",
   "status": "partial",
   "theorems": [
    "Webparse.C77_read_partial",
    "Webparse.C77_ids_partial",
    "Webparse.C77_violated_request",
    "Webparse.C77_violated",
    "Webparse.C77_violated_step",
    "Webparse.C77_violated_short"
   ],
   "note": "Violated: the request is always lost; the reader's table goes out of step and a later HEADERS frame fails; promises shorter than four bytes are taken as promises of stream 0. Partial: stream and promised stream survive, and what follows is the block of the remaining fields on the promised stream."
  },
  {
   "property": "C78",
   "status": "partial",
   "theorems": [
    "Webparse.C78_received_partial",
    "Webparse.C78_exact_partial",
    "Webparse.C78_hostless_partial",
    "Webparse.C78_scheme_partial",
    "Webparse.C78_violated_query",
    "Webparse.C78_violated_port",
    "Webparse.C78_violated_path",
    "Webparse.C78_violated"
   ],
   "note": "Violated: port, query and user information are never sent; the path is sent decoded, so one with a space is refused and one with a decoded percent sign is decoded twice. Partial: what is received for plain paths and the exact condition for equality."
  },
  {
   "property": "C79",
   "status": "partial",
   "theorems": [
    "Webparse.C79_setters",
    "Webparse.C79_switches",
    "Webparse.C79_read_partial",
    "Webparse.C79_violated"
   ],
   "note": "Violated: set_initial_window_size accepts windows above 2^31-1 and the CONNECT switch any number, and the peer refuses the frame. Proved: setters and questions. Partial: exactly which settings the peer reads."
  },
  {
   "property": "C80",
   "status": "partial",
   "theorems": [
    "Webparse.C80_refines",
    "Webparse.C80_same_partial",
    "Webparse.C80_equal_values",
    "Webparse.C80_equal_names",
    "Webparse.C80_violated_length",
    "Webparse.C80_violated"
   ],
   "note": "Violated: get_body_len reads a Content-Length of +5, --5 or 2^63 differently for the two variants (a panic in one case). Proved: the byte-only model is a refinement, and all other answers agree. Partial: agreement of the body length for plain decimal numbers."
  },
  {
   "property": "C81",
   "status": "partial",
   "theorems": [
    "Webparse.C81_taken_iff_partial",
    "Webparse.C81_incomplete_iff_partial",
    "Webparse.C81_conforming_partial",
    "Webparse.C81_body_partial",
    "Webparse.C81_violated_extension",
    "Webparse.C81_violated_forever",
    "Webparse.C81_violated_end",
    "Webparse.C81_violated_space",
    "Webparse.C81_violated_trailer",
    "Webparse.C81_violated"
   ],
   "note": "Violated: a chunk with an extension is called incomplete for ever, as is any other byte after the size; the two bytes after the data are not looked at; a single space can end the size line; trailer fields are cut. Partial: exact languages, all chunks without extension, and whole bodies of such chunks."
  },
  {
   "property": "C82",
   "status": "proved",
   "theorems": [
    "Webparse.C82_connection"
   ],
   "note": "Proved."
  },
  {
   "property": "C83",
   "status": "partial",
   "theorems": [
    "Webparse.C83_taken_iff_partial",
    "Webparse.C83_conforming_partial",
    "Webparse.C83_sound_partial",
    "Webparse.C83_violated_mask",
    "Webparse.C83_violated_reserved",
    "Webparse.C83_violated"
   ],
   "note": "Violated: should_be_masked is not looked at, and reserved bits and unknown opcodes are accepted. Partial: the exact language accepted, every conforming frame is taken, and what is taken is a frame."
  },
  {
   "property": "C84",
   "status": "partial",
   "theorems": [
    "Webparse.C84_accepts_iff_partial",
    "Webparse.C84_conforming_partial",
    "Webparse.C84_violated_fin",
    "Webparse.C84_violated_control",
    "Webparse.C84_violated_code",
    "Webparse.C84_violated"
   ],
   "note": "Violated: FIN is not looked at, fragmented control messages and any close code are accepted. Partial: the exact lists accepted, and every conforming message is accepted."
  },
  {
   "property": "C85",
   "status": "partial",
   "theorems": [
    "Webparse.C85_waits_partial",
    "Webparse.C85_again_partial",
    "Webparse.C85_violated_always",
    "Webparse.C85_violated"
   ],
   "note": "Violated: the reader consumes the header bytes of an incomplete frame, so reading the rest later never gives the frame. Partial: an incomplete frame always gives the I/O error, and a caller that keeps the bytes can read them again."
  },
  {
   "property": "C86",
   "status": "partial",
   "theorems": [
    "Webparse.C86_converts_partial",
    "Webparse.C86_exact_partial",
    "Webparse.C86_panics",
    "Webparse.C86_violated"
   ],
   "note": "Violated: a last odd digit is dropped silently, and a character that is no digit panics. Partial: the exact result for every text."
  },
  {
   "property": "C87",
   "status": "partial",
   "theorems": [
    "Webparse.C87_built",
    "Webparse.C87_error",
    "Webparse.C87_survives_partial",
    "Webparse.C87_violated_host",
    "Webparse.C87_violated_user",
    "Webparse.C87_violated",
    "Webparse.C87_survives_iff_partial"
   ],
   "note": "Violated: a path that does not start with a slash is read back as part of the host (for every host and path), and a user name without a password comes back with the empty password. Proved: the parts and the error. Exact for builders given a scheme and a plain host: the text survives if and only if the path starts with a slash, the user information is complete and no part has separators (C87_survives_iff_partial)."
  },
  {
   "property": "C88",
   "status": "partial",
   "theorems": [
    "Webparse.C88_request_iff_partial",
    "Webparse.C88_response_iff_partial",
    "Webparse.C88_violated",
    "Webparse.C88_request_text",
    "Webparse.C88_response_text",
    "Webparse.C88_response_reads_back"
   ],
   "note": "Violated: a header value that is no UTF-8 is printed with replacement characters. Partial: printed and sent forms agree exactly if all header values are UTF-8."
  },
  {
   "property": "C89",
   "status": "partial",
   "theorems": [
    "Webparse.C89_same_iff_partial",
    "Webparse.C89_violated_close",
    "Webparse.C89_violated",
    "Webparse.C89_constructors",
    "Webparse.C89_received_partial",
    "Webparse.C89_pong",
    "Webparse.C89_questions"
   ],
   "note": "Violated: the payload of a close message without a status is dropped by the conversion. Partial: the exact messages that survive."
  },
  {
   "property": "C90",
   "status": "partial",
   "theorems": [
    "Webparse.C90_iff_partial",
    "Webparse.C90_one_hearing",
    "Webparse.C90_heard_partial",
    "Webparse.C90_connection_partial",
    "Webparse.C90_violated_end",
    "Webparse.C90_violated"
   ],
   "note": "Violated: the end of the stream is not heard when a header list needs several frames, because END_STREAM is put on the last CONTINUATION frame. Partial: everything else is heard for all connections, and everything if each header list fits one frame. Exact: what is sent is heard as sent if and only if no CONTINUATION frame among the octets carries END_STREAM (C90_iff_partial)."
  },
  {
   "property": "C91",
   "status": "partial",
   "theorems": [
    "Webparse.C91_iff_partial",
    "Webparse.C91_violated_order",
    "Webparse.C91_violated"
   ],
   "note": "Violated for every message with both a pseudo-header and a field: Parts::encode_header appends the pseudo-headers. Partial: exactly the messages without one of the two are right."
  },
  {
   "property": "C92",
   "status": "partial",
   "theorems": [
    "Webparse.C92_heard_partial",
    "Webparse.C92_violated_request",
    "Webparse.C92_violated"
   ],
   "note": "Violated for every promise: the fields of the request are written in a HEADERS frame on the promised stream, even if there are none. Partial: the promise is heard with the pseudo-headers of the request, and the tables stay in step."
  },
  {
   "property": "C93",
   "status": "partial",
   "theorems": [
    "Webparse.C93_iff_partial",
    "Webparse.C93_plain_is_heard",
    "Webparse.C93_reported_partial",
    "Webparse.C93_understood_partial",
    "Webparse.C93_violated_repeated",
    "Webparse.C93_violated_continuation",
    "Webparse.C93_violated_method",
    "Webparse.C93_violated"
   ],
   "note": "Violated: of several lines of one field only the last value is kept, for all names and values; no conversation with a CONTINUATION frame is read; no header list with a method outside the nine known ones is read. Partial: any conversation without padding, CONTINUATION, long integers and table size updates is read, each header list kept with the last value of each name; it is understood as meant if no name repeats and none has ~ or ^, and where no name has ~ or ^ exactly if no name repeats (C93_iff_partial)."
  },
  {
   "property": "C94",
   "status": "partial",
   "theorems": [
    "Webparse.C94_accepted_iff_partial",
    "Webparse.C94_meaning_partial",
    "Webparse.C94_violated_anything",
    "Webparse.C94_violated_pseudo",
    "Webparse.C94_violated"
   ],
   "note": "Violated: every name that is UTF-8 and every value are accepted, CR and LF included; requests and responses may be mixed and pseudo-headers repeated or after fields. Partial: accepted exactly if the list is within the limit and method, scheme and status values can be parsed."
  },
  {
   "property": "C95",
   "status": "partial",
   "theorems": [
    "Webparse.C95_iff_partial",
    "Webparse.C95_wellformed_partial",
    "Webparse.C95_violated_injection",
    "Webparse.C95_violated"
   ],
   "note": "Violated: for all names and values, one HTTP/2 field can carry a second one behind CR LF in its value which appears in the HTTP/1 text (header injection). Partial: exact condition (iff), and always for header lists that are not malformed."
  },
  {
   "property": "C96",
   "status": "partial",
   "theorems": [
    "Webparse.C96_iff_partial",
    "Webparse.C96_last_partial",
    "Webparse.C96_length_partial",
    "Webparse.C96_chunked_partial",
    "Webparse.C96_violated_differing",
    "Webparse.C96_violated_malformed",
    "Webparse.C96_violated_negative",
    "Webparse.C96_violated_name",
    "Webparse.C96_violated_hidden",
    "Webparse.C96_violated_smuggle",
    "Webparse.C96_violated"
   ],
   "note": "Violated, for all values: differing Content-Length lines accepted (last wins), malformed and negative lengths accepted, a name one byte off taken for Content-Length or hiding it, 'Transfer-Encoding: Chunked' not seen so that a chunk is read as the next request. Exact for tidy blanks and names that are not confused (C96_iff_partial): right if and only if the last coding is chunked and the last line of codings has the word in lower case, or there is no body, or the last Content-Length line is the number and below 2^63."
  },
  {
   "property": "C97",
   "status": "partial",
   "theorems": [
    "Webparse.C97_method_partial",
    "Webparse.C97_violated_reversed",
    "Webparse.C97_violated_refused",
    "Webparse.C97_violated_content",
    "Webparse.C97_violated"
   ],
   "note": "Violated: the test for content is the wrong way round. With at most one Content-Length the request is accepted exactly if it has content, so every request that may be promised is refused and every GET with content is accepted. Partial: the method is checked as it should be."
  },
  {
   "property": "C98",
   "status": "partial",
   "theorems": [
    "Webparse.C98_control_partial",
    "Webparse.C98_data_partial",
    "Webparse.C98_violated_padded",
    "Webparse.C98_violated_priority",
    "Webparse.C98_headers_partial",
    "Webparse.C98_trailers_partial",
    "Webparse.C98_violated_head",
    "Webparse.C98_violated_promise",
    "Webparse.C98_violated"
   ],
   "note": "Violated for all frames of these kinds: DATA with padding (flag kept, pad length not written), PRIORITY (never readable), HEADERS with pseudo-headers (not written), PUSH_PROMISE (fields lost, a HEADERS frame added). Partial: RST_STREAM, SETTINGS, PING, GOAWAY, WINDOW_UPDATE, DATA without padding, and trailers."
  },
  {
   "property": "C99",
   "status": "partial",
   "theorems": [
    "Webparse.C99_bound",
    "Webparse.C99_connection",
    "Webparse.C99_violated_limit",
    "Webparse.C99_violated"
   ],
   "note": "C99_bound and C99_connection prove the bound for one block and for a connection. The last sentence is false: Headers::parse decodes the whole block and only then adds up the sizes, so for every limit m there are blocks of 4037 + n bytes that are made into a list of 4064 * (n + 1) bytes before they are refused (C99_violated_limit, C99_violated)."
  },
  {
   "property": "C100",
   "status": "partial",
   "theorems": [
    "Webparse.C100_request_iff_partial",
    "Webparse.C100_response_iff_partial",
    "Webparse.C100_violated_extension",
    "Webparse.C100_violated_clone",
    "Webparse.C100_into",
    "Webparse.C100_parts_iff_partial",
    "Webparse.C100_violated_parts",
    "Webparse.C100_binary_partial",
    "Webparse.C100_violated_error"
   ],
   "note": "replace_clone copies of the extensions only the header table: the copy is a copy exactly if nothing else is stored (C100_request_iff_partial, C100_response_iff_partial) and loses every other extension (C100_violated_extension). from_parts forgets that a response is incomplete (C100_parts_iff_partial). into_binary drops the error of a body that cannot be serialized and sends what was written until then (C100_violated_error); C100_binary_partial is the other case, C100_into the claim about into."
  },
  {
   "property": "C101",
   "status": "proved",
   "theorems": [
    "Webparse.C101_present",
    "Webparse.C101_absent",
    "Webparse.C101_assign"
   ],
   "note": "C101_present, C101_absent and C101_assign prove all of it."
  },
  {
   "property": "C102",
   "status": "partial",
   "theorems": [
    "Webparse.C102_read_iff_partial",
    "Webparse.C102_violated",
    "Webparse.C102_pong",
    "Webparse.C102_ping",
    "Webparse.C102_settings_ack"
   ],
   "note": "C102_pong, C102_ping and C102_settings_ack prove the claims about answers. What is read as a PING is not always a frame of eight bytes: with the flag 0x8, which means nothing for PING, the first of nine bytes is thrown away as a pad length; C102_read_iff_partial has exactly the streams from which a PING is read."
  },
  {
   "property": "C103",
   "status": "partial",
   "theorems": [
    "Webparse.C103_u64",
    "Webparse.C103_u64_short",
    "Webparse.C103_u64_back",
    "Webparse.C103_streamId",
    "Webparse.C103_streamId_iff",
    "Webparse.C103_streamId_short",
    "Webparse.C103_u24",
    "Webparse.C103_increment_partial",
    "Webparse.C103_violated_increment",
    "Webparse.C103_errorCode_iff_partial",
    "Webparse.C103_violated_numbers",
    "Webparse.C103_violated_frame",
    "Webparse.C103_violated_serialize"
   ],
   "note": "True of stream identifiers (C103_streamId, C103_streamId_iff: exactly those below 2^31) and lengths (C103_u24). A size increment keeps the reserved bit (C103_violated_increment; C103_increment_partial otherwise). ErrorCode::parse gives 0 whatever is there, so a code comes back exactly if it is 0 (C103_errorCode_iff_partial). Serialize for Frame writes nothing, and encoded_len is 0, for every frame (C103_violated_frame)."
  },
  {
   "property": "C104",
   "status": "partial",
   "theorems": [
    "Webparse.C104_http1_partial",
    "Webparse.C104_violated_http2",
    "Webparse.C104_violated_ws",
    "Webparse.C104_violated"
   ],
   "note": "True of heads and chunks (C104_http1_partial). False of frame headers, where no error is partial (C104_violated_http2), and of WebSocket frames, where a prefix gives an I/O error (C104_violated_ws)."
  },
  {
   "property": "C105",
   "status": "partial",
   "theorems": [
    "Webparse.C105_iff_partial",
    "Webparse.C105_last_partial",
    "Webparse.C105_length_partial",
    "Webparse.C105_chunked_partial",
    "Webparse.C105_violated_untilClose",
    "Webparse.C105_violated_noContent",
    "Webparse.C105_violated_coding",
    "Webparse.C105_violated"
   ],
   "note": "What the two functions say of every accepted head is C105_last_partial. They agree with RFC 9112 for one numeral in Content-Length (C105_length_partial) and for chunked in lower case (C105_chunked_partial). A body that ends with the connection is said to be empty (C105_violated_untilClose), a 304 with Content-Length is said to have a body (C105_violated_noContent), gzip after chunked is said to be chunked (C105_violated_coding). Exact for responses that may have a body (C105_iff_partial)."
  },
  {
   "property": "C106",
   "status": "partial",
   "theorems": [
    "Webparse.C106_origin_iff_partial",
    "Webparse.C106_unique_partial",
    "Webparse.C106_violated_path",
    "Webparse.C106_violated_port",
    "Webparse.C106_violated_escape",
    "Webparse.C106_violated_unique",
    "Webparse.C106_violated",
    "Webparse.C106_violated_second",
    "Webparse.C106_absolute_iff_partial",
    "Webparse.C106_read_iff_partial"
   ],
   "note": "An origin-form URL equals its text exactly if the spelling is canonical (C106_origin_iff_partial), an absolute URL exactly if user, password, path and query are spelled canonically, the host has no escapes, the port is written exactly if the scheme does not imply it and the path is written (C106_absolute_iff_partial); a text equal to a URL that text can carry is read as that URL exactly if its parts have no separators (C106_read_iff_partial), and for such URLs the text determines the URL (C106_unique_partial). Otherwise a URL without a path or with the port 80 written out never equals its own text (C106_violated_path, C106_violated_port), and two URLs with different hosts equal the same text (C106_violated_unique)."
  },
  {
   "property": "C107",
   "status": "partial",
   "theorems": [
    "Webparse.C107_violated_built",
    "Webparse.C107_built_partial",
    "Webparse.C107_violated_ready",
    "Webparse.C107_length_partial",
    "Webparse.C107_ready_iff_partial",
    "Webparse.C107_violated"
   ],
   "note": "Every ready-made response with a body that is not empty is received with an empty body, and the body is read as the next response (C107_violated_ready, C107_ready_iff_partial); so is every built response without a framing field (C107_violated_built). With the right Content-Length the body arrives (C107_built_partial, C107_length_partial)."
  },
  {
   "property": "C108",
   "status": "partial",
   "theorems": [
    "Webparse.C108_violated_lost",
    "Webparse.C108_length_partial",
    "Webparse.C108_length_iff_partial",
    "Webparse.C108_violated_short",
    "Webparse.C108_violated_chunked",
    "Webparse.C108_violated_lost_response",
    "Webparse.C108_response_iff_partial",
    "Webparse.C108_violated",
    "Webparse.C108_response_violated"
   ],
   "note": "A request whose only framing field is Content-Length arrives with its body exactly if that is the length of the body, which the code does not check (C108_length_iff_partial, for responses C108_response_iff_partial). Without Content-Length, which HTTP/2 allows, every body is read as the next request (C108_violated_lost, C108_violated_lost_response); a smaller Content-Length or transfer-encoding: chunked makes the end of the body the next request (C108_violated_short, C108_violated_chunked)."
  },
  {
   "property": "C109",
   "status": "partial",
   "theorems": [
    "Webparse.C109_iff_partial",
    "Webparse.C109_violated_split",
    "Webparse.C109_printable_partial",
    "Webparse.C109_response",
    "Webparse.C109_violated"
   ],
   "note": "Responses: proved (C109_response). Requests: any two requests can be put into the escaped target of one, which is accepted and is written as these two (C109_violated_split). With a printable path, what is accepted again has the method, version, headers and body it had (C109_printable_partial); which accepted requests are read back with their path and query, exactly: C109_iff_partial."
  },
  {
   "property": "C110",
   "status": "partial",
   "theorems": [
    "Webparse.C110_names",
    "Webparse.C110_debug",
    "Webparse.C110_display_iff_partial",
    "Webparse.C110_violated_display",
    "Webparse.C110_errors_iff_partial",
    "Webparse.C110_violated_errors"
   ],
   "note": "Codes, names and Debug: proved (C110_names, C110_debug). Display prints all unknown codes alike (C110_display_iff_partial), and all HTTP/2 errors, and WebSocket protocol errors, as nothing (C110_errors_iff_partial)."
  },
  {
   "property": "C111",
   "status": "partial",
   "theorems": [
    "Webparse.C111_total",
    "Webparse.C111_order_partial",
    "Webparse.C111_violated_equal",
    "Webparse.C111_violated_eq",
    "Webparse.C111_violated_order"
   ],
   "note": "The order is total and agrees with equality (C111_total); weights fall and with distinct weights the order is determined (C111_order_partial). Frames of one weight are equal whatever they are, and may leave in any order (C111_violated_equal)."
  },
  {
   "property": "C112",
   "status": "proved",
   "theorems": [
    "Webparse.C112_request_word",
    "Webparse.C112_response_word",
    "Webparse.C112_request_not_response",
    "Webparse.C112_response_not_request",
    "Webparse.C112_magic",
    "Webparse.C112_preface",
    "Webparse.C112_preface_start",
    "Webparse.C112_accepted"
   ],
   "note": "Proved."
  },
  {
   "property": "C113",
   "status": "proved",
   "theorems": [
    "Webparse.C113_url",
    "Webparse.C113_response",
    "Webparse.C113_request",
    "Webparse.C113_sharp",
    "Webparse.C113_chunk",
    "Webparse.C113_frame"
   ],
   "note": "Proved. C113_sharp gives, for every k, a request head of k + 25 bytes whose headers and URL take 4k + 9."
  },
  {
   "property": "C114",
   "status": "partial",
   "theorems": [
    "Webparse.C114_settles_partial",
    "Webparse.C114_origin_iff_partial",
    "Webparse.C114_percent_partial",
    "Webparse.C114_violated_host",
    "Webparse.C114_violated_passes",
    "Webparse.C114_violated_user",
    "Webparse.C114_violated_path",
    "Webparse.C114_violated"
   ],
   "note": "Violated: the host is decoded when read and not encoded when displayed, so http://%2541/ shows the host %41, read again it is A; for every n there is a text whose host still changes at the n-th reading. An @ escaped in the path turns the host into a user name, and escaped separators change the credentials. Partial: it settles for URLs text can carry with no separators in the user information and no @ in path and query (a ? in the path does no harm); exact for origin-form URLs, and the host may then have no %."
  },
  {
   "property": "C115",
   "status": "proved",
   "theorems": [
    "Webparse.C115_table",
    "Webparse.C115_own_limit",
    "Webparse.C115_understood"
   ],
   "note": "Proved. C115_table ties the table after a call to the one Frame.parse returns; the same model gives C12_table_after and C58_table_after (the invariant also after errors)."
  },
  {
   "property": "C116",
   "status": "partial",
   "theorems": [
    "Webparse.C116_bytes",
    "Webparse.C116_iff_partial",
    "Webparse.C116_ascii_partial",
    "Webparse.C116_others_partial",
    "Webparse.C116_violated",
    "Webparse.C116_roundtrip"
   ],
   "note": "Violated: the long s and nine other characters have their upper case in ASCII, so `po\u017ft` is POST and `opt\u0131on\u017f` is OPTIONS (C116_violated). Exact: the texts read as a method are those that spell its name with such characters (C116_iff_partial); as stated for all texts in ASCII and for all methods but POST and OPTIONS. The values of Unicode's mapping into ASCII are trusted (hypothesis UnicodeUpper); the rest of the mapping is left open."
  },
  {
   "property": "C117",
   "status": "partial",
   "theorems": [
    "Webparse.C117_iff_partial",
    "Webparse.C117_injective_partial",
    "Webparse.C117_roundtrip_partial",
    "Webparse.C117_request_partial",
    "Webparse.C117_violated_connect",
    "Webparse.C117_violated"
   ],
   "note": "Violated: without a scheme the port is dropped, so the authority of every CONNECT request is the host alone, whatever the port (C117_violated_connect). Exact: it holds if and only if the URL has a scheme (C117_iff_partial), which every other accepted request has (C117_request_partial). Then the authority determines host and port and is read back as them."
  },
  {
   "property": "C118",
   "status": "partial",
   "theorems": [
    "Webparse.C118_violated",
    "Webparse.C118_request_iff_partial",
    "Webparse.C118_response_iff_partial",
    "Webparse.C118_discouraged"
   ],
   "note": "Violated: TRACE, whose requests must have no content, is said to have a body, and OPTIONS, which may have content both ways, is said to have none (C118_violated). Exact: those are the only methods where it errs (C118_request_iff_partial, C118_response_iff_partial)."
  },
  {
   "property": "C119",
   "status": "partial",
   "theorems": [
    "Webparse.C119_right",
    "Webparse.C119_violated",
    "Webparse.C119_token_iff_partial",
    "Webparse.C119_uri_iff_partial",
    "Webparse.C119_reason_iff_partial",
    "Webparse.C119_no_controls"
   ],
   "note": "Violated: is_token lets all delimiters through, is_uri_token seven characters that no URI has, and is_status_token lacks the tab and obs-text of reason phrases (C119_violated). Exact: those are the only differences; the other five classes agree (C119_right)."
  },
  {
   "property": "C120",
   "status": "partial",
   "theorems": [
    "Webparse.C120_literals_are_indexed",
    "Webparse.C120_violated_always",
    "Webparse.C120_violated",
    "Webparse.C120_secret_is_stored",
    "Webparse.C120_received_partial",
    "Webparse.C120_marks_are_lost"
   ],
   "note": "Violated for every block with such a literal, whatever is sent: the encoder writes only indexed fields and literals with incremental indexing (C120_literals_are_indexed, C120_violated_always), the value is in the dynamic table once it has been sent (C120_secret_is_stored), and the decoder gives the same result with and without the marks (C120_marks_are_lost). Partial: the decoder does not store what it receives so (C120_received_partial)."
  },
  {
   "property": "C121",
   "status": "partial",
   "theorems": [
    "Webparse.C121_heard_partial",
    "Webparse.C121_violated_larger",
    "Webparse.C121_violated",
    "Webparse.C121_iff_partial",
    "Webparse.C121_never_announced",
    "Webparse.C121_violated_silent"
   ],
   "note": "Violated: for every table made larger than it was at first (32 octets or more) a field is not heard the second time (C121_violated_larger), and no size update is ever written (C121_never_announced, C121_violated_silent). Partial and exact: all histories are heard if and only if no size above the first one is set (C121_heard_partial, C121_iff_partial)."
  },
  {
   "property": "C122",
   "status": "partial",
   "theorems": [
    "Webparse.C122_heard_partial",
    "Webparse.C122_violated_received",
    "Webparse.C122_violated_sent",
    "Webparse.C122_violated"
   ],
   "note": "Violated, for all fields of new names that fit: this side gets its own field in place of the one that the peer meant (C122_violated_received), and the peer hears another field than the one sent (C122_violated_sent). Partial: if the peer never asks for a field to be stored, both sides agree on everything, for all histories (C122_heard_partial)."
  },
  {
   "property": "C123",
   "status": "partial",
   "theorems": [
    "Webparse.C123_linear_partial",
    "Webparse.C123_single_partial",
    "Webparse.C123_violated_torn",
    "Webparse.C123_violated",
    "Webparse.C123_alone_partial"
   ],
   "note": "Violated, for all fields of new names that fit: two threads of two headers each can write blocks of which no order can be read (C123_violated_torn). Partial: for all interleavings nothing panics and the headers taken one by one can be ordered (C123_linear_partial), which is enough if no block has more than one header (C123_single_partial); a thread that is not interrupted does what Encoder::encode does on its own (C123_alone_partial). Memory ordering and the RwLock itself are trusted."
  },
  {
   "property": "C124",
   "status": "partial",
   "theorems": [
    "Webparse.C124_string_partial",
    "Webparse.C124_bound_partial",
    "Webparse.C124_text_partial",
    "Webparse.C124_violated_value",
    "Webparse.C124_violated"
   ],
   "note": "Violated: strings are always written in Huffman code, and bytes outside ASCII take 19 bits or more, so every such value that is long enough makes the block longer than the list (C124_violated_value). Partial: exact length of every string (C124_string_partial), at most the size of the list if code words take eight bits or less on the whole (C124_text_partial), at most four times that size for every list (C124_bound_partial)."
  },
  {
   "property": "C125",
   "status": "partial",
   "theorems": [
    "Webparse.C125_iff_partial",
    "Webparse.C125_violated_copies",
    "Webparse.C125_violated"
   ],
   "note": "Violated for every field whose name is in the static table with other values (cookie, user-agent, :authority and so on): it is written as a literal and stored again each time (C125_violated_copies, for any number of times). Partial: exactly the other fields are sent again as an index (C125_iff_partial)."
  },
  {
   "property": "C126",
   "status": "partial",
   "theorems": [
    "Webparse.C126_violated_always",
    "Webparse.C126_violated_one",
    "Webparse.C126_violated",
    "Webparse.C126_new_partial",
    "Webparse.C126_parts_partial"
   ],
   "note": "Violated always: values are joined with a semicolon, so for every field and value the elements read are not those sent (C126_violated_always), and values without commas become one element (C126_violated_one). Partial: a first push (C126_new_partial) and fields with parts between semicolons, as Cookie, are right for any number of values (C126_parts_partial). Quoted strings are not looked at in the specification of lists."
  },
  {
   "property": "C127",
   "status": "partial",
   "theorems": [
    "Webparse.C127_response_iff_partial",
    "Webparse.C127_request_iff_partial",
    "Webparse.C127_utf8_partial",
    "Webparse.C127_tokens_partial",
    "Webparse.C127_violated_response",
    "Webparse.C127_violated_request",
    "Webparse.C127_violated",
    "Webparse.C127_status_partial"
   ],
   "note": "Violated by every response and request of which a header value is not UTF-8 (C127_violated_response, C127_violated_request): the class of header values has all bytes but CR. Partial: a head that is UTF-8 is safe (C127_utf8_partial), an accepted head is safe only if it is (C127_response_iff_partial, C127_request_iff_partial), schemes and chunk sizes are always safe (C127_tokens_partial), and so is the lookup of status codes (C127_status_partial)."
  },
  {
   "property": "C128",
   "status": "partial",
   "theorems": [
    "Webparse.C128_one_text",
    "Webparse.C128_text_utf8",
    "Webparse.C128_check",
    "Webparse.C128_url_decode",
    "Webparse.C128_header_value",
    "Webparse.C128_header_name",
    "Webparse.C128_host",
    "Webparse.C128_message",
    "Webparse.C128_violated",
    "Webparse.C128_apart_partial",
    "Webparse.C128_url_apart_partial"
   ],
   "note": "The text is the specified one everywhere (C128_url_decode, C128_header_value, C128_header_name, C128_host, C128_message). The second sentence is violated by %FF and %FE (C128_violated); it holds for given bytes exactly if these are UTF-8 without U+FFFD (C128_apart_partial, C128_url_apart_partial)."
  },
  {
   "property": "C129",
   "status": "partial",
   "theorems": [
    "Webparse.C129_violated_always",
    "Webparse.C129_request_iff_partial",
    "Webparse.C129_response_iff_partial",
    "Webparse.C129_read_only_partial",
    "Webparse.C129_violated"
   ],
   "note": "Violated by every parse into an object with extensions, system values or a body (C129_violated_always, C129_violated): parse_buffer resets the head only. Exactly when the outcome is that of a new object: C129_request_iff_partial, C129_response_iff_partial. For the head see C60."
  },
  {
   "property": "C130",
   "status": "partial",
   "theorems": [
    "Webparse.C130_violated_order",
    "Webparse.C130_violated_names",
    "Webparse.C130_violated",
    "Webparse.C130_symmetric_partial",
    "Webparse.C130_iff_partial",
    "Webparse.C130_lookup_partial",
    "Webparse.C130_clear_iff_partial",
    "Webparse.C130_system",
    "Webparse.C130_whole_iff_partial"
   ],
   "note": "Violated by the order of insertion for any two names (C130_violated_order), by ambiguous names, for which == is not transitive (C130_violated_names), and by clear, which keeps system values (C130_clear_iff_partial). Exactly what == means for unambiguous names: C130_whole_iff_partial, C130_iff_partial, C130_lookup_partial. Reflexive and symmetric for all: C130_symmetric_partial."
  },
  {
   "property": "C131",
   "status": "partial",
   "theorems": [
    "Webparse.C131_any",
    "Webparse.C131_remove_iff_partial",
    "Webparse.C131_violated_remove",
    "Webparse.C131_violated",
    "Webparse.C131_reread_iff_partial",
    "Webparse.C131_first_last_partial",
    "Webparse.C131_values",
    "Webparse.C131_names_kept_partial"
   ],
   "note": "Violated: any list of headers can be made, with a name several times (C131_any), and then remove leaves one (C131_violated_remove). Exactly when a removed name is gone: C131_remove_iff_partial; exactly when a clean map is read back: C131_reread_iff_partial; otherwise the writer sees the first value and the reader the last: C131_first_last_partial. Changes of values only are right: C131_values, C131_names_kept_partial."
  },
  {
   "property": "C132",
   "status": "partial",
   "theorems": [
    "Webparse.C132_exact_partial",
    "Webparse.C132_violated_always",
    "Webparse.C132_violated",
    "Webparse.C132_square_partial",
    "Webparse.C132_insert_exact",
    "Webparse.C132_few_names_partial"
   ],
   "note": "Violated for every factor by lines that are all accepted (C132_violated_always): k lines with different names need k(k-1)/2 comparisons (C132_exact_partial). For any bytes the square of their number is not exceeded (C132_square_partial), and with names among d given ones d comparisons for each line are not exceeded (C132_few_names_partial). What one insert compares: C132_insert_exact. Only comparisons of names are counted, not the time of each."
  },
  {
   "property": "C133",
   "status": "partial",
   "theorems": [
    "Webparse.C133_written_iff_partial",
    "Webparse.C133_frame_iff_partial",
    "Webparse.C133_violated_control",
    "Webparse.C133_violated_reserved",
    "Webparse.C133_message_written_partial",
    "Webparse.C133_message_iff_partial",
    "Webparse.C133_built_partial",
    "Webparse.C133_violated_code",
    "Webparse.C133_violated_status",
    "Webparse.C133_violated",
    "Webparse.C133_owned_iff_partial"
   ],
   "note": "Violated: control frames said not to be the last are written, and the reader of the same crate refuses them (C133_violated_control); reserved bits and unknown opcodes are written (C133_violated_reserved), and so are close codes that must not be sent (C133_violated_code). The status code is written before the data of messages of every type (C133_violated_status). Partial, exact: what is written and refused (C133_written_iff_partial, C133_message_written_partial), and which of it may be sent (C133_frame_iff_partial, C133_message_iff_partial, C133_owned_iff_partial)."
  },
  {
   "property": "C134",
   "status": "partial",
   "theorems": [
    "Webparse.C134_response_iff_partial",
    "Webparse.C134_request_iff_partial",
    "Webparse.C134_response_only_partial",
    "Webparse.C134_request_only_partial",
    "Webparse.C134_violated_octets",
    "Webparse.C134_violated_version",
    "Webparse.C134_violated_injection",
    "Webparse.C134_violated",
    "Webparse.C134_violated_path"
   ],
   "note": "Violated: values with NUL, a lone LF and the like are written and read back by the crate, but no receiver that follows RFC 9112 can read the head (C134_violated_octets); a value with CR LF is heard as two fields (C134_violated_injection), a path with a space ends the request line (C134_violated_path), and messages of HTTP/2 and HTTP/3 get a start line of no HTTP/1 version (C134_violated_version). Exact: C134_response_iff_partial, C134_request_iff_partial. Nothing else is heard if names are tokens and values have no CR: C134_response_only_partial, C134_request_only_partial."
  },
  {
   "property": "C135",
   "status": "partial",
   "theorems": [
    "Webparse.C135_heard_partial",
    "Webparse.C135_whole_partial",
    "Webparse.C135_iff_partial",
    "Webparse.C135_violated_always",
    "Webparse.C135_violated"
   ],
   "note": "Violated by each empty piece: it is written as the last chunk, so the body ends there and what was written after it is taken for the next message (C135_violated_always, C135_heard_partial, exact). Holds exactly if no piece is empty (C135_iff_partial, C135_whole_partial)."
  },
  {
   "property": "C136",
   "status": "partial",
   "theorems": [
    "Webparse.C136_heard_partial",
    "Webparse.C136_one_iff_partial",
    "Webparse.C136_violated_smuggled",
    "Webparse.C136_violated"
   ],
   "note": "Violated: http1_data writes any body after any head, so the body of a request whose fields announce none is heard as a request of its own, and only so (C136_violated_smuggled). Holds, with no other reading, for requests that RFC 9112 allows and whose fields announce the body (C136_heard_partial); for one request that is exact (C136_one_iff_partial). Missing for lists: that no list with a wrongly announced body is heard as meant."
  },
  {
   "property": "C137",
   "status": "partial",
   "theorems": [
    "Webparse.C137_heard_partial",
    "Webparse.C137_one_iff_partial",
    "Webparse.C137_violated_bodyless",
    "Webparse.C137_violated_unframed",
    "Webparse.C137_violated"
   ],
   "note": "Violated: a body is also written after a status that never has one, and is heard as the next response (C137_violated_bodyless); without Content-Length and Transfer-Encoding everything written later is heard as part of the body (C137_violated_unframed). Holds, with no other reading, for responses that RFC 9112 allows and whose status and fields announce the body (C137_heard_partial); for one response that is exact (C137_one_iff_partial). Missing for lists: that no other list is heard as meant."
  },
  {
   "property": "C138",
   "status": "partial",
   "theorems": [
    "Webparse.C138_heard_iff_partial",
    "Webparse.C138_violated_payload",
    "Webparse.C138_violated"
   ],
   "note": "Violated: messages that must not be sent (C133: codes like 1005, reasons and text that are not UTF-8) are written, and then the peer can make nothing of all the bytes (C138_violated_payload). Exact: something is heard if and only if all messages are masked as expected and may be sent, and then these and no others (C138_heard_iff_partial)."
  },
  {
   "property": "C139",
   "status": "partial",
   "theorems": [
    "Webparse.C139_agree_partial",
    "Webparse.C139_violated_smuggled",
    "Webparse.C139_violated"
   ],
   "note": "Violated: with a field `#ontent-Length` before Content-Length the body that a conforming server hears is the next request for this crate, whatever it is (C139_violated_smuggled). Partial: both hear the same if every request has a registered method, a readable target, spaces only before values, names that are not confused, and a body that is plain (C139_agree_partial). Missing: which other streams are also heard alike (method for method, the exact conditions on one message are in C73, C81 and C96)."
  },
  {
   "property": "C140",
   "status": "partial",
   "theorems": [
    "Webparse.C140_agree_partial",
    "Webparse.C140_violated_split",
    "Webparse.C140_violated"
   ],
   "note": "Violated for all responses whose body ends with the connection: the body is the next response for this crate, whatever it is (C140_violated_split). Partial: both hear the same if every response has a plain reason, spaces only before values, names that are not confused, and a body that is plain (C140_agree_partial). Missing: which other streams are also heard alike (the exact conditions on one message are in C73, C81 and C105)."
  },
  {
   "property": "C141",
   "status": "proved",
   "theorems": [
    "Webparse.C141_conforming_peer_heard",
    "Webparse.C141_nothing_else_heard"
   ],
   "note": "Proved: every conforming stream is taken to the end as its messages (C141_conforming_peer_heard), and a receiver that took all the bytes has these and no others (C141_nothing_else_heard). The loop that collects frames is the receiver of Spec/WsConnection.lean, since the crate leaves this to its user. That streams which do not conform are taken too is C83 and C84."
  },
  {
   "property": "C142",
   "status": "partial",
   "theorems": [
    "Webparse.C142_heard_iff_partial",
    "Webparse.C142_violated_mask",
    "Webparse.C142_violated",
    "Webparse.C142_violated_code"
   ],
   "note": "Violated: messages with the mask of the wrong direction are read (C142_violated_mask), as are close messages with codes that must not be sent (C142_violated_code). Exact: bytes are conforming messages if and only if each frame by itself may be sent, the receiver reads them to the end as these messages, and no close code is forbidden (C142_heard_iff_partial). So the order of fragments is always enforced. The receiver is the one of C82 and C141."
  }
 ]
}