{
 "claims": [
  {
   "property": "C01",
   "status": "proved",
   "theorems": [
    "Ngfs.Varint.C01_varint_round_trip",
    "Ngfs.Varint.C01_varint_canonical"
   ],
   "note": ""
  },
  {
   "property": "C02",
   "status": "proved",
   "theorems": [
    "Ngfs.Varint.C02_decode_ok_iff",
    "Ngfs.Varint.C02_decode_missing_iff",
    "Ngfs.Varint.C02_decode_misplaced_iff",
    "Ngfs.Varint.C02_decode_overflow_iff"
   ],
   "note": ""
  },
  {
   "property": "C03",
   "status": "partial",
   "theorems": [
    "Ngfs.Varint.C03_incremental_agrees_false",
    "Ngfs.Varint.C03_incremental_exact",
    "Ngfs.Varint.C03_incremental_agrees_partial",
    "Ngfs.Varint.C03_incremental_accepts_partial",
    "Ngfs.Varint.C03_incremental_pending_iff"
   ],
   "note": "False of the code at the tenth byte (C03_incremental_agrees_false). Proved: agreement on every input whose tenth byte is at most 1, acceptance of everything the slice decoder accepts, and the exact behaviour (value modulo 2^64) on all inputs."
  },
  {
   "property": "C04",
   "status": "proved",
   "theorems": [
    "Ngfs.Protobuf.C04_field_sequence_round_trip",
    "Ngfs.Protobuf.C04_writer_wire_format"
   ],
   "note": ""
  },
  {
   "property": "C05",
   "status": "proved",
   "theorems": [
    "Ngfs.Protobuf.C05_reader_exact",
    "Ngfs.Protobuf.C05_payload_in_bounds",
    "Ngfs.Protobuf.C05_end_exactly"
   ],
   "note": ""
  },
  {
   "property": "C06",
   "status": "partial",
   "theorems": [
    "Ngfs.Protobuf.C06_fixed64_byte_swapped_partial",
    "Ngfs.Protobuf.C06_fixed64_false",
    "Ngfs.Protobuf.C06_sfixed64_byte_swapped_partial",
    "Ngfs.Protobuf.C06_reader_little_endian"
   ],
   "note": "False of the code: the writer emits big-endian bytes and the reader expects little-endian (C06_fixed64_false). Proved: the value read back is exactly the byte-swapped value, and the reader itself is little-endian."
  },
  {
   "property": "C07",
   "status": "partial",
   "theorems": [
    "Ngfs.Protobuf.C07_fields_partial",
    "Ngfs.Protobuf.C07_fixed32_always_panics",
    "Ngfs.Protobuf.C07_fixed32_false",
    "Ngfs.Protobuf.C07_fixed32_read_partial"
   ],
   "note": "False of the code: the fixed32 writer panics on every value (C07_fixed32_always_panics, C07_fixed32_false). Proved: the reader side decodes little-endian 32-bit fields."
  },
  {
   "property": "C08",
   "status": "proved",
   "theorems": [
    "Ngfs.Protobuf.C08_fields_exact",
    "Ngfs.Protobuf.C08_scalar_round_trip",
    "Ngfs.Protobuf.C08_zigzag_decode",
    "Ngfs.Protobuf.C08_zigzag_bijective"
   ],
   "note": ""
  },
  {
   "property": "C09",
   "status": "proved",
   "theorems": [
    "Ngfs.Dagpb.C09_link_round_trip",
    "Ngfs.Dagpb.C09_node_round_trip",
    "Ngfs.Dagpb.C09_node_injective",
    "Ngfs.Dagpb.C09_parsed_node_stable"
   ],
   "note": ""
  },
  {
   "property": "C10",
   "status": "proved",
   "theorems": [
    "Ngfs.Bitswap.C10_entry_round_trip",
    "Ngfs.Bitswap.C10_entry_defaults",
    "Ngfs.Bitswap.C10_wantlist_round_trip",
    "Ngfs.Bitswap.C10_block_round_trip",
    "Ngfs.Bitswap.C10_message_round_trip",
    "Ngfs.Bitswap.C10_populated_round_trip"
   ],
   "note": ""
  },
  {
   "property": "C11",
   "status": "proved",
   "theorems": [
    "Ngfs.Identify.C11_identify_round_trip"
   ],
   "note": ""
  },
  {
   "property": "C12",
   "status": "proved",
   "theorems": [
    "Ngfs.Identify.C12_public_key_round_trip",
    "Ngfs.Identify.C12_accepts_exactly",
    "Ngfs.Identify.C12_missing_refused"
   ],
   "note": ""
  },
  {
   "property": "C13",
   "status": "proved",
   "theorems": [
    "Ngfs.Multibase.C13_multibase_round_trip",
    "Ngfs.Multibase.C13_base_recovered",
    "Ngfs.Multibase.C13_output_characters"
   ],
   "note": ""
  },
  {
   "property": "C14",
   "status": "proved",
   "theorems": [
    "Ngfs.Multibase.C14_accepts_exactly",
    "Ngfs.Multibase.C14_rejects"
   ],
   "note": ""
  },
  {
   "property": "C15",
   "status": "proved",
   "theorems": [
    "Ngfs.Cid.C15_bytes_round_trip",
    "Ngfs.Cid.C15_bytes_injective",
    "Ngfs.Cid.C15_parsed_is_valid",
    "Ngfs.Cid.C15_bytes_format",
    "Ngfs.Cid.C15_accepts_exactly"
   ],
   "note": ""
  },
  {
   "property": "C16",
   "status": "proved",
   "theorems": [
    "Ngfs.Cid.C16_text_round_trip",
    "Ngfs.Cid.C16_text_form"
   ],
   "note": ""
  },
  {
   "property": "C17",
   "status": "proved",
   "theorems": [
    "Ngfs.Multiaddr.C17_multiaddr_round_trip",
    "Ngfs.Multiaddr.C17_multiaddr_total",
    "Ngfs.Multiaddr.C17_multiaddr_stable",
    "Ngfs.Multiaddr.C17_multiaddr_format"
   ],
   "note": ""
  },
  {
   "property": "C18",
   "status": "proved",
   "theorems": [
    "Ngfs.Binary.C18_reads_in_bounds",
    "Ngfs.Binary.C18_nested_confined",
    "Ngfs.Binary.C18_depends_on_consumed_only",
    "Ngfs.Binary.C18_fixed_exact",
    "Ngfs.Binary.C18_nested_sees_only_its_bytes"
   ],
   "note": ""
  },
  {
   "property": "C19",
   "status": "proved",
   "theorems": [
    "Ngfs.Binary.C19_integers",
    "Ngfs.Binary.C19_integers_read",
    "Ngfs.Binary.C19_byte_strings",
    "Ngfs.Binary.C19_lists"
   ],
   "note": ""
  },
  {
   "property": "C20",
   "status": "partial",
   "theorems": [
    "Ngfs.Binary.C20_byte_strings",
    "Ngfs.Binary.C20_lists",
    "Ngfs.Binary.C20_nested_false",
    "Ngfs.Binary.C20_nested_partial",
    "Ngfs.Binary.C20_nested_announces_mod"
   ],
   "note": "False of the code for write_u16_nested, which truncates lengths above 65535 silently (C20_nested_false). Proved for the six length-prefixed byte-string and list writers; for write_u16_nested the part below 65536 and the exact announced value."
  },
  {
   "property": "C21",
   "status": "proved",
   "theorems": [
    "Ngfs.Binary.C21_round_trip",
    "Ngfs.Binary.C21_shortest",
    "Ngfs.Binary.C21_prefix_free",
    "Ngfs.Binary.C21_too_large_is_corrupted"
   ],
   "note": ""
  },
  {
   "property": "C22",
   "status": "proved",
   "theorems": [
    "Ngfs.Tls.C22_handshake_round_trip",
    "Ngfs.Tls.C22_handshake_injective",
    "Ngfs.Tls.C22_server_name_not_reread"
   ],
   "note": ""
  },
  {
   "property": "C23",
   "status": "proved",
   "theorems": [
    "Ngfs.Tls.C23_tables_match_standard",
    "Ngfs.Tls.C23_codes_round_trip",
    "Ngfs.Tls.C23_members_round_trip"
   ],
   "note": ""
  },
  {
   "property": "C24",
   "status": "proved",
   "theorems": [
    "Ngfs.Tls.C24_conservation",
    "Ngfs.Tls.C24_delivers_what_was_framed",
    "Ngfs.Tls.C24_delivers_all",
    "Ngfs.Tls.C24_chunking_irrelevant",
    "Ngfs.Tls.C24_answers",
    "Ngfs.Tls.C24_oversize_is_final",
    "Ngfs.Tls.C24_truncated_record"
   ],
   "note": ""
  },
  {
   "property": "C25",
   "status": "proved",
   "theorems": [
    "Ngfs.Tls.C25_round_trip",
    "Ngfs.Tls.C25_application_data",
    "Ngfs.Tls.C25_accepts",
    "Ngfs.Tls.C25_padding",
    "Ngfs.Tls.C25_accepts_only_authenticated",
    "Ngfs.Tls.C25_no_type_is_refused"
   ],
   "note": ""
  },
  {
   "property": "C26",
   "status": "proved",
   "theorems": [
    "Ngfs.Tls.C26_nonce_sequence",
    "Ngfs.Tls.C26_nonces_distinct",
    "Ngfs.Tls.C26_nonce_injective",
    "Ngfs.Tls.C26_handshake_one_record"
   ],
   "note": ""
  },
  {
   "property": "C27",
   "status": "proved",
   "theorems": [
    "Ngfs.Tls.C27_write_stream",
    "Ngfs.Tls.C27_flush_means_sent",
    "Ngfs.Tls.C27_write_progress",
    "Ngfs.Tls.C27_peer_reads"
   ],
   "note": ""
  },
  {
   "property": "C28",
   "status": "partial",
   "theorems": [
    "Ngfs.Tls.C28_false",
    "Ngfs.Tls.C28_end_of_stream_partial",
    "Ngfs.Tls.C28_truncation_is_an_error_partial"
   ],
   "note": "False of the code: an empty application data record is reported as end of stream (C28_false). Proved: end of stream is reported only after an authenticated close_notify or an authenticated empty data record, and a transport that ends with a cut record is an error."
  },
  {
   "property": "C29",
   "status": "proved",
   "theorems": [
    "Ngfs.Tls.C29_server_authenticated",
    "Ngfs.Tls.C29_no_trust_anchor"
   ],
   "note": ""
  },
  {
   "property": "C30",
   "status": "proved",
   "theorems": [
    "Ngfs.Tls.C30_only_legal_flights",
    "Ngfs.Tls.C30_legal_flight_accepted",
    "Ngfs.Tls.C30_error_is_final",
    "Ngfs.Tls.C30_transport_error"
   ],
   "note": ""
  },
  {
   "property": "C31",
   "status": "proved",
   "theorems": [
    "Ngfs.Mplex.C31_mplex_nothing_after_shutdown",
    "Ngfs.Tls.C31_shutdown_ends",
    "Ngfs.Tls.C31_ended_run",
    "Ngfs.Tls.C31_tls_nothing_after_shutdown"
   ],
   "note": "Proved for TLS connections and for multiplexed streams."
  },
  {
   "property": "C32",
   "status": "partial",
   "theorems": [
    "Ngfs.Asn1.C32_false",
    "Ngfs.Asn1.C32_oid_false",
    "Ngfs.Asn1.C32_encodes_der_partial",
    "Ngfs.Asn1.C32_decodes_der_partial",
    "Ngfs.Asn1.C32_decodes_any_der",
    "Ngfs.Asn1.C32_writes_back_partial",
    "Ngfs.Asn1.C32_round_trip_partial"
   ],
   "note": "False of the code: true is written as false (C32_false), and identifiers such as 2.47 come back changed (C32_oid_false). Proved: the writer produces the distinguished encoding of every other item, the reader decodes every distinguished encoding (including true) of items whose object identifiers have a second component below 40 and 64-bit numbers, and hence the round trip for these."
  },
  {
   "property": "C33",
   "status": "proved",
   "theorems": [
    "Ngfs.Bencode.C33_parses_encoding",
    "Ngfs.Bencode.C33_root_span",
    "Ngfs.Bencode.C33_prefix_free"
   ],
   "note": ""
  },
  {
   "property": "C34",
   "status": "proved",
   "theorems": [
    "Ngfs.Util.C34_parses_exactly",
    "Ngfs.Util.C34_accepts_exactly",
    "Ngfs.Util.C34_round_trip"
   ],
   "note": ""
  },
  {
   "property": "C35",
   "status": "proved",
   "theorems": [
    "Ngfs.Util.C35_pieces",
    "Ngfs.Util.C35_counts"
   ],
   "note": ""
  },
  {
   "property": "C36",
   "status": "proved",
   "theorems": [
    "Ngfs.Mplex.C36_frames_round_trip",
    "Ngfs.Mplex.C36_frames_exact",
    "Ngfs.Mplex.C36_complete_frame_returned"
   ],
   "note": ""
  },
  {
   "property": "C37",
   "status": "proved",
   "theorems": [
    "Ngfs.Mplex.C37_streams_exact",
    "Ngfs.Mplex.C37_history_faithful",
    "Ngfs.Mplex.C37_owed_is_readable",
    "Ngfs.Mplex.C37_nothing_withheld"
   ],
   "note": ""
  },
  {
   "property": "C38",
   "status": "proved",
   "theorems": [
    "Ngfs.Mplex.C38_ids_unique"
   ],
   "note": ""
  },
  {
   "property": "C39",
   "status": "proved",
   "theorems": [
    "Ngfs.Io.C39_select_exact",
    "Ngfs.Io.C39_negotiated",
    "Ngfs.Io.C39_no_header_no_protocol"
   ],
   "note": ""
  },
  {
   "property": "C40",
   "status": "proved",
   "theorems": [
    "Ngfs.Io.C40_read_exact",
    "Ngfs.Io.C40_takes_exactly_the_message",
    "Ngfs.Io.C40_waits_only_inside",
    "Ngfs.Io.C40_truncation_reported",
    "Ngfs.Io.C40_written",
    "Ngfs.Io.C40_round_trip",
    "Ngfs.Io.C40_varint_read",
    "Ngfs.Io.C40_varint_round_trip"
   ],
   "note": ""
  },
  {
   "property": "C41",
   "status": "partial",
   "theorems": [
    "Ngfs.Sim.C41_conserved",
    "Ngfs.Sim.C41_copies",
    "Ngfs.Sim.C41_in_order",
    "Ngfs.Sim.C41_false",
    "Ngfs.Sim.C41_disciplined_partial"
   ],
   "note": "Conservation and the order of consecutive receives are proved for every history. False: recv ignores the clock (C41_false); proved for callers that wait for the arrival time."
  },
  {
   "property": "C42",
   "status": "proved",
   "theorems": [
    "Ngfs.Dagpb.C42_listing_exact",
    "Ngfs.Dagpb.C42_listed_iff",
    "Ngfs.Dagpb.C42_lookup",
    "Ngfs.Dagpb.C42_refusal_reason",
    "Ngfs.Dagpb.C42_from_bytes"
   ],
   "note": ""
  },
  {
   "property": "C43",
   "status": "proved",
   "theorems": [
    "Ngfs.Bitswap.C43_block_cid_matches_iff",
    "Ngfs.Bitswap.C43_unsupported_refused",
    "Ngfs.Bitswap.C43_binding",
    "Ngfs.Bitswap.C43_prefix_parse"
   ],
   "note": ""
  },
  {
   "property": "C44",
   "status": "proved",
   "theorems": [
    "Ngfs.Quic.C44_standard",
    "Ngfs.Quic.C44_round_trip",
    "Ngfs.Quic.C44_inverse_round_trip",
    "Ngfs.Quic.C44_nothing_else_changes",
    "Ngfs.Quic.C44_too_short"
   ],
   "note": ""
  },
  {
   "property": "C45",
   "status": "partial",
   "theorems": [
    "Ngfs.Quic.C45_false",
    "Ngfs.Quic.C45_prefix_partial",
    "Ngfs.Quic.C45_complete_partial",
    "Ngfs.Quic.C45_order_independent_partial",
    "Ngfs.Quic.C45_disjoint_partial",
    "Ngfs.Quic.C45_next_partial"
   ],
   "note": "False as stated (C45_false): a frame that ends before the data already received does stops the program; so does every such frame (C45_next_partial). Proved for every arrival in which the program does not stop, and that it does not stop for disjoint frames; what the next frame does, unless it lets earlier frames follow."
  },
  {
   "property": "C46",
   "status": "partial",
   "theorems": [
    "Ngfs.Quic.C46_false",
    "Ngfs.Quic.C46_round_trip_partial",
    "Ngfs.Quic.C46_language",
    "Ngfs.Quic.C46_total"
   ],
   "note": "False as stated (C46_false): the original destination connection id is not recognised when read. Proved for all other parameters; the accepted language and totality are proved in full."
  },
  {
   "property": "C47",
   "status": "proved",
   "theorems": [
    "Ngfs.Pem.C47_pem_round_trip",
    "Ngfs.Pem.C47_lines"
   ],
   "note": ""
  },
  {
   "property": "C48",
   "status": "partial",
   "theorems": [
    "Ngfs.Pem.C48_false",
    "Ngfs.Pem.C48_terminates_partial",
    "Ngfs.Pem.C48_complete_partial"
   ],
   "note": "false as stated: a text cut inside the word BEGIN or END makes the decoder loop forever (expect_string does not stop at the end of the input); proved that exactly these texts do"
  },
  {
   "property": "C49",
   "status": "partial",
   "theorems": [
    "Ngfs.Torrent.C49_false",
    "Ngfs.Torrent.C49_tiles_partial",
    "Ngfs.Torrent.C49_conserved",
    "Ngfs.Torrent.C49_any_peer",
    "Ngfs.Torrent.C49_complete_partial",
    "Ngfs.Torrent.C49_large_pieces"
   ],
   "note": "False for accepted torrents with more pieces than their files need (underflow) and for pieces above 2^32 bytes (C49_false, C49_large_pieces); proved for all others"
  },
  {
   "property": "C50",
   "status": "partial",
   "theorems": [
    "Ngfs.Torrent.C50_false",
    "Ngfs.Torrent.C50_chunking",
    "Ngfs.Torrent.C50_received",
    "Ngfs.Torrent.C50_complete",
    "Ngfs.Torrent.C50_panics_partial",
    "Ngfs.Torrent.C50_handshake"
   ],
   "note": "False: requests, cancellations, port messages and short piece messages panic (C50_false). Framing, chunking, soundness and completeness are proved in full"
  },
  {
   "property": "C51",
   "status": "proved",
   "theorems": [
    "Ngfs.X509.C51_round_trip",
    "Ngfs.X509.C51_read",
    "Ngfs.X509.C51_parts",
    "Ngfs.X509.C51_unique_identifiers_lost"
   ],
   "note": ""
  },
  {
   "property": "C52",
   "status": "proved",
   "theorems": [
    "Ngfs.Sim.C52_delivered_prefix",
    "Ngfs.Sim.C52_acknowledged_received",
    "Ngfs.Sim.C52_stop_and_wait"
   ],
   "note": ""
  },
  {
   "property": "C53",
   "status": "partial",
   "theorems": [
    "Ngfs.Tls.C53_key_update_crashes",
    "Ngfs.Tls.C53_false",
    "Ngfs.Tls.C53_parse_total_partial",
    "Ngfs.Tls.C53_message_total_partial"
   ],
   "note": "False of the code: a KeyUpdate message (type 24) crashes the parser (C53_false). Proved for every other input."
  },
  {
   "property": "C54",
   "status": "partial",
   "theorems": [
    "Ngfs.Tls.C54_false",
    "Ngfs.Tls.C54_written_length_partial"
   ],
   "note": "False of the code: the reader ignores the announced length (C54_false). Proved: written messages announce their exact length."
  },
  {
   "property": "C55",
   "status": "partial",
   "theorems": [
    "Ngfs.Tls.C55_false",
    "Ngfs.Tls.C55_crash_in_handshake",
    "Ngfs.Tls.C55_right_length_partial"
   ],
   "note": "False of the code: a Finished message of another length than the hash trips an assertion (C55_false, C55_crash_in_handshake). Proved for every contents of the right length."
  },
  {
   "property": "C56",
   "status": "partial",
   "theorems": [
    "Ngfs.Tls.C56_false",
    "Ngfs.Tls.C56_flush_spins",
    "Ngfs.Tls.C56_flush_progress_partial"
   ],
   "note": "False of the code: flush asks again, without end (C56_false, C56_flush_spins). Proved: progress while the transport takes at least one byte per answer."
  },
  {
   "property": "C57",
   "status": "partial",
   "theorems": [
    "Ngfs.Tls.C57_false",
    "Ngfs.Tls.C57_error_state_is_permanent_partial"
   ],
   "note": "False of the code: record and decryption errors do not change the read state (C57_false). Proved: all other errors are permanent."
  },
  {
   "property": "C58",
   "status": "partial",
   "theorems": [
    "Ngfs.Tls.C58_false",
    "Ngfs.Tls.C58_delivered_on_next_event_partial"
   ],
   "note": "False of the code: a read asks the transport first (C58_false). Proved: the record is delivered on the next answer of the transport."
  },
  {
   "property": "C59",
   "status": "partial",
   "theorems": [
    "Ngfs.Tls.C59_false",
    "Ngfs.Tls.C59_name_is_ignored"
   ],
   "note": "False of the code: the certificate is never compared with the name (C59_false). Proved: the decision does not depend on the configured name."
  },
  {
   "property": "C60",
   "status": "proved",
   "theorems": [
    "Ngfs.Tls.C60_read_stream"
   ],
   "note": ""
  },
  {
   "property": "C61",
   "status": "proved",
   "theorems": [
    "Ngfs.Tls.C61_key_schedule"
   ],
   "note": ""
  },
  {
   "property": "C62",
   "status": "partial",
   "theorems": [
    "Ngfs.Tls.C62_false",
    "Ngfs.Tls.C62_one_message_per_record_partial"
   ],
   "note": "False of the code: only the first message of each record is seen (C62_false). Proved for one message per record."
  },
  {
   "property": "C63",
   "status": "proved",
   "theorems": [
    "Ngfs.Asn1.C63_total",
    "Ngfs.Asn1.C63_ranges",
    "Ngfs.Asn1.C63_slice"
   ],
   "note": ""
  },
  {
   "property": "C64",
   "status": "partial",
   "theorems": [
    "Ngfs.Asn1.C64_false",
    "Ngfs.Asn1.C64_exact_partial",
    "Ngfs.Asn1.C64_decoded_partial",
    "Ngfs.Asn1.C64_right_iff_partial"
   ],
   "note": "False of the code: bits above 64 of a component are dropped and 2.5.(2^64+3) is decoded as 2.5.3 (C64_false). Proved exactly what is decoded for every object identifier, and that it is right if and only if the second component is below 40 and the further components fit in 64 bits."
  },
  {
   "property": "C65",
   "status": "proved",
   "theorems": [
    "Ngfs.Bencode.C65_accepts_exactly",
    "Ngfs.Bencode.C65_parts",
    "Ngfs.Bencode.C65_total"
   ],
   "note": ""
  },
  {
   "property": "C66",
   "status": "proved",
   "theorems": [
    "Ngfs.Pem.C66_accepts_exactly",
    "Ngfs.Pem.C66_no_refusal",
    "Ngfs.Pem.C66_label_checked"
   ],
   "note": ""
  },
  {
   "property": "C67",
   "status": "proved",
   "theorems": [
    "Ngfs.Multibase.C67_standard_text",
    "Ngfs.Multibase.C67_standard_unique"
   ],
   "note": ""
  },
  {
   "property": "C68",
   "status": "proved",
   "theorems": [
    "Ngfs.Mplex.C68_written_is_framed",
    "Ngfs.Mplex.C68_history_faithful",
    "Ngfs.Mplex.C68_flush_delivers"
   ],
   "note": ""
  },
  {
   "property": "C69",
   "status": "partial",
   "theorems": [
    "Ngfs.Mplex.C69_false",
    "Ngfs.Mplex.C69_crash_exactly_partial",
    "Ngfs.Mplex.C69_only_crash_partial"
   ],
   "note": "False as stated (C69_false): a payload length close to 2^64 overflows the offset computation, and the poisoned lock spreads the panic to every stream. Proved: exactly which bytes do it."
  },
  {
   "property": "C70",
   "status": "partial",
   "theorems": [
    "Ngfs.Mplex.C70_false",
    "Ngfs.Mplex.C70_writes_delivered_partial"
   ],
   "note": "False as stated (C70_false): the Close frame is only buffered and the stream's own flush is refused afterwards. Proved: everything written before has been given to the transport and the buffer holds exactly the Close frame."
  },
  {
   "property": "C71",
   "status": "partial",
   "theorems": [
    "Ngfs.Mplex.C71_false",
    "Ngfs.Mplex.C71_end_partial"
   ],
   "note": "False as stated (C71_false): an empty Message reads as end of stream. Proved: an empty read means the transport ended or the last frame was for this stream and was a Close or empty."
  },
  {
   "property": "C72",
   "status": "partial",
   "theorems": [
    "Ngfs.Mplex.C72_false",
    "Ngfs.Mplex.C72_waits_only_partial"
   ],
   "note": "False as stated (C72_false): one frame slot is shared by all streams. Proved: a read waits only if no complete frame has arrived or the slot holds a frame for somebody else."
  },
  {
   "property": "C73",
   "status": "partial",
   "theorems": [
    "Ngfs.Mplex.C73_false",
    "Ngfs.Mplex.C73_kept_without_bound_partial",
    "Ngfs.Mplex.C73_complete_refused_partial"
   ],
   "note": "False as stated (C73_false): bytes with the high bit set are kept without bound. Proved: a complete invalid header or length is refused at once."
  },
  {
   "property": "C74",
   "status": "partial",
   "theorems": [
    "Ngfs.Io.C74_false",
    "Ngfs.Io.C74_names_partial"
   ],
   "note": "False: a list cut anywhere is returned as if complete (C74_false). Proved: which names are returned, exactly, for any input."
  },
  {
   "property": "C75",
   "status": "partial",
   "theorems": [
    "Ngfs.Io.C75_false",
    "Ngfs.Io.C75_served_partial"
   ],
   "note": "False: connection_handler2 always answers /ipfs/id/1.0.0 (C75_false). Proved: a service starts only for its exact registered name after the header; others are answered na; the remaining bytes are left for it."
  },
  {
   "property": "C76",
   "status": "partial",
   "theorems": [
    "Ngfs.Sim.C76_false",
    "Ngfs.Sim.C76_resends_exactly_partial",
    "Ngfs.Sim.C76_stuck_partial"
   ],
   "note": "False: the comparison with the timeout is inverted (C76_false). Proved: exactly when it sends again, and that after a missed timeout nothing happens for ever."
  },
  {
   "property": "C77",
   "status": "proved",
   "theorems": [
    "Ngfs.Quic.C77_round_trip",
    "Ngfs.Quic.C77_encrypts",
    "Ngfs.Quic.C77_accepts_only_sealed"
   ],
   "note": ""
  },
  {
   "property": "C78",
   "status": "partial",
   "theorems": [
    "Ngfs.Quic.C78_round_trip_partial",
    "Ngfs.Quic.C78_number_bound_partial",
    "Ngfs.Quic.C78_round_trip_iff_partial",
    "Ngfs.Quic.C78_make_initial",
    "Ngfs.Quic.C78_false"
   ],
   "note": "False as stated (C78_false): packet numbers of 2^32 and more. Proved for payloads below 16364 bytes that a packet is received as sent if and only if its number is below 2^32."
  },
  {
   "property": "C79",
   "status": "partial",
   "theorems": [
    "Ngfs.Quic.C79_false",
    "Ngfs.Quic.C79_initial_panics",
    "Ngfs.Quic.C79_only_these_partial",
    "Ngfs.Quic.C79_short_header",
    "Ngfs.Quic.C79_reader_safe"
   ],
   "note": "False as stated (C79_false): short headers, and Initial packets with a length field out of range. Proved that nothing else panics."
  },
  {
   "property": "C80",
   "status": "partial",
   "theorems": [
    "Ngfs.Quic.C80_false",
    "Ngfs.Quic.C80_ack_misread",
    "Ngfs.Quic.C80_language_partial"
   ],
   "note": "False as stated (C80_false): PING is expected as 0x02. With that value the accepted language is proved exactly."
  },
  {
   "property": "C81",
   "status": "partial",
   "theorems": [
    "Ngfs.Quic.C81_false",
    "Ngfs.Quic.C81_in_order_partial"
   ],
   "note": "False as stated (C81_false): offsets are ignored. Proved for frames in order without gaps."
  },
  {
   "property": "C82",
   "status": "partial",
   "theorems": [
    "Ngfs.Quic.C82_false",
    "Ngfs.Quic.C82_shortest_partial",
    "Ngfs.Quic.C82_same_meaning"
   ],
   "note": "False as stated (C82_false): integers are written in their shortest form. Proved for parameters received in the shortest form; in any case the meaning is preserved."
  },
  {
   "property": "C83",
   "status": "proved",
   "theorems": [
    "Ngfs.Quic.C83_standard",
    "Ngfs.Quic.C83_injective"
   ],
   "note": ""
  },
  {
   "property": "C84",
   "status": "proved",
   "theorems": [
    "Ngfs.Quic.C84_standard",
    "Ngfs.Quic.C84_stream_type"
   ],
   "note": ""
  },
  {
   "property": "C85",
   "status": "proved",
   "theorems": [
    "Ngfs.Quic.C85_padded",
    "Ngfs.Quic.C85_succeeds"
   ],
   "note": ""
  },
  {
   "property": "C86",
   "status": "partial",
   "theorems": [
    "Ngfs.Torrent.C86_false",
    "Ngfs.Torrent.C86_asked_for_partial"
   ],
   "note": "False: hashes are never looked at (C86_false). Proved: only blocks that were asked for, with the length asked for, are taken"
  },
  {
   "property": "C87",
   "status": "partial",
   "theorems": [
    "Ngfs.Torrent.C87_false",
    "Ngfs.Torrent.C87_protocol_partial"
   ],
   "note": "False: the info hash of the handshake is ignored (C87_false). Proved: the peer must begin with a handshake of this protocol"
  },
  {
   "property": "C88",
   "status": "proved",
   "theorems": [
    "Ngfs.Torrent.C88_sent",
    "Ngfs.Torrent.C88_unambiguous"
   ],
   "note": ""
  },
  {
   "property": "C89",
   "status": "partial",
   "theorems": [
    "Ngfs.Torrent.C89_false",
    "Ngfs.Torrent.C89_at_most_101_partial"
   ],
   "note": "False: the loop allows 101 (C89_false). Proved: at most 101"
  },
  {
   "property": "C90",
   "status": "proved",
   "theorems": [
    "Ngfs.Torrent.C90_never_idle",
    "Ngfs.Torrent.C90_completes"
   ],
   "note": ""
  },
  {
   "property": "C91",
   "status": "proved",
   "theorems": [
    "Ngfs.Torrent.C91_standard",
    "Ngfs.Torrent.C91_info_hash"
   ],
   "note": ""
  },
  {
   "property": "C92",
   "status": "partial",
   "theorems": [
    "Ngfs.Torrent.C92_single_file_refused",
    "Ngfs.Torrent.C92_no_announce_list_refused",
    "Ngfs.Torrent.C92_false",
    "Ngfs.Torrent.C92_accepted_partial"
   ],
   "note": "False: a file list and a list of trackers are demanded (C92_single_file_refused, C92_no_announce_list_refused). Proved for standard torrents that have both"
  },
  {
   "property": "C93",
   "status": "partial",
   "theorems": [
    "Ngfs.Torrent.C93_false",
    "Ngfs.Torrent.C93_overflow_partial",
    "Ngfs.Torrent.C93_total"
   ],
   "note": "False: lengths are added and multiplied unchecked (C93_false). Proved: nothing else panics"
  },
  {
   "property": "C94",
   "status": "proved",
   "theorems": [
    "Ngfs.Tracker.C94_command",
    "Ngfs.Tracker.C94_connect_request",
    "Ngfs.Tracker.C94_connect_response",
    "Ngfs.Tracker.C94_announce_request",
    "Ngfs.Tracker.C94_tool_request",
    "Ngfs.Tracker.C94_announce_response",
    "Ngfs.Tracker.C94_exchange",
    "Ngfs.Tracker.C94_tool_exchange"
   ],
   "note": ""
  },
  {
   "property": "C95",
   "status": "partial",
   "theorems": [
    "Ngfs.Tracker.C95_false",
    "Ngfs.Tracker.C95_connect_partial",
    "Ngfs.Tracker.C95_tool_false"
   ],
   "note": "False: the transaction of the announce response is not compared (C95_false). Proved for the connect response"
  },
  {
   "property": "C96",
   "status": "partial",
   "theorems": [
    "Ngfs.Tracker.C96_short_partial",
    "Ngfs.Tracker.C96_long",
    "Ngfs.Tracker.C96_false"
   ],
   "note": "False: datagrams are cut at 4096 bytes (C96_false). Proved up to that size, and that longer ones give the first 679 peers"
  },
  {
   "property": "C97",
   "status": "partial",
   "theorems": [
    "Ngfs.Tracker.C97_complete_partial",
    "Ngfs.Tracker.C97_panics",
    "Ngfs.Tracker.C97_false",
    "Ngfs.Tracker.C97_fewer_refused"
   ],
   "note": "False: the counts overflow, and all counted peers must be listed (C97_false, C97_fewer_refused). Proved for responses that list all peers they count; the panics are characterised exactly"
  },
  {
   "property": "C98",
   "status": "partial",
   "theorems": [
    "Ngfs.X509.C98_round_trip_partial",
    "Ngfs.X509.C98_no_critical_partial",
    "Ngfs.X509.C98_false"
   ],
   "note": "False of the code: the ASN.1 writer writes TRUE as 0, so a critical extension comes back as not critical (C98_false). Proved: everything but the critical flags comes back, and certificates without critical extensions come back unchanged."
  },
  {
   "property": "C99",
   "status": "partial",
   "theorems": [
    "Ngfs.X509.C99_accepted_partial",
    "Ngfs.X509.C99_false",
    "Ngfs.X509.C99_unique_identifier_refused",
    "Ngfs.X509.C99_junk_accepted"
   ],
   "note": "False of the code: names with several attributes in one component and unique identifiers are refused (C99_false, C99_unique_identifier_refused), and further elements in an extension are ignored (C99_junk_accepted). Proved: the exact set of structures that are accepted, with their meaning (C99_accepted_partial)."
  },
  {
   "property": "C100",
   "status": "proved",
   "theorems": [
    "Ngfs.X509.C100_accepted",
    "Ngfs.X509.C100_signed_accepted",
    "Ngfs.X509.C100_no_panic",
    "Ngfs.Tls.C100_handshake"
   ],
   "note": ""
  },
  {
   "property": "C101",
   "status": "partial",
   "theorems": [
    "Ngfs.X509.C101_false",
    "Ngfs.X509.C101_issuer_ignored"
   ],
   "note": "False of the code: verify_certificate looks only at the signature (C101_false). The part that holds (the signature) is C100."
  },
  {
   "property": "C102",
   "status": "proved",
   "theorems": [
    "Ngfs.X509.C102_generated",
    "Ngfs.X509.C102_one_key"
   ],
   "note": ""
  },
  {
   "property": "C103",
   "status": "proved",
   "theorems": [
    "Ngfs.X509.C103_generate"
   ],
   "note": ""
  },
  {
   "property": "C104",
   "status": "proved",
   "theorems": [
    "Ngfs.Chat.C104_faithful"
   ],
   "note": ""
  },
  {
   "property": "C105",
   "status": "proved",
   "theorems": [
    "Ngfs.Chat.C105_complete",
    "Ngfs.Chat.C105_last_words"
   ],
   "note": ""
  },
  {
   "property": "C106",
   "status": "partial",
   "theorems": [
    "Ngfs.Chat.C106_false",
    "Ngfs.Chat.C106_one_at_a_time_partial"
   ],
   "note": "False as stated (C106_false): two overlapping broadcasts can reach two clients in different orders. Proved when no two announcements are on their way at once."
  },
  {
   "property": "C107",
   "status": "proved",
   "theorems": [
    "Ngfs.Chat.C107_lines"
   ],
   "note": ""
  },
  {
   "property": "C108",
   "status": "partial",
   "theorems": [
    "Ngfs.Chat.C108_false",
    "Ngfs.Chat.C108_no_backslash_partial"
   ],
   "note": "False as stated (C108_false): escape_string leaves backslashes as they are, so a line end and a backslash followed by n look alike. Proved for texts without backslashes."
  },
  {
   "property": "C109",
   "status": "proved",
   "theorems": [
    "Ngfs.Chat.C109_not_held_up",
    "Ngfs.Chat.C109_let_go"
   ],
   "note": ""
  },
  {
   "property": "C110",
   "status": "partial",
   "theorems": [
    "Ngfs.Clock.C110_false",
    "Ngfs.Clock.C110_woken_partial",
    "Ngfs.Clock.C110_not_early"
   ],
   "note": "False: the time is compared and the waker stored under two separate locks, and a notification in between is lost (C110_false). Proved: no wait ends early; every wait ends if no time change falls between the two locks of a poll."
  },
  {
   "property": "C111",
   "status": "partial",
   "theorems": [
    "Ngfs.Proxy.C111_false",
    "Ngfs.Proxy.C111_forwards_partial"
   ],
   "note": "False for a buffer of size 0 (C111_false); proved for all others."
  },
  {
   "property": "C112",
   "status": "partial",
   "theorems": [
    "Ngfs.Proxy.C112_false",
    "Ngfs.Proxy.C112_end_partial"
   ],
   "note": "False: a broken connection is passed on as an orderly end (C112_false). Proved: the receiver sees an end exactly if the sender's connection ended or broke."
  },
  {
   "property": "C113",
   "status": "proved",
   "theorems": [
    "Ngfs.Download.C113_messages",
    "Ngfs.Download.C113_prefix",
    "Ngfs.Download.C113_parts"
   ],
   "note": ""
  },
  {
   "property": "C114",
   "status": "partial",
   "theorems": [
    "Ngfs.Download.C114_exact_partial",
    "Ngfs.Download.C114_false"
   ],
   "note": "False: the end of the connection inside the body of a message makes the reader loop for ever (C114_false). Proved: exactly then."
  },
  {
   "property": "C115",
   "status": "proved",
   "theorems": [
    "Ngfs.Download.C115_order",
    "Ngfs.Download.C115_decision"
   ],
   "note": ""
  },
  {
   "property": "C116",
   "status": "proved",
   "theorems": [
    "Ngfs.Download.C116_request"
   ],
   "note": ""
  },
  {
   "property": "C117",
   "status": "partial",
   "theorems": [
    "Ngfs.Download.C117_false",
    "Ngfs.Download.C117_reader_partial",
    "Ngfs.Download.C117_for_ever_partial"
   ],
   "note": "False: the writer goes on waiting for a command, and the program never ends (C117_false). Proved: the reader handles nothing more and returns; a program that is stuck then stays stuck."
  },
  {
   "property": "C118",
   "status": "partial",
   "theorems": [
    "Ngfs.Download.C118_false",
    "Ngfs.Download.C118_no_panic_partial"
   ],
   "note": "False: a message that arrives after sending failed panics (C118_false). Proved: only then."
  },
  {
   "property": "C119",
   "status": "partial",
   "theorems": [
    "Ngfs.Download.C119_handshake_partial",
    "Ngfs.Download.C119_false"
   ],
   "note": "False: the hash is not compared (C119_false). Proved: everything else."
  },
  {
   "property": "C120",
   "status": "proved",
   "theorems": [
    "Ngfs.Handler.C120_request",
    "Ngfs.Handler.C120_silent",
    "Ngfs.Handler.C120_bad_text"
   ],
   "note": ""
  },
  {
   "property": "C121",
   "status": "proved",
   "theorems": [
    "Ngfs.Handler.C121_shown",
    "Ngfs.Handler.C121_chunking"
   ],
   "note": ""
  },
  {
   "property": "C122",
   "status": "partial",
   "theorems": [
    "Ngfs.Handler.C122_false",
    "Ngfs.Handler.C122_honest_peer_partial"
   ],
   "note": "False: the identifier of a received block is not compared with the one asked for (C122_false). Proved: nothing else is shown if the peer sends nothing else."
  },
  {
   "property": "C123",
   "status": "partial",
   "theorems": [
    "Ngfs.Handler.C123_false",
    "Ngfs.Handler.C123_success_partial"
   ],
   "note": "False: a block that cannot be shown ends the handler without a shutdown (C123_false). Proved: success is reported exactly if the stream was flushed and shut down."
  },
  {
   "property": "C124",
   "status": "partial",
   "theorems": [
    "Ngfs.Handler.C124_false",
    "Ngfs.Handler.C124_directories_partial",
    "Ngfs.Handler.C124_first_other_partial"
   ],
   "note": "False: a block that is not a directory ends the handler (C124_false). Proved if all blocks are directories; otherwise proved exactly how much is shown: everything up to the first block that is not (C124_first_other_partial)."
  },
  {
   "property": "C125",
   "status": "proved",
   "theorems": [
    "Ngfs.Handler.C125_identified",
    "Ngfs.Handler.C125_client"
   ],
   "note": ""
  },
  {
   "property": "C126",
   "status": "proved",
   "theorems": [
    "Ngfs.Handler.C126_no_panic"
   ],
   "note": ""
  },
  {
   "property": "C127",
   "status": "proved",
   "theorems": [
    "Ngfs.Handler.C127_lookup",
    "Ngfs.Handler.C127_advertised"
   ],
   "note": ""
  },
  {
   "property": "C128",
   "status": "proved",
   "theorems": [
    "Ngfs.Mplex.C128_never_stranded"
   ],
   "note": ""
  },
  {
   "property": "C129",
   "status": "partial",
   "theorems": [
    "Ngfs.Mplex.C129_false",
    "Ngfs.Mplex.C129_lone_partial"
   ],
   "note": "False: an error is returned only to the task whose poll found it; the wakers of the others stay unused (C129_false). Proved if one task does all the receiving."
  },
  {
   "property": "C130",
   "status": "partial",
   "theorems": [
    "Ngfs.Mplex.C130_false",
    "Ngfs.Mplex.C130_alone_partial"
   ],
   "note": "False: the transport holds the waker of whoever polled last, and nobody takes over when that future is dropped (C130_false). Proved if whoever gives up is the only one waiting at that moment."
  },
  {
   "property": "C131",
   "status": "partial",
   "theorems": [
    "Ngfs.Mplex.C131_false",
    "Ngfs.Mplex.C131_lone_partial"
   ],
   "note": "False: there is no table of waiting writers, so only the last to poll is woken (C131_false). Proved if one task does all the sending."
  },
  {
   "property": "C132",
   "status": "proved",
   "theorems": [
    "Ngfs.Mplex.C132_end_to_end",
    "Ngfs.Mplex.C132_accepted_was_opened"
   ],
   "note": ""
  },
  {
   "property": "C133",
   "status": "proved",
   "theorems": [
    "Ngfs.Mplex.C133_all_arrives"
   ],
   "note": ""
  },
  {
   "property": "C134",
   "status": "proved",
   "theorems": [
    "Ngfs.Quic.C134_standard",
    "Ngfs.Quic.C134_lengths"
   ],
   "note": ""
  },
  {
   "property": "C135",
   "status": "partial",
   "theorems": [
    "Ngfs.Quic.C135_first_packet_partial",
    "Ngfs.Quic.C135_connects",
    "Ngfs.Quic.C135_answer",
    "Ngfs.Quic.C135_false"
   ],
   "note": "False in general (C135_false): once a packet has been sent under an identifier, packets addressed to that identifier are read with the server's keys. Proved when no earlier packet was sent under the identifier the client chose as destination."
  },
  {
   "property": "C136",
   "status": "partial",
   "theorems": [
    "Ngfs.Quic.C136_followed_panics",
    "Ngfs.Quic.C136_false",
    "Ngfs.Quic.C136_single_partial",
    "Ngfs.Quic.C136_only_these_partial"
   ],
   "note": "False (C136_false, C136_followed_panics): the data must be exactly one message that is written as it was read. Proved for a single legal message; what else can panic is characterised."
  },
  {
   "property": "C137",
   "status": "partial",
   "theorems": [
    "Ngfs.Quic.C137_part_dropped",
    "Ngfs.Quic.C137_one_packet_partial",
    "Ngfs.Quic.C137_false"
   ],
   "note": "False (C137_false, C137_part_dropped): the data of each packet is looked at alone. Proved for several frames of one packet."
  },
  {
   "property": "C138",
   "status": "proved",
   "theorems": [
    "Ngfs.Tls.C138_labels",
    "Ngfs.Tls.C138_session",
    "Ngfs.Tls.C138_same_key_same_handshake",
    "Ngfs.Tls.C138_four_keys",
    "Ngfs.Tls.C138_random"
   ],
   "note": ""
  },
  {
   "property": "C139",
   "status": "proved",
   "theorems": [
    "Ngfs.Detrand.C139_full_period",
    "Ngfs.Detrand.C139_low_bits",
    "Ngfs.Detrand.C139_prefix"
   ],
   "note": ""
  },
  {
   "property": "C140",
   "status": "partial",
   "theorems": [
    "Ngfs.Asn1.C140_false",
    "Ngfs.Asn1.C140_determines_partial",
    "Ngfs.Asn1.C140_one_line_each"
   ],
   "note": "False in general: backslashes in texts are not escaped (C140_false). Proved for texts without backslashes; one line per item proved in full."
  },
  {
   "property": "C141",
   "status": "proved",
   "theorems": [
    "Ngfs.Util.C141_determines",
    "Ngfs.Util.C141_layout"
   ],
   "note": ""
  },
  {
   "property": "C142",
   "status": "proved",
   "theorems": [
    "Ngfs.Echo.C142_echo",
    "Ngfs.Echo.C142_counters",
    "Ngfs.Echo.C142_progress"
   ],
   "note": ""
  },
  {
   "property": "C143",
   "status": "proved",
   "theorems": [
    "Ngfs.Multibase.C143_convert",
    "Ngfs.Multibase.C143_accepts",
    "Ngfs.Multibase.C143_list",
    "Ngfs.Multibase.C143_table"
   ],
   "note": ""
  },
  {
   "property": "C144",
   "status": "proved",
   "theorems": [
    "Ngfs.Tls.C144_shutdown_tells",
    "Ngfs.Tls.C144_transport_shut_down"
   ],
   "note": ""
  },
  {
   "property": "C145",
   "status": "proved",
   "theorems": [
    "Ngfs.Tls.C145_always_a_beginning",
    "Ngfs.Tls.C145_end_to_end"
   ],
   "note": ""
  },
  {
   "property": "C146",
   "status": "proved",
   "theorems": [
    "Ngfs.Multiaddr.C146_text_determines",
    "Ngfs.Multiaddr.C146_received"
   ],
   "note": ""
  },
  {
   "property": "C147",
   "status": "partial",
   "theorems": [
    "Ngfs.Multiaddr.C147_false",
    "Ngfs.Multiaddr.C147_other_protocols_partial",
    "Ngfs.Multiaddr.C147_ip_partial"
   ],
   "note": "False: IP addresses are shown as /ipv4/ and /ipv6/ (C147_false); what follows is as in the standard (C147_ip_partial). Proved for the other protocols."
  },
  {
   "property": "C148",
   "status": "proved",
   "theorems": [
    "Ngfs.Tls.C148_nobody_between"
   ],
   "note": ""
  },
  {
   "property": "C149",
   "status": "proved",
   "theorems": [
    "Ngfs.Spec.Stack.C149_streams_over_tls",
    "Ngfs.Spec.Stack.C149_accepted_was_opened"
   ],
   "note": ""
  },
  {
   "property": "C150",
   "status": "proved",
   "theorems": [
    "Ngfs.Tls.C150_options",
    "Ngfs.Tls.C150_authenticated"
   ],
   "note": ""
  },
  {
   "property": "C151",
   "status": "proved",
   "theorems": [
    "Ngfs.Tls.C151_shown"
   ],
   "note": ""
  },
  {
   "property": "C152",
   "status": "partial",
   "theorems": [
    "Ngfs.Tls.C152_algorithms_partial",
    "Ngfs.Tls.C152_false"
   ],
   "note": "False of the code: session id echo, compression method, supported_versions and the chosen application protocol are never looked at (C152_false: a server that answers \"h3\" to an offer of \"h2\" gets a connection). Proved: suite, key share and signature algorithm are among those offered."
  },
  {
   "property": "C153",
   "status": "partial",
   "theorems": [
    "Ngfs.View.C153_listings_partial",
    "Ngfs.View.C153_false"
   ],
   "note": "False of the code: a path with a newline is shown as two files (C153_false); the same for trackers. Proved for texts without newlines (and, for trackers, non-empty ones)."
  },
  {
   "property": "C154",
   "status": "partial",
   "theorems": [
    "Ngfs.View.C154_false",
    "Ngfs.View.C154_readable_partial"
   ],
   "note": "False of the code: strings are shown without quotes or escapes, so the text \"5\" is shown like the number (C154_false), \"list\" like an empty list, long binary data only by its length. Proved for values whose strings are one-line texts unlike these."
  },
  {
   "property": "C155",
   "status": "proved",
   "theorems": [
    "Ngfs.View.C155_summary"
   ],
   "note": ""
  },
  {
   "property": "C156",
   "status": "proved",
   "theorems": [
    "Ngfs.View.C156_status"
   ],
   "note": ""
  },
  {
   "property": "C157",
   "status": "partial",
   "theorems": [
    "Ngfs.Tls.C157_false",
    "Ngfs.Tls.C157_handshake_partial",
    "Ngfs.Tls.C157_connection_partial"
   ],
   "note": "False of the code: a KeyUpdate message in the clear, nine bytes that anybody can send, crashes the client (C157_false). Proved: only KeyUpdate, and in the handshake a Finished of another length than the hash, does so, and after the handshake only under the key of the server."
  },
  {
   "property": "C158",
   "status": "partial",
   "theorems": [
    "Ngfs.X509.C158_plain_names_partial",
    "Ngfs.X509.C158_false"
   ],
   "note": "False of the code: the texts of a name are printed as they are, so the common name \"x, O=y\" looks like two attributes (C158_false). Proved for names that have only attributes with a label and texts without commas and newlines; then the printout also determines dates, key algorithm, key length and extensions."
  },
  {
   "property": "C159",
   "status": "proved",
   "theorems": [
    "Ngfs.X509.C159_reliable"
   ],
   "note": ""
  },
  {
   "property": "C160",
   "status": "proved",
   "theorems": [
    "Ngfs.Tls.C160_honest_server_reached"
   ],
   "note": ""
  },
  {
   "property": "C161",
   "status": "proved",
   "theorems": [
    "Ngfs.Tls.C161_handshake_woken",
    "Ngfs.Tls.C161_read_woken",
    "Ngfs.Tls.C161_read_woken_anyway",
    "Ngfs.Tls.C161_write_woken",
    "Ngfs.Tls.C161_flush_woken",
    "Ngfs.Tls.C161_shutdown_woken",
    "Ngfs.Tls.C161_honest_server_reached"
   ],
   "note": ""
  },
  {
   "property": "C162",
   "status": "partial",
   "theorems": [
    "Ngfs.Tls.C162_reading_partial",
    "Ngfs.Tls.C162_silence_spins",
    "Ngfs.Tls.C162_handshake_partial",
    "Ngfs.Tls.C162_writing_partial",
    "Ngfs.Tls.C162_false"
   ],
   "note": "False of the code: a waiting read of an established connection wakes its own task each time it is polled, so that it is polled without end (C162_false, C162_silence_spins). Proved for the handshake (at most one wake-up per piece of data received, over any number of polls), for writes, flushes and shutdowns (none), and for reads the exact number."
  },
  {
   "property": "C163",
   "status": "proved",
   "theorems": [
    "Ngfs.Tls.C163_answer_shown"
   ],
   "note": ""
  },
  {
   "property": "C164",
   "status": "proved",
   "theorems": [
    "Ngfs.Producer.C164_join",
    "Ngfs.Producer.C164_exact"
   ],
   "note": ""
  },
  {
   "property": "C165",
   "status": "partial",
   "theorems": [
    "Ngfs.SelectTest.C165_false",
    "Ngfs.SelectTest.C165_partial",
    "Ngfs.SelectTest.C165_short_partial",
    "Ngfs.SelectTest.C165_no_wait_partial"
   ],
   "note": "False of the code: a datagram of more than 1024 bytes is cut (C165_false). Proved: the first 1024 bytes of everything that arrives are shown, in order and once; the full statement for datagrams that fit; the program waits only if both sockets are empty."
  },
  {
   "property": "C166",
   "status": "partial",
   "theorems": [
    "Ngfs.SelectTest.C166_false",
    "Ngfs.SelectTest.C166_first_partial",
    "Ngfs.SelectTest.C166_second_partial"
   ],
   "note": "False of the code: the first socket is always asked first, so that a steady stream there starves the second (C166_false). Proved: the first socket is never starved (one item for each round), and the second gets every round that the first does not need."
  },
  {
   "property": "C167",
   "status": "partial",
   "theorems": [
    "Ngfs.Sock.C167_false",
    "Ngfs.Sock.C167_partial",
    "Ngfs.Sock.C167_iotest"
   ],
   "note": "False of the code for --read-buf-size 0, where the end is reported at once (C167_false). Proved: for the socket tool with every other size (C167_partial), and for the I/O experiment without exception (C167_iotest)."
  },
  {
   "property": "C168",
   "status": "partial",
   "theorems": [
    "Ngfs.Sock.C168_false",
    "Ngfs.Sock.C168_read_partial"
   ],
   "note": "False of the code: the mode is parsed and never looked at (C168_false). Proved: in every mode nothing is written, that is, all modes do what the reading mode says."
  },
  {
   "property": "C169",
   "status": "partial",
   "theorems": [
    "Ngfs.Sock.C169_false",
    "Ngfs.Sock.C169_partial"
   ],
   "note": "False of the code: one write is made and its count is not looked at (C169_false). Proved: what is sent is a beginning of the message, all of it if the transport takes that much at once, and nothing if a failure is reported."
  },
  {
   "property": "C170",
   "status": "proved",
   "theorems": [
    "Ngfs.Threads.C170_printed",
    "Ngfs.Threads.C170_ends"
   ],
   "note": ""
  },
  {
   "property": "C171",
   "status": "proved",
   "theorems": [
    "Ngfs.Cli.C171_varint",
    "Ngfs.Cli.C171_cid",
    "Ngfs.Cli.C171_pbuf",
    "Ngfs.Cli.C171_no_panic"
   ],
   "note": ""
  },
  {
   "property": "C172",
   "status": "partial",
   "theorems": [
    "Ngfs.Tls.C172_false",
    "Ngfs.Tls.C172_key_owner_partial"
   ],
   "note": "False of the code: the extension is never looked at; a plain self-signed certificate is accepted (C172_false). Proved: the certificate is signed with its own key and that key has signed this handshake."
  },
  {
   "property": "C173",
   "status": "proved",
   "theorems": [
    "Ngfs.Ipfs.C173_connected",
    "Ngfs.Ipfs.C173_in_the_clear",
    "Ngfs.Ipfs.C173_reached"
   ],
   "note": ""
  },
  {
   "property": "C174",
   "status": "proved",
   "theorems": [
    "Ngfs.Ipfs.C174_nobody_between",
    "Ngfs.Ipfs.C174_asked",
    "Ngfs.Ipfs.C174_no_more_than_done"
   ],
   "note": ""
  },
  {
   "property": "C175",
   "status": "partial",
   "theorems": [
    "Ngfs.Io.C175_unsupported_partial",
    "Ngfs.Io.C175_identify_partial",
    "Ngfs.Io.C175_others_disagree",
    "Ngfs.Io.C175_false"
   ],
   "note": "False of the code: the acceptor always answers with the name of the identify protocol, so that for every other service it starts the service while the opener fails (C175_false, C175_others_disagree). Proved: agreement for identify and for protocols that are not offered, and that there is no deadlock."
  },
  {
   "property": "C176",
   "status": "proved",
   "theorems": [
    "Ngfs.Dagpb.C176_unixfs_exact",
    "Ngfs.Dagpb.C176_type_codes"
   ],
   "note": ""
  },
  {
   "property": "C177",
   "status": "proved",
   "theorems": [
    "Ngfs.Dagpb.C177_node_exact",
    "Ngfs.Dagpb.C177_link_exact"
   ],
   "note": ""
  },
  {
   "property": "C178",
   "status": "partial",
   "theorems": [
    "Ngfs.Bitswap.C178_message_partial",
    "Ngfs.Bitswap.C178_entry_partial",
    "Ngfs.Bitswap.C178_block_partial",
    "Ngfs.Bitswap.C178_false"
   ],
   "note": "False of the code: announcements (field 4) and pending bytes (field 5) are skipped, so that a peer's answer \"do not have\" is lost (C178_false). Proved: for requests and blocks the reading is exactly the one of the schema, in both directions, at every level of nesting."
  },
  {
   "property": "C179",
   "status": "proved",
   "theorems": [
    "Ngfs.Identify.C179_identify_exact",
    "Ngfs.Identify.C179_key_exact"
   ],
   "note": ""
  },
  {
   "property": "C180",
   "status": "proved",
   "theorems": [
    "Ngfs.Crypt.C180_module",
    "Ngfs.Crypt.C180_inverse",
    "Ngfs.Crypt.C180_ciphers_guarded",
    "Ngfs.Crypt.C180_tls",
    "Ngfs.Crypt.C180_tls_never_refused",
    "Ngfs.Crypt.C180_quic",
    "Ngfs.Crypt.C180_quic_never_refused",
    "Ngfs.Crypt.C180_quic_keys"
   ],
   "note": ""
  },
  {
   "property": "C181",
   "status": "proved",
   "theorems": [
    "Ngfs.Id.C181_equal",
    "Ngfs.Id.C181_order",
    "Ngfs.Id.C181_text",
    "Ngfs.Id.C181_stable",
    "Ngfs.Id.C181_counted",
    "Ngfs.Id.C181_reused"
   ],
   "note": ""
  },
  {
   "property": "C182",
   "status": "partial",
   "theorems": [
    "Ngfs.Asn1.C182_asn1_deep",
    "Ngfs.Asn1.C182_asn1_partial",
    "Ngfs.Asn1.C182_record_partial",
    "Ngfs.Bencode.C182_bencode_deep",
    "Ngfs.Bencode.C182_bencode_partial",
    "Ngfs.Bencode.C182_false"
   ],
   "note": "False of files: C182_false. C182_asn1_deep and C182_bencode_deep: for every number of calls there is well-formed data that needs more, six (two) bytes for each call. What holds: C182_record_partial, a certificate sent by a server is part of one TLS record and needs at most 8321 calls; C182_asn1_partial, C182_bencode_partial, a limit that grows with the input, half its length (its length) and one."
  },
  {
   "property": "C183",
   "status": "partial",
   "theorems": [
    "Ngfs.Bencode.C183_square",
    "Ngfs.Bencode.C183_false",
    "Ngfs.Bencode.C183_square_partial"
   ],
   "note": "False: C183_false. C183_square: a key of k letters with a list of k numbers is a file of about 4k bytes whose paths take at least k*k bytes (a file of one megabyte takes over sixty gigabytes). C183_square_partial: what holds is a bound of twice the square of the file."
  },
  {
   "property": "C184",
   "status": "partial",
   "theorems": [
    "Ngfs.Tls.C184_one_record_per_read",
    "Ngfs.Tls.C184_false",
    "Ngfs.Tls.C184_sending_partial",
    "Ngfs.Tls.C184_decrypted_partial",
    "Ngfs.Tls.C184_handshake_partial",
    "Ngfs.Tls.C184_big_records_partial"
   ],
   "note": "False: C184_false. C184_one_record_per_read: each read of the transport takes in all that it has (up to 1024 bytes) but only one record is taken out, so a server that sends small records fills the memory of a client that reads as fast as it can. C184_sending_partial: what waits to be sent is bounded. C184_decrypted_partial: what is decrypted is bounded. C184_handshake_partial: what is received is bounded during the handshake. C184_big_records_partial: all is bounded if every record takes at least 1024 bytes."
  },
  {
   "property": "C185",
   "status": "partial",
   "theorems": [
    "Ngfs.Mplex.C185_unfinished_frame",
    "Ngfs.Mplex.C185_endless_number",
    "Ngfs.Mplex.C185_false",
    "Ngfs.Mplex.C185_short_frames_partial"
   ],
   "note": "False: C185_false. C185_unfinished_frame: all bytes of an unfinished frame are kept, and a frame may take nearly 2^64 bytes (the mplex specification allows one megabyte). C185_endless_number: so are the bytes of a number that never ends. C185_short_frames_partial: if frames take at most n bytes each, at most 2n + 1024 bytes are kept, whatever else happens."
  },
  {
   "property": "C186",
   "status": "proved",
   "theorems": [
    "Ngfs.Multibase.C186_table",
    "Ngfs.Multibase.C186_bad_line",
    "Ngfs.Multibase.C186_check_passes"
   ],
   "note": ""
  },
  {
   "property": "C187",
   "status": "partial",
   "theorems": [
    "Ngfs.Tracker.C187_false",
    "Ngfs.Tracker.C187_parsed_before_partial",
    "Ngfs.Tracker.C187_listed_partial"
   ],
   "note": "False: C187_false (URLs that cannot be parsed are listed but not counted). C187_parsed_before_partial: it holds if all trackers listed before it have URLs that can be parsed. C187_listed_partial: the tracker spoken to is always one of the list, the one with that many parsable ones before it; if there is none nothing is sent."
  },
  {
   "property": "C188",
   "status": "partial",
   "theorems": [
    "Ngfs.Tracker.C188_false",
    "Ngfs.Tracker.C188_number_partial"
   ],
   "note": "False: C188_false (the sender of a datagram is printed, not compared). C188_number_partial: everything is sent to the first address of the tracker's name; an answer is shown only if the first datagram to arrive is a connect response with the random number of this request; what is shown is the second datagram to arrive."
  },
  {
   "property": "C189",
   "status": "proved",
   "theorems": [
    "Ngfs.Torrent.C189_kept",
    "Ngfs.Torrent.C189_reached"
   ],
   "note": ""
  },
  {
   "property": "C190",
   "status": "partial",
   "theorems": [
    "Ngfs.Chat.C190_false",
    "Ngfs.Chat.C190_exact_partial"
   ],
   "note": "False: C190_false (the queues are unbounded channels). C190_exact_partial: what is kept for a client is exactly the announcements made to it without what it has been sent."
  },
  {
   "property": "C191",
   "status": "partial",
   "theorems": [
    "Ngfs.Io.C191_list_partial",
    "Ngfs.Io.C191_select_partial",
    "Ngfs.Io.C191_false"
   ],
   "note": "False: C191_false (only multistream_list has a limit). C191_list_partial: the list of protocols. C191_select_partial: the choice of a protocol waits only inside one message, whose length may be anything below 2^64."
  },
  {
   "property": "C192",
   "status": "partial",
   "theorems": [
    "Ngfs.Sim.C192_completes_partial",
    "Ngfs.Sim.C192_false"
   ],
   "note": "False: C192_false (with one packet in 1001 ms a lost packet is never sent again, see C76). C192_completes_partial: it holds for every channel that takes a packet at least once in 1000 ms, the retransmission timeout; the program's own takes one in 523 ms."
  },
  {
   "property": "C193",
   "status": "proved",
   "theorems": [
    "Ngfs.Sim.C193_smallest",
    "Ngfs.Sim.C193_next_event"
   ],
   "note": ""
  },
  {
   "property": "C194",
   "status": "partial",
   "theorems": [
    "Ngfs.Listen.C194_served_partial",
    "Ngfs.Listen.C194_streams_partial",
    "Ngfs.Listen.C194_lost",
    "Ngfs.Listen.C194_own_number",
    "Ngfs.Listen.C194_false",
    "Ngfs.Listen.C194_accept_failure"
   ],
   "note": "False: C194_false, C194_accept_failure (one `accept` that fails, or for the proxy one connection to the server that fails, ends the program and with it every connection). C194_served_partial: without such a failure exactly the connections that came and did not end are served; C194_streams_partial: for the streams of a node it is true without condition; C194_lost: after a failure nobody is served; C194_own_number: the numbers."
  },
  {
   "property": "C195",
   "status": "partial",
   "theorems": [
    "Ngfs.Asn1.C195_false",
    "Ngfs.Asn1.C195_copied_partial",
    "Ngfs.Asn1.C195_rest_ignored",
    "Ngfs.Asn1.C195_shown",
    "Ngfs.Asn1.C195_no_panic",
    "Ngfs.Asn1.C195_copies_known",
    "Ngfs.Asn1.C195_no_stray_file"
   ],
   "note": "False: C195_false (`true` is written as `false`), C195_rest_ignored (what follows the structure is dropped without notice). C195_copied_partial: without `true` and without numbers beyond 64 bits in object identifiers the copy has exactly the bytes, from a binary file or PEM text; C195_shown: the structure is shown; C195_copies_known: whatever can be read is copied unless an element of unknown kind occurs; C195_no_panic and C195_no_stray_file for all files."
  },
  {
   "property": "C196",
   "status": "partial",
   "theorems": [
    "Ngfs.Ipfs.C196_rejected_late_partial",
    "Ngfs.Ipfs.C196_unread_partial",
    "Ngfs.Ipfs.C196_no_success",
    "Ngfs.Ipfs.C196_test",
    "Ngfs.Ipfs.C196_show",
    "Ngfs.Ipfs.C196_identify",
    "Ngfs.Ipfs.C196_reached",
    "Ngfs.Ipfs.C196_show_to_itself",
    "Ngfs.Ipfs.C196_false"
   ],
   "note": "False in both halves: C196_false (the command line is read only after the whole negotiation with the host; a command that has failed leaves the process running). C196_rejected_late_partial and C196_unread_partial say exactly when a command line is looked at; C196_no_success: the program never reports success; C196_show, C196_identify, C196_test: what each command sends, and to whom; C196_reached: with a host that says what it should, each command line gets what it asks for, except that `show` against this program itself fails (C196_show_to_itself)."
  },
  {
   "property": "C197",
   "status": "proved",
   "theorems": [
    "Ngfs.X509.C197_one_moment",
    "Ngfs.X509.C197_valid"
   ],
   "note": ""
  },
  {
   "property": "C198",
   "status": "partial",
   "theorems": [
    "Ngfs.X509.C198_exactly_partial",
    "Ngfs.X509.C198_false"
   ],
   "note": "False: C198_false (both times are always GeneralizedTime; RFC 5280 4.1.2.5: dates through 2049 MUST be UTCTime). C198_exactly_partial: each time is in the right form exactly if it is in 2050 or later."
  },
  {
   "property": "C199",
   "status": "partial",
   "theorems": [
    "Ngfs.Multibase.C199_read",
    "Ngfs.Multibase.C199_identifiers_false",
    "Ngfs.Multibase.C199_false",
    "Ngfs.Multibase.C199_base58_partial",
    "Ngfs.Multibase.C199_standard_partial"
   ],
   "note": "C199_read proves the first half in full (what each text is read as, and which are refused). The second half is false: C199_false (\"mQQ\" and \"mQR\" are both the byte 0x41), C199_identifiers_false (two base 32 texts of one identifier). C199_base58_partial: it holds in base 58. C199_standard_partial: in the other bases a text is the one of the encoder exactly if no bit, digit or padding in it is superfluous or missing."
  },
  {
   "property": "C200",
   "status": "proved",
   "theorems": [
    "Ngfs.Cid.C200_read",
    "Ngfs.Cid.C200_no_multibase_v0"
   ],
   "note": ""
  },
  {
   "property": "C201",
   "status": "proved",
   "theorems": [
    "Ngfs.Multiaddr.C201_read",
    "Ngfs.Multiaddr.C201_not_longer",
    "Ngfs.Multiaddr.C201_written_back"
   ],
   "note": ""
  },
  {
   "property": "C202",
   "status": "proved",
   "theorems": [
    "Ngfs.Tls.C202_reasons_distinct",
    "Ngfs.Tls.C202_hello_refused",
    "Ngfs.Tls.C202_flight_broken_off",
    "Ngfs.Tls.C202_only_if_told",
    "Ngfs.Tls.C202_connection_broken_off",
    "Ngfs.Tls.C202_read_only_if_told"
   ],
   "note": ""
  },
  {
   "property": "C203",
   "status": "proved",
   "theorems": [
    "Ngfs.Tls.C203_connecting_only",
    "Ngfs.Tls.C203_connecting_reports",
    "Ngfs.Tls.C203_connection_only",
    "Ngfs.Tls.C203_read_only",
    "Ngfs.Tls.C203_connection_reports"
   ],
   "note": ""
  },
  {
   "property": "C204",
   "status": "proved",
   "theorems": [
    "Ngfs.Mplex.C204_only",
    "Ngfs.Mplex.C204_reports",
    "Ngfs.Mplex.C204_reported_at_once"
   ],
   "note": ""
  },
  {
   "property": "C205",
   "status": "partial",
   "theorems": [
    "Ngfs.Io.C205_false",
    "Ngfs.Io.C205_false_serving",
    "Ngfs.Io.C205_end_partial",
    "Ngfs.Io.C205_break_reported_partial",
    "Ngfs.Io.C205_only_partial",
    "Ngfs.Io.C205_served_to_the_end_partial",
    "Ngfs.Io.C205_serving_only_partial",
    "Ngfs.Io.C205_serving_reports_partial"
   ],
   "note": "False: a stream that fails with 'unexpected end of file' between messages is reported as ended (C205_false, C205_false_serving). Proved: exactly when the end is reported, that every other failure is reported with its kind, that nothing else is reported as a failure, and what has been exchanged when serving ends."
  },
  {
   "property": "C206",
   "status": "proved",
   "theorems": [
    "Ngfs.Io.C206_only",
    "Ngfs.Io.C206_reports"
   ],
   "note": ""
  },
  {
   "property": "C207",
   "status": "partial",
   "theorems": [
    "Ngfs.Handler.C207_false",
    "Ngfs.Handler.C207_false_undecodable",
    "Ngfs.Handler.C207_success_partial",
    "Ngfs.Handler.C207_only_partial",
    "Ngfs.Handler.C207_reports_partial",
    "Ngfs.Handler.C207_identify"
   ],
   "note": "False: a stream that fails with 'unexpected end of file' between messages, and a message that cannot be decoded, end the handler with success (C207_false, C207_false_undecodable). Proved: these are the only other cases; the reported failures of the stream are exactly those met, except that one; the identify handler reports all and only the failures of its stream."
  },
  {
   "property": "C208",
   "status": "partial",
   "theorems": [
    "Ngfs.Ipfs.C208_messages",
    "Ngfs.Ipfs.C208_false",
    "Ngfs.Ipfs.C208_end_partial"
   ],
   "note": "C208_messages: the claim about the messages, in full. The claim about the end is false (C208_false: closing the network connection between records makes the reader report the end); C208_end_partial: that is the only other case."
  },
  {
   "property": "C209",
   "status": "proved",
   "theorems": [
    "Ngfs.Spec.Stack.C209_messages_over_tls",
    "Ngfs.Spec.Stack.C209_messages_over_tls_back",
    "Ngfs.Spec.Stack.C209_messages_arrive"
   ],
   "note": ""
  },
  {
   "property": "C210",
   "status": "partial",
   "theorems": [
    "Ngfs.Mplex.C210_false",
    "Ngfs.Mplex.C210_end_partial"
   ],
   "note": "False (C210_false: a connection cut inside a frame is taken for the end of the messages). C210_end_partial: the end is reported only if the peer closed the stream or sent an empty frame, or the connection ended between frames, failed with 'unexpected end of file', or was cut inside a frame."
  },
  {
   "property": "C211",
   "status": "proved",
   "theorems": [
    "Ngfs.Spec.Stack.C211_blocks_are_the_peers"
   ],
   "note": ""
  },
  {
   "property": "C212",
   "status": "proved",
   "theorems": [
    "Ngfs.Detrand.C212_table"
   ],
   "note": ""
  },
  {
   "property": "C213",
   "status": "proved",
   "theorems": [
    "Ngfs.Spec.Stack.C213_identification_is_the_peers",
    "Ngfs.Spec.Stack.C213_identified_over_tls"
   ],
   "note": ""
  },
  {
   "property": "C214",
   "status": "proved",
   "theorems": [
    "Ngfs.Spec.Stack.C214_request_over_tls"
   ],
   "note": ""
  },
  {
   "property": "C215",
   "status": "proved",
   "theorems": [
    "Ngfs.Spec.Stack.C215_identify",
    "Ngfs.Spec.Stack.C215_show"
   ],
   "note": ""
  },
  {
   "property": "C216",
   "status": "proved",
   "theorems": [
    "Ngfs.Spec.Stack.C216_started",
    "Ngfs.Spec.Stack.C216_shows"
   ],
   "note": ""
  },
  {
   "property": "C217",
   "status": "proved",
   "theorems": [
    "Ngfs.Spec.Stack.C217_identified"
   ],
   "note": ""
  },
  {
   "property": "C218",
   "status": "partial",
   "theorems": [
    "Ngfs.UdpTest.C218_shows_partial",
    "Ngfs.UdpTest.C218_short_partial",
    "Ngfs.UdpTest.C218_ends_partial",
    "Ngfs.UdpTest.C218_hello",
    "Ngfs.UdpTest.C218_false",
    "Ngfs.UdpTest.C218_told_false"
   ],
   "note": "False (C218_false: a datagram of more than 1024 bytes is shown in part; C218_told_false: one datagram can look like two). C218_shows_partial: the first 1024 bytes of each are shown, in their order; C218_short_partial: datagrams of up to 1024 bytes are shown whole; C218_ends_partial: the server ends only if the socket fails."
  }
 ]
}