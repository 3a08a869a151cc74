{
 "claims": [
  {
   "property": "C01",
   "status": "proved",
   "theorems": [
    "Verif.Jpip.C01_vbas_roundtrip",
    "Verif.Jpip.C01_vbas_prefix_free"
   ],
   "note": "All 64-bit values, arbitrary trailing bytes."
  },
  {
   "property": "C02",
   "status": "proved",
   "theorems": [
    "Verif.Jpip.C02_vbas_decode_exact",
    "Verif.Jpip.C02_vbas_decode_local"
   ],
   "note": "Exact characterisation of decoder success on arbitrary bytes."
  },
  {
   "property": "C03",
   "status": "proved",
   "theorems": [
    "Verif.Jpip.C03_header_stream_roundtrip",
    "Verif.Jpip.C03_wire_fields",
    "Verif.Jpip.C03_independent_header"
   ],
   "note": "Any message sequence from any shared context."
  },
  {
   "property": "C04",
   "status": "proved",
   "theorems": [
    "Verif.Jpip.C04_header_decode_bounded",
    "Verif.Jpip.C04_header_never_eor"
   ],
   "note": "Arbitrary bytes and context."
  },
  {
   "property": "C05",
   "status": "proved",
   "theorems": [
    "Verif.Jpip.C05_split_independent",
    "Verif.Jpip.C05_oneshot_agrees",
    "Verif.Jpip.C05_feed_after_eor_depends_on_chunks"
   ],
   "note": "Split independence for streams up to the end-of-response. The third theorem is a witness that raw feed() calls after the end-of-response do depend on the chunking."
  },
  {
   "property": "C06",
   "status": "proved",
   "theorems": [
    "Verif.Jpip.C06_bins_are_accepted_payloads",
    "Verif.Jpip.C06_append_step",
    "Verif.Jpip.C06_append_only",
    "Verif.Jpip.C06_merge_prefix",
    "Verif.Jpip.C06_rejected_append_creates_bin",
    "Verif.Jpip.C06_merge_can_lose_completeness"
   ],
   "note": "Histories of append on an empty store; merge of two views of one source. Two witnesses record behaviour outside the property."
  },
  {
   "property": "C07",
   "status": "proved",
   "theorems": [
    "Verif.Jpip.C07_emit_budget_and_range",
    "Verif.Jpip.C07_empty_bin_completes"
   ],
   "note": "append_message for every content, resume offset, budget and context."
  },
  {
   "property": "C08",
   "status": "proved",
   "theorems": [
    "Verif.Jpip.C08_round",
    "Verif.Jpip.C08_response_fits",
    "Verif.Jpip.C08_session",
    "Verif.Jpip.C08_converges",
    "Verif.Jpip.C08_delivery_order",
    "Verif.Jpip.C08_stateless_round",
    "Verif.Jpip.C08_resumed_response_rejected_by_fresh_store",
    "Verif.Jpip.C08_second_response_into_same_store_is_cut_short",
    "Verif.Jpip.C08_duplicate_bins_rejected"
   ],
   "note": "Proved for a client that carries its store forward (and for stateless requests with the fresh-store-then-merge client); witnesses show the combinations in the shipped clients for which it fails."
  },
  {
   "property": "C09",
   "status": "proved",
   "theorems": [
    "Verif.Jpip.C09_model_string_roundtrip",
    "Verif.Jpip.C09_other_classes_not_claimed",
    "Verif.Jpip.C09_entries_exist",
    "Verif.Jpip.C09_id_overflow_floods_model"
   ],
   "note": "Model-string round trip for bins with ids below 2^56; witness: an id of 2^64-1 in a request floods the model."
  },
  {
   "property": "C10",
   "status": "proved",
   "theorems": [
    "Verif.Jpip.C10_cache_model_is_per_bin_map",
    "Verif.Jpip.C10_large_ids_collide"
   ],
   "note": "Holds for class ids below 2^8 and bin ids below 2^56; witness shows aliasing above that."
  },
  {
   "property": "C11",
   "status": "proved",
   "theorems": [
    "Verif.Jpip.C11_refines_lru",
    "Verif.Jpip.C11_never_stuck",
    "Verif.Jpip.C11_bounded",
    "Verif.Jpip.C11_unique_ids",
    "Verif.Jpip.C11_zero_capacity_undefined",
    "Verif.Jpip.C11_transport"
   ],
   "note": "Refinement to an ideal LRU list for every capacity >= 1, every hash-map iteration order, histories shorter than 2^64 calls."
  },
  {
   "property": "C12",
   "status": "proved",
   "theorems": [
    "Verif.Jpip.C12_identifier_inverts",
    "Verif.Jpip.C12_identifier_injective",
    "Verif.Jpip.C12_decompose_sound",
    "Verif.Jpip.C12_sequence_numbers_dense",
    "Verif.Jpip.C12_identifiers_not_dense",
    "Verif.Jpip.C12_huge_identifier_aliases",
    "Verif.Jpip.C12_wrap_collides",
    "Verif.Jpip.C12_zero_tile_size_undefined"
   ],
   "note": "Identifiers and decomposition are inverse for every index within the limits of the standard. The side remark that identifiers lie below the total precinct count is false (witness); sequence numbers within a tile-component are dense."
  },
  {
   "property": "C13",
   "status": "proved",
   "theorems": [
    "Verif.Jpip.C13_max_levels",
    "Verif.Jpip.C13_frames_shrink",
    "Verif.Jpip.C13_round_down",
    "Verif.Jpip.C13_round_up",
    "Verif.Jpip.C13_round_closest",
    "Verif.Jpip.C13_huge_canvas_wraps"
   ],
   "note": "All three rounding modes for every legal image below 2^31; a witness shows the wrap beyond."
  },
  {
   "property": "C14",
   "status": "partial",
   "theorems": [
    "Verif.Jpip.C14_resolves_region_partial",
    "Verif.Jpip.C14_boundary_precinct_missing",
    "Verif.Jpip.C14_repeated_component_duplicates",
    "Verif.Jpip.C14_wide_region_wraps"
   ],
   "note": "Totality, soundness, order, no duplicates and coverage with the margins of the code are proved for every legal image and request. Full coverage is false of the code at full resolution (margin 0): C14_boundary_precinct_missing."
  },
  {
   "property": "C15",
   "status": "proved",
   "theorems": [
    "Verif.Jpip.C15_query_roundtrip",
    "Verif.Jpip.C15_request_line_roundtrip",
    "Verif.Jpip.C15_component_ranges",
    "Verif.Jpip.C15_fields",
    "Verif.Jpip.C15_fields_bare",
    "Verif.Jpip.C15_too_many_components",
    "Verif.Jpip.C15_parsed_in_bounds",
    "Verif.Jpip.C15_unknown_field_ignored",
    "Verif.Jpip.C15_lenient_numbers"
   ],
   "note": "Proved for every view window with fields of the declared widths and at most 16384 components, with and without a cache model. C15_fields: any list of fields of any kind in any order is parsed to what the fields say; longer component lists are refused, never cut. The parsed request is within bounds for every query. Witness: malformed numbers the parser accepts."
  },
  {
   "property": "C16",
   "status": "proved",
   "theorems": [
    "Verif.Jpip.C16_split_independent",
    "Verif.Jpip.C16_stream_output_from_input",
    "Verif.Jpip.C16_body_decoder_safe",
    "Verif.Jpip.C16_body_decoder_exact",
    "Verif.Jpip.C16_body_decoder_rejects",
    "Verif.Jpip.C16_stream_roundtrip",
    "Verif.Jpip.C16_body_roundtrip",
    "Verif.Jpip.C16_stream_decoder_exact",
    "Verif.Jpip.C16_decoders_agree",
    "Verif.Jpip.C16_stream_size_wraps"
   ],
   "note": "Both decoders return exactly the messages the server sent, for every message list (each shorter than 2^64 bytes) and, for the streaming decoder, every fragmentation and any bytes after the last chunk. Both decoders are characterised exactly: each accepts a text if and only if it follows the chunk grammar (written down separately), and delivers the data of that body. The outcome of the streaming decoder does not depend on the fragmentation for any stream, hostile ones included. The body decoder terminates on every input, reads only inside it and returns only bytes of it. Witness: the streaming decoder lacks the overflow guard of the body decoder."
  },
  {
   "property": "C17",
   "status": "proved",
   "theorems": [
    "Verif.Rtp.C17_rtp_header",
    "Verif.Rtp.C17_main_header",
    "Verif.Rtp.C17_body_header",
    "Verif.Rtp.C17_receive",
    "Verif.Rtp.C17_padding_is_kept"
   ],
   "note": "Every datagram is either rejected or decoded to exactly the fields and payload its layout prescribes; no read outside the packet. Witness: RTP padding is passed on as codestream bytes."
  },
  {
   "property": "C18",
   "status": "proved",
   "theorems": [
    "Verif.Rtp.C18_frames_are_complete",
    "Verif.Rtp.C18_complete_frames_delivered",
    "Verif.Rtp.C18_one_answer_per_packet",
    "Verif.Rtp.C18_emitted_counted",
    "Verif.Rtp.C18_join_inside_frame",
    "Verif.Rtp.C18_split_header_truncated",
    "Verif.Rtp.C18_tail_loss_drops_next"
   ],
   "note": "A frame is delivered exactly when the packets received form a complete gap-free run. Witnesses: loss before the first packet ever received is invisible; a split main header is cached truncated; losing the end of a frame also drops the next one."
  },
  {
   "property": "C19",
   "status": "proved",
   "theorems": [
    "Verif.Rtp.C19_latest_item_once",
    "Verif.Rtp.C19_taken_in_order",
    "Verif.Rtp.C19_items_accounted",
    "Verif.Rtp.C19_no_lost_item_wakeup",
    "Verif.Rtp.C19_woken_takes",
    "Verif.Rtp.C19_pool_bounded",
    "Verif.Rtp.C19_released_buffer_reused",
    "Verif.Rtp.C19_stop_can_be_missed"
   ],
   "note": "Critical sections are atomic steps; any number of producers and consumers, spurious wakeups included. Witness: the stop flag and notify() are used without the mutex, so a consumer can sleep through shutdown."
  },
  {
   "property": "C20",
   "status": "proved",
   "theorems": [
    "Verif.Threads.C20_fifo",
    "Verif.Threads.C20_exactly_once",
    "Verif.Threads.C20_no_empty_task",
    "Verif.Threads.C20_own_steps_end",
    "Verif.Threads.C20_rest_means_done",
    "Verif.Threads.C20_shutdown_drains",
    "Verif.Threads.C20_join_after_all",
    "Verif.Threads.C20_overflow_strands_tasks"
   ],
   "note": "Any number of workers and submitters. Invoking a task is one step: what tasks do, and tasks that do not return, are not modelled. Witness: push_batch throwing on a full ring leaves stored tasks without a wakeup."
  },
  {
   "property": "C21",
   "status": "proved",
   "theorems": [
    "Verif.Packet.C21_bits_round_trip",
    "Verif.Packet.C21_no_marker"
   ],
   "note": ""
  },
  {
   "property": "C22",
   "status": "proved",
   "theorems": [
    "Verif.Packet.C22_passes_round_trip",
    "Verif.Packet.C22_prefix_free"
   ],
   "note": ""
  },
  {
   "property": "C23",
   "status": "proved",
   "theorems": [
    "Verif.Packet.C23_values_round_trip",
    "Verif.Packet.C23_inclusion_round_trip",
    "Verif.Packet.C23_topology"
   ],
   "note": "Inclusion at layer 0, the only layer the encoder writes."
  },
  {
   "property": "C24",
   "status": "proved",
   "theorems": [
    "Verif.Packet.C24_packet_header_round_trip",
    "Verif.Packet.C24_four_passes_misparsed"
   ],
   "note": "For HT code-blocks as the encoder produces them (1-3 passes, layer 0, no MIXED/RESTART/BYPASS); for four passes the code disagrees (witness)."
  },
  {
   "property": "C25",
   "status": "proved",
   "theorems": [
    "Verif.Tile.C25_tile_unique",
    "Verif.Tile.C25_tile_component_unique",
    "Verif.Tile.C25_precinct_unique",
    "Verif.Tile.C25_codeblock_unique",
    "Verif.Tile.C25_low_band_is_lower_resolution",
    "Verif.Tile.C25_subband_sizes",
    "Verif.Tile.C25_tile_end_wraps"
   ],
   "note": "For every geometry that leaves room for the 32-bit sums; the wrap otherwise is shown by a witness. DFS (arbitrary decomposition) is not modelled."
  },
  {
   "property": "C26",
   "status": "proved",
   "theorems": [
    "Verif.Tile.C26_order",
    "Verif.Tile.C26_exactly_once",
    "Verif.Tile.C26_no_changes",
    "Verif.Tile.C26_replay",
    "Verif.Tile.C26_deep_tile_undefined",
    "Verif.Tile.C26_modulus_zero_undefined",
    "Verif.Tile.C26_replay_component_aliases"
   ],
   "note": "All six orders, any list of progression order changes; the decoder and the two encoder loops are the same text and share one model. Witnesses show the undefined shift/modulus and the aliasing of the kept order outside the hypotheses. DFS is not modelled."
  },
  {
   "property": "C27",
   "status": "proved",
   "theorems": [
    "Verif.Dwt.C27_row_round_trip",
    "Verif.Dwt.C27_image_round_trip",
    "Verif.Dwt.C27_row_injective",
    "Verif.Dwt.C27_wrapping_round_trip",
    "Verif.Dwt.C27_irreversible_exact",
    "Verif.Dwt.C27_empty_level_undefined",
    "Verif.Dwt.C27_single_even_row_undefined"
   ],
   "note": "All signals, origins, sizes and level counts; the width must not be zero at any level (the code is undefined there, shown by C27_empty_level_undefined). The vertical filtering is the whole-tile one; C30/C31 relate it to the streaming one."
  },
  {
   "property": "C28",
   "status": "proved",
   "theorems": [
    "Verif.Dwt.C28_colour_round_trip",
    "Verif.Dwt.C28_colour_range",
    "Verif.Dwt.C28_no_overflow"
   ],
   "note": "Per pixel, over all integers."
  },
  {
   "property": "C29",
   "status": "proved",
   "theorems": [
    "Verif.Dwt.C29_window_agrees"
   ],
   "note": "All filters, rows of two or more samples (single-sample rows never reach the function), windows and origins."
  },
  {
   "property": "C30",
   "status": "proved",
   "theorems": [
    "Verif.Dwt.Stream.C30_streaming_equals_batch",
    "Verif.Dwt.Stream.C30_emits_as_rows_arrive"
   ],
   "note": "Vertical part of fdwt_2d_state for every number of rows, origin, filter and initial buffer contents; the horizontal filter applied to each emitted row is the batch one (C27). Column arithmetic is abstract (any step functions)."
  },
  {
   "property": "C31",
   "status": "proved",
   "theorems": [
    "Verif.Dwt.Stream.C31_streaming_equals_batch",
    "Verif.Dwt.Stream.C31_streaming_round_trip"
   ],
   "note": "Vertical part of idwt_2d_state (DWT_BIDIR) incl. zero-row skipping and row_lo, ring eviction and lookahead; column windows of the vertical steps not modelled. For floats the zero row must be neutral (x + k*(0+0) = x), which excludes -0.0 targets."
  },
  {
   "property": "C32",
   "status": "proved",
   "theorems": [
    "Verif.Ht.C32_mel_round_trip"
   ],
   "note": "MEL encoder, joint MEL/VLC termination, Scup patching, modDcup and MEL_dec; all event sequences, alignments, and accompanying VLC/MagSgn data"
  },
  {
   "property": "C33",
   "status": "proved",
   "theorems": [
    "Verif.Ht.C33_magsgn_round_trip",
    "Verif.Ht.C33_magsgn_no_marker"
   ],
   "note": "MagSgn packer (emitMagSgnBits, emit_dword, termMS) against fwd_buf, all field lists and buffer alignments"
  },
  {
   "property": "C34",
   "status": "proved",
   "theorems": [
    "Verif.Ht.C34_vlc_round_trip",
    "Verif.Ht.C34_vlc_writer_total"
   ],
   "note": "emitVLCBits, termMELandVLC, modDcup and rev_buf; all codeword sequences, alignments and accompanying MEL/MagSgn data"
  },
  {
   "property": "C35",
   "status": "proved",
   "theorems": [
    "Verif.Ht.C35_vlc_tables_agree",
    "Verif.Ht.C35_vlc_entries_wellformed",
    "Verif.Ht.C35_uvlc_tables_agree",
    "Verif.Ht.C35_uvlc_entries_wellformed"
   ],
   "note": "All entries of the four encoder tables against the four decoder tables, for every continuation of the bit stream. The finite table part is evaluated by the kernel over its whole domain; the lift to arbitrary continuations is a proof."
  },
  {
   "property": "C36",
   "status": "proved",
   "theorems": [
    "Verif.Cs.C36_siz",
    "Verif.Cs.C36_cod",
    "Verif.Cs.C36_qcd",
    "Verif.Cs.C36_qcc",
    "Verif.Cs.C36_cap",
    "Verif.Cs.C36_tlm",
    "Verif.Cs.C36_com",
    "Verif.Cs.C36_sot",
    "Verif.Cs.C36_main_header",
    "Verif.Cs.C36_precinct_exponent_spills",
    "Verif.Cs.C36_exponent_truncated",
    "Verif.Cs.C36_cap_twice_refused",
    "Verif.Cs.C36_long_comment_wraps",
    "Verif.Cs.C36_many_tiles_wrap"
   ],
   "note": "Every segment the encoder writes, and the whole main header, is read back as it was and delimited by its length field, for all parameters in the ranges of SizOk/CodOk/QuantOk and the stated list bounds. Witnesses for parameters outside: precinct exponents above 15, reversible exponents above 31, a CAP part set twice, comments over 65531 bytes, 10922 tiles or more (TLM length wraps although the encoder accepts them). QCD/QCC step sizes are taken as given (their computation is not in this claim)."
  },
  {
   "property": "C37",
   "status": "partial",
   "theorems": [
    "Verif.Cs.C37_source_is_cursor",
    "Verif.Cs.C37_source_safe_iff",
    "Verif.Cs.C37_chain_delivers_in_order",
    "Verif.Cs.C37_chain_from_start",
    "Verif.Cs.C37_tile_bytes_in_order",
    "Verif.Cs.C37_reading_past_end_iff",
    "Verif.Cs.C37_body_inside",
    "Verif.Cs.C37_body_declared",
    "Verif.Cs.C37_body_open",
    "Verif.Cs.C37_empty_source_overreads",
    "Verif.Cs.C37_skip_wraps",
    "Verif.Cs.C37_empty_tile_part_overreads",
    "Verif.Cs.C37_many_tile_parts_undefined",
    "Verif.Cs.C37_short_length_takes_rest"
   ],
   "note": "The claim is false for the empty buffer (C37_empty_source_overreads) and for a tile with an empty tile-part (C37_empty_tile_part_overreads); C37_source_safe_iff and C37_reading_past_end_iff say exactly when it holds. For nonempty buffers the source is proved to be a cursor in the list of bytes; the chain delivers the concatenated bodies in order."
  },
  {
   "property": "C38",
   "status": "proved",
   "theorems": [
    "Verif.Jpip.C38_walk_safe",
    "Verif.Jpip.C38_walk_sound",
    "Verif.Jpip.C38_walk_recovers",
    "Verif.Jpip.C38_packet_address",
    "Verif.Jpip.C38_open_length_takes_end_marker"
   ],
   "note": "Safety for every byte string; for every byte string the reported tile-parts are reached by whole marker segments and carry the numbers of their SOT segments; exact recovery of main header, tile-parts and end marker for every well-formed codestream with explicit tile-part lengths; address translation for every layout the walker can report. Witness: an open-ended last tile-part takes the end marker into its data."
  },
  {
   "property": "C39",
   "status": "proved",
   "theorems": [
    "Verif.Jph.C39_scan_safe",
    "Verif.Jph.C39_wellformed_file",
    "Verif.Jph.C39_writer_roundtrip"
   ],
   "note": "Codestreams shorter than 4 GiB - 8; the wrap beyond is C39_length_wraps."
  },
  {
   "property": "C40",
   "status": "partial",
   "theorems": [
    "Verif.Jpip.C40_advertised_is_held_partial",
    "Verif.Jpip.C40_held_is_advertised_partial",
    "Verif.Jpip.C40_accounting_partial",
    "Verif.Jpip.C40_calls_defined",
    "Verif.Jpip.C40_evicts_oldest",
    "Verif.Jpip.C40_recent_last",
    "Verif.Jpip.C40_any_server",
    "Verif.Jpip.C40_evict_within_budget",
    "Verif.Jpip.C40_ext_precinct_confused",
    "Verif.Jpip.C40_longer_bin_replaces"
   ],
   "note": "Every sequence of responses, switches, budget changes and resets. Index, list and byte count agree for any server; that what is advertised is held, complete and correct, and within budget after every call, is proved for servers whose bins are prefixes of the true ones and that send no extended precincts. Two witnesses show the code breaks the claim without that."
  },
  {
   "property": "C41",
   "status": "proved",
   "theorems": [
    "Verif.Jpip.C41_server_frame",
    "Verif.Jpip.C41_framed_walks_back",
    "Verif.Jpip.C41_client_frame",
    "Verif.Jpip.C41_patch_changes_one_byte",
    "Verif.Jpip.C41_patch_sets_progression"
   ],
   "note": "Output of both assemblers characterised exactly (iff) for all bin sets; limits: <=65535 tiles, <2^32 precincts per tile-component, precinct ids below the aliasing range, fewer than 255 levels. Witnesses: C41_empty_bin_shifts_packets, C41_client_repeats_bin_per_layer."
  },
  {
   "property": "C42",
   "status": "proved",
   "theorems": [
    "Verif.Packet.C42_parser_in_bounds",
    "Verif.Packet.C42_truncated_header_never_ends"
   ],
   "note": "HT code-blocks without MIXED mode. A truncated header makes the code loop for ever (witness)."
  },
  {
   "property": "C43",
   "status": "proved",
   "theorems": [
    "Verif.Ht.C43_cleanup_round_trip"
   ],
   "note": "Scalar build, reversible path, one cleanup pass, no ROI. encodeBlock/decodeBlock include quantisation, the three streams, segment assembly and dequantisation."
  },
  {
   "property": "C44",
   "status": "proved",
   "theorems": [
    "Verif.Ht.C44_encoder_buffers_suffice",
    "Verif.Ht.C44_round_trip_total"
   ],
   "note": "Up to 21 magnitude bits. For 30-bit data the model evaluates to an overflow of MAX_Lcup on a 64x64 block (evaluated, not proved)."
  },
  {
   "property": "C45",
   "status": "proved",
   "theorems": [
    "Verif.Ht.C45_step1_writes_in_bounds",
    "Verif.Ht.C45_scratch_suffices"
   ],
   "note": "Writes; arbitrary input bytes."
  },
  {
   "property": "C46",
   "status": "proved",
   "theorems": [
    "Verif.Jpip.C46_reassembly_is_identity"
   ],
   "note": "The locator's packet ranges are a hypothesis (Located), the rest is modelled."
  },
  {
   "property": "C47",
   "status": "partial",
   "theorems": [
    "Verif.Jph.C47_component_depths_partial",
    "Verif.Jph.C47_mixed_signs_misdescribed"
   ],
   "note": "Proved when all components have the same sign; the code misdescribes mixed signs of equal depth, shown by a witness."
  },
  {
   "property": "C48",
   "status": "partial",
   "theorems": [
    "Verif.Cs.C48_header_terminates",
    "Verif.Cs.C48_header_safe_partial",
    "Verif.Cs.C48_undefined_only_from_ppm",
    "Verif.Cs.C48_tile_parts_safe",
    "Verif.Cs.C48_ppm_nodes",
    "Verif.Cs.C48_short_ppm_overreads",
    "Verif.Cs.C48_empty_ppm_undefined",
    "Verif.Cs.C48_field_read_behind_segment",
    "Verif.Cs.C48_missing_siz_undefined"
   ],
   "note": "Termination for every byte string; no out-of-range access for every byte string without a PPM marker, and for all tile-parts; the joined PPM contents are cut exactly where the lengths say; undefined behaviour of the main header can only come from PPM (witnesses show that it does: the property as stated fails)."
  },
  {
   "property": "C49",
   "status": "partial",
   "theorems": [
    "Verif.Cs.C49_minimum_levels_partial",
    "Verif.Cs.C49_undefined_past_last",
    "Verif.Cs.C49_unsorted_ignored",
    "Verif.Cs.C49_overridden_counts"
   ],
   "note": "Proved for COC segments in component order whose last one is for the last component (or none at all); the code violates the property otherwise: proved out-of-bounds read for every ordered set of COC segments not covering the last component, and a witness for unordered ones."
  },
  {
   "property": "C50",
   "status": "partial",
   "theorems": [
    "Verif.Cs.C50_reused_header_partial",
    "Verif.Cs.C50_same_markers",
    "Verif.Cs.C50_stale_progression",
    "Verif.Cs.C50_stale_size"
   ],
   "note": "Exact description of what a reused header object contains; equal to a fresh one whenever no optional marker is missing that was seen before; witnesses show that the property fails otherwise."
  },
  {
   "property": "C51",
   "status": "partial",
   "theorems": [
    "Verif.Cs.C51_reported_size_partial",
    "Verif.Cs.C51_buffer_size_partial",
    "Verif.Cs.C51_full_size",
    "Verif.Cs.C51_reported_too_large",
    "Verif.Cs.C51_buffer_too_large"
   ],
   "note": "Exact for aligned offsets and for unreduced buffers; otherwise never too small and at most one too large; witnesses show that the excess occurs."
  },
  {
   "property": "C52",
   "status": "proved",
   "theorems": [
    "Verif.Cs.C52_markers_counted",
    "Verif.Cs.C52_part_length",
    "Verif.Cs.C52_tiles_recovered",
    "Verif.Cs.C52_codestream_recovered",
    "Verif.Cs.C52_short_segment_miscounted"
   ],
   "note": "Round trip of the whole codestream container (header, tiles, end marker); marker bytes counted for every tile-part header without a segment of length 0 or 1 (such segments are malformed; witness shows the miscount)."
  },
  {
   "property": "C53",
   "status": "proved",
   "theorems": [
    "Verif.Ebcot.C53_mq_any_bytes",
    "Verif.Ebcot.C53_mq_no_overflow",
    "Verif.Ebcot.C53_mq_only_segment",
    "Verif.Ebcot.C53_raw_any_bytes",
    "Verif.Ebcot.C53_carry_overflows",
    "Verif.Ebcot.C53_raw_symbols"
   ],
   "note": "Safety for any bytes with overflow of the C register as the only possible failure; no overflow under the condition on carries; the witness shows that the condition is needed (bytes FF 8F)."
  },
  {
   "property": "C54",
   "status": "proved",
   "theorems": [
    "Verif.Ebcot.C54_mq_roundtrip",
    "Verif.Ebcot.C54_mq_adaptive_labels",
    "Verif.Ebcot.C54_raw_roundtrip"
   ],
   "note": "Against a specification of the encoder of T.800 Annex C with flush; all decision sequences, all valid context states."
  },
  {
   "property": "C55",
   "status": "proved",
   "theorems": [
    "Verif.Ebcot.C55_sig_table",
    "Verif.Ebcot.C55_sign_table",
    "Verif.Ebcot.C55_labels"
   ],
   "note": "Tables over their whole index range; packed context words for any set of significant coefficients."
  },
  {
   "property": "C56",
   "status": "proved",
   "theorems": [
    "Verif.Ebcot.C56_block_lossless",
    "Verif.Ebcot.C56_block_lossless_roi"
   ],
   "note": "Against the standard's encoder written as a specification; M_b up to 30; reversible path, scalar dequantisation."
  },
  {
   "property": "C57",
   "status": "proved",
   "theorems": [
    "Verif.Ebcot.C57_block_truncated",
    "Verif.Ebcot.C57_block_empty"
   ],
   "note": "Without region of interest."
  },
  {
   "property": "C58",
   "status": "proved",
   "theorems": [
    "Verif.Ebcot.C58_block_any_bytes",
    "Verif.Ebcot.C58_block_no_overflow",
    "Verif.Ebcot.C58_too_many_passes",
    "Verif.Ebcot.C58_too_many_zero_bitplanes",
    "Verif.Ebcot.C58_mb31",
    "Verif.Ebcot.C58_roi_shift_overflows",
    "Verif.Ebcot.C58_scale_conversion"
   ],
   "note": "Safety under the stated conditions, which the code does not check (witnesses). The step size conversion for M_b of 18 and more is undefined even then."
  },
  {
   "property": "C59",
   "status": "proved",
   "theorems": [
    "Verif.Ht.refinement_streams_roundtrip",
    "Verif.Ht.refinement_segment_markerfree",
    "Verif.Ht.sigprop_stream_roundtrip"
   ],
   "note": "Any two bit sequences up to the capacity of the shared buffer."
  },
  {
   "property": "C60",
   "status": "proved",
   "theorems": [
    "Verif.Ht.refinement_passes_roundtrip"
   ],
   "note": "Blocks of up to 4096 samples, both context modes."
  },
  {
   "property": "C61",
   "status": "proved",
   "theorems": [
    "Verif.Ht.C61_cleanup_only",
    "Verif.Ht.C61_two_passes",
    "Verif.Ht.C61_three_passes",
    "Verif.Ht.approx_error"
   ],
   "note": "Scalar build, reversible path, no region of interest. Refinement segments are those of the modelled encoder passes (C60)."
  },
  {
   "property": "C62",
   "status": "partial",
   "theorems": [
    "Verif.Ht.C62_any_bytes_partial",
    "Verif.Ht.C62_scratch_irrelevant",
    "Verif.Ht.C62_scratch_bounds",
    "Verif.Ht.C62_table_index",
    "Verif.Ht.C62_shift_overflow"
   ],
   "note": "False as stated: an exponent bound above the number of bit-planes is only reported with printf, and C62_shift_overflow gives five bytes leading to a shift by 32 or more. C62_any_bytes_partial: nothing undefined happens unless the error is printed. Scratch independence and bounds hold for all bytes."
  },
  {
   "property": "C63",
   "status": "proved",
   "theorems": [
    "Verif.Packet.C63_packet_round_trip",
    "Verif.Packet.C63_packets_round_trip",
    "Verif.Packet.C63_read_in_bounds",
    "Verif.Packet.C63_layers_append",
    "Verif.Packet.C63_more_layers_announce_nothing"
   ],
   "note": "One layer, one tile-part, headers in the packets, as the encoder writes them; the safety and append theorems hold for any bytes and layers. Finding: with number_of_layers > 1 the encoder's headers announce nothing."
  },
  {
   "property": "C64",
   "status": "proved",
   "theorems": [
    "Verif.Dwt.C64_coefficient_growth",
    "Verif.Dwt.C64_machine_exact",
    "Verif.Dwt.C64_float_encoder_int_decoder",
    "Verif.Dwt.C64_float_loses_wide_samples"
   ],
   "note": "Growth of the coefficients for all images and levels; exactness of float and int32 arithmetic within the stated limit; a 25-bit image for which the float analysis is not exact."
  },
  {
   "property": "C65",
   "status": "partial",
   "theorems": [
    "Verif.Tile.C65_budget",
    "Verif.Tile.C65_budget_exact",
    "Verif.Tile.C65_fits_partial",
    "Verif.Tile.C65_one_level_fits_partial",
    "Verif.Tile.C65_one_bit_overflow",
    "Verif.Tile.C65_one_bit_not_lossless",
    "Verif.Tile.C65_deeper_component_overflows",
    "Verif.Tile.C65_guard_bits_wrap"
   ],
   "note": "The budget is proved for all bands, levels and depths, as formula and as exact numbers. That all coefficients of every image fit is proved for any number of levels up to 2^(B-1)/19, B the bit depth, plus one with the colour transform (8 bits: 6 levels, 9 bits: 13, 11 bits and more: all 32), and up to one level from 2 bits on. It is false for 1-bit components with three levels and for components deeper than component 0 (witnesses). Open: more levels than that for the smaller depths."
  },
  {
   "property": "C66",
   "status": "proved",
   "theorems": [
    "Verif.Tile.Strip.C66_rows",
    "Verif.Tile.Strip.C66_all_rows_iff",
    "Verif.Tile.Strip.C66_aligned",
    "Verif.Tile.Strip.C66_misaligned",
    "Verif.Tile.Strip.C66_pow2_tile",
    "Verif.Tile.Strip.C66_tile_192"
   ],
   "note": "The property as a blanket claim is false: a subband off the code-block grid and taller than a code-block (tiles of 192 rows, one level, 64x64 blocks; images with a vertical offset) makes the decoder write outside the strip buffer. Proved: exact characterisation, correctness in the good case, failure in the bad one."
  },
  {
   "property": "C67",
   "status": "proved",
   "theorems": [
    "Verif.Tile.Pipe.C67_lossless",
    "Verif.Tile.Pipe.C67_lossless_own_budget",
    "Verif.Tile.Pipe.C67_misaligned_undecodable"
   ],
   "note": "Composition of the transform, HT block coder, progression, packet and strip models for one layer and one tile-part, no ROI. Bit-plane cover is a hypothesis of the first theorem; the second has it from C65 for the QCD the encoder makes, for up to 18 bits. The misaligned case is proved undecodable."
  },
  {
   "property": "C68",
   "status": "proved",
   "theorems": [
    "Verif.Tile.Pipe.C68_lossless",
    "Verif.Tile.Pipe.C68_lossless_own_budget",
    "Verif.Tile.Pipe.C68_rounded_width_loses",
    "Verif.Tile.Pipe.C68_origin_reads_before",
    "Verif.Tile.Pipe.C68_no_levels_null",
    "Verif.Tile.Pipe.C68_colour_422",
    "Verif.Tile.Pipe.C68_taller_component_unwritten",
    "Verif.Tile.Pipe.C68_clamp_nearest",
    "Verif.Tile.Pipe.C68_any_stream_in_range"
   ],
   "note": "Whole picture, buffers to buffers, on top of C67; the second theorem needs nothing of the coefficients, only the QCD the encoder makes for samples of the declared depth. C68_rounded_width_loses to C68_taller_component_unwritten show that the code misbehaves where a condition of the first fails. The last two are about any codestream: samples are clamped to the nearest value in range."
  },
  {
   "property": "C69",
   "status": "proved",
   "theorems": [
    "Verif.Dwt.C69_bounded_growth",
    "Verif.Dwt.C69_machine_exact",
    "Verif.Dwt.C69_float_encoder_int_decoder"
   ],
   "note": "Bound on every coefficient for every number of levels, size and position, from an invariant polyhedron of the iterated low-pass map with its borders, checked in the kernel by a verified checker; exactness of float and int32 arithmetic for samples up to 2^19 and 32 levels."
  },
  {
   "property": "C70",
   "status": "proved",
   "theorems": [
    "Verif.Tile.Pipe.C70_codestream_lossless",
    "Verif.Tile.Pipe.C70_tile_area_wraps",
    "Verif.Tile.Pipe.C70_untiled_iff"
   ],
   "note": "End to end on bytes for the reversible path: parameters and samples in, codestream bytes, parameters and samples out. Limits are the fields of Request.Ok (what marker segments hold, one TLM), Picture.Legal and Picture.Plain (C68). C70_tile_area_wraps: the test for a missing tile size multiplies in 32 bits, so tiles of 65536 x 65536 are ignored; C70_untiled_iff: no tile size means one tile exactly if the tile origin is the image origin."
  },
  {
   "property": "C71",
   "status": "proved",
   "theorems": [
    "Verif.Tile.Pipe.C71_announced",
    "Verif.Tile.Pipe.C71_buffer_exact",
    "Verif.Tile.Pipe.C71_length",
    "Verif.Tile.Pipe.C71_one_layer",
    "Verif.Tile.Pipe.C71_more_layers_overrun"
   ],
   "note": "Exact for one layer; C71_length gives both sides for any number of layers, and C71_more_layers_overrun the overrun for two or more (a caller of the library can set number_of_layers; the command line encoder always uses 1)."
  },
  {
   "property": "C72",
   "status": "proved",
   "theorems": [
    "Verif.Tile.Pipe.C72_reversible_iff",
    "Verif.Tile.Pipe.C72_derived_covered",
    "Verif.Tile.Pipe.C72_expounded_not_covered",
    "Verif.Tile.Pipe.C72_guard_bits_understate",
    "Verif.Tile.Pipe.C72_same_ccap15"
   ],
   "note": "Relative to the specification boundOf, the table of T.814 for bits 0-4 of Ccap15, which was written down from memory: the standard is not in the repository. The code falls short of the plain claim 'the bound always covers'; the theorems say exactly when."
  },
  {
   "property": "C73",
   "status": "proved",
   "theorems": [
    "Verif.Jpip.C73_response_roundtrip",
    "Verif.Jpip.C73_chunked_roundtrip",
    "Verif.Jpip.C73_tid_overrun_iff",
    "Verif.Jpip.C73_tid_cut",
    "Verif.Jpip.C73_length_from_body",
    "Verif.Jpip.C73_short_length_missed"
   ],
   "note": "Sockets are not modelled: the client is given the bytes. The values must be plain (no CR, LF, zero) and short enough; findings for longer ones and for heads of other servers."
  },
  {
   "property": "C74",
   "status": "proved",
   "theorems": [
    "Verif.Tile.C74_nearest",
    "Verif.Tile.C74_ends_iff",
    "Verif.Tile.C74_decoder_step",
    "Verif.Tile.C74_derived_step",
    "Verif.Tile.C74_smallest_step_negative"
   ],
   "note": "Over rationals; the double operations are exact for the values that get rounded (argued in Tile/Step, not proved). How the step asked for is computed (sqrt, pow, visual weights) is not modelled."
  },
  {
   "property": "C75",
   "status": "proved",
   "theorems": [
    "Verif.Ht.C75_ht_roundtrip",
    "Verif.Ht.C75_error_bound",
    "Verif.Ht.C75_requantise",
    "Verif.Ebcot.C75_part1_block",
    "Verif.Ebcot.C75_scale_of_guard_bits",
    "Verif.Ebcot.C75_small_lost",
    "Verif.Ebcot.C75_part1_small_lost",
    "Verif.Ebcot.C75_part1_overflow"
   ],
   "note": "float is modelled by rational numbers, so the roundings of float (2^-24 of each value) come on top. The encoder on the other side of the Part 1 decoder is the specification of C56, written from memory. The last three theorems are where the integer arithmetic of the Part 1 decoder falls short. The ROI path of the HT dequantisation (integers as in Part 1) is not modelled."
  },
  {
   "property": "C76",
   "status": "proved",
   "theorems": [
    "Verif.Img.C76_pgm_files",
    "Verif.Img.C76_pgx_files",
    "Verif.Img.C76_ppm_file",
    "Verif.Img.C76_buffered_pgm",
    "Verif.Img.C76_buffered_pgx",
    "Verif.Img.C76_buffered_ppm",
    "Verif.Img.C76_be16_avx2",
    "Verif.Img.C76_be16_avx2_wrong",
    "Verif.Img.C76_mixed_depths",
    "Verif.Img.C76_height_ratio",
    "Verif.Img.C76_empty_component",
    "Verif.Img.C76_cut_header",
    "Verif.Img.C76_number_hangs",
    "Verif.Img.C76_ppm_signed",
    "Verif.Img.C76_file_to_file",
    "Verif.Img.C76_pnm_depth"
   ],
   "note": "Proved for the scalar writers and the streaming readers under the conditions stated (components alike: one or two bytes like component 0; heights that divide with a ratio below 256); for the reader of the path in memory the exact condition (first byte of the samples not a blank) is proved in both directions. Refuted with witnesses: samples that begin with 32, 10 or 13 (reader in memory), mixed one- and two-byte components, ratio 256, empty component, endless loops on files cut in the header, AVX2 packing above 32767 (exact condition), signed samples in PPM."
  },
  {
   "property": "C77",
   "status": "proved",
   "theorems": [
    "Verif.Tile.Rows.C77_tile_rows",
    "Verif.Tile.Rows.C77_rows_in_time",
    "Verif.Tile.Rows.C77_strips_aligned",
    "Verif.Tile.Rows.C77_factors_one_two",
    "Verif.Tile.Rows.C77_one_column",
    "Verif.Tile.Rows.C77_file_rows",
    "Verif.Tile.Rows.C77_guess_iff",
    "Verif.Tile.Rows.C77_guess_high",
    "Verif.Tile.Rows.C77_file_420",
    "Verif.Tile.Rows.C77_band_rows",
    "Verif.Tile.Rows.C77_band_full",
    "Verif.Tile.Rows.C77_seventeen_components",
    "Verif.Tile.Rows.C77_first_row_blank",
    "Verif.Tile.Rows.C77_own_factor",
    "Verif.Tile.Rows.C77_misaligned_strips",
    "Verif.Tile.Rows.C77_file_wrong_factor",
    "Verif.Tile.Rows.C77_band_frozen",
    "Verif.Tile.Rows.C77_band_420_file"
   ],
   "note": "Proved where strips begin at row boundaries of all components (always for factors 1 and 2 and at most 16 components). Refuted, with theorems, for more than 16 components, factors that do not divide the strip height, component 0 with its own factor, several columns of tiles with vertical subsampling (chroma rows frozen), and low pictures with factors of 3 or more."
  },
  {
   "property": "C78",
   "status": "proved",
   "theorems": [
    "Verif.Simd.C78_finalize_avx2",
    "Verif.Simd.C78_finalize_neon",
    "Verif.Simd.C78_finalize16_neon",
    "Verif.Simd.C78_finalize_unsigned",
    "Verif.Simd.C78_finalize_signed",
    "Verif.Simd.C78_finalize_neon_small",
    "Verif.Simd.C78_scalar_bytes",
    "Verif.Simd.C78_u8_avx2",
    "Verif.Simd.C78_u8_neon",
    "Verif.Simd.C78_be16_neon",
    "Verif.Simd.C78_le16_neon",
    "Verif.Simd.C78_be16_avx2",
    "Verif.Simd.C78_le16_avx2",
    "Verif.Simd.C78_le16_wrong",
    "Verif.Simd.C78_shift_avx2",
    "Verif.Simd.C78_shift_depths",
    "Verif.Simd.C78_shift_small_depth",
    "Verif.Simd.C78_shift_neon",
    "Verif.Simd.C78_shift_neon_small",
    "Verif.Simd.C78_clamp",
    "Verif.Simd.C78_ppm8_sse",
    "Verif.Simd.C78_ppm8_neon",
    "Verif.Simd.C78_ppm16_sse",
    "Verif.Simd.C78_ppm16_neon",
    "Verif.Simd.C78_ppm_bytes"
   ],
   "note": "Proved for all kernels under the conditions in the statement; C78_be16_avx2, C78_le16_avx2 and C78_shift_small_depth are equivalences. Refuted outside the conditions with witnesses (C78_le16_wrong, C78_shift_neon_small, C78_finalize_signed, C78_finalize_neon_small). The meaning of the instructions is part of the trusted base."
  },
  {
   "property": "C79",
   "status": "proved",
   "theorems": [
    "Verif.Simd.C79_part1_rev",
    "Verif.Simd.C79_part1_irr",
    "Verif.Simd.C79_part1_lossless",
    "Verif.Simd.C79_part1_lane",
    "Verif.Simd.C79_ht_rev",
    "Verif.Simd.C79_ht_irr_roi",
    "Verif.Simd.C79_ht_lossless",
    "Verif.Simd.C79_undefined_differ"
   ],
   "note": "Instruction semantics written from memory. Conversion to float on store not modelled. HT irreversible without region of interest (one float product per sample, same expression in all builds) not repeated here. C79_undefined_differ: inputs on which the scalar code is undefined and the builds give different values."
  },
  {
   "property": "C80",
   "status": "proved",
   "theorems": [
    "Verif.Ht.C80_packed_eq_scalar",
    "Verif.Ht.C80_packed_safe",
    "Verif.Ht.C80_packed_roundtrip",
    "Verif.Ht.C80_sigma_overflow",
    "Verif.Ht.C80_block_sizes",
    "Verif.Ht.C80_stray_significance_differs"
   ],
   "note": "AVX2 source modelled word by word (NEON and WASM have the same passes and the same array size). Finding: for the legal code-block sizes 1024x4, 32x128, 16x256, 8x256, 4x256, 8x512, 4x512 and 4x1024 a full block with more than one HT pass overruns sigma_buf (C80_sigma_overflow, C80_block_sizes). On malformed cleanup segments that leave significance outside a block of odd height the two builds can differ (C80_stray_significance_differs)."
  },
  {
   "property": "C81",
   "status": "proved",
   "theorems": [
    "Verif.Simd.Lift.C81_row_synthesis",
    "Verif.Simd.Lift.C81_row_analysis",
    "Verif.Simd.Lift.C81_row_lossless",
    "Verif.Simd.Lift.C81_vertical",
    "Verif.Simd.Lift.C81_image_analysis",
    "Verif.Simd.Lift.C81_image_synthesis",
    "Verif.Simd.Lift.C81_image_lossless"
   ],
   "note": "AVX2 32-bit kernels, by row, by column step and for whole decompositions. The scalar tails add signed int32_t, whose overflow is undefined in C++; it is modelled as wrapping, as the vector lanes do. Instruction meanings from memory; AVX-512, NEON and WASM kernels of this filter not modelled."
  },
  {
   "property": "C82",
   "status": "proved",
   "theorems": [
    "Verif.Simd.Lift.Wide.C82_row_synthesis",
    "Verif.Simd.Lift.Wide.C82_row_analysis",
    "Verif.Simd.Lift.Wide.C82_row_lossless",
    "Verif.Simd.Lift.Wide.C82_same_in_every_build",
    "Verif.Simd.Lift.Wide.C82_same_analysis_in_every_build",
    "Verif.Simd.Lift.Wide.C82_vertical",
    "Verif.Simd.Lift.Wide.C82_vertical_neon_analysis",
    "Verif.Simd.Lift.Wide.C82_neon_analysis_overruns"
   ],
   "note": "Both lane counts, all widths and positions. The NEON analysis steps leave a row that ends its allocation; the code allocates rows rounded up to 32 words, so the restricted theorem covers its use."
  },
  {
   "property": "C83",
   "status": "proved",
   "theorems": [
    "Verif.Simd.Colour.C83_forward",
    "Verif.Simd.Colour.C83_forward_values",
    "Verif.Simd.Colour.C83_forward_float",
    "Verif.Simd.Colour.C83_inverse",
    "Verif.Simd.Colour.C83_lossless",
    "Verif.Simd.Colour.C83_stream_row",
    "Verif.Simd.Colour.C83_stream_row_outside",
    "Verif.Simd.Colour.C83_aligned_tiles",
    "Verif.Simd.Colour.C83_origin_never_fits",
    "Verif.Simd.Colour.C83_two_tiles"
   ],
   "note": "All builds agree with the scalar function and with the reversible transform. The streaming encoder's rows are characterised exactly; tiles at columns that are not multiples of the register, and grids that do not start at column zero, leave the rows (C83_stream_row_outside, C83_origin_never_fits, C83_two_tiles). The floating-point unit of the round trip is single precision on whole numbers."
  },
  {
   "property": "C84",
   "status": "proved",
   "theorems": [
    "Verif.Jpip.C84_recv_head",
    "Verif.Jpip.C84_fetch_chunked",
    "Verif.Jpip.C84_fetch_length",
    "Verif.Jpip.C84_server_to_client",
    "Verif.Jpip.C84_cut_chunked_accepted",
    "Verif.Jpip.C84_cut_length_accepted",
    "Verif.Jpip.C84_post_body",
    "Verif.Jpip.C84_post_without_end"
   ],
   "note": "Independence of the cut for heads, responses and POST bodies; the last sentence of the claim (early end noticed) is refuted by C84_cut_chunked_accepted and C84_cut_length_accepted; a POST without end of head is refuted by C84_post_without_end. The parser behind the client accepts everything; errors of recv are not modelled."
  },
  {
   "property": "C85",
   "status": "proved",
   "theorems": [
    "Verif.Jpip.C85_post_cut",
    "Verif.Jpip.C85_post_request",
    "Verif.Jpip.C85_length_from_body",
    "Verif.Jpip.C85_negative_length",
    "Verif.Jpip.C85_zero_in_length",
    "Verif.Jpip.C85_length_is_number"
   ],
   "note": "Proved for requests whose head has the length. The last sentence is refuted: C85_length_from_body (answer depends on the cut, because find_header also looks at the part of the body that came with the head), C85_negative_length and C85_zero_in_length (accepted lengths); C85_length_is_number says what is accepted. Errors of recv are not modelled."
  },
  {
   "property": "C86",
   "status": "proved",
   "theorems": [
    "Verif.Jpip.C86_chunked_drop",
    "Verif.Jpip.C86_never_again",
    "Verif.Jpip.C86_buffered_drop"
   ],
   "note": "Chunked responses: proved for a sink that fails between two messages, with what was sent before it arriving. Responses in one buffer: refuted by C86_buffered_drop for every image and window. A channel closed or evicted in between, and model updates sent by the client, are not part of these theorems."
  },
  {
   "property": "C87",
   "status": "proved",
   "theorems": [
    "Verif.Jpip.C87_unknown_channel",
    "Verif.Jpip.C87_known_channel",
    "Verif.Jpip.C87_new_channel",
    "Verif.Jpip.C87_stateless",
    "Verif.Jpip.C87_close_list",
    "Verif.Jpip.C87_sessions",
    "Verif.Jpip.C87_world"
   ],
   "note": "The bins sent are any function of the model served from. C87_world runs any sequence of requests of any clients from the start of the server (without model fields). That identifiers are not given out twice and that the channel that goes is the least recently used is C11. The server handles one request after the other."
  },
  {
   "property": "C88",
   "status": "proved",
   "theorems": [
    "Verif.Jpip.C88_lines",
    "Verif.Jpip.C88_chunked_arrives",
    "Verif.Jpip.C88_buffered_arrives"
   ],
   "note": "Names of the target longer than 243 bytes are left out (C73_tid_overrun_iff). The connection is closed by the server after the response; a failing recv is not modelled."
  },
  {
   "property": "C89",
   "status": "proved",
   "theorems": [
    "Verif.Jpip.C89_world",
    "Verif.Jpip.C89_recovers",
    "Verif.Jpip.C89_lost_in_flight"
   ],
   "note": "A message (or the head) is sent whole or not at all, and what was sent arrives; C89_lost_in_flight shows that the latter is needed. Requests without model fields. For responses in one buffer the claim is false (C86_buffered_drop)."
  }
 ]
}