# Axioms of the theorems in MANIFEST.json

Output of `#print axioms`, grouped.

## propext, Classical.choice, Quot.sound

* `Verif.Jpip.C01_vbas_roundtrip`
* `Verif.Jpip.C01_vbas_prefix_free`
* `Verif.Jpip.C02_vbas_decode_exact`
* `Verif.Jpip.C02_vbas_decode_local`
* `Verif.Jpip.C03_header_stream_roundtrip`
* `Verif.Jpip.C03_independent_header`
* `Verif.Jpip.C04_header_decode_bounded`
* `Verif.Jpip.C04_header_never_eor`
* `Verif.Jpip.C05_split_independent`
* `Verif.Jpip.C05_oneshot_agrees`
* `Verif.Jpip.C05_feed_after_eor_depends_on_chunks`
* `Verif.Jpip.C06_bins_are_accepted_payloads`
* `Verif.Jpip.C06_append_step`
* `Verif.Jpip.C06_append_only`
* `Verif.Jpip.C07_emit_budget_and_range`
* `Verif.Jpip.C07_empty_bin_completes`
* `Verif.Jpip.C08_round`
* `Verif.Jpip.C08_response_fits`
* `Verif.Jpip.C08_session`
* `Verif.Jpip.C08_converges`
* `Verif.Jpip.C08_delivery_order`
* `Verif.Jpip.C08_stateless_round`
* `Verif.Jpip.C08_resumed_response_rejected_by_fresh_store`
* `Verif.Jpip.C08_second_response_into_same_store_is_cut_short`
* `Verif.Jpip.C08_duplicate_bins_rejected`
* `Verif.Jpip.C09_model_string_roundtrip`
* `Verif.Jpip.C09_other_classes_not_claimed`
* `Verif.Jpip.C09_id_overflow_floods_model`
* `Verif.Jpip.C10_cache_model_is_per_bin_map`
* `Verif.Jpip.C11_refines_lru`
* `Verif.Jpip.C11_never_stuck`
* `Verif.Jpip.C11_bounded`
* `Verif.Jpip.C11_unique_ids`
* `Verif.Jpip.C11_transport`
* `Verif.Jpip.C12_identifier_inverts`
* `Verif.Jpip.C12_identifier_injective`
* `Verif.Jpip.C12_decompose_sound`
* `Verif.Jpip.C12_sequence_numbers_dense`
* `Verif.Jpip.C13_max_levels`
* `Verif.Jpip.C13_frames_shrink`
* `Verif.Jpip.C13_round_down`
* `Verif.Jpip.C13_round_up`
* `Verif.Jpip.C13_round_closest`
* `Verif.Jpip.C14_resolves_region_partial`
* `Verif.Jpip.C15_query_roundtrip`
* `Verif.Jpip.C15_request_line_roundtrip`
* `Verif.Jpip.C15_component_ranges`
* `Verif.Jpip.C15_fields`
* `Verif.Jpip.C15_fields_bare`
* `Verif.Jpip.C15_too_many_components`
* `Verif.Jpip.C15_parsed_in_bounds`
* `Verif.Jpip.C15_unknown_field_ignored`
* `Verif.Jpip.C15_lenient_numbers`
* `Verif.Jpip.C16_stream_output_from_input`
* `Verif.Jpip.C16_body_decoder_safe`
* `Verif.Jpip.C16_body_decoder_exact`
* `Verif.Jpip.C16_body_decoder_rejects`
* `Verif.Jpip.C16_stream_roundtrip`
* `Verif.Jpip.C16_body_roundtrip`
* `Verif.Jpip.C16_stream_decoder_exact`
* `Verif.Jpip.C16_decoders_agree`
* `Verif.Rtp.C17_rtp_header`
* `Verif.Rtp.C17_main_header`
* `Verif.Rtp.C17_body_header`
* `Verif.Rtp.C17_receive`
* `Verif.Rtp.C18_frames_are_complete`
* `Verif.Rtp.C18_complete_frames_delivered`
* `Verif.Rtp.C18_one_answer_per_packet`
* `Verif.Rtp.C18_emitted_counted`
* `Verif.Rtp.C19_pool_bounded`
* `Verif.Threads.C20_fifo`
* `Verif.Threads.C20_exactly_once`
* `Verif.Threads.C20_no_empty_task`
* `Verif.Threads.C20_own_steps_end`
* `Verif.Threads.C20_rest_means_done`
* `Verif.Threads.C20_shutdown_drains`
* `Verif.Threads.C20_join_after_all`
* `Verif.Packet.C21_bits_round_trip`
* `Verif.Packet.C21_no_marker`
* `Verif.Packet.C22_passes_round_trip`
* `Verif.Packet.C22_prefix_free`
* `Verif.Packet.C23_values_round_trip`
* `Verif.Packet.C23_inclusion_round_trip`
* `Verif.Packet.C23_topology`
* `Verif.Packet.C24_packet_header_round_trip`
* `Verif.Packet.C24_four_passes_misparsed`
* `Verif.Tile.C25_tile_unique`
* `Verif.Tile.C25_tile_component_unique`
* `Verif.Tile.C25_precinct_unique`
* `Verif.Tile.C25_codeblock_unique`
* `Verif.Tile.C26_order`
* `Verif.Tile.C26_exactly_once`
* `Verif.Tile.C26_no_changes`
* `Verif.Tile.C26_replay`
* `Verif.Dwt.C27_row_round_trip`
* `Verif.Dwt.C27_image_round_trip`
* `Verif.Dwt.C27_row_injective`
* `Verif.Dwt.C27_wrapping_round_trip`
* `Verif.Dwt.C27_irreversible_exact`
* `Verif.Dwt.C28_colour_round_trip`
* `Verif.Dwt.C28_no_overflow`
* `Verif.Dwt.C29_window_agrees`
* `Verif.Dwt.Stream.C30_streaming_equals_batch`
* `Verif.Dwt.Stream.C30_emits_as_rows_arrive`
* `Verif.Dwt.Stream.C31_streaming_equals_batch`
* `Verif.Dwt.Stream.C31_streaming_round_trip`
* `Verif.Ht.C32_mel_round_trip`
* `Verif.Ht.C33_magsgn_round_trip`
* `Verif.Ht.C33_magsgn_no_marker`
* `Verif.Ht.C34_vlc_round_trip`
* `Verif.Ht.C34_vlc_writer_total`
* `Verif.Ht.C35_vlc_tables_agree`
* `Verif.Ht.C35_uvlc_tables_agree`
* `Verif.Cs.C36_siz`
* `Verif.Cs.C36_cod`
* `Verif.Cs.C36_qcd`
* `Verif.Cs.C36_qcc`
* `Verif.Cs.C36_cap`
* `Verif.Cs.C36_tlm`
* `Verif.Cs.C36_com`
* `Verif.Cs.C36_sot`
* `Verif.Cs.C36_main_header`
* `Verif.Cs.C36_long_comment_wraps`
* `Verif.Cs.C36_many_tiles_wrap`
* `Verif.Cs.C37_source_safe_iff`
* `Verif.Cs.C37_chain_delivers_in_order`
* `Verif.Cs.C37_chain_from_start`
* `Verif.Cs.C37_tile_bytes_in_order`
* `Verif.Cs.C37_reading_past_end_iff`
* `Verif.Cs.C37_body_open`
* `Verif.Jpip.C38_walk_safe`
* `Verif.Jpip.C38_walk_sound`
* `Verif.Jpip.C38_walk_recovers`
* `Verif.Jpip.C38_packet_address`
* `Verif.Jph.C39_scan_safe`
* `Verif.Jph.C39_wellformed_file`
* `Verif.Jph.C39_writer_roundtrip`
* `Verif.Jpip.C40_advertised_is_held_partial`
* `Verif.Jpip.C40_held_is_advertised_partial`
* `Verif.Jpip.C40_accounting_partial`
* `Verif.Jpip.C40_calls_defined`
* `Verif.Jpip.C40_evicts_oldest`
* `Verif.Jpip.C40_recent_last`
* `Verif.Jpip.C40_any_server`
* `Verif.Jpip.C40_evict_within_budget`
* `Verif.Jpip.C41_server_frame`
* `Verif.Jpip.C41_framed_walks_back`
* `Verif.Jpip.C41_client_frame`
* `Verif.Jpip.C41_patch_sets_progression`
* `Verif.Packet.C42_parser_in_bounds`
* `Verif.Packet.C42_truncated_header_never_ends`
* `Verif.Ht.C43_cleanup_round_trip`
* `Verif.Ht.C44_encoder_buffers_suffice`
* `Verif.Ht.C44_round_trip_total`
* `Verif.Ht.C45_scratch_suffices`
* `Verif.Jpip.C46_reassembly_is_identity`
* `Verif.Cs.C48_header_terminates`
* `Verif.Cs.C48_header_safe_partial`
* `Verif.Cs.C48_undefined_only_from_ppm`
* `Verif.Cs.C48_tile_parts_safe`
* `Verif.Cs.C48_ppm_nodes`
* `Verif.Cs.C49_minimum_levels_partial`
* `Verif.Cs.C49_undefined_past_last`
* `Verif.Cs.C51_reported_size_partial`
* `Verif.Cs.C51_buffer_size_partial`
* `Verif.Cs.C51_full_size`
* `Verif.Cs.C52_markers_counted`
* `Verif.Cs.C52_part_length`
* `Verif.Cs.C52_tiles_recovered`
* `Verif.Cs.C52_codestream_recovered`
* `Verif.Ebcot.C53_mq_any_bytes`
* `Verif.Ebcot.C53_mq_no_overflow`
* `Verif.Ebcot.C53_mq_only_segment`
* `Verif.Ebcot.C54_mq_roundtrip`
* `Verif.Ebcot.C54_mq_adaptive_labels`
* `Verif.Ebcot.C54_raw_roundtrip`
* `Verif.Ebcot.C55_labels`
* `Verif.Ebcot.C56_block_lossless`
* `Verif.Ebcot.C56_block_lossless_roi`
* `Verif.Ebcot.C57_block_truncated`
* `Verif.Ebcot.C57_block_empty`
* `Verif.Ebcot.C58_block_any_bytes`
* `Verif.Ebcot.C58_block_no_overflow`
* `Verif.Ebcot.C58_scale_conversion`
* `Verif.Ht.refinement_streams_roundtrip`
* `Verif.Ht.refinement_segment_markerfree`
* `Verif.Ht.sigprop_stream_roundtrip`
* `Verif.Ht.refinement_passes_roundtrip`
* `Verif.Ht.C61_cleanup_only`
* `Verif.Ht.C61_two_passes`
* `Verif.Ht.C61_three_passes`
* `Verif.Ht.approx_error`
* `Verif.Ht.C62_any_bytes_partial`
* `Verif.Ht.C62_scratch_irrelevant`
* `Verif.Ht.C62_scratch_bounds`
* `Verif.Ht.C62_shift_overflow`
* `Verif.Packet.C63_packet_round_trip`
* `Verif.Packet.C63_packets_round_trip`
* `Verif.Packet.C63_read_in_bounds`
* `Verif.Packet.C63_layers_append`
* `Verif.Packet.C63_more_layers_announce_nothing`
* `Verif.Dwt.C64_coefficient_growth`
* `Verif.Dwt.C64_machine_exact`
* `Verif.Dwt.C64_float_encoder_int_decoder`
* `Verif.Tile.C65_budget`
* `Verif.Tile.C65_budget_exact`
* `Verif.Tile.C65_fits_partial`
* `Verif.Tile.C65_one_level_fits_partial`
* `Verif.Tile.Strip.C66_rows`
* `Verif.Tile.Strip.C66_all_rows_iff`
* `Verif.Tile.Strip.C66_aligned`
* `Verif.Tile.Strip.C66_misaligned`
* `Verif.Tile.Strip.C66_tile_192`
* `Verif.Tile.Pipe.C67_lossless`
* `Verif.Tile.Pipe.C67_lossless_own_budget`
* `Verif.Tile.Pipe.C67_misaligned_undecodable`
* `Verif.Tile.Pipe.C68_lossless`
* `Verif.Tile.Pipe.C68_lossless_own_budget`
* `Verif.Tile.Pipe.C68_rounded_width_loses`
* `Verif.Tile.Pipe.C68_origin_reads_before`
* `Verif.Tile.Pipe.C68_no_levels_null`
* `Verif.Tile.Pipe.C68_colour_422`
* `Verif.Tile.Pipe.C68_taller_component_unwritten`
* `Verif.Tile.Pipe.C68_clamp_nearest`
* `Verif.Tile.Pipe.C68_any_stream_in_range`
* `Verif.Dwt.C69_bounded_growth`
* `Verif.Dwt.C69_machine_exact`
* `Verif.Dwt.C69_float_encoder_int_decoder`
* `Verif.Tile.Pipe.C70_codestream_lossless`
* `Verif.Tile.Pipe.C70_untiled_iff`
* `Verif.Tile.Pipe.C71_announced`
* `Verif.Tile.Pipe.C71_buffer_exact`
* `Verif.Tile.Pipe.C71_length`
* `Verif.Tile.Pipe.C71_one_layer`
* `Verif.Tile.Pipe.C71_more_layers_overrun`
* `Verif.Tile.Pipe.C72_reversible_iff`
* `Verif.Tile.Pipe.C72_expounded_not_covered`
* `Verif.Jpip.C73_response_roundtrip`
* `Verif.Jpip.C73_chunked_roundtrip`
* `Verif.Jpip.C73_tid_overrun_iff`
* `Verif.Jpip.C73_tid_cut`
* `Verif.Jpip.C73_length_from_body`
* `Verif.Jpip.C73_short_length_missed`
* `Verif.Tile.C74_nearest`
* `Verif.Tile.C74_ends_iff`
* `Verif.Tile.C74_decoder_step`
* `Verif.Tile.C74_derived_step`
* `Verif.Tile.C74_smallest_step_negative`
* `Verif.Ht.C75_ht_roundtrip`
* `Verif.Ht.C75_error_bound`
* `Verif.Ht.C75_requantise`
* `Verif.Ebcot.C75_part1_block`
* `Verif.Ebcot.C75_scale_of_guard_bits`
* `Verif.Ebcot.C75_small_lost`
* `Verif.Ebcot.C75_part1_small_lost`
* `Verif.Ebcot.C75_part1_overflow`
* `Verif.Img.C76_pgm_files`
* `Verif.Img.C76_pgx_files`
* `Verif.Img.C76_ppm_file`
* `Verif.Img.C76_buffered_pgm`
* `Verif.Img.C76_buffered_pgx`
* `Verif.Img.C76_buffered_ppm`
* `Verif.Img.C76_file_to_file`
* `Verif.Img.C76_pnm_depth`
* `Verif.Tile.Rows.C77_tile_rows`
* `Verif.Tile.Rows.C77_rows_in_time`
* `Verif.Tile.Rows.C77_one_column`
* `Verif.Tile.Rows.C77_file_rows`
* `Verif.Tile.Rows.C77_guess_iff`
* `Verif.Tile.Rows.C77_guess_high`
* `Verif.Tile.Rows.C77_file_420`
* `Verif.Tile.Rows.C77_band_rows`
* `Verif.Tile.Rows.C77_band_full`
* `Verif.Tile.Rows.C77_first_row_blank`
* `Verif.Tile.Rows.C77_own_factor`
* `Verif.Tile.Rows.C77_band_frozen`
* `Verif.Simd.C78_finalize_avx2`
* `Verif.Simd.C78_finalize_neon`
* `Verif.Simd.C78_finalize16_neon`
* `Verif.Simd.C78_finalize_unsigned`
* `Verif.Simd.C78_finalize_signed`
* `Verif.Simd.C78_finalize_neon_small`
* `Verif.Simd.C78_scalar_bytes`
* `Verif.Simd.C78_u8_avx2`
* `Verif.Simd.C78_u8_neon`
* `Verif.Simd.C78_be16_neon`
* `Verif.Simd.C78_le16_neon`
* `Verif.Simd.C78_be16_avx2`
* `Verif.Simd.C78_le16_avx2`
* `Verif.Simd.C78_le16_wrong`
* `Verif.Simd.C78_shift_avx2`
* `Verif.Simd.C78_shift_depths`
* `Verif.Simd.C78_shift_small_depth`
* `Verif.Simd.C78_shift_neon`
* `Verif.Simd.C78_clamp`
* `Verif.Simd.C78_ppm8_sse`
* `Verif.Simd.C78_ppm8_neon`
* `Verif.Simd.C78_ppm16_sse`
* `Verif.Simd.C78_ppm16_neon`
* `Verif.Simd.C78_ppm_bytes`
* `Verif.Simd.C79_part1_rev`
* `Verif.Simd.C79_part1_irr`
* `Verif.Simd.C79_part1_lossless`
* `Verif.Simd.C79_part1_lane`
* `Verif.Simd.C79_ht_rev`
* `Verif.Simd.C79_ht_irr_roi`
* `Verif.Simd.C79_ht_lossless`
* `Verif.Ht.C80_packed_eq_scalar`
* `Verif.Ht.C80_packed_safe`
* `Verif.Ht.C80_packed_roundtrip`
* `Verif.Ht.C80_sigma_overflow`
* `Verif.Ht.C80_stray_significance_differs`
* `Verif.Simd.Lift.C81_row_synthesis`
* `Verif.Simd.Lift.C81_row_analysis`
* `Verif.Simd.Lift.C81_row_lossless`
* `Verif.Simd.Lift.C81_vertical`
* `Verif.Simd.Lift.C81_image_analysis`
* `Verif.Simd.Lift.C81_image_synthesis`
* `Verif.Simd.Lift.C81_image_lossless`
* `Verif.Simd.Lift.Wide.C82_row_synthesis`
* `Verif.Simd.Lift.Wide.C82_row_analysis`
* `Verif.Simd.Lift.Wide.C82_row_lossless`
* `Verif.Simd.Lift.Wide.C82_same_in_every_build`
* `Verif.Simd.Lift.Wide.C82_same_analysis_in_every_build`
* `Verif.Simd.Lift.Wide.C82_vertical`
* `Verif.Simd.Lift.Wide.C82_vertical_neon_analysis`
* `Verif.Simd.Colour.C83_forward`
* `Verif.Simd.Colour.C83_forward_values`
* `Verif.Simd.Colour.C83_forward_float`
* `Verif.Simd.Colour.C83_inverse`
* `Verif.Simd.Colour.C83_lossless`
* `Verif.Simd.Colour.C83_stream_row`
* `Verif.Simd.Colour.C83_stream_row_outside`
* `Verif.Jpip.C84_recv_head`
* `Verif.Jpip.C84_fetch_chunked`
* `Verif.Jpip.C84_fetch_length`
* `Verif.Jpip.C84_server_to_client`
* `Verif.Jpip.C84_cut_chunked_accepted`
* `Verif.Jpip.C84_cut_length_accepted`
* `Verif.Jpip.C84_post_body`
* `Verif.Jpip.C84_post_without_end`
* `Verif.Jpip.C85_post_cut`
* `Verif.Jpip.C85_post_request`
* `Verif.Jpip.C85_length_from_body`
* `Verif.Jpip.C85_negative_length`
* `Verif.Jpip.C85_length_is_number`
* `Verif.Jpip.C86_chunked_drop`
* `Verif.Jpip.C86_never_again`
* `Verif.Jpip.C86_buffered_drop`
* `Verif.Jpip.C87_unknown_channel`
* `Verif.Jpip.C87_known_channel`
* `Verif.Jpip.C87_new_channel`
* `Verif.Jpip.C87_stateless`
* `Verif.Jpip.C87_sessions`
* `Verif.Jpip.C87_world`
* `Verif.Jpip.C88_lines`
* `Verif.Jpip.C88_chunked_arrives`
* `Verif.Jpip.C88_buffered_arrives`
* `Verif.Jpip.C89_world`
* `Verif.Jpip.C89_recovers`
* `Verif.Jpip.C89_lost_in_flight`

## propext, Quot.sound

* `Verif.Jpip.C03_wire_fields`
* `Verif.Jpip.C06_merge_prefix`
* `Verif.Jpip.C09_entries_exist`
* `Verif.Jpip.C11_zero_capacity_undefined`
* `Verif.Jpip.C12_zero_tile_size_undefined`
* `Verif.Jpip.C16_split_independent`
* `Verif.Jpip.C16_stream_size_wraps`
* `Verif.Rtp.C19_latest_item_once`
* `Verif.Rtp.C19_taken_in_order`
* `Verif.Rtp.C19_items_accounted`
* `Verif.Rtp.C19_no_lost_item_wakeup`
* `Verif.Rtp.C19_woken_takes`
* `Verif.Rtp.C19_stop_can_be_missed`
* `Verif.Threads.C20_overflow_strands_tasks`
* `Verif.Tile.C25_low_band_is_lower_resolution`
* `Verif.Tile.C25_subband_sizes`
* `Verif.Tile.C26_deep_tile_undefined`
* `Verif.Tile.C26_modulus_zero_undefined`
* `Verif.Dwt.C27_single_even_row_undefined`
* `Verif.Dwt.C28_colour_range`
* `Verif.Ht.C35_vlc_entries_wellformed`
* `Verif.Ht.C35_uvlc_entries_wellformed`
* `Verif.Cs.C37_source_is_cursor`
* `Verif.Cs.C37_body_inside`
* `Verif.Cs.C37_body_declared`
* `Verif.Cs.C37_short_length_takes_rest`
* `Verif.Jpip.C41_patch_changes_one_byte`
* `Verif.Ht.C45_step1_writes_in_bounds`
* `Verif.Jph.C47_component_depths_partial`
* `Verif.Cs.C48_short_ppm_overreads`
* `Verif.Cs.C48_empty_ppm_undefined`
* `Verif.Cs.C48_missing_siz_undefined`
* `Verif.Cs.C50_reused_header_partial`
* `Verif.Cs.C50_same_markers`
* `Verif.Cs.C50_stale_progression`
* `Verif.Cs.C50_stale_size`
* `Verif.Ebcot.C53_raw_any_bytes`
* `Verif.Ebcot.C53_raw_symbols`
* `Verif.Ht.C62_table_index`
* `Verif.Dwt.C64_float_loses_wide_samples`
* `Verif.Tile.C65_one_bit_not_lossless`
* `Verif.Tile.Strip.C66_pow2_tile`
* `Verif.Tile.Pipe.C72_derived_covered`
* `Verif.Img.C76_be16_avx2`
* `Verif.Img.C76_mixed_depths`
* `Verif.Img.C76_height_ratio`
* `Verif.Tile.Rows.C77_factors_one_two`
* `Verif.Tile.Rows.C77_seventeen_components`
* `Verif.Simd.C78_shift_neon_small`
* `Verif.Simd.C79_undefined_differ`
* `Verif.Ht.C80_block_sizes`
* `Verif.Simd.Lift.Wide.C82_neon_analysis_overruns`
* `Verif.Simd.Colour.C83_aligned_tiles`
* `Verif.Simd.Colour.C83_origin_never_fits`
* `Verif.Simd.Colour.C83_two_tiles`
* `Verif.Jpip.C85_zero_in_length`

## none

* `Verif.Jpip.C06_rejected_append_creates_bin`
* `Verif.Jpip.C06_merge_can_lose_completeness`
* `Verif.Tile.C26_replay_component_aliases`
* `Verif.Cs.C37_many_tile_parts_undefined`
* `Verif.Img.C76_be16_avx2_wrong`

## propext

* `Verif.Jpip.C10_large_ids_collide`
* `Verif.Jpip.C12_identifiers_not_dense`
* `Verif.Jpip.C12_huge_identifier_aliases`
* `Verif.Jpip.C12_wrap_collides`
* `Verif.Jpip.C13_huge_canvas_wraps`
* `Verif.Jpip.C14_boundary_precinct_missing`
* `Verif.Jpip.C14_repeated_component_duplicates`
* `Verif.Jpip.C14_wide_region_wraps`
* `Verif.Rtp.C17_padding_is_kept`
* `Verif.Rtp.C18_join_inside_frame`
* `Verif.Rtp.C18_split_header_truncated`
* `Verif.Rtp.C18_tail_loss_drops_next`
* `Verif.Rtp.C19_released_buffer_reused`
* `Verif.Tile.C25_tile_end_wraps`
* `Verif.Dwt.C27_empty_level_undefined`
* `Verif.Cs.C36_precinct_exponent_spills`
* `Verif.Cs.C36_exponent_truncated`
* `Verif.Cs.C36_cap_twice_refused`
* `Verif.Cs.C37_empty_source_overreads`
* `Verif.Cs.C37_skip_wraps`
* `Verif.Cs.C37_empty_tile_part_overreads`
* `Verif.Jpip.C38_open_length_takes_end_marker`
* `Verif.Jpip.C40_ext_precinct_confused`
* `Verif.Jpip.C40_longer_bin_replaces`
* `Verif.Jph.C47_mixed_signs_misdescribed`
* `Verif.Cs.C48_field_read_behind_segment`
* `Verif.Cs.C49_unsorted_ignored`
* `Verif.Cs.C49_overridden_counts`
* `Verif.Cs.C51_reported_too_large`
* `Verif.Cs.C51_buffer_too_large`
* `Verif.Cs.C52_short_segment_miscounted`
* `Verif.Ebcot.C53_carry_overflows`
* `Verif.Ebcot.C55_sig_table`
* `Verif.Ebcot.C55_sign_table`
* `Verif.Ebcot.C58_too_many_passes`
* `Verif.Ebcot.C58_too_many_zero_bitplanes`
* `Verif.Ebcot.C58_mb31`
* `Verif.Ebcot.C58_roi_shift_overflows`
* `Verif.Tile.C65_one_bit_overflow`
* `Verif.Tile.C65_deeper_component_overflows`
* `Verif.Tile.C65_guard_bits_wrap`
* `Verif.Tile.Pipe.C70_tile_area_wraps`
* `Verif.Tile.Pipe.C72_guard_bits_understate`
* `Verif.Tile.Pipe.C72_same_ccap15`
* `Verif.Img.C76_empty_component`
* `Verif.Img.C76_cut_header`
* `Verif.Img.C76_number_hangs`
* `Verif.Img.C76_ppm_signed`
* `Verif.Tile.Rows.C77_strips_aligned`
* `Verif.Tile.Rows.C77_misaligned_strips`
* `Verif.Tile.Rows.C77_file_wrong_factor`
* `Verif.Tile.Rows.C77_band_420_file`
* `Verif.Jpip.C87_close_list`
