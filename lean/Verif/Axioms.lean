import Verif.Laya.ParseProps
import Verif.Laya.HttpProps
import Verif.Laya.ServerProps
import Verif.Jp2.BioProps
import Verif.Jp2.T2CodesProps
import Verif.Jp2.CioProps
import Verif.Jp2.MathProps
import Verif.Jp2.MctProps
import Verif.Jp2.DwtProps
import Verif.Jp2.TgtProps
import Verif.Jp2.MqcProps
import Verif.Jp2.SparseProps
import Verif.Jp2.StreamProps
import Verif.Jp2.PiProps
import Verif.Jp2.T1Props
import Verif.Jp2.T1StdProps
import Verif.Jp2.TcdProps
import Verif.Jp2.T2Props
import Verif.Jp2.T2SafeProps
import Verif.Jp2.T1SafeProps
import Verif.Jp2.T2SkipProps
import Verif.Jp2.PiEncProps
import Verif.Jp2.T2TileProps
import Verif.Jp2.HdrProps
import Verif.Jp2.HdrStdProps
import Verif.Jp2.BoxProps
import Verif.Jp2.BoxColorProps
import Verif.Jp2.BoxStdProps
import Verif.Jp2.BoxCutProps
import Verif.Jp2.TpProps
import Verif.Jp2.TpFullProps
import Verif.Jp2.TpOrderProps
import Verif.Jp2.TpWriteProps
import Verif.Jp2.SetupProps
import Verif.Jp2.SetupMoreProps
import Verif.Jp2.SetupProfileProps
import Verif.Jp2.AreaProps
import Verif.Jp2.AreaOne
import Verif.Jp2.AreaFile
import Verif.Jp2.PipeProps
import Verif.Jp2.PipeLossProps
import Verif.Jp2.CutProps
import Verif.Jp2.CodecProps
import Verif.Jp2.ExtraProps
import Verif.Jp2.PlainProps
import Verif.Jp2.TileOutProps
import Verif.Jp2.PocCheckProps
import Verif.Jp2.PltRoomProps
import Verif.Jp2.DwtPartProps
import Verif.Jp2.RoiProps
import Verif.Jp2.OwnProps
import Verif.Jp2.FixedProps
import Verif.Jp2.InvertProps
/-! Generated by tools/manifest.py: prints the axioms of every property theorem at build time. -/
#print axioms Laya.C01_region_grammar
#print axioms Laya.C02_region_valid
#print axioms Laya.C02_pct_origin_rejected
#print axioms Laya.C03_size_grammar
#print axioms Laya.C04_size_valid
#print axioms Laya.C05_rotation_grammar
#print axioms Laya.C06_quality_names
#print axioms Laya.C06_format_names
#print axioms Laya.C06_other_rejected
#print axioms Laya.C06_mime
#print axioms Laya.C07_pixel_region_error
#print axioms Laya.C07_pct_region_error
#print axioms Laya.C07_errors_render
#print axioms Laya.C08_url_round_trip
#print axioms Laya.C08_decode_iff
#print axioms Laya.C09_builds_disagree
#print axioms Laya.C09_release_shift_partial
#print axioms Laya.C09_release_rejects_partial
#print axioms Laya.C10_identifier_exact
#print axioms Laya.C10_decode_encode
#print axioms Laya.C10_plain_segment
#print axioms Laya.C11_info_json_panics
#print axioms Laya.C11_answered_partial
#print axioms Laya.C12_ok_iff
#print axioms Laya.C12_bad_request_iff
#print axioms Laya.C12_not_found_iff
#print axioms Laya.C13_escapes
#print axioms Laya.C13_relative_partial
#print axioms Laya.C13_absolute_partial
#print axioms Laya.C14_files_opened
#print axioms Laya.C15_extra_segments_ignored
#print axioms Laya.Server.C16_body_once
#print axioms Laya.Server.C17_cap
#print axioms Laya.Server.C17_progress
#print axioms Laya.Server.C17_sockets_unbounded
#print axioms Laya.Server.C18_read_ok_partial
#print axioms Laya.Server.C18_error_swallowed
#print axioms Laya.C19_f32_text
#print axioms Laya.C19_f32_unique
#print axioms Laya.C19_f32_onto
#print axioms Laya.C20_u32_text
#print axioms Laya.C20_no_wrap
#print axioms Laya.C21_same_identifier
#print axioms Jp2.Bio.C22_bio_round_trip
#print axioms Jp2.Bio.C23_no_marker
#print axioms Jp2.Bio.C24_encoder_in_bounds
#print axioms Jp2.Bio.C24_decoder_in_bounds
#print axioms Jp2.Bio.C24_flush_reports_overflow
#print axioms Jp2.Bio.C24_enough_room
#print axioms Jp2.Cio.C25_read_write
#print axioms Jp2.Cio.C25_write_frame
#print axioms Jp2.Cio.C25_defined
#print axioms Jp2.Cio.C25_write_read
#print axioms Jp2.Cio.C25_big_endian
#print axioms Jp2.Cio.C25_float_round_trip
#print axioms Jp2.Math.C26_uint_ceildiv
#print axioms Jp2.Math.C26_uint_ceildivpow2
#print axioms Jp2.Math.C26_int_ceildivpow2
#print axioms Jp2.Math.C26_int64_ceildivpow2
#print axioms Jp2.Math.C26_int_ceildiv
#print axioms Jp2.Math.C26_int_ceildiv_negative
#print axioms Jp2.Math.C26_uint64_ceildiv
#print axioms Jp2.Math.C26_floordivpow2
#print axioms Jp2.Math.C26_floorlog2
#print axioms Jp2.Math.C26_minmax
#print axioms Jp2.Math.C26_abs_clamp
#print axioms Jp2.Math.C26_no_overflow
#print axioms Jp2.Mct.C27_rct_lossless
#print axioms Jp2.Mct.C27_wide_samples_lost
#print axioms Jp2.Mct.C27_decode_overflow
#print axioms Jp2.Dwt.C28_row_coefficients
#print axioms Jp2.Dwt.C28_row_lossless
#print axioms Jp2.Dwt.C28_columns_lossless
#print axioms Jp2.Dwt.C28_empty_odd_row_overwritten
#print axioms Jp2.Dwt.C29_tile_lossless_partial
#print axioms Jp2.Dwt.C29_large_tile_lossless
#print axioms Jp2.Dwt.C29_checked_lossless_or_panic
#print axioms Jp2.Dwt.C29_thin_tile_corrupted
#print axioms Jp2.Dwt.C29_thin_tile_out_of_bounds
#print axioms Jp2.Tgt.C30_round_trip
#print axioms Jp2.Tgt.C30_encoder_total
#print axioms Jp2.Tgt.C30_any_bytes
#print axioms Jp2.Tgt.C30_threshold_1000_desynchronises
#print axioms Jp2.Tgt.C31_shape
#print axioms Jp2.Tgt.C31_leaf_reaches_root
#print axioms Jp2.Tgt.C31_no_leaves
#print axioms Jp2.Mqc.C32_round_trip
#print axioms Jp2.Mqc.C32_code_block
#print axioms Jp2.Mqc.C32_code_block_lengths
#print axioms Jp2.Mqc.C32_encoder_total
#print axioms Jp2.Mqc.C32_decoder_any_bytes
#print axioms Jp2.Mqc.C33_no_marker
#print axioms Jp2.Mqc.C33_no_marker_next
#print axioms Jp2.Mqc.C34_decoder_any_bytes
#print axioms Jp2.Mqc.C34_round_trip
#print axioms Jp2.Mqc.C34_encoder_total
#print axioms Jp2.Mqc.C34_stuffed
#print axioms Jp2.Sparse.C35_plain_array
#print axioms Jp2.Sparse.C35_create
#print axioms Jp2.Stream.C36_read_partial
#print axioms Jp2.Stream.C36_short_read_lost
#print axioms Jp2.Stream.C36_short_read_lost_witness
#print axioms Jp2.Stream.C36_history_partial
#print axioms Jp2.Stream.C36_skip
#print axioms Jp2.Stream.C36_seek
#print axioms Jp2.Stream.C36_seek_after_short_read
#print axioms Jp2.Stream.C36_bytes_left
#print axioms Jp2.Stream.C36_output
#print axioms Jp2.Pi.C37_order_partial
#print axioms Jp2.Pi.C37_every_packet_once_partial
#print axioms Jp2.Pi.C37_progression_changes_partial
#print axioms Jp2.Pi.C37_progression_changes_once_partial
#print axioms Jp2.Pi.C37_never_twice
#print axioms Jp2.Pi.C37_power_of_two_subsampling
#print axioms Jp2.Pi.C37_equal_subsampling
#print axioms Jp2.Pi.C37_unaligned_rpcl_misses
#print axioms Jp2.Pi.C37_pcrl_wide_precincts
#print axioms Jp2.Pi.C37_no_precincts_fails
#print axioms Jp2.T2.C37_layers_in_turn_partial
#print axioms Jp2.Bio.C38_packet_codes_round_trip
#print axioms Jp2.Bio.C38_above_164_lost
#print axioms Laya.Server.C39_error_stops_shard
#print axioms Laya.Server.C39_keeps_accepting_partial
#print axioms Jp2.Bio.C40_commacode_terminates
#print axioms Jp2.Bio.C40_numpasses_range
#print axioms Jp2.Mct.C41_custom_encode
#print axioms Jp2.Mct.C41_custom_decode
#print axioms Jp2.Mct.C41_custom_decode_total
#print axioms Jp2.Mqc.C42_state_table
#print axioms Jp2.Mqc.C42_decode_adapts
#print axioms Jp2.Mqc.C42_encode_adapts
#print axioms Jp2.Mqc.C42_initial_contexts
#print axioms Jp2.T1.C43_block_truncated
#print axioms Jp2.T1.C43_block_round_trip
#print axioms Jp2.T1.C43_block_lossless
#print axioms Jp2.T1.C43_large_coefficient_lost
#print axioms Jp2.T1.C44_bit_planes
#print axioms Jp2.T1.C44_encoder
#print axioms Jp2.T1.C44_decoder
#print axioms Jp2.Tcd.C45_partition
#print axioms Jp2.Tcd.C45_tiles
#print axioms Jp2.Tcd.C45_blocks
#print axioms Jp2.Tcd.C45_precincts
#print axioms Jp2.Tcd.C45_encoder_decoder_agree
#print axioms Jp2.Tcd.C45_total
#print axioms Jp2.Tcd.C45_every_point_in_one_tile
#print axioms Jp2.T2.C46_packets_round_trip
#print axioms Jp2.T2.C46_encoder_needs_exact_room
#print axioms Jp2.T2.C46_blocks_fit
#print axioms Jp2.T2.C46_received_block_decodes
#print axioms Jp2.T2.C46_coefficients_arrive
#print axioms Jp2.T2.C47_any_bytes_no_panic
#print axioms Jp2.T2.C47_strict_blocks_decodable
#print axioms Jp2.T2.C47_no_guard_bits_panics
#print axioms Jp2.T2.C47_not_strict_claims_too_much
#print axioms Jp2.T1.C48_block_any_bytes
#print axioms Jp2.T1.C48_tile_any_bytes
#print axioms Jp2.T1.C48_not_strict_out_of_bounds
#print axioms Jp2.T2.C49_skip_is_decode_and_forget
#print axioms Jp2.T2.C49_part_agrees_with_whole
#print axioms Jp2.T2.C49_not_strict_differs
#print axioms Jp2.T2.C50_tile_round_trip
#print axioms Jp2.T2.C50_needs_exact_room
#print axioms Jp2.T2.C50_packet_sizes
#print axioms Jp2.T2.C50_packet_numbers
#print axioms Jp2.T2.C50_tile_arrives
#print axioms Jp2.Pi.C51_same_packets_partial
#print axioms Jp2.Pi.C51_progression_changes_partial
#print axioms Jp2.Pi.C51_tile_parts_partial
#print axioms Jp2.Pi.C51_rpcl_never_encoded
#print axioms Jp2.Pi.C51_rpcl_panics
#print axioms Jp2.Pi.C51_later_layers_lost
#print axioms Jp2.Pi.C51_overlap_written_twice
#print axioms Jp2.Pi.C51_tile_parts_repeat
#print axioms Jp2.Pi.C51_tile_parts_extra_packets
#print axioms Jp2.Hdr.C52_header_read_back
#print axioms Jp2.Hdr.C52_long_comment_unreadable
#print axioms Jp2.Hdr.C52_coc_component_lost
#print axioms Jp2.Hdr.C52_unit_precinct_refused
#print axioms Jp2.Hdr.C52_header_is_standard
#print axioms Jp2.Hdr.C53_header_total
#print axioms Jp2.Hdr.C53_header_in_range
#print axioms Jp2.Hdr.C53_tiles_usable
#print axioms Jp2.Hdr.C53_reduce_64_panics
#print axioms Jp2.Hdr.C54_unknown_skipped_partial
#print axioms Jp2.Hdr.C54_odd_body_refused
#print axioms Jp2.Hdr.C54_marker_in_body_taken
#print axioms Jp2.Hdr.C55_packed_headers
#print axioms Jp2.Hdr.C55_merge_sound
#print axioms Jp2.Hdr.C55_cut_length_refused
#print axioms Jp2.Hdr.C56_component_style
#print axioms Jp2.Hdr.C56_component_quantization
#print axioms Jp2.Hdr.C56_component_region
#print axioms Jp2.Hdr.C56_order_changes
#print axioms Jp2.Hdr.C56_bit_depths
#print axioms Jp2.Hdr.C56_comment_ignored
#print axioms Jp2.Hdr.C56_component_first_lost
#print axioms Jp2.Hdr.C56_order_change_first_lost
#print axioms Jp2.Box.C57_file_total
#print axioms Jp2.Box.C57_release_total
#print axioms Jp2.Box.C57_in_range
#print axioms Jp2.Box.C57_wide_palette_panics
#print axioms Jp2.Box.C57_unknown_length_panics
#print axioms Jp2.Box.C57_box_length_fits
#print axioms Jp2.Box.C58_signature_partial
#print axioms Jp2.Box.C58_signature_required
#print axioms Jp2.Box.C58_unsigned_file_accepted
#print axioms Jp2.Box.C58_no_codestream_accepted
#print axioms Jp2.Box.C59_unknown_boxes_skipped
#print axioms Jp2.Box.C59_header_unaffected
#print axioms Jp2.Box.C60_file_is_standard
#print axioms Jp2.Box.C60_file_read_back
#print axioms Jp2.Box.C60_whole_file
#print axioms Jp2.Box.C60_sign_lost
#print axioms Jp2.Box.C60_profile_never_written
#print axioms Jp2.Box.C60_profile_panics
#print axioms Jp2.Box.C60_color_space_lost
#print axioms Jp2.Box.C61_color_safe
#print axioms Jp2.Box.C61_palette_lookup_partial
#print axioms Jp2.Box.C61_palette_samples_freed
#print axioms Jp2.Box.C61_shared_component_wrong
#print axioms Jp2.Box.C61_not_applied
#print axioms Jp2.Box.C62_accepted_iff
#print axioms Jp2.Box.C62_components_kept
#print axioms Jp2.Box.C62_colors_placed
#print axioms Jp2.Box.C62_kinds_partial
#print axioms Jp2.Box.C62_opacity_lost
#print axioms Jp2.Box.C62_first_undefined_accepted
#print axioms Jp2.Box.C63_palette_read
#print axioms Jp2.Box.C63_deep_palette_wrong
#print axioms Jp2.Box.C63_mapping_read
#print axioms Jp2.Box.C63_definitions_read
#print axioms Jp2.Box.C63_color_read
#print axioms Jp2.Box.C63_lab_default_short
#print axioms Jp2.Box.C63_later_color_ignored
#print axioms Jp2.Box.C63_file_read
#print axioms Jp2.Box.C64_cut_refused
#print axioms Jp2.Box.C64_twice_refused
#print axioms Jp2.Box.C64_mapping_needs_palette
#print axioms Jp2.Box.C64_ragged_brands_refused
#print axioms Jp2.Tp.C65_tiles
#print axioms Jp2.Tp.C65_tile_style
#print axioms Jp2.Tp.C65_tile_quantization
#print axioms Jp2.Tp.C65_tile_region
#print axioms Jp2.Tp.C65_tile_order_changes_partial
#print axioms Jp2.Tp.C65_tile_comment
#print axioms Jp2.Tp.C65_empty_tile_lost
#print axioms Jp2.Tp.C65_unwanted_last_tile
#print axioms Jp2.Tp.C65_unknown_segment_refused
#print axioms Jp2.Tp.C65_lenient_mode_loses
#print axioms Jp2.Tp.C65_order_changes_not_replaced
#print axioms Jp2.Tp.C65_part_taken
#print axioms Jp2.Tp.C65_short_count_noticed
#print axioms Jp2.Tp.C66_tiles_total
#print axioms Jp2.Tp.C66_tiles_sound
#print axioms Jp2.Tp.C66_calls_total
#print axioms Jp2.Tp.C66_memory_bounded
#print axioms Jp2.Tp.C67_codestream
#print axioms Jp2.Tp.C67_read_back
#print axioms Jp2.Tp.C67_packet_lengths_room
#print axioms Jp2.Tp.C67_safe
#print axioms Jp2.Tp.C67_too_many_resolutions
#print axioms Jp2.Tp.C67_many_changes_refused
#print axioms Jp2.Tp.C67_empty_tile_refused
#print axioms Jp2.Tp.C67_many_parts_lost
#print axioms Jp2.Setup.C68_header_as_asked
#print axioms Jp2.Setup.C68_small_precincts_refused
#print axioms Jp2.Setup.C68_bad_values_refused
#print axioms Jp2.Setup.C68_safe
#print axioms Jp2.Setup.C68_careless_panics
#print axioms Jp2.Setup.C68_too_many_resolutions_refused
#print axioms Jp2.Setup.C68_changes_first_partial
#print axioms Jp2.Setup.C68_changes_mixed_up
#print axioms Jp2.Setup.C68_cinema_profile
#print axioms Jp2.Setup.C68_cinema_not_checked
#print axioms Jp2.Setup.C68_imf_profile
#print axioms Jp2.Setup.C68_imf_not_checked
#print axioms Jp2.Area.C69_area_set
#print axioms Jp2.Area.C69_tiles_needed
#print axioms Jp2.Area.C69_exact_tiles
#print axioms Jp2.Area.C69_exact
#print axioms Jp2.Area.C69_components
#print axioms Jp2.Area.C69_tile
#print axioms Jp2.Area.C69_factor
#print axioms Jp2.Area.C69_tile_wraps
#print axioms Jp2.Area.C69_refused_factor_sticks
#print axioms Jp2.Area.C69_empty_area
#print axioms Jp2.Area.C69_from_codestream
#print axioms Jp2.Pipe.C70_stages_lossless
#print axioms Jp2.Pipe.C70_tile_lossless
#print axioms Jp2.Pipe.C70_enough_planes
#print axioms Jp2.Pipe.C70_planes_by_band
#print axioms Jp2.Pipe.C70_default_planes_too_few
#print axioms Jp2.Cut.C71_tile_cut
#print axioms Jp2.Cut.C71_written_tile
#print axioms Jp2.Cut.C71_written_size
#print axioms Jp2.Cut.C71_signed_samples_lost
#print axioms Jp2.Cut.C71_offset_image_misread
#print axioms Jp2.Cut.C71_empty_component_panics
#print axioms Jp2.Codec.C72_image_lossless
#print axioms Jp2.Codec.C72_roomy_lossless
#print axioms Jp2.Codec.C72_planes_by_band
#print axioms Jp2.Setup.C73_options_set
#print axioms Jp2.Setup.C73_options_refused
#print axioms Jp2.Setup.C73_nonsense_accepted
#print axioms Jp2.Setup.C74_plain_lossless
#print axioms Jp2.Setup.C74_default_guard_bits_lose
#print axioms Jp2.TileOut.C75_size_told
#print axioms Jp2.TileOut.C75_tile_bytes
#print axioms Jp2.TileOut.C75_small_buffer_refused
#print axioms Jp2.TileOut.C75_written_back
#print axioms Jp2.TileOut.C75_empty_component_panics
#print axioms Jp2.TileOut.C75_nothing_panics
#print axioms Jp2.Setup.C76_missing_packets
#print axioms Jp2.Setup.C76_silent_loss
#print axioms Jp2.PltRoom.C77_every_length_noted
#print axioms Jp2.PltRoom.C77_lengths_fit
#print axioms Jp2.Dwt.C78_window_as_whole
#print axioms Jp2.Dwt.C78_window_as_whole_any_build
#print axioms Jp2.Dwt.C78_kept_blocks_decoded
#print axioms Jp2.Dwt.C78_stale_cell_overflow
#print axioms Jp2.T1.C79_announced_shift
#print axioms Jp2.T1.C79_own_region_lossless
#print axioms Jp2.T1.C79_shifted_back
#print axioms Jp2.T1.C79_max_shift_partial
#print axioms Jp2.T1.C79_background_lost
#print axioms Jp2.T1.C79_bypass_lost
#print axioms Jp2.Own.C80_no_double_free
#print axioms Jp2.Own.C80_nothing_lost
#print axioms Jp2.Own.C80_take_moves
#print axioms Jp2.Own.C80_create
#print axioms Jp2.Own.C80_clone_double_free
#print axioms Jp2.Own.C80_profile_lost
#print axioms Jp2.Own.C80_header_lost
#print axioms Jp2.T2.C81_fixed_layers
#print axioms Jp2.T2.C81_sixteen_is_all
#print axioms Jp2.T2.C81_as_thresholds
#print axioms Jp2.T2.C81_large_entry_reads_past
#print axioms Jp2.T2.C81_falling_entry_wraps
#print axioms Jp2.Invert.C82_inversion_never_succeeds
#print axioms Jp2.Invert.C82_zero_column_refused
