{
 "claims": [
  {
   "property": "C01",
   "status": "proved",
   "theorems": [
    "Laya.C01_region_grammar"
   ],
   "note": "Texts up to 65000 characters (exponent accumulation in f32::from_str stops at 0x10000)."
  },
  {
   "property": "C02",
   "status": "proved",
   "theorems": [
    "Laya.C02_region_valid",
    "Laya.C02_pct_origin_rejected"
   ],
   "note": ""
  },
  {
   "property": "C03",
   "status": "proved",
   "theorems": [
    "Laya.C03_size_grammar"
   ],
   "note": ""
  },
  {
   "property": "C04",
   "status": "proved",
   "theorems": [
    "Laya.C04_size_valid"
   ],
   "note": ""
  },
  {
   "property": "C05",
   "status": "proved",
   "theorems": [
    "Laya.C05_rotation_grammar"
   ],
   "note": ""
  },
  {
   "property": "C06",
   "status": "proved",
   "theorems": [
    "Laya.C06_quality_names",
    "Laya.C06_format_names",
    "Laya.C06_other_rejected",
    "Laya.C06_mime"
   ],
   "note": ""
  },
  {
   "property": "C07",
   "status": "proved",
   "theorems": [
    "Laya.C07_pixel_region_error",
    "Laya.C07_pct_region_error",
    "Laya.C07_errors_render"
   ],
   "note": ""
  },
  {
   "property": "C08",
   "status": "proved",
   "theorems": [
    "Laya.C08_url_round_trip",
    "Laya.C08_decode_iff"
   ],
   "note": ""
  },
  {
   "property": "C09",
   "status": "partial",
   "theorems": [
    "Laya.C09_builds_disagree",
    "Laya.C09_release_shift_partial",
    "Laya.C09_release_rejects_partial"
   ],
   "note": "False of the code (the release build skips segments.next() inside debug_assert!): C09_builds_disagree. Exact relation between the builds and total rejection by the release build are proved."
  },
  {
   "property": "C10",
   "status": "proved",
   "theorems": [
    "Laya.C10_identifier_exact",
    "Laya.C10_decode_encode",
    "Laya.C10_plain_segment"
   ],
   "note": ""
  },
  {
   "property": "C11",
   "status": "partial",
   "theorems": [
    "Laya.C11_info_json_panics",
    "Laya.C11_answered_partial"
   ],
   "note": "False of the code: GET ...info.json hits unimplemented!(). Everything else is proved to be answered."
  },
  {
   "property": "C12",
   "status": "proved",
   "theorems": [
    "Laya.C12_ok_iff",
    "Laya.C12_bad_request_iff",
    "Laya.C12_not_found_iff"
   ],
   "note": ""
  },
  {
   "property": "C13",
   "status": "partial",
   "theorems": [
    "Laya.C13_escapes",
    "Laya.C13_relative_partial",
    "Laya.C13_absolute_partial"
   ],
   "note": "False of the code: C13_escapes. Exact condition under which the file stays below the directory is proved."
  },
  {
   "property": "C14",
   "status": "proved",
   "theorems": [
    "Laya.C14_files_opened"
   ],
   "note": ""
  },
  {
   "property": "C15",
   "status": "proved",
   "theorems": [
    "Laya.C15_extra_segments_ignored"
   ],
   "note": ""
  },
  {
   "property": "C16",
   "status": "proved",
   "theorems": [
    "Laya.Server.C16_body_once"
   ],
   "note": ""
  },
  {
   "property": "C17",
   "status": "proved",
   "theorems": [
    "Laya.Server.C17_cap",
    "Laya.Server.C17_progress",
    "Laya.Server.C17_sockets_unbounded"
   ],
   "note": ""
  },
  {
   "property": "C18",
   "status": "partial",
   "theorems": [
    "Laya.Server.C18_read_ok_partial",
    "Laya.Server.C18_error_swallowed"
   ],
   "note": "False for socket errors: C18_error_swallowed."
  },
  {
   "property": "C19",
   "status": "proved",
   "theorems": [
    "Laya.C19_f32_text",
    "Laya.C19_f32_unique",
    "Laya.C19_f32_onto"
   ],
   "note": ""
  },
  {
   "property": "C20",
   "status": "proved",
   "theorems": [
    "Laya.C20_u32_text",
    "Laya.C20_no_wrap"
   ],
   "note": ""
  },
  {
   "property": "C21",
   "status": "proved",
   "theorems": [
    "Laya.C21_same_identifier"
   ],
   "note": ""
  },
  {
   "property": "C22",
   "status": "proved",
   "theorems": [
    "Jp2.Bio.C22_bio_round_trip"
   ],
   "note": ""
  },
  {
   "property": "C23",
   "status": "proved",
   "theorems": [
    "Jp2.Bio.C23_no_marker"
   ],
   "note": ""
  },
  {
   "property": "C24",
   "status": "proved",
   "theorems": [
    "Jp2.Bio.C24_encoder_in_bounds",
    "Jp2.Bio.C24_decoder_in_bounds",
    "Jp2.Bio.C24_flush_reports_overflow",
    "Jp2.Bio.C24_enough_room"
   ],
   "note": ""
  },
  {
   "property": "C25",
   "status": "proved",
   "theorems": [
    "Jp2.Cio.C25_read_write",
    "Jp2.Cio.C25_write_frame",
    "Jp2.Cio.C25_defined",
    "Jp2.Cio.C25_write_read",
    "Jp2.Cio.C25_big_endian",
    "Jp2.Cio.C25_float_round_trip"
   ],
   "note": ""
  },
  {
   "property": "C26",
   "status": "proved",
   "theorems": [
    "Jp2.Math.C26_uint_ceildiv",
    "Jp2.Math.C26_uint_ceildivpow2",
    "Jp2.Math.C26_int_ceildivpow2",
    "Jp2.Math.C26_int64_ceildivpow2",
    "Jp2.Math.C26_int_ceildiv",
    "Jp2.Math.C26_int_ceildiv_negative",
    "Jp2.Math.C26_uint64_ceildiv",
    "Jp2.Math.C26_floordivpow2",
    "Jp2.Math.C26_floorlog2",
    "Jp2.Math.C26_minmax",
    "Jp2.Math.C26_abs_clamp",
    "Jp2.Math.C26_no_overflow"
   ],
   "note": "int_ceildiv is wrong for a <= -b: C26_int_ceildiv_negative."
  },
  {
   "property": "C27",
   "status": "proved",
   "theorems": [
    "Jp2.Mct.C27_rct_lossless",
    "Jp2.Mct.C27_wide_samples_lost",
    "Jp2.Mct.C27_decode_overflow"
   ],
   "note": "Samples of up to 30 bits; wider samples are lost (C27_wide_samples_lost) and decoding arbitrary coefficients can overflow (C27_decode_overflow)."
  },
  {
   "property": "C28",
   "status": "proved",
   "theorems": [
    "Jp2.Dwt.C28_row_coefficients",
    "Jp2.Dwt.C28_row_lossless",
    "Jp2.Dwt.C28_columns_lossless",
    "Jp2.Dwt.C28_empty_odd_row_overwritten"
   ],
   "note": "Samples below 2^29 (so that no step overflows). A row of no samples at an odd origin is not a no-op: C28_empty_odd_row_overwritten."
  },
  {
   "property": "C29",
   "status": "partial",
   "theorems": [
    "Jp2.Dwt.C29_tile_lossless_partial",
    "Jp2.Dwt.C29_large_tile_lossless",
    "Jp2.Dwt.C29_checked_lossless_or_panic",
    "Jp2.Dwt.C29_thin_tile_corrupted",
    "Jp2.Dwt.C29_thin_tile_out_of_bounds"
   ],
   "note": "False for tiles with a level of no extent at an odd origin: C29_thin_tile_corrupted, C29_thin_tile_out_of_bounds. All other tiles proved."
  },
  {
   "property": "C30",
   "status": "proved",
   "theorems": [
    "Jp2.Tgt.C30_round_trip",
    "Jp2.Tgt.C30_encoder_total",
    "Jp2.Tgt.C30_any_bytes",
    "Jp2.Tgt.C30_threshold_1000_desynchronises"
   ],
   "note": "Queries with thresholds up to 999 per node; a threshold of 1000 and beyond desynchronises encoder and decoder: C30_threshold_1000_desynchronises."
  },
  {
   "property": "C31",
   "status": "proved",
   "theorems": [
    "Jp2.Tgt.C31_shape",
    "Jp2.Tgt.C31_leaf_reaches_root",
    "Jp2.Tgt.C31_no_leaves"
   ],
   "note": ""
  },
  {
   "property": "C32",
   "status": "proved",
   "theorems": [
    "Jp2.Mqc.C32_round_trip",
    "Jp2.Mqc.C32_code_block",
    "Jp2.Mqc.C32_code_block_lengths",
    "Jp2.Mqc.C32_encoder_total",
    "Jp2.Mqc.C32_decoder_any_bytes"
   ],
   "note": "Encoder termination by opj_mqc_flush."
  },
  {
   "property": "C33",
   "status": "proved",
   "theorems": [
    "Jp2.Mqc.C33_no_marker",
    "Jp2.Mqc.C33_no_marker_next"
   ],
   "note": ""
  },
  {
   "property": "C34",
   "status": "proved",
   "theorems": [
    "Jp2.Mqc.C34_decoder_any_bytes",
    "Jp2.Mqc.C34_round_trip",
    "Jp2.Mqc.C34_encoder_total",
    "Jp2.Mqc.C34_stuffed"
   ],
   "note": ""
  },
  {
   "property": "C35",
   "status": "proved",
   "theorems": [
    "Jp2.Sparse.C35_plain_array",
    "Jp2.Sparse.C35_create"
   ],
   "note": ""
  },
  {
   "property": "C36",
   "status": "partial",
   "theorems": [
    "Jp2.Stream.C36_read_partial",
    "Jp2.Stream.C36_short_read_lost",
    "Jp2.Stream.C36_short_read_lost_witness",
    "Jp2.Stream.C36_history_partial",
    "Jp2.Stream.C36_skip",
    "Jp2.Stream.C36_seek",
    "Jp2.Stream.C36_seek_after_short_read",
    "Jp2.Stream.C36_bytes_left",
    "Jp2.Stream.C36_output"
   ],
   "note": "False of the code for reads crossing the end of the file: C36_short_read_lost, C36_seek_after_short_read. Proved for all other histories; output streams in full."
  },
  {
   "property": "C37",
   "status": "partial",
   "theorems": [
    "Jp2.Pi.C37_order_partial",
    "Jp2.Pi.C37_every_packet_once_partial",
    "Jp2.Pi.C37_progression_changes_partial",
    "Jp2.Pi.C37_progression_changes_once_partial",
    "Jp2.Pi.C37_never_twice",
    "Jp2.Pi.C37_power_of_two_subsampling",
    "Jp2.Pi.C37_equal_subsampling",
    "Jp2.Pi.C37_unaligned_rpcl_misses",
    "Jp2.Pi.C37_pcrl_wide_precincts",
    "Jp2.Pi.C37_no_precincts_fails",
    "Jp2.T2.C37_layers_in_turn_partial"
   ],
   "note": "False of the code for RPCL/PCRL when precinct steps do not divide each other (C37_unaligned_rpcl_misses) and for PCRL/CPRL when a precinct step needs more than 32 bits (C37_pcrl_wide_precincts). Proved for all other tiles whose include index fits 32 bits, including progression order changes; C37_never_twice is unconditional."
  },
  {
   "property": "C38",
   "status": "proved",
   "theorems": [
    "Jp2.Bio.C38_packet_codes_round_trip",
    "Jp2.Bio.C38_above_164_lost"
   ],
   "note": "Pass counts up to 164; above that the code is lossy: C38_above_164_lost."
  },
  {
   "property": "C39",
   "status": "partial",
   "theorems": [
    "Laya.Server.C39_error_stops_shard",
    "Laya.Server.C39_keeps_accepting_partial"
   ],
   "note": "False of the code: C39_error_stops_shard."
  },
  {
   "property": "C40",
   "status": "proved",
   "theorems": [
    "Jp2.Bio.C40_commacode_terminates",
    "Jp2.Bio.C40_numpasses_range"
   ],
   "note": ""
  },
  {
   "property": "C41",
   "status": "proved",
   "theorems": [
    "Jp2.Mct.C41_custom_encode",
    "Jp2.Mct.C41_custom_decode",
    "Jp2.Mct.C41_custom_decode_total"
   ],
   "note": ""
  },
  {
   "property": "C42",
   "status": "proved",
   "theorems": [
    "Jp2.Mqc.C42_state_table",
    "Jp2.Mqc.C42_decode_adapts",
    "Jp2.Mqc.C42_encode_adapts",
    "Jp2.Mqc.C42_initial_contexts"
   ],
   "note": ""
  },
  {
   "property": "C43",
   "status": "proved",
   "theorems": [
    "Jp2.T1.C43_block_truncated",
    "Jp2.T1.C43_block_round_trip",
    "Jp2.T1.C43_block_lossless",
    "Jp2.T1.C43_large_coefficient_lost"
   ],
   "note": "Stated for blocks the encoder finishes (buffer large enough). Coefficients of the reversible path below 2^25; 2^25 itself changes sign: C43_large_coefficient_lost. Truncation at segment ends."
  },
  {
   "property": "C44",
   "status": "proved",
   "theorems": [
    "Jp2.T1.C44_bit_planes",
    "Jp2.T1.C44_encoder",
    "Jp2.T1.C44_decoder"
   ],
   "note": "Encoder: for blocks it finishes (buffer large enough). Decoder: up to 25 bit planes, which is all the encoder can produce; no region of interest shift."
  },
  {
   "property": "C45",
   "status": "proved",
   "theorems": [
    "Jp2.Tcd.C45_partition",
    "Jp2.Tcd.C45_tiles",
    "Jp2.Tcd.C45_blocks",
    "Jp2.Tcd.C45_precincts",
    "Jp2.Tcd.C45_encoder_decoder_agree",
    "Jp2.Tcd.C45_total",
    "Jp2.Tcd.C45_every_point_in_one_tile"
   ],
   "note": ""
  },
  {
   "property": "C46",
   "status": "proved",
   "theorems": [
    "Jp2.T2.C46_packets_round_trip",
    "Jp2.T2.C46_encoder_needs_exact_room",
    "Jp2.T2.C46_blocks_fit",
    "Jp2.T2.C46_received_block_decodes",
    "Jp2.T2.C46_coefficients_arrive"
   ],
   "note": "Up to 999 layers, blocks whose zero bit planes number less than 999 and whose data is below 2^25 bytes; one precinct at a time. The floating-point comparison of the rate control is an arbitrary choice function. High-throughput blocks (style bit 0x40) have no encoder."
  },
  {
   "property": "C47",
   "status": "proved",
   "theorems": [
    "Jp2.T2.C47_any_bytes_no_panic",
    "Jp2.T2.C47_strict_blocks_decodable",
    "Jp2.T2.C47_no_guard_bits_panics",
    "Jp2.T2.C47_not_strict_claims_too_much"
   ],
   "note": "Bands with a negative number of bit planes panic (C47_no_guard_bits_panics). The block guarantee is false outside strict mode: C47_not_strict_claims_too_much. Inputs below 2^28 bytes."
  },
  {
   "property": "C48",
   "status": "proved",
   "theorems": [
    "Jp2.T1.C48_block_any_bytes",
    "Jp2.T1.C48_tile_any_bytes",
    "Jp2.T1.C48_not_strict_out_of_bounds"
   ],
   "note": "Segments must lie within the data (what C47 provides in strict mode); outside strict mode the decoder leaves its data: C48_not_strict_out_of_bounds. The region of interest unshift after decoding is not modelled."
  },
  {
   "property": "C49",
   "status": "proved",
   "theorems": [
    "Jp2.T2.C49_skip_is_decode_and_forget",
    "Jp2.T2.C49_part_agrees_with_whole",
    "Jp2.T2.C49_not_strict_differs"
   ],
   "note": "Strict mode; the layer order of each precinct's packets is a hypothesis, met by the decoder's packet sequences (C37_layers_in_turn_partial). Outside strict mode the two differ when a packet is cut short: C49_not_strict_differs."
  },
  {
   "property": "C50",
   "status": "proved",
   "theorems": [
    "Jp2.T2.C50_tile_round_trip",
    "Jp2.T2.C50_needs_exact_room",
    "Jp2.T2.C50_packet_sizes",
    "Jp2.T2.C50_packet_numbers",
    "Jp2.T2.C50_tile_arrives"
   ],
   "note": "Whole loops over packets and tile-parts on both sides. C50_tile_round_trip takes any packet sequence with layers in turn; C50_tile_arrives uses the encoder's and the decoder's own packet iterators under the conditions of C51 (no progression changes)."
  },
  {
   "property": "C51",
   "status": "partial",
   "theorems": [
    "Jp2.Pi.C51_same_packets_partial",
    "Jp2.Pi.C51_progression_changes_partial",
    "Jp2.Pi.C51_tile_parts_partial",
    "Jp2.Pi.C51_rpcl_never_encoded",
    "Jp2.Pi.C51_rpcl_panics",
    "Jp2.Pi.C51_later_layers_lost",
    "Jp2.Pi.C51_overlap_written_twice",
    "Jp2.Pi.C51_tile_parts_repeat",
    "Jp2.Pi.C51_tile_parts_extra_packets"
   ],
   "note": "Holds without progression changes and divisions except for RPCL (C51_rpcl_panics), with progression changes that neither raise the last layer nor overlap, and with tile-part divisions at the outermost letter of LRCP, RLCP (equal precinct counts) and CPRL. The general statement is false of the code: C51_later_layers_lost, C51_overlap_written_twice, C51_tile_parts_repeat, C51_tile_parts_extra_packets. PCRL divided at positions is not covered."
  },
  {
   "property": "C52",
   "status": "proved",
   "theorems": [
    "Jp2.Hdr.C52_header_read_back",
    "Jp2.Hdr.C52_long_comment_unreadable",
    "Jp2.Hdr.C52_coc_component_lost",
    "Jp2.Hdr.C52_unit_precinct_refused",
    "Jp2.Hdr.C52_header_is_standard"
   ],
   "note": "Components share one coding style, as the encoder's set-up fills them in; otherwise the COC segments carry the wrong component (C52_coc_component_lost). Precincts of one sample above the lowest resolution and comments above 65531 bytes are written but not readable (C52_unit_precinct_refused, C52_long_comment_unreadable). Profiles that add POC (cinema 4K with TLM) or custom component transforms to the main header are not covered."
  },
  {
   "property": "C53",
   "status": "proved",
   "theorems": [
    "Jp2.Hdr.C53_header_total",
    "Jp2.Hdr.C53_header_in_range",
    "Jp2.Hdr.C53_tiles_usable",
    "Jp2.Hdr.C53_reduce_64_panics"
   ],
   "note": "For fewer than 64 discarded resolutions; from 64 on a checked build panics (C53_reduce_64_panics). The tile geometry is usable for images ending before 2^31."
  },
  {
   "property": "C54",
   "status": "partial",
   "theorems": [
    "Jp2.Hdr.C54_unknown_skipped_partial",
    "Jp2.Hdr.C54_odd_body_refused",
    "Jp2.Hdr.C54_marker_in_body_taken"
   ],
   "note": "Proved for bodies of an even number of bytes whose 16-bit words are below 0xFF00; the general claim is false of the code: C54_odd_body_refused, C54_marker_in_body_taken."
  },
  {
   "property": "C55",
   "status": "proved",
   "theorems": [
    "Jp2.Hdr.C55_packed_headers",
    "Jp2.Hdr.C55_merge_sound",
    "Jp2.Hdr.C55_cut_length_refused"
   ],
   "note": "Cuts inside a length field are refused by the code: C55_cut_length_refused."
  },
  {
   "property": "C56",
   "status": "proved",
   "theorems": [
    "Jp2.Hdr.C56_component_style",
    "Jp2.Hdr.C56_component_quantization",
    "Jp2.Hdr.C56_component_region",
    "Jp2.Hdr.C56_order_changes",
    "Jp2.Hdr.C56_bit_depths",
    "Jp2.Hdr.C56_comment_ignored",
    "Jp2.Hdr.C56_component_first_lost",
    "Jp2.Hdr.C56_order_change_first_lost"
   ],
   "note": "Segments behind the defaults they override. In front of them the code loses what they say: C56_component_first_lost, C56_order_change_first_lost. An end component of 256 among 256 components, which the standard writes as 0, is excluded."
  },
  {
   "property": "C57",
   "status": "proved",
   "theorems": [
    "Jp2.Box.C57_file_total",
    "Jp2.Box.C57_release_total",
    "Jp2.Box.C57_in_range",
    "Jp2.Box.C57_wide_palette_panics",
    "Jp2.Box.C57_unknown_length_panics",
    "Jp2.Box.C57_box_length_fits"
   ],
   "note": "Unconditional without overflow checks; with them, for data in which no palette box with 16 or more columns occurs (C57_wide_palette_panics). The stream must know its length: C57_unknown_length_panics."
  },
  {
   "property": "C58",
   "status": "partial",
   "theorems": [
    "Jp2.Box.C58_signature_partial",
    "Jp2.Box.C58_signature_required",
    "Jp2.Box.C58_unsigned_file_accepted",
    "Jp2.Box.C58_no_codestream_accepted"
   ],
   "note": "The full claim is false of the code: a box of the image header among the first two boxes stands in for everything (C58_unsigned_file_accepted). Without such a box it holds: C58_signature_required."
  },
  {
   "property": "C59",
   "status": "proved",
   "theorems": [
    "Jp2.Box.C59_unknown_boxes_skipped",
    "Jp2.Box.C59_header_unaffected"
   ],
   "note": "For files whose known boxes are in order. In front of a box of the image header that stands outside the header box the code itself treats unknown and known boxes differently."
  },
  {
   "property": "C60",
   "status": "proved",
   "theorems": [
    "Jp2.Box.C60_file_is_standard",
    "Jp2.Box.C60_file_read_back",
    "Jp2.Box.C60_whole_file",
    "Jp2.Box.C60_sign_lost",
    "Jp2.Box.C60_profile_never_written",
    "Jp2.Box.C60_profile_panics",
    "Jp2.Box.C60_color_space_lost"
   ],
   "note": "Components of one depth must have one sign (C60_sign_lost); images with a profile cannot be written (C60_profile_never_written); e-YCC and CMYK are lost (C60_color_space_lost). The codestream is the caller's (C52 gives its header)."
  },
  {
   "property": "C61",
   "status": "partial",
   "theorems": [
    "Jp2.Box.C61_color_safe",
    "Jp2.Box.C61_palette_lookup_partial",
    "Jp2.Box.C61_palette_samples_freed",
    "Jp2.Box.C61_shared_component_wrong",
    "Jp2.Box.C61_not_applied"
   ],
   "note": "Safety is proved in full. The colours are right up to the drop of the old components and only when channels use different components (C61_palette_lookup_partial); the image returned always points to freed memory (C61_palette_samples_freed), and a shared component gives wrong colours (C61_shared_component_wrong)."
  },
  {
   "property": "C62",
   "status": "partial",
   "theorems": [
    "Jp2.Box.C62_accepted_iff",
    "Jp2.Box.C62_components_kept",
    "Jp2.Box.C62_colors_placed",
    "Jp2.Box.C62_kinds_partial",
    "Jp2.Box.C62_opacity_lost",
    "Jp2.Box.C62_first_undefined_accepted"
   ],
   "note": "Placement holds for any order of definitions; kinds only when colours are defined first (C62_opacity_lost). A definition for the first channel is not asked for (C62_first_undefined_accepted)."
  },
  {
   "property": "C63",
   "status": "proved",
   "theorems": [
    "Jp2.Box.C63_palette_read",
    "Jp2.Box.C63_deep_palette_wrong",
    "Jp2.Box.C63_mapping_read",
    "Jp2.Box.C63_definitions_read",
    "Jp2.Box.C63_color_read",
    "Jp2.Box.C63_lab_default_short",
    "Jp2.Box.C63_later_color_ignored",
    "Jp2.Box.C63_file_read"
   ],
   "note": "Palette columns of 33 to 38 bits are read wrongly (C63_deep_palette_wrong); CIELab with default parameters is kept one number short (C63_lab_default_short). With overflow checks, palettes of at most 15 columns (C57_wide_palette_panics)."
  },
  {
   "property": "C64",
   "status": "proved",
   "theorems": [
    "Jp2.Box.C64_cut_refused",
    "Jp2.Box.C64_twice_refused",
    "Jp2.Box.C64_mapping_needs_palette",
    "Jp2.Box.C64_ragged_brands_refused"
   ],
   "note": ""
  },
  {
   "property": "C65",
   "status": "partial",
   "theorems": [
    "Jp2.Tp.C65_tiles",
    "Jp2.Tp.C65_tile_style",
    "Jp2.Tp.C65_tile_quantization",
    "Jp2.Tp.C65_tile_region",
    "Jp2.Tp.C65_tile_order_changes_partial",
    "Jp2.Tp.C65_tile_comment",
    "Jp2.Tp.C65_empty_tile_lost",
    "Jp2.Tp.C65_unwanted_last_tile",
    "Jp2.Tp.C65_unknown_segment_refused",
    "Jp2.Tp.C65_lenient_mode_loses",
    "Jp2.Tp.C65_order_changes_not_replaced",
    "Jp2.Tp.C65_part_taken",
    "Jp2.Tp.C65_short_count_noticed"
   ],
   "note": "Proved in full for tiles with data, unwanted parts that say their length, and known markers. Witnesses for what is not so: empty tiles are lost (C65_empty_tile_lost), an unwanted last tile is handed over (C65_unwanted_last_tile), unknown segments in tile-part headers are refused (C65_unknown_segment_refused), POC of a tile is added to that of the main header (C65_order_changes_not_replaced), and the lenient mode loses data of files cut short (C65_lenient_mode_loses). Seeks of the stream are modelled as successful ones on a file."
  },
  {
   "property": "C66",
   "status": "proved",
   "theorems": [
    "Jp2.Tp.C66_tiles_total",
    "Jp2.Tp.C66_tiles_sound",
    "Jp2.Tp.C66_calls_total",
    "Jp2.Tp.C66_memory_bounded"
   ],
   "note": "The decoding of the tile data itself is assumed to succeed (C39 to C49 are about its parts)."
  },
  {
   "property": "C67",
   "status": "proved",
   "theorems": [
    "Jp2.Tp.C67_codestream",
    "Jp2.Tp.C67_read_back",
    "Jp2.Tp.C67_packet_lengths_room",
    "Jp2.Tp.C67_safe",
    "Jp2.Tp.C67_too_many_resolutions",
    "Jp2.Tp.C67_many_changes_refused",
    "Jp2.Tp.C67_empty_tile_refused",
    "Jp2.Tp.C67_many_parts_lost"
   ],
   "note": "The tile coder is a parameter: any function. Proved for changes within the image's layers, resolutions and components, at most 255 parts in a tile and (for reading back) fewer than 32 changes and no empty tile; C67_too_many_resolutions, C67_many_changes_refused, C67_empty_tile_refused and C67_many_parts_lost show these limits are real."
  },
  {
   "property": "C68",
   "status": "partial",
   "theorems": [
    "Jp2.Setup.C68_header_as_asked",
    "Jp2.Setup.C68_small_precincts_refused",
    "Jp2.Setup.C68_bad_values_refused",
    "Jp2.Setup.C68_safe",
    "Jp2.Setup.C68_careless_panics",
    "Jp2.Setup.C68_too_many_resolutions_refused",
    "Jp2.Setup.C68_changes_first_partial",
    "Jp2.Setup.C68_changes_mixed_up",
    "Jp2.Setup.C68_cinema_profile",
    "Jp2.Setup.C68_cinema_not_checked",
    "Jp2.Setup.C68_imf_profile",
    "Jp2.Setup.C68_imf_not_checked"
   ],
   "note": "The setup, the header, refusals, safety and the profiles are proved. Progression order changes only where those of the tile come first in the list (C68_changes_first_partial): otherwise the code copies the wrong ones (C68_changes_mixed_up). C68_small_precincts_refused, C68_careless_panics, C68_cinema_not_checked and C68_imf_not_checked show the other limits are real. Rates and distortion ratios (floating point) and custom component transforms are not modelled; step sizes are exact quotients where the code has f64 (they agree for every entry of the table of norms)."
  },
  {
   "property": "C69",
   "status": "proved",
   "theorems": [
    "Jp2.Area.C69_area_set",
    "Jp2.Area.C69_tiles_needed",
    "Jp2.Area.C69_exact_tiles",
    "Jp2.Area.C69_exact",
    "Jp2.Area.C69_components",
    "Jp2.Area.C69_tile",
    "Jp2.Area.C69_factor",
    "Jp2.Area.C69_tile_wraps",
    "Jp2.Area.C69_refused_factor_sticks",
    "Jp2.Area.C69_empty_area",
    "Jp2.Area.C69_from_codestream"
   ],
   "note": "What entropy decoding, the wavelet and colour make of a tile is a parameter: a plane of samples per component, of which the tile decoder delivers the rectangle it computes (that the partial 5/3 transform makes this rectangle is C78). All packets are taken to be there. C69_tile_wraps shows the limit on single tiles is real; C69_refused_factor_sticks that a refused resolution factor is kept and makes decoding read out of bounds; C69_empty_area that areas without samples are treated unevenly."
  },
  {
   "property": "C70",
   "status": "proved",
   "theorems": [
    "Jp2.Pipe.C70_stages_lossless",
    "Jp2.Pipe.C70_tile_lossless",
    "Jp2.Pipe.C70_enough_planes",
    "Jp2.Pipe.C70_planes_by_band",
    "Jp2.Pipe.C70_default_planes_too_few"
   ],
   "note": "The whole path of a reversible tile, from samples to bytes and back. Conditions: the encoder succeeds; bit planes suffice (C70_tile_lossless: no block has more planes than its band; C70_enough_planes: a bound on precision and levels alone; C70_planes_by_band: a bound band by band; C70_default_planes_too_few: the encoder's own counts do not always suffice); packet orders as in C50. Not covered: regions of interest, custom component transforms, fewer resolutions or areas, components without columns. The coefficient buffer is taken as fresh, of the tile's size and of arbitrary contents."
  },
  {
   "property": "C71",
   "status": "proved",
   "theorems": [
    "Jp2.Cut.C71_tile_cut",
    "Jp2.Cut.C71_written_tile",
    "Jp2.Cut.C71_written_size",
    "Jp2.Cut.C71_signed_samples_lost",
    "Jp2.Cut.C71_offset_image_misread",
    "Jp2.Cut.C71_empty_component_panics"
   ],
   "note": "C71_tile_cut for opj_encode, C71_written_tile and C71_written_size for opj_write_tile. The three limits are real: C71_signed_samples_lost, C71_offset_image_misread, C71_empty_component_panics. Slices that reach past the image's samples without being read there are not counted as errors."
  },
  {
   "property": "C72",
   "status": "proved",
   "theorems": [
    "Jp2.Codec.C72_image_lossless",
    "Jp2.Codec.C72_roomy_lossless",
    "Jp2.Codec.C72_planes_by_band"
   ],
   "note": "C72_image_lossless for any parameters, with the condition of C70 on what the encoder makes; C72_roomy_lossless replaces it by a condition on the bit planes announced, C72_planes_by_band by a weaker one. The bytes are those of the modelled writer and reader, end to end; no stage is a parameter but the rate allocation (all passes sent) and what memory holds. The encoder's own bit-plane counts do not always meet the condition: C70_default_planes_too_few."
  },
  {
   "property": "C73",
   "status": "proved",
   "theorems": [
    "Jp2.Setup.C73_options_set",
    "Jp2.Setup.C73_options_refused",
    "Jp2.Setup.C73_nonsense_accepted"
   ],
   "note": "C73_options_set for lists of good options, C73_options_refused for everything that is accepted; C73_nonsense_accepted is the exception. Strings are bytes; the array of C strings is a list."
  },
  {
   "property": "C74",
   "status": "proved",
   "theorems": [
    "Jp2.Setup.C74_plain_lossless",
    "Jp2.Setup.C74_default_guard_bits_lose"
   ],
   "note": "C74_plain_lossless from the parameters of the user to the decoded samples. That the encoder does not run out of its buffer is a condition (it succeeds). C74_default_guard_bits_lose shows that guard bits have to be asked for. The bound on guard bits comes from the growth of the wavelet transform, band by band (C70_planes_by_band, C72_planes_by_band)."
  },
  {
   "property": "C75",
   "status": "proved",
   "theorems": [
    "Jp2.TileOut.C75_size_told",
    "Jp2.TileOut.C75_tile_bytes",
    "Jp2.TileOut.C75_small_buffer_refused",
    "Jp2.TileOut.C75_written_back",
    "Jp2.TileOut.C75_empty_component_panics",
    "Jp2.TileOut.C75_nothing_panics"
   ],
   "note": "Whole tile decoding; the window of partial decoding is modelled (fill, size) but not in the theorems. That the samples in memory are the right ones is C69 and C72. usize is unbounded, and slices count only where they are read."
  },
  {
   "property": "C76",
   "status": "proved",
   "theorems": [
    "Jp2.Setup.C76_missing_packets",
    "Jp2.Setup.C76_silent_loss"
   ],
   "note": "The product of layers, resolutions and components must fit into 32 bits; beyond it the code's index wraps. The message is the only effect of the check: setup goes on. C76_silent_loss: the tile may get other changes than those checked."
  },
  {
   "property": "C77",
   "status": "proved",
   "theorems": [
    "Jp2.PltRoom.C77_every_length_noted",
    "Jp2.PltRoom.C77_lengths_fit"
   ],
   "note": "C77_lengths_fit needs the room set aside not to overflow 32 bits (about 850 million packets) and the packets of a tile-part to have fewer than 2^32 bytes; the bytes of the other header segments are a parameter. Profiles as in C51 (no digital cinema or broadcast)."
  },
  {
   "property": "C78",
   "status": "proved",
   "theorems": [
    "Jp2.Dwt.C78_window_as_whole",
    "Jp2.Dwt.C78_window_as_whole_any_build",
    "Jp2.Dwt.C78_kept_blocks_decoded",
    "Jp2.Dwt.C78_stale_cell_overflow"
   ],
   "note": "5/3 transform only. The sparse array is a plain array (C35). C78_window_as_whole is for builds without overflow checks, where decoding a window always returns; C78_window_as_whole_any_build says that whatever returns is right in every build; C78_stale_cell_overflow shows that a build with overflow checks can panic on a cell that was never set."
  },
  {
   "property": "C79",
   "status": "partial",
   "theorems": [
    "Jp2.T1.C79_announced_shift",
    "Jp2.T1.C79_own_region_lossless",
    "Jp2.T1.C79_shifted_back",
    "Jp2.T1.C79_max_shift_partial",
    "Jp2.T1.C79_background_lost",
    "Jp2.T1.C79_bypass_lost"
   ],
   "note": "An announced shift, all this encoder makes, cancels for all bytes in styles without bypass (C79_announced_shift, C79_own_region_lossless); blocks shifted by any encoder come back as C79_shifted_back says, which is right for backgrounds below 2^(r-1) (C79_max_shift_partial). False of the code: larger backgrounds that Annex H allows (C79_background_lost), bypass (C79_bypass_lost). HT blocks are not modelled."
  },
  {
   "property": "C80",
   "status": "partial",
   "theorems": [
    "Jp2.Own.C80_no_double_free",
    "Jp2.Own.C80_nothing_lost",
    "Jp2.Own.C80_take_moves",
    "Jp2.Own.C80_create",
    "Jp2.Own.C80_clone_double_free",
    "Jp2.Own.C80_profile_lost",
    "Jp2.Own.C80_header_lost"
   ],
   "note": "All histories without a clone of an image that has samples free only what is live (C80_no_double_free); if moreover no profile is set over another, nothing is lost (C80_nothing_lost). False of the code: clones of images with samples (C80_clone_double_free), profiles over profiles (C80_profile_lost, C80_header_lost). An allocation fails only if it is of no bytes: running out of memory is not modelled."
  },
  {
   "property": "C81",
   "status": "partial",
   "theorems": [
    "Jp2.T2.C81_fixed_layers",
    "Jp2.T2.C81_sixteen_is_all",
    "Jp2.T2.C81_as_thresholds",
    "Jp2.T2.C81_large_entry_reads_past",
    "Jp2.T2.C81_falling_entry_wraps"
   ],
   "note": "For matrices with entries of at most 16 that do not fall from layer to layer: layers hold exactly what is asked for (C81_fixed_layers, C81_sixteen_is_all) and are among those of C46, C50 and C70 (C81_as_thresholds). False of the code for larger (C81_large_entry_reads_past) and falling entries (C81_falling_entry_wraps), which setup accepts. Negative entries are not modelled."
  },
  {
   "property": "C82",
   "status": "partial",
   "theorems": [
    "Jp2.Invert.C82_inversion_never_succeeds",
    "Jp2.Invert.C82_zero_column_refused"
   ],
   "note": "False of the code: no matrix of any size is ever inverted, inversion returns false or panics (C82_inversion_never_succeeds, for every arithmetic, with and without overflow checks). Of the rest, that a zero first column is refused is proved (C82_zero_column_refused)."
  }
 ]
}