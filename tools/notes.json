{
 "C01": {
  "note": "Texts up to 65000 characters (exponent accumulation in f32::from_str stops at 0x10000)."
 },
 "C09": {
  "status": "partial",
  "note": "False of the code (the release build skips segments.next() inside debug_assert!): C09_builds_disagree. Exact relation between the builds and total rejection by the release build are proved."
 },
 "C11": {
  "status": "partial",
  "note": "False of the code: GET ...info.json hits unimplemented!(). Everything else is proved to be answered."
 },
 "C13": {
  "status": "partial",
  "note": "False of the code: C13_escapes. Exact condition under which the file stays below the directory is proved."
 },
 "C18": {
  "status": "partial",
  "note": "False for socket errors: C18_error_swallowed."
 },
 "C39": {
  "status": "partial",
  "note": "False of the code: C39_error_stops_shard."
 },
 "C26": {
  "note": "int_ceildiv is wrong for a <= -b: C26_int_ceildiv_negative."
 },
 "C27": {
  "note": "Samples of up to 30 bits; wider samples are lost (C27_wide_samples_lost) and decoding arbitrary coefficients can overflow (C27_decode_overflow)."
 },
 "C28": {
  "note": "Samples below 2^29 (so that no step overflows). A row of no samples at an odd origin is not a no-op: C28_empty_odd_row_overwritten."
 },
 "C29": {
  "status": "partial",
  "note": "False for tiles with a level of no extent at an odd origin: C29_thin_tile_corrupted, C29_thin_tile_out_of_bounds. All other tiles proved."
 },
 "C38": {
  "note": "Pass counts up to 164; above that the code is lossy: C38_above_164_lost."
 },
 "C30": {
  "note": "Queries with thresholds up to 999 per node; a threshold of 1000 and beyond desynchronises encoder and decoder: C30_threshold_1000_desynchronises."
 },
 "C36": {
  "status": "partial",
  "note": "False of the code for reads crossing the end of the file: C36_short_read_lost, C36_seek_after_short_read. Proved for all other histories; output streams in full."
 },
 "C37": {
  "status": "partial",
  "note": "False of the code for RPCL/PCRL when precinct steps do not divide each other (C37_unaligned_rpcl_misses) and for PCRL/CPRL when a precinct step needs more than 32 bits (C37_pcrl_wide_precincts). Proved for all other tiles whose include index fits 32 bits, including progression order changes; C37_never_twice is unconditional."
 },
 "C32": {
  "note": "Encoder termination by opj_mqc_flush."
 },
 "C43": {
  "note": "Stated for blocks the encoder finishes (buffer large enough). Coefficients of the reversible path below 2^25; 2^25 itself changes sign: C43_large_coefficient_lost. Truncation at segment ends."
 },
 "C44": {
  "note": "Encoder: for blocks it finishes (buffer large enough). Decoder: up to 25 bit planes, which is all the encoder can produce; no region of interest shift."
 },
 "C46": {
  "note": "Up to 999 layers, blocks whose zero bit planes number less than 999 and whose data is below 2^25 bytes; one precinct at a time. The floating-point comparison of the rate control is an arbitrary choice function. High-throughput blocks (style bit 0x40) have no encoder."
 },
 "C47": {
  "note": "Bands with a negative number of bit planes panic (C47_no_guard_bits_panics). The block guarantee is false outside strict mode: C47_not_strict_claims_too_much. Inputs below 2^28 bytes."
 },
 "C48": {
  "note": "Segments must lie within the data (what C47 provides in strict mode); outside strict mode the decoder leaves its data: C48_not_strict_out_of_bounds. The region of interest unshift after decoding is not modelled."
 },
 "C49": {
  "note": "Strict mode; the layer order of each precinct's packets is a hypothesis, met by the decoder's packet sequences (C37_layers_in_turn_partial). Outside strict mode the two differ when a packet is cut short: C49_not_strict_differs."
 },
 "C51": {
  "note": "Holds without progression changes and divisions except for RPCL (C51_rpcl_panics), with progression changes that neither raise the last layer nor overlap, and with tile-part divisions at the outermost letter of LRCP, RLCP (equal precinct counts) and CPRL. The general statement is false of the code: C51_later_layers_lost, C51_overlap_written_twice, C51_tile_parts_repeat, C51_tile_parts_extra_packets. PCRL divided at positions is not covered."
 },
 "C50": {
  "note": "Whole loops over packets and tile-parts on both sides. C50_tile_round_trip takes any packet sequence with layers in turn; C50_tile_arrives uses the encoder's and the decoder's own packet iterators under the conditions of C51 (no progression changes)."
 },
 "C52": {
  "note": "Components share one coding style, as the encoder's set-up fills them in; otherwise the COC segments carry the wrong component (C52_coc_component_lost). Precincts of one sample above the lowest resolution and comments above 65531 bytes are written but not readable (C52_unit_precinct_refused, C52_long_comment_unreadable). Profiles that add POC (cinema 4K with TLM) or custom component transforms to the main header are not covered."
 },
 "C53": {
  "note": "For fewer than 64 discarded resolutions; from 64 on a checked build panics (C53_reduce_64_panics). The tile geometry is usable for images ending before 2^31."
 },
 "C54": {
  "note": "Proved for bodies of an even number of bytes whose 16-bit words are below 0xFF00; the general claim is false of the code: C54_odd_body_refused, C54_marker_in_body_taken."
 },
 "C55": {
  "note": "Cuts inside a length field are refused by the code: C55_cut_length_refused."
 },
 "C56": {
  "note": "Segments behind the defaults they override. In front of them the code loses what they say: C56_component_first_lost, C56_order_change_first_lost. An end component of 256 among 256 components, which the standard writes as 0, is excluded."
 },
 "C57": {
  "note": "Unconditional without overflow checks; with them, for data in which no palette box with 16 or more columns occurs (C57_wide_palette_panics). The stream must know its length: C57_unknown_length_panics."
 },
 "C58": {
  "note": "The full claim is false of the code: a box of the image header among the first two boxes stands in for everything (C58_unsigned_file_accepted). Without such a box it holds: C58_signature_required."
 },
 "C59": {
  "note": "For files whose known boxes are in order. In front of a box of the image header that stands outside the header box the code itself treats unknown and known boxes differently."
 },
 "C60": {
  "note": "Components of one depth must have one sign (C60_sign_lost); images with a profile cannot be written (C60_profile_never_written); e-YCC and CMYK are lost (C60_color_space_lost). The codestream is the caller's (C52 gives its header)."
 },
 "C61": {
  "note": "Safety is proved in full. The colours are right up to the drop of the old components and only when channels use different components (C61_palette_lookup_partial); the image returned always points to freed memory (C61_palette_samples_freed), and a shared component gives wrong colours (C61_shared_component_wrong)."
 },
 "C62": {
  "note": "Placement holds for any order of definitions; kinds only when colours are defined first (C62_opacity_lost). A definition for the first channel is not asked for (C62_first_undefined_accepted)."
 },
 "C63": {
  "note": "Palette columns of 33 to 38 bits are read wrongly (C63_deep_palette_wrong); CIELab with default parameters is kept one number short (C63_lab_default_short). With overflow checks, palettes of at most 15 columns (C57_wide_palette_panics)."
 },
 "C65": {
  "note": "Proved in full for tiles with data, unwanted parts that say their length, and known markers. Witnesses for what is not so: empty tiles are lost (C65_empty_tile_lost), an unwanted last tile is handed over (C65_unwanted_last_tile), unknown segments in tile-part headers are refused (C65_unknown_segment_refused), POC of a tile is added to that of the main header (C65_order_changes_not_replaced), and the lenient mode loses data of files cut short (C65_lenient_mode_loses). Seeks of the stream are modelled as successful ones on a file."
 },
 "C66": {
  "note": "The decoding of the tile data itself is assumed to succeed (C39 to C49 are about its parts)."
 },
 "C67": {
  "status": "proved",
  "note": "The tile coder is a parameter: any function. Proved for changes within the image's layers, resolutions and components, at most 255 parts in a tile and (for reading back) fewer than 32 changes and no empty tile; C67_too_many_resolutions, C67_many_changes_refused, C67_empty_tile_refused and C67_many_parts_lost show these limits are real."
 },
 "C68": {
  "status": "partial",
  "note": "The setup, the header, refusals, safety and the profiles are proved. Progression order changes only where those of the tile come first in the list (C68_changes_first_partial): otherwise the code copies the wrong ones (C68_changes_mixed_up). C68_small_precincts_refused, C68_careless_panics, C68_cinema_not_checked and C68_imf_not_checked show the other limits are real. Rates and distortion ratios (floating point) and custom component transforms are not modelled; step sizes are exact quotients where the code has f64 (they agree for every entry of the table of norms)."
 },
 "C69": {
  "status": "proved",
  "note": "What entropy decoding, the wavelet and colour make of a tile is a parameter: a plane of samples per component, of which the tile decoder delivers the rectangle it computes (that the partial 5/3 transform makes this rectangle is C78). All packets are taken to be there. C69_tile_wraps shows the limit on single tiles is real; C69_refused_factor_sticks that a refused resolution factor is kept and makes decoding read out of bounds; C69_empty_area that areas without samples are treated unevenly."
 },
 "C70": {
  "status": "proved",
  "note": "The whole path of a reversible tile, from samples to bytes and back. Conditions: the encoder succeeds; bit planes suffice (C70_tile_lossless: no block has more planes than its band; C70_enough_planes: a bound on precision and levels alone; C70_planes_by_band: a bound band by band; C70_default_planes_too_few: the encoder's own counts do not always suffice); packet orders as in C50. Not covered: regions of interest, custom component transforms, fewer resolutions or areas, components without columns. The coefficient buffer is taken as fresh, of the tile's size and of arbitrary contents."
 },
 "C71": {
  "status": "proved",
  "note": "C71_tile_cut for opj_encode, C71_written_tile and C71_written_size for opj_write_tile. The three limits are real: C71_signed_samples_lost, C71_offset_image_misread, C71_empty_component_panics. Slices that reach past the image's samples without being read there are not counted as errors."
 },
 "C72": {
  "status": "proved",
  "note": "C72_image_lossless for any parameters, with the condition of C70 on what the encoder makes; C72_roomy_lossless replaces it by a condition on the bit planes announced, C72_planes_by_band by a weaker one. The bytes are those of the modelled writer and reader, end to end; no stage is a parameter but the rate allocation (all passes sent) and what memory holds. The encoder's own bit-plane counts do not always meet the condition: C70_default_planes_too_few."
 },
 "C73": {
  "status": "proved",
  "note": "C73_options_set for lists of good options, C73_options_refused for everything that is accepted; C73_nonsense_accepted is the exception. Strings are bytes; the array of C strings is a list."
 },
 "C74": {
  "status": "proved",
  "note": "C74_plain_lossless from the parameters of the user to the decoded samples. That the encoder does not run out of its buffer is a condition (it succeeds). C74_default_guard_bits_lose shows that guard bits have to be asked for. The bound on guard bits comes from the growth of the wavelet transform, band by band (C70_planes_by_band, C72_planes_by_band)."
 },
 "C75": {
  "status": "proved",
  "note": "Whole tile decoding; the window of partial decoding is modelled (fill, size) but not in the theorems. That the samples in memory are the right ones is C69 and C72. usize is unbounded, and slices count only where they are read."
 },
 "C76": {
  "status": "proved",
  "note": "The product of layers, resolutions and components must fit into 32 bits; beyond it the code's index wraps. The message is the only effect of the check: setup goes on. C76_silent_loss: the tile may get other changes than those checked."
 },
 "C77": {
  "status": "proved",
  "note": "C77_lengths_fit needs the room set aside not to overflow 32 bits (about 850 million packets) and the packets of a tile-part to have fewer than 2^32 bytes; the bytes of the other header segments are a parameter. Profiles as in C51 (no digital cinema or broadcast)."
 },
 "C78": {
  "status": "proved",
  "note": "5/3 transform only. The sparse array is a plain array (C35). C78_window_as_whole is for builds without overflow checks, where decoding a window always returns; C78_window_as_whole_any_build says that whatever returns is right in every build; C78_stale_cell_overflow shows that a build with overflow checks can panic on a cell that was never set."
 },
 "C79": {
  "status": "partial",
  "note": "An announced shift, all this encoder makes, cancels for all bytes in styles without bypass (C79_announced_shift, C79_own_region_lossless); blocks shifted by any encoder come back as C79_shifted_back says, which is right for backgrounds below 2^(r-1) (C79_max_shift_partial). False of the code: larger backgrounds that Annex H allows (C79_background_lost), bypass (C79_bypass_lost). HT blocks are not modelled."
 },
 "C80": {
  "status": "partial",
  "note": "All histories without a clone of an image that has samples free only what is live (C80_no_double_free); if moreover no profile is set over another, nothing is lost (C80_nothing_lost). False of the code: clones of images with samples (C80_clone_double_free), profiles over profiles (C80_profile_lost, C80_header_lost). An allocation fails only if it is of no bytes: running out of memory is not modelled."
 },
 "C81": {
  "status": "partial",
  "note": "For matrices with entries of at most 16 that do not fall from layer to layer: layers hold exactly what is asked for (C81_fixed_layers, C81_sixteen_is_all) and are among those of C46, C50 and C70 (C81_as_thresholds). False of the code for larger (C81_large_entry_reads_past) and falling entries (C81_falling_entry_wraps), which setup accepts. Negative entries are not modelled."
 },
 "C82": {
  "status": "partial",
  "note": "False of the code: no matrix of any size is ever inverted, inversion returns false or panics (C82_inversion_never_succeeds, for every arithmetic, with and without overflow checks). Of the rest, that a zero first column is refused is proved (C82_zero_column_refused)."
 }
}