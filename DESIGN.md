# Formal model of sophmi/laya in Lean 4

`/repo` holds two Rust crates: `laya` (an IIIF Image API server: URL parsing, HTTP dispatch,
file resolution, connection loop) and `openjp2-rs` (a Rust port of OpenJPEG, the JPEG 2000 codec).
The model covers both. `properties.jsonl` lists the properties, `MANIFEST.json` maps each to theorems.

## Layout

* `lean/Verif/Laya/*` – model of the server crate; `lean/Verif/Jp2/*` – model of the codec crate.
* `X.lean` (model, one definition per Rust function, each citing file and lines),
  `XSpec.lean` or a `Spec` section (the small independent specification),
  `XLemmas.lean` (helper lemmas) and `XProps.lean` (the property theorems, with `example`s beside them).

## Trusted base

* Lean 4.33.0's kernel. Every property theorem depends on no axiom other than
  `propext`, `Classical.choice`, `Quot.sound` (`Verif/Axioms.lean` prints them at build time).
* No `sorry`, no own axioms, no `native_decide`/`bv_decide`, no `implemented_by`.
* That the model says what the Rust says. The code was transcribed by reading; each definition cites
  the lines it models and states its simplifications.
* Modelled assumptions about code outside the repository: Rust `str` methods (`split`, `split_once`,
  `strip_prefix`, `starts_with`), `str::parse::<u32>` and `str::parse::<f32>` (the documented std
  grammar, correct rounding), `urlencoding::decode`, `Path::join`, the glommio semaphore (counting,
  FIFO not assumed), `Option::take`.

## Modelling conventions

* Rust `&str`/`String` = `List Char`; all delimiters used are ASCII, so byte slicing `&s[1..]` after
  an ASCII prefix test is `List.tail`.
* `u32`/`i32` machine arithmetic is modelled either on `BitVec 32`/`UInt32` or on `Nat`/`Int` with
  the wrap written out; the comment on each definition says which.
* Panics and out-of-bounds accesses are explicit error values, never silent defaults.
* The debug/release difference is a Boolean parameter.

## Plan per property

| id | model | proof |
|----|-------|-------|
| C01,C02 | `Region::from_str` on `List Char` | equivalence with a declarative grammar, by case analysis of `split` |
| C03,C04 | `Size::from_str` | same |
| C05 | `Rotation::from_str` | same, on the f32 model |
| C06 | tables | case analysis on all strings |
| C07 | error values, `Display` with an explicit panic result | invariant "index < 4" on all produced errors; first-bad-selector theorem |
| C08,C10,C21 | `decode_image_request` and `urlencoding::decode` on UTF-8 bytes | round trip by induction on the identifier |
| C09 | `decode_image_request` with the debug flag | FALSE of the code: witness, plus the exact release behaviour |
| C11,C12,C14 | `handle_request` as function to response/panic with a log of opened files | decision table; C11 FALSE for `…info.json`, partial otherwise |
| C13 | `Path::join` and lexical path resolution | FALSE: witnesses; partial for identifiers that are relative without `..` |
| C15 | `decode_image_request` | prefix-congruence |
| C16 | `ResponseBody` state machine | induction on polls |
| C17 | accept loop/semaphore transition system | inductive invariant over all schedules |
| C18 | `poll_read` | FALSE for errors: witness; partial for successful reads |
| C19 | decimal → f32 as exact integer arithmetic | nearest-even theorem |
| C20 | `u32` digit loop | induction |
| C22–C24 | bit coder as state machines over a byte buffer with bounds | simulation with an abstract bit stream; induction |
| C25 | cio codecs | digit expansion |
| C26 | math helpers on machine integers | omega/BitVec reasoning |
| C27 | RCT on wrapped 32-bit ints | algebra in `BitVec 32`, induction over buffers |
| C28,C29 | 5/3 lifting loops on arrays | loop invariants; inverse lifting steps; induction over levels |
| C30,C31 | tag-tree nodes/build/encode/decode | invariants relating encoder and decoder node states |
| C32,C33 | MQ encoder/decoder | interval-arithmetic invariant relating code register and output bytes |
| C34 | raw coder | as C22 |
| C35 | sparse array | refinement to a function ℕ×ℕ → value |
| C36 | stream | FALSE on short reads: witness; partial otherwise |
| C37 | packet iterator loops (`Pi*`) | enumeration = specified nested product, no duplicates; FALSE for RPCL/PCRL with unaligned precinct steps: witnesses; partial otherwise |
| C38,C40 | T2 codes (`T2Codes*`) | table proof over all counts and all continuations; termination and range on arbitrary data |
| C39 | accept loop | FALSE: an accept error ends the shard; partial for error-free runs |
| C41 | `opj_mct_encode_custom`/`decode_custom` | loop invariant over pixels and components |
| C42 | MQ state table and its adaptation | table equality with Table C.2, step refinement |
| C43 | `opj_t1_encode_cblk`, `opj_t1_decode_cblk` (`T1*`) | encoder/decoder simulation pass by pass, on top of C32 and C34; induction over passes and segments |
| C44 | the same, against Annex D (`T1Std*`) | flag words represent the standard's state (`Rep`), each pass refines the standard's pass |
| C45 | `opj_tcd_init_tile` (`Tcd`), axis by axis, with 32-bit wrapping and refusals | closed form of the whole structure (`TcdShape`), then a coefficient address is matched with a sample position by parity and cell arithmetic (`TcdPart`) |
| C46 | `opj_t2_encode_packet`, `opj_t2_decode_packet`, `opj_tcd_makelayer` (`T2`, `Layer`) | encoder and decoder states kept in step (`Sync`, `Twin`) block by block, band by band, layer by layer (`T2Block` to `T2Round`); segments of `T1` matched with those of the decoder (`T2Seg`, `T2Coded`) |
| C47 | `opj_t2_decode_packets` over `opj_t2_decode_packet`/`opj_t2_skip_packet` (`T2`, `T2Loop`) | an invariant on each block (`Ready`) that any header keeps, with a budget for lengths and passes; then induction over the packets (`T2Safe`, `T2SafeBody`, `T2SafeLoop`) |
| C48 | the decoding passes and `opj_t1_decode_cblk` (`T1`) on an arbitrary coder | footprint of every pass (`Op`: which flags and coefficients it touches, how large they get), the coder's guard bytes (`MqcSafe`), then induction over passes and segments (`T1Safe`, `T1SafeBlock`); composed with C47 |
| C49 | `opj_t2_skip_packet` beside `opj_t2_decode_packet` in the loop of C47 | separate specification `keepWanted` (`T2SkipSpec`): decode everything, keep what is wanted; the two runs stay alike up to the fields the header reader never looks at (`T2Skip`: `Alike`, `BandsEq`, `Kept`), induction over the packets (`T2SkipLoop`) |
| C50 | the encoder's loop over packets and tile-parts (`T2EncLoop`), the decoder's loop of C48, the packet sequences of C37 and C51 | invariant `InStep`: each precinct's trees and blocks agree on both sides after as many layers as packets so far (`T2Tile`), induction over packets and tile-parts; layers in turn in every progression (`PiLayers`) |
| C51 | the encoder's set-up of iterators, tile-part ranges and tile-part counts (`PiEnc`), with the iterators of C37 | reduction to the drained iterators of C37 (`PiEncLemmas`); a run with tile-parts on is a run with them off under invariants (`PiTp`), induction over the tile-parts (`PiTpParts`); counterexamples by evaluation |
| C52 | all marker writers and readers of the main header (`Hdr`) | each segment is a `Chunk`: reading its bytes takes the decoder from one stage to the next, whatever follows (`HdrRound`, `HdrRound2`); composition over the header (`HdrRound3`) |
| C53 | the same reader on any bytes, every handler | Hoare-style `Post`: no panic, no access outside, invariant `Inv` after `SIZ` (`HdrSafe` to `HdrSafe3`); fuel bounded by the stream; geometry handed to C37 and C45 |
| C54 | `opj_j2k_read_unk` | independence from fuel and scratch buffer, simulation over the known segments before it (`HdrMore`); false for bodies with odd length or marker-like words |
| C55 | `opj_j2k_read_ppm`, both passes of `opj_j2k_merge_ppm` | store is order independent (`HdrMore`), the two passes agree and spell out a series list, which is unique (`HdrPpm`); false when a cut falls into a length field |
| C56 | the handlers of `COC`, `QCC`, `RGN`, `POC`, `CBD`, `COM` against an independent statement of Annex A (`HdrStd`) | one more segment at the end of any readable header (`HdrStdMore.header_append`); the encoder's bytes equal the standard's (`C52_header_is_standard`); false for a `COC`, `QCC` or `POC` in front of its default |
| C57 | every box reader and the loops of `jp2.rs` on any bytes (`Box`), with the header reader of C53 | Hoare-style `Post` with the one condition under which a panic is possible (`Wide`), invariant `Ok` of the codec, fuel bounded by the stream (`BoxSafe`) |
| C58 | the same loop | case analysis of the first two boxes from the bytes (`BoxOrder`); false when a box of the image header stands in front |
| C59 | the same loop and the loop inside `jp2h` | readers do not look at the marks unknown boxes leave (`Blind`), outcome of a file computed from its parts (`BoxRound`, `BoxFile`) |
| C60 | `opj_jp2_setup_encoder` (boxes) and all box writers | equality with an independent statement of Annex I (`BoxSpec.stdFile`), then the outcome of C59 on it, then C52 (`BoxWrite`); false for components that differ only in sign, profiles, e-YCC and CMYK |
| C61 | `opj_jp2_check_color`, `opj_jp2_apply_pclr`, `opj_jp2_apply_color_postprocessing` with sample blocks that can be freed (`BoxColor`) | the checks give `MapOk` by induction over the mapping; memory keeps its shape; lookup equals the standard's entry; false after the drop of the old image |
| C62 | `opj_jp2_apply_cdef` | permutation by induction over exchanges; positions no longer named stay; kinds as marks on a permuted list (`BoxCdef`); false for opacity before colours |
| C63 | the readers of all header boxes, with the file loop of C59 | an independent layout of each box (`BoxStd.Desc.boxes`) and what it means (`Desc.known`); each reader inverts its layout by induction, composed over the whole file |
| C64 | the readers of C57 on files of which only a part is there, or with boxes repeated | walk along the boxes up to the cut (`BoxCut`); progress of the palette as a number that only grows (`BoxTwice`) |
| C65 | all that `opj_decode` does between main header and tile data: `SOT`, `SOD`, `PLT`, `PPT`, the segments shared with the main header, the loops over parts and tiles, the window (`Tp`) | an independent layout of tile-parts (`TpSpec`); an invariant on all tiles after any number of parts (`TpParts.DIs`), a step lemma per part (`TpStep`), then the loops (`TpLoop`); false for empty tiles, unwanted last parts without length, tile `POC` after main `POC` |
| C66 | the same on arbitrary bytes, and single calls in any order (`Reach`) | posts with the sum of the bytes held as part of the invariant (`TpFrame`, `TpSafe`) |
| C67 | writing tile-parts (`TpWrite`), the tile coder being a parameter | layout in `TpWriteSpec` (parts, `PLT` lengths, `TLM`); bytes written = layout (`TpWritePlt`, `TpWriteParts`, `TpWriteFile`); read back through C65 (`TpWriteRead`); posts (`TpWriteSafe`) |
| C68 | the setup of the encoder (`Setup`): range checks, profiles, tile grid, changes, components with precincts and step sizes, the checks at the start | what was asked for in `SetupSpec`; setup = asked (`SetupComp`, `SetupLemmas`), then written and read through C52 (`SetupProps`); posts (`SetupSafe`); tracing a setup back to the profile (`SetupProfile`) |
| C69 | setting area, components and resolution factor; which tiles are read; which rectangle a tile delivers; copying into the image; handing over; single tiles (`Area`) | positions on the reference grid in `AreaSpec`; copying keeps what is there and adds a rectangle (`AreaCopy`), rectangles cover tile ∩ area (`AreaTile`), induction over components and tiles (`AreaLoop`), every point of the area in a tile of the window (`AreaMain`, through C45); joined to the bytes through C65 (`AreaFile`) |
| C70 | all stages of `opj_tcd_encode_tile` and `opj_tcd_decode_tile` for a reversible tile (`Pipe`, `PipeCode`): level shift, component transform, wavelet, blocks cut out and put back, block coder, layers, packets, tile-parts | conditions in `PipeSpec`; the stages undo each other (`PipeStages`, through C22, C25, C26), blocks tile the coefficient buffer (`PipeLayout`, `PipeBlocks`), each block comes back from its passes (`PipeComp`, through C44), packets bring them (C50); decoded blocks stay in place (`PipeKeep`); size of coefficients by induction over levels |
| C71 | copying a tile out of the image into bytes, and from bytes into the tile-components (`Cut`) | the plane an image shows in `CutSpec`; rows of a rectangle within a rectangle, a sample and its bytes (`CutLemmas`), induction over components |
| C72 | encoder and decoder of an image, end to end (`Codec`): the models of C45, C52, C65, C67, C69, C70, C71 joined | conditions and what it means to be the same image in `CodecSpec`; the decoder's parameters are the encoder's (`CodecLemmas`, through C52), a tile's parts joined are what its coder made (`CodecTile`), a decoded tile is the tile cut out (`CodecMain`, through C70 and C71), first parts are not empty (`CodecFirst`), then C67 and C69; an image that is written and read in the kernel (`CodecExample`) |
| C73 | `opj_j2k_encoder_set_extra_options` (`Extra`), with Rust's `parse::<i32>` | options and what is in force after them in `ExtraSpec`; induction over the list; the parser is exact (`parse_iff`) |
| C74 | C66, C68, C72 and C73 joined: from the user's parameters and options to the decoded image | the images and their samples in `PlainSpec`; the setup meets the conditions of C72 (`PlainLemmas`); the growth of the wavelet transform band by band (`DwtGrow`, `PipeGrow`) gives a bound on the planes needed, which the guard bits cover |
| C75 | size and bytes of a decoded tile (`TileOut`) | what the bytes stand for in `TileOutSpec`; induction over components, rows of a rectangle (`CutLemmas`); round trip through C71 |
| C76 | `opj_j2k_check_poc_val` (`PocCheck`) | what a change sends in `PocCheckProps` (`Change.Sends`, `AllSent`); three nested loops of the same form mark a set of places, each place belongs to one packet |
| C77 | `opj_get_encoding_packet_count`, the array of packet lengths, the room set aside for `PLT` (`PltRoom`), with `PiEnc` and `TpWrite` | the count is the size of `include` modulo 2^32; every claimed packet has its own place below that size (`PiRoom`, `PiOnce`), so there are no more packets than entries; the room by `C67_packet_lengths_room` |
| C78 | inverse 5/3 transform of a part of a tile, test for the area of interest, skipping of packets and blocks (`DwtPart`) | the sparse array as a plain array (C35), line buffers with arbitrary contents; closed form of a windowed line (`DwtPartLemmas`), exact within two of the window if the grown windows are exact (`DwtPartLevel`), induction over levels (`DwtPartTile`), the grown windows lie in blocks that pass the test; FALSE that it never panics in a build with overflow checks: witness |
| C79 | shifting back of decoded coefficients (`Roi`) on top of the block decoder (`T1`) | a run on coefficients `2^r` times as large is one on the small ones (simulation through all passes), with C48 for existence and C43 for values; exact result for blocks shifted by any encoder; FALSE for background from `2^(r-1)` on and for bypass: theorem and witness |
| C80 | memory as a list of live allocations, images with their pointers, all operations of `image.rs` on any number of images (`Own`); freeing what is not live is undefined | invariant over histories: live = pointers of the images + lost ones, each once; per operation a rule with a frame; FALSE for clones of images with samples and for profiles over profiles: witnesses |
| C81 | layers from the user's matrix (`Fixed`) for blocks of the block coder (`T1`) | each layer equals one made by the threshold "up to pass n" (`Layer`), so the passes and bytes follow, and C46, C50, C70 apply; the scaling of entries, in `f32` in the code, is exact for small entries; FALSE for entries above 16 and falling ones: theorem and witness |
| C82 | matrix inversion for custom component transforms, function by function, over any arithmetic, with and without overflow checks (`Invert`) | FALSE of the code for every matrix: the last line of back substitution is read in front of the matrix (induction over the lines); what is refused is proved |

## What is modelled

| source | modelled | not modelled |
|---|---|---|
| `src/iiif/parse.rs`, `iiif.rs` | all parsers, errors and their `Display`, tables | image information document types |
| `src/http.rs`, `resolve.rs` | `decode_image_request`, dispatch, `Path::join` resolution, response body | hyper itself, header formatting |
| `src/lib.rs` | accept loop, semaphore, socket reads | glommio executors, actual socket I/O |
| `bio.rs`, `tgt.rs`, `mqc.rs`, `sparse_array.rs`, `math.rs`, `cio.rs` | every function (tag tree dump excepted) | allocation failure |
| `stream.rs` | buffered reader/writer, skip, seek | user callbacks (arbitrary functions satisfying the documented contract) |
| `mct.rs` | reversible transform, custom transform | irreversible transform (`f32`), norms |
| `dwt.rs` | 5/3 forward and inverse: rows, columns, whole tiles, windows of tiles, all levels | 9/7 |
| `pi.rs` | `opj_pi_create_decode`, the five iterators, progression order changes; the encoder's final pass with and without tile-parts | cinema and broadcast profiles, trial passes |
| `t1.rs`, `t1_luts.rs` | significance, refinement, cleanup passes in both directions, code-block encoder and decoder, all mode switches, Annex D contexts, regions of interest | distortion estimates, HT blocks, thread-pool plumbing |
| `t2.rs` | pass-count, length and comma codes; writing, reading and skipping one packet; the encoder's and the decoder's loop over the packets of a tile | threshold-calculation mode, packet index |
| `tcd.rs` | `opj_tcd_init_tile`: the structure of a tile, for encoder and decoder; `opj_tcd_makelayer` with the rate-distortion test as a parameter; `opj_tcd_makelayer_fixed`; encoding and decoding of a whole reversible tile through all stages | step sizes, thresholds of rate allocation (floating point) |
| `j2k.rs` | progression tables, number of tile-parts; reading and writing the main header: all markers, unknown markers, merging of `PPM`; reading tile-parts and assembling tiles; writing tile-parts; setting up the encoder; cutting the image into tiles; decoding areas and single tiles | rates in the set-up, size of the tile buffer, validation lists, codestream index; conversion of MCT matrices to floating point |
| `image.rs` | `opj_image_comp_header_update`; allocation, copying, moving and freeing of components, samples and profiles (`Own`) | running out of memory; profiles of 2^32 bytes and more; contents of the buffers |
| `jp2.rs` | all box readers and the loops over boxes; set-up of the boxes, all box writers; palette and channel definitions | `jpip` boxes, partial decoding calls, codestream calls passed through |
| `invert.rs` | every function, over any arithmetic | `f32` itself |
| `ht_dec.rs` | nothing | HT decoding |

## False of the code

Properties found false are stated as theorems with a concrete witness, beside the theorem that gives
the exact range in which they hold.

* `C09_builds_disagree` – a release build skips a `next()` hidden in `debug_assert!`.
* `C11_info_json_panics` – `GET …/info.json` panics.
* `C13_escapes` – an encoded `..` or absolute identifier opens files outside the image directory.
* `C17_sockets_unbounded` – the cap bounds served connections, not accepted sockets.
* `C18_error_swallowed` – a socket error is reported as end of stream.
* `C39_error_stops_shard` – one failed `accept` ends the shard.
* `C02_pct_origin_rejected` – valid percentage regions at the origin are refused.
* `C26_int_ceildiv_negative`, `C27_wide_samples_lost`, `C27_decode_overflow`, `C38_above_164_lost`,
  `C30_threshold_1000_desynchronises`, `C43_large_coefficient_lost` – arithmetic limits.
* `C28_empty_odd_row_overwritten`, `C29_thin_tile_corrupted`, `C29_thin_tile_out_of_bounds` – 5/3
  wavelet on levels without extent.
* `C36_short_read_lost`, `C36_seek_after_short_read` – buffered bytes vanish on a read past the end.
* `C37_unaligned_rpcl_misses`, `C37_pcrl_wide_precincts`, `C37_no_precincts_fails` – packet order.
* `C47_no_guard_bits_panics`, `C47_not_strict_claims_too_much`, `C48_not_strict_out_of_bounds`, `C49_not_strict_differs` – hostile
  packets: no guard bits; blocks revived after a cut packet outside strict mode.
* `C51_rpcl_panics`, `C51_rpcl_never_encoded`, `C51_later_layers_lost`, `C51_overlap_written_twice`, `C51_tile_parts_repeat`,
  `C51_tile_parts_extra_packets` – the encoder's packet sequence.
* `C52_coc_component_lost`, `C52_unit_precinct_refused`, `C52_long_comment_unreadable` – headers the encoder writes and the
  decoder reads differently or refuses.
* `C53_reduce_64_panics` – discarding 64 resolutions panics in a build with overflow checks.
* `C54_odd_body_refused`, `C54_marker_in_body_taken` – unknown segments are scanned, not skipped.
* `C55_cut_length_refused` – a packed-header length that crosses a segment boundary.
* `C56_component_first_lost`, `C56_order_change_first_lost` – a `COC` in front of `COD`, a `QCC` in front of `QCD` (overwritten) and a `POC` in front of `COD` (no layers left).
* `C57_wide_palette_panics`, `C57_unknown_length_panics` – palettes of 16 columns in a checked build; streams without a length.
* `C58_unsigned_file_accepted`, `C58_no_codestream_accepted` – files without signature, or without a codestream box.
* `C60_sign_lost`, `C60_profile_never_written`, `C60_profile_panics`, `C60_color_space_lost` – what the encoder's boxes lose.
* `C61_palette_samples_freed`, `C61_shared_component_wrong` – every palette image is returned with freed samples; columns overwrite each other.
* `C62_opacity_lost`, `C62_first_undefined_accepted` – opacity defined before the colours; no definition for channel 0.
* `C63_deep_palette_wrong`, `C63_lab_default_short` – palette columns above 32 bits; CIELab defaults.
* `C65_empty_tile_lost`, `C65_unwanted_last_tile`, `C65_unknown_segment_refused`, `C65_order_changes_not_replaced`, `C65_lenient_mode_loses` –
  tiles without data; a last part outside the window; unknown markers and `POC` in tile-part headers; files cut short.
* `C67_too_many_resolutions`, `C67_many_changes_refused`, `C67_empty_tile_refused`, `C67_many_parts_lost` – changes that ask for more
  resolutions than there are (wrong counts, uninitialised memory in `TLM`); 32 changes; tiles without data; more than 255 parts in a tile.
* `C68_small_precincts_refused`, `C68_careless_panics`, `C68_changes_mixed_up`, `C68_cinema_not_checked`, `C68_imf_not_checked` – precincts halved
  to one sample; layers, precinct lists and tile origins that panic; changes of the wrong tile; profiles marked but not kept.
* `C69_tile_wraps`, `C69_refused_factor_sticks`, `C69_empty_area` – a tile that reaches `2^32` on the grid is refused; a refused resolution factor
  is kept (out-of-bounds read); areas without rows give an image of height 0.
* `C70_default_planes_too_few` – with the component transform the encoder's own bit-plane counts (two guard bits, precision plus gain of the band) are
  one too few for some images; the encoder writes a wrong count of empty planes, and the decoder gives other samples without an error.
* `C71_signed_samples_lost`, `C71_offset_image_misread`, `C71_empty_component_panics` – in images of several tiles: samples of up to 16 bits with a sign are
  coded without it; images that begin off the sampling grid are read with the wrong row length, also outside their memory; tiles without a sample of a component panic.
* `C73_nonsense_accepted` – `GUARD_BITS=` with text that is no number is taken as 0 guard bits.
* `C74_default_guard_bits_lose` – with the default of two guard bits, the component transform and two resolutions, a 5 by 5 image coded without loss
  is written and read without an error and comes back with other samples; with three guard bits it comes back exactly.
* `C75_empty_component_panics`, `C75_nothing_panics` – `opj_read_tile_header` divides by the width of a tile-component without columns;
  `opj_decode_tile_data` panics for one without rows and columns.
* `C76_silent_loss` – the check looks at the changes given for a tile, not at those it gets (`C68_changes_mixed_up`): packets go missing without a message.
* `C78_stale_cell_overflow` – in a build with overflow checks, decoding a window adds a cell of the line buffer that was never set; what is in it can make the
  addition overflow and panic. (The cells to the right are cleared for this reason, those to the left are not.)
* `C79_background_lost` – the threshold for regions of interest is compared with values in halves: background coefficients in the upper half of the allowed range
  become zero.
* `C79_bypass_lost` – with bypass and a region of interest, the decoder takes raw passes for arithmetic ones.
* `C80_clone_double_free` – `Clone for opj_image` copies the pointers to the samples: destroying the image and its clone frees them twice.
* `C80_profile_lost`, `C80_header_lost` – `copy_icc_profile` (and with it `opj_copy_image_header`) does not free the profile that is there.
* `C81_large_entry_reads_past`, `C81_falling_entry_wraps` – fixed layers: the matrix is not checked; entries above 16, or smaller than in the layer before, make the
  encoder read passes that the block does not have.
* `C82_inversion_never_succeeds` – matrix inversion panics for every matrix it does not refuse, so custom component transforms (`opj_set_MCT`) cannot be set up.
