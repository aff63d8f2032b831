{"id": "C01", "title": "Region parameter accepts exactly the IIIF grammar", "statement": "Parsing a region string succeeds exactly when it is `full`, `square`, four comma-separated unsigned 32-bit decimal integers (an optional leading `+` is tolerated) of which the last two are non-zero, or `pct:` followed by four comma-separated floats each of which rounds to an f32 greater than zero; and the returned value is the one those texts denote.", "quantifier": "every Unicode string", "why_tests_cant": "the set of strings is infinite; the unit tests try about a dozen", "anchors": ["src/iiif/parse.rs: impl FromStr for Region, parse_region_selectors, SpatialSelector"]}
{"id": "C02", "title": "Accepted regions never denote an empty or undefined area", "statement": "Whenever a region parses, an absolute region has width and height at least 1 and a percentage region has x, y, width and height all strictly greater than zero and not NaN.", "quantifier": "every Unicode string that parses as a region", "why_tests_cant": "must hold for all accepted strings, including exponents, subnormals, `inf` and `nan` spellings", "anchors": ["src/iiif/parse.rs: SpatialSelector::validate"]}
{"id": "C03", "title": "Size parameter accepts exactly the IIIF grammar", "statement": "Parsing a size string succeeds exactly when it is `[^]max`, `[^]pct:n`, `[^]w,`, `[^],h`, `[^]w,h` or `[^]!w,h` with w,h non-zero u32 and n a float in range, and the returned size carries exactly the upscale flag and numbers written.", "quantifier": "every Unicode string", "why_tests_cant": "infinite input set; prefix combinations interact", "anchors": ["src/iiif/parse.rs: impl FromStr for Size, parse_scale_percent, parse_scale_px"]}
{"id": "C04", "title": "Accepted sizes are satisfiable", "statement": "Every size that parses asks for something: a percentage is > 0 and, without `^`, at most 100; pixel dimensions are at least 1; a fixed size names at least one dimension.", "quantifier": "every Unicode string that parses as a size", "why_tests_cant": "safety property over all accepted inputs", "anchors": ["src/iiif/parse.rs: impl FromStr for Size"]}
{"id": "C05", "title": "Rotation parameter: grammar and range", "statement": "A rotation string parses exactly when it is an optional `!` followed by a float whose f32 value lies in [0,360]; the result is mirrored exactly when `!` is present; NaN and infinities never get through.", "quantifier": "every Unicode string", "why_tests_cant": "infinite input set; NaN and rounding at 360 cannot be enumerated", "anchors": ["src/iiif/parse.rs: impl FromStr for Rotation"]}
{"id": "C06", "title": "Quality, format and media type tables", "statement": "Exactly four quality names and seven format names are accepted, each to its own variant, and every format has its own media type.", "quantifier": "every Unicode string; every format", "why_tests_cant": "rejection of all other strings is an infinite claim", "anchors": ["src/iiif/parse.rs: impl FromStr for Quality, Format", "src/iiif.rs: Format::mime"]}
{"id": "C07", "title": "Parameter errors identify the offending input and can always be rendered", "statement": "When a region is rejected, the reported selector index is that of the first bad selector and the reported text is that selector's text; rendering any error produced by the parsers never panics.", "quantifier": "every rejected Unicode string", "why_tests_cant": "needs every failing position and every error value the parser can build", "anchors": ["src/iiif/parse.rs: ParseError, Display for ParseError, selector_name"]}
{"id": "C08", "title": "A canonical image URL decodes to exactly the request it was built from", "statement": "For every request (any identifier, region, size, rotation, quality, format) the path built from the percent-encoded identifier and canonical parameter texts decodes back to that same request (debug build).", "quantifier": "every image request and every canonical spelling of its parameters", "why_tests_cant": "round-trip over an unbounded request space", "anchors": ["src/http.rs: decode_image_request"]}
{"id": "C09", "title": "The same request gets the same answer in debug and release builds", "statement": "Decoding an image path gives the same result with and without debug assertions.", "quantifier": "every request path", "why_tests_cant": "a test binary is built in one profile only; the property compares both builds on all paths", "anchors": ["src/http.rs: decode_image_request (debug_assert! with a side effect, line 58)"]}
{"id": "C10", "title": "Identifier percent-decoding is exact", "statement": "The identifier handed to the image source is the percent-decoding of the path segment: it inverts percent-encoding for every identifier, and a segment whose decoding is not UTF-8 is rejected as such.", "quantifier": "every identifier and every path segment", "why_tests_cant": "all byte strings", "anchors": ["src/http.rs: decode_image_request, urlencoding::decode"]}
{"id": "C11", "title": "Every HTTP request is answered", "statement": "Handling any request produces a response and never aborts the handler.", "quantifier": "every method, path and file-system state", "why_tests_cant": "all paths; includes the info.json suffix", "anchors": ["src/http.rs: handle_request, info_request"]}
{"id": "C12", "title": "Status code contract", "statement": "200 is returned exactly for GET requests whose path decodes and whose file opens; 400 exactly for GET requests under the prefix that fail either step; 404 for everything else, and the body says which.", "quantifier": "every method, path and file-system state", "why_tests_cant": "all requests and all file-system outcomes", "anchors": ["src/http.rs: handle_request, image_request, bad_request"]}
{"id": "C13", "title": "Image files are only opened below the configured image directory", "statement": "The path opened for an identifier lies inside the configured directory.", "quantifier": "every base directory and identifier", "why_tests_cant": "attack inputs are unbounded", "anchors": ["src/resolve.rs: DiskImageSource::resolve"]}
{"id": "C14", "title": "Malformed requests never touch the file system", "statement": "If a request is not a GET or its path does not decode, no file is opened; a well-formed request opens exactly one file, once.", "quantifier": "every request", "why_tests_cant": "all malformed requests", "anchors": ["src/http.rs: handle_request, image_request"]}
{"id": "C15", "title": "Path segments beyond the IIIF template", "statement": "Decoding depends only on the first six `/`-separated segments: whatever follows the quality.format segment is ignored.", "quantifier": "every path and every suffix", "why_tests_cant": "all suffixes", "anchors": ["src/http.rs: decode_image_request"]}
{"id": "C16", "title": "Response bodies are delivered exactly once", "statement": "Polling a response body yields the whole payload in the first frame and end-of-body on every later poll.", "quantifier": "every payload and number of polls", "why_tests_cant": "all poll counts", "anchors": ["src/lib.rs: ResponseBody::poll_frame"]}
{"id": "C17", "title": "Connection cap", "statement": "Per shard at most max_connections connections are being served at any moment, in every interleaving of accepts, permits and closes; a waiting connection is admitted whenever a slot is free.", "quantifier": "every schedule of accepts, admissions and completions", "why_tests_cant": "all interleavings", "anchors": ["src/lib.rs: serve_http2"]}
{"id": "C18", "title": "Socket reads report what was read, and report failures", "statement": "The read adapter advances the caller's buffer by exactly the number of bytes the socket delivered, and a socket error is reported as an error.", "quantifier": "every socket outcome and buffer", "why_tests_cant": "all outcomes", "anchors": ["src/lib.rs: HyperStream::poll_read"]}
{"id": "C19", "title": "Percentages and angles are the correctly rounded f32 of the text", "statement": "The number carried by a parsed percentage or rotation is the IEEE-754 single nearest to the decimal text, ties to even; range checks therefore accept exactly the texts within half an ulp of the limits.", "quantifier": "every decimal text of any length and exponent", "why_tests_cant": "infinitely many decimals; boundary cases are exact ties", "anchors": ["src/iiif/parse.rs: parse::<f32>() in parse_scale_percent, Rotation, parse_region_selectors"]}
{"id": "C20", "title": "Integer selectors never wrap", "statement": "A pixel number is accepted exactly when it is an optional `+` and at least one decimal digit whose value is below 2^32, and it denotes that value; anything larger is rejected, not truncated.", "quantifier": "every Unicode string", "why_tests_cant": "unbounded digit strings", "anchors": ["src/iiif/parse.rs: parse::<u32>()"]}
{"id": "C21", "title": "Requests that differ only in identifier encoding are the same request", "statement": "Two path segments with the same percent-decoding yield the same decoded request.", "quantifier": "every pair of segments", "why_tests_cant": "pairs of unbounded strings", "anchors": ["src/http.rs: decode_image_request"]}
{"id": "C22", "title": "Bit I/O round trip", "statement": "Any sequence of bit fields written with the packet-header bit writer and flushed is read back unchanged by the bit reader, whatever the byte-stuffing.", "quantifier": "every sequence of (value,width) fields", "why_tests_cant": "unbounded sequences; stuffing depends on data", "anchors": ["openjp2-rs/src/bio.rs: opj_bio_write, opj_bio_read, opj_bio_flush, opj_bio_inalign"]}
{"id": "C23", "title": "Bit writer never emulates a marker", "statement": "In the bytes produced by the bit writer every 0xFF is followed by a byte below 0x80, and the output does not end in 0xFF.", "quantifier": "every sequence of bits", "why_tests_cant": "data dependent", "anchors": ["openjp2-rs/src/bio.rs: opj_bio_byteout, opj_bio_flush"]}
{"id": "C24", "title": "Bit writer and reader stay inside their buffer", "statement": "Whatever is written or read, the bit coder never stores or loads outside [start,end); flush reports failure when the buffer is full.", "quantifier": "every operation sequence and buffer length", "why_tests_cant": "memory safety over all histories", "anchors": ["openjp2-rs/src/bio.rs"]}
{"id": "C25", "title": "Big-endian field codecs are inverse", "statement": "Writing an n-byte big-endian integer and reading it back yields the value modulo 2^(8n), for every 1 \u2264 n \u2264 4; distinct values in range have distinct encodings.", "quantifier": "every 32-bit value and width", "why_tests_cant": "2^32 values", "anchors": ["openjp2-rs/src/cio.rs: opj_write_bytes, opj_read_bytes"]}
{"id": "C26", "title": "Integer helper functions compute ceilings, floors and logs without overflow", "statement": "The ceil-division, power-of-two division and log2 helpers return the mathematical value on all 32-bit inputs that satisfy their documented preconditions.", "quantifier": "all 32-bit operands", "why_tests_cant": "2^64 operand pairs", "anchors": ["openjp2-rs/src/math.rs"]}
{"id": "C27", "title": "Reversible colour transform is lossless", "statement": "Inverse RCT after forward RCT returns the original R,G,B samples exactly, and no overflow occurs, for all samples of up to 30 bits; wider samples are not covered.", "quantifier": "all sample triples and all buffer lengths", "why_tests_cant": "2^96 triples", "anchors": ["openjp2-rs/src/mct.rs: opj_mct_encode, opj_mct_decode"]}
{"id": "C28", "title": "5/3 wavelet is lossless on every line", "statement": "Inverse 5/3 transform after forward transform returns the line exactly, for every length and both parities.", "quantifier": "all lines of all lengths, both parities", "why_tests_cant": "unbounded lengths; boundary extension cases", "anchors": ["openjp2-rs/src/dwt.rs: opj_dwt_encode_and_deinterleave_h_one_row, opj_idwt53_h, decode_1"]}
{"id": "C29", "title": "5/3 wavelet is lossless on every tile and number of levels", "statement": "The multi-level 2-D inverse transform undoes the forward one on any rectangle, origin parity and decomposition depth.", "quantifier": "all tiles, offsets and level counts", "why_tests_cant": "unbounded sizes and depths", "anchors": ["openjp2-rs/src/dwt.rs: opj_dwt_encode_procedure, opj_dwt_decode_tile"]}
{"id": "C30", "title": "Tag tree round trip", "statement": "Whatever leaf values are set and whatever sequence of (leaf, threshold) queries and whole-value codings follows - also with later values set between queries, as layers do, as long as they are not below thresholds already coded - the decoder, starting from a fresh tree of the same size, answers each query with whether the leaf value is below the threshold, finds each value, and stays in step with the bits, for thresholds up to 999 (or any threshold on a leaf that has been set). On arbitrary bytes it stays in bounds and every search ends. (A threshold of 1000 on an unset leaf desynchronises the two: the layer-999 limit.)", "quantifier": "all trees of up to 2^30 leaves, all operation sequences, all bytes", "why_tests_cant": "state carried across queries", "anchors": ["openjp2-rs/src/tgt.rs: opj_tgt_encode, opj_tgt_decode, opj_tgt_setvalue"]}
{"id": "C31", "title": "Tag tree shape", "statement": "The tree built for w\u00d7h leaves links each node to the parent covering its 2\u00d72 quad, the node count is the sum of the level areas, and every leaf reaches the root.", "quantifier": "all leaf array sizes", "why_tests_cant": "unbounded sizes", "anchors": ["openjp2-rs/src/tgt.rs: opj_tgt_create"]}
{"id": "C32", "title": "MQ coder round trip", "statement": "Decoding the bytes produced by the MQ encoder for any sequence of (context, bit) decisions yields the same bits.", "quantifier": "all decision sequences", "why_tests_cant": "carry propagation and stuffing depend on whole history", "anchors": ["openjp2-rs/src/mqc.rs: opj_mqc_encode, opj_mqc_flush, opj_mqc_init_dec, opj_mqc_decode_macro"]}
{"id": "C33", "title": "MQ coder never emulates a marker", "statement": "No byte above 0x8F ever follows 0xFF in MQ encoder output, and a terminated segment does not end in 0xFF.", "quantifier": "all decision sequences", "why_tests_cant": "data dependent", "anchors": ["openjp2-rs/src/mqc.rs: opj_mqc_byteout, opj_mqc_flush"]}
{"id": "C34", "title": "Raw (bypass) coding round trip", "statement": "Bits written in bypass mode and flushed are read back unchanged by the raw decoder.", "quantifier": "all bit sequences", "why_tests_cant": "stuffing and tail elision are data dependent", "anchors": ["openjp2-rs/src/mqc.rs: opj_mqc_bypass_enc, opj_mqc_bypass_flush_enc, opj_mqc_raw_decode"]}
{"id": "C35", "title": "Sparse coefficient array behaves like a plain 2-D array", "statement": "After any sequence of writes, reading any valid rectangle returns the last value written to each cell and 0 elsewhere; invalid rectangles change nothing and return the `forgiving` flag.", "quantifier": "all shapes, block sizes and operation sequences", "why_tests_cant": "unbounded histories", "anchors": ["openjp2-rs/src/sparse_array.rs: opj_sparse_array_int32_read_or_write"]}
{"id": "C36", "title": "Byte stream accounting", "statement": "After any sequence of reads, skips and seeks, tell() equals the number of bytes the stream has really advanced, and read() returns the number of bytes it delivered.", "quantifier": "all operation sequences and contents", "why_tests_cant": "unbounded histories, short reads", "anchors": ["openjp2-rs/src/stream.rs: Stream::read, skip, seek, tell"]}
{"id": "C37", "title": "Packet iteration visits each packet exactly once", "statement": "For each progression order (LRCP, RLCP, RPCL, PCRL, CPRL), decoding a tile goes through every packet (layer, resolution, component, precinct) of the tile exactly once and in the nesting order of ISO/IEC 15444-1 B.12.1; with progression order changes the progressions run one after the other and packets already seen are skipped; no packet is ever seen twice.", "quantifier": "all tile geometries, component subsamplings, resolution/precinct/layer counts, progression orders and progression order changes", "why_tests_cant": "unbounded nested counts", "anchors": ["openjp2-rs/src/pi.rs: opj_pi_create_decode, opj_pi_next_lrcp, opj_pi_next_rlcp, opj_pi_next_rpcl, opj_pi_next_pcrl, opj_pi_next_cprl", "openjp2-rs/src/t2.rs: opj_t2_decode_packets"]}
{"id": "C38", "title": "Packet header integer codes round trip", "statement": "The number-of-passes code round trips for 1..164 passes and the comma code for every count.", "quantifier": "all counts and following bits", "why_tests_cant": "prefix property needs all continuations", "anchors": ["openjp2-rs/src/t2.rs: opj_t2_putnumpasses, opj_t2_getnumpasses, opj_t2_putcommacode, opj_t2_getcommacode"]}
{"id": "C39", "title": "A failing connection attempt does not stop the server", "statement": "After a failed accept or a connection whose local address cannot be read, the shard goes on accepting other connections.", "quantifier": "every history of accepts, failures, admissions and completions", "why_tests_cant": "tests exercise a handful of schedules; the claim is about every position of the failure in every history", "anchors": ["src/lib.rs: serve_http2", "src/lib.rs: start"]}
{"id": "C40", "title": "Packet header codes terminate and stay in range on any data", "statement": "Reading a comma code from any packet-header bytes, at any point of the stream, ends and yields at most the number of bits left; reading a pass count yields 1..164.", "quantifier": "all byte strings, all previous sequences of reads", "why_tests_cant": "the loop has no explicit bound; termination on every truncated or all-ones input needs an argument about reads past the end", "anchors": ["openjp2-rs/src/t2.rs: opj_t2_getcommacode, opj_t2_getnumpasses", "openjp2-rs/src/bio.rs: opj_bio_getbit"]}
{"id": "C41", "title": "Custom colour transform applies the matrix to the original samples", "statement": "A custom forward or inverse component transform replaces sample i of component j by the product of row j of the matrix with the samples of pixel i as they were before the call (rounded fixed point when encoding), touches no other sample and stays inside the buffers.", "quantifier": "all matrices, numbers of components, buffer lengths and samples", "why_tests_cant": "in-place update of aliased component pointers for any number of components and pixels", "anchors": ["openjp2-rs/src/mct.rs: opj_mct_encode_custom, opj_mct_decode_custom, opj_int_fix_mul"]}
{"id": "C42", "title": "The coder's probability adaptation is that of the standard", "statement": "The probability table of the arithmetic coder is Table C.2 of ISO/IEC 15444-1; every decision read or written moves only the context used, to the next state that table prescribes for the decision, and the 19 contexts start in the states of Table D.7. So streams interoperate with other JPEG 2000 codecs.", "quantifier": "all 94 states, all coder states, contexts and decisions", "why_tests_cant": "encoder and decoder share the table, so any round trip test passes with a wrong table; rare states are reached only after long skewed histories", "anchors": ["openjp2-rs/src/mqc.rs: mqc_states, opj_mqc_codemps_macro, opj_mqc_codelps_macro, opj_mqc_decode_macro, opj_mqc_resetstates", "openjp2-rs/src/t1.rs: opj_t1_encode_cblk, opj_t1_decode_cblk"]}
{"id": "C43", "title": "A code block survives coding", "statement": "The bytes the block encoder produces for any block of 32-bit coefficients, in any code-block style, decode (however they are split into chunks and whatever bytes follow) to the same coefficients without their fractional bits; integer coefficients below 2^25 in magnitude come back exactly. Cut off after any segment, the bytes decode to every coefficient's magnitude bits down to the bit plane reached.", "quantifier": "all coefficient values, block sizes, orientations, code-block styles, buffer contents, chunkings and truncation points at segment ends", "why_tests_cant": "contexts, run lengths, raw segments, flag words and coder terminations interact; a mistake shows only for particular coefficient patterns at particular planes", "anchors": ["openjp2-rs/src/t1.rs: opj_t1_encode_cblk, opj_t1_decode_cblk, opj_t1_enc_sigpass, opj_t1_dec_sigpass_mqc, opj_t1_enc_refpass, opj_t1_enc_clnpass, opj_t1_cblk_encode_processor, opj_t1_clbl_decode_processor"]}
{"id": "C44", "title": "Block coding is that of the standard", "statement": "The bytes the block encoder writes are exactly those obtained by coding, pass by pass, the decisions Annex D of ISO/IEC 15444-1 prescribes for the block (scan order, zero-coding, sign and refinement contexts, run-length mode, vertically causal contexts, segmentation symbols, raw passes, terminations), with the least number of bit planes that holds every magnitude. Conversely the block decoder reconstructs the block from any segments, whoever wrote them, in which the arithmetic decoder finds the decisions the standard prescribes for it.", "quantifier": "all coefficient values, block sizes, sub-bands, code-block styles, buffer contents, segmentations and truncation points", "why_tests_cant": "encoder and decoder share tables and neighbourhood bookkeeping, so a round trip test passes with a wrong context; only particular neighbourhoods at stripe or block borders differ", "anchors": ["openjp2-rs/src/t1.rs: opj_t1_encode_cblk, opj_t1_decode_cblk, opj_t1_update_flags, opj_t1_getctxno_zc, opj_t1_getctxno_sc, opj_t1_getctxno_mag, opj_t1_enc_sigpass, opj_t1_enc_refpass, opj_t1_enc_clnpass, opj_t1_enc_is_term_pass", "openjp2-rs/src/t1_luts.rs"]}
{"id": "C45", "title": "Tiles, bands, precincts and code blocks partition the image", "statement": "Every point of the image area is in exactly one tile, and a tile-component holds exactly the component samples whose reference-grid point is in its tile. Within a tile-component, every sample position corresponds to exactly one coefficient of exactly one code block, counting all resolutions, sub-bands and precincts; code blocks are not empty, are no larger than the code block size and do not cross the code block grid; precincts are the cells of the precinct grid and are as many as packet iteration counts; encoder and decoder agree. Building the structure does not panic for any parameters a codestream can express.", "quantifier": "all image areas, tile grids, subsampling factors, decomposition levels, precinct and code block sizes, tiles and components, encoder and decoder", "why_tests_cant": "the rounding of band, precinct and block borders goes wrong only for particular offsets and parities; no finite set of sizes covers them", "anchors": ["openjp2-rs/src/tcd.rs: opj_tcd_init_tile, opj_tcd_init_encode_tile, opj_tcd_init_decode_tile, opj_tcd_is_band_empty", "openjp2-rs/src/math.rs"]}
{"id": "C46", "title": "Packets carry coded blocks from encoder to decoder", "statement": "If the encoder writes the packets of the first quality layers of a precinct, the decoder reads each of them from a stream in which anything may follow, takes exactly the bytes that were written, and then holds for every code block the segments, the bytes and the number of bit planes of exactly the passes sent so far; decoding the blocks gives back the coefficients down to the bit plane sent, and all of them once all passes are sent. The bytes of a packet do not depend on the destination buffer: they are written if they fit and refused otherwise, never partly. Whatever the rate control chooses, the layers it makes are acceptable to the packet writer.", "quantifier": "all bands, precinct sizes, code blocks, coefficients, code-block styles other than high throughput, layer allocations, packet numbers, buffers and trailing bytes, with and without SOP and EPH markers", "why_tests_cant": "a packet header is a bit-stuffed mixture of two tag trees and variable-length codes whose state is carried across layers; encoder and decoder desynchronise only for particular combinations of lengths, inclusion orders and segment ends", "anchors": ["openjp2-rs/src/t2.rs: opj_t2_encode_packet, opj_t2_decode_packet, opj_t2_read_packet_header, opj_t2_read_packet_data, opj_t2_init_seg", "openjp2-rs/src/tcd.rs: opj_tcd_makelayer", "openjp2-rs/src/t1.rs: opj_t1_encode_cblk, opj_t1_decode_cblk"]}
{"id": "C47", "title": "Reading packets from any bytes is safe", "statement": "Whatever the bytes of a tile and of its packed packet headers, reading and skipping its packets neither panics nor leaves an allocation, and never consumes more than there is; every segment a code block refers to exists. In strict mode, when the packets of each precinct come in layer order, each code block is left in a state the block decoder accepts: its segments claim no more bytes than were received and hold the passes their style prescribes.", "quantifier": "all byte strings below 2^28 bytes, all sets of packets each read once, all layer and window selections, both modes, with and without packed headers and markers, all tiles whose bands have a non-negative number of bit planes", "why_tests_cant": "every malformed codestream is an input; a length or pass count that escapes its check does so for one particular bit pattern spread over several packets", "anchors": ["openjp2-rs/src/t2.rs: opj_t2_decode_packets, opj_t2_decode_packet, opj_t2_skip_packet, opj_t2_read_packet_header, opj_t2_read_packet_data, opj_t2_skip_packet_data, opj_t2_init_seg"]}
{"id": "C48", "title": "Decoding code blocks from any bytes is safe", "statement": "Whatever the bytes of a code block, the number of bit planes and of passes claimed, decoding it stays inside its arrays: a block claiming 31 or more bit planes is refused, any other yields exactly width times height coefficients that fit a signed 32-bit integer. In strict mode this holds from the bytes of the tile on: every block of every precinct, after its packets have been read from any bytes, can be decoded.", "quantifier": "all bytes, block sizes, orientations, bit plane counts, pass counts, styles other than high throughput, region of interest shifts", "why_tests_cant": "hostile codestreams choose every decision of the arithmetic decoder; out-of-range accesses and overflowing coefficients depend on the whole decision history", "anchors": ["openjp2-rs/src/t1.rs: opj_t1_decode_cblk and the decoding passes", "openjp2-rs/src/mqc.rs: opj_mqc_init_dec, opj_mqc_raw_init_dec, opq_mqc_finish_dec, decode functions", "openjp2-rs/src/t2.rs: opj_t2_decode_packets"]}
{"id": "C49", "title": "Decoding fewer layers, resolutions or a window skips packets without losing the rest", "statement": "In strict mode, decoding a tile with some quality layers, resolutions or areas left out succeeds exactly when decoding all its packets does, takes the same bytes, and leaves each code block with exactly the segments and bytes of its packets that were wanted: precincts wanted in full come out as in a full decode, those not wanted stay empty, those wanted up to a layer hold that layer's data.", "quantifier": "all tile bytes and packed headers below 2^28 bytes, all packet sequences in layer order per precinct, all layer limits and all selections of precincts, with and without markers", "why_tests_cant": "skipping and decoding are two separate implementations of the packet body; they must stay in step on every packet of every codestream, well-formed or not, or everything after the first difference is misread", "anchors": ["openjp2-rs/src/t2.rs: opj_t2_decode_packets, opj_t2_skip_packet, opj_t2_skip_packet_data, opj_t2_read_packet_data, opj_t2_read_packet_header"]}
{"id": "C50", "title": "A tile written by the encoder is read back by the decoder", "statement": "When the encoder writes the packets of a tile, in one or several tile-parts, the decoder given these bytes one tile-part after the other reads every packet, takes exactly the bytes written, whatever follows them, and ends with every code block of every precinct holding what all its layers contain, so that blocks coded in full decode to their coefficients. Every tile-part is written if it fits its buffer and refused otherwise, and the packet sizes recorded for the PLT marker are the boundaries of the packets.", "quantifier": "all tiles with any components, resolutions, precincts, bands and coded blocks in up to 999 layers, all coding styles but the high-throughput one, with and without packet markers, all packet orders in which the layers of a precinct come in turn, all divisions into tile-parts, all buffers", "why_tests_cant": "packets carry no names and share state through tag trees, layer counts and packet numbers; one update lost between two packets of one precinct only shows in some later packet of the same precinct, for some tiles", "anchors": ["openjp2-rs/src/t2.rs: opj_t2_encode_packets, opj_t2_encode_packet, opj_t2_decode_packets, opj_t2_decode_packet", "openjp2-rs/src/j2k.rs: opj_j2k_write_sod, opj_j2k_write_all_tile_parts, opj_j2k_write_first_tile_part", "openjp2-rs/src/pi.rs: opj_pi_next"]}
{"id": "C51", "title": "The encoder writes the packets the decoder reads, in the same order", "statement": "For every tile, the packets the encoder writes, taken over all its tile-parts, are the packets the decoder goes through, in the same order: the order the codestream names, or the orders of its progression changes one after the other. With a tile-part division, each tile-part holds the packets of one value of the divided coordinate.", "quantifier": "all tiles, component subsamplings, resolutions, precinct sizes, layer counts, progression orders, progression changes and tile-part divisions within codestream limits", "why_tests_cant": "packets are not named in the codestream; one packet written once too often, left out or exchanged makes everything after it unreadable, and which ones are visited depends on the whole geometry of the tile", "anchors": ["openjp2-rs/src/pi.rs: opj_pi_initialise_encode, opj_pi_create_encode, opj_pi_update_encoding_parameters, opj_pi_next", "openjp2-rs/src/j2k.rs: opj_j2k_get_num_tp, opj_j2k_calculate_tp, ProgressionOrder", "openjp2-rs/src/t2.rs: opj_t2_encode_packets"]}
{"id": "C52", "title": "A main header is read back as written", "statement": "The main header the encoder writes for a set of parameters is accepted by the decoder, which then knows the same image area, tile grid, components, progression, layers and, for every component, the same coding style, precinct sizes, quantization step sizes and region-of-interest shift; it stops reading exactly at the first tile-part, whatever follows.", "quantifier": "all images, tile grids and up to 16384 components, all coding parameters within codestream limits shared by the components, any quantization and region of interest per component, with or without TLM and COM segments, any content of the writer's scratch buffer", "why_tests_cant": "two independent pieces of code have to agree on every bit field of a dozen variable-length segments for every number of components; widths change with the number of components and a wrong field only shows for particular values", "anchors": ["openjp2-rs/src/j2k.rs: opj_j2k_setup_header_writing, opj_j2k_write_siz, opj_j2k_write_cod, opj_j2k_write_qcd, opj_j2k_write_all_qcc, opj_j2k_write_all_coc, opj_j2k_write_regions, opj_j2k_write_com, opj_j2k_read_header_procedure, opj_j2k_read_siz, opj_j2k_read_cod, opj_j2k_read_SPCod_SPCoc, opj_j2k_read_SQcd_SQcc, opj_j2k_read_rgn"]}
{"id": "C53", "title": "Any bytes can be offered as a main header", "statement": "Reading a main header from any bytes ends with a header or with a refusal; it never panics, never touches memory outside its buffers and never loops. What is accepted is complete and in range: a non-empty image area, a tile grid that covers it with 1 to 65535 tiles, components with sane precision, subsampling and size, coding styles, precincts, quantization and progression changes within their limits; every tile of it meets the conditions the packet iterators and the tile builder rely on.", "quantifier": "all byte sequences of any length, all decoder settings discarding fewer than 64 resolutions, both build modes", "why_tests_cant": "the header is attacker-controlled; segments can come in any order and number and refer to each other, and every length can be wrong", "anchors": ["openjp2-rs/src/j2k.rs: opj_j2k_read_header_procedure and the handlers of SIZ, COD, COC, QCD, QCC, RGN, POC, PPM, TLM, PLM, CRG, COM, CBD, MCT, MCC, MCO, CAP, CPF, opj_j2k_read_unk, opj_j2k_merge_ppm", "openjp2-rs/src/image.rs: opj_image_comp_header_update"]}
{"id": "C54", "title": "Unknown marker segments are skipped", "statement": "A marker segment of an unknown kind in the main header makes no difference to what is read.", "quantifier": "all main headers, all places between known segments, all unknown markers and bodies", "why_tests_cant": "the decoder does not use the length of the segment but scans for the next marker, so the result depends on the bytes of the body", "anchors": ["openjp2-rs/src/j2k.rs: opj_j2k_read_unk, opj_j2k_read_header_procedure"]}
{"id": "C55", "title": "Packed packet headers are put together in order", "statement": "Packet headers packed into the main header, spread over numbered PPM segments, are put together in the order of the numbers whatever order the segments arrive in; if the segments are accepted, the result is the data of the one series of packet headers they spell out.", "quantifier": "all series of packet headers of less than 4 GiB, all ways of spreading them over up to 256 segments, all orders of arrival", "why_tests_cant": "series cross segment boundaries in any way and the two passes that measure and copy them must agree for every division, or a copy runs over its buffer", "anchors": ["openjp2-rs/src/j2k.rs: opj_j2k_read_ppm, opj_j2k_merge_ppm"]}
{"id": "C56", "title": "Marker segments of the main header mean what the standard says", "statement": "A COC, QCC, RGN, POC or CBD segment added at the end of any readable main header gives exactly the component, the progression changes or the bit depths it names the values Annex A of ITU-T T.800 assigns to its bytes, and changes nothing else; a comment changes nothing. The bytes of the headers the encoder writes are those Annex A asks for.", "quantifier": "all readable main headers of known segments, all components, all coding styles, step sizes, shifts, progression changes and bit depths within the limits of the standard", "why_tests_cant": "encoder and decoder can share a mistake that a round trip does not show; the component number changes width with the number of components", "anchors": ["openjp2-rs/src/j2k.rs: opj_j2k_read_coc, opj_j2k_read_qcc, opj_j2k_read_rgn, opj_j2k_read_poc, opj_j2k_read_cbd, opj_j2k_read_com"]}
{"id": "C57", "title": "Any bytes can be opened as a JP2 file without harm", "statement": "Whatever the bytes of a file of known length, reading its boxes and the main header of its codestream either succeeds or is refused: no panic, no access outside a buffer, no endless loop. What is accepted has a size of at least one pixel, between 1 and 16384 components, a palette with complete tables, non-empty channel definitions, and a complete header.", "quantifier": "all byte strings of any length as file contents, all decoder settings with fewer than 64 discarded resolutions, builds with and without overflow checks", "why_tests_cant": "files come from strangers; box lengths nest and every length, count and order of boxes can be hostile", "anchors": ["openjp2-rs/src/jp2.rs: opj_jp2_read_header, opj_jp2_read_header_procedure, opj_jp2_read_jp2h, opj_jp2_read_pclr, opj_jp2_read_cmap, opj_jp2_read_cdef, opj_jp2_read_colr, opj_jp2_read_ihdr, opj_jp2_read_bpcc, Jp2BoxHeader::read"]}
{"id": "C58", "title": "Only files with signature and file type are accepted", "statement": "Data that is accepted as a JP2 file begins with the signature box with its magic number, followed by the file type box.", "quantifier": "all byte strings as file contents", "why_tests_cant": "acceptance of a wrong file is an existential over all byte strings; tests show only the refusals that were thought of", "anchors": ["openjp2-rs/src/jp2.rs: opj_jp2_read_header_procedure, opj_jp2_read_jp, opj_jp2_read_ftyp, opj_jp2_read_jp2h"]}
{"id": "C59", "title": "Unknown boxes make no difference", "statement": "Boxes of unknown type before or behind the header box and inside it change nothing: image size, components, palette, channel definitions, colour, the place of the codestream, the main header read from it, and the failure, if there is one, are those of the file without them.", "quantifier": "all files of boxes in order, all unknown boxes of less than 4 GiB in short or extended form, in any number at the three places, all contents of the other boxes, good or bad", "why_tests_cant": "the number, places, types and contents of foreign boxes are unbounded", "anchors": ["openjp2-rs/src/jp2.rs: opj_jp2_read_header_procedure, opj_jp2_read_jp2h, read_content", "openjp2-rs/src/consts.rs: Jp2BoxType"]}
{"id": "C60", "title": "The encoder's file is standard and is read back", "statement": "The boxes the encoder writes around a codestream are byte for byte those Annex I of ITU-T T.800 asks for, with the image's size, bit depths, colour space and channel definitions; the decoder reads back these values, the main header and the codestream.", "quantifier": "all images with 1 to 16384 components of 1 to 38 bits without colour profile, all codestreams of less than 4 GiB", "why_tests_cant": "depends on the depths, signs and opacity marks of all components together; encoder and decoder can share a mistake", "anchors": ["openjp2-rs/src/jp2.rs: opj_jp2_setup_encoder, opj_jp2_write_jp2h, opj_jp2_write_ihdr, opj_jp2_write_bpcc, opj_jp2_write_colr, opj_jp2_write_cdef, opj_jp2_write_ftyp, opj_jp2_write_jp, opj_jp2_write_jp2c, opj_jp2_read_header"]}
{"id": "C61", "title": "A palette is applied safely and gives the colours it holds", "statement": "Whatever palette, component mapping and channel definitions a JP2 file carries, applying them to the decoded image never indexes a table or sample outside its length; and every channel of the result has the depth and sign of its palette column and as samples the palette entries its component selects, indices being limited to the palette. Nothing is applied when only some components are decoded or the user asked to ignore these boxes.", "quantifier": "all palettes, mappings and definitions a file can carry, all images, all samples", "why_tests_cant": "the tables are the file's; a sample can be any 32-bit number; memory that is freed too early often still holds its values in a test", "anchors": ["openjp2-rs/src/jp2.rs: opj_jp2_check_color, opj_jp2_apply_pclr, opj_jp2_apply_color_postprocessing", "openjp2-rs/src/image.rs: take_comps, Drop for opj_image"]}
{"id": "C62", "title": "Channel definitions put colours in order and mark opacity", "statement": "Channel definitions are accepted exactly if they name existing channels and colours and are complete; they lose and duplicate no component; every colour channel ends at the place of its colour and every channel is marked with the type its definition gives.", "quantifier": "all numbers of components, all lists of definitions in any order", "why_tests_cant": "the result depends on the interplay of exchanges over all orders of definitions", "anchors": ["openjp2-rs/src/jp2.rs: opj_jp2_check_color, opj_jp2_apply_cdef, opj_jp2_apply_color_postprocessing"]}
{"id": "C63", "title": "Header boxes mean what the standard says", "statement": "For every JP2 file whose header boxes are laid out as Annex I of ITU-T T.800 prescribes, the decoder knows exactly the size, component depths, first colour specification, palette, component mapping and channel definitions they state, and goes on at the codestream; unknown boxes in between change nothing.", "quantifier": "all sizes, depths, colour specifications, palettes of up to 1024 rows and 255 columns of up to 32 bits, mappings, definitions, and unknown boxes", "why_tests_cant": "layout of a palette depends on the depth of every column; values range over all 32-bit numbers", "anchors": ["openjp2-rs/src/jp2.rs: opj_jp2_read_ihdr, opj_jp2_read_bpcc, opj_jp2_read_colr, opj_jp2_read_pclr, opj_jp2_read_cmap, opj_jp2_read_cdef, opj_jp2_read_ftyp"]}
{"id": "C64", "title": "Damaged JP2 headers are refused", "statement": "A JP2 file cut anywhere before the end of its header box is refused. A file whose header has two palettes, two component mappings or two channel definitions, a mapping without a palette in front of it, or a file type box that is not a whole number of brands, is not accepted.", "quantifier": "all files with any boxes, any contents of the boxes and any cut point", "why_tests_cant": "every cut point of every file; the second box may stand anywhere behind the first", "anchors": ["openjp2-rs/src/jp2.rs: opj_jp2_read_header_procedure, opj_jp2_read_jp2h, opj_jp2_read_ftyp, opj_jp2_read_pclr, opj_jp2_read_cmap, opj_jp2_read_cdef, Jp2BoxHeader::read"]}
{"id": "C65", "title": "Tiles of a well-formed codestream are assembled from their tile-parts", "statement": "For every codestream whose tile-parts are laid out as the standard says, in any mixture of tiles, with any division of a tile into parts, decoding hands over each tile that is wanted and present exactly once and no other. The tile comes with the data of its parts in order, the coding parameters that main header and tile-part headers give it, and its packed packet headers in the order of their numbers.", "quantifier": "all main headers the decoder accepts, all sequences of tile-parts with any marker segments and any data, all windows, strict and lenient mode, with or without Psot in the last part, with or without TNsot", "why_tests_cant": "the interleavings of tile-parts and the places of marker segments are unbounded; tiles come out early or at EOC depending on TNsot", "anchors": ["openjp2-rs/src/j2k.rs: opj_j2k_read_tile_header, opj_j2k_read_sot, opj_j2k_read_sod, opj_j2k_read_plt, opj_j2k_read_ppt, opj_j2k_merge_ppt, opj_j2k_decode_tile, opj_j2k_decode_tiles, opj_j2k_need_nb_tile_parts_correction"]}
{"id": "C66", "title": "Tile-parts from any bytes are safe", "statement": "Whatever the bytes of a file, going through its tile-parts ends with tiles for decoding or a refusal, never a panic, an access outside a buffer or an endless loop, also after any history of calls for single tiles. What is handed over is a tile of the image with parameters within the limits of the standard; the bytes held never exceed those of the file, and in strict mode no allocation for a tile exceeds the file by more than two bytes.", "quantifier": "all files, both modes, all windows, all histories of calls", "why_tests_cant": "hostile files: every byte string, every history of calls", "anchors": ["openjp2-rs/src/j2k.rs: opj_j2k_read_tile_header, opj_j2k_read_sot, opj_j2k_read_sod, opj_j2k_read_plt, opj_j2k_read_ppt, opj_j2k_merge_ppt, opj_j2k_decode_tile, opj_j2k_decode_tiles, opj_j2k_tcp_data_destroy"]}
{"id": "C67", "title": "The encoder's tile-parts are standard and are read back", "statement": "A codestream the encoder writes has behind its main header the tile-parts of all tiles in order, each with its tile, its number, the number of parts of its tile and its length, the progression order changes of a tile in the header of its first part, the lengths of its packets if asked for, and what the tile coder produced for it; then EOC. If asked for, TLM in the main header gives tile and length of every part. The decoder hands over every tile of it exactly once, with the bytes produced for it and its parameters. Writing never panics or leaves its buffers, and the room set aside for packet lengths always suffices.", "quantifier": "all headers the encoder can write, all numbers of tiles, progressions and tile-parts (at most 255 in a tile), progression order changes within the image (fewer than 32), all outcomes of the tile coder that leave no tile empty, with and without TLM and PLT", "why_tests_cant": "lengths, numbers and the TLM table depend on every tile and every byte the coder produces", "anchors": ["openjp2-rs/src/j2k.rs: opj_j2k_calculate_tp, opj_j2k_write_sot, opj_j2k_write_sod, opj_j2k_write_plt_in_memory, opj_j2k_write_poc_in_memory, opj_j2k_write_first_tile_part, opj_j2k_write_all_tile_parts, opj_j2k_update_tlm, opj_j2k_write_updated_tlm, opj_j2k_encode, opj_j2k_end_compress"]}
{"id": "C68", "title": "The encoder is set up as asked", "statement": "Whatever a user asks the encoder for that makes sense is set up, accepted at the start of compression and written, and a decoder that reads the main header knows it: image area, tile grid, components and their level shift, coding style, progression, layers, component transform, resolutions, code-blocks, precincts, transform, region of interest, and a step size for every band that is the inverse of the norm of its wavelets (or, reversible, the number of bits its coefficients need). All tiles are coded so. A number of resolutions or code-block size out of range is refused, and so is, at the start of compression, a tile too small for its resolutions. Setting up does not panic or leave an array if a few things are minded. A codestream marked with a cinema or IMF profile keeps to it. A tile carries the progression order changes asked for it.", "quantifier": "all parameters and images in the documented ranges, all profiles; progression order changes that come first in the list; for what makes sense: no profile, no changes, samples of at most 29 bits (21 with the irreversible transform), precincts of at least 2 samples above the lowest resolution", "why_tests_cant": "some thirty parameters interact; halved precincts, step sizes and profile corrections depend on the number of resolutions, the precision and the image size", "anchors": ["openjp2-rs/src/j2k.rs: opj_j2k_setup_encoder, opj_j2k_set_cinema_parameters, opj_j2k_is_cinema_compliant, opj_j2k_initialise_4K_poc, opj_j2k_get_imf_max_NL, opj_j2k_set_imf_parameters, opj_j2k_is_imf_compliant, opj_j2k_encoding_validation", "openjp2-rs/src/dwt.rs: opj_dwt_calc_explicit_stepsizes, opj_dwt_encode_stepsize, opj_dwt_getnorm_real"]}
{"id": "C69", "title": "Decoding an area gives exactly the samples of that area", "statement": "After opj_set_decode_area, opj_decode returns an image clipped to the area asked for; every component asked for, at the resolution asked for, has one sample for each of its positions in the area, and each is the sample that decoding the whole image gives at that position. It does not matter across how many tiles the area lies, in which order they come, or what earlier tiles left in the buffers. Only tiles with a point of the area are decoded. Areas outside the image, components that do not exist or are named twice, and resolution factors that a component does not have are refused. opj_get_decoded_tile gives exactly the samples of one tile.", "quantifier": "all images and tile grids, all areas, resolution factors and choices of components, all orders of the tiles; images that end 2^15 before 2^31, areas with a sample of every component asked for; for single tiles: tiles whose far side on the tile grid is below 2^32", "why_tests_cant": "offsets of image, tiles, subsampling and reduction combine in ways no sample of files covers; a rounding slip shows only at some borders", "anchors": ["openjp2-rs/src/j2k.rs: opj_j2k_set_decode_area, opj_j2k_update_image_dimensions, opj_j2k_set_decoded_components, opj_j2k_set_decoded_resolution_factor, opj_j2k_update_image_data, opj_j2k_decode_tiles, opj_j2k_move_data_from_codec_to_output_image, opj_j2k_decode, opj_j2k_get_tile", "openjp2-rs/src/tcd.rs: opj_tcd_decode_tile, opj_tcd_is_whole_tilecomp_decoding"]}
{"id": "C70", "title": "A tile coded without loss comes back exactly", "statement": "Encode a tile with the reversible transforms and all its coding passes, in any number of layers and tile-parts, in any coding style. If the encoder succeeds, decoding the bytes it wrote gives exactly the samples it was given, for every component, and takes exactly those bytes, whatever follows them and whatever was in the buffers before. The bands must announce as many bit planes as the coefficients need. The encoder announces them itself and does not check this: with the component transform its default is one too few for some images, and these come back changed.", "quantifier": "all tile geometries, precincts and code-block sizes; all precisions, levels and component counts whose coefficients stay within 25 bits; all samples of the precision; with and without the component transform; all block styles but high throughput; any division of the passes into layers; packet orders without progression changes under the conditions of C50 and C51; components that are not empty in width, no level of odd origin without extent", "why_tests_cant": "one coefficient, context or length off by one in any of eight stages shows only for some samples, sizes and offsets; the images that need one more bit plane are a tiny share of all images", "anchors": ["openjp2-rs/src/tcd.rs: opj_tcd_encode_tile, opj_tcd_decode_tile, opj_tcd_dc_level_shift_encode, opj_tcd_dc_level_shift_decode, opj_tcd_init_tile", "openjp2-rs/src/t1.rs: opj_t1_encode_cblks, opj_t1_clbl_decode_processor", "openjp2-rs/src/t2.rs: opj_t2_encode_packets, opj_t2_decode_packets, opj_t2_encode_packet", "openjp2-rs/src/dwt.rs: opj_dwt_encode, opj_dwt_decode, opj_dwt_calc_explicit_stepsizes", "openjp2-rs/src/mct.rs: opj_mct_encode, opj_mct_decode"]}
{"id": "C71", "title": "The encoder takes exactly the samples of a tile", "statement": "When an image is encoded in several tiles, the samples coded for a tile are those of the image that lie in it, for every component, row by row, whatever the buffers held before. The bytes of a tile handed to opj_write_tile give exactly its samples, and any other number of bytes is refused. This holds for samples without a sign or of more than 16 bits, for images whose width in samples is their width in points divided by the subsampling, rounded up, and for tiles with a sample in each row of every component. Outside of this it is false: samples of 16 bits or less with a sign lose it, rows of images that begin off the sampling grid are taken from the wrong place or from outside the image, and a tile without a sample of a component makes the encoder panic.", "quantifier": "all images, tile grids, subsamplings, precisions from 1 to 32 bits, samples and tiles; images that end before 2^31 with fewer than 2^32 samples to a component", "why_tests_cant": "offsets, subsampling and tile borders combine in endless ways, and tests use images without sign that begin at the origin", "anchors": ["openjp2-rs/src/j2k.rs: opj_j2k_encode, opj_get_tile_dimensions, opj_j2k_get_tile_data, opj_j2k_write_tile", "openjp2-rs/src/tcd.rs: opj_tcd_copy_tile_data, opj_tcd_get_encoder_input_buffer_size"]}
{"id": "C72", "title": "An image encoded without loss is decoded exactly", "statement": "Encode an image with opj_start_compress, opj_encode and opj_end_compress, reversibly and with all coding passes, in any number of tiles, tile-parts and layers. If these calls succeed, then opj_read_header and opj_decode on the bytes written succeed and return an image with the same components, of the same size, with exactly the samples that were encoded; whatever was in memory on either side, in strict mode or not. The bands must announce as many bit planes as the coefficients need (see C70), and an image of several tiles must be one that is cut correctly (see C71).", "quantifier": "all images, tile grids, subsamplings, precisions, levels, precincts and code-block sizes whose coefficients stay within 25 bits; all samples of the precision; with and without the component transform; all block styles but high throughput; any division of the passes into layers and of tiles into at most 255 parts, without progression order changes and regions of interest; all contents of memory", "why_tests_cant": "some fifteen stages have to agree on every offset, count and bit for every image; a test shows one image", "anchors": ["openjp2-rs/src/j2k.rs: opj_j2k_start_compress, opj_j2k_encode, opj_j2k_end_compress, opj_j2k_write_first_tile_part, opj_j2k_write_all_tile_parts, opj_j2k_read_header, opj_j2k_set_decode_area, opj_j2k_decode, opj_j2k_decode_tiles", "openjp2-rs/src/tcd.rs: opj_tcd_encode_tile, opj_tcd_decode_tile"]}
{"id": "C73", "title": "Extra options of the encoder do what they say", "statement": "opj_encoder_set_extra_options with options of the forms PLT=YES, PLT=NO, TLM=YES, TLM=NO and GUARD_BITS=n with n from 0 to 7 succeeds, and of each kind the last option is in force for the whole image and all components; nothing else changes. Options of any other form, and guard bits outside of 0 to 7, are refused. It is false that nonsense for the number is refused: text that is no number, or a number that does not fit into 32 bits, is taken as 0 guard bits.", "quantifier": "all lists of options, all bytes in them, all encoders that are set up", "why_tests_cant": "a test tries a few strings; options interact and the parser has to be right for every string", "anchors": ["openjp2-rs/src/j2k.rs: opj_j2k_encoder_set_extra_options", "openjp2-rs/src/openjpeg.rs: opj_encoder_set_extra_options"]}
{"id": "C74", "title": "Lossless coding, in terms of the user's parameters", "statement": "Set up the encoder for an image with parameters for reversible coding, ask for at least as many guard bits as there are resolutions, one more with the component transform, and encode all passes. Setup and validation succeed, and if the encoder writes a codestream, the decoder returns exactly the samples. With the guard bits that are there by default this is false: with the component transform and two resolutions there is an image that is written and read without an error and comes back changed.", "quantifier": "images of up to 32768 by 32768 samples from the corner of the grid, with components of 5 to 16 bits without subsampling; all samples; one to six resolutions; all tile sizes that are multiples of the wavelet's step (samples without a sign if there are tiles); all block sizes from 256 samples and block styles but high throughput; all orders but by resolution and position; any layers; all contents of memory", "why_tests_cant": "the images for which the default fails are rare; that none is left with more guard bits is a statement about all images", "anchors": ["openjp2-rs/src/j2k.rs: opj_j2k_setup_encoder, opj_j2k_encoder_set_extra_options, opj_j2k_encoding_validation, opj_j2k_encode, opj_j2k_decode", "openjp2-rs/src/dwt.rs: opj_dwt_encode, opj_dwt_calc_explicit_stepsizes", "openjp2-rs/src/tcd.rs: opj_tcd_init_tile"]}
{"id": "C75", "title": "The bytes of a decoded tile are its samples", "statement": "With opj_read_tile_header and opj_decode_tile_data, the size the user is told is the number of bytes of the tile's samples, one, two or four bytes to a sample, and a tile whose size does not fit into 32 bits is refused. A buffer of at least this size receives the samples component by component and row by row, lowest byte first, and the rest of it stays as it was; a smaller buffer is refused. The bytes can be handed to opj_write_tile and give the same samples, if they have no sign or more than 16 bits. Tiles without a sample of some component are an exception: asking for the size, or copying, panics.", "quantifier": "all tiles with whole tile decoding, all numbers of components, precisions from 1 to 32 bits, resolutions, samples and buffers", "why_tests_cant": "sizes, strides and overflow combine in endless ways; overflow of a size needs tiles no test allocates", "anchors": ["openjp2-rs/src/tcd.rs: opj_tcd_get_decoded_tile_size, opj_tcd_update_tile_data, opj_tcd_copy_tile_data", "openjp2-rs/src/j2k.rs: opj_j2k_read_tile_header, opj_j2k_decode_tile, opj_j2k_write_tile"]}
{"id": "C76", "title": "The encoder says when progression order changes leave out packets", "statement": "opj_setup_encoder checks the progression order changes of every tile: it reports missing packets exactly if some layer, resolution and component is in none of the changes for the tile, and stays within its memory. The changes checked are those the user gave for the tile. They are not always those the tile gets: with changes for several tiles, packets can be missing without a message.", "quantifier": "all lists of changes, tiles, and numbers of layers, resolutions and components whose product is below 2^32", "why_tests_cant": "ranges of several changes overlap and clip in endless ways", "anchors": ["openjp2-rs/src/j2k.rs: opj_j2k_check_poc_val, opj_j2k_setup_encoder"]}
{"id": "C77", "title": "Packet lengths always find room", "statement": "With the extra option PLT=YES the encoder notes the length of every packet of a tile-part and writes the lengths into the tile-part header. The array of lengths has an entry for every packet, and the room set aside in the output buffer holds the segments with all lengths, for every tile-part of every tile: nothing is written behind the array, and the assertion on the room does not fail.", "quantifier": "all tile parameters (sizes, precincts, layers, progression orders and changes, tile-part divisions; for the array also those whose counts overflow 32 bits) and all packet lengths", "why_tests_cant": "the array is sized by a product of maxima over components and resolutions, and filled by the packet iterators, which differ for every progression and division", "anchors": ["openjp2-rs/src/pi.rs: opj_get_encoding_packet_count, opj_pi_initialise_encode, opj_pi_next", "openjp2-rs/src/t2.rs: opj_t2_encode_packets", "openjp2-rs/src/j2k.rs: opj_j2k_get_specific_header_sizes, opj_j2k_write_plt_in_memory, opj_j2k_write_sod"]}
{"id": "C78", "title": "A window of a tile decodes like the whole tile", "statement": "When only an area of an image is decoded, the decoder skips packets, precincts and code-blocks that do not matter and runs the inverse 5/3 transform on a part of each tile. Every sample of the area is the one that decoding the whole tile would give, at every resolution; skipped blocks and what happens to be in the working memory have no influence.", "quantifier": "all tile components, windows inside them, numbers of resolutions, numbers of decoded resolutions, precinct and block partitions, coefficient values, and contents of uninitialised line buffers; for builds with overflow checks, all runs that return", "why_tests_cant": "the windows of the bands grow by filter margins at every level and are clipped at tile borders; parities, widths and levels combine in unboundedly many ways", "anchors": ["openjp2-rs/src/dwt.rs: opj_dwt_decode_partial_tile, decode_partial_1, decode_partial_1_parallel, opj_dwt_interleave_partial_h, opj_dwt_interleave_partial_v, opj_dwt_get_band_coordinates, opj_dwt_segment_grow", "openjp2-rs/src/tcd.rs: opj_tcd_is_subband_area_of_interest", "openjp2-rs/src/t1.rs: opj_t1_decode_cblks", "openjp2-rs/src/t2.rs: opj_t2_decode_packets"]}
{"id": "C79", "title": "Regions of interest do not change the samples", "statement": "Coding a component with a region of interest changes the order in which its bits arrive, not the result: after decoding, coefficients of the region and of the background are what they were before the shift.", "quantifier": "all code-blocks, shifts, regions, coefficient values, styles and, for an announced shift, all bytes", "why_tests_cant": "the decoder tells region from background by comparing each coefficient with a power of two; whether it does so correctly depends on every value, shift and coding style", "anchors": ["openjp2-rs/src/t1.rs: opj_t1_clbl_decode_processor, opj_t1_decode_cblk, opj_t1_encode_cblk", "openjp2-rs/src/j2k.rs: opj_j2k_write_rgn, opj_j2k_read_rgn"]}
{"id": "C80", "title": "Images own their memory", "statement": "Whatever a program does with images - create, clone, move components, copy headers, allocate or clear components, samples and profiles, destroy, in any order - nothing is freed twice or while another image uses it, and once all images are destroyed nothing is left allocated. Creating an image succeeds exactly if it has components and all of them have samples, and gives everything back if it fails.", "quantifier": "all histories of operations on any number of images, all numbers and sizes of components, all lengths of profiles", "why_tests_cant": "ownership is by raw pointers; a double free or leak shows only in particular orders of operations, and then often silently", "anchors": ["openjp2-rs/src/image.rs: opj_image::clear_comps, opj_image::alloc_comps, opj_image::take_comps, opj_image::copy_icc_profile, Clone for opj_image, Drop for opj_image, opj_image_create, opj_image_tile_create, opj_image_destroy, opj_copy_image_header", "openjp2-rs/src/malloc.rs: opj_malloc, opj_calloc, opj_free"]}
{"id": "C81", "title": "Fixed quality layers hold the bit planes asked for", "statement": "With cp_fixed_alloc and a matrix of planes (in sixteenths) per layer, resolution and band, every code block gets its layers: up to each layer exactly the coding passes of the planes the matrix asks for, with exactly their bytes, and all passes once 16 is reached. No pass is read that the block does not have.", "quantifier": "all coded blocks, coding styles, precisions, matrices, numbers of layers, resolutions and bands", "why_tests_cant": "the number of passes per layer follows from differences of matrix entries, corrected by the missing planes of each block, in wrapping arithmetic; it is right or not depending on every value", "anchors": ["openjp2-rs/src/tcd.rs: opj_tcd_rateallocate_fixed, opj_tcd_makelayer_fixed", "openjp2-rs/src/j2k.rs: opj_j2k_setup_encoder"]}
{"id": "C82", "title": "A custom component transform can be set up", "statement": "After opj_set_MCT with an invertible matrix, setting up the encoder succeeds and computes the inverse of the matrix; a singular matrix is refused. Neither panics.", "quantifier": "all numbers of components and all matrices", "why_tests_cant": "whether an index of the inversion stays inside the matrix depends on its size, whether it is refused on its values", "anchors": ["openjp2-rs/src/invert.rs: opj_matrix_inversion_f, opj_lupDecompose, opj_lupSolve, opj_lupInvert", "openjp2-rs/src/j2k.rs: opj_j2k_setup_encoder"]}
