{"id": "C01", "title": "VBAS integers round-trip exactly and are self-delimiting", "statement": "Encoding any 64-bit unsigned integer with the JPIP variable-byte-aligned-segment coder and decoding the result, with arbitrary bytes following it, returns the same integer and reports exactly the number of bytes written (between 1 and 10).", "quantifier": "every value 0..2^64-1 and every trailing byte sequence", "why_tests_cant": "2^64 values times unbounded trailing context; tests sample a handful of boundary values.", "anchors": ["source/core/jpip/vbas.cpp: vbas_encode, vbas_decode, vbas_size"]}
{"id": "C02", "title": "VBAS decoding is safe on arbitrary bytes", "statement": "For any byte string, the VBAS decoder never reads past the given length, never reports more than 10 bytes consumed, never silently drops high bits (a value it returns is exactly the mathematical value of the 7-bit groups consumed), and its verdict depends only on the bytes it consumed (appending bytes never changes a successful result).", "quantifier": "every byte string of every length", "why_tests_cant": "Unbounded hostile input; absence of silent overflow is a universal claim.", "anchors": ["source/core/jpip/vbas.cpp: vbas_decode"]}
{"id": "C03", "title": "JPP message headers round-trip through a stateful stream", "statement": "If a sender writes any sequence of JPP-stream messages with its header context and a receiver reads the concatenated bytes with its own context starting from the same state, the receiver recovers exactly the same sequence of messages (class, in-class id, codestream number, offset, length, completeness flag, and auxiliary value where the class carries one), consuming exactly the bytes written.", "quantifier": "every finite sequence of well-formed messages, from every synchronised context, followed by any bytes", "why_tests_cant": "The header elides fields that equal the previous message's, so correctness depends on the whole history; tests exercise short fixed sequences.", "anchors": ["source/core/jpip/jpp_message.cpp: encode_header, decode_header", "source/core/jpip/jpp_message.hpp: MessageHeader, MessageHeaderContext"]}
{"id": "C04", "title": "JPP header decoding is all-or-nothing and bounded", "statement": "On any byte string the header decoder either succeeds, consuming at least 1 and at most 60 bytes all inside the input, or fails leaving the receiver's header context unchanged; an encoded header never begins with the end-of-response byte 0x00.", "quantifier": "every byte string, every context, every header", "why_tests_cant": "Hostile-input totality and no-partial-update cannot be sampled.", "anchors": ["source/core/jpip/jpp_message.cpp: decode_header, encode_header", "source/core/jpip/jpp_parser.cpp: try_decode_one_message"]}
{"id": "C05", "title": "Incremental JPP parsing is independent of how the network splits the stream", "statement": "Feeding a response stream to the streaming parser in any sequence of chunks leaves the same data-bins and the same verdict (malformed or not) as feeding it in one piece, for streams up to and including the end-of-response message.", "quantifier": "every byte stream, every way of cutting it into chunks (including empty chunks)", "why_tests_cant": "Exponentially many splits of unbounded streams; tests use a few fixed chunk sizes.", "anchors": ["source/core/jpip/jpp_parser.cpp: StreamingJppParser::feed, try_decode_one_message", "source/core/jpip/jpp_parser.hpp: StreamingJppParser"]}
{"id": "C06", "title": "Data-bins are append-only prefixes of what was sent", "statement": "A client data-bin store only ever extends a bin at its end: after any history of append operations, each bin's bytes are the concatenation, in order, of the accepted payloads; an accepted append starts exactly at the current size; a bin once complete never changes; a rejected append changes no bin's bytes.", "quantifier": "every history of append/merge operations", "why_tests_cant": "History property over unbounded sequences and interleavings of bins.", "anchors": ["source/core/jpip/jpp_parser.cpp: DataBinSet::append, merge_from", "source/core/jpip/jpp_parser.hpp: DataBinSet"]}
{"id": "C07", "title": "The server's message emitter respects the byte budget and never corrupts a bin", "statement": "Emitting a data-bin under a byte budget writes at most the budget, and the bytes written parse back to a contiguous range of that bin starting at the requested resume offset; the completeness flag is present exactly when the last byte of the bin has been sent.", "quantifier": "every bin length, every resume offset, every byte budget, every header context", "why_tests_cant": "Budget/offset/chunk-size boundary combinations are unbounded.", "anchors": ["source/core/jpip/data_bin_emitter.cpp: append_message, emit_* functions", "source/core/jpip/data_bin_emitter.hpp: MessageWindow"]}
{"id": "C08", "title": "A JPIP session with arbitrary budgets delivers each bin exactly", "statement": "If a client repeatedly asks for a bin, each time telling the server how many bytes it already has, and the server answers each request under an arbitrary byte budget, then the client's bin is always a prefix of the server's bin, no append is ever rejected, the prefix never shrinks, and once flagged complete it equals the server's bin; progress is made whenever the budget exceeds a fixed overhead.", "quantifier": "every bin contents, every sequence of budgets (any session length)", "why_tests_cant": "Multi-round history with adversarial budgets.", "anchors": ["source/core/jpip/data_bin_emitter.cpp", "source/core/jpip/jpp_parser.cpp", "source/core/jpip/cache_model.cpp: CacheModel::received_bytes, mark_partial"]}
{"id": "C09", "title": "Cache-model strings round-trip between client and server", "statement": "The model string a client formats for its cache, when parsed by the server, reproduces the same knowledge: for every bin the server believes it complete/partial-with-n-bytes/absent exactly as the client does.", "quantifier": "every cache-model state reachable by mark/mark_partial/unmark operations", "why_tests_cant": "Unbounded state; string grammar interactions.", "anchors": ["source/core/jpip/cache_model.cpp: CacheModel::format, parse, mark, mark_partial, unmark"]}
{"id": "C10", "title": "Cache-model bookkeeping is a faithful per-bin map", "statement": "After any sequence of mark, mark_partial and unmark calls, querying a bin returns what the latest relevant call for that same bin established; operations on one bin never affect another bin.", "quantifier": "every sequence of operations, every pair of (class,id)", "why_tests_cant": "Aliasing between bins depends on the 64-bit key packing; tests use small ids.", "anchors": ["source/core/jpip/cache_model.hpp: key packing", "source/core/jpip/cache_model.cpp"]}
{"id": "C11", "title": "Server channel table: unique ids, bounded size, LRU eviction", "statement": "After any history of channel create/lookup/commit/close operations, the number of live channels never exceeds the configured maximum, every channel id ever handed out is distinct, lookups find exactly the live channels, and a creation that needs room evicts precisely the least-recently-used channel.", "quantifier": "every operation history, every positive capacity", "why_tests_cant": "Eviction order is a history property.", "anchors": ["source/core/jpip/channel_manager.cpp: ChannelManager", "source/core/jpip/channel_manager.hpp"]}
{"id": "C12", "title": "Precinct data-bin identifiers are unique and invertible", "statement": "Within one image, the in-class identifier assigned to (tile, component, resolution, precinct) is injective, lies below the total precinct count, and decomposing the identifier returns the same tile, component, resolution and precinct number.", "quantifier": "every image geometry (any number of tiles, components, resolutions, precincts per resolution)", "why_tests_cant": "Universally quantified over geometries; collisions would silently cross-wire image regions.", "anchors": ["source/core/jpip/precinct_index.cpp: CodestreamIndex::I, decompose", "source/core/jpip/precinct_index.hpp"]}
{"id": "C13", "title": "View-window resolution selection picks the right discard level", "statement": "The discard level chosen for a requested frame size is within range and is the one the rounding mode defines (e.g. largest resolution not exceeding / smallest not below / closest), with ties and empty candidate sets handled as documented.", "quantifier": "every image size, number of decomposition levels, requested frame size and rounding mode", "why_tests_cant": "Arithmetic corner cases across 32-bit dimensions.", "anchors": ["source/core/jpip/view_window.cpp: pick_discard_level"]}
{"id": "C14", "title": "View-window resolution returns every precinct that contributes to the region", "statement": "For a requested region, the list of precincts returned contains every precinct whose samples contribute to the region at the chosen resolution, contains only precincts that exist, and without duplicate component requests contains none twice.", "quantifier": "every geometry, region and resolution", "why_tests_cant": "A missed precinct shows only for particular alignments.", "anchors": ["source/core/jpip/view_window.cpp: resolve_view_window"]}
{"id": "C15", "title": "JPIP request lines round-trip", "statement": "Formatting a view window (with or without a cache model) as a GET line, splitting that line and parsing its query yields the same view window and model string; single component indices and ranges mean what they say; unknown fields are ignored; and for every query whatsoever the parsed request is within the widths of its fields and names at most 16384 components.", "quantifier": "every view window with 32-bit fields and up to 16384 16-bit components; every query string for the bounds", "why_tests_cant": "Unbounded field values; 32-bit limits and optional-field combinations.", "anchors": ["source/core/jpip/jpip_request.cpp: parse_jpip_query, split_http_get_line", "source/core/jpip/jpip_client.cpp: format_view_window_query, fetch_streaming"]}
{"id": "C16", "title": "Chunked HTTP transfer decoding is split-independent and inverse to encoding", "statement": "Encoding any body as HTTP chunks and feeding the result to the streaming chunk decoder in any fragmentation returns exactly the body; malformed framing never causes reads outside the buffer and never yields bytes that were not in the input.", "quantifier": "every body, chunking and fragmentation; every hostile byte stream", "why_tests_cant": "Exponentially many fragmentations; hostile sizes.", "anchors": ["source/core/jpip/jpip_response.cpp: format_chunk_header, format_last_chunk, decode_chunked_body; source/core/jpip/jpip_client.cpp: ChunkedStreamDecoder"]}
{"id": "C17", "title": "RTP payload-header parsing is bounded", "statement": "Parsing any RTP/RFC 9828 packet either rejects it or yields header fields and a payload slice that lies entirely within the packet.", "quantifier": "every packet of every length", "why_tests_cant": "Hostile network input.", "anchors": ["source/apps/rtp_recv/rfc9828_parser.cpp: parse_rtp_header, parse_rfc9828_*"]}
{"id": "C18", "title": "Reassembled RTP frames are gap-free and single-timestamp", "statement": "Every frame delivered by the frame handler is a (possibly cached) main header followed by the payloads of a contiguous run of pushed packets sharing one timestamp, with consecutive extended sequence numbers, ending at a marker packet; at most one frame is delivered per packet; a frame affected by loss or reordering relative to the packets received before it is never delivered (loss before the first packet ever received cannot be seen, as a witness shows).", "quantifier": "every sequence of packets (any loss, duplication, reordering)", "why_tests_cant": "All adversarial network schedules.", "anchors": ["source/apps/rtp_recv/frame_handler.hpp: FrameHandler, AssembledFrame", "source/apps/rtp_recv/frame_handler.cpp: FrameHandler (all member functions)"]}
{"id": "C19", "title": "Frame hand-off buffers: bounded pool, latest-wins slot", "statement": "Under any interleaving of producer and consumer operations, the single-slot mailbox delivers each frame at most once, in order, and always the newest one stored, accounts for every frame, and never leaves a frame with sleeping consumers and no wakeup on its way; the buffer pool never holds more than its cap nor hands a buffer out twice. (The wakeup for shutdown can be missed, as a witness shows.)", "quantifier": "every interleaving of put/take/acquire/release operations", "why_tests_cant": "Schedules.", "anchors": ["source/apps/rtp_recv/frame_pipeline.hpp:37-114 LatestSlot", "source/apps/rtp_recv/frame_handler.hpp:49-80 BufferPool", "source/apps/rtp_recv/pipeline_multi_threaded.cpp: stop_flag and notify"]}
{"id": "C20", "title": "Thread pool runs every accepted task exactly once, in submission order per queue, and drains on shutdown", "statement": "For any interleaving of submitters, workers and shutdown, each accepted task is started exactly once, tasks are dequeued in the order they were enqueued, a task is never lost to a missed wakeup (provided no batch ever overflowed the ring: a batch that throws on overflow leaves its stored tasks unannounced until the next push or shutdown), and destruction ends, with all accepted tasks run.", "quantifier": "every schedule of any number of submitters and workers", "why_tests_cant": "Concurrency schedules cannot be enumerated by tests.", "anchors": ["source/core/common/ThreadPool.hpp: ThreadPool::push_task, push_batch, try_run_one, worker, ~ThreadPool"]}
{"id": "C21", "title": "Packet-header bit stuffing round-trips and never forges a marker", "statement": "Any bit string written through the packet-header bit writer and flushed can be read back bit-for-bit by the reader, the reader consumes exactly the bytes written, and no 0xFF byte in the output is followed by a byte above 0x7F.", "quantifier": "every bit string, every trailing bytes", "why_tests_cant": "Stuffing interacts with data at every alignment.", "anchors": ["source/core/codestream/codestream.hpp: packet_header_writer, buf_chain::get_bit, check_last_FF"]}
{"id": "C22", "title": "Coding-pass counts round-trip through the packet-header code", "statement": "Every legal number of coding passes (1..164) is encoded to a codeword which the parser decodes to the same number consuming exactly that codeword, whatever bits follow.", "quantifier": "every pass count and every continuation", "why_tests_cant": "Prefix-freeness is universal over continuations.", "anchors": ["source/core/coding/coding_units.cpp: generate_packet_header, parse_packet_header"]}
{"id": "C23", "title": "Tag-tree coding round-trips for any grid", "statement": "Encoding any grid of leaf values with the tag-tree procedure of the encoder and decoding with the parser's procedure yields the same values leaf by leaf, for any grid width and height.", "quantifier": "every grid size, every leaf values", "why_tests_cant": "Unbounded grid sizes; state shared between leaves.", "anchors": ["source/core/codestream/codestream.hpp: tagtree", "source/core/coding/coding_units.cpp: generate_packet_header, parse_packet_header"]}
{"id": "C24", "title": "Packet headers written by the encoder are parsed identically by the decoder", "statement": "For any precinct of any code-block grid with any contributions, parsing the packet header the encoder generates recovers for each code-block the inclusion flag, number of zero bit-planes, number of passes and segment lengths, and leaves the read position at the first body byte.", "quantifier": "every code-block grid, every contribution", "why_tests_cant": "Combines tag trees, variable-length lengths and bit stuffing.", "anchors": ["source/core/coding/coding_units.cpp: j2k_precinct_subband::generate_packet_header, parse_packet_header"]}
{"id": "C25", "title": "Tiles, precincts and code-blocks partition the image", "statement": "Every sample of the image-area lies in exactly one tile; every sample of a resolution lies in exactly one precinct; every sample of a subband lies in exactly one code-block; and the four subbands' sizes add up to their resolution's size.", "quantifier": "every legal geometry (origins, offsets, tile sizes, subsampling, precinct and code-block exponents) and every sample", "why_tests_cant": "Ceil-division geometry at arbitrary offsets.", "anchors": ["source/core/coding/coding_units.cpp: j2k_tile ctor / dec_init, create_resolutions, create_precincts, j2k_precinct_subband ctor"]}
{"id": "C26", "title": "Each packet is visited exactly once in every progression order, and encoder and decoder agree", "statement": "For each progression order, the enumeration visits every (layer, resolution, component, precinct) exactly once and in the order the standard's nested loops prescribe; the encoder and decoder enumerate identically.", "quantifier": "every geometry and number of layers", "why_tests_cant": "Position-based progressions depend on arbitrary coordinates.", "anchors": ["source/core/coding/coding_units.cpp: j2k_tile::create_tile_buf, construct_packets"]}
{"id": "C27", "title": "The reversible 5/3 wavelet transform is lossless", "statement": "The inverse 5/3 transform applied to the forward transform of any integer signal returns the signal, in one dimension for any start coordinate and length and in two dimensions for any rectangle, over any number of decomposition levels.", "quantifier": "every integer signal, every origin parity and length (including length 1)", "why_tests_cant": "Unbounded data and sizes.", "anchors": ["source/core/transform/fdwt.cpp: fdwt_1d_filtr_rev53_i32, fdwt_1d_sr, fdwt_2d_sr", "source/core/transform/idwt.cpp: idwt_1d_filtr_rev53_i32, idwt_2d_sr"]}
{"id": "C28", "title": "The reversible colour transform is lossless", "statement": "The inverse RCT applied to the forward RCT of any integer triple returns the triple, and the ranges of the transformed components exceed the input range by at most one bit.", "quantifier": "every integer RGB triple and bit depth", "why_tests_cant": "Unbounded integers.", "anchors": ["source/core/transform/color.cpp: cvt_rgb_to_ycbcr_rev, cvt_ycbcr_to_rgb_rev"]}
{"id": "C29", "title": "Region-restricted inverse DWT equals the full transform inside the region", "statement": "Restricting the horizontal inverse transform to a column window gives, inside the window, exactly the samples the full-row transform gives.", "quantifier": "every row content, row geometry, window and both filter families", "why_tests_cant": "Boundary arithmetic at arbitrary parity.", "anchors": ["source/core/transform/idwt.cpp: idwt_1d_row_inplace_range and sub-range filters"]}
{"id": "C30", "title": "Streaming forward DWT equals the batch transform", "statement": "Pushing rows one at a time through the streaming forward transform emits, in order, exactly once each, the same rows the whole-tile vertical transform produces.", "quantifier": "every tile height, origin parity, row data, both filter families", "why_tests_cant": "Ring-buffer reuse hazards depend on height and parity; float arithmetic identity needs structural argument.", "anchors": ["source/core/transform/fdwt.cpp: fdwt_2d_state_push_row, cascade, emit_ready, fdwt_2d_state_flush"]}
{"id": "C31", "title": "Streaming inverse DWT equals the batch transform", "statement": "Pulling rows one at a time from the streaming inverse transform returns exactly v1-v0 rows, equal to those of the whole-tile vertical inverse transform, whatever rows happen to be all-zero.", "quantifier": "every tile height, origin parity, row data, both filter families", "why_tests_cant": "Ring-buffer reuse hazards and the zero-row skip depend on data and height.", "anchors": ["source/core/transform/idwt.cpp: idwt_2d_state_pull_row_ref, cascade, fetch_one, adv_step"]}
{"id": "C32", "title": "MEL adaptive run-length coding round-trips", "statement": "Any sequence of MEL events encoded and terminated by the HT block encoder is decoded to the same sequence by the decoder.", "quantifier": "every event sequence of every length", "why_tests_cant": "Adaptive state depends on full history; bit stuffing.", "anchors": ["source/core/coding/ht_block_encoding.hpp: state_MEL_enc", "source/core/coding/ht_block_decoding.hpp: MEL_dec"]}
{"id": "C33", "title": "MagSgn bit stream round-trips with stuffing", "statement": "Any sequence of (value,bit-length) fields packed by the MagSgn encoder and terminated is read back field by field by the decoder, and the stream contains no 0xFF followed by a byte above 0x7F, and does not end in 0xFF.", "quantifier": "every sequence of fields (0..32 bits each)", "why_tests_cant": "Stuffing at every alignment; unbounded sequences.", "anchors": ["source/core/coding/ht_block_encoding.hpp: state_MS_enc", "source/core/coding/ht_block_encoding.cpp: emit_dword, termMS", "source/core/coding/ht_block_decoding.hpp: fwd_buf"]}
{"id": "C34", "title": "VLC reverse bit stream round-trips with stuffing", "statement": "Any sequence of codewords packed by the reversed VLC writer is read back by the reverse reader.", "quantifier": "every sequence of codewords", "why_tests_cant": "Reverse stuffing rules at every alignment.", "anchors": ["source/core/coding/ht_block_encoding.cpp: state_VLC_enc::emitVLCBits, termVLC", "source/core/coding/ht_block_decoding.hpp: rev_buf"]}
{"id": "C35", "title": "HT cleanup tables: encoder and decoder VLC tables agree", "statement": "For every context, significance pattern and exponent pattern the encoder can present, decoding the emitted codeword with the decoder table in the same context returns the same significance pattern and consistent exponent-bound information, whatever bits follow.", "quantifier": "every context, pattern and continuation", "why_tests_cant": "Tables of thousands of entries generated independently; prefix property over all continuations.", "anchors": ["source/core/coding/enc_CxtVLC_tables.hpp", "source/core/coding/dec_CxtVLC_tables.hpp"]}
{"id": "C36", "title": "Main-header marker segments round-trip", "statement": "A SIZ/COD/QCD/CAP/COM/SOT/TLM segment written by the encoder, read back by the decoder, yields the same parameters and consumes exactly the declared length.", "quantifier": "every parameter set", "why_tests_cant": "Many independent fields and variable lengths.", "anchors": ["source/core/codestream/j2kmarkers.cpp: *_marker::write and reading constructors"]}
{"id": "C37", "title": "Codestream readers stay inside the buffer", "statement": "For any byte buffer, byte/word/dword reads and skips of the in-memory codestream source either succeed inside the buffer or raise an error; they never read beyond its end.", "quantifier": "every buffer (including empty) and every sequence of read/skip operations", "why_tests_cant": "Hostile input; unsigned wrap-around.", "anchors": ["source/core/codestream/codestream_source.cpp", "source/core/codestream/codestream.hpp: j2c_src_memory, buf_chain"]}
{"id": "C38", "title": "Marker walking terminates and yields in-bounds offsets", "statement": "Walking the marker segments of any codestream terminates and every reported tile-part offset and length lies inside the buffer.", "quantifier": "every byte string", "why_tests_cant": "Hostile input.", "anchors": ["source/core/jpip/codestream_walker.cpp", "source/core/jpip/packet_locator.cpp"]}
{"id": "C39", "title": "JPH/JP2 box scanning is bounded and finds the written codestream", "statement": "Scanning any file stays inside the buffer and terminates; the codestream slice it reports lies inside the buffer; scanning a file produced by the box writer returns exactly the codestream that was appended.", "quantifier": "every byte string; every header and codestream", "why_tests_cant": "Hostile input; nested boxes.", "anchors": ["source/core/jph/jph.cpp: jph_scan_boxes, jph_parse_buffer, jph_boxes::write"]}
{"id": "C40", "title": "The client precinct cache only advertises precincts it still holds, within budget", "statement": "After any sequence of responses, budget changes and resets, every precinct the client advertises to the server as held is present and complete in its store, accounted bytes equal the sum of tracked sizes, and after eviction they do not exceed the budget.", "quantifier": "every history of responses and evictions", "why_tests_cant": "History property of an LRU with three structures kept in sync.", "anchors": ["web/src/jpip_wrapper.cpp: precinct_lru_*, jpip_add_response, jpip_reset_cache"]}
{"id": "C41", "title": "Reassembled codestreams are well framed", "statement": "The codestream reassembled from any subset of data-bins starts with the main header, has one tile-part per tile whose declared length equals its actual length, represents each absent precinct by empty packets, and ends with EOC.", "quantifier": "every subset of bins and every geometry", "why_tests_cant": "Exponentially many subsets.", "anchors": ["source/core/jpip/codestream_assembler.cpp: reassemble_codestream*"]}
{"id": "C42", "title": "Parsing arbitrary packet-header bytes never stores outside a code-block's pass-length array", "statement": "For any bytes, any layer and any state left by earlier packets, parse_packet_header either finishes, throws, or keeps reading; it never writes outside pass_length (4 inline or 128 heap entries), and the invariant it relies on holds again afterwards.", "quantifier": "every byte string, every layer, every reachable parser state", "why_tests_cant": "The bound depends on accumulations over attacker-chosen pass counts in many packets.", "anchors": ["source/core/coding/coding_units.cpp: parse_packet_header", "source/core/coding/coding_units.hpp: ensure_pass_capacity"]}
{"id": "C43", "title": "The HT cleanup pass is lossless", "statement": "Decoding the cleanup segment produced by the HT block encoder returns exactly the coefficients that were encoded, for every block size, every coefficient array within M_b bits, every buffer alignment and any prior contents of the decoder's scratch memory.", "quantifier": "every code-block size and content, M_b from 1 to 30, every alignment, every scratch content", "why_tests_cant": "The coder adapts to neighbourhoods, three interleaved bit streams and two context models; the space of blocks is astronomically large.", "anchors": ["source/core/coding/ht_block_encoding.cpp: htj2k_cleanup_encode", "source/core/coding/ht_block_decoding.cpp: ht_cleanup_step2, htj2k_decode", "source/core/coding/ht_block_decoding.hpp: ht_cleanup_step1_nway"]}
{"id": "C44", "title": "The HT encoder's fixed-size buffers suffice for legal code-blocks", "statement": "For every code-block of legal size and every content of at most 21 magnitude bits, neither the MEL/VLC buffer (MAX_Scup) nor the output buffer (MAX_Lcup) of the encoder overflows, so encoding always succeeds.", "quantifier": "every legal code-block size, every content up to 21 bits", "why_tests_cant": "The worst case of an adaptive coder with bit stuffing is not found by sampling.", "anchors": ["source/core/coding/ht_block_encoding.hpp: MAX_Lcup, MAX_Scup", "source/core/coding/ht_block_encoding.cpp: htj2k_cleanup_encode, termMELandVLC"]}
{"id": "C45", "title": "Step 1 of the HT decoder stays inside its scratch array on arbitrary input", "statement": "Whatever bytes the cleanup segment contains, the first decoding step writes only the first scratchNeed(w,h) entries of the scratch array, which is at most the 8*513 entries reserved, for every legal code-block size.", "quantifier": "every segment, every legal block size", "why_tests_cant": "Attacker-controlled bytes and all block shapes.", "anchors": ["source/core/coding/ht_block_decoding.hpp: ht_cleanup_step1_nway", "source/core/coding/ht_block_decoding.cpp: htj2k_decode scratch"]}
{"id": "C46", "title": "Serving every data-bin of a codestream and reassembling gives the codestream back", "statement": "For every well-formed codestream with one tile-part per tile, if a client holds the bins the emitter reads through the walker's layout and the packet ranges of the locator, and those ranges tile each tile-part body in order, then reassemble_codestream returns the original codestream byte for byte.", "quantifier": "all main and tile headers made of marker segments, all packet bodies, all numbers of tiles up to 65535, all data-bin sets that hold the emitter's payloads, all locators whose packets tile the bodies", "why_tests_cant": "The existing round-trip tests run a few conformance files; equality has to hold for every header and body, including bodies that contain marker bytes and tiles with empty headers.", "anchors": ["source/core/jpip/codestream_assembler.cpp:44-143", "source/core/jpip/data_bin_emitter.cpp:90-180", "source/core/jpip/codestream_walker.cpp"]}
{"id": "C47", "title": "The JPH header boxes give every component its depth and sign", "statement": "Reading BPC from the image header box, and the bits-per-component box when BPC is 255, yields for every component the bit depth and signedness that SIZ declares.", "quantifier": "all component lists whose components agree in sign (the general claim is false for the code: C47_mixed_signs_misdescribed)", "why_tests_cant": "Needs all combinations of depths; conformance images have equal depths.", "anchors": ["source/core/jph/jph.cpp:139-188"]}
{"id": "C48", "title": "Main-header parsing ends and stays inside the codestream", "statement": "Whatever bytes are given, parsing the main header returns or throws after a number of rounds bounded by the length of the codestream, and reads no byte outside the codestream and its padding.", "quantifier": "every byte string as codestream", "why_tests_cant": "Malformed headers form an unbounded set; sanitizer runs only see the paths they take.", "anchors": ["source/core/codestream/j2kmarkers.cpp:1662-1805 j2k_main_header::read", "source/core/codestream/j2kmarkers.cpp reading constructors", "source/core/codestream/codestream_source.cpp"]}
{"id": "C49", "title": "Reduction limit is the minimum over all components", "statement": "The number of resolution levels that may be discarded is the minimum of the decomposition levels over all components, each taken from its COC segment if there is one and from COD otherwise, and is computed without reading outside the list of COC segments.", "quantifier": "every header: every set and order of COC segments", "why_tests_cant": "Depends on which components have COC segments and in what order.", "anchors": ["source/core/interface/decoder.cpp:320-339 get_minimum_DWT_levels"]}
{"id": "C50", "title": "A reused header object forgets the previous header", "statement": "Parsing a codestream with a decoder that has parsed another one before gives the same header as a fresh decoder.", "quantifier": "every pair of codestreams", "why_tests_cant": "Depends on pairs of streams, the first with an optional marker the second lacks.", "anchors": ["source/core/codestream/j2kmarkers.cpp:1662-1683"]}
{"id": "C51", "title": "Reported and allocated component sizes", "statement": "The width and height reported for a component, and those of the output buffers, are the numbers of samples of the component (reduced by the discarded levels) on the reference grid.", "quantifier": "every image offset, subsampling and reduction", "why_tests_cant": "Only offsets that are not multiples of the subsampling show a difference.", "anchors": ["source/core/interface/decoder.cpp:297-313 get_component_width", "source/core/interface/decoder.cpp:430-447 invoke_line_based"]}
{"id": "C52", "title": "Tile-parts of a written codestream are recovered", "statement": "From a codestream written by the encoder the decoder recovers, for each tile, exactly the packet bytes written for it; and each tile-part header's markers are counted so that body and header together have the declared length.", "quantifier": "every list of tile bodies, every tile-part header", "why_tests_cant": "Unbounded number and size of tiles.", "anchors": ["source/core/interface/encoder.cpp:700-760", "source/core/interface/decoder.cpp:456-476", "source/core/codestream/j2kmarkers.cpp:1842-1899", "source/core/coding/coding_units.cpp:4001-4008"]}
{"id": "C53", "title": "The MQ decoder is safe on any bytes", "statement": "For any segment bytes, any valid context states and any labels, init and any number of decode calls never read outside of the segment, never index outside of the tables, always end, and return bits; the interval register stays normalised. The code register does not overflow as long as no byte between 0x80 and 0x8F follows a 0xFF. The same holds for raw (bypass) segments without any condition.", "quantifier": "for all buffers, segment positions and lengths, context states, label sequences of any length", "why_tests_cant": "The state space of the registers and of 19 adaptive contexts over segments of any length cannot be enumerated; the overflow needs a byte pair that no encoder produces.", "anchors": ["source/core/coding/mq_decoder.cpp:52-137", "source/core/coding/mq_decoder.cpp:200-233", "source/core/coding/mq_decoder.cpp:284-299"]}
{"id": "C54", "title": "The MQ decoder inverts the encoder of the standard", "statement": "Any sequence of (label, bit) decisions coded by the MQ encoder of T.800 Annex C from any valid context states is returned by the decoder bit for bit, wherever the terminated segment lies in the buffer, also when each label depends on the bits before it; the context states left are those of the encoder. Raw segments with bit stuffing are inverted as well.", "quantifier": "for all decision sequences, context states, surrounding bytes", "why_tests_cant": "Carry propagation, bit stuffing and the conditional exchange interact over unbounded distances; test vectors reach only few of the carry chains.", "anchors": ["source/core/coding/mq_decoder.cpp:44-137", "source/core/coding/mq_decoder.cpp:200-233"]}
{"id": "C55", "title": "Context labels of the code-block decoder are those of the standard", "statement": "The lookup tables for significance and sign coding equal Tables D.1 to D.3 of T.800 on every index that can occur; the packed context words kept up by broadcast_sigma_context give, at every coefficient of a block of any size and whatever coefficients became significant in whatever order, the label the standard computes from the eight neighbours, with and without vertically causal contexts. No access leaves the arrays.", "quantifier": "for all block sizes, subbands, sets and orders of significant coefficients", "why_tests_cant": "A wrong entry or a wrong bit of a packed word shows only for neighbourhoods at stripe and block borders that test images may never contain.", "anchors": ["source/core/coding/block_decoding.cpp:41-149", "source/core/coding/coding_units.cpp:1401-1405"]}
{"id": "C56", "title": "Lossless code-block round trip", "statement": "Every code-block coded by the encoder of T.800 Annexes C and D, in any of the code-block styles (bypass, reset, termination on each pass, causal, segmentation symbols, any combination), is decoded by j2k_decode to exactly its coefficients, with and without a Maxshift region of interest, for any number of layers and any division of the segment lengths over the passes, and without any out-of-bounds access, bad shift or register overflow.", "quantifier": "for all block sizes, coefficients, subbands, styles, M_b up to 30, numbers of zero bit-planes, surrounding bytes", "why_tests_cant": "Infinitely many blocks; the 32 combinations of styles with sizes that are no multiple of the stripe height and segments that end anywhere are covered by few test streams.", "anchors": ["source/core/coding/block_decoding.cpp:151-603", "source/core/coding/block_dequant.cpp:34-72", "source/core/coding/mq_decoder.cpp:44-233"]}
{"id": "C57", "title": "Truncated code-blocks degrade gracefully", "statement": "If only the first n coding passes of a block are decoded, every coefficient comes back as zero or with its right sign, and with D bit-planes missing its error is at most 2^(D-1); a coefficient that comes back as zero is below 2^D. After all passes the error is zero.", "quantifier": "for all blocks, styles, numbers of passes", "why_tests_cant": "The reconstruction depends on which pass touched which coefficient last; the wrong half-bit is invisible in PSNR tests.", "anchors": ["source/core/coding/block_decoding.cpp:486-603", "source/core/coding/block_dequant.cpp:34-72"]}
{"id": "C58", "title": "The code-block decoder is safe on any bytes", "statement": "For any bytes, pass lengths and code-block style, j2k_decode on a reversible block ends with a full block of coefficients, with an exception, or with an overflow of the MQ registers (not if no byte between 0x80 and 0x8F follows a 0xFF); it never leaves an array, a table or the buffer and never shifts by more than the width, provided M_b is at most 30, the ROI shift at most M_b, and there are no more passes than 3(31-zbp)-2. Without these conditions it does not hold.", "quantifier": "for all byte strings, block sizes, pass lengths, styles, layer divisions", "why_tests_cant": "Fuzzing reaches few of the interleavings of segment lengths, bypass segments and stripe borders; the shifts out of range need more than 91 passes.", "anchors": ["source/core/coding/block_decoding.cpp:486-603", "source/core/coding/coding_units.cpp:2015-2032", "source/core/coding/block_dequant.cpp:34-91"]}
{"id": "C59", "title": "HT refinement segment: both streams come back from the shared bytes", "statement": "The SigProp writer fills a segment forwards, the MagRef writer backwards, with bit stuffing in both directions, and the terminator may fuse the last byte of each. For any two bit sequences of at most 14315 bits together the segment gives both sequences back to the two readers, whatever bytes surround it; it contains no marker, and costs at most two bytes beyond seven bits a byte. The SigProp stream on its own comes back too, with dropped trailing zeros.", "quantifier": "for all pairs of bit sequences and all surrounding bytes", "why_tests_cant": "The fused byte, the stuffing across the meeting point and the 0xFF cases depend on a few bits out of thousands; the encoder pass is not even compiled by default.", "anchors": ["source/core/coding/ht_block_encoding.hpp:135-199", "source/core/coding/ht_block_encoding.cpp:412-436", "source/core/coding/ht_block_decoding.hpp:2016-2057", "source/core/coding/ht_block_decoding.hpp:2331-2377"]}
{"id": "C60", "title": "HT SigProp and MagRef passes round trip", "statement": "For a block of at most 4096 samples in which encoder and decoder agree on significance, the segment the encoder's two refinement passes write lets the decoder's two passes add exactly one more magnitude bit to every significant sample, and sign and bit to every member of the significance propagation set that has a nonzero bit; all others stay zero, nothing outside the block changes. The set is the one defined inductively by scan order and neighbourhood, with or without stripe-causal context.", "quantifier": "for all block sizes, states, signs and magnitudes, both context modes, all bit-planes", "why_tests_cant": "Membership propagates through chains of samples across 4x4 groups and stripes; a wrong neighbour at a border only shows for particular chains.", "anchors": ["source/core/coding/ht_block_encoding.cpp:838-953", "source/core/coding/ht_block_decoding.cpp:41-54", "source/core/coding/ht_block_decoding.cpp:694-823"]}
{"id": "C61", "title": "HT block decoder: any number of passes gives the coefficient to the precision of the last pass", "statement": "Let the HT cleanup pass code the bit-planes of a block down to plane b, optionally followed by a refinement segment holding the SigProp (and MagRef) pass of plane b-1, preceded by any number of groups of three empty passes and with the refinement length divided over the length table in any admitted way. Then htj2k_decode accepts the block and every coefficient comes back with its sign, its magnitude bits down to the last coded plane and the mid-point of the interval below (exactly if no plane is missing); a coefficient that was not reached is 0 and smaller than 2^b. The result does not depend on the uninitialised scratch array.", "quantifier": "for all block sizes up to 4096 samples, all coefficients below 2^M_b, M_b <= 30, all b, zero bit-planes and placeholder counts adding up to M_b, both causal modes, all stream alignments, all scratch contents, all divisions of the refinement length", "why_tests_cant": "needs every coefficient pattern times every placeholder and length-table shape; conformance files contain few blocks with placeholder passes or split refinement lengths", "anchors": ["source/core/coding/ht_block_decoding.cpp:941-1130", "source/core/coding/ht_block_decoding.cpp:340-640", "source/core/coding/ht_block_decoding.hpp:420-647"]}
{"id": "C62", "title": "HT block decoder is memory safe and deterministic on any bytes", "statement": "On any bytes, segment length table and pass count, htj2k_decode performs no undefined operation: no table or scratch index out of range, no reader underflow, no null Dref access, no shift by 32 or more; and its result does not depend on the uninitialised scratch array.", "quantifier": "for all data bytes, all length tables, all pass counts, all block sizes the COD parser admits, all stream alignments", "why_tests_cant": "fuzzing reaches few of the bit-level states of three interleaved streams and cannot observe dependence on uninitialised memory that happens to be zero", "anchors": ["source/core/coding/ht_block_decoding.cpp:82-338", "source/core/coding/ht_block_decoding.cpp:941-1130", "source/core/coding/ht_block_decoding.hpp:420-647"]}
{"id": "C63", "title": "Packet bodies reach the code-blocks they were written for", "statement": "Reading the packets of a tile written by the encoder, with or without SOP and EPH, gives every code-block exactly the bytes the encoder coded and leaves the reader behind the last packet; on any bytes, reading or skipping a packet stays inside the pass-length array and the code-block buffers, appends to each code-block its piece of the body cut by the announced lengths, and skipping leaves the reader where attaching does.", "quantifier": "every sequence of precincts, subbands, code-block grids and coded blocks; every byte string, layer and state reached by earlier packets", "why_tests_cant": "Reallocation of a borrowed buffer needs particular layer lengths; misplaced bytes need particular combinations of empty blocks, SOP and EPH.", "anchors": ["source/core/coding/coding_units.cpp:1436-1548", "source/core/coding/coding_units.cpp:5034-5084", "source/core/coding/coding_units.cpp:5408-5476"]}
{"id": "C64", "title": "The reversible transform gives the same result in float, int32 and exact arithmetic", "statement": "After n levels of the 5/3 analysis the coefficients of samples bounded by A are bounded by (9/4)^n (A+1) in LL and by 3 and 4 times (9/4)^l (A+1) in the detail bands; hence in any arithmetic that is exact up to M, with 8 (9/4)^(n-1) (A+1) <= M+6, analysis gives the exact coefficients and synthesis the samples. In particular the float analysis of the encoder and the int32 synthesis of the decoder reconstruct 16-bit images (with or without colour transform) of up to five levels exactly.", "quantifier": "every image size and position, every sample value within the bound, every number of levels; every arithmetic exact up to M", "why_tests_cant": "Rounding needs extreme sample patterns at particular positions relative to tile edges.", "anchors": ["source/core/transform/fdwt.cpp:162-194", "source/core/transform/idwt.cpp:137-145", "source/core/coding/coding_units.cpp:2870-2986", "source/core/coding/coding_units.cpp:7473-7478"]}
{"id": "C65", "title": "The announced number of bit-planes covers every coefficient of a lossless image", "statement": "For every band M_b = depth + colour - 1 + k, where k is the number of halvings that bring the gain of the band down to 0.9, the same at encoder and decoder and independent of the guard bits; every coefficient of every lossless image is below 2^M_b.", "quantifier": "every number of levels, bit depth, guard bits; every image", "why_tests_cant": "The worst case for the rounding of the 5/3 filter is a specific pattern; a 9x9 bilevel picture that overflows was found only by optimisation.", "anchors": ["source/core/codestream/j2kmarkers.cpp:760-884", "source/core/coding/coding_units.cpp:2617-2632", "source/core/interface/encoder.cpp:650-651"]}
{"id": "C66", "title": "Strip-wise decoding delivers every row of a subband and stays in its buffer", "statement": "Reading the rows of a subband in order through the strip ring buffer (with or without prefetching, for any order of the block tasks) touches nothing outside the buffers of cb_h + 1 rows, decodes no code-block twice, and hands out rows that hold the sample of the code-block containing each point, if and only if no code-block has rows in two strips. That is so when the subband begins at a multiple of the code-block height or is no taller than a code-block, in particular in tiles of power-of-two height on that grid.", "quantifier": "every tile geometry, precinct and code-block size, subband, code-block data, task order, initial buffer contents", "why_tests_cant": "Tests use untiled images or power-of-two tiles, where strips and code-block rows coincide; the failure needs a subband that begins off the grid and is taller than a code-block.", "anchors": ["source/core/coding/subband_row_buf.cpp:140-190", "source/core/coding/subband_row_buf.cpp:278-573", "source/core/coding/subband_row_buf.cpp:598-836", "source/core/coding/coding_units.cpp:5896"]}
{"id": "C67", "title": "A losslessly encoded tile is decoded into the samples it was made of", "statement": "For a tile of one layer with HT code-blocks and the 5/3 transform: the bytes the encoder writes behind SOD (transform, code-blocks, packets in progression order) are decoded (packets, code-blocks, strips of rows, inverse transform) into exactly the samples of every component, whatever bytes follow, whatever scratch memory and strip buffers hold and in whatever order tasks run; provided the announced bit-planes cover the coefficients (C65), no resolution is left without columns, and the subbands lie on the code-block grid. Off that grid nothing can be decoded.", "quantifier": "every tile geometry, number of components and levels, subsampling, precinct and code-block size, progression with POC, SOP/EPH, image, trailing bytes, memory contents and task order", "why_tests_cant": "Round-trip tests run a few images with a few parameter sets; the claim is about all images and the product of all parameters, through six stages that must agree on geometry, order and bit-plane counts.", "anchors": ["source/core/coding/coding_units.cpp:3340-3470", "source/core/coding/coding_units.cpp:5050-5391", "source/core/coding/coding_units.cpp:4130-4582", "source/core/coding/subband_row_buf.cpp:278-545", "source/core/coding/subband_row_buf.cpp:790-836", "source/core/coding/ht_block_encoding.cpp:455-470"]}
{"id": "C68", "title": "A losslessly encoded picture is decoded into the picture", "statement": "For a picture of any number of tiles and components, coded losslessly with or without the colour transform: the encoder takes every sample of every tile from its place in the input buffers, the decoder stores every sample of every tile to its place in the output buffers, no store is outside a buffer, every entry of the output is written, and after DC offset, colour transform, tile coding (C67), inverse colour transform and clamping the output equals the input. It needs: subsampled components have origin 0 or 1 and a width that divides, no component has rows component 0 lacks, the colour transform is on components of one size, and at least one level without it. Where one of these fails the encoder reads outside its buffers or samples are lost or output stays uninitialised.", "quantifier": "every legal SIZ (image and tile origin and size, subsampling, depth, signedness), number of tiles and components, picture, contents of the output buffers beforehand, memory and task order of every tile", "why_tests_cant": "Tests use a few pictures, nearly all with origin 0 and even sizes; the claim is about all pictures and layouts, and about stores not happening elsewhere.", "anchors": ["source/core/interface/encoder.cpp:591-698", "source/core/coding/coding_units.cpp:3577-3607", "source/core/coding/coding_units.cpp:6807-6913", "source/core/coding/coding_units.cpp:7048-7106", "source/core/interface/decoder.cpp:405-487", "source/core/coding/coding_units.cpp:5817-6040", "source/core/codestream/j2kmarkers.cpp:191-197"]}
{"id": "C69", "title": "Growth of the coefficients does not depend on the number of levels", "statement": "The 5/3 analysis of an image of any size at any position with samples of absolute value at most A gives, after any number n of levels, LL coefficients of at most 3.63 A + 6.8 n; HL and LH coefficients at detail level l of at most 7.26 A + 13.6 l + 2, HH coefficients of at most 14.52 A + 27.2 l + 1.5 (the factor 9/4 per level of C64 is not needed). So the float encoder and the int32 decoder are exact for samples up to 2^19 and all 32 levels the standard allows.", "quantifier": "every number of levels, image size and position, every samples", "why_tests_cant": "Tests use natural images, at most a few levels, and 8 to 16 bits; the claim is about the worst sample pattern for every size, position and number of levels.", "anchors": ["source/core/transform/fdwt.cpp:162-177", "source/core/transform/idwt.cpp:137-145", "source/core/coding/coding_units.cpp:6807-6913"]}
{"id": "C70", "title": "A losslessly encoded picture comes back from the bytes of its codestream", "statement": "For all parameters of the encoder (image and tile sizes and origins, components with subsampling and bit depth, number of levels, progression order, block and precinct sizes, SOP, EPH, colour transform) within the stated limits, and all samples of the declared depth, the encoder writes a codestream (main header with SIZ, CAP, COD, QCD, TLM, COM; tile-parts; packets) of which the decoder, given only the bytes, recovers the parameters and in its output buffers the samples; whatever follows the codestream and whatever the buffers held before.", "quantifier": "every set of parameters within the limits, every samples, every bytes after the codestream, every initial buffers", "why_tests_cant": "A conformance test fixes some pictures and a handful of parameter sets; the claim is the composition of the header writer and parser, the container, the packet layer, the block coder, the wavelet and colour transforms for all of them.", "anchors": ["source/core/interface/encoder.cpp:591-760", "source/core/interface/decoder.cpp:281-294", "source/core/interface/decoder.cpp:405-487", "source/core/coding/coding_units.cpp:3945-4063", "source/core/codestream/j2kmarkers.cpp:170-197"]}
{"id": "C71", "title": "The announced length of a tile-part is the number of bytes written", "statement": "Before it writes packets the encoder adds up, in 32 bits and in another order, the lengths of packet headers, code-blocks and SOP segments of a tile; SOT, TLM and the size of the output buffer come from this sum. For one layer the sum plus 14 is exactly the number of bytes of the tile-part, for every tile, progression order, precinct partition and sample values (below 2^32), so the buffer is filled exactly and never overrun. With L layers the encoder writes every precinct L times and announces it once: it overruns the buffer.", "quantifier": "every legal tile, list of progression order changes, samples, number of layers", "why_tests_cant": "Tests see that some codestreams decode; that two independent traversals agree in their total for all partitions and orders, and the overrun with more than one layer (which the command line never asks for), are not visible to them.", "anchors": ["source/core/coding/coding_units.cpp:7121-7164", "source/core/coding/coding_units.cpp:7799-7810", "source/core/coding/coding_units.cpp:5036-5098", "source/core/interface/encoder.cpp:700-757"]}
{"id": "C72", "title": "When the magnitude bound announced in CAP covers all subbands", "statement": "The encoder announces in Ccap15 a bound for the number of magnitude bit-planes. For the reversible transform this bound is at least M_b of every subband exactly if the largest M_b is at most 8, or there is one guard bit and the largest exponent is at most 27 or 31. With derived step sizes and one guard bit it covers all levels under the same condition on the exponent. With a step size per subband it is made from the smallest exponent and does not cover the largest subband whenever two exponents differ and the largest is at least 9.", "quantifier": "every list of step words, every number of guard bits from 1 to 7, every number of levels up to 32", "why_tests_cant": "No decoder in the repository looks at these bits, so a bound that is too small leaves no trace in any test of encoding and decoding.", "anchors": ["source/core/codestream/j2kmarkers.cpp:1009-1020", "source/core/interface/encoder.cpp:653-671", "source/core/coding/coding_units.cpp:2617-2646"]}
{"id": "C73", "title": "The head of an HTTP response is found again, and read within its buffers", "statement": "For every body, every list of messages and every target id, channel line and further lines that are plain text and fit the buffers they are printed to, the server reads only inside its buffers, and the client finds in the bytes sent whether the body is chunked, its length and where it starts, so that it obtains exactly the body or the messages, in whatever pieces they arrive. The server reads beyond a buffer exactly for target ids of more than 244 bytes.", "quantifier": "every body, every list of messages, all header values, every split of the bytes", "why_tests_cant": "Tests use short names; that snprintf's return value is used as a length only shows with file names between 244 and 255 bytes, and that no body can be mistaken for a part of the head needs all bodies.", "anchors": ["source/core/jpip/jpip_response.cpp:12-82", "source/core/jpip/jpip_response.cpp:109-179", "source/apps/jpip_server/main.cpp:465-500", "source/core/jpip/jpip_client.cpp:198-245"]}
{"id": "C74", "title": "The step size in the codestream is the closest one to the step size asked for", "statement": "For every positive step size below 2^20 the packing into exponent and mantissa ends, the result fits its fields, and no pair of a 5-bit exponent and an 11-bit mantissa is closer to the step size asked for. It does not end for zero. The decoder recovers the packed step from the word for exponents up to 30; with exponent 31 it gets its negative. A derived step has the exponent of LL less the number of levels in between, and the shift is undefined exactly if that is negative.", "quantifier": "every rational step size, every exponent and mantissa, every number of levels up to 32", "why_tests_cant": "Tests use a few step sizes; that rounding over a binade, both clamps and the carry into the exponent always give the closest representable step needs all of them, and exponent 31 does not occur with ordinary settings.", "anchors": ["source/core/codestream/j2kmarkers.cpp:728-748", "source/core/codestream/j2kmarkers.cpp:866-883", "source/core/codestream/j2kmarkers.cpp:986-1005", "source/core/coding/coding_units.cpp:2633-2650"]}
{"id": "C75", "title": "Irreversible subbands: every coefficient comes back as the middle of its quantiser interval", "statement": "A code-block of an irreversible subband that is quantised, coded with the HT cleanup pass and decoded gives zero for every coefficient below one step and otherwise the middle of the interval of the coefficient, on the same side: an error of at most half a step. Quantising the result again gives the same indices. The Part 1 decoder, which computes in 32-bit integers, does the same up to the step times 2^(M_b - 16) plus one, for any number of coding passes (with the interval told by the bits that are known), and nothing overflows if one bit-plane is empty and the scale is not too large. It loses all indices below 2^(M_b - 16), and overflows for large coefficients with four guard bits or fifteen bit-planes.", "quantifier": "every block size, every rational coefficient and positive step size, every M_b up to 30; for Part 1 every coding style and number of passes", "why_tests_cant": "Tests compare decoded pictures with a tolerance; an error of a whole step in one coefficient, a sign at the edge of the dead zone, or an overflow for one combination of guard bits and magnitude disappears in it.", "anchors": ["source/core/coding/ht_block_encoding.cpp:45-92", "source/core/coding/coding_units.cpp:487-614", "source/core/coding/ht_block_decoding.cpp:57-76", "source/core/coding/ht_block_decoding.cpp:825-891", "source/core/coding/block_dequant.cpp:73-135"]}
{"id": "C77", "title": "The streaming decoder hands out every row of every component, and the files of components get them all", "statement": "Whatever the sizes of tiles and code-blocks: for one tile with strips that begin where rows of all components begin, the callback is called once per row of component 0 in order, and with row y a component with vertical factor Y shows its row y / Y. For one column of tiles that together hold a picture, the callbacks come in the order of the rows of the picture and whenever a row of a component begins (Y divides y) that row is handed out; the decoder program, which recovers Y from the heights, then writes all rows of the component to its file, once and in order. With several columns of tiles the row of the picture is the rows of the tiles joined together.", "quantifier": "for all tiles, numbers and heights of tiles, heights of code-blocks, subsampling factors, rows and functions applied to them", "why_tests_cant": "Strips, tiles, subsampling and the held rows interact; the interesting cases need tile heights that are no multiple of the factor, factors other than 1 and 2, or several columns of tiles with subsampling, and conformance files have few of them.", "anchors": ["source/core/coding/coding_units.cpp:6056-6618", "source/core/coding/coding_units.cpp:3106-3190", "source/core/interface/decoder.cpp:501-699", "source/apps/decoder/main_dec.cpp:795-822"]}
{"id": "C76", "title": "Picture files written by the decoder program are read back by the encoder program", "statement": "For components of 1 to 16 bits with samples in range: the PGM, PGX and PPM files that the decoder program writes are accepted by the readers of the encoder program with the same sizes, depths and signs, and the rows read are the rows written (signed samples in PGM moved by half the range; narrower components in PPM stretched by repeating samples; lower components in PGX giving each row several times). PGX files that are read, coded without loss, decoded and written are the same byte by byte.", "quantifier": "for all sizes, depths, signs, numbers of components and samples (one- and two-byte samples, both readers)", "why_tests_cant": "Headers are variable-length text followed by arbitrary bytes, so the trouble is in particular first samples (32, 10, 13), particular widths (vector code from 16 on), particular combinations of components; tests use a few pictures.", "anchors": ["source/apps/decoder/main_dec.cpp:60-457", "source/apps/decoder/main_dec.cpp:640-822", "source/apps/imgio/imgio.cpp:20-277", "source/core/interface/encoder.cpp:109-384"]}
{"id": "C78", "title": "Vector and scalar code that stores decoded samples leave the same memory", "statement": "For every row, width and initial memory, the AVX2/SSE and NEON builds of the functions that pack samples to bytes and 16-bit words, interleave PPM rows, shift and clamp planes, and finalize the inverse transform leave exactly the memory that the scalar build leaves, and write nothing beyond the row, under stated conditions on the samples; where a condition is needed it is exact or a row outside it is given on which the builds differ: AVX2 packing to 16 bits needs samples of at most 32767, shifting planes needs depths of at least 8, finalizing to bytes needs components without sign (and depths of at least 8 with NEON).", "quantifier": "for all rows of 32-bit samples, widths, initial memories, depths and parameters of the kernels", "why_tests_cant": "Which build runs depends on the machine, so a test on one machine compares nothing; differences appear only in whole groups of 8, 16 or 32 samples and for values that saturate or wrap.", "anchors": ["source/apps/decoder/main_dec.cpp:64-457", "source/apps/rtp_recv/planar_shift.hpp:41-223", "source/core/transform/finalize_narrow.hpp:61-314", "source/apps/rtp_recv/decode_helpers.cpp:328-490"]}
{"id": "C79", "title": "Vector builds dequantise code-blocks as the scalar code does", "statement": "For every Part 1 code-block, reversible or irreversible, with or without a region of interest and of any width, the AVX2, AVX-512 and NEON builds of the dequantisation give exactly the coefficients of the scalar code wherever the scalar code is defined (no shift out of range, no overflow); so the lossless theorem on Part 1 blocks holds in each build. The same holds for rows of HT code-blocks with AVX2 and NEON (reversible, and irreversible with a region of interest). Where the scalar code is undefined the builds do differ.", "quantifier": "for all code-blocks, widths, samples, state bytes, numbers of bit-planes, region of interest shifts and scales", "why_tests_cant": "A machine runs one build only; the builds differ in how they mask, shift and apply signs, and errors show up only for particular combinations of bit-planes, shift and width.", "anchors": ["source/core/coding/block_dequant.cpp:34-135", "source/core/coding/block_dequant_avx2.cpp:39-262", "source/core/coding/block_dequant_avx512.cpp:39-257", "source/core/coding/block_dequant_neon.cpp:35-268", "source/core/coding/ht_block_decoding.cpp:825-925", "source/core/coding/ht_block_decoding_avx2.cpp:658-870", "source/core/coding/ht_block_decoding_neon.cpp:743-915"]}
{"id": "C80", "title": "Refinement passes of the vector builds", "statement": "The vector builds' HT refinement passes, which pack sixteen significances to a word and hold the result in a 432-element local array, leave the same samples as the scalar build's for every block the cleanup pass can leave of a conforming stream, and never index the array outside, if the block's packed size is below 432; above it they write past the array. Which code-block sizes a codestream may declare are below is listed exactly.", "quantifier": "all block sizes, significances, samples, refinement segments, causal mode on or off, two or three passes", "why_tests_cant": "the two algorithms visit samples in different orders with different neighbour bookkeeping; agreement depends on every pattern of significances around group borders, and the overflow needs tall or very wide code-blocks with several HT passes", "anchors": ["source/core/coding/ht_block_decoding_avx2.cpp:492-656", "source/core/coding/ht_block_decoding_avx2.cpp:1010-1022", "source/core/coding/ht_block_decoding.cpp:694-823", "source/core/coding/ht_block_decoding_neon.cpp:592-750", "source/core/coding/ht_block_decoding_wasm.cpp:91-120"]}
{"id": "C81", "title": "Vector kernels of the 5/3 filter", "statement": "The AVX2 code for the reversible 5/3 filter - the in-place row filters, the row filters that read or write separate low-pass and high-pass rows, the choice between them by position and width, and the four vertical steps - computes exactly the lifting steps of the scalar code in 32-bit arithmetic, for rows of two samples or more at any position; the result does not depend on what the scratch memory held, no memory is touched beyond eight words before and nine words after a row, the small local arrays of the tails are not overrun, and analysis followed by synthesis returns every row of words, overflow included.", "quantifier": "all rows of at least two words, all positions, all contents of scratch memory", "why_tests_cant": "every width has its own split between vector groups, paired groups, scalar tail and mirrored ends; a lane or a tail error shows only for some widths, parities and values", "anchors": ["source/core/transform/idwt_avx2.cpp:498-560", "source/core/transform/idwt_avx2.cpp:781-852", "source/core/transform/fdwt_avx2.cpp:351-440", "source/core/transform/fdwt_avx2.cpp:544-617", "source/core/transform/idwt.cpp:856-870", "source/core/transform/idwt.cpp:1092-1206", "source/core/transform/fdwt.cpp:958-986"]}
{"id": "C82", "title": "NEON and AVX-512 kernels of the 5/3 filter", "statement": "The NEON and the AVX-512 code for the reversible 5/3 filter - in-place rows, rows from and to separate planes, the thresholds that choose between them, the vertical steps - computes exactly the lifting steps of the scalar code in 32-bit arithmetic for rows of two samples or more at any position and any contents of scratch memory; it stays within eight words before and nineteen words after a row; NEON, AVX-512 and AVX2 builds make the same words of a row, and a row analysed in one build comes back in any other.  The vertical steps touch nothing but the row, except those of the NEON analysis, which work on whole groups of eight columns and need memory up to there.", "quantifier": "both instruction sets, all rows of at least two words, all positions, all contents of scratch memory", "why_tests_cant": "each build runs on other hardware; every width has its own split between paired registers, registers and tail, and the overrun shows only for widths of 5, 6 or 7 modulo 8 at the end of an allocation", "anchors": ["source/core/transform/idwt_neon.cpp:880-993", "source/core/transform/fdwt_neon.cpp:420-503", "source/core/transform/fdwt_neon.cpp:596-640", "source/core/transform/idwt_avx512.cpp:560-633", "source/core/transform/idwt_avx512.cpp:823-873", "source/core/transform/fdwt_avx512.cpp:420-530", "source/core/transform/fdwt_avx512.cpp:639-691", "source/core/transform/idwt.cpp:1118-1228", "source/core/transform/fdwt.cpp:957-1133"]}
{"id": "C83", "title": "Reversible colour transform in all builds, and the rows of the streaming encoder", "statement": "The scalar, WebAssembly, NEON, AVX2 and AVX-512 versions of the reversible colour transform (in place, into float rows, and back with level shift and clamp) give the same words for every row on which the scalar version is defined; the words are the reversible transform of the standard; a row encoded by one build comes back from any other.  The in-place version of the vector builds works on whole registers: the streaming encoder, which calls it at the tile's absolute column in rows of the image width rounded up to 32 words, stays inside its rows exactly when the tile rounded up to whole registers does (and starts at a multiple of eight columns for AVX2).", "quantifier": "all builds, all rows, widths and tile positions, all samples of up to 28 bits (22 for the float round trip)", "why_tests_cant": "each build runs on other hardware; the overrun depends on tile position, tile width and image width together and corrupts memory silently", "anchors": ["source/core/transform/color.cpp:35-54", "source/core/transform/color.cpp:154-171", "source/core/transform/color.cpp:216-238", "source/core/transform/color_avx2.cpp:38-60", "source/core/transform/color_avx2.cpp:225-256", "source/core/transform/color_avx2.cpp:390-436", "source/core/transform/color_avx512.cpp:38-60", "source/core/transform/color_neon.cpp:44-80", "source/core/transform/color_wasm.cpp:34-55", "source/core/coding/coding_units.cpp:7312-7326", "source/core/coding/coding_units.cpp:7676-7695"]}
{"id": "C84", "title": "What arrives over TCP does not depend on how it is cut", "statement": "recv_until_header_end stays within its limit, keeps the bytes in order, loses none, and has the first CR LF CR LF in its buffer if that is complete within the limit, although it only looks at the newest bytes and three before them.  With it, the JPIP client hands the same bytes to its parser and reports the same result for every way in which recv cuts the response, chunked or with a length; what the server sends in chunks arrives; the server takes the same body of a POST for every cut.  The client should notice a response that ends early: it does not.", "quantifier": "all byte streams, all sequences of sizes returned by recv, all messages", "why_tests_cant": "over a local socket almost every response arrives in the same few pieces; a CR LF CR LF split over two calls of recv, or a connection that ends in the middle, hardly ever occurs", "anchors": ["source/core/jpip/tcp_socket.cpp:155-195", "source/core/jpip/jpip_client.cpp:192-269", "source/apps/jpip_server/main.cpp:303-318", "source/apps/jpip_server/main.cpp:363-385"]}
{"id": "C85", "title": "The query of a POST request", "statement": "A POST request with a Content-Length (in either case, at any place among the headers) gives the path of its request line and, as the query, the announced number of bytes after the head, for every way in which it arrives; if fewer bytes come the answer is 400, and 413 for more than 16 MB.  The answer to any POST should depend only on its bytes, and a length should be a number without sign: neither holds.", "quantifier": "all requests, header lines, lengths and bodies, all sequences of sizes returned by recv", "why_tests_cant": "test clients send the head and the body in one piece, with the usual headers and with a correct length", "anchors": ["source/apps/jpip_server/main.cpp:265-301", "source/apps/jpip_server/main.cpp:303-387", "source/core/jpip/tcp_socket.cpp:155-187"]}
{"id": "C86", "title": "A dropped connection loses nothing", "statement": "When the connection of a response within a channel is dropped, the channel's model on the server still agrees with what the client has received, so that a later request gets the rest (the comment at main.cpp:503-505).  This holds for responses in chunks when what was sent before the failure arrives; for responses in one buffer it does not: bins are committed whether the response was sent or not, and are never sent again on that channel.", "quantifier": "all images, windows, limits, numbers of messages sent before the failure, and all later requests", "why_tests_cant": "tests do not drop connections in the middle of a response; the loss shows only in later responses of the same channel", "anchors": ["source/apps/jpip_server/main.cpp:465-511", "source/apps/jpip_server/main.cpp:122-248", "source/core/jpip/channel_manager.cpp:50-62"]}
{"id": "C87", "title": "Every request is served from the model of its own channel", "statement": "A request on an open channel is served from that channel's model with the changes it asks for, and afterwards the channel holds exactly this model together with what was sent; no other channel changes.  A request on a channel that does not exist is refused and changes nothing.  A request for a new channel gets one that was not given out before, with the model it sent; at most one other channel goes, and only when there is no more room.  A request without a channel leaves no trace.  cclose closes exactly the channels named, after the response.  So the agreement of server and client of C08 holds on every channel, whatever is asked on the others.", "quantifier": "all channel tables, requests (channel, new channel, model, close fields), responses, and limits on the number of channels", "why_tests_cant": "tests use one channel at a time and few orders of requests; a model stored that differs from the one served shows only as missing data in a later response", "anchors": ["source/apps/jpip_server/main.cpp:435-461", "source/apps/jpip_server/main.cpp:506-522", "source/core/jpip/channel_manager.cpp:11-76"]}
{"id": "C88", "title": "Every response of the server arrives", "statement": "The head of a response has, beside the fixed lines, exactly: the target, the granted channel with path and transport if a channel was opened, the number of the request if it had one, and the instruction not to cache if the request has a channel.  It always fits the buffers of server and client, and the body arrives whole at the client, in chunks or with a length, however TCP cuts the stream.", "quantifier": "all names of the target up to 243 bytes without control characters CR, LF and NUL, channel numbers, request numbers, messages, bodies, and ways the connection hands out bytes", "why_tests_cant": "tests compare a few heads and do not combine all optional lines with long values and arbitrary cuts", "anchors": ["source/apps/jpip_server/main.cpp:415-419", "source/apps/jpip_server/main.cpp:454-501", "source/core/jpip/jpip_response.cpp:12-82", "source/core/jpip/jpip_client.cpp:192-269"]}
{"id": "C89", "title": "Channels survive dropped connections", "statement": "With responses in chunks, after any sequence of requests of any clients from the start of the server, each over a connection that may be dropped before the head or between any two messages, every client accepts what it receives and the server's model of every open channel agrees with what that channel's client has; so one complete response later gives the client all of its window.  This needs that what the system has taken arrives.", "quantifier": "all images, sequences of requests (on channels, for new channels, without channels, closing channels), windows, limits, points of failure, and limits on the number of channels", "why_tests_cant": "tests neither drop connections nor interleave channels; the disagreement would show only in later responses", "anchors": ["source/apps/jpip_server/main.cpp:435-522", "source/apps/jpip_server/main.cpp:122-248", "source/core/jpip/channel_manager.cpp:25-76"]}
