# Formal model of OpenHTJ2K: design

The C++ sources are read as text in `/repo`; nothing there is built, run or changed.
The model is in Lean 4 (`/verif/lean/Verif`), one directory per area:

* `Model.lean` - executable definitions, each citing the file and lines it models
* `Spec.lean` (where needed) - small specification vocabulary, independent of the model's helpers
* `Lemmas*.lean` - helper lemmas
* `Props.lean` - the property theorems, with a concrete non-vacuity `example` beside each

## Trusted base

* The Lean 4 kernel, and the three standard axioms `propext`, `Classical.choice`, `Quot.sound`
  (checked with `#print axioms`). No own axioms, no `sorry`, no `native_decide`, no `bv_decide`.
* The reading of the C++ sources: the model is hand written, the only tie to the code is the citation
  on each definition.
* The specifications that follow a published standard. No standard or RFC is in the repository or was available while this was
  written: `Ebcot/MqSpec`, `BlockSpec`, `BlockCode`, `BlockRoi` (T.800 Annexes C, D, H), `Ht/RefSpec` and `boundOf` in
  `Tile/Magb` (T.814), `Tile/OrderSpec`, `Jpip/GeoSpec`, `Jpip/ViewLemmas` and the marker list in `Jpip/PropsWalker` (15444-1, -2,
  -9), `Jpip/PropsRequest2` (15444-9), `Jpip/PropsChunked2` (RFC 7230), `Rtp/PropsParser`, `Rtp/FrameSpec` (RFC 3550, 9828) were
  written down from memory, including the section and table numbers they cite. The theorems relate the code to these definitions;
  that the definitions say what the standards say has not been checked against a text, and a finding which rests on one of them
  alone (such as C72) should be compared with the standard first.
* C++ semantics assumed: two's-complement arithmetic shift, unsigned wrap-around, `std::vector`,
  `std::map`, `std::list` behaving as finite sequences/maps, mutex sections being atomic.
* Not modelled: SIMD variants (only the portable scalar paths are read), floating-point rounding (where a
  theorem covers float paths it is stated for an arbitrary sample type with arbitrary step functions),
  memory allocation failure, I/O, GUI, HTTP/3 transport.

## Plan per property

| id | title | area | what is modelled and how it is proved |
|----|-------|------|----------------------------------------|
| C01 | VBAS integers round-trip exactly and are self-delimiting | JPIP | `vbas_encode/decode` over `List UInt8`-like byte lists (bytes as `Nat < 256`); 64-bit guard `v>>57` modelled exactly. Round-trip by induction on 7-bit groups. |
| C02 | VBAS decoding is safe on arbitrary bytes | JPIP | Same model; induction over the byte list with the accumulated value as invariant. |
| C03 | JPP message headers round-trip through a stateful stream | JPIP | `encode_header`/`decode_header` with context record; induction over the message sequence with context equality as invariant. |
| C04 | JPP header decoding is all-or-nothing and bounded | JPIP | Case analysis of the decoder; bound 10 bytes per VBAS x 6 fields. |
| C05 | Incremental JPP parsing is independent of how the network splits the stream | JPIP | Parser as a function of (context, bins, pending bytes); prefix-stability of `try_decode_one_message` gives split independence by induction over chunks. |
| C06 | Data-bins are append-only prefixes of what was sent | JPIP | `DataBinSet` as a finite map; invariant over operation histories against a ghost log of accepted payloads. |
| C07 | The server's message emitter respects the byte budget and never corrupts a bin | JPIP | `append_message` window/budget loop, fuel = remaining bytes; compose with C03/C05. |
| C08 | A JPIP session with arbitrary budgets delivers each bin exactly | JPIP | Session = list of budgets; induction over rounds composing C07 with the parser. |
| C09 | Cache-model strings round-trip between client and server | JPIP | `format`/`parse` over character lists incl. decimal conversion; round-trip on the map. |
| C10 | Cache-model bookkeeping is a faithful per-bin map | JPIP | Key packing `cls<<56 | id` modelled on 64-bit words; refinement to a function (class,id) -> state. |
| C11 | Server channel table: unique ids, bounded size, LRU eviction | JPIP | Channel table as list ordered by recency; invariant by induction on operations. |
| C12 | Precinct data-bin identifiers are unique and invertible | JPIP | `I = t + (c + s*nC)*nT`; Nat div/mod algebra; decompose inverse. |
| C13 | View-window resolution selection picks the right discard level | JPIP | `pick_discard_level` on naturals with uint32 wrap stated; optimality by induction over levels. |
| C14 | View-window resolution returns every precinct that contributes to the region | JPIP | `resolve_view_window` interval arithmetic; completeness of precinct range by ceil/floor lemmas. |
| C15 | JPIP request lines round-trip | JPIP | query tokenizer/number parser; round-trip over field lists. |
| C16 | Chunked HTTP transfer decoding is split-independent and inverse to encoding | JPIP | chunk decoder state machine; induction over bytes; split independence because the state machine is byte-wise. |
| C17 | RTP payload-header parsing is bounded | RTP | parsers over byte lists returning offset/length; bound lemmas. |
| C18 | Reassembled RTP frames are gap-free and single-timestamp | RTP | `FrameHandler` step function; invariant linking state to the ghost log of pushed packets. |
| C19 | Frame hand-off buffers: bounded pool, latest-wins slot | RTP | small state machines; induction over operation lists. |
| C20 | Thread pool runs every accepted task exactly once, in submission order per queue, and drains on shutdown | core/common | interleaving semantics of lock-protected steps (mutex sections atomic), condition variable as wait-set; invariant over all schedules. |
| C21 | Packet-header bit stuffing round-trips and never forges a marker | core/codestream | writer and reader state machines over bits; simulation invariant. |
| C22 | Coding-pass counts round-trip through the packet-header code | core/coding | codeword function and parser; finite table for the code, universal over continuation bits. |
| C23 | Tag-tree coding round-trips for any grid | core/coding | tag tree of arbitrary depth/size, encoder and decoder state invariants, induction over levels and leaves. |
| C24 | Packet headers written by the encoder are parsed identically by the decoder | core/coding | composition of C21-C23 with Lblock length coding. |
| C25 | Tiles, precincts and code-blocks partition the image | core/coding | ceil-div interval partition lemmas, specialised per level. |
| C26 | Each packet is visited exactly once in every progression order, and encoder and decoder agree | core/coding | enumerations as nested list comprehensions with the visited guard; `Nodup` + membership. |
| C27 | The reversible 5/3 wavelet transform is lossless | core/transform | in-place lifting over functions Int -> Int with periodic symmetric extension; generic lifting inverse lemma. |
| C28 | The reversible colour transform is lossless | core/transform | Int arithmetic. |
| C29 | Region-restricted inverse DWT equals the full transform inside the region | core/transform | lifting over arbitrary sample type and step functions; dependency-cone argument. |
| C30 | Streaming forward DWT equals the batch transform | core/transform | ring-buffer state machine over an arbitrary row type and arbitrary lifting functions; invariant: slot d_level determines batch intermediate value. |
| C31 | Streaming inverse DWT equals the batch transform | core/transform | same technique for the pull-based inverse. |
| C32 | MEL adaptive run-length coding round-trips | core/coding | MEL encoder/decoder state machines; simulation invariant. |
| C33 | MagSgn bit stream round-trips with stuffing | core/coding | MagSgn writer/reader; bit-list abstraction. |
| C34 | VLC reverse bit stream round-trips with stuffing | core/coding | reverse VLC writer/reader; bit-list abstraction. |
| C35 | HT cleanup tables: encoder and decoder VLC tables agree | core/coding | tables transcribed mechanically from the headers; exhaustive kernel `decide` over the finite table, lifted to all continuations. |
| C36 | Main-header marker segments round-trip | core/codestream | segment write/read functions over byte lists. |
| C37 | Codestream readers stay inside the buffer | core/codestream | source read operations with out-of-bounds as a distinct outcome. |
| C38 | Marker walking terminates and yields in-bounds offsets | JPIP | walker with fuel = remaining length; bounds invariant. |
| C39 | JPH/JP2 box scanning is bounded and finds the written codestream | core/jph | box scan with explicit offsets; recursion on remaining length and depth. |
| C40 | The client precinct cache only advertises precincts it still holds, within budget | web | LRU list + map + store; invariant over operations. |
| C41 | Reassembled codestreams are well framed | JPIP | assembler as list concatenation; framing theorem. |
| C42 | Parsing arbitrary packet-header bytes never stores outside a code-block's pass-length array | core/coding | parser of arbitrary bytes with pass-length stores as a distinct failure outcome; invariant over parser states. |
| C43 | The HT cleanup pass is lossless | core/coding | whole encoder and decoder loops; encoder put in closed form by invariants over line-pairs, decoder follows the same closed form reading C32-C35 streams. |
| C44 | The HT encoder's fixed-size buffers suffice for legal code-blocks | core/coding | bit-length bounds per quad pair on the closed form of C43, seven payload bits per byte. |
| C45 | Step 1 of the HT decoder stays inside its scratch array on arbitrary input | core/coding | frame property of the step-1 loops of C43 plus arithmetic over legal sizes. |
| C46 | Serving every data-bin of a codestream and reassembling gives the codestream back | JPIP | Compose the walker model, the emitter payload model and the assembler model; refinement to a list-level framing of the codestream. |
| C47 | The JPH header boxes give every component its depth and sign | jph | Field-level model of ihdr/bpcc; case split on BPC = 255; finite lemma over one Ssiz byte, induction-free over the list. |
| C48 | Main-header parsing ends and stays inside the codestream | codestream | Outcome-typed model of all reading constructors; safety predicate closed under sequencing; progress of the source position in each round. Witnesses for PPM. |
| C49 | Reduction limit is the minimum over all components | codestream | Model of the merge-like loop with undefined outcome beyond the list; positive theorem when the COC segments cover a sorted set containing the last component, witnesses otherwise. |
| C50 | A reused header object forgets the previous header | codestream | Theorem on which fields of the old header can survive; equality when the new stream carries or the old one lacks the single markers; witness with POC. |
| C51 | Reported and allocated component sizes | codestream | Model with 32-bit wrap; equality for aligned offsets, inequality (never too small) in general, witnesses. |
| C52 | Tile-parts of a written codestream are recovered | codestream | Model of the tile-part header reader and of the tile loop; round trip by induction over the tiles; byte count invariant of the header reader. |
| C53 | The MQ decoder is safe on any bytes | block coder | Register-exact model, UB as an error outcome; invariant over calls (reading position, A normalised, C < A and C a multiple of 2^(8-t) without carries); witness for the overflow. |
| C54 | The MQ decoder inverts the encoder of the standard | block coder | Specification encoder after the flow charts of Annex C (from memory). Interval invariant: the code string lies in [base, base+A) at every step of the encoder (including carries and the flush), and the decoder's C is that string minus base; simulation step per decision, induction over the sequence. |
| C55 | Context labels of the code-block decoder are those of the standard | block coder | Relation between packed words and a set of significant coefficients, kept by each broadcast; tables compared on all indices by kernel evaluation (the domain is finite and covered completely). |
| C56 | Lossless code-block round trip | block coder | Specification encoder with the passes of Annex D and the segments of D.4-D.6; simulation relation between encoder state and decoder block, one lemma per coefficient step, induction over the scan, the passes and the segments; then the value of every sample behind the last pass. |
| C57 | Truncated code-blocks degrade gracefully | block coder | Invariant over the passes: the bits known of each magnitude and the bit-plane noted in its state byte; then the dequantisation on these values. |
| C58 | The code-block decoder is safe on any bytes | block coder | Undefined behaviour as error outcomes; invariant over coefficients, passes and segments (size and bytes of the block, reading position in the segment, raw segments only ever hold raw passes); witnesses for each violated condition. |
| C59 | HT refinement segment: both streams come back from the shared bytes | Ht | bit-reservoir invariants of the two writers, a representation invariant of the readers, case split over the fused byte (`Ht/PropsRefine`) |
| C60 | HT SigProp and MagRef passes round trip | Ht | the membership test of the code equals an inductive definition (`Ht/RefSpec`) by an invariant over the scan; the passes then send and read the same bit lists (`Ht/RefPasses`, `Ht/PropsRefine`) |
| C61 | HT block decoder: any number of passes gives the coefficient to the precision of the last pass | Ht | setup computed for the general shape of the length table (`Ht/HtLemmas`), cleanup by C19-style stream lemmas, refinement by C60, dequantisation by arithmetic (`Ht/PropsHtDecode`) |
| C62 | HT block decoder is memory safe and deterministic on any bytes | Ht | every reader proved total by bit-count invariants, step 1 run twice in lockstep on different scratch contents, step 2 compared with a version that stops where the code prints an error (`Ht/HtSafe`, `Ht/PropsHtSafe`); the shift bound is false, with a witness of five bytes |
| C63 | Packet bodies reach the code-blocks they were written for | packets | Model writePacket/readPacket with SOP and bodies on top of the header model; invariant relating layers, pass counts and buffers; round trip by induction over bands and packets. |
| C64 | The reversible transform gives the same result in float, int32 and exact arithmetic | transform | Model the transform with a rounding function around every addition; bound every intermediate value per lifting step, lift to rows and levels; instantiate with binary32 rounding and int32 wrap-around; witness beyond the limit. |
| C65 | The announced number of bit-planes covers every coefficient of a lossless image | quantisation | Model the reversible part of build_quant_steps and M_b; prove the formula; combine with C64 for up to one level; witnesses where the budget is exceeded (1-bit components, deeper components, wrapped exponent). For any number n of levels, the gains of the filters are bounded by a recursion on sums of absolute taps and second differences, the coefficients by C69. Partial: 19 n > 2^(B-1) is open for n > 1. |
| C66 | Strip-wise decoding delivers every row of a subband and stays in its buffer | core/coding | Model the walk over precincts and code-blocks, the writes into the ring, prefetch and swap; prove that the walk selects exactly the blocks that meet the strip; invariant over row requests; converse by showing that a straddling block makes its strip fail; C25 for the layout; witness of a 192-row tile. |
| C67 | A losslessly encoded tile is decoded into the samples it was made of | core/coding | Put the modelled stages together as encodeTile and decodeTile (any failure is none); refine through C27 (transform), C43/C61 (block), C26 (every packet exactly once), C63 (packets), C25/C66 (rows); index arithmetic for precinct, band and code-block lookups; converse from C66 for misaligned subbands. |
| C68 | A losslessly encoded picture is decoded into the picture | core/coding | Model source and destination indices in 32-bit arithmetic and buffers with bounds, around encodeTile and decodeTile; equality of both indices with the place of the sample, cover of the output by C25, colour round trip C28, C67 per tile; a general theorem or a witness for every condition that the code needs and the standard does not. |
| C69 | Growth of the coefficients does not depend on the number of levels | core/transform | The low-pass step with symmetric extension is a linear map on sequences; an invariant polyhedron of local linear functionals (checked by a verified checker in the kernel) bounds the iterated map at borders and in the interior; two dimensions by commuting rows and columns; rounding as an added term per level; linked to analyseLevels and to the machine arithmetic of C64. |
| C70 | A losslessly encoded picture comes back from the bytes of its codestream | core/interface | Model what both sides take from the main header (pictureOf) and what the encoder puts into it; show that the header made from the parameters and the header read back both describe the picture asked for; compose C36 (header), C52 (container), C68 (picture) and that all packet bytes are bytes. |
| C71 | The announced length of a tile-part is the number of bytes written | core/coding | Model the length computation with 32-bit sums next to a writer for any number of layers; the packets of the progression are a permutation of precincts times layers (C26), so the sums agree up to the factor; one layer: the writer is encodeTile of C67; the buffer from the lengths of all tiles. |
| C72 | When the magnitude bound announced in CAP covers all subbands | core/codestream | Fold lemmas for the largest and the smallest exponent, the code's map to five bits against the table of T.814 (specification boundOf, written down from memory because the standard is not in the repository), equivalence for style 0, negation for style 2. |
| C73 | The head of an HTTP response is found again, and read within its buffers | JPIP | snprintf into a buffer of given size with an overread as outcome; the head as a list of lines; the first CR LF CR LF is at the end of the lines by induction; decimal round trip through strtoull; compose with C16 for the chunks. |
| C74 | The step size in the codestream is the closest one to the step size asked for | core/codestream | Rational arithmetic, in which the double operations are exact; invariant of the doubling loop, rounding to the grid of a binade against every other step, clamps at both ends; the word and the decoder's formula. |
| C75 | Irreversible subbands: every coefficient comes back as the middle of its quantiser interval | core/coding | Rational numbers for float; truncation against the interval, then C43 for the indices; for Part 1 the words of C57, exact conditions for the three 32-bit operations, and the error of each rounding added up. |
| C77 | The streaming decoder hands out every row of every component, and the files of components get them all | tile | Model one call of decode_line_based_stream with its strip buffers and cursors, the two loops over tiles and the filter of main_dec.cpp; invariant over strips gives the list of callbacks in closed form; one column by induction over the tiles, several columns by an invariant of the accumulator. Refute 17 components, factors that do not divide one another, odd first rows, component 0 with a factor of its own, several columns with vertical subsampling, and the factor recovered for low pictures. |
| C76 | Picture files written by the decoder program are read back by the encoder program | files | Model the writers as functions to lists of bytes and both readers as functions from lists of bytes with errors, undefined behaviour and endless loops as outcomes. Decimal numbers by strong induction, rows by position in lists of equal pieces; composition with C70 for the way through the codestream. Refute: first sample that looks like white space (reader of the path in memory), components of one and two bytes together, ratio of heights of 256, empty components, files cut in the header, AVX2 packing of samples above 32767, signed PPM. |
| C78 | Vector and scalar code that stores decoded samples leave the same memory | simd | Model registers as lists of bytes and instructions as functions on them; show what a group of each kernel stores lane by lane; one induction shows that a loop over groups followed by a loop over single samples stores the whole row; compare with the scalar loop. |
| C79 | Vector builds dequantise code-blocks as the scalar code does | simd | Registers are functions from lanes to 32 bits; show that each kernel acts on a lane as one function; show by arithmetic on bit vectors that the lane is the scalar result; induction over the groups of a row; transfer C56. |
| C80 | Refinement passes of the vector builds | block coder | word-level model of pack_sigma and the two passes; invariant relating the packed word of the group, its new significances and prev_row_sig to block_states, one quad at a time; then C60 |
| C81 | Vector kernels of the 5/3 filter | transform | lane-level model; a group of eight lanes is four turns of the scalar loop, so the kernels are the lifting loops of Dwt; planar loops by an invariant on how far the output agrees with the filtered signal; words to integers by reduction modulo 2^32 |
| C82 | NEON and AVX-512 kernels of the 5/3 filter | transform | one model for both lane counts with the differing instructions picked by the instruction set; loops by invariants on how far the memory agrees with the filtered signal; the fused NEON kernel by an invariant on what is already overwritten; the overrun by a theorem for all such widths |
| C83 | Reversible colour transform in all builds, and the rows of the streaming encoder | transform | one loop model for all lane counts; invariant: the rows hold the transform up to the current column and the input elsewhere; the converse by what every successful turn has touched |
| C84 | What arrives over TCP does not depend on how it is cut | jpip | A connection is the bytes to come and a list of sizes; recvHead, the two reading loops and recv_all are modelled with it.  Invariant of recvHead: no CR LF CR LF in the buffer so far.  The chunk decoder's independence of fragments (C05, feed_feed) carries over to the loop; the rest is take and drop. |
| C85 | The query of a POST request | jpip | find_header as a loop over what is left of the buffer; a header found before the last line feed of the head is found with anything after it; lines by induction; strtoull and its end pointer; with the reading loops of C84. |
| C86 | A dropped connection loses nothing | jpip | Emission with a sink that fails after any number of messages is emission for a prefix of the bins, so C08 applies; a bin once marked stays marked under commit, and a marked bin is skipped, so later responses are those without it. |
| C87 | Every request is served from the model of its own channel | jpip | The model of a channel as a function of its name; each call of the manager is an update at one name, so a request is a composition of updates; with C08 for the agreement. |
| C88 | Every response of the server arrives | jpip | The values the server prints meet the hypotheses of C73, the head has at most 912 bytes, so C84 applies without its hypotheses on the head. |
| C89 | Channels survive dropped connections | jpip | Invariant over runs: InSync for every open channel.  One step is C87 with the sent bins of C86; the agreement after a drop is C86_chunked_drop. |

## What is modelled

Paths are relative to `/repo/source` unless they start with `web/`. Line numbers are on each definition.

| Lean module | C++ code | left out or simplified |
|---|---|---|
| `Jpip/Vbas`, `Jpip/Header` | `core/jpip/vbas.cpp`, `jpp_message.cpp` | nothing |
| `Jpip/Parser` | `jpp_parser.cpp/.hpp`, `DataBinSet`, the end-of-frame use in `web/src/jpip_wrapper.cpp:394-425` | hash map as partial function |
| `Jpip/Emitter` | `data_bin_emitter.cpp:21-86`, `apps/jpip_server/main.cpp:122-268` | sockets; the order of the server's bin list is a parameter |
| `Jpip/CacheModel` | `cache_model.cpp` | hash map as partial function plus list of keys in any order |
| `Jpip/Channel` | `channel_manager.cpp` | random channel ids are a parameter |
| `Jpip/Index`, `Jpip/View` | `precinct_index.cpp`, `view_window.cpp` | nothing |
| `Jpip/Request`, `Jpip/Chunked` | `jpip_request.cpp`, `jpip_client.cpp:17-183`, `jpip_response.cpp:84-236`, `apps/jpip_server/main.cpp:479-495` | sockets; URL percent decoding does not exist in the code |
| `Jpip/Http` | `jpip_response.cpp:12-82, 109-179`: head of a response, `snprintf` into fixed buffers, `strtoull` on a buffer without final zero | `format_error_response` (constant texts), sockets |
| `Jpip/Transport` | `tcp_socket.cpp:155-195`, `jpip_client.cpp:192-269`, `jpip_server/main.cpp:303-318, 363-385`: reading heads, responses and bodies from a connection that hands out bytes in any pieces | the parser behind the client accepts everything; `recv` never fails (it ends) |
| `Jpip/Post` | `apps/jpip_server/main.cpp:265-301, 303-387`: `find_header` and the head of `handle_connection` | what is done with GET and OPTIONS, and with the query afterwards |
| `Jpip/Dropped` | `apps/jpip_server/main.cpp:465-511`: emission to a sink that fails, and what is committed afterwards | a message sent in part counts as not sent; what the system accepted counts as arrived in the chunked case |
| `Jpip/Resolve` | `apps/jpip_server/main.cpp:435-461, 506-522`: the channel and the model of a request, what is recorded and closed | the response is a function from the model served from to the bins sent; no channel is `none` instead of the empty string |
| `Jpip/Head` | `apps/jpip_server/main.cpp:415-419, 458, 463, 471-501`: the lines that depend on the request, the response as sent | all sends succeed (failing ones are `Jpip/Dropped`) |
| `worldStep` (`Jpip/PropsResolve`), `dropStep` (`Jpip/PropsWorld`) | a request of `Jpip/Resolve` together with the client that takes the response | in `dropStep` the head and each message are sent whole or not at all |
| `Jpip/Walker`, `Jpip/Assembler` | `codestream_walker.cpp`, `packet_locator.cpp`, `data_bin_emitter.cpp:90-180`, `codestream_assembler.cpp` | nothing |
| `Jpip/Wrapper` | `web/src/jpip_wrapper.cpp:48-474` | decoding and colour conversion after a response |
| `Jph/Boxes` | `core/interface/jph.cpp`, `codestream_destination.cpp` | file I/O |
| `Codestream/Source` | `core/codestream/codestream_source.cpp`, `codestream.hpp` (`buf_chain`), tile-part reading in `coding_units.cpp:2748-2788` | memory mapping |
| `Codestream/Markers` | `core/codestream/j2kmarkers.cpp/.hpp` (SIZ, CAP, COD, COC, QCD, QCC, RGN, POC, CRG, COM, TLM, PLT, PLM, PPM, PPT, CPF, PRF, SOT) | quantiser step sizes come in as numbers |
| `Codestream/Container` | main-header loop, tile-part loop, `decoder.cpp:281-476`, `encoder.cpp:700-760` | thread use, image output |
| `Packet/*` | `codestream.hpp:203-594` (bit I/O, tag trees), packet headers and bodies in `coding_units.cpp` | 32/64-bit unrolling of the bit reader; bodies: one tile-part, no PPM/PPT |
| `Tile/*` | tile, resolution, subband, precinct, code-block geometry and progression orders in `coding_units.cpp`; `Tile/Quant`: reversible part of `build_quant_steps` (`j2kmarkers.cpp`); `Tile/Strip`: `subband_row_buf.cpp` in ring mode (walk over the code-blocks of a strip, target buffer, prefetch, swap) | cached decoding tables; gains as exact rationals instead of `double` |
| `Tile/Pipeline` | how `coding_units.cpp` and `subband_row_buf.cpp` put the stages together: reversible path, HT code-blocks of one cleanup pass, one layer, one tile-part, no ROI, no DFS | all code-blocks of a subband are decoded before its rows are read; samples enter and leave as lists of rows after level shift and colour transform; `int32_t` range of coefficients is C64 |
| `Tile/Picture` | `encoder.cpp:591-698`, `decoder.cpp:405-487`, `coding_units.cpp:3577-3607, 5817-6040, 6807-6913, 7048-7106`, `j2kmarkers.cpp:191-197`: samples of a picture to tiles and back, DC offset, colour transform, clamping; full resolution, reversible | a codestream is the list of tile bodies; samples are integers between the stages (`float` is exact up to 2^24); size of the intermediate sample buffers not cut to 32 bits |
| `Tile/Codestream` | `encoder.cpp:591-760` (parameters to main header, TLM, tile-parts), `coding_units.cpp:3945-4063` (what a tile takes from the main header), `decoder.cpp:281-294, 405-487` | reversible path, no JPH boxes, one tile-part per tile, no COC/QCC/RGN/POC/PPM; lengths in SOT and TLM are those of the packets written |
| `Tile/Announced` | `coding_units.cpp:5036-5098, 7121-7164, 7799-7810`, `encoder.cpp:700-757`: lengths added up beforehand, any number of layers | the coded blocks are those of `Tile/Pipeline` |
| `Tile/Magb` | `j2kmarkers.cpp:1009-1020`, `encoder.cpp:653-671`, `coding_units.cpp:2617-2646`: magnitude bound in CAP, all quantization styles | how the irreversible step sizes come about (`pack_quant_step`, floating point) |
| `Ht/Irrev`, `Ebcot/Irrev` | `ht_block_encoding.cpp:45-92`, `ht_block_decoding.cpp:57-76, 835-843, 879-891`, `block_dequant.cpp:73-135` (irreversible path): quantisation and dequantisation | `float` is rational; ROI in the HT dequantisation; SIMD |
| `Tile/Step` | `j2kmarkers.cpp:728-748, 866-883, 986-1005`, `coding_units.cpp:2633-2650`: step sizes of the irreversible transform | how the step asked for is computed (`sqrt`, `pow`, visual weights), scaling by the nominal range |
| `Tile/Rows` | `coding_units.cpp:6056-6618, 3106-3190`, `decoder.cpp:570-699`, `main_dec.cpp:795-822`: rows handed out by the streaming decoder, tiles in one and in several columns, rows written to the file of a component | rows from the wavelet transform are given; what is done to one row is a parameter; narrow and planar outputs (`decode_line_based_stream_planar`) not modelled; window of columns |
| `Img/*` | `main_dec.cpp:60-457, 640-822`: PGM, PGX, PPM and raw files written; `imgio.cpp:20-277`: streaming readers; `encoder.cpp:109-384`: the reader of the path in memory | files are lists of bytes, the C library does not fail; no TIFF, no ASCII PNM, no YCbCr conversion, at most two bytes per sample; the vector code is in `Simd/*`; `Img/PropsChain` joins files and C70 |
| `Simd/*` | `main_dec.cpp:64-457`, `planar_shift.hpp:41-223`, `finalize_narrow.hpp:61-314`: scalar, AVX2/SSE and NEON code that packs, interleaves, shifts, clamps and finalizes samples | registers are lists of bytes; the meaning of the x86 and NEON instructions (`Simd/Vec`) is written from memory of their manuals and is trusted; floats given to the finalize kernels are their truncated integers; memory beyond 2^32 bytes and alignment not modelled |
| `Simd/Lanes` | `block_dequant_avx2.cpp`, `block_dequant_avx512.cpp`, `block_dequant_neon.cpp`; `dequantize` of `ht_block_decoding_avx2.cpp:658-870` and `ht_block_decoding_neon.cpp:743-915` | registers are functions from lanes to 32 bits, instructions from memory; the integer is what is stored (conversion to `float` left out); `dequantize` of irreversible HT blocks without region of interest left out (a `float` product) |
| `Simd/Lift*` | `idwt_avx2.cpp:498-560, 781-852`, `fdwt_avx2.cpp:351-440, 544-617`: the AVX2 kernels of the reversible 5/3 filter on 32-bit words, with `idwt.cpp:856-870, 1092-1206` and `fdwt.cpp:958-986, 1048-1053` that choose them and extend the row | memory is a partial function from offsets, `none` is not allocated; instruction meanings from memory; overflow of `int32_t` in the scalar tails (undefined in C++) is taken to wrap; interleaving into the slot and splitting by the sink are list operations; rows of one sample and zero rows take the scalar path; `Simd/LiftImage` composes the kernels to levels as `Dwt/Machine` does, without the ring of rows; AVX-512 and NEON are in `Simd/Wide*`; no WASM, no 9/7 kernels |
| `Simd/Wide*` | `idwt_neon.cpp:880-993`, `fdwt_neon.cpp:420-503, 596-640`, `idwt_avx512.cpp:560-633, 823-873`, `fdwt_avx512.cpp:420-530, 639-691`: the same kernels for NEON (4 lanes) and AVX-512 (16 lanes), with the thresholds of `idwt.cpp:1118-1228` and `fdwt.cpp:957-1133` | as `Simd/Lift*`; masked loads and stores of AVX-512 touch only the lanes of the mask; rows are not composed to images for these builds |
| `Simd/Colour*` | `color.cpp:35-54, 154-171, 216-238` and their counterparts in `color_avx2.cpp`, `color_avx512.cpp`, `color_neon.cpp`, `color_wasm.cpp`: the reversible colour transform in place, into floats and back; `coding_units.cpp:7312-7326, 7676-7695`: the rows of the streaming encoder | one row at a time; three separate allocations; unaligned `__m256i` accesses and accesses outside an allocation are `none`; the float unit is abstract or whole numbers in single precision; NEON loops for Apple processors, the irreversible transform, and threads that keep longer rows from an earlier image are left out |
| `Ht/Packed` | `ht_block_decoding_avx2.cpp:492-656, 1010-1022`: `pack_sigma`, `ht_sigprop_decode`, `ht_magref_decode` of the vector builds | words are natural numbers below 2^32; array accesses are checked, an access outside is no result; NEON and WASM copies of these functions are read, not modelled apart; the cleanup pass in front of them is the scalar one |
| `Dwt/Gain*`, `Tile/QuantGains` | bound of the 5/3 analysis for every number of levels | proof only, no code |
| `Dwt/*` | scalar paths of `fdwt.cpp`, `idwt.cpp`, `dwt.hpp`, `color.cpp` | SIMD; float rounding of the 9/7 transform (theorems are over arbitrary step functions, or state what they need); `Dwt/Machine` has the 5/3 transform with rounding |
| `Ht/*` | scalar paths of `ht_block_encoding.cpp`, `ht_block_decoding.cpp/.hpp`, the table headers | SIMD; the refinement passes of the encoder (compiled only with `ENABLE_SP_MR`) are modelled, the function that calls them is not; region of interest in the dequantisation of HT blocks (the irreversible path is in `Ht/Irrev`) |
| `Ebcot/Mq` | `core/coding/mq_decoder.cpp` (the variant without `CDP` and `MQNAIVE`) | `int32_t` registers as naturals with an overflow outcome; `Ebcot/MqSpec` is the encoder of T.800 Annex C, not code of the repository |
| `Ebcot/Block*` | `core/coding/block_decoding.cpp` (all passes, `j2k_decode`), `block_dequant.cpp` (scalar reversible path) | arrays as functions of row and column with bounds checks instead of flat memory; SIMD dequantisation not modelled (the irreversible path is in `Ebcot/Irrev`); `Ebcot/BlockSpec` and `Ebcot/BlockCode` are the encoder of T.800 Annex D, not code of the repository |
| `Rtp/*` | `apps/rtp_recv/rfc9828_parser.cpp`, `frame_handler.cpp`, `frame_pipeline.hpp` | sockets, GUI, clocks |
| `Threads/*` | `core/common/ThreadPool.hpp` | memory order of atomics: sequentially consistent; mutex sections atomic |

Not modelled at all: TIFF and ASCII PNM files, command-line parsing, GUI and GPU code, HTTP/3,
floating-point rounding, the WASM front ends other than the JPIP wrapper, the SIMD variants of the transforms and block coders.

`AXIOMS.md` lists, for every theorem named in `MANIFEST.json`, the axioms it depends on as printed by `#print axioms`.

## Separate specifications used by the exact statements

* `Jpip/PropsRequest2`: query fields as key and value text (`Field`, `queryText`); `C15_fields` says what request any list of fields yields.
* `Jpip/PropsChunked2`: the chunked transfer grammar (`IsHex`, `HexNumber`, `IsSizeLine`, `ChunkedBody`, `StreamBody`);
  the body decoder accepts exactly this language (`C16_body_decoder_exact`), the streaming decoder accepts exactly the second one.
* `Jpip/PropsWalker2`: `PartsFrom`, what a tile-part table extracted from bytes must satisfy; `C38_walk_sound` holds for any bytes the walker accepts.
* `Ht/RefSpec`: the significance propagation set of the HT refinement passes as an inductive definition over scan order and neighbourhood (`Member`).
* `Codestream/PropsPpm`: PPM data as a list of length-prefixed nodes; `C48_ppm_nodes`.

## Disagreements found between code and property

Each line names the theorem that proves the disagreement on a concrete input. Where none is named the point was found while
reading and is outside the model.

### JPIP
* C89: a chunked response is recorded as delivered once the system has taken it (main.cpp:474-506). If the connection breaks before the client has it, the bins are never sent again on that channel (`C89_lost_in_flight`), so the conclusion of the comment at main.cpp:503-505 ("a dropped connection re-sends") holds only for failures that `send` reports.
* C86: without chunked responses the server ignores whether the response could be sent (`jpip_server/main.cpp:500`) and commits all of its bins (`:506`), against the comment above it.
  After a dropped connection no bin of the window is sent again on the channel: `C86_buffered_drop`.
* C85: `find_header` is given all bytes read so far, not the head (`jpip_server/main.cpp:351`).  A POST without Content-Length is answered 411 or accepted with a length taken from its
  own body, depending on how TCP cut it: `C85_length_from_body`.
* C85: the length of a POST may have a minus sign (`-18446744073709551613` is three, `C85_negative_length`), and anything after a zero byte (`C85_zero_in_length`).
* C84: the client does not notice that a response ends early.  `fetch_streaming` leaves its loop when the peer has closed (`jpip_client.cpp:257`) and then asks only whether
  the parser is between two messages, never whether the last chunk came or `cl_received == content_length`: `C84_cut_chunked_accepted`, `C84_cut_length_accepted`.
* C84: a POST without CR LF CR LF is answered as if its body began at the request line (`body_offset` stays 0, `jpip_server/main.cpp:309-318, 367-371`): `C84_post_without_end`.
* `C05_feed_after_eor_depends_on_chunks`: bytes fed after an end-of-response message are treated differently depending on how the
  network split them.
* `C06_rejected_append_creates_bin`: a rejected append leaves an empty bin behind. `C06_merge_can_lose_completeness`: merging a longer
  incomplete bin over a complete one loses the completeness.
* `C08_duplicate_bins_rejected`, `C08_resumed_response_rejected_by_fresh_store`,
  `C08_second_response_into_same_store_is_cut_short`: limits of resuming a response into a store.
* `C09_id_overflow_floods_model`: an identifier above 2^64 in a `model` string saturates and marks unrelated bins.
  `C10_large_ids_collide`: identifiers of 2^56 and more share a key with another class.
* `C11_zero_capacity_undefined`: a channel table of capacity 0 takes the back of an empty list.
* `C12_identifiers_not_dense`, `C12_huge_identifier_aliases`, `C12_wrap_collides`: identifiers are injective only while the 64-bit
  product does not wrap, and have gaps. `C12_zero_tile_size_undefined`: the SIZ parser accepts XTsiz = 0, which is then divided by.
* `C13_huge_canvas_wraps`: frame sizes near 2^32 wrap while rounding. A level count above 31 shifts by too much.
* `C14_boundary_precinct_missing`: a precinct that contributes through the wavelet filter's support at a precinct boundary is not
  returned. `C14_repeated_component_duplicates`, `C14_wide_region_wraps`.
* `C15_lenient_numbers`: numbers in requests may carry signs, blanks and trailing text.
* `C73_tid_overrun_iff`, `C73_tid_cut`: `format_jpp_response` copies as many bytes as `snprintf` would have liked to store. With an image
  whose file name has 245 to 255 bytes the server sends bytes of its stack from behind the buffer; with 244 bytes the head has no end.
* `C73_length_from_body`: the client's `strtoull` skips line ends, so a Content-Length of two or more blanks in the last line is read from
  the body, or beyond the end of the buffer if nothing follows. `C73_short_length_missed`: `Content-Length:5` as the last line is not found.
* `C16_stream_size_wraps`: a chunk size line of more than 16 hexadecimal digits wraps; the buffer of unparsed bytes has no bound.
* `C38_open_length_takes_end_marker`: Psot = 0 makes the tile-part swallow the EOC marker.
* `C40_ext_precinct_confused`, `C40_longer_bin_replaces`: the client advertises a precinct that it does not hold completely, if the
  server sends extended precincts or more bytes after completing a bin.
* `C41_empty_bin_shifts_packets`, `C41_client_repeats_bin_per_layer`: reassembly with empty bins, or more than one layer, is not the
  codestream that was sent. The client does not reject SOP/EPH markers, and leaves out a missing tile header without notice.
* `C42_truncated_header_never_ends`: a truncated header makes the loop in the client's parser spin.

### Boxes and codestream
* `C39_length_wraps`: the 32-bit box length wraps for codestreams of 4 GB. `C47_mixed_signs_misdescribed`: `bpcc` is not written if
  components have the same depth and different signs.
* `C72_guard_bits_understate`, `C72_expounded_not_covered`: the magnitude bound in CAP leaves out the guard bits, is rounded down for
  exponents 28 to 30, and with a step size per subband is made from the smallest exponent, where the largest one counts. This is
  measured against the table of T.814 as remembered (`boundOf`): the standard is not in the repository and should be consulted
  before the finding is acted upon.
* `C74_ends_iff`, `C74_smallest_step_negative`, `C74_derived_step`: `pack_quant_step` does not end for a step of zero (the command line
  replaces zero, the library does not); exponent 31, which it uses for all steps below 2^-31, is turned into a negative step by
  `1 << epsilon_b`; a derived exponent below zero wraps and the shift is undefined.
* `C75_small_lost`, `C75_part1_small_lost`, `C75_part1_overflow`: the irreversible path of `j2k_dequant` cuts magnitudes down to 16 bits before it
  multiplies them. With `M_b` ≥ 17 indices below 2^(`M_b` - 16) come back as zero (the HT decoder returns them to half a step), and the
  32-bit product overflows for large coefficients, e.g. with four guard bits, or the sum before it with `M_b` ≥ 15.
* `C36_precinct_exponent_spills`, `C36_exponent_truncated`, `C36_long_comment_wraps`, `C36_many_tiles_wrap`: values the encoder
  accepts but the fields cannot hold; from 10922 tiles the TLM length wraps. `C36_cap_twice_refused`.
* `C37_empty_source_overreads`, `C37_skip_wraps`, `C37_empty_tile_part_overreads`, `C37_many_tile_parts_undefined`,
  `C37_short_length_takes_rest`: edges of the source and the buffer chain.
* `C48_short_ppm_overreads`: a PPM or PPT segment of length 2 is taken to have 65535 bytes. `C48_empty_ppm_undefined`,
  `C48_field_read_behind_segment`, `C48_missing_siz_undefined`.
* `C49_undefined_past_last`, `C49_unsorted_ignored`, `C49_overridden_counts`: the smallest number of levels over components.
* `C50_stale_progression`, `C50_stale_size`: header reuse keeps values of the previous frame.
* `C51_reported_too_large`, `C51_buffer_too_large`: image size after reduction with an odd image offset.
* `C52_short_segment_miscounted`: Psot counts marker segments of length below 2 wrongly.
* The end field of a POC segment equal to 0 (which means 256) gives an empty progression. `SIZ` tile counts are multiplied in 32 bits.

### Packets, tiles, transform, block coder
* `C83_stream_row_outside`, `C83_two_tiles`: the streaming encoder transforms the tile in place at `int_rows[c] + x_off0` (`coding_units.cpp:7676-7695`), and the
  vector builds go on in whole registers of 8 or 16 words while columns are left. An image of 192 columns with tiles of 100 makes NEON and AVX-512 write 4
  words behind the row of 192, and AVX2 access `__m256i` objects at an address that is not a multiple of 32 bytes (undefined; a fault with aligned moves).
* `C83_origin_never_fits`: the rows are as long as the image is wide (`Xsiz - XOsiz` rounded up to 32; `encoder.cpp:880-885`, `coding_units.cpp:7318-7326`), but
  `x_off0` is the absolute column. With `XOsiz > 0` and a width that is a multiple of 32 the last tile reads and writes behind the row in every build (and the
  samples are taken from the wrong columns).
* `C80_sigma_overflow`, `C80_block_sizes`: the vector builds keep the packed significances of a block in `sigma_buf[(17+1)*24]`
  (ht_block_decoding_avx2.cpp:1015, ht_block_decoding_neon.cpp:1045, ht_block_decoding_wasm.cpp:982). For eight of the 45 legal code-block
  sizes (1024x4, 32x128, 16x256, 8x256, 4x256, 8x512, 4x512, 4x1024) a full block with more than one HT pass writes past its end.
* `C80_stray_significance_differs`: a malformed cleanup segment can leave significance in the row below a block of odd height; the scalar
  SigProp pass counts it as a neighbour, the vector builds' does not.
* Region of interest shifts of 32 and more (Part 1 allows 37), and shifts that leave `int32_t`: undefined in the scalar `dequantize`; AVX2 gives 0 or a value of the wrong sign where NEON, which shifts once by the difference, gives the scaled value (C79_undefined_differ).
* `C66_misaligned`, `C66_tile_192`: a subband is decoded in strips of `cb_h` rows counted from its first row (subband_row_buf.cpp:556),
  but code-blocks lie on the absolute grid (coding_units.cpp:1635). If the subband begins off that grid and is taller than a code-block
  (tiles of 192 rows with one level; any image with a vertical offset), a code-block meets two strips: it is written past the end of the
  strip buffer for the first one and in front of it for the second, and it is decoded twice although decoding changes its bytes. All
  decoding entry points use this path.
* `C71_more_layers_overrun`: with `number_of_layers` above 1 the encoder writes each precinct once per layer (coding_units.cpp:5036-5047 from the
  loops over packets) but counts it once in `get_tile_part_size` (7799-7810), from which the output buffer is allotted (encoder.cpp:740-757): the
  packets run past the end of the buffer, and SOT and TLM are too small.
* `C70_tile_area_wraps`: whether a tile size was given is decided by `XTsiz * YTsiz == 0` in 32 bits (encoder.cpp:603-606): tiles of 65536 × 65536
  count as not given and the image is coded as one tile.
* `C70_untiled_iff`: without a tile size the tile becomes as wide as the image but starts at the tile origin: with an image offset and tile origin 0
  there are two tiles, or the encoder refuses the image; `main_enc.cpp:129-130` works around it, the library does not.
* `C68_rounded_width_loses`, `C68_origin_reads_before`: `get_component_stride` is `Xsiz / XRsiz - XOsiz` (j2kmarkers.cpp:191-197), rounding down
  and with the origin not subsampled; so is the start of a tile (coding_units.cpp:3593, 3599). A subsampled component whose width was
  rounded up (4:2:0 with an odd width) is read with rows sheared by one sample each; with an origin of 2 or more the
  encoder reads in front of its input buffer.
* `C68_colour_422`: the colour transform is only turned off if the components differ in both subsampling factors (`&&`, encoder.cpp:619-620,
  808-809) and there are exactly three: for 4:2:2 the encoder reads beyond the samples of the narrower components.
* `C68_no_levels_null`: with no decomposition level and no colour transform (a grey picture with `Clevels=0`) the buffered encoder reads through
  a null pointer (coding_units.cpp:7057-7066; `samples` is not allocated, 3590-3594).
* `C68_taller_component_unwritten`: the decoder's loop over rows ends with the height of component 0 (coding_units.cpp:5893); when another component has
  more rows, the rest of its output buffer, from `new int32_t[]`, is returned uninitialised.
* `C24_four_passes_misparsed`: four coding passes are written such that the parser reads another count of lengths.
* `C63_more_layers_announce_nothing`: asked for more than one layer (`number_of_layers`, encoder.hpp:133), the encoder writes the header of a
  precinct for the last layer only (coding_units.cpp:7128) although all passes are in layer 0: the header announces none of the
  bytes that follow it.  The command-line encoder always asks for one layer.
* `C65_one_bit_overflow`, `C65_one_bit_not_lossless`: for 1-bit components the exponents of QCD leave two bit-planes for LL after three
  levels, but the rounding of the 5/3 filter can add up to 5; the block coder then returns -1 for it. Lossless coding is not lossless.
  `C65_deeper_component_overflows`: QCD is made for the depth of component 0 only (encoder.cpp:650). `C65_guard_bits_wrap`: the
  subtraction of the guard bits wraps, and what is written has three bits less than what the encoder uses.
* `C64_float_loses_wide_samples`: outside the overlapped path the encoder runs the reversible transform on `float`; from 25-bit samples on
  it rounds, while the decoder works on `int32_t`.
* `C25_tile_end_wraps`: the end of the last tile is computed in 32 bits. `C26_deep_tile_undefined`, `C26_modulus_zero_undefined`:
  32 levels, or precincts larger than 2^31, shift by too much or divide by zero. `C26_replay_component_aliases`.
  `access_precinct` tests `p > npw*nph` instead of `>=`.
* `C27_single_even_row_undefined`, `C27_empty_level_undefined`: a level with one or no row.
* HT encoder: a 64x64 block of 30-bit magnitudes can exceed the fixed buffer; `C44` proves 21 bits safe.
* `htj2k_encode` with `ENABLE_SP_MR` (not modelled) drops the MagRef bits if they filled no complete byte (`MagRef.get_length()` is 0 until then),
  and raises `num_passes` without lowering `num_ZBP` if the SigProp stream is empty.
* `C53_carry_overflows`: a byte from 0x80 to 0x8F behind a 0xFF (which no encoder writes) makes the code register of the MQ decoder
  exceed the interval register; it then doubles with every renormalisation until `C <<= n` overflows `int32_t`.
* `C58_too_many_passes`, `C58_too_many_zero_bitplanes`: the number of coding passes and of zero bit-planes comes from the packet header and is not compared with
  the 31 bit-planes of a sample; with more, `p` wraps around and the passes shift by 255.
* `C58_mb31`: `j2k_dequant` shifts a 32-bit number by 32 if `M_b` is 31. `C58_roi_shift_overflows`: a ROI shift above `M_b` shifts bits out of `int32_t`.
* `C58_scale_conversion`: for reversible blocks with `M_b` of 18 or more a `float` of at least 2^31 is converted to `int32_t` (the result is not used).
* `finish` of the MQ decoder is empty: predictable termination (ERTERM) is not checked.
* `C62_shift_overflow`: an HT exponent bound `U_q` above the number of bit-planes is only reported by `printf("ERROR\n")` (ht_block_decoding.cpp 137-139, 247-249); decoding goes on and shifts a `uint32_t` by 32 or more. Five bytes of a 2x2 block suffice.

* `C77_seventeen_components`: the streaming decoder keeps the rows to pull in `uint32_t counts[16]` (coding_units.cpp:6258-6310) and writes entry `c` for every component; with more than
  16 components it writes behind the array. `ci[16]` of the planar variant (6677-6774) is the same.
* `C77_misaligned_strips`: strips are a multiple of the largest vertical factor only; the comment (6166-6168) says that they begin at whole rows of all components. With YRsiz 1, 4, 3 component
  2 shows row 44 where row 43 belongs.
* `C77_own_factor`: rows are counted in rows of component 0 and divided by YRsiz of each component, also of component 0; with YRsiz 2 for all components half of the rows are never handed out.
* `C77_first_row_blank`: with an odd first row (`set_row_range`) a 4:2:0 picture begins with a row of zeros for chroma.
* `C77_band_frozen`, `C77_band_420_file`: with several columns of tiles the held rows of subsampled components are stored once per row of the picture but looked up once per row of the
  component (decoder.cpp:664-695). The chroma file of a 4:2:0 picture of 8 rows gets rows 0, 1, 1, 1.
* `C77_file_wrong_factor`: the factor recovered from the heights (main_dec.cpp:808-809, "exact for any factor") is wrong for low pictures with YRsiz of 3 or more (`C77_guess_iff`).
* C76: `image::read_pnmpgx` (`encoder.cpp:281-295`) skips white space and comments after the single white space that ends the header, so a PNM or PGX file whose first sample byte is 32, 10 or 13 is refused (if it has two sample bytes or more); `imgio.cpp:81-93` has a comment on this very error and is right. Exact condition: `C76_buffered_pgm`, `C76_buffered_pgx`, `C76_buffered_ppm`.
* C76: the header loops of `image::read_pnmpgx` (`encoder.cpp:164-166, 186-201, 237-241`) do not test for the end of the file and never end on a file that is cut in the header (`C76_cut_header`, `C76_number_hangs`).
* C76: `pack_i32_to_be16` with AVX2 (`main_dec.cpp:65-85`) packs with signed saturation: 16-bit samples above 32767 in whole groups of 16 columns are written as 32767 (`C76_be16_avx2`, `C76_be16_avx2_wrong`).
* C76: bytes per sample and offset are those of component 0 (`main_dec.cpp:669-670`); a component of 8 bits beside one of 12 gets a file that says 8 bits and has two bytes per sample (`C76_mixed_depths`).
* C76: `PgxStreamReader` keeps the factors in 8 bits and divides by them (`imgio.cpp:226-233, 257`): a ratio of heights of 256 and a component of size zero lead to a division by zero (`C76_height_ratio`, `C76_empty_component`).
* C76: signed components in PPM files are clamped at 0, or taken modulo 256 when the widths differ (`C76_ppm_signed`).
* C78: `pack_i32_to_le16` with AVX2 packs with signed saturation too: 16-bit samples above 32767 in PGX files become 32767 in whole groups of 16 (`C78_le16_avx2`, `C78_le16_wrong`).
* C78: planes below 8 bits (`planar_shift.hpp`, whose comment says all builds match the scalar reference for every input): the scalar code keeps the samples, AVX2 makes them 0 in whole groups, NEON shifts them to the left (`C78_shift_small_depth`, `C78_shift_neon_small`, `C78_finalize_neon_small`).
* C78: components with sign in planes of bytes (`finalize_narrow.hpp`): AVX2 makes 0 of negative samples in whole groups of 16 and wraps them in the rest of the same row (`C78_finalize_signed`).
* `C82_neon_analysis_overruns`: `fdwt_rev_ver_{hp,lp}_step_i32_neon` (`fdwt_neon.cpp:463-503`) take a pair of registers while `i + 4 < n`, so rows of 5, 6 or 7 columns modulo 8 are read and written up to the next multiple of eight.  Harmless where rows are rounded up to 32 words, as the encoder does; the synthesis asks for `i + 8 <= n`.

### RTP and threads
* `C17_padding_is_kept`: the padding of an RTP packet stays in the payload.
* `C18_join_inside_frame`, `C18_split_header_truncated`, `C18_tail_loss_drops_next`: frames lost although all their packets arrived.
* `C19_stop_can_be_missed`: the stop flag is set without the mutex, so the notification can get lost
  (`pipeline_multi_threaded.cpp:48-50, 66-68, 319-320, 444-446, 542-544`).
* `C20_overflow_strands_tasks`: a task pushed into a full ring goes to the overflow list and can wait there with all workers asleep.
  A task that waits for a sibling of its own batch deadlocks; with no workers the destructor leaves queued tasks.
