# Design of the pixo verification model

## Trusted base

* The Lean 4.33.0 kernel. Each property theorem may depend on `propext`,
  `Classical.choice` and `Quot.sound` only (checked with `#print axioms`).
  No own axioms, no `sorry`, no `native_decide`, no `bv_decide`.
* The hand translation from Rust (text of /repo) to Lean definitions. Every
  model definition cites file and lines. The Rust code was never built or run.
* The small specifications in `Verif/Spec/*.lean`, written from RFC 1950,
  RFC 1951, the PNG specification and ITU-T T.81, not from the code.
* The meaning of vector and CRC instructions, written from the processor
  manuals in `Model/Simd*.lean` and `Model/YcbcrRow.lean`.

## Conventions

* Bytes are `UInt8`. Slices and `Vec<u8>` are `List UInt8`.
* `usize` is `Nat`. `u16/u32/u64` are `Nat` with an explicit `% 2^k` wherever
  the code can wrap, or `UInt32`/`BitVec` for bitwise code.
* A panic (index, slice, overflow in a checked build, unwrap) is an explicit
  `panic` error value, so absence of panics is a theorem.
* `&mut` arguments become returned values.
* Loops become structural recursion, or recursion on fuel with a proof that the
  fuel suffices.
* Floating point is not modelled bit for bit unless said so: decisions taken
  from floats are parameters (oracles) and theorems hold for every oracle.
* Capacity hints (`with_capacity`, `reserve`) are ignored.
* Memory exhaustion is not modelled.
* Threads: a parallel map is a map in which each item is computed independently;
  theorems quantify over every partition of the items.

## Layout

* `Verif/Spec/*`: specifications, independent of the model.
* `Verif/Model/*`: one file per Rust source file.
* `Verif/Proof/*`: helper lemmas.
* `Verif/Props/*`: property theorems, with a non-trivial `example` beside each.

## Per property plan

| id | modelled | method |
|----|----------|--------|
| C01 | BitWriter64, Huffman builder, fixed/dynamic block writers, block splitting, LZ77 loops | writer refines bit lists; block writers satisfy the RFC 1951 grammar; token expansion from C05 |
| C02 | C01 + zlib header, stored fallback, Adler trailer, inflate | C01 + C18 |
| C03 | should_use_stored and the zlib assembly | arithmetic on lengths |
| C04 | deflate_stored | induction on 65535 chunks; negation for the empty input |
| C05 | lz77.rs greedy, lazy, hash-table and optimal parsers | loop invariant "tokens so far expand to the prefix"; table contents only need `v <= pos` |
| C06 | huffman.rs | tree invariants, Kraft equality through the limiter, Fibonacci bound for depth |
| C07 | length_code, distance_code | total finite tables (kernel evaluated over the whole domain) plus arithmetic |
| C08 | adler32_scalar | no-overflow bound, congruence mod 65521 |
| C09 | ssse3, avx2, neon lane code | refuted for ssse3 and avx2 with witnesses; partial theorems under bounds |
| C10 | crc32.rs | GF(2) linearity of the bit step; table lemmas |
| C11 | CRC check | step function is a bijection and linear; burst of at most 32 bits has nonzero image |
| C12 | filter.rs, unfilter | pointwise inverse, induction on rows; any filter choice oracle |
| C13 | png/mod.rs encode, decode/png.rs | composition of C02, C10, C12, C21, C45; negation for packed gray |
| C14 | encode_into validation | case analysis on the model |
| C15 | chunk writer/IDAT split | independent chunk parser |
| C16, C17 | decoder with panic values | invariants: result is never `panic` |
| C18 | inflate | refinement of the RFC 1951 grammar |
| C19, C20 | bits.rs, bit_reader.rs | refinement to bit lists |
| C21 | palette reduction and reordering | permutation invariant |
| C22 | quantizer (floats as oracles) | list-length invariants |
| C23, C24 | alpha optimisation, strip metadata | induction |
| C25 | parallel row maps | map over any partition |
| C26 | Deflater state | tables are reset at entry |
| C27, C35 | jpeg/mod.rs validation and headers | case analysis, independent segment walker |
| C28 | BitWriterMsb, encode_scan | invariant on buffer |
| C29, C34 | jpeg/huffman.rs, scan | T.81 decoder specification, induction |
| C54 | decode/jpeg.rs ycbcr_to_rgb | floor bounds against the T.871 formula over the reals |
| C30, C31, C32, C36, C41 | as written | negation with a concrete witness, plus `_partial` theorem for what does hold |
| C33 | quantize.rs | total finite tables |
| C51 | jpeg/trellis.rs | invariant on the columns of states, f32 exact |
| C50 | jpeg/dct.rs, extract_block | f32 error analysis against the real DCT (Mathlib) |
| C37, C38, C39, C52, C53 | resize.rs | exact f32 model, error analysis against real numbers |
| C40 | simd filters, match_length, score_filter | lane lemmas, chunk induction |
| C42, C43 | color.rs, wasm.rs | linear arithmetic, total finite tables |
| C44, C45 | indexed encoder, bit packing | induction over rows |
| C46 | PNM reader | grammar induction |
| C55 | wasm.rs encode_png | refinement to C10–C15 |
| C56, C57, C58, C59 | bin/pixo.rs run | refinement to the encoder theorems, finite cases of options |
| C60, C61, C62 | integer DCT and quantizer of jpeg/dct.rs, simd | linear form of the passes with bounded slack, real analysis (Mathlib), lanes |
| C63 | rgb_to_ycbcr_row_avx2 | invariant on buffers with a count of stores past the end |
| C64 | decode_jpeg on baseline files of any encoder | grammar of files (Spec/T81Decode), refinement of the parser's state to tables by number, then the scan as in C30 |
| C65 | the public encoders of given tokens | pieces of C01 for any legal tokens; inversion of the monad for the panics; release variants of the code tables (Model/DeflateRelease) |
| C66 | progressive scans with successive approximation (Model/JpegRefine) | point transforms and refinement grammar (Spec/T81Approx); first scans reduce to shifted blocks, then unique decoding gives both directions; refinement by induction over segments between new coefficients |
| C67, C68 | huffman.rs, jpeg/huffman.rs | Kraft's inequality and Huffman's theorem (Proof/HuffmanOptimal): a sequence of merges of two least weights costs no more than any prefix code; both tree builders are such sequences, by the induction over the heap |
| C69 | filter.rs strategies | rules over all filtered lines (Spec/PngChoice); loop invariant "best so far, none good enough" |
| C70 | lz77.rs optimal parser, cost models | prices from the RFC tables (Spec/LzPrice); shortest path invariant (entries final before `i`, each step tried); rounding addition is monotone; exact below 2^24 bits |
| C71 | find_match_with_sublen, update_hash | the chain from `head` lists all positions with the hash, latest first, as long as they are in reach |
| C72 | LongestMatchCache, compress_optimal_cached | both forward passes equal one on a table of reports, which depends on level and data only |
| C73 | deflate_optimal, deflate_optimal_split | induction on the iterations |
| C74 | nearest_palette_index, PaletteLut | redmean in Spec/Colour; first minimum of a loop; bound on the change of the distance when channels move by 3 |
| C75 | quantize_image, dithering | Model/Dither with f32 rounding; invariant: the buffers hold what the pixels done have passed on, in sixteenths, at most 255; so every sum is exact |
| C76 | quantize_image, dithering | shifting sums over the image (Proof/DitherSum) |
| C77 | estimate_block_cost, find_best_split, find_block_splits | counts in Spec/BlockCost; error of each f64 operation (Proof/F64); invariant of the loop: gains of the splits made, and blocks marked done cannot be split |
| C78 | is_high_entropy_data | set of hash values seen, pigeonhole; the f32 quotient compared exactly |
| C79 | write_dynamic_huffman_block | the writer's bits counted by symbol (Proof/DynamicSize), then C67 for both alphabets |
| C80 | encode_best_huffman | C79 with the fixed codes as the other codes; bound on run-length coded lengths |
| C81 | maybe_reduce_color_type | exact choice (Proof/PngFormat), pigeonhole on colours against any competing format |
| C82 | `trellis_quantize`, `generate_candidates`, `estimate_ac_rate` against an independent cost of value sequences | monotone binary32 rounding; invariant over columns (each state realises a path, each path is kept, merged or outnumbered); pigeonhole for few coefficients; up to seven a domination order in the reals (no more zeros behind the last value at no higher cost, or ten bits cheaper) that every step keeps, with a kept state to take the place of a dropped one; kernel-evaluated witnesses |
| C83 | `compress_into_sink`, `find_best_match`, `find_best_match_ht`, `detect_same_byte_run`, `match_length` | invariant of the main loop; maximality of run and match lengths |
| C84 | `inflate`, `inflate_block`, `inflate_dynamic`, `HuffmanTable::{from_lengths, decode}` | every read determines the bits it consumed; uniqueness of headers |
| C85 | `decode_png`, `reconstruct_image`, `unfilter_row`, `convert_to_pixels`, `inflate_zlib_with_size` | the chunk loop cuts the file in the only possible way; every line has exactly one unfiltered form; chunk by chunk fold |
| C86 | `idct_2d`, `cos_approx` against the real inverse DCT (Spec/T81Real); exact linear algebra on the table, f32 rounding bounded per operation |
| C87 | `should_quantize_auto` compared through the whole encoder with the other two modes; counting runs of sorted keys |
| C88 | size bound of `encode_into` and `encode_indexed`; lengths of the chunks, the bound on zlib streams, the reduced format never needs more bits per pixel |
| C89 | size bound of baseline `encode_into`; code words of a legal table have at most 16 bits, induction on blocks and segments |
| C90 | `len`, `is_empty`, `bit_position`, `position`, `remaining_bytes`; the invariants of C19 and C20, induction on the calls |
| C91 | the end of run in src/bin/pixo.rs; texts as lists of characters, read back by a JSON parser written from RFC 8259; ratio through the f64 model |
| C92 | format_size, determine_format and the choice of path and format; paths as lists of characters split by recursion |
| C93 | encode_into, encode_scan; real numbers, the DCT keeps sums of squares |
| C94 | decode_jpeg: the exact condition for accepting a file; induction over marker segments, each header parser against a grammar |
| C95 | decode_jpeg; every block of a baseline scan takes two bits, and an MCU has as many blocks as its largest horizontal factor |
| C96 | precompute_contributions, resize_lanczos3; the Lanczos sum is bounded below by pairing lobes, then error analysis of both passes |
| C97 | all of resize.rs; from C38, C52 and the error analysis of C96 |
| C98 | `apply_filters_with_row_bytes` with its log; induction over the rows, the loop with counters refines the one without; counts compared with the lines of the output |
| C99 | vector loads of `simd::*`; a second model with reading outside as its own fault, shown equal to the first one after merging the faults; induction over the vector loops |
| C100 | `detect_x86_simd_level` and the dispatch; the processor is any function from instruction sets to truth values, case analysis over all of them |
| C101 | `trellis_quantize` with a `lambda`, `trellis_quantize_adaptive`; forward error analysis of the binary32 cost against bits and error in the reals, exchange argument for two minima, table of the weights over all qualities |
| C102 | `trellis_quantize` (rate of zeros, end of block) against the symbols of T.81 F.1.2.2; induction over sequences with the run of zeros in the invariant, error analysis of C101 |
| C103 | `crc32_hw`, the CRC32 instruction as the processor manual defines it (remainder of a polynomial division); induction over the quotient bits, linear algebra over the field of two elements with an explicit inverse |
| C104 | `find_block_splits` and its callees with a counter of the tokens looked at (Model/SplitWork); invariant over blocks made and blocks given up, the counted functions give what the others give; C77 for the family |
| C105 | `resize_impl`, the three algorithms with 32-bit arithmetic (`Model/Resize32`); refinement of the 64-bit model, first row outside the wrapped size |
| C106 | `decode_png` and its callees with 32-bit arithmetic (`Model/PngDecode32`); refinement of the 64-bit model up to panics of what does not fit |
| C107 | `inflate_with_size` and all below it with a limit on the output, `inflate_zlib_with_size`, `decode_png`; induction on the symbol loops: unchanged or aborted, the potential `output + 129 * bits left`, and for the violation RFC 1951 bits of k copies of 258 bytes |
| C108 | compress_into_sink, find_best_match(_ht), update_hash, compress_optimal_cached; counted copies of the functions in Model/Lz77Work, proved to give the same results, the bound by amortisation over the bytes passed |
| C109 | LongestMatchCache::is_populated, compress_optimal_cached; exact count of the work of a call after the first, in both cases |
| C110 | `encode_progressive`; induction over the blocks of a scan with the pending run as part of the bound |
| C111 | `inflate_with_size` and all it calls, with steps counted (Model/InflateWork); amortised accounting, each bit pays for 175,000 steps; lower bound by induction on the run of symbols |
| C112 | `decode_scan` with 32-bit arithmetic (`Model/JpegDecode32`); refinement of the 64-bit model up to panics, with bounds on planes padded to whole MCUs; where a plane wraps, the pixels are shown not to fit |
| C113 | decode_scan and all below it, the marker loop; counting model, budget of 226 steps for each bit left in the reader, which a symbol that is decoded always lowers |
| C114 | decode_png and all below it; counting model, budget of 1423739 steps for each byte of a chunk, handed on to the bytes of IDAT and from these to the scanlines |
| C115 | `resizeC`, `lanczos3C`, `contributionsC`; counted steps refine the model, error bounds of f32 for the windows, sums over the contributions |
| C116 | `sampleLoop`; induction over the loop, stride arithmetic |
| C117 | `quantizeImageC`, `medianCutC`, `cutLoopC`; counted steps refine the model, colours in all boxes as invariant of the cuts |
| C118 | `medianCut`, `cutLoop`, `widest`, `range`, `quantizeImage`; invariant of the boxes, the largest range is zero only when every box has one colour |
| C119 | `split`, `range`, `spread`, `widest`; minima and maxima are attained, the search stops at the first prefix with half of the sum |
| C120 | `mean`, `paletteEntry`, `refineOnce`, `medianCut`, `quantizeImage`; sums bounded by least and largest value, boxes are a partition |
| C121 | `encodeQuantized`, `quantizeImage`, `trimTransparency`, `decodePng`; C120 with the proof that the decoder shows palette entries |

## Not modelled

* `bin/pixo.rs`: argument parsing (clap), file system, terminal output and timing. `Model/Cli` starts from the
  parsed arguments and the bytes read and ends with the bytes written; the size of standard input reported in
  verbose mode is in the model, since it is computed in any case and can overflow.
* `wasm.rs`: the conversion of arguments by wasm-bindgen. `Model/Wasm` assumes a `usize` of 64 bits as everywhere.
  `Model/Resize32` has the arithmetic of resizing with 32 bits (wasm32; wrapping, as in the release build; an allocation
  of less than 2^31 bytes is assumed to succeed), and C105 compares the two;
  `Model/PngDecode32` and C106 do the same for decoding PNG, `Model/JpegDecode32` and C112 for decoding JPEG. The rest is modelled with 64 bits only.
* Wall-clock, allocation failure, stack depth.
* The values of the logarithm (`f32` and `f64` `log2`), which are parameters. All other arithmetic of cost estimates is bit-exact (`Model/F32`, `Model/F64`). The forward DCT and both quantizers of JPEG are modelled exactly: `Model/F32`
  has finite binary32 numbers as integers in units of `2^-149`, rounding to nearest even.
* The f32 inverse DCT of src/jpeg/dct.rs: nothing in the crate calls it.

* Resizing is modelled exactly (`Model/Resize`), with a 64 bit `usize` and allocation that succeeds. The sine of
  Lanczos is a free function; theorems about its values ask for a relative error of at most `2^-22`
  (`GoodSine`). Parallel loops (`Model/Parallel`) are tasks with a place for the result each, run in any order.

## Deviations of the code, proved

Each is a theorem about the model with a concrete witness or a whole class of inputs.

* C04 `C04_violation`: `deflate_stored(&[])` writes nothing; the empty string is no DEFLATE stream.
* C06 `C06_total_overflow_violation`: frequency totals of `2^32` overflow the `u32` node weights.
* C09 `C09_ssse3_violation`: the SSSE3/SSE2 Adler-32 drops the `n * s1` contribution, so it is wrong
  for every input of 16 to 5551 bytes. `C02_ssse3_not_conforming` shows the effect: no zlib stream
  written on such a CPU for such an input is valid. `C09_avx2_violation`: the AVX2 version
  overflows 32 bits on a bright input of 11136 bytes; below that length it is right.
* C11 `C11_straddle_violation`: a burst over the end of the data and the CRC field can go
  unnoticed. This is a property of the PNG format (the CRC field is most significant byte first
  while the data is processed least significant bit first), not of this code.
* C19: `BitWriter64::write_bits` with width 32 shifts by the full width.
* C13 `C13_dim_violated`: `reduce_color_type` turns an opaque gray RGB/RGBA image whose values are
  all below 16 into gray of 1, 2 or 4 bits without rescaling, so every non-black pixel comes back
  brighter. `C13_lossless_iff` shows this is the only loss.
* C14 `C14_threshold_overflow`: from 1431655766 pixels on, `indexed.len() as u32 * 3` overflows.
* C44 `C44_zero_violated`: `encode_indexed` accepts zero dimensions and writes a file that no
  decoder reads. `C44_indexed`: indices outside the palette are accepted and shown as opaque black.
* C25 `C25_violation`: with `AdaptiveFast` the sequential row loop repeats the previous row's filter
  while the parallel one chooses anew, so enabling the `parallel` feature changes the output.
* C38 `C38_identity_violation`: nearest neighbour to the same size of a row of `2^23 + 3` pixels does not give
  the row back (pixel `2^23 + 1`).
* C39 `C39_violation`: bilinear from `2^24` pixels to 26 panics; the last coordinate is rounded to one past
  the last pixel and the left tap is not clamped. This is why C37 has a partial theorem.
* C53 `C53_violation`: `lanczos_kernel` has a factor 3 too many away from zero, but is 1 at zero. After
  normalisation a source pixel exactly at the centre has a third of its weight: `[0, 255, 0]` to one pixel
  gives at most 52, where the Lanczos kernel gives at least 85.
* C40 `C40_sub_violation`: the SSE2 `filter_sub` panics on rows shorter than a pixel.
* C47 `C47_violation`: `decode_png` ignores tRNS in gray and RGB files.
* C48 `C48_violation`: a 63 byte file makes `decode_png` reserve `2^51` bytes.
* C41 `C41_violation`: the PCLMULQDQ path of `simd::crc32` gives another value than CRC-32 for 64 aligned zero bytes; below 64
  bytes after alignment it is right.
* C31, progressive JPEG, in five ways. Ends of band for two or more blocks (`C31_partial`, second part,
  `C31_midgray`): the symbols 0x10, 0x20, ... are in no table, and `get_code_from_table` gives four zero bits
  instead. So no RGB file of two blocks or more whose pixels are all gray is right (`C31_achromatic`, `C31_flat`: a
  chroma component without AC coefficients is one run). Gray images (`C31_gray`): the script codes components 2 and 3 as well, so no such file can be
  read. Restart intervals (`C31_restart`): DRI is written, the markers are not. 4:2:0 (`C31_subsampled`,
  `C31_subsampled_order`): scans of one component hold the blocks in MCU order, and those that only fill
  up MCUs; T.81 wants row by row, and only the blocks of the image. Optimized tables are made from the
  statistics of a baseline scan (`C31_tables`); the bands of the progressive scans need other symbols
  (`C31_optimized_violated`: one 8×8 block, optimized tables, whose second band cannot be read).
* C36 `C36_violation_family`, `C36_violation`: a file whose scan comes before any frame header makes
  `decode_jpeg` index `self.components[0]` of an empty list. `C36_violation_checked`: with overflow checks a
  DC category of 26 and more panics as well, on a file with all its headers. `C36_checked_partial`: overflow
  checks change nothing else: on every input the checked build gives what the release build gives or panics.
* C32 `C32_violation`: `idct_block` scales the odd part `2^13` too small, so every coefficient with an odd
  index in either direction is lost: a single coefficient of 800 gives a flat block, although the exact
  transform goes above 248. `C32_partial` shows the decoder computes the IDCT of the even part, and
  `C32_mirror` that a block comes back as the mean of itself and its three mirror images.
* C30 `C30_violation`: with restart intervals the 8 bit look-ahead of `HuffmanTable::decode` runs into the
  restart marker, where `next_byte` drops the bits it has. The 16 by 8 image with all samples 128 and a restart
  interval of 1 comes back black. Without restart intervals every file is read right (`C30_partial`), up to
  the inverse transform (C32).
* C43 `C43_wasm_preset_violated`, `C43_presets_violated`: preset codes from 3 on are taken for balanced. `C43_max_violated`: PNG
  preset 2 is documented with MinSum and uses Bigrams.
* C46 `C46_cr_violated`: a comment ended by CR alone (Netpbm allows it) swallows the rest of the header.
  `C46_maxval_violated`: well-formed files with a maxval other than 255 are refused. `C46_wrap_violated`: in
  a release build the product of the dimensions wraps, and a file of 42 bytes is read as an image of
  2900561549 by 4239809835 pixels.
* C58 `C58_max_violated`: `--preset max` with gray output writes a JPEG file nobody can read (C31).
* C59 `C59_violated`: `--preset balanced` and `--preset max` do not give the options of the preset: the
  switches for alpha, colour type, palette and metadata are set to their defaults (off) afterwards, and the
  subsampling to 4:4:4.
* C60 `C60_violated`: the first pass of the integer DCT scales only the horizontal frequencies 0 and 4 by
  `PASS1_BITS`, the second removes the scale from all; the others come out at a quarter of their value.
* C63 `C63_violated`: the safety note of `rgb_to_ycbcr_row_avx2` asks for AVX2 only; with outputs shorter than
  the row, seven values are stored past the end of each.
* C64 `C64_gray_violated`: a gray file whose one component has sampling factors 2 by 2 (common in practice; T.81 A.2.2
  says the factors do not matter then) is decoded with its blocks in the wrong places. `C64_luma_violated`: the first
  component is read without scaling, so a file whose first component has not the largest factors is distorted.
  `C64_ratio_violated`: positions are divided by a rounded quotient of factors, wrong for 3 to 2.
* C65 `C65_release_violated`: without debug assertions a match of distance 0 is written with distance 1 and one of
  40000 with distance 31808, silently. `C65_packed_violated`: `PackedToken::match_` asserts only that the distance is
  at least 1; one beyond 32768 sets the literal flag, and the token is read back as a literal.
* C66: all four kinds of scans with a low bit above 0 are wrong for ordinary coefficients. (They are public or reached
  from `encode_progressive` with another script only; the script in use has none.) `C66_dc_first_violated`,
  `C66_dc_drift`: differences are shifted instead of taken between shifted values, and the error adds up without bound.
  `C66_dc_refine_violated`: bits of the absolute value instead of two's complement. `C66_ac_first_violated`: negative
  coefficients are rounded down, not towards zero. `C66_ac_refine_violated`: correction bits at the end of a band are
  written before its end-of-band code. `C66_ac_judged_violated`: magnitudes between 2^Al and 2^(Al+1), which are new in
  the scan, are taken for old ones.
* C67 `C67_limited_violated`: where a Huffman code would need words longer than the limit, `limit_code_lengths` makes
  the words of the most frequent symbols longer instead of those of rare ones, and spends 7362 bits where 6762 suffice.
  `C67_optimal_partial` holds as long as no more than `max_length + 1` symbols occur or their total is below a Fibonacci
  number (2584 for 15 bits, 55 for 7); the witnesses are at these bounds. `C67_monotone_violated`: a symbol counted
  55 times gets a longer word than one counted once.
* C68 `C68_always_beaten_violated`, `C68_image_violated`: `build_code_lengths` makes every word one bit longer than the
  depth of its leaf, so for all statistics with two or more symbols exactly one bit per symbol is wasted, and a legal code
  is always better. `C68_longer_than_standard_violated`: a scan with tables optimized for it can be longer than with
  the standard tables.
* C69 `C69_minsum_violated`: the search stops at the first filter whose sum is at most a quarter of the row length plus
  one, so MinSum and Adaptive do not minimize; `C69_near` bounds the loss. `C69_fast_sticks_violated`: in the sequential
  path AdaptiveFast repeats the filter of the first row for all rows, so the image is filtered with Sub or Up throughout.
  `C69_small_violated`: up to 4096 pixels Adaptive, AdaptiveFast and Bigrams always use Sub.
* C70 `C70_fails_hash`: the table of three-byte hashes has one slot per hash, and a different triple with the same hash hides the
  match ("abc" and "lst"); "abclstabc" gets nine literals, 72 bits of the fixed code instead of 61. `C70_fails_distance`: the search
  keeps only the shortest distance of each length, also where the cost model makes a longer one cheaper. The documentation
  promises "the globally optimal sequence of tokens".
* C71 `C71_fails_hash`, `C71_fails_chain`: the same clash, and chains longer than the level follows (4 candidates at
  level 1, 600 at level 9).
* C73 `C73_fails`: `deflate_optimal` only writes dynamic codes, so short inputs get longer than with `deflate`.
  `C73_fails_split`: `deflate_optimal_split` keeps the tokens of the last iteration, which can be worse than the greedy ones.
* C74 `C74_fails`: `PaletteLut` reduces opaque colours to six bits before looking for the nearest entry ("high accuracy"); black,
  (3,3,3) and (3,3,4) with two entries give the palette black and (3,3,3), and all pixels black.
* C76 `C76_fails`: `as u8` cuts the fraction of the adjusted value before the error is computed, so up to 15/16 per pixel and
  channel are lost, always towards black.
* C78 `C78_never`: `is_high_entropy_data` marks the windows of up to 8192 bytes in a table of 4096, and asks for less than 5 % repeats;
  for 4315 bytes or more that is impossible, so that the check is without effect on all larger data.
* C79 `C79_fails`: where C67 fails, blocks get longer: 2583 literals with Fibonacci counts take 7355 bits, and 6762 are enough.
* C80 `C80_fails`: `FIXED_ONLY_TOKEN_THRESHOLD` and `DYNAMIC_ONLY_TOKEN_THRESHOLD` are both 128, so `encode_best_huffman` never compares;
  it uses fixed codes up to 128 tokens and dynamic codes from 129 on, whichever is longer.
* C81 `C81_gray_fails`: gray (and gray with alpha) input is never reduced; the branch that is commented "optional bit-depth
  reduction" returns 8 bits always. A white pixel takes 8 bits instead of 1.
* C81 `C81_key_fails`: colour-key transparency is never used; 257 opaque colours and one transparent one take 32 bits per
  pixel instead of 24.
* C82 `C82_plain_fails`: eight states are too few. For a block of faint noise (samples from -5 to 3) and steps of 2 plain
  quantization, which is among the paths considered, is estimated to cost 194.7, the returned path 204.0: all states that
  end in a value are pruned because eight runs of zeros are slightly cheaper, although each of these pays for its run later.
* C82 `C82_eight_fails`: eight AC coefficients, none larger than its step, suffice for that (seven do not, `C82_few_partial`; seven larger ones lose nothing but rounding, `C82_seven_partial`). In
  the last place the state which keeps the coefficient is the ninth, and the only one which pays for no end of block; plain
  quantization costs 2.5 less.
* C82 `C82_values_fails`: the values considered are too few. For a single coefficient of 8 and steps of 1 the result is 8;
  7 costs one less (a shorter code outweighs the error). The extra candidate is one further from zero, where neither rate
  nor distortion is less.
* C84 `HuffmanTable::from_lengths` (inflate.rs:59-127) accepts over-subscribed lengths, and `inflate_dynamic`
  (386-458) up to 288 literal/length codes. Three 12 to 13 byte streams that are not RFC 1951 are decoded
  (`C84_fails`).
* C85 `decode_png` (png.rs:101-290) accepts files that are no PNG files: IDAT before IHDR, several IHDR chunks of which all
  but the last may be nonsense, IEND with data, unknown critical chunks, IDAT chunks with others in between, a palette in a
  gray image and after the data, a zlib window above 32 KiB, indices beyond the palette (shown as opaque black)
  (`C85_fails`).
* C86 `cos_approx` (dct.rs:724-739) evaluates the Taylor polynomial of degree 8 up to pi; entries of `COS_TABLE` are off by up to
  0.013. `C86_violated`: `idct_2d(dct_2d(block))` is 4.5 levels off in a block of black and white (`idct_2d` is unused
  outside tests).
* C87 `should_quantize_auto` (png/mod.rs:1708-1762) looks at every floor(n/20000)-th pixel: of an image of even width and 40000 to
  59999 pixels at every second column. `C87_photo_violated`: an image of 20000 colours is quantized to one colour.
  (The `sample_cap` of 20000 is no cap: up to 39999 pixels are sampled.)
* C91 `C91_not_escaped`: names are put into the JSON report as they are, so the report about a file `a"b` is not JSON, one named `a\tb` (with a reverse solidus) is reported with a tabulator, and a name can bring members of its own (`C91_said_otherwise`). `C91_not_quiet`: `--quiet` does not suppress the reports of `--json` and `--verbose`. `C91_stdin`: the size of an image read from standard input is a product of `u32`, so for 40000 × 40000 RGB pixels a debug build panics before it writes the output and a release build reports a wrong size.
* C94 `decode_jpeg` accepts every file that is legible up to the header of its scan, whatever follows
  (`C94_partial`, `C94_any_scan`): `decode_scan` leaves its loop on any error and returns what it has, with zeros for
  the rest (decode/jpeg.rs:531-587). A file cut off after the scan header gives a black image. Missing tables, component
  identifiers that do not match and several frame headers are accepted as well.
* C95 `decode_jpeg` turns 22 bytes into an image of 65535 by 65535 pixels (`C95_violation`): a frame header and a scan
  header and nothing else, as the missing scan is no error (C94).
* C97 `C97_violation`: Lanczos to the same size of a row of `2^24` pixels makes the last pixel black. Its middle is
  computed as `2^24`, where only pixels at distances 1, 2 and 3 are left, whose weights are nearly zero; the sum is
  below `f32::EPSILON` and the weights are used without division. C38 fails there too
  (`C38_identity_lanczos_violation`).
* C98 `apply_filters_with_row_bytes` under `MinSum` takes `output.last()`, the last byte of the row just written, for its
  filter type, so `--verbose` prints wrong statistics: a 1×1 gray image of value 7 is reported as one row and no filter,
  one of value 2 as filtered with Up though it is unfiltered. In the parallel path nothing is printed.
* C99 `simd::filter_up`, `filter_average`, `filter_paeth` (ARM) and `match_length` are safe functions of a public module, but
  their vector loads check only where they start: `filter_up(&[0; 32], &[], &mut out)` reads 32 bytes behind an empty
  slice with AVX2 (16 with SSE2 or NEON), where the portable version panics. The encoder always passes rows of
  one length and positions inside the data (`C99_violation`).
* C100 `simd::adler32` runs `adler32_ssse3`, whose safety comment demands SSSE3, also at the level `Sse2`: undefined behaviour on
  x86-64 processors without SSSE3 (AMD K8 and K10). `simd::crc32` asks for PCLMULQDQ only, while `crc32_pclmulqdq` demands SSE4.1
  as well (`C100_exact`, `C100_violation`).
* C101 `trellis_quantize` is documented as making smaller files for a higher `lambda`, but `lambda` multiplies the error, and
  `trellis_quantize_adaptive` takes a higher one for a lower quality: a coefficient of 2 with a step of 2 is kept at quality 10 and
  dropped at quality 95 (`C101_violation`). Qualities above 100 overflow `100 - quality` (`C101_weight`).
* C102 `trellis_quantize` charges ten bits for every sixteen zeros at the end of a block, for which the encoder writes nothing: a
  coefficient of 2 in the sixteenth place with a step of 2 is kept for 15.8 estimated bits, where dropping it would leave 4 bits
  and a squared error of 4 (`C102_violation`).
* C103 `crc32_hw` computes CRC-32C, not the CRC-32 its comment and name promise (`C103_castagnoli`, `C103_violation`: the check values
  0xE3069283 and 0xCBF43926). It is public in the SIMD module but called by tests only, which do not look at the result.
* C104 `find_block_splits` takes quadratic time (`C104_quadratic`, `C104_violation`): the fine search of `find_best_split` (deflate.rs:575-583) tries every
  position within a ninth of the block on either side, and counts all tokens of the block for each. For half a mebibyte of literals that are split, the largest size
  `compress` splits, that is more than 3*10^10 looks at tokens.
* C105 `resize_lanczos3` (src/resize.rs:531): `temp_size = src_height * dst_width * bytes_per_pixel` is not checked, unlike the sizes of the two images. With a `usize` of 32 bits (WebAssembly) it wraps: 1x65536 grey pixels to 65536x1 gives `temp_size = 0` and a panic at the first row, although both images have 65536 bytes (`C105_violation`). Whenever it wraps the result is a panic, never wrong pixels (`C105_exact`).
* C106 `decode_png` (src/decode/png.rs:117-124): `crc_end = pos + 8 + length + 4` is not checked. With a `usize` of 32 bits a length of `2^32 - 20` or more wraps, the check for truncated chunks passes, and the slice of the chunk panics; 20 bytes are enough (`C106_panic`, `C106_violation`). The dimensions are checked well enough: no other image is ever returned (`C106_never_wrong`).
* C107 `C107_violation`: `inflate_zlib_with_size` compares the size with the expected one only after the
  whole stream has been decompressed (src/decode/inflate.rs:326, 344), so a file of `limit / 158 + 68` bytes that
  announces one pixel makes the decoder hold more than `limit` bytes, for every limit up to 2^37.
* C109 `C109_violation`: `is_populated` takes a cache without matches for one that has not been filled, so that the second call on eight different
  bytes does the same search as the first (14 steps, none of them over lengths). Only time is lost. C109_partial: exactly for data without any match.
* C112 `decode_scan` (src/decode/jpeg.rs:486-650): no product of dimensions is checked. With a `usize` of 32 bits an image of 2^31 bytes or more panics in an allocation; 22 bytes are enough (`C112_panic`, `C112_violation`). Since samples are kept in 16 bits, a gray image of 2^30 bytes panics too (`C112_half`); `C112_exact` says which do. No wrong image is ever returned (`C112_never_wrong`): a plane only wraps when the allocation for the pixels is too big as well.
* C115 `C115_violated`: Lanczos first resizes every row to the new width, so a tall narrow image that becomes a wide low one passes through an image that is both tall and wide. A column of n pixels to a row of n takes at least n² steps (and n² bytes of memory); both images have n bytes.
* C116 `C116_violated`: `stride = (total_pixels / max_samples).max(1)` rounds down, so up to one less than twice the cap of samples are taken: all 99999 pixels of an image of that size where `max_samples` is 50000, and 39999 where `sample_cap` is 20000. The memory reserved for the keys is for the cap, so the vector grows.
* C117 `C117_violated`: `PaletteLut::new` fills a table of 2^18 entries with a full search of the palette for each, also for an image of two pixels, which takes more than 2^19 steps; with 256 colours it is 2^26 comparisons however small the image is.

## Decisions on bounds

* `u32` symbol counts: C01 and C02 assume inputs below `2^32 - 2` bytes, the optimal parsers below
  `2^30 - 1`, since blended counts are summed in `u32`.
* The order of equal keys in `BinaryHeap` and `log2` in `f32` and `f64` are parameters; log2 is
  assumed to lie between 0 and 32 on counts from 1 to `2^32 - 1`.

* PNG encoder: images with `h * (1 + 4 * w) + 2 < 2^30`, so that the filtered data stays within the
  bound of the compressor and counts stay within `u32`.
* Quantization: the order of equal counts is any permutation. In `Model/Quantize`, which the encoder uses, dithering is any
  function from pixels to adjusted colours (`Quantize.Env`); `Model/Dither` has the f32 arithmetic, and C75 shows that it is
  one of these functions.
* JPEG: no bounds; images up to 65535 by 65535, the limit the encoder checks. `restart_interval` is a
  `u16`, so theorems assume it below 65536.
