{"id": "C01", "title": "DEFLATE output is a valid RFC 1951 encoding of the input", "statement": "For every byte string and every compression level, the bytes returned by deflate / deflate_packed / Deflater::compress parse, under the RFC 1951 grammar, as a sequence of blocks whose expansion is exactly the input.", "quantifier": "all byte strings shorter than 2^32 - 2 bytes (2^30 - 1 for the optimal parsers; counts are u32), all levels, every history of the reused compressors", "why_tests_cant": "The compressor picks among stored, fixed and dynamic blocks from data-dependent statistics; a test only sees the blocks its own inputs provoke.", "anchors": ["src/compress/deflate.rs: deflate, deflate_packed, Deflater::compress, encode_best_huffman, encode_fixed_huffman, encode_dynamic_huffman", "src/bits.rs: BitWriter64"]}
{"id": "C02", "title": "zlib round trip", "statement": "Decompressing (crate's own inflate, zlib wrapper) what deflate_zlib, deflate_zlib_packed, Deflater::compress_zlib or deflate_optimal_zlib produced returns Ok with exactly the input bytes, with and without the expected-size argument.", "quantifier": "all byte strings below the limits of C01, all levels, all optimal-iteration counts, whatever the floating point cost estimates are; encoder and decoder run on the same CPU", "why_tests_cant": "Round-trip tests sample a few hundred inputs; the claim is about every input and every cost-model outcome.", "anchors": ["src/compress/deflate.rs: deflate_zlib, deflate_zlib_packed, deflate_optimal_zlib", "src/decode/inflate.rs: inflate_zlib_with_size"]}
{"id": "C03", "title": "zlib output never expands beyond the stored bound", "statement": "The zlib stream produced for n input bytes by deflate_zlib or deflate_zlib_packed is never longer than n + 5*(n/65535+1) + 6 bytes.", "quantifier": "all byte strings shorter than 2^32 - 2 bytes, all levels", "why_tests_cant": "Worst-case expansion is an extremal claim over all inputs.", "anchors": ["src/compress/deflate.rs: should_use_stored, deflate_zlib, deflate_zlib_packed"]}
{"id": "C04", "title": "Stored-block encoder", "statement": "deflate_stored(data) is a valid RFC 1951 encoding of data for every data. (Fails for the empty string: no block is emitted.)", "quantifier": "all byte strings", "why_tests_cant": "Needs all lengths, in particular every multiple of 65535 and 0.", "anchors": ["src/compress/deflate.rs: deflate_stored"]}
{"id": "C05", "title": "LZ77 tokens reproduce the input", "statement": "The token list produced by Lz77Compressor::compress / compress_packed / the optimal parser expands (literal = byte, match = overlapping copy) to exactly the input, every match has length 3..258 and distance 1..32768 and never reaches before the start.", "quantifier": "all byte strings, all levels, all prior states of the compressor, all cost functions for the optimal parser", "why_tests_cant": "Hash chains, lazy matching and window wrap interact; only an invariant over the whole run settles it.", "anchors": ["src/compress/lz77.rs: Lz77Compressor::compress, compress_packed, find_best_match, compress_optimal"]}
{"id": "C06", "title": "Huffman code builder gives complete length-limited prefix codes", "statement": "For every frequency vector with at most 2^max_length used symbols and a total below 2^32 the code lengths returned by build_codes are at most max_length, are nonzero exactly on the symbols with nonzero frequency, and (with two or more used symbols) satisfy Kraft equality; the canonical codes are prefix free. (With a total of 2^32 or more the u32 node weights overflow.)", "quantifier": "all frequency vectors with total below 2^32 and at most 2^max_length used symbols; any heap tie-breaking order", "why_tests_cant": "Length limiting only triggers on skewed (Fibonacci-like) histograms; ties make the tree order unspecified.", "anchors": ["src/compress/huffman.rs: build_codes, extract_lengths, limit_code_lengths, generate_canonical_codes"]}
{"id": "C07", "title": "Fixed and dynamic block length/distance code tables invert the decoder's tables", "statement": "For every match length 3..258 and distance 1..32768 the symbol and extra bits the encoder writes are those from which RFC 1951 recovers that length and distance.", "quantifier": "all lengths, all distances", "why_tests_cant": "The tables mix lookup and bit tricks; every one of the 32768 distances matters.", "anchors": ["src/compress/deflate.rs: length_code, distance_code", "src/decode/inflate.rs: LENGTH_BASE, DISTANCE_BASE"]}
{"id": "C08", "title": "Adler-32 is the RFC 1950 checksum", "statement": "The portable adler32 returns the RFC 1950 value for every input and its 32-bit accumulators never overflow between the deferred reductions.", "quantifier": "all byte strings of any length", "why_tests_cant": "Overflow only shows for long runs of large bytes at unlucky residues.", "anchors": ["src/compress/adler32.rs: adler32_scalar", "src/simd/fallback.rs: adler32"]}
{"id": "C09", "title": "Accelerated Adler-32 equals portable Adler-32", "statement": "On every CPU the checksum used in zlib trailers equals the RFC 1950 value. (Fails for the SSSE3/SSE2 path on almost any input of 16 bytes, and for the AVX2 path by 32-bit overflow on long bright runs; holds for NEON and, below the overflow bound, AVX2.)", "quantifier": "all byte strings, all dispatch levels", "why_tests_cant": "CI only exercises one CPU level and few data patterns; two of the failing cases are marked #[ignore].", "anchors": ["src/simd/mod.rs: adler32", "src/simd/x86_64.rs: adler32_ssse3, adler32_avx2", "src/simd/aarch64.rs: adler32_neon"]}
{"id": "C10", "title": "CRC-32 is the PNG CRC however the data is chunked", "statement": "crc32 (slicing-by-8) equals the bit-by-bit ISO-HDLC CRC for every input, and feeding the same bytes to Crc32::update in any pieces gives the same result.", "quantifier": "all byte strings, all ways of splitting them", "why_tests_cant": "Eight derived tables and a remainder loop: equality for every length and alignment is a universal claim.", "anchors": ["src/compress/crc32.rs: CRC_TABLES, crc32, Crc32"]}
{"id": "C11", "title": "Corruption of a PNG chunk is detected", "statement": "If any single bit, or any burst confined to 32 consecutive bits, of a chunk's type+data+CRC field (not touching the length field) is flipped, the chunk no longer passes the CRC check.", "quantifier": "all chunk contents, all burst positions and patterns of at most 32 bits", "why_tests_cant": "Quantifies over all payloads and all error patterns.", "anchors": ["src/compress/crc32.rs: crc32", "src/decode/png.rs: decode_png", "src/png/chunk.rs: write_chunk"]}
{"id": "C12", "title": "PNG filtering is inverted by the decoder", "statement": "For every image buffer and every filter strategy the filtered scanlines, when unfiltered by the decoder, give back the original bytes.", "quantifier": "all widths, heights, bytes-per-pixel, contents, strategies and adaptive decisions", "why_tests_cant": "Adaptive strategies choose per-row filters from scores; each of the five predictors must invert for all neighbours.", "anchors": ["src/png/filter.rs: apply_filters, filter_*", "src/decode/png.rs: unfilter"]}
{"id": "C13", "title": "PNG encoding without quantization is lossless", "statement": "decode_png(encode(pixels, options)) returns the same width, height and the same pixels (after expanding the stored colour type) for every valid image and option combination without lossy quantization or alpha optimisation. (Fails when reduce_color_type turns an all-gray RGB/RGBA image with maximum at most 15 into packed gray.)", "quantifier": "all images, all option combinations, any CPU-independent execution", "why_tests_cant": "Option space is a product of several booleans, levels, strategies and data-dependent reductions.", "anchors": ["src/png/mod.rs: encode_into, maybe_reduce_color_type", "src/png/bit_depth.rs", "src/decode/png.rs: decode_png"]}
{"id": "C14", "title": "PNG encoder rejects invalid input without touching the buffer, and never panics on valid input", "statement": "encode_into returns the documented error for a bad level, zero or oversized dimensions, or wrong data length, in that order, leaving the output buffer unchanged; otherwise it succeeds and the bytes written do not depend on what the buffer held before.", "quantifier": "all option values, dimensions, data and buffer contents", "why_tests_cant": "Needs every combination of invalid inputs and previous buffer contents.", "anchors": ["src/png/mod.rs: encode_into"]}
{"id": "C15", "title": "PNG container is well formed", "statement": "Every successful encode yields signature, an IHDR with the given dimensions, optional PLTE/tRNS, one or more IDAT, IEND, and nothing else; every chunk has the right length and CRC.", "quantifier": "all successful encodes", "why_tests_cant": "Chunk splitting depends on compressed size (256 KiB pieces).", "anchors": ["src/png/mod.rs: encode_into, write_ihdr, write_plte, write_trns", "src/png/chunk.rs: write_chunk"]}
{"id": "C16", "title": "PNG decoder is total and size-correct", "statement": "decode_png never panics (index, slice or arithmetic) on any byte string; if it succeeds the pixel buffer has exactly width*height*bytes_per_pixel bytes.", "quantifier": "all byte strings", "why_tests_cant": "Adversarial input space.", "anchors": ["src/decode/png.rs: decode_png"]}
{"id": "C17", "title": "Inflate is total", "statement": "Inflating any byte string terminates with a value or an error, without index/arithmetic panics, and the bit reader never reads past the input.", "quantifier": "all byte strings", "why_tests_cant": "Adversarial input space.", "anchors": ["src/decode/inflate.rs", "src/decode/bit_reader.rs: BitReader"]}
{"id": "C18", "title": "Inflate accepts every RFC 1951 stream and decodes it as the RFC says", "statement": "If a byte string is a valid RFC 1951 encoding of some data, from any encoder, inflate returns exactly that data.", "quantifier": "all valid DEFLATE streams, including ones this crate never produces", "why_tests_cant": "Other encoders' streams cannot be enumerated.", "anchors": ["src/decode/inflate.rs: inflate_with_size, HuffmanTable"]}
{"id": "C19", "title": "Bit writers agree with the bit-stream specification", "statement": "Any sequence of write_bits calls (widths within the documented range) followed by finish produces the concatenation of the written bits padded to a byte; BitWriter and BitWriter64 agree. (BitWriter64 panics/garbles at width 32 although its own debug assertion allows it.)", "quantifier": "all sequences of writes", "why_tests_cant": "Histories of mixed widths straddling byte and accumulator boundaries.", "anchors": ["src/bits.rs: BitWriter, BitWriter64, BitWriterMsb"]}
{"id": "C20", "title": "Bit readers invert bit writers", "statement": "Reading with the widths used for writing returns the written values (LSB reader with BitWriter, MSB reader with BitWriterMsb incl. 0xFF stuffing).", "quantifier": "all sequences of values and widths", "why_tests_cant": "Histories; stuffing interacts with buffer refills.", "anchors": ["src/decode/bit_reader.rs", "src/bits.rs"]}
{"id": "C21", "title": "Palette reordering and reduction is lossless", "statement": "When the encoder switches to an indexed palette, palette[index] equals the original pixel for every pixel, the palette has no more than 256 distinct colours, and every index is in range.", "quantifier": "all images with at most 256 colours, all co-occurrence statistics", "why_tests_cant": "Reordering heuristics depend on global pixel statistics.", "anchors": ["src/png/mod.rs: build_palette, optimize_palette_order"]}
{"id": "C22", "title": "Quantized palettes are bounded and exact when possible", "statement": "Quantization yields 1..=max(1,max_colors) palette entries and in-range indices for every pixel; if the image has no more distinct colours than allowed and is small enough to be sampled fully, quantization without dithering is lossless.", "quantifier": "all images, all max_colors, any float behaviour", "why_tests_cant": "Median cut and k-means walk data-dependent paths.", "anchors": ["src/png/mod.rs: quantize_image, median_cut, kmeans"]}
{"id": "C23", "title": "Alpha optimisation only touches invisible pixels", "statement": "With optimize_alpha only pixels with alpha 0 change, they become all-zero, and alpha values never change.", "quantifier": "all images", "why_tests_cant": "Universal over pixels.", "anchors": ["src/png/mod.rs: maybe_optimize_alpha"]}
{"id": "C24", "title": "Metadata stripping is exact", "statement": "strip_metadata removes exactly tEXt, zTXt, iTXt and tIME chunks of a well-formed chunk stream, keeps all others byte for byte in order, and is the identity on the encoder's own output.", "quantifier": "all chunk sequences", "why_tests_cant": "Sequences of arbitrary chunks.", "anchors": ["src/png/mod.rs: strip_metadata_chunks"]}
{"id": "C25", "title": "Parallel row processing equals sequential", "statement": "Filtering rows (and JPEG block coefficients / resize rows) by any partition among threads gives the same bytes as the sequential loop.", "quantifier": "all schedules / partitions", "why_tests_cant": "Thread schedules cannot be enumerated by tests.", "anchors": ["src/png/filter.rs: apply_filters_parallel", "src/resize.rs"]}
{"id": "C26", "title": "Compressor reuse is history independent", "statement": "A Deflater used for any number of earlier inputs produces for the next input the same bytes as a fresh one.", "quantifier": "all histories", "why_tests_cant": "Histories of calls.", "anchors": ["src/compress/deflate.rs: Deflater", "src/compress/lz77.rs: Lz77Compressor"]}
{"id": "C27", "title": "JPEG encoder validates input without touching the buffer", "statement": "jpeg encode_into returns the documented error for bad quality, restart interval 0, zero/oversized dimensions, unsupported colour type or wrong length, in that order, leaving the buffer unchanged.", "quantifier": "all option values and data", "why_tests_cant": "All combinations of invalid input.", "anchors": ["src/jpeg/mod.rs: encode_into"]}
{"id": "C28", "title": "JPEG entropy data contains no accidental markers", "statement": "In the bytes between SOS and EOI every 0xFF is followed by 0x00 or is a restart marker the encoder wrote on purpose; restart markers cycle 0..7.", "quantifier": "all images and options", "why_tests_cant": "All bit patterns.", "anchors": ["src/bits.rs: BitWriterMsb", "src/jpeg/mod.rs: encode_scan"]}
{"id": "C29", "title": "Baseline JPEG entropy coding is lossless on quantized coefficients", "statement": "Decoding, as T.81 prescribes, the baseline scan returns exactly the quantized coefficient blocks that were encoded, for standard and for optimized Huffman tables.", "quantifier": "all sequences of quantized blocks within the baseline range", "why_tests_cant": "All coefficient patterns, run lengths and DC histories.", "anchors": ["src/jpeg/huffman.rs: encode_block", "src/jpeg/mod.rs: encode_scan, build_optimized_huffman_tables", "src/decode/jpeg.rs: decode_block"]}
{"id": "C30", "title": "Crate's JPEG decoder reads the crate's own restart-interval files", "statement": "decode_jpeg recovers the encoded coefficients of any baseline file the encoder writes, including with restart intervals. (Fails: the 8-bit look-ahead crosses the restart marker and drops buffered bits.)", "quantifier": "all images, all restart intervals", "why_tests_cant": "Failure depends on the bit length of the last code before a marker.", "anchors": ["src/decode/bit_reader.rs: MsbBitReader::next_byte", "src/decode/jpeg.rs: HuffmanTable::decode"]}
{"id": "C31", "title": "Progressive JPEG output is decodable", "statement": "Each scan of a progressive file decodes, as T.81 prescribes, to the encoded coefficients. (Fails: end-of-band run symbols are in no Huffman table and are replaced by four zero bits.)", "quantifier": "all images with progressive on", "why_tests_cant": "Fails on almost any flat region, but only an external decoder notices.", "anchors": ["src/jpeg/progressive.rs: encode_ac_first, flush_eob_run, get_code_from_table"]}
{"id": "C32", "title": "JPEG decoder's inverse transform approximates the IDCT", "statement": "For every coefficient block the decoder's 8x8 inverse transform is within a few levels of the exact IDCT. (Fails: odd-frequency inputs are scaled 2^13 too small.)", "quantifier": "all coefficient blocks", "why_tests_cant": "Needs all blocks; tests use DC-only blocks.", "anchors": ["src/decode/idct.rs: idct_block"]}
{"id": "C33", "title": "Quantization tables", "statement": "For every quality 1..100 all table entries lie in 1..255, are non-increasing in quality, are all 1 at quality 100, and the table written to the file is the zigzag of the one used for quantizing.", "quantifier": "all qualities, all 64 positions, both tables", "why_tests_cant": "Finite but total claim relating two layouts.", "anchors": ["src/jpeg/quantize.rs: QuantizationTables::with_quality", "src/jpeg/mod.rs: write_dqt"]}
{"id": "C34", "title": "Optimized JPEG Huffman tables are usable", "statement": "Optimized tables contain a code for every symbol the baseline scan emits, have lengths at most 16, are prefix free and never use the all-ones code; DHT segments describe them exactly.", "quantifier": "all images / symbol statistics", "why_tests_cant": "Depends on global symbol statistics.", "anchors": ["src/jpeg/huffman.rs: optimized_from_counts, build_code_lengths, build_bits_vals", "src/jpeg/mod.rs: write_dht"]}
{"id": "C35", "title": "JPEG file structure", "statement": "Every successful baseline encode is SOI, APP0, DQT, SOF0 with the given size, DHT, optional DRI, SOS, entropy data, EOI with correct segment lengths; walking the segments by length reaches the scan.", "quantifier": "all images and options", "why_tests_cant": "All option combinations.", "anchors": ["src/jpeg/mod.rs: write_*"]}
{"id": "C36", "title": "JPEG decoder is total", "statement": "decode_jpeg never panics on any byte string. (Fails in overflow-checked builds: a DC category of 32 or more overflows a shift.)", "quantifier": "all byte strings", "why_tests_cant": "Adversarial input.", "anchors": ["src/decode/jpeg.rs", "src/decode/bit_reader.rs: MsbBitReader"]}
{"id": "C37", "title": "Resize output size and validation", "statement": "resize returns exactly dst_width*dst_height*bpp bytes or one of the documented errors in the documented order, and leaves the buffer untouched on error.", "quantifier": "all dimensions, data, algorithms", "why_tests_cant": "All combinations.", "anchors": ["src/resize.rs: resize_into, resize_impl"]}
{"id": "C38", "title": "Nearest-neighbour picks source pixels; identity resize is exact", "statement": "Every output pixel of nearest resize is a copy of some source pixel, and resizing to the same size with nearest or bilinear returns the input.", "quantifier": "all sizes and contents", "why_tests_cant": "All sizes; f32 rounding of coordinates.", "anchors": ["src/resize.rs: resize_nearest, resize_bilinear"]}
{"id": "C39", "title": "Bilinear resize never indexes out of range", "statement": "resize with Bilinear does not panic for any accepted dimensions. (The left/top tap is not clamped and f32 rounding may push it past the edge.)", "quantifier": "all accepted dimensions", "why_tests_cant": "f32 rounding at particular size pairs.", "anchors": ["src/resize.rs: resize_bilinear"]}
{"id": "C40", "title": "Accelerated PNG filters and match length equal the portable ones", "statement": "SSE2/AVX2/NEON filter_sub, filter_up, filter_average, filter_paeth, score_filter and match_length give the same result as the scalar versions.", "quantifier": "all rows, lengths, bpp", "why_tests_cant": "Lane and remainder handling for every length.", "anchors": ["src/simd/x86_64.rs", "src/simd/aarch64.rs", "src/simd/fallback.rs"]}
{"id": "C41", "title": "Accelerated CRC equals portable CRC", "statement": "simd::crc32 returns the PNG CRC for every input. (Fails for inputs of 64 bytes and more on CPUs with PCLMULQDQ.)", "quantifier": "all byte strings", "why_tests_cant": "The covering tests are marked #[ignore].", "anchors": ["src/simd/x86_64.rs: crc32_pclmulqdq, reduce_128_to_32"]}
{"id": "C42", "title": "Colour conversion stays in range and keeps grays", "statement": "rgb_to_ycbcr intermediate values fit i32 and need no saturation surprises: for every RGB the result is within 1 of the exact BT.601 formula rounding, and gray pixels map to (v,128,128).", "quantifier": "all 2^24 RGB triples", "why_tests_cant": "16.7 million cases, proved symbolically.", "anchors": ["src/color.rs: rgb_to_ycbcr"]}
{"id": "C43", "title": "Enum codes round trip", "statement": "ColorType codes, PNG/JPEG preset codes and wasm algorithm codes map back and forth as documented and every other code is rejected.", "quantifier": "all u8 codes", "why_tests_cant": "Total claim.", "anchors": ["src/color.rs: ColorType", "src/wasm.rs"]}
{"id": "C44", "title": "Indexed encoder", "statement": "encode_indexed followed by decode_png returns, for each pixel, the palette colour of its index (with transparency), for in-range indices. (Zero dimensions and out-of-range indices are accepted without error.)", "quantifier": "all palettes, indices, bit depths", "why_tests_cant": "All palettes and sizes.", "anchors": ["src/png/mod.rs: encode_indexed_into"]}
{"id": "C45", "title": "Bit packing of samples round trips", "statement": "Packing 1/2/4-bit samples into rows and unpacking returns the samples for every width, with row padding zero.", "quantifier": "all widths and sample values", "why_tests_cant": "All widths.", "anchors": ["src/png/bit_depth.rs: pack", "src/decode/png.rs: unpack_row"]}
{"id": "C46", "title": "PNM parsing in the command line tool", "statement": "Reading the header and body of any well-formed binary PGM/PPM (any whitespace and comments) yields the declared size and exactly the body bytes.", "quantifier": "all headers and bodies", "why_tests_cant": "Whitespace/comment grammar is unbounded.", "anchors": ["src/bin/pixo.rs: load_pnm, read_token"]}
{"id": "C47", "title": "PNG decoder reads every non-interlaced file correctly", "statement": "Every byte string that is a non-interlaced PNG file by RFC 2083 (any colour type and depth, filters, chunk layout, zlib stream, trailing bytes) within the size limit is decoded to the colours the specification assigns. (Fails for a transparent colour given by tRNS in gray and RGB files, which is ignored.)", "quantifier": "all PNG files, not only those written by this crate", "why_tests_cant": "The set of files is infinite; filters, split IDATs, unknown chunks and block types combine freely.", "anchors": ["src/decode/png.rs: decode_png, reconstruct_image, convert_to_pixels"]}
{"id": "C48", "title": "Memory reserved by the PNG decoder is bounded by the input", "statement": "The capacity decode_png reserves before inflating is within a constant factor of the input length. (Fails: 63 bytes make it reserve 2^51 bytes.)", "quantifier": "all byte strings", "why_tests_cant": "A test that triggers it would exhaust memory.", "anchors": ["src/decode/png.rs: calculate_expected_size", "src/decode/inflate.rs:267"]}
{"id": "C49", "title": "The zlib decoder accepts only matching check values", "statement": "If inflate_zlib_with_size succeeds, then the input has a valid zlib header without preset dictionary, the body inflates to the result, the trailer is the checksum of the result and the expected size is met.", "quantifier": "all byte strings and expected sizes", "why_tests_cant": "Corruptions are unbounded in number.", "anchors": ["src/decode/inflate.rs: inflate_zlib_with_size"]}
{"id": "C50", "title": "The coefficients in a JPEG file are the quantized DCT of the image", "statement": "Whatever reads a baseline file as T.81 prescribes gets, for each block of each component, 64 coefficients which times the quantization steps in the file equal the real-number forward DCT of the level shifted samples of the image at the place of that block (edges repeated, chroma averaged two by two for 4:2:0) up to half a step plus a 4096th of a step plus 1/20.", "quantifier": "all images, dimensions up to 65535, qualities, subsamplings, restart intervals, tables", "why_tests_cant": "Floating point error and block layout have to be right for every image; tests look at PSNR of a few.", "anchors": ["src/jpeg/mod.rs: extract_block, extract_mcu_420, encode_scan", "src/jpeg/dct.rs: dct_2d", "src/jpeg/quantize.rs: quantize_block"]}
{"id": "C51", "title": "Trellis quantization stays near the exact coefficients", "statement": "For every block of level shifted samples and every table of steps 1..255, trellis_quantize returns 64 values within the 11 bit range without overflow; the DC value is that of plain quantization; every AC value is zero or times its step within two steps (plus float error) of the real DCT coefficient.", "quantifier": "all blocks of samples, all quantization tables", "why_tests_cant": "The beam search over float costs has too many states; an overflow or a wild value needs one unlucky block.", "anchors": ["src/jpeg/trellis.rs: trellis_quantize, generate_candidates"]}
{"id": "C52", "title": "Bilinear resizing interpolates", "statement": "Every channel of every pixel of a bilinear resize is within 1/2 + 2^-12 of the bilinear interpolation (in real numbers) of its channel of the source, at a column that depends on the column only and a row that depends on the row only, within src/2^22 of the ones that keep the corner pixels; and it lies between the least and the greatest of the four neighbours.", "quantifier": "all images with at most 2^23 source pixels per side, all accepted destination sizes (beyond that see C39)", "why_tests_cant": "f32 coordinates lose precision with the size; overshoot or a shifted grid shows only for particular ratios.", "anchors": ["src/resize.rs: resize_bilinear, bilinear_interpolate"]}
{"id": "C53", "title": "Lanczos weights are those of the Lanczos kernel", "statement": "The weight of a source pixel in a Lanczos resize is, up to normalisation and float error, sinc(x)*sinc(x/3) of its distance x from the centre.", "quantifier": "all distances, all accurate sine functions", "why_tests_cant": "A wrong weight gives a plausible image; only a comparison with the formula at every distance shows it.", "anchors": ["src/resize.rs: lanczos_kernel, precompute_contributions"]}
{"id": "C54", "title": "Decoder colours are those of T.871", "statement": "ycbcr_to_rgb gives, for all Y, Cb, Cr and each channel, the colour of the T.871 formula to within 6/5 of a level, and exactly the luma when there is no chroma.", "quantifier": "all samples, all channels", "why_tests_cant": "16 million sample triples; a slightly wrong constant shows only in extreme ones.", "anchors": ["src/decode/jpeg.rs: ycbcr_to_rgb"]}
{"id": "C55", "title": "The wasm PNG entry point is lossless unless told otherwise", "statement": "encodePng(data, w, h, color, preset, lossy=false) accepts valid images for every preset code and the file shows the pixels of the data; pixels with alpha 0 may come back with another colour (unless the preset is 0), all others exactly.", "quantifier": "all images within the size bound, all preset codes, all colour types", "why_tests_cant": "Every byte value in every pixel and every preset; the reductions interact with the colours present.", "anchors": ["src/wasm.rs: encode_png", "src/png/mod.rs: PngOptionsBuilder"]}
{"id": "C56", "title": "The command line tool keeps the pixels for PNG output", "statement": "Whenever the tool reads its input and writes PNG, a PNG reader gets from the file the pixels of the image read (or their grayscale conversion, if asked for), except that pixels with alpha 0 may change colour when --optimize-alpha is given. PNG to PNG without these options shows the same image.", "quantifier": "all input files, all options, all environments", "why_tests_cant": "All files and all combinations of a dozen options.", "anchors": ["src/bin/pixo.rs: run"]}
{"id": "C57", "title": "Colour conversions of the command line tool", "statement": "to_grayscale gives for every pixel a value less than one level from its luma 0.299R+0.587G+0.114B, a gray unchanged, the same as the Y of the JPEG encoder, independent of alpha; dropping alpha keeps every other byte in place.", "quantifier": "all pixel buffers of all colour types", "why_tests_cant": "All colours and all lengths.", "anchors": ["src/bin/pixo.rs: to_grayscale, rgba_to_rgb, gray_alpha_to_gray"]}
{"id": "C58", "title": "The command line tool writes readable JPEG files", "statement": "Whenever the tool reads an image of at most 65535 by 65535 pixels and writes JPEG, the file can be read, with the dimensions of the image and the coefficients of its colours.", "quantifier": "all input files, all options", "why_tests_cant": "All files and all combinations of options; a broken combination needs a reader to be noticed.", "anchors": ["src/bin/pixo.rs: run"]}
{"id": "C59", "title": "--preset means the preset", "statement": "With --preset and no other option, the tool encodes with exactly the options of the preset.", "quantifier": "all presets, all images", "why_tests_cant": "The option values are not visible from outside; only the size of the file changes.", "anchors": ["src/bin/pixo.rs: run"]}
{"id": "C60", "title": "The integer DCT is the DCT", "statement": "For every block of 8 by 8 samples of eight bits, each coefficient dct_2d_integer gives is within 2 of the exact forward transform of T.81.", "quantifier": "all blocks of samples, builds with and without overflow checks", "why_tests_cant": "2^512 blocks; the tests of the crate look at zero and constant blocks and at the energy within a factor.", "anchors": ["src/jpeg/dct.rs: dct_2d_integer"]}
{"id": "C61", "title": "All versions of the integer DCT agree", "statement": "On every block of i16 the scalar, AVX2 and NEON versions of the integer DCT and the one chosen at run time give the same 64 coefficients, and none overflows.", "quantifier": "all blocks of i16, all machines, builds with and without overflow checks", "why_tests_cant": "2^1024 blocks, and a test machine has one instruction set.", "anchors": ["src/jpeg/dct.rs: dct_2d_integer, dct_2d_integer_neon, dct_2d_fast", "src/simd/x86_64.rs: dct_2d_avx2"]}
{"id": "C62", "title": "Integer quantization rounds to nearest", "statement": "quantize_block_integer gives for each coefficient of at most 16 bits the quotient by the table entry rounded to the nearest integer, halves away from zero, and panics exactly when an entry is zero; whatever the integer DCT gives for samples of eight bits is within its range.", "quantifier": "all coefficients, all tables, builds with and without overflow checks", "why_tests_cant": "Pairs of 2^16 coefficients and 2^16 divisors at 64 places, including the halves.", "anchors": ["src/jpeg/dct.rs: quantize_block_integer"]}
{"id": "C63", "title": "Colour conversion by rows stays in its buffers", "statement": "rgb_to_ycbcr_row_avx2 writes for every pixel the colours of T.871 (with luminance moved by 128) to within rounding, leaves the rest of the outputs unchanged and writes nothing outside of them, for all inputs its safety note allows.", "quantifier": "all rows, all lengths of outputs", "why_tests_cant": "A write past the end of a buffer corrupts memory without a visible failure.", "anchors": ["src/simd/x86_64.rs: rgb_to_ycbcr_row_avx2"]}
{"id": "C64", "title": "Baseline JPEG files of any encoder are decoded as T.81 says", "statement": "For every baseline file by T.81 (any tables in any segments, any numbers of tables, 8 or 16 bit quantization tables, comments and application data, any sampling factors, any restart interval, bytes after the end) with one or three components, the decoder returns an image of the frame's size in which every block has the inverse transform of its dequantized coefficients in the place T.81 says and every pixel has the samples that cover it.", "quantifier": "all baseline files, all sizes, all tables, all sampling factors", "why_tests_cant": "The crate's tests decode files of its own encoder and a few samples; table numbers, segment layouts and sampling factors of other encoders are unbounded.", "anchors": ["src/decode/jpeg.rs: JpegDecoder::decode, parse_sof0, parse_dht, parse_dqt, parse_dri, parse_sos, decode_scan, ycbcr_to_rgb"]}
{"id": "C65", "title": "Token encoders write exactly the tokens given", "statement": "For every list of tokens, encode_fixed_huffman, encode_dynamic_huffman and their packed variants either panic or return one final DEFLATE block that says exactly these tokens in this order (so that decoding gives their expansion); they panic exactly if a length is outside 3..258 or a distance outside 1..32768; packing and unpacking a token gives the token back.", "quantifier": "all lists of tokens (dynamic: fewer than 2^32 - 2), all u16 lengths and distances, checked and release builds", "why_tests_cant": "These functions are public and take any tokens; the tests pass a handful of legal ones, and only in builds with debug assertions.", "anchors": ["src/compress/deflate.rs: encode_fixed_huffman, encode_fixed_huffman_packed, encode_dynamic_huffman, encode_dynamic_huffman_packed, length_code, distance_code", "src/compress/lz77.rs: PackedToken::match_, as_match, as_literal"]}
{"id": "C66", "title": "Scans of successive approximation say the bits they are for", "statement": "For every scan (DC or AC band, first or refinement, any low bit position up to 13) the scan procedures of the progressive encoder write an entropy-coded segment that, read as T.81 annex G prescribes, says the point-transformed coefficients (first scans) or the next lower bit of each (refinement scans); and default_progressive_script and simple_progressive_script say every coefficient of three components to the last bit in a legal order.", "quantifier": "all lists of blocks with coefficients of the baseline range, all bands and bit positions", "why_tests_cant": "Nothing in the crate calls the default script, and the tests of the refinement procedures only check that some bytes come out; no decoder of such scans is in the crate.", "anchors": ["src/jpeg/progressive.rs: default_progressive_script, simple_progressive_script, encode_dc_first, encode_dc_refine, encode_ac_first, encode_ac_refine, flush_eob_run", "src/jpeg/mod.rs: encode_progressive, encode_dc_scan, encode_ac_first_scan, encode_ac_refine_scan"]}
{"id": "C67", "title": "DEFLATE codes spend the fewest bits possible", "statement": "For every list of symbol counts, the code lengths of build_codes spend, on the symbols counted, no more bits than any prefix code with words of at most max_length bits; the order in which the heap returns equal counts does not change the cost.", "quantifier": "all lists of counts, all limits, all orders of equal heap elements, all prefix codes", "why_tests_cant": "The competitor is every prefix code there is; the tests only look at lengths of a few small examples.", "anchors": ["src/compress/huffman.rs: build_codes, extract_lengths, limit_code_lengths, generate_canonical_codes"]}
{"id": "C68", "title": "Optimized JPEG tables spend the fewest bits possible", "statement": "For every list of symbol counts, the words of the table build_bits_vals makes spend, on the symbols counted, no more bits than any other words T.81 allows (at most 16 bits, prefix-free, none all ones); for every image the optimized tables are of this kind, and a scan coded with them is not longer than with the standard tables.", "quantifier": "all lists of counts, all codes of T.81, all images", "why_tests_cant": "The competitor is every legal code; the tests only check that optimized files can be decoded or are smaller on one sample.", "anchors": ["src/jpeg/huffman.rs: build_code_lengths, build_bits_vals, optimized_from_counts", "src/jpeg/mod.rs: build_optimized_huffman_tables, count_block"]}
{"id": "C69", "title": "Each filter strategy chooses the filter it is documented to choose", "statement": "For every image, MinSum and Adaptive give every row the filter with the least sum of absolute values, Bigrams the one with the fewest distinct pairs of bytes (the lowest type among equals), AdaptiveFast the first of Sub, Up and Paeth that is good enough or else the best, and the fixed strategies always their filter, on every instruction set and for every order of the row tasks.", "quantifier": "all images, all strategies, all instruction sets, all schedules, all competing filters", "why_tests_cant": "The tests check that filtered images can be unfiltered; that the choice is the best of five for every row cannot be seen from that.", "anchors": ["src/png/filter.rs: apply_filters_with_row_bytes, adaptive_filter, minsum_filter, bigrams_filter, adaptive_filter_fast, score_filter, score_bigrams", "src/png/mod.rs: FilterStrategy"]}
{"id": "C70", "title": "The optimal parser finds a cheapest sequence of tokens", "statement": "For every cost model its constructors can make and every input, the tokens of compress_optimal denote the input and no other sequence of tokens that denotes it has a lower price; with the fixed model no block with the fixed code says the input in fewer bits.", "quantifier": "all inputs, all cost models, all histories of the compressor, all instruction sets, all competing token sequences and bit strings", "why_tests_cant": "The competitors are all parses of the input, exponentially many; the tests only check that the tokens can be expanded again.", "anchors": ["src/compress/lz77.rs: compress_optimal, trace_backwards, find_match_with_sublen, CostModel, length_to_symbol, distance_to_symbol"]}
{"id": "C71", "title": "The match search of the optimal parser finds every match", "statement": "At every position find_match_with_sublen reports for each length the shortest distance at which that many bytes repeat (0 if there is none), and the longest length that repeats.", "quantifier": "all inputs, all positions, all levels, all histories, all instruction sets", "why_tests_cant": "Missing matches do not show in any decoded result; only a comparison with all earlier positions of all inputs would find them.", "anchors": ["src/compress/lz77.rs: find_match_with_sublen, update_hash, hash3, hash4, detect_same_byte_run"]}
{"id": "C72", "title": "The match cache does not change the result", "statement": "compress_optimal_cached, with a cache made for the data and used any number of times on it with any cost models, returns the tokens compress_optimal returns.", "quantifier": "all inputs, all cost models, all earlier uses of the cache, all histories of both compressors", "why_tests_cant": "A stale or incomplete cache gives valid tokens that decode correctly; only the equality with the uncached run for every sequence of cost models shows it.", "anchors": ["src/compress/lz77.rs: LongestMatchCache, compress_optimal_cached, compress_optimal"]}
{"id": "C73", "title": "Optimal compression is never worse", "statement": "deflate_optimal returns the smallest result it has tried: more iterations never make it longer, it is not longer than the greedy tokens written with dynamic codes, and not longer than deflate at level 9; the same for deflate_optimal_split.", "quantifier": "all inputs, all iteration counts, all f32 oracles", "why_tests_cant": "The tests compare sizes on a few inputs; the order between two compressors on all inputs is not a property of samples.", "anchors": ["src/compress/deflate.rs: deflate_optimal, deflate_optimal_split, deflate_optimal_zlib"]}
{"id": "C74", "title": "Quantization shows every pixel by the nearest palette colour", "statement": "Without dithering, every pixel of a quantized image gets the first of the palette entries at the least redmean distance from its colour.", "quantifier": "all RGB and RGBA images below 2^30 pixels, all palette sizes up to 256, all orders of equally frequent colours", "why_tests_cant": "The tests look at a few palettes; a wrong neighbour is a valid index and only a comparison with all entries for all colours shows it.", "anchors": ["src/png/mod.rs: perceptual_distance_sq, nearest_palette_index, PaletteLut, quantize_image"]}
{"id": "C75", "title": "Dithering is Floyd–Steinberg error diffusion", "statement": "With dithering, the f32 arithmetic of quantize_image is exact, and every pixel gets the entry looked up for its colour plus what it received from its neighbours (7/16, 3/16, 5/16, 1/16 of their errors), rounded down and limited to 0..255; errors are what was wanted less what is shown, and none come from outside the image.", "quantifier": "all RGB and RGBA images below 2^30 pixels, all palette sizes up to 256", "why_tests_cant": "The tests only check that dithered output decodes; off-by-one columns, a missing swap of the rows or lost parts of the error change pixels, not validity.", "anchors": ["src/png/mod.rs: quantize_image (1634-1700)"]}
{"id": "C76", "title": "Dithering keeps the sum of every channel", "statement": "The sum of each channel of the image shown differs from the sum of the image given only by the parts of errors that are passed to places outside the image.", "quantifier": "all RGB and RGBA images below 2^30 pixels, all palette sizes up to 256", "why_tests_cant": "The loss is below one level per pixel and not visible in any single pixel.", "anchors": ["src/png/mod.rs: quantize_image (1663-1691)"]}
{"id": "C77", "title": "Block splits gain what they cost", "statement": "The estimated cost of a block is 300 bits plus the entropies of its symbols plus its extra bits, up to rounding. find_block_splits returns ascending positions at least ten tokens apart that make at most max_blocks blocks; the sum of their estimated costs is at least ten bits per split below the cost of the whole; and if fewer blocks than allowed are made, no position tried in any of them would gain more than ten bits.", "quantifier": "all token sequences below 2^32 - 2 tokens with legal matches, all block limits, every logarithm between 0 and 32", "why_tests_cant": "Splits only change the size of the output, never its meaning, so every round trip passes with wrong counts, lost extra bits or a search that stops early.", "anchors": ["src/compress/deflate.rs: count_symbols_range, estimate_block_cost, find_best_split, find_block_splits"]}
{"id": "C78", "title": "Incompressible data is detected at any size", "statement": "From 4 KiB on, data in which almost no window of four bytes repeats is found to be incompressible and stored without a search for matches.", "quantifier": "all data of at least 4096 bytes, all levels", "why_tests_cant": "The result is only visible as speed and a choice between valid encodings; that it is impossible beyond 4314 bytes is a statement about all inputs.", "anchors": ["src/compress/deflate.rs: is_high_entropy_data, deflate_zlib, deflate_zlib_packed"]}
{"id": "C79", "title": "Dynamic blocks use the shortest codes for their tokens", "statement": "The body of every dynamic block takes the fewest bits possible: no prefix codes with words of up to 15 bits for the symbols that occur in it (with the lengths and distances mapped to symbols as in RFC 1951) would make it shorter. Its header takes at most 2285 bits.", "quantifier": "all sequences of fewer than 2^32 - 2 legal tokens, at any place of a stream, all orders of equal elements in the heap", "why_tests_cant": "A suboptimal code decodes to the same data; only a comparison with all other codes shows it.", "anchors": ["src/compress/deflate.rs: write_dynamic_huffman_block, encode_dynamic_huffman_with_capacity, count_symbols_range", "src/compress/huffman.rs: build_codes"]}
{"id": "C80", "title": "The shorter of fixed and dynamic codes is returned", "statement": "encode_best_huffman returns an encoding that is not longer than either the one with fixed codes or the one with dynamic codes.", "quantifier": "all sequences of fewer than 2^32 - 2 legal tokens", "why_tests_cant": "Both encodings are valid; the loss only shows when both are computed and compared.", "anchors": ["src/compress/deflate.rs: encode_best_huffman, encode_best_huffman_packed"]}
{"id": "C81", "title": "Lossless reduction finds the format with the fewest bits per pixel", "statement": "With colour type and palette reduction enabled and quantization off, the colour type and bit depth written have the fewest bits per pixel among all formats the PNG specification allows that can store the image exactly. Which format is chosen depends only on whether all pixels are gray, all are opaque, and on the number of different colours.", "quantifier": "all valid images and option sets within the size bound, all PNG formats as competitors", "why_tests_cant": "A larger format decodes to the same image; minimality is a statement about every other format.", "anchors": ["src/png/mod.rs: maybe_reduce_color_type, build_palette, all_gray_rgb, analyze_rgba", "src/png/bit_depth.rs: reduce_bit_depth, palette_bit_depth"]}
{"id": "C82", "title": "Trellis quantization and the least estimated cost", "statement": "trellis_quantize says it finds the quantized values that minimise rate plus lambda times distortion, with the Viterbi algorithm. For every block of coefficients and every table of steps the values it returns cost no more, by its own estimate in its own arithmetic, than any other values for the block; in particular not more than plain quantization.", "quantifier": "all blocks of 64 coefficients up to 1025 in magnitude, all tables of steps from 1 to 255, all 63-tuples of AC values", "why_tests_cant": "The alternatives are all 63-tuples of integers. Tests compare with no exhaustive search, and whether a cheaper path was cut off is not visible in the result.", "anchors": ["src/jpeg/trellis.rs:1-20", "src/jpeg/trellis.rs:50-207", "src/jpeg/trellis.rs:209-289"]}
{"id": "C83", "title": "Greedy and lazy matches are as long as their distance allows", "statement": "For every input, level, instruction set and history of the compressor, no match among the tokens of Lz77Compressor::compress can be replaced by a longer one of the same distance: the tokens before it followed by a longer copy (up to 258 bytes) do not denote a prefix of the input. No match of length 3 has a distance above 8192. Two consecutive matches have the same distance only when the first is 258 bytes long.", "quantifier": "all inputs, levels, instruction sets and compressor histories", "why_tests_cant": "A match that stops a byte early still decompresses to the input; the loss is visible only in the size, and only for data that happens to end a vector or a run block at the wrong place.", "anchors": ["src/compress/lz77.rs:272-316", "src/compress/lz77.rs:403-591", "src/compress/lz77.rs:605-749", "src/compress/lz77.rs:752-812", "src/compress/lz77.rs:816-828"]}
{"id": "C84", "title": "Inflate accepts only RFC 1951 streams", "statement": "Whatever inflate decodes begins with an RFC 1951 encoding of the result. In particular headers with over-subscribed codes or more than 286 literal/length codes are refused.", "quantifier": "all byte strings", "why_tests_cant": "Invalid streams that decode to something are not in any test corpus, and the result of decoding them is not visibly wrong.", "anchors": ["src/decode/inflate.rs:59-127", "src/decode/inflate.rs:130-186", "src/decode/inflate.rs:265-287", "src/decode/inflate.rs:386-513"]}
{"id": "C85", "title": "decode_png accepts only PNG files", "statement": "Whatever decode_png decodes is a PNG file as RFC 2083 demands: IHDR first and once, known critical chunks only, PLTE and tRNS in their places, consecutive IDAT chunks holding a zlib stream of exactly the filtered scanlines, indices within the palette, an empty IEND; and the result is the image that file holds.", "quantifier": "all byte strings and check functions", "why_tests_cant": "Files that break one rule and decode all the same are not in test corpora, and there are infinitely many ways to break the rules; a characterisation of what is accepted needs a proof in both directions.", "anchors": ["src/decode/png.rs:101-290", "src/decode/png.rs:292-409", "src/decode/png.rs:430-627", "src/decode/inflate.rs:294-352"]}
{"id": "C86", "title": "The floating-point inverse DCT undoes the forward DCT", "statement": "For every 8x8 block of f32 samples between -128 and 127, idct_2d(dct_2d(block)) differs from the block by less than one half everywhere, so that rounding gives the samples back.", "quantifier": "all blocks of 64 f32 values between -128 and 127 (about 2^30 values each); for the comparison with T.81 all blocks of coefficients up to 1500", "why_tests_cant": "The error is a sum of 64 terms of either sign; the blocks for which it is large are black and white patterns fitted to the errors of the cosine table. The crate's test tries one ramp and allows an error of 5.", "anchors": ["src/jpeg/dct.rs:708-739", "src/jpeg/dct.rs:743-799", "src/jpeg/dct.rs:614-644"]}
{"id": "C87", "title": "Automatic quantization is applied to images of a middling number of colours", "statement": "With QuantizationMode::Auto an RGB or RGBA image is encoded exactly as with Force if it has more than max_colors (at most 256) and at most 32 times as many distinct colours, and exactly as with Off otherwise.", "quantifier": "all accepted RGB and RGBA images and options, every state of the compressor pool and every environment", "why_tests_cant": "Which pixels are looked at depends on the size; below 40000 pixels it is all of them, and tests use small images. Whether an image is left alone if it has few colours must hold for every image of any size.", "anchors": ["src/png/mod.rs:1703-1762", "src/png/mod.rs:470-481"]}
{"id": "C88", "title": "PNG files are never much larger than the image", "statement": "Whatever the image and the options, the PNG file has at most as many bytes as the raw rows (one filter byte each) in stored deflate blocks of 65535 bytes in a zlib stream, cut into IDAT chunks of 256 KiB, with signature, IHDR, the largest PLTE and tRNS, and IEND; in round numbers n + n/8000 + 1120 bytes for n bytes of rows.", "quantifier": "all accepted images of any colour type with fewer than 2^30 bytes of RGBA rows, all options, every state of the compressor pool and every environment; also encode_indexed with any palette", "why_tests_cant": "Expansion occurs on incompressible data, where it depends on comparisons of estimated costs, block splits and reductions; tests of a few noise images say nothing about the worst image.", "anchors": ["src/png/mod.rs:437-590", "src/png/mod.rs:619-626", "src/png/mod.rs:1771-1900", "src/compress/deflate.rs:1066-1071"]}
{"id": "C89", "title": "Baseline JPEG files are bounded by the number of blocks", "statement": "A baseline JPEG file has at most 819 bytes around the scan, and without restart markers the scan has at most two bytes for each byte of 16+11 bits for the DC and 16+10 bits for each AC coefficient of each block; with restart markers at any interval at most 420 bytes for each block.", "quantifier": "all valid gray and RGB images, qualities, subsamplings, restart intervals, standard and optimized Huffman tables, with and without trellis quantization", "why_tests_cant": "The worst case needs the longest codes for all coefficients and a scan full of 0xFF bytes; no test image comes near it, and optimized tables change the code lengths with every image.", "anchors": ["src/jpeg/mod.rs:378-446", "src/jpeg/mod.rs:457-648", "src/jpeg/mod.rs:1408-1563", "src/jpeg/huffman.rs:1-300"]}
{"id": "C90", "title": "Bit writers and readers report their size and position", "statement": "After any sequence of allowed calls that wrote n bits, len is the number of whole bytes (for the JPEG writer with the stuffed zeros), bit_position the number of bits beyond them, and is_empty holds exactly if n = 0. After any sequence of allowed calls that succeeded, BitReader::remaining_bytes does not underflow and is the number of whole unread bytes, is_empty holds exactly at the end of the data, and position is at most five bytes ahead of the bits read.", "quantifier": "all sequences of calls with widths up to 32 (below 32 for BitWriter64), all values, all data", "why_tests_cant": "Positions are spread over a buffer and an accumulator whose fill depends on the whole history of calls; tests try a few histories.", "anchors": ["src/bits.rs:62-112", "src/bits.rs:164-190", "src/bits.rs:256-292", "src/decode/bit_reader.rs:83-134"]}
{"id": "C91", "title": "The JSON report of the command line program is JSON and says what happened", "statement": "With --json the program prints exactly one text on the stream that does not carry the image. It is a JSON text (RFC 8259) with the names of the input and output, both sizes, and the ratio in percent to one decimal, rounded to nearest; in a dry run it starts with dry_run true. With --quiet nothing but errors is printed.", "quantifier": "for all names, sizes and combinations of --json, --quiet, --verbose, --dry-run and standard output", "why_tests_cant": "names of files are arbitrary texts and sizes arbitrary numbers; a test sees a handful of ordinary names, not those with quotation marks, reverse solidi or control characters, and no images beyond 4 GiB", "anchors": ["src/bin/pixo.rs:744-836", "docs/cli.md:79-80", "docs/cli.md:100-115"]}
{"id": "C92", "title": "Sizes are shown correctly rounded, and the default output never overwrites the input", "statement": "A size is shown in the largest of B, KB and MB not above it, exactly or rounded to the nearest hundredth. Without --output the output goes to the directory of the input, to its name with .compressed. and the extension of the format in place of the extension, and never to the input itself. The format is that of --format, else JPEG for standard output, else PNG exactly if the extension is png in any case.", "quantifier": "for all sizes to 2^53 bytes, all paths and all combinations of --format and --output", "why_tests_cant": "paths are arbitrary texts with arbitrary dots and slashes, and rounding has to be right for every size", "anchors": ["src/bin/pixo.rs:585-618", "src/bin/pixo.rs:839-867"]}
{"id": "C93", "title": "What a JPEG file shows is the image, up to the quantization steps", "statement": "Every pixel of the image is covered by samples of every component of a baseline file. In each block, the squares of the differences between the samples of the image and the exact inverse DCT of the dequantized coefficients (clamped to 0..255) add up to at most the sum of the squares of half the quantization steps (plus a bounded arithmetic error per coefficient); so each sample is within the root of that sum. For gray images, and for colour images without subsampling after the conversion of T.871, the same bounds (with the rounding of the colour conversion) hold for every channel of every pixel; at quality 100 within 4.5 and 16 levels, with a mean square error below 1/3 of a level in each component.", "quantifier": "all images, sizes, qualities, both subsamplings, with and without restart intervals and optimized tables; all readings of the file as T.81 prescribes", "why_tests_cant": "the bound is for the worst image of each size and quality; tests compare a few images with a tolerance", "anchors": ["src/jpeg/mod.rs:378-446", "src/jpeg/mod.rs:1408-1563", "src/jpeg/dct.rs", "src/jpeg/quantize.rs", "src/color.rs"]}
{"id": "C94", "title": "decode_jpeg accepts only JPEG files", "statement": "Whatever decode_jpeg decodes is a baseline JPEG file as ITU-T T.81 demands: in particular a file that is cut off, or whose entropy-coded data is damaged, is rejected. (Fails: an error in the scan ends the decoding without being reported, and the image is returned with the rest of its samples zero.)", "quantifier": "all byte strings", "why_tests_cant": "There are infinitely many ways to damage a file; that the bytes of the scan have no influence at all on whether a file is accepted is a statement about all of them at once.", "anchors": ["src/decode/jpeg.rs:214-292", "src/decode/jpeg.rs:294-484", "src/decode/jpeg.rs:486-649"]}
{"id": "C95", "title": "The image decode_jpeg gives is bounded by the file", "statement": "The pixels decode_jpeg returns take at most 3072 bytes for every byte of the file, as every block takes at least two bits. (Fails: as errors in the scan are not reported, 22 bytes give an image of 65535 by 65535 pixels.)", "quantifier": "all byte strings", "why_tests_cant": "A test that triggers it would exhaust memory, and the bound for valid files is about all of them.", "anchors": ["src/decode/jpeg.rs:486-500", "src/decode/jpeg.rs:615-735"]}
{"id": "C96", "title": "Lanczos resizing takes weighted means with the Lanczos kernel", "statement": "Lanczos resizing computes every row from the rows of the source, and then every column from these rows. Every byte of either pass is the mean of its channel, weighted with the three-lobed Lanczos kernel around the middle of the new pixel, stretched by the ratio of the sizes when the image shrinks; cut at 0 and 255 and rounded, up to a stated error of the f32 arithmetic. The weights depend on the column only in the first pass and on the row only in the second, and their sum is never near zero.", "quantifier": "all images, colour types, sizes up to 2^16 shrunk at most 256 times, all schedules of the rows, all accurate sine functions", "why_tests_cant": "The bound is for the worst image and size; that the weights cannot cancel, near the edges too, is a statement about all positions of the kernel.", "anchors": ["src/resize.rs:393-403", "src/resize.rs:416-456", "src/resize.rs:460-602"]}
{"id": "C97", "title": "Images of one colour keep it when they are resized", "statement": "Resizing an image whose pixels all have the same colour gives an image whose pixels all have that colour, exactly, whatever the algorithm is. (Fails for Lanczos at the largest sizes: the last pixel of a row of 2^24 pixels becomes black.)", "quantifier": "all colours, colour types, sizes, algorithms, schedules of the rows, accurate sine functions", "why_tests_cant": "Every size has its own weights, and the weights of a pixel must add up to 1 so closely that no byte is off by one: a statement about all sizes and pixels.", "anchors": ["src/resize.rs:299-389", "src/resize.rs:416-456", "src/resize.rs:460-602"]}
{"id": "C98", "title": "Filter statistics printed with --verbose are those of the image", "statement": "With verbose_filter_log set, apply_filters_with_row_bytes prints the number of rows and, for each of the five filter types, how many rows of its output have it; the bytes it returns do not depend on the log. (Fails: under MinSum the last byte of each row is counted instead of its filter type, and the parallel path prints nothing.)", "quantifier": "all images, row lengths, strategies, instruction sets and schedules", "why_tests_cant": "The tests only check that the log does not panic; the counters are never compared with the output, and a wrong count shows only on standard error.", "anchors": ["src/png/filter.rs:64-203", "src/png/mod.rs:61-62", "src/bin/pixo.rs:677"]}
{"id": "C99", "title": "Safe functions of the simd module read nothing outside their slices", "statement": "No call of a safe function of the public module pixo::simd (filter_sub, filter_up, filter_average, filter_paeth, score_filter, adler32, crc32, match_length) reads bytes outside the slices it is given, on any processor. (Fails: filter_up, filter_average, on ARM filter_paeth, and match_length check only the start of a vector load; with a previous row shorter than the row, or positions too near the end, they read behind the slice.)", "quantifier": "all rows, previous rows, pixel sizes, positions, lengths, alignments and instruction sets", "why_tests_cant": "Reading a few bytes behind a slice rarely crashes, so that a test passes; which lengths do it depends on the instruction set, and the tests pass equal lengths only.", "anchors": ["src/simd/mod.rs:71-236", "src/simd/x86_64.rs:353-425", "src/simd/x86_64.rs:510-702", "src/simd/x86_64.rs:942-1017", "src/simd/aarch64.rs:114-378"]}
{"id": "C100", "title": "Only instructions the processor has are run", "statement": "On every x86-64 processor, each safe function in front of the vector routines runs a routine compiled only for instruction sets the processor has. (Fails: adler32 runs the SSSE3 routine at the level SSE2, and crc32 runs a routine for SSE4.1 having asked for PCLMULQDQ only.)", "quantifier": "all processors, that is, all sets of instruction sets closed under what they contain, and all functions", "why_tests_cant": "Tests run on one processor, today always one with AVX2; the wrong case needs an old one.", "anchors": ["src/simd/mod.rs:46-64", "src/simd/mod.rs:71-236", "src/jpeg/dct.rs:550-557", "src/simd/x86_64.rs:217", "src/simd/x86_64.rs:30"]}
{"id": "C101", "title": "A higher lambda and a lower quality make smaller blocks", "statement": "trellis_quantize with a higher lambda, and trellis_quantize_adaptive with a lower quality, take no more estimated bits, as documented. (Fails: the weight multiplies the error, so it works the other way round; qualities above 100 panic.)", "quantifier": "all blocks of coefficients as large as those of samples, all tables with steps from 1 to 255, all weights, all 256 qualities", "why_tests_cant": "The test of the adaptive quantizer only bounds one coefficient at two qualities; that the direction is wrong needs a comparison of two weights on the right blocks, and that it is wrong on all of them a proof.", "anchors": ["src/jpeg/trellis.rs:20-23", "src/jpeg/trellis.rs:57-71", "src/jpeg/trellis.rs:133-134", "src/jpeg/trellis.rs:298-321"]}
{"id": "C102", "title": "The trellis quantizer counts the bits of what is written", "statement": "The bits the trellis quantizer charges for a sequence of values are those (by its table) of the symbols the encoder writes for it; so nothing considered costs less in written bits and error. (Fails: every sixteen zeros at the end are charged as a run of zeros, though nothing is written for them.)", "quantifier": "all sequences of values; all blocks and tables with at most five nonzero AC coefficients, or seven no larger than their steps", "why_tests_cant": "Files stay valid and are only larger than need be; a test would have to compare with an exhaustive search over the symbols written.", "anchors": ["src/jpeg/trellis.rs:112-131", "src/jpeg/trellis.rs:173-179", "src/jpeg/mod.rs:1408-1563"]}
{"id": "C103", "title": "crc32_hw computes the CRC-32", "statement": "crc32_hw, documented as computing the CRC32 with the processor's instructions, gives the CRC-32 of PNG for all data. (Fails: it gives CRC-32C, for all data; of strings of up to four bytes the two agree exactly on those of bytes 255, and of longer ones with the same beginning on exactly one.)", "quantifier": "all byte strings", "why_tests_cant": "The existing tests only run the function and look at no result; that all lengths modulo 8 and all contents are right is a statement about all byte strings.", "anchors": ["src/simd/x86_64.rs:310-345", "src/simd/x86_64.rs:1971-2004"]}
{"id": "C104", "title": "The work of placing block splits is proportional to the data", "statement": "find_block_splits looks at each token a number of times that is bounded by the number of blocks allowed, whatever the number of tokens. (Fails: the fine search tries two ninths of all positions and looks at all tokens of the block for each. With n tokens, at most (2 max_blocks - 1) n (2n + 108) / 9 tokens are looked at; whenever more than one block is made, at least n*n/9. There are such token sequences of 2^10, 2^11, ..., 2^31 tokens.)", "quantifier": "all sequences of legal tokens below 2^32-2 tokens, all limits on the number of blocks, all results of the floating point logarithm (for the family: exact on powers of two and monotone)", "why_tests_cant": "Tests measure single inputs, of a few thousand tokens; neither a bound for all inputs nor quadratic growth for all inputs that are split follows from measurements.", "anchors": ["src/compress/deflate.rs:538-594", "src/compress/deflate.rs:598-653", "src/compress/deflate.rs:452-480", "src/compress/deflate.rs:366-377"]}
{"id": "C105", "title": "Resizing gives the same image when usize has 32 bits", "statement": "On WebAssembly `usize` has 32 bits and the release build wraps. Every image of less than 2^31 bytes that is resized with a `usize` of 64 bits, and whose new pixels (and, for Lanczos3, whose intermediate image of new width by old height) are less than 2^31 bytes, is resized to exactly the same bytes. An image whose new pixels are 2^32 bytes or more is the error `InvalidDataLength`, and every other one that does not fit is a panic: no wrong pixels are returned. An image that is not accepted is the same error with both sizes, but for an expected length of 2^32 or more, which is shown as 2^32 - 1.", "quantifier": "for all pixels, dimensions, colour types, algorithms and sine functions", "why_tests_cant": "The tests run with 64 bits, and the sizes at which 32 bits matter are too large for a test; that no index wraps for any accepted size needs a proof.", "anchors": ["src/resize.rs:205-602", "src/wasm.rs:184-215"]}
{"id": "C106", "title": "Decoding PNG is safe and the same when usize has 32 bits", "statement": "On a machine whose `usize` has 32 bits, in a release build, decode_png never panics on a file of less than 2^31 bytes and never gives another image than with 64 bits. (What holds: an image that is decoded is the one decoded with 64 bits; and every image decoded with 64 bits that has less than 2^31 bytes at 8 bytes for each pixel and one for each row is decoded with 32 bits; exactly those are whose pixels, and whose scanlines with their filter bytes, are less than 2^31 bytes each. What fails: the end of a chunk, `pos + 8 + length + 4`, is not checked for overflow; every file of at least 20 bytes whose first length field is one of the last 20 values is an error with 64 bits and a panic with 32.)", "quantifier": "for all files of less than 2^31 bytes and all checksum functions", "why_tests_cant": "Tests run with 64 bits, where the overflow cannot happen; that no other of the unchecked products of dimensions wraps into a wrong image needs all dimensions.", "anchors": ["src/decode/png.rs:78-99", "src/decode/png.rs:113-205", "src/decode/png.rs:293-367", "src/decode/png.rs:430-609"]}
{"id": "C107", "title": "The PNG decoder holds no more decompressed data than the header announces", "statement": "While decode_png works on any file, the output of the decompression is never longer than the scanlines announced by the header, so that a small file cannot make the decoder fill the memory. (What holds: the output held is at most 1032 times the input and 65,535 bytes more, on every file; and on every file that is decoded to an image of w by h pixels it is at most h * (8w + 1) bytes. What fails: the announced size is compared only after everything has been decompressed; for every amount of memory up to 2^37 bytes there is a file of about a 158th of it which announces one pixel and does not fit in it.)", "quantifier": "for all files, all checksum functions and all amounts of memory", "why_tests_cant": "A test shows the result of decoding, not the memory held on the way, and no test file can stand for all limits: the violation is a family of files, one for each limit.", "anchors": ["src/decode/inflate.rs:265-287", "src/decode/inflate.rs:294-352", "src/decode/inflate.rs:355-376", "src/decode/inflate.rs:461-513", "src/decode/png.rs:259-264"]}
{"id": "C108", "title": "The work of LZ77 is proportional to the data", "statement": "compress looks at no more than a fixed number of earlier positions and updates the hash tables no more than a fixed number of times for each byte of the data, whatever the data and whatever the compressor did before: together at most 6, 8, 14, 18, 36, 74, 204, 604 and 1204 for each byte at levels 1 to 9. Optimal parsing, which also loops over match lengths, has at most 154714 rounds for each byte, and at most 256 if the match cache is filled. (Comparing the bytes of a candidate is bounded by the match length of 258.)", "quantifier": "for all data of any length, all levels, all histories of the compressor, all cost models and caches", "why_tests_cant": "Tests measure the time of a few inputs; whether some input makes the hash chains long enough for quadratic work is a question about all inputs, and hash chains are the classical place for such inputs.", "anchors": ["src/compress/lz77.rs:403-591", "src/compress/lz77.rs:605-749", "src/compress/lz77.rs:752-812", "src/compress/lz77.rs:886-984", "src/compress/lz77.rs:1066-1142"]}
{"id": "C109", "title": "Repeated optimal parsing reuses the matches", "statement": "Calls of compress_optimal_cached after the first, on the same data, search for no matches: they only loop over the lengths the first call found, as documented (\"On subsequent calls, it reuses cached matches\", \"First iteration populates cache, subsequent iterations reuse it\"). (This holds exactly if the search finds a match at some position of the data. The cache counts as filled only if it holds a match, so on data in which no match is found, every iteration searches all positions again.)", "quantifier": "for all data, levels, cost models, histories of the compressor and numbers of earlier calls", "why_tests_cant": "The result is the same either way, only the work differs, and it differs only for data without repetitions, on which a cache is not usually tested.", "anchors": ["src/compress/lz77.rs:141-145", "src/compress/lz77.rs:1058-1142", "src/compress/deflate.rs:310-322"]}
{"id": "C110", "title": "Progressive JPEG files are bounded by the number of blocks", "statement": "A progressive JPEG file has at most 805 bytes around the scans, and each of the seven scans has 10 bytes of header and at most two bytes for each byte of 16+11 bits for each block (DC) or 16+10 bits for each coefficient of the band of each block of its component (AC): ends of band, also those of runs of blocks and those without a code, take the place of a zero coefficient. In all there are at most 889 bytes and 417 for each block; restart intervals add nothing.", "quantifier": "all valid gray and RGB images, qualities, subsamplings, restart intervals, standard and optimized Huffman tables, with and without trellis quantization", "why_tests_cant": "The worst case needs the longest codes for all coefficients, runs of blocks of every length up to 32767 and scans full of 0xFF bytes; optimized tables change the code lengths with every image, and symbols without codes are written with four bits.", "anchors": ["src/jpeg/mod.rs:872-927", "src/jpeg/mod.rs:1250-1365", "src/jpeg/progressive.rs:98-110", "src/jpeg/progressive.rs:141-210", "src/jpeg/progressive.rs:313-380"]}
{"id": "C111", "title": "Decompression takes time at most proportional to the compressed data", "statement": "For every sequence of bytes, whether or not it is valid DEFLATE data, the number of steps inflate takes (rounds of its loops, symbols decoded, bytes copied, table entries filled) is at most 175,000 for each bit of the data, plus as many once. Symbols with codes of at most nine bits take one step each. Symbols with longer codes are looked up by working out the codes of all symbols again for every symbol with a shorter code: for every k there are valid data of at most 2k+57 bytes for k bytes which take more than 85,484 k steps.", "quantifier": "for all byte sequences; for all tables and readers; for all k", "why_tests_cant": "The cost of the slow path depends on the code, not on the size of the data: tests with ordinary images hardly use codes of more than nine bits, and a bound for all inputs, in particular for malformed ones, cannot be had by timing some.", "anchors": ["src/decode/inflate.rs:59-127", "src/decode/inflate.rs:130-219", "src/decode/inflate.rs:265-287", "src/decode/inflate.rs:355-513"]}
{"id": "C112", "title": "Decoding JPEG is the same when usize has 32 bits", "statement": "On a machine whose `usize` has 32 bits, in a release build, decode_jpeg gives for every file what it gives with 64 bits. (What holds: an image that is decoded is the one decoded with 64 bits, although none of the products of dimensions and sampling factors is checked and some do wrap; and the results are the same unless the image has at least 2^31 bytes or, with 119 more columns and rows, at least 2^30 pixels; exactly those are decoded whose pixels, and whose samples at two bytes each for every component, are less than 2^31 bytes. What fails: every file of an image of 2^31 bytes or more, which can be 22 bytes long, panics for want of memory instead of being decoded or rejected.)", "quantifier": "for all files of less than 2^31 bytes", "why_tests_cant": "Tests run with 64 bits and with small images. That products which wrap never lead to a short buffer that is filled and returned needs all dimensions up to 65535 and all sampling factors up to 15.", "anchors": ["src/decode/jpeg.rs:486-650", "src/decode/jpeg.rs:294-357"]}
{"id": "C113", "title": "Decoding JPEG takes time at most proportional to the file and the image", "statement": "For every sequence of bytes, the number of steps decode_jpeg takes (rounds of its loops, symbols and amplitudes decoded, coefficients and samples set, passes of the inverse transform, header bytes read) is at most 1810 for each byte of the file, plus 82, plus, if an image is returned, five for each pixel of the image with 119 more in each row and column. A step for each pixel is needed in any case: 22 bytes can take more than four thousand million steps.", "quantifier": "for all byte sequences", "why_tests_cant": "A bound for all inputs, in particular damaged ones, cannot be had by timing some; the argument that every block that is transformed has used up bits of the file needs all tables, also invalid ones, and all states of the reader.", "anchors": ["src/decode/jpeg.rs:150-180", "src/decode/jpeg.rs:486-650", "src/decode/jpeg.rs:653-671", "src/decode/jpeg.rs:214-251"]}
{"id": "C114", "title": "Decoding PNG takes time at most proportional to the file", "statement": "For every sequence of bytes and any image size the header announces, the number of steps decode_png takes (rounds of its loops and of those of inflate, bytes copied, summed or made) is at most 1423739 for each byte of the file. The large constant is needed within a factor of 34: for every k from 3 up to 2^29 there is a file of at most 2 k + 120 bytes, announcing one pixel, for which decode_png takes at least 85484 k steps and then gives an error.", "quantifier": "for all byte sequences and all checksum functions; for all k in the second part", "why_tests_cant": "The bound is about every input, damaged ones included. That the work after decompression is paid for by decompressed bytes, and these by compressed ones, holds for all headers, depths and filter types at once.", "anchors": ["src/decode/png.rs:101-285", "src/decode/png.rs:292-367", "src/decode/png.rs:370-409", "src/decode/png.rs:430-609", "src/decode/inflate.rs:294-352"]}
{"id": "C115", "title": "The work of resizing is proportional to the sizes of both images", "statement": "`resize` takes a number of steps (rounds of innermost loops, pixels, bytes set) that is at most a constant times the number of bytes of the old and the new image together, whichever algorithm is chosen; a refused call takes none.", "quantifier": "all pixel data, all sizes, colour types and algorithms, every result of `f32::sin`, every order of the rows of a parallel build", "why_tests_cant": "Tests resize images of ordinary proportions and do not count the work; the bound is about every pair of sizes up to 2^24 in each direction, and the pairs that break it would take hours or more memory than there is.", "anchors": ["src/resize.rs:195-296", "src/resize.rs:299-389", "src/resize.rs:416-456", "src/resize.rs:459-602"]}
{"id": "C116", "title": "Palettes are chosen from a capped number of evenly spaced pixels", "statement": "`quantize_image` looks at no more than max_samples = 50000 pixels for the palette and `should_quantize_auto` at no more than sample_cap = 20000; they are evenly spaced over the image, and all pixels of a smaller one.", "quantifier": "all pixel data with 3 or 4 bytes per pixel, any length, any positive cap", "why_tests_cant": "Tests use images far below the caps, where every pixel is looked at; the number of samples depends on the rounding of the stride for every number of pixels.", "anchors": ["src/png/mod.rs:1517-1538", "src/png/mod.rs:1708-1740"]}
{"id": "C117", "title": "The work of quantization is proportional to the image", "statement": "`quantize_image` with a palette of at most 256 colours takes a number of steps (rounds of loops, elements copied) that is at most a moderate constant times the number of bytes of the image.", "quantifier": "all pixel data, colour types and palette sizes from 1 to 256, with and without dithering, every result of the error diffusion and every order of equal counts", "why_tests_cant": "Tests look at the result and not at the work; the bound must hold for every distribution of colours, where the number of boxes, their sizes and the colours that need a full search vary.", "anchors": ["src/png/mod.rs:1301-1339", "src/png/mod.rs:1346-1390", "src/png/mod.rs:1457-1499", "src/png/mod.rs:1505-1701"]}
{"id": "C118", "title": "Quantization uses every entry of the palette", "statement": "The palette `quantize_image` gives for an RGB or RGBA image with at most m colours asked for has exactly min(m, D) entries, where D is the number of different colours among the pixels looked at: median cut never stops while a box can still be cut, whatever the ranges and counts are.", "quantifier": "all RGB and RGBA images of any size, all m from 1 to 256, with and without dithering, every order of equal counts", "why_tests_cant": "Tests check that the palette is not too large. That the box with the largest range can always be cut while any can, for every set of colours, weights and ties, is an invariant of the loop.", "anchors": ["src/png/mod.rs:1211-1272", "src/png/mod.rs:1301-1339", "src/png/mod.rs:1582-1622"]}
{"id": "C119", "title": "Median cut cuts at the median of the widest channel", "statement": "`ColorBox::split` divides the colours of a box of two or more into two boxes that are not empty, along the channel in which two of its colours differ most with the documented weights (green 4, alpha 3, red 2, blue 1); no colour of the first box is above one of the second in that channel, and the first box is the shortest one with half of the pixels, as far as each box must keep a colour. The box that `median_cut_palette` cuts is one with the largest weighted range.", "quantifier": "all boxes of at least two colours with any counts for which the sums do not overflow", "why_tests_cant": "Tests look at palettes of a few simple images. Which channel wins, ties, colours with large counts at either end and the clamped split index are different for every set of colours.", "anchors": ["src/png/mod.rs:1173-1204", "src/png/mod.rs:1211-1238", "src/png/mod.rs:1244-1272", "src/png/mod.rs:1310-1331"]}
{"id": "C120", "title": "Palette entries are means of the colours", "statement": "The palette of `median_cut_palette` starts with the weighted means, rounded down in every channel, of boxes that share out all counted colours, and goes through two k-means iterations in which every entry becomes the mean of the colours it is the (first) nearest to, or stays if there are none. So in every channel the palette of `quantize_image` keeps to the range of the pixels: an opaque image gets an opaque palette, and a grey image a grey one.", "quantifier": "all RGB and RGBA images of 1 to 2^32-1 pixels, all palette sizes, with and without dithering", "why_tests_cant": "Tests check the size of palettes. That no mean leaves the range of the colours, loses opacity to rounding or gets a tint depends on every partition and every count.", "anchors": ["src/png/mod.rs:1274-1298", "src/png/mod.rs:1301-1339", "src/png/mod.rs:1346-1390", "src/png/mod.rs:1505-1701"]}
{"id": "C121", "title": "A quantized PNG keeps to the colours of the image", "statement": "When the PNG encoder quantizes an image, the file decodes to colours which, in every channel, lie between the least and the largest value of that channel in the image. So an opaque image is shown opaque, a grey image grey and an image of one colour as it is, with and without dithering.", "quantifier": "all valid RGB and RGBA images with h*(1+4w)+2 < 2^30 that are quantized (forced or automatically), all other options, any float behaviour of dithering", "why_tests_cant": "It goes through sampling, median cut, k-means, lookup or error diffusion, tRNS trimming, deflate and the decoder, for every image.", "anchors": ["src/png/mod.rs:470-511", "src/png/mod.rs:1274-1390", "src/png/mod.rs:1505-1701", "src/png/mod.rs:1888-1902"]}
