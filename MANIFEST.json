{
 "claims": [
  {
   "property": "C01",
   "status": "proved",
   "theorems": [
    "Pixo.Props.C01_deflate",
    "Pixo.Props.C01_deflate_packed",
    "Pixo.Props.C01_compress",
    "Pixo.Props.C01_compress_packed",
    "Pixo.Props.C01_compress_fixed",
    "Pixo.Props.C01_optimal",
    "Pixo.Props.C01_unique"
   ],
   "note": "Strict RFC 1951 grammar (complete codes), every level, every history of the pool or the deflater, every floating point estimate and heap order, every instruction set. Inputs below 2^32-2 bytes (2^30 for the optimal parsers), because counts are u32."
  },
  {
   "property": "C02",
   "status": "proved",
   "theorems": [
    "Pixo.Props.C02_deflate_zlib",
    "Pixo.Props.C02_deflate_zlib_packed",
    "Pixo.Props.C02_compress_zlib",
    "Pixo.Props.C02_optimal_zlib",
    "Pixo.Props.C02_conforms",
    "Pixo.Props.C02_ssse3_not_conforming"
   ],
   "note": "Encoder and decoder on the same CPU. Whether other decoders accept the stream depends on C09: C02_conforms where the checksum is right, C02_ssse3_not_conforming where it is not."
  },
  {
   "property": "C03",
   "status": "proved",
   "theorems": [
    "Pixo.Props.C03_bound",
    "Pixo.Props.C03_optimal"
   ],
   "note": ""
  },
  {
   "property": "C04",
   "status": "partial",
   "theorems": [
    "Pixo.Props.C04_stored_partial",
    "Pixo.Props.C04_violation"
   ],
   "note": "The code violates the property for the empty input (no block is written); proved for every other input."
  },
  {
   "property": "C05",
   "status": "proved",
   "theorems": [
    "Pixo.Props.C05_compress",
    "Pixo.Props.C05_compress_packed",
    "Pixo.Props.C05_compress_optimal",
    "Pixo.Props.C05_compress_optimal_cached"
   ],
   "note": "All data lengths, all levels, every history of calls, every instruction set; cost models as made by the two public constructors with any log2 between 0 and 32; f32 sums modelled with rounding."
  },
  {
   "property": "C06",
   "status": "proved",
   "theorems": [
    "Pixo.Props.C06_build_codes",
    "Pixo.Props.C06_total_overflow_violation",
    "Pixo.Props.C06_canonical"
   ],
   "note": "For totals below 2^32 and at most 2^max used symbols (both necessary; a total of 2^32 panics, proved)."
  },
  {
   "property": "C07",
   "status": "proved",
   "theorems": [
    "Pixo.Props.C07_length",
    "Pixo.Props.C07_distance",
    "Pixo.Props.C07_length_258"
   ],
   "note": ""
  },
  {
   "property": "C08",
   "status": "proved",
   "theorems": [
    "Pixo.Props.C08_adler32",
    "Pixo.Props.C08_adler32_range"
   ],
   "note": "Model panics on u32 overflow; the theorem shows it never does."
  },
  {
   "property": "C09",
   "status": "partial",
   "theorems": [
    "Pixo.Props.C09_neon",
    "Pixo.Props.C09_scalar",
    "Pixo.Props.C09_avx2_short_partial",
    "Pixo.Props.C09_avx2_dark_partial",
    "Pixo.Props.C09_avx2_violation",
    "Pixo.Props.C09_ssse3_partial",
    "Pixo.Props.C09_ssse3_violation"
   ],
   "note": "The code violates the property: SSSE3/SSE2 is wrong for every input of 16..5551 bytes, AVX2 overflows on an 11136-byte input. NEON and scalar proved for all inputs."
  },
  {
   "property": "C10",
   "status": "proved",
   "theorems": [
    "Pixo.Props.C10_crc32",
    "Pixo.Props.C10_incremental"
   ],
   "note": ""
  },
  {
   "property": "C100",
   "status": "partial",
   "theorems": [
    "Pixo.Props.Features.C100_full",
    "Pixo.Props.Features.C100_exact",
    "Pixo.Props.Features.C100_partial",
    "Pixo.Props.Features.C100_used",
    "Pixo.Props.Features.C100_level",
    "Pixo.Props.Features.C100_violation"
   ],
   "note": "False in full: with SSE2 and without SSSE3, adler32 runs a routine compiled for SSSE3 (C100_violation). Proved: exactly that, and crc32 with PCLMULQDQ and without SSE4.1, are the wrong cases."
  },
  {
   "property": "C101",
   "status": "partial",
   "theorems": [
    "Pixo.Props.C101_weight",
    "Pixo.Props.C101_trade_partial",
    "Pixo.Props.C101_quality_partial",
    "Pixo.Props.C101_violation",
    "Pixo.Props.C101_full_fails"
   ],
   "note": "Full statement C101_full as documented, refuted. Proved: the weight for every quality; for blocks of at most seven nonzero AC coefficients (where the search does not lose, C82) a higher weight or a lower quality makes the squared error no greater and the estimated bits no fewer, up to rounding of a share of 2^-15 (2^-11 for six or seven larger coefficients). Missing: blocks with more coefficients, where the search may lose."
  },
  {
   "property": "C102",
   "status": "partial",
   "theorems": [
    "Pixo.Props.C102_count_partial",
    "Pixo.Props.C102_search_partial",
    "Pixo.Props.C102_violation",
    "Pixo.Props.C102_full_fails"
   ],
   "note": "Full statement C102_full, refuted. Proved: exactly by how much the count differs from what is written, for all sequences; it is right with fewer than sixteen zeros at the end; the search result is cheapest in written bits among what is considered with as many zeros at the end, for at most seven nonzero AC coefficients, up to rounding."
  },
  {
   "property": "C103",
   "status": "partial",
   "theorems": [
    "Pixo.Props.CrcHw.C103_castagnoli",
    "Pixo.Props.CrcHw.C103_exact_partial",
    "Pixo.Props.CrcHw.C103_exact",
    "Pixo.Props.CrcHw.C103_violation",
    "Pixo.Props.CrcHw.C103_full_fails"
   ],
   "note": "The code violates the claim: proved for all data that the function gives CRC-32C; that for up to four bytes this is the CRC-32 exactly if all bytes are 255; and that of all longer data with the same beginning it is the CRC-32 for exactly one choice of the last four bytes."
  },
  {
   "property": "C104",
   "status": "partial",
   "theorems": [
    "Pixo.Props.SplitWork.C104_bound_partial",
    "Pixo.Props.SplitWork.C104_quadratic",
    "Pixo.Props.SplitWork.C104_violation"
   ],
   "note": "Violated by the code: the work is quadratic. Proved: an upper bound for all inputs, a lower bound of n*n/9 whenever a split is made, and a family of inputs that are split (2^19 tokens, as many as half a mebibyte of literals, are looked at more than 3*10^10 times)."
  },
  {
   "property": "C105",
   "status": "partial",
   "theorems": [
    "Pixo.Props.Resize32.C105_same_partial",
    "Pixo.Props.Resize32.C105_exact",
    "Pixo.Props.Resize32.C105_errors",
    "Pixo.Props.Resize32.C105_violation"
   ],
   "note": "The images that fit are the same; all others are characterised exactly. Fails for Lanczos3 when the unchecked size of the intermediate image wraps: 1x65536 grey pixels to 65536x1 panics with 32 bits and is a row of 65536 bytes with 64 bits."
  },
  {
   "property": "C106",
   "status": "partial",
   "theorems": [
    "Pixo.Props.PngDecode32.C106_never_wrong",
    "Pixo.Props.PngDecode32.C106_same",
    "Pixo.Props.PngDecode32.C106_exact",
    "Pixo.Props.PngDecode32.C106_panic",
    "Pixo.Props.PngDecode32.C106_violation"
   ],
   "note": "Never a wrong image, and the same image exactly when its pixels and its scanlines fit in 2^31 - 1 bytes. Fails for panics: a length field of 2^32 - 20 or more in a file of 20 bytes or more wraps around the check for truncated chunks."
  },
  {
   "property": "C107",
   "status": "partial",
   "theorems": [
    "Pixo.Props.C107_input_bound",
    "Pixo.Props.C107_accepted_partial",
    "Pixo.Props.C107_violation"
   ],
   "note": "Partial because the code violates the property: the expected size is not used to stop the decompression. Proved: the bound by the input for every file, the bound by the image for every file that is decoded, and the violation for every limit up to 2^37 bytes (IDAT in one chunk)."
  },
  {
   "property": "C108",
   "status": "proved",
   "theorems": [
    "Pixo.Props.C108_compress",
    "Pixo.Props.C108_optimal"
   ],
   "note": "For all data: the counted encoders give the same tokens as the ones of C05, and the count is bounded."
  },
  {
   "property": "C109",
   "status": "partial",
   "theorems": [
    "Pixo.Props.C109_partial",
    "Pixo.Props.C109_violation"
   ],
   "note": "Partial because the code violates the property: data without matches is searched again in each call. Proved: exactly when this happens, for all data."
  },
  {
   "property": "C11",
   "status": "partial",
   "theorems": [
    "Pixo.Props.C11_burst_partial",
    "Pixo.Props.C11_single_bit",
    "Pixo.Props.C11_crc_field",
    "Pixo.Props.C11_straddle_violation"
   ],
   "note": "Bursts within type+data (transmission bit order) and any damage of the CRC field proved; bursts straddling data and CRC field can go unnoticed in the PNG format (witness)."
  },
  {
   "property": "C110",
   "status": "proved",
   "theorems": [
    "Pixo.Props.C110_size",
    "Pixo.Props.C110_blocks"
   ],
   "note": "All tables the encoder can choose, valid images of both color types, all intervals."
  },
  {
   "property": "C111",
   "status": "proved",
   "theorems": [
    "Pixo.Props.C111",
    "Pixo.Props.C111_short",
    "Pixo.Props.C111_long",
    "Pixo.Props.C111_slow",
    "Pixo.Props.C111_rounds"
   ],
   "note": "The bound is for a model that counts steps (Model/InflateWork) and gives the same results; the refill loops of the bit reader (at most eight rounds for each read) are not counted. C111_slow shows that the constant is really of that size: over 42,000 steps for each byte of compressed data, because decode_slow calls code_for_symbol for every symbol with a shorter code."
  },
  {
   "property": "C112",
   "status": "partial",
   "theorems": [
    "Pixo.Props.JpegDecode32.C112_never_wrong",
    "Pixo.Props.JpegDecode32.C112_same",
    "Pixo.Props.JpegDecode32.C112_exact",
    "Pixo.Props.JpegDecode32.C112_panic",
    "Pixo.Props.JpegDecode32.C112_half",
    "Pixo.Props.JpegDecode32.C112_violation"
   ],
   "note": "C112_never_wrong, C112_same and C112_exact (which images are decoded, and that the others panic) hold for all files; the property as stated is false (C112_violation, C112_panic, C112_half): large images panic."
  },
  {
   "property": "C113",
   "status": "proved",
   "theorems": [
    "Pixo.Props.JpegWork.C113",
    "Pixo.Props.JpegWork.C113_pixels",
    "Pixo.Props.JpegWork.C113_bomb"
   ],
   "note": "The bound is for a model that counts steps (Model/JpegWork) and gives the same results. Not counted: the refill loops of the bit reader, each of whose rounds but the last of a call moves on by a byte, and the construction of tables from headers."
  },
  {
   "property": "C114",
   "status": "proved",
   "theorems": [
    "Pixo.Props.PngWork.C114",
    "Pixo.Props.PngWork.C114_slow",
    "Pixo.Props.PngWork.C114_paid"
   ],
   "note": "Steps are counted as said in Model/PngWork.lean; memory only reserved is the subject of C48, growth of vectors and the refilling of the bit reader are not counted. C114_paid: an image that is decoded took at least a step for each four of its bytes."
  },
  {
   "property": "C115",
   "status": "partial",
   "theorems": [
    "Pixo.Props.ResizeWork.C115_window",
    "Pixo.Props.ResizeWork.C115_partial",
    "Pixo.Props.ResizeWork.C115_violated"
   ],
   "note": "False for Lanczos: the image between the two passes has the old height and the new width, and is not bounded by the two images; a column of n pixels to a row of n takes at least n*n steps, so no constant below 2^23 is enough. C115_partial: nearest and bilinear take exactly two steps for each byte of the new image and one for each pixel, and Lanczos at most 206 for each byte of the old image, the new image and the one between; refused calls take none. C115_window bounds the weights of each new pixel with the roundings of f32."
  },
  {
   "property": "C116",
   "status": "partial",
   "theorems": [
    "Pixo.Props.SampleCap.C116_partial",
    "Pixo.Props.SampleCap.C116_violated"
   ],
   "note": "The caps are not kept: the stride is the number of pixels divided by the cap and rounded down, so an image of 2 * cap - 1 pixels has every pixel looked at (C116_violated: 99999 samples instead of 50000, 39999 instead of 20000). C116_partial: the samples are exactly the pixels 0, stride, 2 * stride, …; up to the cap all pixels, from there on at least the cap and less than twice the cap."
  },
  {
   "property": "C117",
   "status": "partial",
   "theorems": [
    "Pixo.Props.QuantizeWork.C117_partial",
    "Pixo.Props.QuantizeWork.C117_violated"
   ],
   "note": "False for small images: PaletteLut::new always computes 2^18 entries with a search of the palette for each, so two pixels take more than 2^19 steps (C117_violated; no constant up to 87381 for each byte). C117_partial: at most 2^27 steps and 257 for each pixel, for every image. Comparisons of sorts and of the binary search and clearing the rows of errors are not counted."
  },
  {
   "property": "C118",
   "status": "proved",
   "theorems": [
    "Pixo.Props.MedianCut.C118",
    "Pixo.Props.MedianCut.C118_cut"
   ],
   "note": "The entries need not be different after the k-means iterations."
  },
  {
   "property": "C119",
   "status": "proved",
   "theorems": [
    "Pixo.Props.Cuts.C119",
    "Pixo.Props.Cuts.C119_box"
   ],
   "note": ""
  },
  {
   "property": "C12",
   "status": "proved",
   "theorems": [
    "Pixo.Props.C12_filter_roundtrip",
    "Pixo.Props.C12_filter_format",
    "Pixo.Props.C12_unfilter"
   ],
   "note": "Every strategy, instruction set and thread schedule; rows of at least one pixel."
  },
  {
   "property": "C120",
   "status": "proved",
   "theorems": [
    "Pixo.Props.Means.C120",
    "Pixo.Props.Means.C120_range",
    "Pixo.Props.Means.C120_opaque",
    "Pixo.Props.Means.C120_grey"
   ],
   "note": ""
  },
  {
   "property": "C121",
   "status": "proved",
   "theorems": [
    "Pixo.Props.C121_range",
    "Pixo.Props.C121_opaque",
    "Pixo.Props.C121_grey",
    "Pixo.Props.C121_plain"
   ],
   "note": "The bound on the size is that of the other theorems about the encoder (C13)."
  },
  {
   "property": "C13",
   "status": "partial",
   "theorems": [
    "Pixo.Props.C13_lossless_iff",
    "Pixo.Props.C13_lossless_partial",
    "Pixo.Props.C13_alpha_partial",
    "Pixo.Props.C13_dim_violated"
   ],
   "note": "For every valid image with h*(1+4w)+2 < 2^30, every option combination without quantization and alpha optimisation: encode succeeds, decode_png reads it with the same size, and the pixels are the same exactly if the image is not an opaque gray image below 16 given as RGB/RGBA with colour type reduction and no palette (C13_lossless_iff). That exception violates the property (C13_dim_violated, 1x1 witness). Missing: the exception, and larger images."
  },
  {
   "property": "C14",
   "status": "partial",
   "theorems": [
    "Pixo.Props.C14_level",
    "Pixo.Props.C14_zero",
    "Pixo.Props.C14_large",
    "Pixo.Props.C14_length",
    "Pixo.Props.C14_ok_partial",
    "Pixo.Props.C14_threshold_overflow"
   ],
   "note": "Errors in the documented order with the buffer unchanged, for all inputs. On valid input with h*(1+4w)+2 < 2^30 encode_into succeeds and does not depend on the earlier buffer. Missing: larger images, where the property fails at 1431655766 pixels (C14_threshold_overflow: u32 overflow in the palette sort)."
  },
  {
   "property": "C15",
   "status": "proved",
   "theorems": [
    "Pixo.Props.C15_well_formed",
    "Pixo.Props.C15_every_success",
    "Pixo.Props.C15_scalar_checksum"
   ],
   "note": "Signature, IHDR with the given size, PLTE and tRNS for colour type 3 only, one or more IDAT, IEND and nothing else, each with length and CRC, and the IDAT data a zlib stream of the filtered scanlines. Images with h*(1+4w)+2 < 2^30."
  },
  {
   "property": "C16",
   "status": "proved",
   "theorems": [
    "Pixo.Props.C16_decoder_total"
   ],
   "note": "Every byte string; buffer size and dimension limits."
  },
  {
   "property": "C17",
   "status": "proved",
   "theorems": [
    "Pixo.Props.C17_inflate_total",
    "Pixo.Props.C17_inflate_zlib_total",
    "Pixo.Props.C17_output_bound",
    "Pixo.Props.C17_reader_in_bounds"
   ],
   "note": "Model in R with explicit panic and hang values; neither is reachable. Output bounded by 1032 times the input."
  },
  {
   "property": "C18",
   "status": "proved",
   "theorems": [
    "Pixo.Props.C18_inflate_correct",
    "Pixo.Props.C18_decoding_unique"
   ],
   "note": "RFC 1951 grammar as inductive relations in Verif/Spec/Rfc1951.lean."
  },
  {
   "property": "C19",
   "status": "partial",
   "theorems": [
    "Pixo.Props.C19_bitwriter",
    "Pixo.Props.C19_bitwriter64_partial",
    "Pixo.Props.C19_writers_agree_partial",
    "Pixo.Props.C19_bitwriter64_width32_panics",
    "Pixo.Props.C19_bitwriter64_width32_violation",
    "Pixo.Props.C19_bitwriter_msb"
   ],
   "note": "BitWriter64 violates the property at width 32 (witness proved); everything below width 32, and all widths for BitWriter and BitWriterMsb, is proved."
  },
  {
   "property": "C20",
   "status": "proved",
   "theorems": [
    "Pixo.Props.C20_lsb",
    "Pixo.Props.C20_msb"
   ],
   "note": "MSB widths up to the reader's limit of 25 bits."
  },
  {
   "property": "C21",
   "status": "proved",
   "theorems": [
    "Pixo.Props.C21_palette",
    "Pixo.Props.C13_lossless_iff"
   ],
   "note": "For RGB and RGBA images below 2^30 pixels, after all palette orderings: no repeated colour, at most 256, every index in range, palette[index] is the pixel; none is returned only for more than 256 colours."
  },
  {
   "property": "C22",
   "status": "proved",
   "theorems": [
    "Pixo.Props.C22_bounded",
    "Pixo.Props.C22_exact",
    "Pixo.Props.C22_encoder"
   ],
   "note": "For any float behaviour of dithering and any order of equal counts: 1..=max(1,m) entries, in-range indices for every pixel; exact below 100000 pixels with at most m colours. C22_encoder carries this through the whole encoder and decoder."
  },
  {
   "property": "C23",
   "status": "proved",
   "theorems": [
    "Pixo.Props.C23_alpha",
    "Pixo.Props.C23_off",
    "Pixo.Props.C13_alpha_partial"
   ],
   "note": "All images with an alpha channel; other colour types and the switched-off option are the identity."
  },
  {
   "property": "C24",
   "status": "proved",
   "theorems": [
    "Pixo.Props.C24_strip",
    "Pixo.Props.C24_strip_open",
    "Pixo.Props.C24_identity"
   ],
   "note": "All chunk sequences, with and without IEND; what follows IEND is kept. Identity on what the encoder writes."
  },
  {
   "property": "C25",
   "status": "partial",
   "theorems": [
    "Pixo.Props.C25_filter_partial",
    "Pixo.Props.C25_schedules",
    "Pixo.Props.C25_violation",
    "Pixo.Props.C25_resize",
    "Pixo.Props.C25_jpeg"
   ],
   "note": "Resizing and JPEG coefficients: proved for every schedule. Filtering: all strategies but AdaptiveFast are proved; AdaptiveFast depends on whether rows run in parallel (witness), but not on the schedule."
  },
  {
   "property": "C26",
   "status": "proved",
   "theorems": [
    "Pixo.Props.C26_deflater",
    "Pixo.Props.C26_pool",
    "Pixo.Props.C26_lz77",
    "Pixo.Props.C26_lz77_packed",
    "Pixo.Props.C26_png"
   ],
   "note": "All six methods of Deflater and all four functions over the static pool, any history with any arguments, equality also of failures. C26_png: the bytes of the PNG encoder do not depend on the state of the thread-local pool."
  },
  {
   "property": "C27",
   "status": "proved",
   "theorems": [
    "Pixo.Props.C27_errors",
    "Pixo.Props.C27_baseline",
    "Pixo.Props.C27_encode"
   ],
   "note": "All checks for every option value; accepted input never panics, baseline or progressive, with or without trellis quantization."
  },
  {
   "property": "C28",
   "status": "proved",
   "theorems": [
    "Pixo.Props.C28_markers",
    "Pixo.Props.C28_progressive"
   ],
   "note": "Baseline and progressive files, all images and options."
  },
  {
   "property": "C29",
   "status": "proved",
   "theorems": [
    "Pixo.Props.C29_lossless",
    "Pixo.Props.C29_scan"
   ],
   "note": "End to end for every valid image, with uniqueness: any T.81 reader gets exactly the quantized blocks. The range of the coefficients is proved from an exact binary32 model of the DCT."
  },
  {
   "property": "C30",
   "status": "partial",
   "theorems": [
    "Pixo.Props.C30_partial",
    "Pixo.Props.C30_mirror_partial",
    "Pixo.Props.C30_gray_partial",
    "Pixo.Props.C30_violation"
   ],
   "note": "Proved in every build for every baseline file without restart intervals the encoder writes: the decoder accepts it and shows, for each block T.81 finds in the file, the inverse transform of the dequantized coefficients at the block's place. C30_mirror_partial goes from the encoder's input to the decoder's output. Fails with restart intervals: C30_violation is a mid-gray image that comes back black."
  },
  {
   "property": "C31",
   "status": "partial",
   "theorems": [
    "Pixo.Props.C31_partial",
    "Pixo.Props.C31_midgray",
    "Pixo.Props.C31_achromatic",
    "Pixo.Props.C31_flat",
    "Pixo.Props.C31_gray",
    "Pixo.Props.C31_restart",
    "Pixo.Props.C31_subsampled",
    "Pixo.Props.C31_subsampled_order",
    "Pixo.Props.C31_tables",
    "Pixo.Props.C31_optimized_violated"
   ],
   "note": "The code violates the claim; proved: which files of RGB images without subsampling can be read, with the standard tables (no run of two ends of band) and with any tables, optimized ones and trellis quantization included (no run and all symbols of the bands have codes), and that they then say exactly the quantized coefficients; what symbols the tables have, and that a file whose bands need another one is not read right (witness: one 8x8 block with optimized tables); that no gray file, none with a restart interval shorter than a scan, and no 4:2:0 file with an odd number of blocks in a row or column can be read, whatever the tables; that runs (every image with gray pixels only, or with a chroma component without AC coefficients, of two blocks or more) and 4:2:0 (witness: black and white halves) give other coefficients. Not decided: files with runs in a chroma scan that also has AC coefficients, or in any scan with optimized tables."
  },
  {
   "property": "C32",
   "status": "partial",
   "theorems": [
    "Pixo.Props.C32_partial",
    "Pixo.Props.C32_even_partial",
    "Pixo.Props.C32_violation",
    "Pixo.Props.C32_inverse",
    "Pixo.Props.C32_mirror"
   ],
   "note": "Violated: the odd part is lost. Proved instead for every block with coefficients up to 4096: the result is within 3/5 + b/1100 of the exact IDCT of the even part (3/5 + b/6000 of the full IDCT for blocks with even frequencies only), and hence the mean of the block and its mirror images."
  },
  {
   "property": "C33",
   "status": "proved",
   "theorems": [
    "Pixo.Props.C33_tables",
    "Pixo.Props.C33_entries",
    "Pixo.Props.C33_monotone",
    "Pixo.Props.C33_ends",
    "Pixo.Props.C33_zigzag"
   ],
   "note": ""
  },
  {
   "property": "C34",
   "status": "proved",
   "theorems": [
    "Pixo.Props.C34_tables",
    "Pixo.Props.C29_lossless",
    "Pixo.Props.C29_scan"
   ],
   "note": "Symbols of the scan have codes: the scan is coded with the tables of the DHT segments."
  },
  {
   "property": "C35",
   "status": "proved",
   "theorems": [
    "Pixo.Props.C35_structure",
    "Pixo.Props.C29_lossless"
   ],
   "note": ""
  },
  {
   "property": "C36",
   "status": "partial",
   "theorems": [
    "Pixo.Props.C36_markers",
    "Pixo.Props.C36_partial",
    "Pixo.Props.C36_violation_family",
    "Pixo.Props.C36_violation",
    "Pixo.Props.C36_violation_checked",
    "Pixo.Props.C36_checked_partial"
   ],
   "note": "Violated: a scan before any frame header panics, and with overflow checks so does a DC category of 26 or more. C36_partial: without overflow checks every byte string gives an image of the declared size or an error unless a scan comes before any frame header. C36_checked_partial: overflow checks change nothing but may add panics."
  },
  {
   "property": "C37",
   "status": "partial",
   "theorems": [
    "Pixo.Props.C37_validation",
    "Pixo.Props.C37_size",
    "Pixo.Props.C37_accepted_partial",
    "Pixo.Props.C39_violation"
   ],
   "note": "Errors, their order and the untouched buffer are proved for all inputs, and the size of every result. That accepted inputs succeed is proved for nearest neighbour and Lanczos, and for bilinear up to 2^23 source pixels per side; beyond that the code can panic (C39_violation)."
  },
  {
   "property": "C38",
   "status": "partial",
   "theorems": [
    "Pixo.Props.C38_nearest",
    "Pixo.Props.C38_identity_bilinear",
    "Pixo.Props.C38_identity_nearest_partial",
    "Pixo.Props.C38_identity_violation",
    "Pixo.Props.C38_identity_lanczos_partial",
    "Pixo.Props.C38_identity_lanczos_violation"
   ],
   "note": "Nearest neighbour copies pixels and bilinear keeps the image, for all accepted sizes. Nearest keeps it up to 2^23 pixels per side and not always beyond (witness). Lanczos to the same size keeps it too (up to 2^23 per side, given an accurate sine), and not at 2^24 (witness)."
  },
  {
   "property": "C39",
   "status": "partial",
   "theorems": [
    "Pixo.Props.C39_partial",
    "Pixo.Props.C39_violation"
   ],
   "note": "No panic for sources up to 2^23 pixels per side; 2^24 pixels to 26 panics (proved)."
  },
  {
   "property": "C40",
   "status": "partial",
   "theorems": [
    "Pixo.Props.C40_match_length",
    "Pixo.Props.C40_match_length_agree",
    "Pixo.Props.C40_filters",
    "Pixo.Props.C40_filters_agree",
    "Pixo.Props.C40_filters_any_length",
    "Pixo.Props.C40_sub_violation",
    "Pixo.Props.C40_paeth_unused",
    "Pixo.Props.C40_score",
    "Pixo.Props.C40_apply_filters"
   ],
   "note": "All functions agree on rows of at least one pixel. On shorter rows the SSE2 filter_sub panics (witness)."
  },
  {
   "property": "C41",
   "status": "partial",
   "theorems": [
    "Pixo.Props.C41_short_partial",
    "Pixo.Props.C41_no_pclmul",
    "Pixo.Props.C41_unaligned_partial",
    "Pixo.Props.C41_violation"
   ],
   "note": "The code violates the property on CPUs with PCLMULQDQ for 64 aligned zero bytes; correct below 64 bytes after alignment."
  },
  {
   "property": "C42",
   "status": "proved",
   "theorems": [
    "Pixo.Props.C42_near",
    "Pixo.Props.C42_gray",
    "Pixo.Props.C42_fits"
   ],
   "note": ""
  },
  {
   "property": "C43",
   "status": "partial",
   "theorems": [
    "Pixo.Props.C43_color",
    "Pixo.Props.C43_color_rejected",
    "Pixo.Props.C43_wasm_rejected",
    "Pixo.Props.C43_jpeg_rejected",
    "Pixo.Props.C43_jpeg_accepted",
    "Pixo.Props.C43_bytes",
    "Pixo.Props.C43_algorithm",
    "Pixo.Props.C43_algorithm_rejected",
    "Pixo.Props.C43_resize",
    "Pixo.Props.C43_png_preset_partial",
    "Pixo.Props.C43_max_violated",
    "Pixo.Props.C43_jpeg_preset_partial",
    "Pixo.Props.C43_presets_violated",
    "Pixo.Props.C43_wasm_preset_violated"
   ],
   "note": "Colour type and algorithm codes: all of them. Presets: proved what each code gives; violated in that preset codes from 3 on are not rejected but taken for balanced, and in that PNG preset 2 uses Bigrams where the documentation says MinSum."
  },
  {
   "property": "C44",
   "status": "partial",
   "theorems": [
    "Pixo.Props.C44_indexed",
    "Pixo.Props.C44_refuses",
    "Pixo.Props.C44_zero_violated",
    "Pixo.Props.C44_zero_accepted"
   ],
   "note": "Every palette of 1 to 256 colours, every transparency list, every index: an in-range index shows its colour, any other shows opaque black. Refusals as documented. Missing: zero dimensions are accepted and give an unreadable file (C44_zero_violated); images with h*(1+4w)+2 >= 2^30."
  },
  {
   "property": "C45",
   "status": "proved",
   "theorems": [
    "Pixo.Props.C45_bits",
    "Pixo.Props.C45_row",
    "Pixo.Props.C45_round_trip"
   ],
   "note": "All sizes, depths 1, 2 and 4; zero padding of less than a byte."
  },
  {
   "property": "C46",
   "status": "partial",
   "theorems": [
    "Pixo.Props.C46_stdin",
    "Pixo.Props.C46_partial",
    "Pixo.Props.C46_no_cr_partial",
    "Pixo.Props.C46_maxval",
    "Pixo.Props.C46_cr_violated",
    "Pixo.Props.C46_maxval_violated",
    "Pixo.Props.C46_every_file",
    "Pixo.Props.C46_wrap_violated"
   ],
   "note": "Proved for comments that end with LF and maxval 255. Violated: comments ended by CR, any other maxval (always refused). Without checked arithmetic the size wraps (C46_wrap_violated). C46_every_file covers files that are not well-formed."
  },
  {
   "property": "C47",
   "status": "partial",
   "theorems": [
    "Pixo.Props.C47_decoder_correct_partial",
    "Pixo.Props.C47_no_key",
    "Pixo.Props.C47_violation"
   ],
   "note": "All non-interlaced files except those using a transparent colour, which the decoder ignores (witness)."
  },
  {
   "property": "C48",
   "status": "partial",
   "theorems": [
    "Pixo.Props.C48_reserve_partial",
    "Pixo.Props.C48_violation"
   ],
   "note": "Only the absolute bound 2^52 holds; no bound in terms of the input (witness)."
  },
  {
   "property": "C49",
   "status": "proved",
   "theorems": [
    "Pixo.Props.C49_zlib_checks"
   ],
   "note": ""
  },
  {
   "property": "C50",
   "status": "proved",
   "theorems": [
    "Pixo.Props.C50_coefficients"
   ],
   "note": "Baseline files. The colour conversion is C42; the bound is half a step, a 4096th of a step for the f32 division and a twentieth for the f32 transform."
  },
  {
   "property": "C51",
   "status": "proved",
   "theorems": [
    "Pixo.Props.C51_trellis"
   ],
   "note": "All blocks of samples and all tables. trellis_quantize is modelled with exact f32 arithmetic. Optimality of the path is not claimed: the code keeps only eight states."
  },
  {
   "property": "C52",
   "status": "proved",
   "theorems": [
    "Pixo.Props.C52_bilinear",
    "Pixo.Props.C52_between"
   ],
   "note": ""
  },
  {
   "property": "C53",
   "status": "partial",
   "theorems": [
    "Pixo.Props.C53_kernel_partial",
    "Pixo.Props.C53_violation"
   ],
   "note": "The kernel is three times the Lanczos kernel away from zero and one at zero, so a pixel at the exact centre gets a third of its weight (witness: a white pixel between two black ones shrinks to a dark one)."
  },
  {
   "property": "C54",
   "status": "proved",
   "theorems": [
    "Pixo.Props.C54_colour",
    "Pixo.Props.C54_neutral"
   ],
   "note": "All samples, all channels, against T.871 over the reals."
  },
  {
   "property": "C55",
   "status": "proved",
   "theorems": [
    "Pixo.Props.C55_wasm_png"
   ],
   "note": "For images within the bound of the PNG theorems; usize of 64 bits."
  },
  {
   "property": "C56",
   "status": "proved",
   "theorems": [
    "Pixo.Props.C56_png",
    "Pixo.Props.C56_png_to_png"
   ],
   "note": "For images within the bound of the PNG theorems; lossless encoding (the tool never quantizes)."
  },
  {
   "property": "C57",
   "status": "proved",
   "theorems": [
    "Pixo.Props.C57_luma",
    "Pixo.Props.C57_same_as_jpeg",
    "Pixo.Props.C57_grayscale",
    "Pixo.Props.C57_drop_alpha"
   ],
   "note": ""
  },
  {
   "property": "C58",
   "status": "partial",
   "theorems": [
    "Pixo.Props.C58_jpeg_partial",
    "Pixo.Props.C58_max_violated"
   ],
   "note": "Holds for every preset but max and without one. Violated with --preset max for gray output (and in the other ways of C31)."
  },
  {
   "property": "C59",
   "status": "partial",
   "theorems": [
    "Pixo.Props.C59_preset_partial",
    "Pixo.Props.C59_fast",
    "Pixo.Props.C59_violated"
   ],
   "note": "Holds for fast. Violated for balanced and max: the boolean switches always override the preset, and so does the subsampling."
  },
  {
   "property": "C60",
   "status": "partial",
   "theorems": [
    "Pixo.Props.C60_partial",
    "Pixo.Props.C60_violated"
   ],
   "note": "Violated: only the horizontal frequencies 0 and 4 are scaled up in the first pass, the others come out at a quarter of their value. Proved: frequencies 0 and 4 are within 16/25 + b/800 of the exact transform, the others within 33/20 + b/1600 of a quarter of it."
  },
  {
   "property": "C61",
   "status": "proved",
   "theorems": [
    "Pixo.Props.C61_same"
   ],
   "note": "Every block of i16, lane by lane against the scalar code."
  },
  {
   "property": "C62",
   "status": "proved",
   "theorems": [
    "Pixo.Props.C62_quantize",
    "Pixo.Props.C62_zero",
    "Pixo.Props.C62_transform"
   ],
   "note": "Rounding to nearest in every build, the panic on a zero entry, and that the transform stays in range."
  },
  {
   "property": "C63",
   "status": "partial",
   "theorems": [
    "Pixo.Props.C63_partial",
    "Pixo.Props.C63_violated"
   ],
   "note": "Violated: the safety note does not ask for room in the outputs, and whole vectors are stored past their ends. Proved: with room in the outputs the values are within 51/100 of T.871 and nothing else is written."
  },
  {
   "property": "C64",
   "status": "partial",
   "theorems": [
    "Pixo.Props.C64_partial",
    "Pixo.Props.C64_gray_violated",
    "Pixo.Props.C64_luma_violated",
    "Pixo.Props.C64_ratio_violated",
    "Pixo.Props.C30_violation"
   ],
   "note": "The code violates it: gray files with sampling factors other than 1 (C64_gray_violated), first component without the largest factors (C64_luma_violated), factors that do not divide those of the first (C64_ratio_violated), restart markers (C30_violation). C64_partial proves it for all other baseline files, in unchecked builds for all coefficients and in checked builds for dequantized coefficients up to 4096."
  },
  {
   "property": "C65",
   "status": "partial",
   "theorems": [
    "Pixo.Props.C65_fixed",
    "Pixo.Props.C65_dynamic",
    "Pixo.Props.C65_packed",
    "Pixo.Props.C65_fixed_legal",
    "Pixo.Props.C65_dynamic_legal",
    "Pixo.Props.C65_release",
    "Pixo.Props.C65_release_says",
    "Pixo.Props.C65_dynamic_release",
    "Pixo.Props.C65_dynamic_release_says",
    "Pixo.Props.C65_release_legal",
    "Pixo.Props.C65_release_violated",
    "Pixo.Props.C65_packed_violated"
   ],
   "note": "Proved in builds with debug assertions: legal tokens are written as they are with either kind of codes, packed or not, and the encoders panic exactly if a token is not legal. Violated in release builds: a distance of 0 or beyond 32768 is silently written as another distance (exact description in C65_release_says for fixed and C65_dynamic_release_says for dynamic codes). Violated for PackedToken::match_ in any build: a distance beyond 32768 makes the token a literal."
  },
  {
   "property": "C66",
   "status": "partial",
   "theorems": [
    "Pixo.Props.C66_dc_first_partial",
    "Pixo.Props.C66_dc_refine_partial",
    "Pixo.Props.C66_ac_first_partial",
    "Pixo.Props.C66_ac_refine_partial",
    "Pixo.Props.C66_scripts",
    "Pixo.Props.C66_script_used",
    "Pixo.Props.C66_dc_first_violated",
    "Pixo.Props.C66_dc_drift",
    "Pixo.Props.C66_dc_refine_violated",
    "Pixo.Props.C66_ac_first_violated",
    "Pixo.Props.C66_ac_refine_violated",
    "Pixo.Props.C66_ac_judged_violated"
   ],
   "note": "Violated by the code in all four kinds of scan. Standard tables, no joined ends of bands (C31). DC first, DC refinement and AC first scans are decided: the segment is right if and only if (respectively) the bits cut off never decrease from block to block, every coefficient is non-negative or divisible by 2^Al, the same for the band. AC refinement is right when no magnitude lies strictly between 2^Al and 2^(Al+1) and every correction bit is followed by a new coefficient within fewer than 16 zeros; outside that there are concrete violations, not a full characterisation. Both scripts are complete and legal."
  },
  {
   "property": "C67",
   "status": "partial",
   "theorems": [
    "Pixo.Props.C67_optimal_partial",
    "Pixo.Props.C67_tie_partial",
    "Pixo.Props.C67_limited_violated",
    "Pixo.Props.C67_limited7_violated",
    "Pixo.Props.C67_monotone_violated"
   ],
   "note": "Optimal among all prefix codes (Huffman's theorem) unless lengths have to be limited, for every order of equal heap elements. Where they do, the limiter is not optimal: the full statement is false, with witnesses at the exact bounds of the partial theorem."
  },
  {
   "property": "C68",
   "status": "partial",
   "theorems": [
    "Pixo.Props.C68_single_partial",
    "Pixo.Props.C68_always_beaten_violated",
    "Pixo.Props.C68_full_violated",
    "Pixo.Props.C68_waste",
    "Pixo.Props.C68_image_violated",
    "Pixo.Props.C68_longer_than_standard_violated"
   ],
   "note": "The full statement is false for all statistics with two or more symbols: every word is one bit longer than in a Huffman code. It holds for a single symbol. A block whose scan gets longer by optimizing is given."
  },
  {
   "property": "C69",
   "status": "partial",
   "theorems": [
    "Pixo.Props.C69_fixed",
    "Pixo.Props.C69_bigrams",
    "Pixo.Props.C69_minsum_partial",
    "Pixo.Props.C69_adaptive_partial",
    "Pixo.Props.C69_small",
    "Pixo.Props.C69_fast_parallel",
    "Pixo.Props.C69_fast_sticks_violated",
    "Pixo.Props.C69_near",
    "Pixo.Props.C69_minsum_violated",
    "Pixo.Props.C69_fast_violated",
    "Pixo.Props.C69_small_violated"
   ],
   "note": "The exact rule of every strategy is proved. The documented one holds for the fixed strategies, for Bigrams above 4096 pixels and for AdaptiveFast in the parallel path; it fails for MinSum and Adaptive (early stop), for AdaptiveFast in the sequential path (the first row decides for all) and for small images (always Sub)."
  },
  {
   "property": "C70",
   "status": "partial",
   "theorems": [
    "Pixo.Props.C70_search_partial",
    "Pixo.Props.C70_optimal_partial",
    "Pixo.Props.C70_fixed_partial",
    "Pixo.Props.C70_fails_hash",
    "Pixo.Props.C70_fails_distance",
    "Pixo.Props.C70_not"
   ],
   "note": "Holds among the sequences whose matches the search reports (no hypotheses). Holds among all sequences when hashes of three bytes do not clash, chains are not longer than the level follows and longer distances do not cost less; for the fixed model below 2^19 bytes this is stated in bits of the fixed code. Violated by 'abclstabc' (hash clash) and, with statistics as cost model, because only the shortest distance per length is tried. Prices of other models are sums in f32 as the code computes them."
  },
  {
   "property": "C71",
   "status": "partial",
   "theorems": [
    "Pixo.Props.C71_search_partial",
    "Pixo.Props.C71_sound_partial",
    "Pixo.Props.C71_fails_hash",
    "Pixo.Props.C71_fails_chain",
    "Pixo.Props.C71_not"
   ],
   "note": "Proved for positions without hash clash and with short chains, up to 2^31 bytes. Violated when another triple with the same hash hides the match, and when the chain is longer than the level follows."
  },
  {
   "property": "C72",
   "status": "proved",
   "theorems": [
    "Pixo.Props.C72_cache"
   ],
   "note": "The cache must be made for the length of the data, as both callers do; with a smaller one matches are lost."
  },
  {
   "property": "C73",
   "status": "partial",
   "theorems": [
    "Pixo.Props.C73_greedy_partial",
    "Pixo.Props.C73_iterations_partial",
    "Pixo.Props.C73_fails",
    "Pixo.Props.C73_fails_split",
    "Pixo.Props.C73_not"
   ],
   "note": "Proved for deflate_optimal against the greedy tokens with dynamic codes and against fewer iterations. Violated against deflate at level 9 (one byte: 13 bytes instead of 3), and for deflate_optimal_split, which keeps the last tokens instead of the best."
  },
  {
   "property": "C74",
   "status": "partial",
   "theorems": [
    "Pixo.Props.C74_reduced_partial",
    "Pixo.Props.C74_exact_partial",
    "Pixo.Props.C74_slack_partial",
    "Pixo.Props.C74_fails"
   ],
   "note": "Violated: opaque colours are looked up with six bits per channel, so that a pixel whose colour is in the palette can be shown in another (black, (3,3,3), (3,3,4) with two entries). Proved: the entry is the first nearest to the reduced colour; the nearest for pixels that are not opaque or have six bits only; at most 28546 further (of at most 650250) in any case."
  },
  {
   "property": "C75",
   "status": "proved",
   "theorems": [
    "Pixo.Props.C75_dither",
    "Pixo.Props.C75_allowed"
   ],
   "note": "The f32 operations are modelled with rounding and proved exact. C75_allowed: the result is one of those the open model of C22 and of the encoder allows, so that everything proved for any float behaviour applies."
  },
  {
   "property": "C76",
   "status": "partial",
   "theorems": [
    "Pixo.Props.C76_sum_partial",
    "Pixo.Props.C76_code_partial",
    "Pixo.Props.C76_fails"
   ],
   "note": "Violated: the fraction is cut off before the error is computed, and limiting to 0..255 drops the rest. Proved: the exact balance, with a loss between 0 and 15/16 per pixel where nothing is limited (so dithered images get darker)."
  },
  {
   "property": "C77",
   "status": "proved",
   "theorems": [
    "Pixo.Props.C77_splits"
   ],
   "note": "Costs are computed in binary64, modelled bit for bit (Model/F64); the logarithm is any function with values between 0 and 32. Rounding is bounded by (tokens + 632) / 8192 bits."
  },
  {
   "property": "C78",
   "status": "partial",
   "theorems": [
    "Pixo.Props.C78_check_partial",
    "Pixo.Props.C78_never",
    "Pixo.Props.C78_fails",
    "Pixo.Props.C78_zlib_partial"
   ],
   "note": "Violated: the table has 4096 places for up to 8189 windows, so that nothing of 4315 bytes or more is ever found to be incompressible. Proved: exactly what is computed, including the f32 comparison, for all data of at least 4096 bytes, and that deflate_zlib always runs LZ77 from 4315 bytes on."
  },
  {
   "property": "C79",
   "status": "partial",
   "theorems": [
    "Pixo.Props.C79_minimal_partial",
    "Pixo.Props.C79_fails",
    "Pixo.Props.MinimalBody.le"
   ],
   "note": "Violated where code lengths have to be limited: 2583 literals with Fibonacci counts take 7355 bits, 6762 suffice. Proved: minimal among all prefix codes for up to 2582 tokens or up to 16 symbols of either kind, so that no other block with the same tokens has a shorter body; header bound for all."
  },
  {
   "property": "C80",
   "status": "partial",
   "theorems": [
    "Pixo.Props.C80_choice_partial",
    "Pixo.Props.C80_bound_partial",
    "Pixo.Props.C80_fails"
   ],
   "note": "Violated: both thresholds are 128, so that the comparison is never reached; twenty equal literals take 24 bytes instead of 16, and 129 literals of 44 kinds take 132 instead of 131. Proved: what is returned in each case, and that at most 286 bytes are lost against fixed codes in moderate blocks."
  },
  {
   "property": "C81",
   "status": "partial",
   "theorems": [
    "Pixo.Props.C81_choice",
    "Pixo.Props.C81_minimal_partial",
    "Pixo.Props.C81_gray_fails",
    "Pixo.Props.C81_key_fails"
   ],
   "note": "Proved for RGB and RGBA input: the chosen format has the fewest bits per pixel among all formats without colour keys that can store the image; the choice is characterised exactly for all inputs. Violated for gray input (always 8 bits, although the code speaks of bit-depth reduction), and when colour-key transparency counts (32 instead of 24 bits)."
  },
  {
   "property": "C82",
   "status": "partial",
   "theorems": [
    "Pixo.Props.C82_search_partial",
    "Pixo.Props.C82_few_partial",
    "Pixo.Props.C82_seven_partial",
    "Pixo.Props.C82_plain_fails",
    "Pixo.Props.C82_values_fails",
    "Pixo.Props.C82_eight_fails",
    "Pixo.Props.C82_full_fails"
   ],
   "note": "Full statement C82_full, refuted. Proved, for every weight of the error: the path returned costs exactly what its final state says and is cheapest among all considered paths that are not at some position outnumbered by eight other beginnings ending differently at no higher cost; hence cheapest among everything considered when at most five AC coefficients are nonzero, or at most seven none of which is larger than its step. For any seven it is cheapest in real numbers up to a rounding share of 2^-11; eight are too many (C82_eight_fails)."
  },
  {
   "property": "C83",
   "status": "proved",
   "theorems": [
    "Pixo.Props.C83_compress",
    "Pixo.Props.C83_consecutive",
    "Pixo.Props.C83_longest_fails"
   ],
   "note": "C83_compress: tokens denote the data, no match can be stretched, no far three byte matches. C83_longest_fails shows that the stronger reading (no other distance gives a longer match) is false at level 1: four bytes found where eight were available."
  },
  {
   "property": "C84",
   "status": "partial",
   "theorems": [
    "Pixo.Props.C84_full",
    "Pixo.Props.C84_partial",
    "Pixo.Props.C84_exclusive",
    "Pixo.Props.C84_exact",
    "Pixo.Props.C84_fails",
    "Pixo.Props.C84_full_fails"
   ],
   "note": "Violated: from_lengths does not check that a code is not over-subscribed, and HLIT is not limited, so that streams every other decoder refuses are decoded (three witnesses, one for each kind of code and one for the count). Proved: these are the only faults that go unnoticed; apart from them inflate decodes exactly the RFC 1951 streams (C84_exact), and a stream with such a header is never an RFC 1951 stream."
  },
  {
   "property": "C85",
   "status": "partial",
   "theorems": [
    "Pixo.Props.C85_partial",
    "Pixo.Props.C85_exact",
    "Pixo.Props.C85_complete",
    "Pixo.Props.C85_unique",
    "Pixo.Props.C85_fails",
    "Pixo.Props.C85_full_fails"
   ],
   "note": "Exact characterisation in both directions: what is decoded is a sequence of chunks with right checksums up to IEND, of which the last IHDR, PLTE and tRNS and all IDAT count, and the result is the picture they make. Missing (and violated, with a witness for each): order and number of chunks, unknown critical chunks, IEND with data, interrupted IDAT, palettes where none belongs, window size, indices beyond the palette."
  },
  {
   "property": "C86",
   "status": "partial",
   "theorems": [
    "Pixo.Props.C86_partial",
    "Pixo.Props.C86_inverse",
    "Pixo.Props.C86_violated",
    "Pixo.Props.C86_full_fails"
   ],
   "note": "Violated: cos_approx cuts the Taylor series off after x^8 but uses it up to pi, where it is off by 0.013 (at 15/16 pi); a sample comes back 4.5 levels darker. Proved for all blocks: less than 5 levels (the tolerance of the crate's own test), a bound for each place, and the first sample always rounds back; for any coefficients up to 1500 the distance from the exact inverse DCT."
  },
  {
   "property": "C87",
   "status": "partial",
   "theorems": [
    "Pixo.Props.C87_sampled_partial",
    "Pixo.Props.C87_small_partial",
    "Pixo.Props.C87_few_partial",
    "Pixo.Props.C87_gray",
    "Pixo.Props.C87_missed_violated",
    "Pixo.Props.C87_photo_violated",
    "Pixo.Props.C87_full_fails"
   ],
   "note": "Proved for images of less than 40000 pixels; for images of any size with at most max_colors colours (never quantized); and exactly for all, counting the colours of every floor(n/20000)-th pixel. Violated from 40000 pixels on, since only every second pixel is looked at: C87_missed_violated, C87_photo_violated."
  },
  {
   "property": "C88",
   "status": "proved",
   "theorems": [
    "Pixo.Props.C88_size",
    "Pixo.Props.C88_round",
    "Pixo.Props.C88_indexed"
   ],
   "note": "For images with height*(1+4*width)+2 < 2^30."
  },
  {
   "property": "C89",
   "status": "proved",
   "theorems": [
    "Pixo.Props.C89_size",
    "Pixo.Props.C89_restarts"
   ],
   "note": "Follows from the coding of the scan as T.81 prescribes and lengths of the code words; progressive files are not covered."
  },
  {
   "property": "C90",
   "status": "proved",
   "theorems": [
    "Pixo.Props.C90_bitwriter",
    "Pixo.Props.C90_bitwriter64",
    "Pixo.Props.C90_write_bit",
    "Pixo.Props.C90_bitwriter_msb",
    "Pixo.Props.C90_bitreader"
   ],
   "note": "Width 32 of BitWriter64 is excluded because the call panics (C19)."
  },
  {
   "property": "C91",
   "status": "partial",
   "theorems": [
    "Pixo.Props.C91_partial",
    "Pixo.Props.C91_not_escaped",
    "Pixo.Props.C91_said_otherwise",
    "Pixo.Props.C91_printed",
    "Pixo.Props.C91_not_quiet",
    "Pixo.Props.C91_stdin"
   ],
   "note": "Proved for names without quotation marks, reverse solidi and control characters. Violated otherwise: names are not escaped (C91_not_escaped, C91_said_otherwise); --quiet does not suppress the reports of --json and --verbose (C91_not_quiet); the size of an image from standard input overflows from 4 GiB (C91_stdin)."
  },
  {
   "property": "C92",
   "status": "proved",
   "theorems": [
    "Pixo.Props.C92_sizes",
    "Pixo.Props.C92_default",
    "Pixo.Props.C92_default_plain",
    "Pixo.Props.C92_input_kept",
    "Pixo.Props.C92_overwritten",
    "Pixo.Props.C92_format",
    "Pixo.Props.C92_extension"
   ],
   "note": "Also shown: inputs that differ in the extension only share the default output, and unknown extensions and missing options mean JPEG."
  },
  {
   "property": "C93",
   "status": "proved",
   "theorems": [
    "Pixo.Props.C93_blocks",
    "Pixo.Props.C93_samples",
    "Pixo.Props.C93_every",
    "Pixo.Props.C93_gray",
    "Pixo.Props.C93_colour",
    "Pixo.Props.C93_best"
   ],
   "note": "Baseline files; for a decoder with the exact inverse transform. From C50 by orthogonality of the DCT (Parseval)."
  },
  {
   "property": "C94",
   "status": "partial",
   "theorems": [
    "Pixo.Props.C94_partial",
    "Pixo.Props.C94_checked",
    "Pixo.Props.C94_any_scan",
    "Pixo.Props.C94_cut",
    "Pixo.Props.C94_cut_not_baseline",
    "Pixo.Props.C94_violation"
   ],
   "note": "The exact condition for being accepted in builds without overflow checks, in both directions, against a grammar of what is legible up to the scan header; what is accepted is accepted with every other scan in place of its own, with the same size; a file cut off after the scan header gives an image (black if gray) and is no baseline file. Missing: the property fails."
  },
  {
   "property": "C95",
   "status": "partial",
   "theorems": [
    "Pixo.Props.C95_partial",
    "Pixo.Props.C95_violation"
   ],
   "note": "For baseline files (T.81) at most 256 bytes of gray pixels for each byte of the file and at most 3072 of colour; for every file at most 3 * 65535^2. Missing: files which are no baseline files, for which there is no bound in terms of the file (2^27 bytes for each byte of the witness)."
  },
  {
   "property": "C96",
   "status": "partial",
   "theorems": [
    "Pixo.Props.C96_partial"
   ],
   "note": "Proved for sources of at most 2^16 pixels per side shrunk at most 256 times; a pixel in the very middle of a new one may have a third of its weight, as the kernel has it (C53_violation). Beyond these sizes the sum of the weights can vanish (C97_violation)."
  },
  {
   "property": "C97",
   "status": "partial",
   "theorems": [
    "Pixo.Props.C97_partial",
    "Pixo.Props.C97_violation"
   ],
   "note": "Proved for nearest neighbour at all sizes, for bilinear up to 2^23 pixels per side (it can panic beyond, C39_violation) and for Lanczos up to 2^16 per side shrunk at most 256 times, given an accurate sine. A row of 2^24 pixels keeps its width but loses its last pixel (C97_violation)."
  },
  {
   "property": "C98",
   "status": "partial",
   "theorems": [
    "Pixo.Props.C98_partial",
    "Pixo.Props.C98_minsum_violated",
    "Pixo.Props.C98_parallel_violated",
    "Pixo.Props.C98_violation",
    "Pixo.Props.C98_output"
   ],
   "note": "In the sequential path, for every strategy but MinSum, the printed counts are the numbers of rows with each filter type and the bytes are those of applyFilters (C98_partial, C98_output). The code violates the rest: under MinSum the last bytes of the rows are counted (C98_minsum_violated, witness in C98_violation), the parallel path prints nothing (C98_parallel_violated)."
  },
  {
   "property": "C99",
   "status": "partial",
   "theorems": [
    "Pixo.Props.Memory.C99_full",
    "Pixo.Props.Memory.C99_partial",
    "Pixo.Props.Memory.C99_same",
    "Pixo.Props.Memory.C99_sound",
    "Pixo.Props.Memory.C99_up",
    "Pixo.Props.Memory.C99_average",
    "Pixo.Props.Memory.C99_paeth",
    "Pixo.Props.Memory.C99_match",
    "Pixo.Props.Memory.C99_calls",
    "Pixo.Props.Memory.C99_violation"
   ],
   "note": "False in full: the safe functions filter_up, filter_average, filter_paeth (ARM) and match_length read behind their slices for short arguments (C99_violation); for each of the four exactly when is described, on every kind of processor. Proved: never for filter_sub, score_filter, adler32 and crc32, and never for previous rows as long as the row and positions inside the data, as the encoder passes; the model with loads outside told apart equals the model of the filters and of match_length used elsewhere (C99_same)."
  }
 ]
}
