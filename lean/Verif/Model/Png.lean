import Verif.Model.Crc32
import Verif.Model.Deflate
import Verif.Model.Filter
import Verif.Model.Quantize
/-
Model of the PNG encoder: src/png/chunk.rs and src/png/mod.rs:1-836, 1764-1944 (the rest of
mod.rs is in Palette.lean and Quantize.lean). `verbose_filter_log` only prints and is left out, as
are the capacity reservations, which do not affect the bytes.

The static pool of deflaters (src/compress/deflate.rs) is passed through.
-/
namespace Pixo.Png
open Pixo.Palette (Rgba)
open Pixo.PngDecode (chunksExact highBytes)
open Pixo.Filter (Strategy)
open Pixo.MatchLength (slice)

/-- `QuantizationMode` (src/png/mod.rs:71-79). -/
inductive Mode where
  | off | auto | force
  deriving DecidableEq

/-- `QuantizationOptions` (src/png/mod.rs:82-90). -/
structure Quantization where
  mode : Mode
  maxColors : Nat
  dithering : Bool
  deriving DecidableEq

/-- `QuantizationOptions::default` (src/png/mod.rs:92-100). -/
def Quantization.default : Quantization := ⟨.off, 256, false⟩

/-- `PngOptions` (src/png/mod.rs:41-68). -/
structure Options where
  width : Nat
  height : Nat
  colorType : ColorType
  level : Nat
  strategy : Strategy
  optimizeAlpha : Bool
  reduceColorType : Bool
  stripMetadata : Bool
  reducePalette : Bool
  optimal : Bool
  quantization : Quantization
  deriving DecidableEq

/-- `PngOptions::fast` (src/png/mod.rs:129-144); `default` (102-122) has the same fields with
dimensions 0. -/
def Options.fast (width height : Nat) : Options :=
  ⟨width, height, .rgba, 2, .adaptiveFast, false, false, false, false, false, .default⟩

/-- `PngOptions::balanced` (src/png/mod.rs:150-165). -/
def Options.balanced (width height : Nat) : Options :=
  ⟨width, height, .rgba, 6, .adaptive, true, true, true, true, false, .default⟩

/-- `PngOptions::max` (src/png/mod.rs:173-188). -/
def Options.max (width height : Nat) : Options :=
  ⟨width, height, .rgba, 9, .bigrams, true, true, true, true, true, .default⟩

/-- `PngOptions::from_preset` (src/png/mod.rs:192-198). -/
def Options.fromPreset (width height preset : Nat) : Options :=
  match preset with
  | 0 => .fast width height
  | 2 => .max width height
  | _ => .balanced width height

/-- `PngOptions::from_preset_with_lossless` (src/png/mod.rs:204-214). -/
def Options.fromPresetWithLossless (width height preset : Nat) (lossless : Bool) : Options :=
  let o := Options.fromPreset width height preset
  if lossless then o else { o with quantization := ⟨.auto, 256, true⟩ }

/-- What the model leaves open: estimates, instruction set (`deflate`), thread schedule of the
filters, and the choices of the quantizer. -/
structure Env where
  deflate : Deflate.Env
  sched : Filter.Schedule
  quantize : Quantize.Env

/-! ### Chunks -/

/-- `u32::to_be_bytes`. -/
def be32 (n : Nat) : List UInt8 :=
  [UInt8.ofNat (n >>> 24), UInt8.ofNat (n >>> 16), UInt8.ofNat (n >>> 8), UInt8.ofNat n]

/-- `write_chunk` (src/png/chunk.rs:10-31). -/
def writeChunk (output ty data : List UInt8) : List UInt8 :=
  let crc := Crc.finalize (Crc.update (Crc.update Crc.new ty) data)
  output ++ be32 data.length ++ ty ++ data ++ be32 crc.toNat

/-- `PNG_SIGNATURE` (src/png/mod.rs:18). -/
def signature : List UInt8 := [0x89, 0x50, 0x4E, 0x47, 0x0D, 0x0A, 0x1A, 0x0A]

/-- `MAX_DIMENSION` (src/png/mod.rs:21). -/
def maxDimension : Nat := 2 ^ 24

/-- The chunk names used, as byte strings. -/
def nIHDR : List UInt8 := [73, 72, 68, 82]
def nPLTE : List UInt8 := [80, 76, 84, 69]
def nTRNS : List UInt8 := [116, 82, 78, 83]
def nIDAT : List UInt8 := [73, 68, 65, 84]
def nIEND : List UInt8 := [73, 69, 78, 68]
def nTEXT : List UInt8 := [116, 69, 88, 116]
def nZTXT : List UInt8 := [122, 84, 88, 116]
def nITXT : List UInt8 := [105, 84, 88, 116]
def nTIME : List UInt8 := [116, 73, 77, 69]

/-- `write_ihdr` (src/png/mod.rs:592-617). -/
def writeIhdr (output : List UInt8) (width height depth : Nat) (colour : UInt8) : List UInt8 :=
  writeChunk output nIHDR (be32 width ++ be32 height ++ [UInt8.ofNat depth, colour, 0, 0, 0])

/-- `chunks(n)`: pieces of `n` bytes, the last possibly shorter. -/
def pieces (n : Nat) (l : List UInt8) : List (List UInt8) :=
  (List.range ((l.length + n - 1) / n)).map fun i => (l.drop (i * n)).take n

/-- `write_idat_chunks` (src/png/mod.rs:619-626). -/
def writeIdat (output compressed : List UInt8) : List UInt8 :=
  (pieces (256 * 1024) compressed).foldl (fun out piece => writeChunk out nIDAT piece) output

/-- `write_iend` (src/png/mod.rs:628-630). -/
def writeIend (output : List UInt8) : List UInt8 := writeChunk output nIEND []

/-! ### Alpha optimisation -/

/-- One pixel whose alpha is at place `ai` (src/png/mod.rs:651-656, 661-664). -/
def clearPixel (ai : Nat) (px : List UInt8) : R (List UInt8) := do
  let a ← getChecked px ai
  if a = 0 then (List.range ai).foldlM (fun px i => setChecked px i 0) px else return px

/-- `chunks_exact_mut(n)` with a body that rewrites each chunk; the remainder stays. -/
def mapChunks (n : Nat) (f : List UInt8 → R (List UInt8)) (data : List UInt8) : R (List UInt8) := do
  let parts ← (chunksExact n data).mapM f
  return parts.flatten ++ data.drop (data.length / n * n)

/-- `maybe_optimize_alpha` (src/png/mod.rs:633-671). -/
def optimizeAlpha (data : List UInt8) (ct : ColorType) (on : Bool) : R (List UInt8) :=
  if on then
    match ct with
    | .rgba => mapChunks 4 (clearPixel 3) data
    | .grayAlpha => mapChunks 2 (clearPixel 1) data
    | _ => .ok data
  else .ok data

/-! ### Colour type reduction -/

/-- `ReducedImage` (src/png/mod.rs:673-680). -/
structure Reduced where
  data : List UInt8
  effective : ColorType
  colour : UInt8
  depth : Nat
  bpp : Nat
  palette : Option (List Rgba)

/-- `chunk[0] == chunk[1] && chunk[1] == chunk[2]` (src/png/mod.rs:1124, 1139). -/
def isGray (c : List UInt8) : R Bool := do
  let r ← getChecked c 0
  let g ← getChecked c 1
  let b ← getChecked c 2
  return r = g && g = b

/-- The loop of `all_gray_rgb` (src/png/mod.rs:1123-1127). -/
def grayLoop : List (List UInt8) → R Bool
  | [] => .ok true
  | c :: cs => do
    let g ← isGray c
    if g then grayLoop cs else return false

/-- `all_gray_rgb` (src/png/mod.rs:1122-1129). -/
def allGrayRgb (data : List UInt8) : R Bool := grayLoop (chunksExact 3 data)

/-- The loop of `analyze_rgba` (src/png/mod.rs:1134-1145). -/
def analyzeLoop : List (List UInt8) → Bool → Bool → R (Bool × Bool)
  | [], opaque', gray => .ok (opaque', gray)
  | c :: cs, opaque', gray => do
    let a ← getChecked c 3
    let g ← isGray c
    if !(opaque' && a = 255) && !(gray && g) then return (false, false)
    else analyzeLoop cs (opaque' && a = 255) (gray && g)

/-- `analyze_rgba` (src/png/mod.rs:1131-1147). -/
def analyzeRgba (data : List UInt8) : R (Bool × Bool) := analyzeLoop (chunksExact 4 data) true true

/-- The image as it is (src/png/mod.rs:691-699, 724-731, 757-764, 789-825, 827-834). -/
def asIs (data : List UInt8) (ct : ColorType) : Reduced :=
  ⟨data, ct, ct.pngColorType, 8, ct.bytesPerPixel, none⟩

/-- The packing of samples below 8 bits (src/png/mod.rs:708-712, 745-749, 778-782). -/
def packSamples (samples : List UInt8) (width depth : Nat) : R (List UInt8) :=
  if depth < 8 then BitDepth.packRows samples width depth else .ok samples

/-- The gray image with values `gray` (src/png/mod.rs:741-755, 774-788). -/
def grayImage (gray : List UInt8) (width : Nat) : R Reduced := do
  let depth := (BitDepth.reduceBitDepth gray .gray).getD 8
  let packed ← packSamples gray width depth
  return ⟨packed, .gray, ColorType.gray.pngColorType, depth, max (PngDecode.ceil8 depth) 1, none⟩

/-- The indexed image (src/png/mod.rs:705-719). -/
def indexedImage (indexed : List UInt8) (palette : List Rgba) (width : Nat) : R Reduced := do
  let depth := BitDepth.paletteBitDepth palette.length
  let packed ← packSamples indexed width depth
  return ⟨packed, .rgb, 3, depth, max (PngDecode.ceil8 depth) 1, some palette⟩

/-- The RGB arm (src/png/mod.rs:735-766). -/
def reduceRgb (data : List UInt8) (width : Nat) : R Reduced := do
  let g ← allGrayRgb data
  if g then do
    let gray ← highBytes 3 [0] data
    grayImage gray width
  else return asIs data .rgb

/-- The RGBA arm (src/png/mod.rs:767-826). -/
def reduceRgba (data : List UInt8) (width : Nat) : R Reduced := do
  let (o, g) ← analyzeRgba data
  if o && g then do
    let gray ← highBytes 4 [0] data
    grayImage gray width
  else if o then do
    let rgb ← highBytes 4 [0, 1, 2] data
    return asIs rgb .rgb
  else if g then do
    let ga ← highBytes 4 [0, 3] data
    return asIs ga .grayAlpha
  else return asIs data .rgba

/-- The steps after the palette (src/png/mod.rs:723-835). -/
def reduceType (data : List UInt8) (width : Nat) (ct : ColorType) (o : Options) : R Reduced :=
  if o.reduceColorType then
    match ct with
    | .rgb => reduceRgb data width
    | .rgba => reduceRgba data width
    | ct => .ok (asIs data ct)
  else .ok (asIs data ct)

/-- `maybe_reduce_color_type` (src/png/mod.rs:683-836). -/
def reduce (data : List UInt8) (width height : Nat) (ct : ColorType) (o : Options) : R Reduced :=
  if ct = .gray ∧ o.reduceColorType then .ok (asIs data .gray)
  else if o.reducePalette then do
    match ← Palette.buildPalette data ct width height with
    | some (indexed, palette) => indexedImage indexed palette width
    | none => reduceType data width ct o
  else reduceType data width ct o

/-! ### Metadata stripping -/

/-- The loop of `strip_metadata_chunks` (src/png/mod.rs:1912-1939): what is kept from `cursor`
on. -/
def stripLoop (output : List UInt8) : Nat → Nat → R (List UInt8)
  | 0, _ => .error .hang
  | fuel + 1, cursor =>
    if cursor + 8 ≤ output.length then do
      let len ← PngDecode.readBe32 output cursor
      let ty ← slice output (cursor + 4) 4
      let stop := cursor + 8 + len + 4
      if stop > output.length then return []
      else do
        let whole ← slice output cursor (stop - cursor)
        let t ← getChecked ty 0
        let strip := (t &&& 0x20 != 0) && (ty = nTEXT || ty = nZTXT || ty = nITXT || ty = nTIME)
        let kept := if strip then [] else whole
        if ty = nIEND then return kept
        else do
          let rest ← stripLoop output fuel stop
          return kept ++ rest
    else .ok []

/-- `strip_metadata_chunks` (src/png/mod.rs:1906-1943); every round moves on by at least 12 bytes. -/
def stripMetadata (output : List UInt8) : R (List UInt8) := do
  let head ← slice output 0 8
  let rest ← stripLoop output (output.length + 1) 8
  return head ++ rest

/-! ### Encoding -/

/-- `checked_expected_len` (src/png/mod.rs:396-410). -/
def expectedLen (width height bpp actual : Nat) : R Nat :=
  if width * height < 2 ^ 64 ∧ width * height * bpp < 2 ^ 64 then .ok (width * height * bpp)
  else .error (.dataLength (2 ^ 64 - 1) actual)

/-- The comparison with the given length (src/png/mod.rs:461-467, 1839-1845). -/
def checkLen (width height bpp actual : Nat) : R Unit := do
  let expected ← expectedLen width height bpp actual
  if actual ≠ expected then .error (.dataLength expected actual) else return ()

/-- The compression step (src/png/mod.rs:571-576, 1877-1881); `deflate_optimal_zlib` does not use
the pool. -/
def compress (env : Env) (pool : Deflate.Pool) (filtered : List UInt8) (o : Options) :
    R (List UInt8 × Deflate.Pool) :=
  if o.optimal then do
    let out ← Deflate.deflateOptimalZlib env.deflate (Simd.adler32 env.deflate.level) filtered 5
    return (out, pool)
  else Deflate.deflateZlibPacked env.deflate (Simd.adler32 env.deflate.level) pool filtered o.level

/-- The strategy for indexed data (src/png/mod.rs:1866-1874). -/
def indexedStrategy (s : Strategy) : Strategy :=
  match s with
  | .adaptive => .none
  | .adaptiveFast => .none
  | .minSum => .none
  | .bigrams => .none
  | s => s

/-- `output.clear()`. -/
def clear (output : List UInt8) : List UInt8 := output.take 0

/-- The checks of `encode_indexed_into` (src/png/mod.rs:1823-1845). -/
def checkIndexed (data : List UInt8) (width height : Nat) (palette : List (UInt8 × UInt8 × UInt8))
    (transparency : Option (List UInt8)) : R Unit :=
  if palette.length = 0 ∨ palette.length > 256 then .error .compression
  else if (transparency.getD []).length > palette.length then .error .compression
  else checkLen width height 1 data.length

/-- The PLTE bytes of a palette. -/
def plteBytes (palette : List (UInt8 × UInt8 × UInt8)) : List UInt8 :=
  palette.flatMap fun c => [c.1, c.2.1, c.2.2]

/-- `if let Some(alpha) = transparency { write_chunk(..) }`. -/
def writeTrns (output : List UInt8) (transparency : Option (List UInt8)) : List UInt8 :=
  match transparency with
  | some alpha => writeChunk output nTRNS alpha
  | none => output

/-- The writing part of `encode_indexed_into` (src/png/mod.rs:1847-1885). -/
def writeIndexed (env : Env) (pool : Deflate.Pool) (output data : List UInt8) (width height : Nat)
    (palette : List (UInt8 × UInt8 × UInt8)) (transparency : Option (List UInt8)) (o : Options) :
    R (List UInt8 × Deflate.Pool) := do
  let output := clear output ++ signature
  let output := writeIhdr output width height 8 3
  let output := writeChunk output nPLTE (plteBytes palette)
  let output := writeTrns output transparency
  let filtered ← Filter.applyFilters env.deflate.level env.sched data width height (width * 1) 1
    (indexedStrategy o.strategy)
  let (compressed, pool) ← compress env pool filtered o
  return (writeIend (writeIdat output compressed), pool)

/-- `encode_indexed_into` (src/png/mod.rs:1814-1886): the new contents of the buffer. -/
def encodeIndexedInto (env : Env) (pool : Deflate.Pool) (output data : List UInt8) (width height : Nat)
    (palette : List (UInt8 × UInt8 × UInt8)) (transparency : Option (List UInt8)) (o : Options) :
    R (List UInt8 × Deflate.Pool) := do
  checkIndexed data width height palette transparency
  writeIndexed env pool output data width height palette transparency o

/-- `maybe_trim_transparency` (src/png/mod.rs:1888-1902): up to the last value that is not 255. -/
def trimTransparency (alpha : List UInt8) : Option (List UInt8) :=
  if alpha.isEmpty then none
  else if alpha.all (· == 255) then none
  else
    let last := alpha.zipIdx.foldl (fun last p => if p.1 ≠ 255 then p.2 else last) 0
    some (alpha.take (last + 1))

/-- The checks of `encode_into` (src/png/mod.rs:442-467). -/
def checkInput (data : List UInt8) (o : Options) : R Unit :=
  if ¬ (1 ≤ o.level ∧ o.level ≤ 9) then .error (.level o.level)
  else if o.width = 0 ∨ o.height = 0 then .error (.dimensions o.width o.height)
  else if o.width > maxDimension ∨ o.height > maxDimension then
    .error (.tooLarge o.width o.height maxDimension)
  else checkLen o.width o.height o.colorType.bytesPerPixel data.length

/-- `matches!(color_type, ColorType::Rgb | ColorType::Rgba)`. -/
def isColour (ct : ColorType) : Bool := ct == .rgb || ct == .rgba

/-- `should_quantize` (src/png/mod.rs:470-481). -/
def shouldQuantize (data : List UInt8) (o : Options) : R Bool :=
  match o.quantization.mode with
  | .off => .ok false
  | .force => .ok (isColour o.colorType)
  | .auto =>
    if isColour o.colorType then
      Quantize.shouldQuantizeAuto data o.colorType.bytesPerPixel (min o.quantization.maxColors 256)
    else .ok false

/-- The quantizing path (src/png/mod.rs:484-511). -/
def encodeQuantized (env : Env) (pool : Deflate.Pool) (output data : List UInt8) (o : Options) :
    R (List UInt8 × Deflate.Pool) := do
  let (palette, indices) ← Quantize.quantizeImage env.quantize data o.colorType
    (min o.quantization.maxColors 256) o.quantization.dithering
  let plte := palette.map fun c => (c.1, c.2.1, c.2.2.1)
  let alpha := trimTransparency (palette.map fun c => c.2.2.2)
  encodeIndexedInto env pool output indices o.width o.height plte alpha o

/-- PLTE and tRNS of a reduced image (src/png/mod.rs:536-547). -/
def writePalette (output : List UInt8) (palette : Option (List Rgba)) : List UInt8 :=
  match palette with
  | none => output
  | some p =>
    let output := writeChunk output nPLTE (plteBytes (p.map fun c => (c.1, c.2.1, c.2.2.1)))
    if p.any (fun c => c.2.2.2 != 255) then writeChunk output nTRNS (p.map fun c => c.2.2.2)
    else output

/-- `row_bytes` (src/png/mod.rs:556-560). -/
def rowBytes (width : Nat) (r : Reduced) : Nat :=
  if r.depth < 8 then PngDecode.ceil8 (width * r.depth) else width * r.bpp

/-- The chunks of an image that is not quantized (src/png/mod.rs:513-582). -/
def writeImage (env : Env) (pool : Deflate.Pool) (output data : List UInt8) (o : Options) :
    R (List UInt8 × Deflate.Pool) := do
  let output := clear output ++ signature
  let r ← reduce data o.width o.height o.colorType o
  let output := writeIhdr output o.width o.height r.depth r.colour
  let output := writePalette output r.palette
  let data ← optimizeAlpha r.data r.effective o.optimizeAlpha
  let filtered ← Filter.applyFilters env.deflate.level env.sched data o.width o.height
    (rowBytes o.width r) r.bpp o.strategy
  let (compressed, pool) ← compress env pool filtered o
  return (writeIend (writeIdat output compressed), pool)

/-- The path without quantization (src/png/mod.rs:513-589). -/
def encodePlain (env : Env) (pool : Deflate.Pool) (output data : List UInt8) (o : Options) :
    R (List UInt8 × Deflate.Pool) := do
  let (output, pool) ← writeImage env pool output data o
  if o.stripMetadata then do
    let output ← stripMetadata output
    return (output, pool)
  else return (output, pool)

/-- The work of `encode_into` (src/png/mod.rs:437-590): the new contents of the buffer. -/
def encodeWith (env : Env) (pool : Deflate.Pool) (output data : List UInt8) (o : Options) :
    R (List UInt8 × Deflate.Pool) := do
  checkInput data o
  let q ← shouldQuantize data o
  if q then encodeQuantized env pool output data o else encodePlain env pool output data o

/-- What a call leaves behind: its result, the caller's buffer and the pool. -/
structure Outcome where
  result : R Unit
  buffer : List UInt8
  pool : Deflate.Pool

/-- `encode_into` (src/png/mod.rs:437-590). All `Err` returns come before `output.clear()`, so they
leave the buffer alone. (After a panic the buffer could hold anything; the theorems exclude it.) -/
def encodeInto (env : Env) (pool : Deflate.Pool) (output data : List UInt8) (o : Options) : Outcome :=
  match encodeWith env pool output data o with
  | .ok (b, p) => ⟨.ok (), b, p⟩
  | .error e => ⟨.error e, output, pool⟩

/-- `encode` (src/png/mod.rs:390-394). -/
def encode (env : Env) (pool : Deflate.Pool) (data : List UInt8) (o : Options) :
    R (List UInt8 × Deflate.Pool) := encodeWith env pool [] data o

/-- `encode_indexed_with_options` (src/png/mod.rs:1792-1811). -/
def encodeIndexedWith (env : Env) (pool : Deflate.Pool) (data : List UInt8) (width height : Nat)
    (palette : List (UInt8 × UInt8 × UInt8)) (transparency : Option (List UInt8)) (o : Options) :
    R (List UInt8 × Deflate.Pool) :=
  encodeIndexedInto env pool [] data width height palette transparency o

/-- `encode_indexed` (src/png/mod.rs:1771-1789). -/
def encodeIndexed (env : Env) (pool : Deflate.Pool) (data : List UInt8) (width height : Nat)
    (palette : List (UInt8 × UInt8 × UInt8)) (transparency : Option (List UInt8)) :
    R (List UInt8 × Deflate.Pool) :=
  encodeIndexedWith env pool data width height palette transparency (.fast 0 0)

end Pixo.Png
