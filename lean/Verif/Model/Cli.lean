import Verif.Model.Wasm
import Verif.Model.PngDecode
import Verif.Model.JpegDecode
/-
Model of src/bin/pixo.rs: reading an image (PNG, JPEG, binary PGM and PPM), converting it and
encoding it.

Files are lists of bytes; opening, reading and writing succeed. What is printed is left out, as are
the argument parser (clap; the ranges it enforces are hypotheses of the theorems) and the name of
the output file; the extension of the output file is given in lower case. Errors of the tool are
`Err.invalid`. `usize` has 64 bits. `ck` says whether arithmetic overflow is checked (a debug build);
otherwise it wraps.
-/
namespace Pixo.Cli
open Pixo

/-- `DecodedImage` (src/bin/pixo.rs:182-189), without the name of the format. -/
structure Image where
  width : Nat
  height : Nat
  pixels : List UInt8
  colorType : ColorType
  deriving DecidableEq, Repr

/-- The input formats; `detect_format` (src/bin/pixo.rs:192-218) names them by strings. -/
inductive Format where
  | png | jpeg | ppm | pgm
  deriving DecidableEq, Repr

/-- `detect_format_from_bytes` (src/bin/pixo.rs:345-371); `detect_format` (192-218) does the same with
the first eight bytes of a file, and fails when there are fewer. -/
def detectFormat (data : List UInt8) : R Format :=
  if data.length < 8 then .error .invalid
  else if [0x89, 0x50, 0x4E, 0x47, 0x0D, 0x0A, 0x1A, 0x0A].isPrefixOf data then .ok .png
  else if [0xFF, 0xD8, 0xFF].isPrefixOf data then .ok .jpeg
  else if [0x50, 0x36].isPrefixOf data then .ok .ppm
  else if [0x50, 0x35].isPrefixOf data then .ok .pgm
  else .error .invalid

/-- `char::is_ascii_whitespace` on a byte: space, tab, line feed, form feed, carriage return. -/
def isAsciiWhitespace (b : UInt8) : Bool :=
  b == 0x20 || b == 0x09 || b == 0x0A || b == 0x0C || b == 0x0D

/-- The loop of `read_token` (src/bin/pixo.rs:300-335): returns the token and what is left to read. The
characters pushed are those with the code of the byte, so a token is a list of bytes. -/
def readLoop (inComment : Bool) (token : List UInt8) : List UInt8 → List UInt8 × List UInt8
  | [] => (token, [])
  | b :: rest =>
    if inComment then readLoop (b != 0x0A) token rest
    else if b == 0x23 then readLoop true token rest
    else if isAsciiWhitespace b then
      if token ≠ [] then (token, rest) else readLoop false token rest
    else readLoop false (token ++ [b]) rest

/-- `read_token` (src/bin/pixo.rs:300-335). -/
def readToken (data : List UInt8) : List UInt8 × List UInt8 := readLoop false [] data

/-- The digits of a `u32`, most significant first, with checks for overflow. -/
def parseDigits (acc : Nat) : List UInt8 → Option Nat
  | [] => some acc
  | b :: rest =>
    if 0x30 ≤ b ∧ b ≤ 0x39 then
      let n := acc * 10 + (b.toNat - 0x30)
      if n < 2 ^ 32 then parseDigits n rest else none
    else none

/-- A plus sign at the front is skipped. -/
def skipPlus : List UInt8 → List UInt8
  | [] => []
  | b :: rest => if b == 0x2B then rest else b :: rest

/-- `str::parse::<u32>` (standard library): an optional plus sign and at least one digit. -/
def parseU32 (token : List UInt8) : R Nat :=
  if skipPlus token = [] then .error .invalid
  else match parseDigits 0 (skipPlus token) with
    | some n => .ok n
    | none => .error .invalid

/-- `width as usize * height as usize * bytes_per_pixel` (src/bin/pixo.rs:283, 462), then
`vec![0u8; expected_size]` (285, 464), which panics above `isize::MAX`; other allocations succeed. -/
def expectedSize (ck : Bool) (width height bpp : Nat) : R Nat :=
  if ck ∧ 2 ^ 64 ≤ width * height * bpp then .error .panic
  else
    let n := width * height * bpp % 2 ^ 64
    if 2 ^ 63 ≤ n then .error .panic else .ok n

/-- The magic number (src/bin/pixo.rs:255-264, 430-438). -/
def magicType (magic : List UInt8) : R ColorType :=
  if magic = [0x50, 0x35] then .ok .gray
  else if magic = [0x50, 0x36] then .ok .rgb
  else .error .invalid

/-- What follows the magic number (src/bin/pixo.rs:266-297, 445-476). -/
def decodePnmRest (ck : Bool) (colorType : ColorType) (data : List UInt8) : R Image := do
  let t := readToken data
  let width ← parseU32 t.1
  let t := readToken t.2
  let height ← parseU32 t.1
  let t := readToken t.2
  let maxVal ← parseU32 t.1
  if maxVal ≠ 255 then .error .invalid
  else
    let size ← expectedSize ck width height colorType.bytesPerPixel
    if t.2.length < size then .error .invalid
    else .ok ⟨width, height, t.2.take size, colorType⟩

/-- `decode_pnm` (src/bin/pixo.rs:247-297). -/
def decodePnm (ck : Bool) (data : List UInt8) : R Image := do
  let t := readToken data
  let colorType ← magicType t.1
  decodePnmRest ck colorType t.2

/-- `decode_pnm_from_bytes` (src/bin/pixo.rs:419-476), which also compares the magic number with the
format found before. -/
def decodePnmFromBytes (ck : Bool) (hint : Format) (data : List UInt8) : R Image := do
  let t := readToken data
  let colorType ← magicType t.1
  if (hint = .ppm ∧ t.1 ≠ [0x50, 0x36]) ∨ (hint = .pgm ∧ t.1 ≠ [0x50, 0x35]) then .error .invalid
  else decodePnmRest ck colorType t.2

/-- `decode_png_from_bytes` (src/bin/pixo.rs:395-405), `decode_png` (220-231). -/
def decodePng (adler : List UInt8 → Nat) (data : List UInt8) : R Image := do
  let img ← PngDecode.decodePng adler data
  return ⟨img.width, img.height, img.pixels, img.colorType⟩

/-- `decode_jpeg_from_bytes` (src/bin/pixo.rs:407-417), `decode_jpeg` (233-244). -/
def decodeJpeg (ck : Bool) (data : List UInt8) : R Image := do
  let img ← JpegDecode.decodeJpeg ck data
  return ⟨img.width, img.height, img.pixels, img.colorType⟩

/-- `load_image` (src/bin/pixo.rs:373-382), for a file with these bytes. -/
def loadImage (adler : List UInt8 → Nat) (ck : Bool) (data : List UInt8) : R Image := do
  match ← detectFormat data with
  | .png => decodePng adler data
  | .jpeg => decodeJpeg ck data
  | .ppm => decodePnm ck data
  | .pgm => decodePnm ck data

/-- `load_image_from_bytes` (src/bin/pixo.rs:384-393). -/
def loadImageFromBytes (adler : List UInt8 → Nat) (ck : Bool) (data : List UInt8) : R Image := do
  match ← detectFormat data with
  | .png => decodePng adler data
  | .jpeg => decodeJpeg ck data
  | .ppm => decodePnmFromBytes ck .ppm data
  | .pgm => decodePnmFromBytes ck .pgm data

/-! ## Conversions -/

/-- The luma of a pixel (src/bin/pixo.rs:486-490, 496-500); at most 65408, so the `u32` sum does not
overflow and the cast is exact. -/
def luma (r g b : UInt8) : UInt8 :=
  UInt8.ofNat ((77 * r.toNat + 150 * g.toNat + 29 * b.toNat + 128) / 256)

/-- `iter().step_by(2)`. -/
def everyOther : List UInt8 → List UInt8
  | [] => []
  | [a] => [a]
  | a :: _ :: rest => a :: everyOther rest

/-- `chunks_exact(3)` with `luma` (src/bin/pixo.rs:482-491). -/
def lumaRgb : List UInt8 → List UInt8
  | r :: g :: b :: rest => luma r g b :: lumaRgb rest
  | _ => []

/-- `chunks_exact(4)` with `luma` (src/bin/pixo.rs:492-500). -/
def lumaRgba : List UInt8 → List UInt8
  | r :: g :: b :: _ :: rest => luma r g b :: lumaRgba rest
  | _ => []

/-- `to_grayscale` (src/bin/pixo.rs:478-502). -/
def toGrayscale (pixels : List UInt8) : ColorType → List UInt8
  | .gray => pixels
  | .grayAlpha => everyOther pixels
  | .rgb => lumaRgb pixels
  | .rgba => lumaRgba pixels

/-- `rgba_to_rgb` (src/bin/pixo.rs:504-509). -/
def rgbaToRgb : List UInt8 → List UInt8
  | r :: g :: b :: _ :: rest => r :: g :: b :: rgbaToRgb rest
  | _ => []

/-- `gray_alpha_to_gray` (src/bin/pixo.rs:511-513). -/
def grayAlphaToGray (pixels : List UInt8) : List UInt8 := everyOther pixels

/-! ## The command -/

/-- `OutputFormat` (src/bin/pixo.rs:109-117); `Jpg` is treated as `Jpeg` everywhere. -/
inductive Output where
  | png | jpeg
  deriving DecidableEq, Repr

/-- `PresetArg` (src/bin/pixo.rs:156-164). -/
inductive Preset where
  | fast | balanced | max
  deriving DecidableEq, Repr

/-- The number of a preset (src/bin/pixo.rs:649-653, 697-701). -/
def Preset.id : Preset → Nat
  | .fast => 0
  | .balanced => 1
  | .max => 2

/-- The arguments that affect the output (src/bin/pixo.rs:35-107). `filter` is already a strategy
(`FilterArg::to_strategy`, 167-180) and `subsampling` already converted (128-135). -/
structure Args where
  format : Option Output
  quality : Nat
  optimizeHuffman : Bool
  restartInterval : Nat
  compression : Option Nat
  subsampling : Jpeg.Subsampling
  filter : Option Filter.Strategy
  preset : Option Preset
  optimizeAlpha : Bool
  reduceColor : Bool
  stripMetadata : Bool
  grayscale : Bool

/-- The arguments when only an input and an output are given. -/
def Args.default : Args :=
  ⟨none, 85, false, 0, none, .s444, none, none, false, false, false, false⟩

/-- The format of the output (src/bin/pixo.rs:603-618): `stdout` if the output is `-`, and the
extension of the output file in lower case, if it has one. -/
def outputFormat (a : Args) (stdout : Bool) (extension : Option String) : Output :=
  match a.format with
  | some f => f
  | none =>
    if stdout then .jpeg
    else match extension with
      | some "png" => .png
      | _ => .jpeg

/-- The pixels given to the encoder (src/bin/pixo.rs:620-639). -/
def convert (a : Args) (f : Output) (img : Image) : List UInt8 × ColorType :=
  if a.grayscale then (toGrayscale img.pixels img.colorType, .gray)
  else match f with
    | .png => (img.pixels, img.colorType)
    | .jpeg => match img.colorType with
      | .gray => (img.pixels, .gray)
      | .grayAlpha => (grayAlphaToGray img.pixels, .gray)
      | .rgb => (img.pixels, .rgb)
      | .rgba => (rgbaToRgb img.pixels, .rgb)

/-- The options for PNG (src/bin/pixo.rs:645-681). -/
def pngOptions (a : Args) (width height : Nat) (colorType : ColorType) : Png.Options :=
  let o : Png.Options := { Png.Options.builder width height with colorType }
  let o := match a.preset with
    | some p => o.preset p.id
    | none => o
  let o := match a.compression with
    | some level => { o with level }
    | none => if a.preset = none then { o with level := 2 } else o
  let o := match a.filter with
    | some strategy => { o with strategy }
    | none => if a.preset = none then { o with strategy := .adaptiveFast } else o
  { o with optimizeAlpha := a.optimizeAlpha, reduceColorType := a.reduceColor,
           stripMetadata := a.stripMetadata, reducePalette := a.reduceColor }

/-- The options for JPEG (src/bin/pixo.rs:695-728). -/
def jpegOptions (a : Args) (width height : Nat) (colorType : ColorType) : Jpeg.Options :=
  let base : Jpeg.Options := match a.preset with
    | some p => Jpeg.Options.fromPreset width height a.quality p.id
    | none => { Jpeg.Options.builder width height with quality := a.quality }
  ⟨width, height, colorType, a.quality, a.subsampling,
    if a.restartInterval = 0 then base.restartInterval else some a.restartInterval,
    a.optimizeHuffman || base.optimizeHuffman, base.progressive, base.trellisQuant⟩

/-- What the surroundings of a run decide: the level of the checksum and the choices of the PNG
encoder, checked arithmetic, and the pool of deflaters (fresh in a new process). -/
structure Env where
  png : Png.Env
  checked : Bool

/-- `run` (src/bin/pixo.rs:542-837), from the bytes of the input to those of the output. `adler` is the
checksum the decoder of zlib streams computes. -/
def run (env : Env) (adler : List UInt8 → Nat) (a : Args) (stdin stdout : Bool) (extension : Option String)
    (input : List UInt8) : R (List UInt8) := do
  let img ← (if stdin then loadImageFromBytes adler env.checked input else loadImage adler env.checked input)
  let f := outputFormat a stdout extension
  let p := convert a f img
  let out ← (match f with
    | .png => do
      let r ← Png.encode env.png Deflate.Pool.new p.1 (pngOptions a img.width img.height p.2)
      return r.1
    | .jpeg => Jpeg.encode p.1 (jpegOptions a img.width img.height p.2))
  -- the size reported for standard input is computed in `u32` (src/bin/pixo.rs:744-748)
  if stdin ∧ env.checked ∧ 2 ^ 32 ≤ img.width * img.height * p.2.bytesPerPixel then .error .panic
  else return out

end Pixo.Cli
