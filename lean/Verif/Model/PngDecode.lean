import Verif.Model.Inflate
import Verif.Model.Crc32
import Verif.Model.Filter
import Verif.Model.Color
/-
Model of src/decode/png.rs. `usize` is 64 bits; positions in the input stay below 2^63 + 2^32
and do not overflow. Vectors grown in advance (`with_capacity`) have no effect on results.
-/
namespace Pixo.PngDecode
open Pixo.MatchLength (slice)

/-- `PNG_SIGNATURE` (src/decode/png.rs:11). -/
def signature : List UInt8 := [0x89, 0x50, 0x4E, 0x47, 0x0D, 0x0A, 0x1A, 0x0A]

/-- `MAX_DIMENSION` (src/decode/png.rs:15). -/
def maxDimension : Nat := 2 ^ 24

/-- `PngColorType` (src/decode/png.rs:32-38). -/
inductive Kind where
  | gray | rgb | indexed | grayAlpha | rgba
  deriving DecidableEq

/-- `TryFrom<u8> for PngColorType` (src/decode/png.rs:40-55). -/
def Kind.ofU8 (v : UInt8) : R Kind :=
  if v = 0 then .ok .gray
  else if v = 2 then .ok .rgb
  else if v = 3 then .ok .indexed
  else if v = 4 then .ok .grayAlpha
  else if v = 6 then .ok .rgba
  else .error .invalid

/-- `IhdrData` (src/decode/png.rs:58-66). -/
structure Ihdr where
  width : Nat
  height : Nat
  depth : Nat
  kind : Kind
  compression : UInt8
  filter : UInt8
  interlace : UInt8

/-- `has_alpha_in_trns` (src/decode/png.rs:70-72). -/
def hasAlpha (trns : Option (List UInt8)) : Bool :=
  match trns with
  | some a => a.any (· ≠ 0xFF)
  | none => false

/-- `div_ceil(8)`. -/
def ceil8 (n : Nat) : Nat := (n + 7) / 8

/-- The bytes of a scanline in `calculate_expected_size` (src/decode/png.rs:84-90). -/
def scanlineBytes (h : Ihdr) : Nat :=
  match h.kind with
  | .gray => ceil8 (h.width * h.depth)
  | .rgb => h.width * 3 * h.depth / 8
  | .indexed => ceil8 (h.width * h.depth)
  | .grayAlpha => h.width * 2 * h.depth / 8
  | .rgba => h.width * 4 * h.depth / 8

/-- `calculate_expected_size` (src/decode/png.rs:78-98). -/
def expectedSize (h : Ihdr) : R Nat :=
  let size := (1 + scanlineBytes h) * h.height
  if size < 2 ^ 64 then .ok size else .error .invalid

/-- `u32::from_be_bytes([data[pos], ..., data[pos + 3]])` (src/decode/png.rs:114-115, 128-133). -/
def readBe32 (data : List UInt8) (pos : Nat) : R Nat := do
  let a ← getChecked data pos
  let b ← getChecked data (pos + 1)
  let c ← getChecked data (pos + 2)
  let d ← getChecked data (pos + 3)
  return ((a.toNat * 256 + b.toNat) * 256 + c.toNat) * 256 + d.toNat

/-- What the chunk loop collects (src/decode/png.rs:107-111). -/
structure Chunks where
  ihdr : Option Ihdr
  idat : List UInt8
  palette : Option (List (UInt8 × UInt8 × UInt8))
  trns : Option (List UInt8)

/-- The IHDR arm (src/decode/png.rs:149-173). -/
def parseIhdr (d : List UInt8) : R Ihdr :=
  if d.length ≠ 13 then .error .invalid
  else do
    let width ← readBe32 d 0
    let height ← readBe32 d 4
    let depth ← getChecked d 8
    let kind ← Kind.ofU8 (← getChecked d 9)
    let compression ← getChecked d 10
    let filter ← getChecked d 11
    let interlace ← getChecked d 12
    return ⟨width, height, depth.toNat, kind, compression, filter, interlace⟩

/-- The loop `for i in 0..count` of the PLTE arm (src/decode/png.rs:180-186). -/
def paletteLoop (d : List UInt8) : Nat → Nat → R (List (UInt8 × UInt8 × UInt8))
  | _, 0 => .ok []
  | i, n + 1 => do
    let r ← getChecked d (i * 3)
    let g ← getChecked d (i * 3 + 1)
    let b ← getChecked d (i * 3 + 2)
    let rest ← paletteLoop d (i + 1) n
    return (r, g, b) :: rest

/-- The PLTE arm (src/decode/png.rs:174-188). -/
def parsePalette (d : List UInt8) : R (List (UInt8 × UInt8 × UInt8)) :=
  if d.length % 3 ≠ 0 then .error .invalid else paletteLoop d 0 (d.length / 3)

/-- The chunk types matched, `b"IHDR"` to `b"IEND"` (src/decode/png.rs:148-202). -/
def tyIHDR : List UInt8 := [73, 72, 68, 82]
def tyPLTE : List UInt8 := [80, 76, 84, 69]
def tyTRNS : List UInt8 := [116, 82, 78, 83]
def tyIDAT : List UInt8 := [73, 68, 65, 84]
def tyIEND : List UInt8 := [73, 69, 78, 68]

/-- One chunk's effect other than IEND (src/decode/png.rs:148-202). -/
def Chunks.add (c : Chunks) (ty d : List UInt8) : R Chunks :=
  if ty = tyIHDR then do
    let h ← parseIhdr d
    return { c with ihdr := some h }
  else if ty = tyPLTE then do
    let p ← parsePalette d
    return { c with palette := some p }
  else if ty = tyTRNS then .ok { c with trns := some d }
  else if ty = tyIDAT then .ok { c with idat := c.idat ++ d }
  else .ok c

/-- The chunk loop (src/decode/png.rs:113-205) and the check for IEND after it (208-210). Every
round advances by at least twelve bytes. -/
def chunkLoop (data : List UInt8) : Nat → Nat → Chunks → R Chunks
  | 0, _, _ => .error .hang
  | fuel + 1, pos, c =>
    if pos + 12 ≤ data.length then do
      let length ← readBe32 data pos
      let ty ← slice data (pos + 4) 4
      let crcStart := pos + 8 + length
      if crcStart + 4 > data.length then .error .invalid
      else do
        let d ← slice data (pos + 8) length
        let stored ← readBe32 data crcStart
        if stored ≠ (Crc.crc32 (ty ++ d)).toNat then .error .invalid
        else if ty = tyIEND then .ok c
        else do
          let c ← c.add ty d
          chunkLoop data fuel (crcStart + 4) c
    else .error .invalid

/-- The accepted bit depths (src/decode/png.rs:244-250). -/
def validDepth (h : Ihdr) : Bool :=
  match h.kind with
  | .gray => h.depth ∈ [1, 2, 4, 8, 16]
  | .rgb => h.depth ∈ [8, 16]
  | .indexed => h.depth ∈ [1, 2, 4, 8]
  | .grayAlpha => h.depth ∈ [8, 16]
  | .rgba => h.depth ∈ [8, 16]

/-- Validation of the header (src/decode/png.rs:211-256). -/
def validate (h : Ihdr) : R Unit :=
  if h.width = 0 ∨ h.height = 0 then .error (.dimensions h.width h.height)
  else if h.width > maxDimension ∨ h.height > maxDimension then
    .error (.tooLarge h.width h.height maxDimension)
  else if h.compression ≠ 0 then .error .invalid
  else if h.filter ≠ 0 then .error .invalid
  else if h.interlace ≠ 0 then .error .unsupported
  else if validDepth h then .ok () else .error .invalid

/-! ### Unfiltering (src/decode/png.rs:370-426) -/

/-- `for i in start..row.len() { row[i] = row[i].wrapping_add(f(row, i)) }`. -/
def addLoop (f : List UInt8 → Nat → R UInt8) : Nat → Nat → List UInt8 → R (List UInt8)
  | _, 0, row => .ok row
  | i, n + 1, row => do
    let x ← getChecked row i
    let p ← f row i
    let row ← setChecked row i (x + p)
    addLoop f (i + 1) n row

/-- `row[i - bpp]`, where `i` starts at `bpp` (src/decode/png.rs:375-377). -/
def unSub (bpp : Nat) (row : List UInt8) (i : Nat) : R UInt8 := getChecked row (i - bpp)

/-- Average (src/decode/png.rs:389-393). -/
def unAverage (prev : List UInt8) (bpp : Nat) (row : List UInt8) (i : Nat) : R UInt8 := do
  let left ← Filter.leftByte row bpp i
  let above ← getChecked prev i
  return Filter.average left above

/-- Paeth (src/decode/png.rs:398-403). -/
def unPaeth (prev : List UInt8) (bpp : Nat) (row : List UInt8) (i : Nat) : R UInt8 := do
  let a ← Filter.leftByte row bpp i
  let b ← getChecked prev i
  let c ← Filter.leftByte prev bpp i
  return Filter.paethPredictor a b c

/-- `unfilter_row` (src/decode/png.rs:370-409). -/
def unfilterRow (filter : UInt8) (row prev : List UInt8) (bpp : Nat) : R (List UInt8) :=
  if filter = 0 then .ok row
  else if filter = 1 then addLoop (unSub bpp) bpp (row.length - bpp) row
  else if filter = 2 then addLoop (fun _ i => getChecked prev i) 0 row.length row
  else if filter = 3 then addLoop (unAverage prev bpp) 0 row.length row
  else if filter = 4 then addLoop (unPaeth prev bpp) 0 row.length row
  else .error .invalid

/-- `bpp` and `scanline_bytes` of `reconstruct_image` (src/decode/png.rs:303-332). -/
def layout (h : Ihdr) : Nat × Nat :=
  match h.kind with
  | .gray => (max (ceil8 h.depth) 1, ceil8 (h.width * h.depth))
  | .rgb => (3 * h.depth / 8, h.width * (3 * h.depth / 8))
  | .indexed => (1, ceil8 (h.width * h.depth))
  | .grayAlpha => (2 * h.depth / 8, h.width * (2 * h.depth / 8))
  | .rgba => (4 * h.depth / 8, h.width * (4 * h.depth / 8))

/-- The loop over the scanlines (src/decode/png.rs:347-363): the rows appended to `raw_rows`.
The two row buffers, swapped each round, are the current and the previous row. -/
def rowLoop (data : List UInt8) (bpp sb : Nat) : Nat → Nat → List UInt8 → R (List UInt8)
  | _, 0, _ => .ok []
  | y, n + 1, prev => do
    let ft ← getChecked data (y * (1 + sb))
    let rowData ← slice data (y * (1 + sb) + 1) sb
    let row ← unfilterRow ft rowData prev bpp
    let rest ← rowLoop data bpp sb (y + 1) n row
    return row ++ rest

/-! ### Conversion to pixels (src/decode/png.rs:429-627) -/

/-- `chunks_exact(k)`. -/
def chunksExact (k : Nat) (l : List UInt8) : List (List UInt8) :=
  (List.range (l.length / k)).map fun i => (l.drop (i * k)).take k

/-- The bytes at the given places of every chunk of `k` bytes, e.g.
`chunks_exact(4).flat_map(|chunk| [chunk[0], chunk[2]])` (src/decode/png.rs:445-449 etc.). -/
def highBytes (k : Nat) (places : List Nat) (l : List UInt8) : R (List UInt8) := do
  let parts ← (chunksExact k l).mapM fun c => places.mapM (getChecked c)
  return parts.flatten

/-- The loop `for i in (0..m).rev() { if out.len() - start_len >= width { break } out.push(..) }`
over the samples of one byte (src/decode/png.rs:564-569, 574-579). -/
def pushLoop (width : Nat) : List UInt8 → List UInt8 → List UInt8
  | [], out => out
  | s :: ss, out => if out.length ≥ width then out else pushLoop width ss (out ++ [s])

/-- `if out.len() - start_len < width { out.push(s) }` (src/decode/png.rs:584-589). -/
def pushIf (width : Nat) (out : List UInt8) (s : UInt8) : List UInt8 :=
  if out.length < width then out ++ [s] else out

/-- The eight 1-bit samples of a byte, `(byte >> i) & 1` for `i` from 7 down
(src/decode/png.rs:573-578). -/
def bits1 (byte : UInt8) : List UInt8 :=
  [7, 6, 5, 4, 3, 2, 1, 0].map fun (i : UInt8) => (byte >>> i) &&& 1

/-- The four 2-bit samples, `(byte >> (i * 2)) & 3` for `i` from 3 down (src/decode/png.rs:583-588). -/
def bits2 (byte : UInt8) : List UInt8 := [6, 4, 2, 0].map fun (i : UInt8) => (byte >>> i) &&& 3

/-- `unpack_row` (src/decode/png.rs:567-609): the samples appended for one row (`start_len` is
where they begin). -/
def unpackRow (packed : List UInt8) (width depth : Nat) : List UInt8 :=
  let out :=
    if depth = 1 then packed.foldl (fun out byte => pushLoop width (bits1 byte) out) []
    else if depth = 2 then packed.foldl (fun out byte => pushLoop width (bits2 byte) out) []
    else if depth = 4 then
      packed.foldl (fun out (byte : UInt8) => pushIf width (pushIf width out (byte >>> 4)) (byte &&& 0xF)) []
    else if depth = 8 then packed.take (min width packed.length)
    else []
  out.take width

/-- The row loop of `unpack_gray` and `unpack_indices` (src/decode/png.rs:540-543, 558-561). -/
def unpackRows (data : List UInt8) (width depth rb : Nat) : Nat → Nat → R (List UInt8)
  | _, 0 => .ok []
  | row, n + 1 => do
    let rowData ← slice data (row * rb) rb
    let rest ← unpackRows data width depth rb (row + 1) n
    return unpackRow rowData width depth ++ rest

/-- `unpack_indices` (src/decode/png.rs:554-564). -/
def unpackIndices (data : List UInt8) (width height depth : Nat) : R (List UInt8) :=
  unpackRows data width depth (ceil8 (width * depth)) 0 height

/-- `scale_to_8bit` (src/decode/png.rs:612-626). -/
def scaleTo8 (sample : UInt8) (depth : Nat) : UInt8 :=
  if depth = 1 then (if sample = 0 then 0 else 255)
  else if depth = 2 then sample ||| (sample <<< 2) ||| (sample <<< 4) ||| (sample <<< 6)
  else if depth = 4 then sample ||| (sample <<< 4)
  else sample

/-- `unpack_gray` (src/decode/png.rs:536-551). -/
def unpackGray (data : List UInt8) (width height depth : Nat) : R (List UInt8) := do
  let pixels ← unpackRows data width depth (ceil8 (width * depth)) 0 height
  return pixels.map (scaleTo8 · depth)

/-- The bytes of one index with transparency (src/decode/png.rs:505-517). -/
def expandRgba (palette : List (UInt8 × UInt8 × UInt8)) (alpha : List UInt8) (idx : UInt8) :
    List UInt8 :=
  match palette[idx.toNat]? with
  | some (r, g, b) => [r, g, b, alpha.getD idx.toNat 255]
  | none => [0, 0, 0, 255]

/-- The bytes of one index without transparency (src/decode/png.rs:522-528). -/
def expandRgb (palette : List (UInt8 × UInt8 × UInt8)) (idx : UInt8) : List UInt8 :=
  match palette[idx.toNat]? with
  | some (r, g, b) => [r, g, b]
  | none => [0, 0, 0]

/-- The indexed arm of `convert_to_pixels` (src/decode/png.rs:492-531). -/
def convertIndexed (h : Ihdr) (raw : List UInt8) (palette : List (UInt8 × UInt8 × UInt8))
    (trns : Option (List UInt8)) : R (List UInt8) := do
  let indices ← unpackIndices raw h.width h.height h.depth
  if hasAlpha trns then return indices.flatMap (expandRgba palette (trns.getD []))
  else return indices.flatMap (expandRgb palette)

/-- `convert_to_pixels` (src/decode/png.rs:430-533). -/
def convert (h : Ihdr) (raw : List UInt8) (palette : Option (List (UInt8 × UInt8 × UInt8)))
    (trns : Option (List UInt8)) : R (List UInt8) :=
  match h.kind with
  | .gray =>
    if h.depth = 8 then .ok raw
    else if h.depth = 16 then highBytes 2 [0] raw
    else unpackGray raw h.width h.height h.depth
  | .grayAlpha => if h.depth = 8 then .ok raw else highBytes 4 [0, 2] raw
  | .rgb => if h.depth = 8 then .ok raw else highBytes 6 [0, 2, 4] raw
  | .rgba => if h.depth = 8 then .ok raw else highBytes 8 [0, 2, 4, 6] raw
  | .indexed =>
    match palette with
    | some p => convertIndexed h raw p trns
    | none => .error .invalid

/-- `reconstruct_image` (src/decode/png.rs:292-367). -/
def reconstruct (h : Ihdr) (data : List UInt8) (palette : Option (List (UInt8 × UInt8 × UInt8)))
    (trns : Option (List UInt8)) : R (List UInt8) :=
  let (bpp, sb) := layout h
  if data.length < h.height * (1 + sb) then .error .invalid
  else do
    let raw ← rowLoop data bpp sb 0 h.height (List.replicate sb 0)
    convert h raw palette trns

/-- The output colour type (src/decode/png.rs:264-276). -/
def outputType (h : Ihdr) (trns : Option (List UInt8)) : ColorType :=
  match h.kind with
  | .gray => .gray
  | .grayAlpha => .grayAlpha
  | .rgb => .rgb
  | .indexed => if hasAlpha trns then .rgba else .rgb
  | .rgba => .rgba

/-- `PngImage` (src/decode/png.rs:18-28). -/
structure PngImage where
  width : Nat
  height : Nat
  pixels : List UInt8
  colorType : ColorType
  deriving DecidableEq

/-- The part of `decode_png` after the chunk loop (src/decode/png.rs:211-285). `adler` is the
checksum `inflate_zlib_with_size` runs. -/
def finish (adler : List UInt8 → Nat) (c : Chunks) : R PngImage :=
  match c.ihdr with
  | none => .error .invalid
  | some h => do
    validate h
    if c.idat = [] then .error .invalid
    else do
      let size ← expectedSize h
      let raw ← Inflate.inflateZlib adler c.idat (some size)
      let pixels ← reconstruct h raw c.palette c.trns
      return ⟨h.width, h.height, pixels, outputType h c.trns⟩

/-- `decode_png` (src/decode/png.rs:101-285). -/
def decodePng (adler : List UInt8 → Nat) (data : List UInt8) : R PngImage :=
  if data.length < 8 ∨ data.take 8 ≠ signature then .error .invalid
  else do
    let c ← chunkLoop data (data.length + 1) 8 ⟨none, [], none, none⟩
    finish adler c

/-- The capacity reserved for the decompressed scanlines, by an input that gets that far
(src/decode/png.rs:101-264). -/
def reserve (data : List UInt8) : Option Nat :=
  if data.length < 8 ∨ data.take 8 ≠ signature then none
  else
    match chunkLoop data (data.length + 1) 8 ⟨none, [], none, none⟩ with
    | .ok ⟨some h, idat, _, _⟩ =>
      match validate h, expectedSize h with
      | .ok (), .ok size => Inflate.reserve idat (some size)
      | _, _ => none
    | _ => none

end Pixo.PngDecode
