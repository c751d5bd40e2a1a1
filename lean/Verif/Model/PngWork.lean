import Verif.Model.InflateWork
import Verif.Model.PngDecode
/-
How much work `decode_png` does: the functions of Model/PngDecode once more, each also giving the number of steps (`Counted` of
Model/InflateWork). A step is one round of a loop, or one byte that is copied, summed or made. In `unpack_row` every sample of a byte is
counted, also those after the `break`. Not counted are memory that is only reserved (`with_capacity`, the subject of `reserve`), copies
`extend_from_slice` makes when a vector grows, and the text of error messages.
-/
namespace Pixo.PngDecode
open Pixo
open Pixo.MatchLength (slice)
open Pixo.Inflate (Counted tick free)

/-- The work of one chunk's arm (src/decode/png.rs:148-202): an entry of the palette (180-186), a byte of tRNS (190) or IDAT (193). -/
def armSteps (ty d : List UInt8) : Nat :=
  if ty = tyIHDR then 1
  else if ty = tyPLTE then d.length / 3
  else if ty = tyTRNS then d.length
  else if ty = tyIDAT then d.length
  else 0

/-- The chunk loop (src/decode/png.rs:113-205): type and data are copied (137-139) and summed (140). -/
def chunkLoopC (data : List UInt8) : Nat → Nat → Chunks → Counted Chunks
  | 0, _, _ => free (.error .hang)
  | fuel + 1, pos, c =>
    if pos + 12 ≤ data.length then do
      tick 1
      let length ← free (readBe32 data pos)
      let ty ← free (slice data (pos + 4) 4)
      let crcStart := pos + 8 + length
      if crcStart + 4 > data.length then free (.error .invalid)
      else do
        let d ← free (slice data (pos + 8) length)
        let stored ← free (readBe32 data crcStart)
        tick (4 + length)
        tick (4 + length)
        if stored ≠ (Crc.crc32 (ty ++ d)).toNat then free (.error .invalid)
        else if ty = tyIEND then pure c
        else do
          tick (armSteps ty d)
          let c ← free (c.add ty d)
          chunkLoopC data fuel (crcStart + 4) c
    else free (.error .invalid)

/-- The rounds of `unfilter_row` (src/decode/png.rs:370-409) for a row of `n` bytes. -/
def unfilterRounds (filter : UInt8) (n bpp : Nat) : Nat :=
  if filter = 0 then 0
  else if filter = 1 then n - bpp
  else if filter = 2 ∨ filter = 3 ∨ filter = 4 then n
  else 0

/-- The loop over the scanlines (src/decode/png.rs:347-363): a row is copied (354), unfiltered (357), and copied again (359). -/
def rowLoopC (data : List UInt8) (bpp sb : Nat) : Nat → Nat → List UInt8 → Counted (List UInt8)
  | _, 0, _ => pure []
  | y, n + 1, prev => do
    tick 1
    let ft ← free (getChecked data (y * (1 + sb)))
    let rowData ← free (slice data (y * (1 + sb) + 1) sb)
    tick sb
    tick (unfilterRounds ft sb bpp)
    let row ← free (unfilterRow ft rowData prev bpp)
    tick sb
    let rest ← rowLoopC data bpp sb (y + 1) n row
    return row ++ rest

/-- `chunks_exact(k)` with the bytes kept of each chunk (src/decode/png.rs:445-449 etc.). -/
def highBytesC (k : Nat) (places : List Nat) (l : List UInt8) : Counted (List UInt8) := do
  tick (l.length / k * (1 + places.length))
  free (highBytes k places l)

/-- The work of `unpack_row` (src/decode/png.rs:567-609) for a row of `n` bytes: a round for each byte and one for each sample in it. -/
def unpackSteps (n width depth : Nat) : Nat :=
  if depth = 1 then 9 * n
  else if depth = 2 then 5 * n
  else if depth = 4 then 3 * n
  else if depth = 8 then min width n
  else 0

/-- The row loop of `unpack_gray` and `unpack_indices` (src/decode/png.rs:540-543, 558-561). -/
def unpackRowsC (data : List UInt8) (width depth rb : Nat) : Nat → Nat → Counted (List UInt8)
  | _, 0 => pure []
  | row, n + 1 => do
    tick 1
    let rowData ← free (slice data (row * rb) rb)
    tick (unpackSteps rowData.length width depth)
    let rest ← unpackRowsC data width depth rb (row + 1) n
    return unpackRow rowData width depth ++ rest

/-- `unpack_gray` (src/decode/png.rs:536-551), with the loop over the samples (546-548). -/
def unpackGrayC (data : List UInt8) (width height depth : Nat) : Counted (List UInt8) := do
  let pixels ← unpackRowsC data width depth (ceil8 (width * depth)) 0 height
  tick pixels.length
  return pixels.map (scaleTo8 · depth)

/-- The bytes `has_alpha_in_trns` may look at (src/decode/png.rs:70-72). -/
def alphaSteps (trns : Option (List UInt8)) : Nat := (trns.getD []).length

/-- The indexed arm of `convert_to_pixels` (src/decode/png.rs:492-531). -/
def convertIndexedC (h : Ihdr) (raw : List UInt8) (palette : List (UInt8 × UInt8 × UInt8))
    (trns : Option (List UInt8)) : Counted (List UInt8) := do
  let indices ← unpackRowsC raw h.width h.depth (ceil8 (h.width * h.depth)) 0 h.height
  tick (alphaSteps trns)
  tick indices.length
  if hasAlpha trns then return indices.flatMap (expandRgba palette (trns.getD []))
  else return indices.flatMap (expandRgb palette)

/-- `raw_data.to_vec()` (src/decode/png.rs:443, 458, 470, 482). -/
def toVecC (raw : List UInt8) : Counted (List UInt8) := do
  tick raw.length
  return raw

/-- `convert_to_pixels` (src/decode/png.rs:430-533). -/
def convertC (h : Ihdr) (raw : List UInt8) (palette : Option (List (UInt8 × UInt8 × UInt8)))
    (trns : Option (List UInt8)) : Counted (List UInt8) :=
  match h.kind with
  | .gray =>
    if h.depth = 8 then toVecC raw
    else if h.depth = 16 then highBytesC 2 [0] raw
    else unpackGrayC raw h.width h.height h.depth
  | .grayAlpha => if h.depth = 8 then toVecC raw else highBytesC 4 [0, 2] raw
  | .rgb => if h.depth = 8 then toVecC raw else highBytesC 6 [0, 2, 4] raw
  | .rgba => if h.depth = 8 then toVecC raw else highBytesC 8 [0, 2, 4, 6] raw
  | .indexed =>
    match palette with
    | some p => convertIndexedC h raw p trns
    | none => free (.error .invalid)

/-- `reconstruct_image` (src/decode/png.rs:292-367), with the zeros of the two rows (344-345). -/
def reconstructC (h : Ihdr) (data : List UInt8) (palette : Option (List (UInt8 × UInt8 × UInt8)))
    (trns : Option (List UInt8)) : Counted (List UInt8) :=
  let (bpp, sb) := layout h
  if data.length < h.height * (1 + sb) then free (.error .invalid)
  else do
    tick (2 * sb)
    let raw ← rowLoopC data bpp sb 0 h.height (List.replicate sb 0)
    convertC h raw palette trns

/-- `inflate_zlib_with_size` (src/decode/inflate.rs:294-352): `inflate` and the checksum of its output (333). -/
def inflateZlibC (adler : List UInt8 → Nat) (data : List UInt8) (expected : Option Nat) : Counted (List UInt8) :=
  match data with
  | cmf :: flg :: rest =>
    if rest.length < 4 then free (.error .invalid)
    else if cmf.toNat &&& 0x0F ≠ 8 then free (.error .invalid)
    else if ((cmf.toNat <<< 8) ||| flg.toNat) % 31 ≠ 0 then free (.error .invalid)
    else if flg.toNat &&& 0x20 ≠ 0 then free (.error .unsupported)
    else do
      let n := rest.length - 4
      let output ← Inflate.inflateC (rest.take n)
      let stored := (rest.drop n).foldl (fun a b => a * 256 + b.toNat) 0
      tick output.length
      if stored ≠ adler output then free (.error .invalid)
      else
        match expected with
        | some e => if output.length ≠ e then free (.error .invalid) else return output
        | none => return output
  | _ => free (.error .invalid)

/-- The part of `decode_png` after the chunk loop (src/decode/png.rs:211-285), with the second look at tRNS (276),
counted for every type of image. -/
def finishC (adler : List UInt8 → Nat) (c : Chunks) : Counted PngImage :=
  match c.ihdr with
  | none => free (.error .invalid)
  | some h => do
    free (validate h)
    if c.idat = [] then free (.error .invalid)
    else do
      let size ← free (expectedSize h)
      let raw ← inflateZlibC adler c.idat (some size)
      let pixels ← reconstructC h raw c.palette c.trns
      tick (alphaSteps c.trns)
      return ⟨h.width, h.height, pixels, outputType h c.trns⟩

/-- `decode_png` (src/decode/png.rs:101-285). -/
def decodePngC (adler : List UInt8 → Nat) (data : List UInt8) : Counted PngImage :=
  if data.length < 8 ∨ data.take 8 ≠ signature then free (.error .invalid)
  else do
    let c ← chunkLoopC data (data.length + 1) 8 ⟨none, [], none, none⟩
    finishC adler c

end Pixo.PngDecode
