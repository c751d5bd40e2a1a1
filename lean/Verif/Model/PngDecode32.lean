import Verif.Model.PngDecode
import Verif.Model.Resize32
/-
Model of src/decode/png.rs once more, for a machine whose `usize` has 32 bits, in a release build: arithmetic wraps, allocations of 2^31 bytes or
more panic, smaller ones succeed (`w32`, `slice32`, `alloc32` of Model/Resize32). The input is less than 2^31 bytes, since it is in memory.

Not modelled: inflate is that of Model/Inflate, without its allocations but the first. Its positions in the input are at most 65535 beyond it, and
its positions in the output at most 65535 beyond that, so they do not wrap; an output that outgrows 2^31 bytes would be a panic, but such an output
is longer than the size for which `alloc32` succeeded, so that no image is made of it in either model. Loop indices below the length of a vector
(unfiltering, `chunks_exact`, `unpack_row`, palette) are those of Model/PngDecode.
-/
namespace Pixo.PngDecode32
open Pixo Pixo.PngDecode
open Pixo.Resize32 (w32 slice32 alloc32)

/-- The bytes of a scanline in `calculate_expected_size` (src/decode/png.rs:84-90). -/
def scanlineBytes32 (h : Ihdr) : Nat :=
  match h.kind with
  | .gray => ceil8 (w32 (h.width * h.depth))
  | .rgb => w32 (w32 (h.width * 3) * h.depth) / 8
  | .indexed => ceil8 (w32 (h.width * h.depth))
  | .grayAlpha => w32 (w32 (h.width * 2) * h.depth) / 8
  | .rgba => w32 (w32 (h.width * 4) * h.depth) / 8

/-- `calculate_expected_size` (src/decode/png.rs:78-98). -/
def expectedSize32 (h : Ihdr) : R Nat :=
  let size := w32 (1 + scanlineBytes32 h) * h.height
  if size < 2 ^ 32 then .ok size else .error .invalid

/-- The chunk loop (src/decode/png.rs:113-205) and the check for IEND after it (208-210). -/
def chunkLoop32 (data : List UInt8) : Nat → Nat → Chunks → R Chunks
  | 0, _, _ => .error .hang
  | fuel + 1, pos, c =>
    if w32 (pos + 12) ≤ data.length then do
      let length ← readBe32 data pos
      let ty ← slice32 data (w32 (pos + 4)) 4
      let crcStart := w32 (w32 (pos + 8) + length)
      if w32 (crcStart + 4) > data.length then .error .invalid
      else do
        let d ← slice32 data (w32 (pos + 8)) length
        let stored ← readBe32 data crcStart
        if stored ≠ (Crc.crc32 (ty ++ d)).toNat then .error .invalid
        else if ty = tyIEND then .ok c
        else do
          let c ← c.add ty d
          chunkLoop32 data fuel (w32 (crcStart + 4)) c
    else .error .invalid

/-- `bpp` and `scanline_bytes` of `reconstruct_image` (src/decode/png.rs:303-332). -/
def layout32 (h : Ihdr) : Nat × Nat :=
  match h.kind with
  | .gray => (max (ceil8 h.depth) 1, ceil8 (w32 (h.width * h.depth)))
  | .rgb => (w32 (3 * h.depth) / 8, w32 (h.width * (w32 (3 * h.depth) / 8)))
  | .indexed => (1, ceil8 (w32 (h.width * h.depth)))
  | .grayAlpha => (w32 (2 * h.depth) / 8, w32 (h.width * (w32 (2 * h.depth) / 8)))
  | .rgba => (w32 (4 * h.depth) / 8, w32 (h.width * (w32 (4 * h.depth) / 8)))

/-- The loop over the scanlines (src/decode/png.rs:347-363). -/
def rowLoop32 (data : List UInt8) (bpp sb : Nat) : Nat → Nat → List UInt8 → R (List UInt8)
  | _, 0, _ => .ok []
  | y, n + 1, prev => do
    let ft ← getChecked data (w32 (y * w32 (1 + sb)))
    let rowData ← slice32 data (w32 (w32 (y * w32 (1 + sb)) + 1)) sb
    let row ← unfilterRow ft rowData prev bpp
    let rest ← rowLoop32 data bpp sb (y + 1) n row
    return row ++ rest

/-- The row loop of `unpack_gray` and `unpack_indices` (src/decode/png.rs:540-543, 558-561): `&data[row * row_bytes..(row + 1) * row_bytes]`. -/
def unpackRows32 (data : List UInt8) (width depth rb : Nat) : Nat → Nat → R (List UInt8)
  | _, 0 => .ok []
  | row, n + 1 => do
    let start := w32 (row * rb)
    let stop := w32 (w32 (row + 1) * rb)
    if start ≤ stop ∧ stop ≤ data.length then do
      let rest ← unpackRows32 data width depth rb (row + 1) n
      return unpackRow ((data.drop start).take (stop - start)) width depth ++ rest
    else .error .panic

/-- `unpack_gray` (src/decode/png.rs:536-551) and `unpack_indices` (554-564) before scaling: the capacity (537, 555), and the samples. -/
def unpack32 (data : List UInt8) (width height depth : Nat) : R (List UInt8) := do
  alloc32 (w32 (width * height))
  let samples ← unpackRows32 data width depth (ceil8 (w32 (width * depth))) 0 height
  alloc32 samples.length
  return samples

/-- The indexed arm of `convert_to_pixels` (src/decode/png.rs:492-531), with the capacities (503, 520) and the growth of the vector. -/
def convertIndexed32 (h : Ihdr) (raw : List UInt8) (palette : List (UInt8 × UInt8 × UInt8)) (trns : Option (List UInt8)) : R (List UInt8) := do
  let indices ← unpack32 raw h.width h.height h.depth
  if hasAlpha trns then do
    alloc32 (w32 (w32 (h.width * h.height) * 4))
    let pixels := indices.flatMap (expandRgba palette (trns.getD []))
    alloc32 pixels.length
    return pixels
  else do
    alloc32 (w32 (w32 (h.width * h.height) * 3))
    let pixels := indices.flatMap (expandRgb palette)
    alloc32 pixels.length
    return pixels

/-- `convert_to_pixels` (src/decode/png.rs:430-533). -/
def convert32 (h : Ihdr) (raw : List UInt8) (palette : Option (List (UInt8 × UInt8 × UInt8))) (trns : Option (List UInt8)) : R (List UInt8) :=
  match h.kind with
  | .gray =>
    if h.depth = 8 then .ok raw
    else if h.depth = 16 then highBytes 2 [0] raw
    else do
      let samples ← unpack32 raw h.width h.height h.depth
      return samples.map (scaleTo8 · h.depth)
  | .grayAlpha => if h.depth = 8 then .ok raw else highBytes 4 [0, 2] raw
  | .rgb => if h.depth = 8 then .ok raw else highBytes 6 [0, 2, 4] raw
  | .rgba => if h.depth = 8 then .ok raw else highBytes 8 [0, 2, 4, 6] raw
  | .indexed =>
    match palette with
    | some p => convertIndexed32 h raw p trns
    | none => .error .invalid

/-- `reconstruct_image` (src/decode/png.rs:292-367), with the capacities of the rows (343-345). -/
def reconstruct32 (h : Ihdr) (data : List UInt8) (palette : Option (List (UInt8 × UInt8 × UInt8))) (trns : Option (List UInt8)) : R (List UInt8) :=
  let (bpp, sb) := layout32 h
  if data.length < w32 (h.height * w32 (1 + sb)) then .error .invalid
  else do
    alloc32 sb
    alloc32 (w32 (h.height * sb))
    let raw ← rowLoop32 data bpp sb 0 h.height (List.replicate sb 0)
    convert32 h raw palette trns

/-- The part of `decode_png` after the chunk loop (src/decode/png.rs:211-285), with the capacity of the output of inflate
(src/decode/inflate.rs:267). -/
def finish32 (adler : List UInt8 → Nat) (c : Chunks) : R PngImage :=
  match c.ihdr with
  | none => .error .invalid
  | some h => do
    validate h
    if c.idat = [] then .error .invalid
    else do
      let size ← expectedSize32 h
      match Inflate.reserve c.idat (some size) with
      | some n => alloc32 n
      | none => .ok ()
      let raw ← Inflate.inflateZlib adler c.idat (some size)
      let pixels ← reconstruct32 h raw c.palette c.trns
      return ⟨h.width, h.height, pixels, outputType h c.trns⟩

/-- `decode_png` (src/decode/png.rs:101-285). -/
def decodePng32 (adler : List UInt8 → Nat) (data : List UInt8) : R PngImage :=
  if data.length < 8 ∨ data.take 8 ≠ signature then .error .invalid
  else do
    let c ← chunkLoop32 data (data.length + 1) 8 ⟨none, [], none, none⟩
    finish32 adler c

end Pixo.PngDecode32
