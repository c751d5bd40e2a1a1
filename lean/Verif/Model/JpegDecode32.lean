import Verif.Model.JpegDecode
import Verif.Model.Resize32
/-
Model of `decode_scan` of src/decode/jpeg.rs once more, for a machine whose `usize` has 32 bits, in a release build: arithmetic wraps, allocations of
2^31 bytes or more panic, smaller ones succeed (`w32`, `alloc32` of Model/Resize32). The input is less than 2^31 bytes, since it is in memory;
positions in it are at most 65537 beyond its end and do not wrap, so everything before the scan and the bit reader are those of
Model/JpegDecode. Not modelled: that several allocations can be too much together.
-/
namespace Pixo.JpegDecode32
open Pixo Pixo.JpegDecode Pixo.Idct
open Pixo.Resize32 (w32 alloc32)

/-- Store a block (src/decode/jpeg.rs:594-606). -/
def storeBlock32 (width x y : Nat) (pixels data : List UInt8) : List UInt8 :=
  (List.range 64).foldl (fun data i =>
    let idx := w32 (w32 (w32 (y + i / 8) * width) + w32 (x + i % 8))
    if idx < data.length then data.set idx (pixels.getD i 0) else data) data

/-- A block of an MCU (src/decode/jpeg.rs:528-606): component and position in blocks. -/
def blockStep32 (s : State) (mcuCols : Nat) (i bx byy : Nat) (st : Scan) : R (Bool × Scan) := do
  let c ← getChecked s.components i
  let pred ← getChecked st.preds i
  let (res, r) ← decodeBlock false s c pred st.reader
  match res with
  | none => return (false, { st with reader := r })
  | some (coeffs, pred) => do
    let preds ← setChecked st.preds i pred
    let q ← getChecked s.quant c.quant
    let pixels ← idct false (dequantize coeffs q)
    let d ← getChecked st.data i
    let data ← setChecked st.data i (storeBlock32 (w32 (w32 (mcuCols * c.h) * 8)) (w32 (bx * 8)) (w32 (byy * 8)) pixels d)
    return (true, ⟨r, preds, data⟩)

/-- The blocks of the MCU in column `mx` and row `my` (src/decode/jpeg.rs:523-529, 594-595). -/
def mcuBlocks32 (cs : List Component) (mx my : Nat) : List (Nat × Nat × Nat) :=
  cs.zipIdx.flatMap (fun (c, i) => (List.range c.v).flatMap (fun byy =>
    (List.range c.h).map (fun bx => (i, w32 (w32 (mx * c.h) + bx), w32 (w32 (my * c.v) + byy)))))

/-- Blocks one after another, up to a failure. -/
def blocksLoop32 (s : State) (mcuCols : Nat) : List (Nat × Nat × Nat) → Scan → R (Bool × Scan)
  | [], st => .ok (true, st)
  | (i, bx, byy) :: rest, st => do
    let (go, st) ← blockStep32 s mcuCols i bx byy st
    if go then blocksLoop32 s mcuCols rest st else return (false, st)

/-- The MCU loop (src/decode/jpeg.rs:511-612), `count` MCUs done. -/
def mcuLoop32 (s : State) (mcuCols : Nat) : List (Nat × Nat) → Nat → Scan → R Scan
  | [], _, st => .ok st
  | (mx, my) :: rest, count, st => do
    let st := if s.restart > 0 ∧ count > 0 ∧ count % s.restart = 0 then { st with preds := st.preds.map (fun _ => 0) }
      else st
    let (go, st) ← blocksLoop32 s mcuCols (mcuBlocks32 s.components mx my) st
    if go then mcuLoop32 s mcuCols rest (count + 1) st else return st

/-- The size of the buffer of a component, in samples (src/decode/jpeg.rs:496-498). -/
def plane32 (mcuCols mcuRows : Nat) (c : Component) : Nat := w32 (w32 (w32 (mcuCols * c.h) * 8) * w32 (w32 (mcuRows * c.v) * 8))

/-- The buffers of the components (src/decode/jpeg.rs:492-500), of two bytes for each sample. -/
def planes32 (mcuCols mcuRows : Nat) : List Component → R (List (List UInt8))
  | [] => .ok []
  | c :: cs => do
    alloc32 (2 * plane32 mcuCols mcuRows c)
    let rest ← planes32 mcuCols mcuRows cs
    return List.replicate (plane32 mcuCols mcuRows c) 0 :: rest

/-- Grayscale pixels (src/decode/jpeg.rs:616-625): the capacity, and the growth of the vector where that has wrapped. -/
def grayPixels32 (data : List UInt8) (compWidth width height : Nat) : R (List UInt8) := do
  alloc32 (w32 (width * height))
  alloc32 (width * height)
  return (List.range height).flatMap (fun y => (List.range width).map (fun x => data.getD (w32 (w32 (y * compWidth) + x)) 0))

/-- `ycbcr_to_rgb` (src/decode/jpeg.rs:688-735): the capacity, and the growth of the vector where that has wrapped. -/
def rgbPixels32 (data : List (List UInt8)) (width height : Nat) (cs : List Component) (maxH maxV : Nat) : R (List UInt8) := do
  alloc32 (w32 (w32 (width * height) * 3))
  let c1 ← getChecked cs 1
  let c2 ← getChecked cs 2
  let hCb ← divChecked maxH c1.h
  let vCb ← divChecked maxV c1.v
  let hCr ← divChecked maxH c2.h
  let vCr ← divChecked maxV c2.v
  let d0 ← getChecked data 0
  let d1 ← getChecked data 1
  let d2 ← getChecked data 2
  let cols := divCeil width (maxH * 8)
  alloc32 (width * height * 3)
  let rows ← (List.range height).mapM (fun y => do
    let cbY ← divChecked y vCb
    let crY ← divChecked y vCr
    let row ← (List.range width).mapM (fun x => do
      let cbX ← divChecked x hCb
      let crX ← divChecked x hCr
      return toRgb ((d0.getD (w32 (w32 (y * w32 (w32 (cols * maxH) * 8)) + x)) 0).toNat)
        ((d1.getD (w32 (w32 (cbY * w32 (w32 (cols * c1.h) * 8)) + cbX)) 128).toNat)
        ((d2.getD (w32 (w32 (crY * w32 (w32 (cols * c2.h) * 8)) + crX)) 128).toNat))
    return row.flatten)
  return rows.flatten

/-- `decode_scan` (src/decode/jpeg.rs:486-649) on the bytes after the scan header. -/
def decodeScan32 (s : State) (rest : List UInt8) : R Image := do
  let mcuCols := divCeil s.width (s.maxH * 8)
  let mcuRows := divCeil s.height (s.maxV * 8)
  let data ← planes32 mcuCols mcuRows s.components
  let reader : MsbBitReader := ⟨rest.take (entropyEnd rest), 0, 0, 0⟩
  let mcus := (List.range mcuRows).flatMap (fun my => (List.range mcuCols).map (fun mx => (mx, my)))
  let st ← mcuLoop32 s mcuCols mcus 0 ⟨reader, s.components.map (fun _ => 0), data⟩
  if s.components.length = 1 then do
    let c ← getChecked s.components 0
    let d ← getChecked st.data 0
    let pixels ← grayPixels32 d (w32 (w32 (mcuCols * c.h) * 8)) s.width s.height
    return ⟨s.width, s.height, pixels, .gray⟩
  else do
    let pixels ← rgbPixels32 st.data s.width s.height s.components s.maxH s.maxV
    return ⟨s.width, s.height, pixels, .rgb⟩

/-- The marker loop of `decode` (src/decode/jpeg.rs:221-250); every round reads a marker. -/
def markerLoop32 : Nat → State → List UInt8 → R Image
  | 0, _, _ => .error .hang
  | fuel + 1, s, data => do
    let (marker, seg, rest) ← readMarker data
    if marker = 0xC0 then do
      let s ← parseSof0 seg s
      markerLoop32 fuel s rest
    else if marker = 0xC2 then .error .unsupported
    else if marker = 0xC4 then do
      let s ← parseDht seg.length seg s
      markerLoop32 fuel s rest
    else if marker = 0xDB then do
      let s ← parseDqt seg.length seg s
      markerLoop32 fuel s rest
    else if marker = 0xDD then do
      let s ← parseDri seg s
      markerLoop32 fuel s rest
    else if marker = 0xDA then do
      let s ← parseSos seg s
      decodeScan32 s rest
    else if marker = 0xD9 then .error .invalid
    else markerLoop32 fuel s rest

/-- `decode_jpeg` (src/decode/jpeg.rs:738-740, 214-251). -/
def decodeJpeg32 (data : List UInt8) : R Image :=
  match data with
  | 0xFF :: 0xD8 :: rest => markerLoop32 (rest.length + 1) {} rest
  | _ => .error .invalid

end Pixo.JpegDecode32
