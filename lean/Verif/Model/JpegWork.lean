import Verif.Model.InflateWork
import Verif.Model.JpegDecode
/-
How much work `decode_scan` of src/decode/jpeg.rs does: the functions of Model/JpegDecode once more, in a release build, each also giving the number
of steps (`Counted` of Model/InflateWork). A step is one round of a loop, one attempt to decode a symbol or to read an amplitude, one of the 16
passes of the inverse transform, or one sample that is set. Not counted are the loops which fill the buffer of the bit reader; each of their rounds
but the last of a call moves on by a byte. Headers count one step for each byte up to the last that could be read; what is done with
the tables in them is not counted (a Huffman table, of 17 bytes or more, has at most 255 codes of each of 16 lengths and 256 entries).
-/
namespace Pixo.JpegDecode
open Pixo Pixo.Idct
open Pixo.Inflate (Counted tick free)

/-- `decode_slow` (src/decode/jpeg.rs:165-179). -/
def decodeSlowC (t : Huff) : Nat → Nat → Int → MsbBitReader → Counted (Option Nat × MsbBitReader)
  | 0, _, _, r => pure (none, r)
  | n + 1, len, code, r => do
    tick 1
    let (bit, r) ← free (readBits false r 1)
    match bit with
    | none => return (none, r)
    | some b =>
      let code := code * 2 + b
      let m ← free (getChecked t.maxCode len)
      if code ≤ m then do
        let o ← free (getChecked t.valOffset len)
        let idx := code + o
        return (if 0 ≤ idx then t.values[idx.toNat]? else none, r)
      else decodeSlowC t n (len + 1) code r

/-- `HuffmanTable::decode` (src/decode/jpeg.rs:150-163). -/
def Huff.decodeC (t : Huff) (r : MsbBitReader) : Counted (Option Nat × MsbBitReader) := do
  tick 1
  let (peek, r) ← free (peekBits false r 8)
  match peek with
  | none => decodeSlowC t 16 1 0 r
  | some p =>
    let entry ← free (getChecked t.lookup p)
    let len := entry >>> 8
    if len > 0 ∧ len ≤ 8 then do
      let r ← free (consume r len)
      return (some (entry &&& 0xFF), r)
    else decodeSlowC t 16 1 0 r

/-- The AC loop (src/decode/jpeg.rs:549-585). -/
def acLoopC (t : Huff) : Nat → Nat → List Int → MsbBitReader → Counted (Option (List Int) × MsbBitReader)
  | 0, _, _, _ => free (.error .hang)
  | fuel + 1, k, coeffs, r =>
    if k < 64 then do
      let (symbol, r) ← t.decodeC r
      match symbol with
      | none => return (none, r)
      | some symbol =>
        if symbol = 0 then return (some coeffs, r)
        else
          let run := (symbol >>> 4) &&& 0x0F
          let size := symbol &&& 0x0F
          if symbol = 0xF0 then acLoopC t fuel (k + 16) coeffs r
          else if k + run ≥ 64 then return (some coeffs, r)
          else if size > 0 then do
            tick 1
            let (amp, r) ← free (readAmplitude false r size)
            match amp with
            | none => return (none, r)
            | some a => do
              let coeffs ← free (setChecked coeffs (k + run) (wrap16 a))
              acLoopC t fuel (k + run + 1) coeffs r
          else acLoopC t fuel (k + run + 1) coeffs r
    else return (some coeffs, r)

/-- The amplitude of a DC coefficient (src/decode/jpeg.rs:536-545). -/
def dcDiffC (category : Nat) (r : MsbBitReader) : Counted (Option Int × MsbBitReader) :=
  if category > 0 then do
    tick 1
    free (readAmplitude false r category)
  else pure (some 0, r)

/-- The coefficients of a block (src/decode/jpeg.rs:530-585): 64 steps to set them to zero. -/
def decodeBlockC (s : State) (c : Component) (pred : Int) (r : MsbBitReader) : Counted (Option (List Int × Int) × MsbBitReader) := do
  tick 64
  let dc ← free (getChecked s.dc c.dc)
  let (category, r) ← dc.decodeC r
  match category with
  | none => return (none, r)
  | some category => do
    let (diff, r) ← dcDiffC category r
    match diff with
    | none => return (none, r)
    | some diff => do
      let pred ← free (i32 false (pred + diff))
      let ac ← free (getChecked s.ac c.ac)
      let (coeffs, r) ← acLoopC ac 64 1 ((List.replicate 64 0).set 0 (wrap16 pred)) r
      match coeffs with
      | none => return (none, r)
      | some coeffs => return (some (coeffs, pred), r)

/-- A block of an MCU (src/decode/jpeg.rs:528-606): 64 coefficients are multiplied, 16 rows and columns transformed, 64 samples stored. -/
def blockStepC (s : State) (mcuCols : Nat) (i bx byy : Nat) (st : Scan) : Counted (Bool × Scan) := do
  let c ← free (getChecked s.components i)
  let pred ← free (getChecked st.preds i)
  let (res, r) ← decodeBlockC s c pred st.reader
  match res with
  | none => return (false, { st with reader := r })
  | some (coeffs, pred) => do
    tick (64 + 16 + 64)
    let preds ← free (setChecked st.preds i pred)
    let q ← free (getChecked s.quant c.quant)
    let pixels ← free (idct false (dequantize coeffs q))
    let d ← free (getChecked st.data i)
    let data ← free (setChecked st.data i (storeBlock (mcuCols * c.h * 8) (bx * 8) (byy * 8) pixels d))
    return (true, ⟨r, preds, data⟩)

/-- Blocks one after another, up to a failure. -/
def blocksLoopC (s : State) (mcuCols : Nat) : List (Nat × Nat × Nat) → Scan → Counted (Bool × Scan)
  | [], st => pure (true, st)
  | (i, bx, byy) :: rest, st => do
    let (go, st) ← blockStepC s mcuCols i bx byy st
    if go then blocksLoopC s mcuCols rest st else return (false, st)

/-- The MCU loop (src/decode/jpeg.rs:511-612): a round, and one for each component to reset its prediction. -/
def mcuLoopC (s : State) (mcuCols : Nat) : List (Nat × Nat) → Nat → Scan → Counted Scan
  | [], _, st => pure st
  | (mx, my) :: rest, count, st => do
    tick (1 + s.components.length)
    let st := if s.restart > 0 ∧ count > 0 ∧ count % s.restart = 0 then { st with preds := st.preds.map (fun _ => 0) }
      else st
    let (go, st) ← blocksLoopC s mcuCols (mcuBlocks s.components mx my) st
    if go then mcuLoopC s mcuCols rest (count + 1) st else return st

/-- `decode_scan` (src/decode/jpeg.rs:486-649) on the bytes after the scan header: the samples are set to zero (492-500), the end of the data is
looked for (504), and there is a round for each pixel (617-622, 715-732). -/
def decodeScanC (s : State) (rest : List UInt8) : Counted Image := do
  let mcuCols := divCeil s.width (s.maxH * 8)
  let mcuRows := divCeil s.height (s.maxV * 8)
  tick (s.components.map (fun c => mcuCols * c.h * 8 * (mcuRows * c.v * 8))).sum
  let data := s.components.map (fun c => List.replicate (mcuCols * c.h * 8 * (mcuRows * c.v * 8)) (0 : UInt8))
  tick (entropyEnd rest + 1)
  let reader : MsbBitReader := ⟨rest.take (entropyEnd rest), 0, 0, 0⟩
  let mcus := (List.range mcuRows).flatMap (fun my => (List.range mcuCols).map (fun mx => (mx, my)))
  let st ← mcuLoopC s mcuCols mcus 0 ⟨reader, s.components.map (fun _ => 0), data⟩
  tick (s.width * s.height)
  if s.components.length = 1 then do
    let c ← free (getChecked s.components 0)
    let d ← free (getChecked st.data 0)
    return ⟨s.width, s.height, grayPixels d (mcuCols * c.h * 8) s.width s.height, .gray⟩
  else do
    let pixels ← free (rgbPixels st.data s.width s.height s.components s.maxH s.maxV)
    return ⟨s.width, s.height, pixels, .rgb⟩

/-- The marker loop of `decode` (src/decode/jpeg.rs:221-250). -/
def markerLoopC : Nat → State → List UInt8 → Counted Image
  | 0, _, _ => free (.error .hang)
  | fuel + 1, s, data => do
    let (marker, seg, rest) ← free (readMarker data)
    tick (data.length - rest.length)
    if marker = 0xC0 then do
      let s ← free (parseSof0 seg s)
      markerLoopC fuel s rest
    else if marker = 0xC2 then free (.error .unsupported)
    else if marker = 0xC4 then do
      let s ← free (parseDht seg.length seg s)
      markerLoopC fuel s rest
    else if marker = 0xDB then do
      let s ← free (parseDqt seg.length seg s)
      markerLoopC fuel s rest
    else if marker = 0xDD then do
      let s ← free (parseDri seg s)
      markerLoopC fuel s rest
    else if marker = 0xDA then do
      let s ← free (parseSos seg s)
      decodeScanC s rest
    else if marker = 0xD9 then free (.error .invalid)
    else markerLoopC fuel s rest

/-- `decode_jpeg` (src/decode/jpeg.rs:738-740, 214-251). -/
def decodeJpegC (data : List UInt8) : Counted Image :=
  match data with
  | 0xFF :: 0xD8 :: rest => markerLoopC (rest.length + 1) {} rest
  | _ => free (.error .invalid)

end Pixo.JpegDecode
