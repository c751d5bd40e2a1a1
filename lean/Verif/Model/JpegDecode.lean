import Verif.Model.BitReader
import Verif.Model.Color
import Verif.Model.Idct
/-
Model of src/decode/jpeg.rs. `ck` says whether the build checks for overflow and debug assertions.
The position in the file is modelled by the bytes that are left. `usize` has 64 bits and allocation
succeeds.
-/
namespace Pixo.JpegDecode
open Pixo Pixo.Idct

/-! ### Bits -/

/-- `a >> s` and `1 << s` on `u32` or `i32` take a shift below 32; a checked build panics on others,
an unchecked one takes it modulo 32. -/
def shift (ck : Bool) (s : Nat) : R Nat := if s < 32 then .ok s else if ck then .error .panic else .ok (s % 32)

/-- `MsbBitReader::next_byte` (src/decode/bit_reader.rs:160-194): the byte, or nothing for an error, and
the reader afterwards. Each round moves the position. -/
def nextByte : Nat → MsbBitReader → R (Option Nat × MsbBitReader)
  | 0, _ => .error .hang
  | fuel + 1, r =>
    match r.data[r.pos]? with
    | none => .ok (none, r)
    | some byte =>
      if byte = 0xFF then
        match r.data[r.pos + 1]? with
        | none => .ok (none, { r with pos := r.pos + 1 })
        | some next =>
          if next = 0 then .ok (some byte.toNat, { r with pos := r.pos + 2 })
          else if 0xD0 ≤ next ∧ next ≤ 0xD7 then
            nextByte fuel { r with pos := r.pos + 2, bitBuf := 0, bitsInBuf := 0 }
          else .ok (none, r)
      else .ok (some byte.toNat, { r with pos := r.pos + 1 })

/-- `MsbBitReader::ensure` (src/decode/bit_reader.rs:198-206): whether it succeeds. `bits_in_buf` is a
`u8`. -/
def ensure (ck : Bool) : Nat → MsbBitReader → Nat → R (Bool × MsbBitReader)
  | 0, _, _ => .error .hang
  | fuel + 1, r, n =>
    if r.bitsInBuf < n then do
      let (byte, r) ← nextByte (r.data.length + 1) r
      match byte with
      | none => return (false, r)
      | some b =>
        if r.bitsInBuf + 8 < 256 then
          ensure ck fuel { r with bitBuf := ((r.bitBuf <<< 8) % 2 ^ 32) ||| b, bitsInBuf := r.bitsInBuf + 8 } n
        else if ck then .error .panic
        else
          ensure ck fuel { r with bitBuf := ((r.bitBuf <<< 8) % 2 ^ 32) ||| b, bitsInBuf := (r.bitsInBuf + 8) % 256 } n
    else .ok (true, r)

/-- `MsbBitReader::peek_bits` (src/decode/bit_reader.rs:210-215). -/
def peekBits (ck : Bool) (r : MsbBitReader) (n : Nat) : R (Option Nat × MsbBitReader) :=
  if ck = true ∧ n > 25 then .error .panic
  else do
    let (done, r) ← ensure ck (r.data.length + 2) r n
    if done then
      let s ← shift ck (r.bitsInBuf - n)
      let t ← shift ck n
      return (some ((r.bitBuf >>> s) &&& (1 <<< t - 1)), r)
    else return (none, r)

/-- `MsbBitReader::consume` (src/decode/bit_reader.rs:219-227). The subtraction would underflow for more
bits than there are. -/
def consume (r : MsbBitReader) (n : Nat) : R MsbBitReader :=
  if n ≤ r.bitsInBuf then
    let left := r.bitsInBuf - n
    .ok { r with bitsInBuf := left
                 bitBuf := if left < 32 then r.bitBuf &&& ((1 <<< left) - 1) else r.bitBuf }
  else .error .panic

/-- `MsbBitReader::read_bits` (src/decode/bit_reader.rs:231-235). -/
def readBits (ck : Bool) (r : MsbBitReader) (n : Nat) : R (Option Nat × MsbBitReader) := do
  let (v, r) ← peekBits ck r n
  match v with
  | none => return (none, r)
  | some v => return (some v, ← consume r n)

/-! ### Huffman tables -/

/-- `HuffmanTable` (src/decode/jpeg.rs:50-61) without `min_code`, which nothing reads. -/
structure Huff where
  lookup : List Nat
  values : List Nat
  maxCode : List Int
  valOffset : List Int
  deriving DecidableEq, Repr

/-- `HuffmanTable::default` (src/decode/jpeg.rs:63-73). -/
def Huff.empty : Huff := ⟨List.replicate 256 0, [], List.replicate 17 (-1), List.replicate 17 0⟩

/-- The sizes of the codes (src/decode/jpeg.rs:87-92). -/
def sizes (bits : List Nat) : List Nat := bits.zipIdx.flatMap (fun (n, i) => List.replicate n (i + 1))

/-- The codes (src/decode/jpeg.rs:94-104): `code` stays below `2^24`, as there are at most 255 codes of
each of 16 sizes, and is stored as a `u16`. -/
def codes : Nat → Nat → List Nat → List Nat
  | _, _, [] => []
  | code, si, s :: rest => ((code <<< (s - si)) % 2 ^ 16) :: codes (code <<< (s - si) + 1) (max s si) rest

/-- The loop over lengths (src/decode/jpeg.rs:106-121), from index `i`: pairs of `max_code` and
`val_offset`. -/
def limits (huffcode : List Nat) : List Nat → Nat → List (Int × Int)
  | [], _ => []
  | n :: rest, idx =>
    (if n > 0 then
      (((huffcode.getD (idx + n - 1) 0 : Nat) : Int), (idx : Int) - ((huffcode.getD idx 0 : Nat) : Int))
    else (-1, 0)) :: limits huffcode rest (idx + n)

/-- Fill the entries that start with a code (src/decode/jpeg.rs:131-140). -/
def fillEntries (len code val : Nat) (lookup : List Nat) : List Nat :=
  (List.range (2 ^ (8 - len))).foldl (fun t i =>
    let idx := (code <<< (8 - len)) ||| i
    if idx < 256 then t.set idx (val ||| (len <<< 8)) else t) lookup

/-- The fast lookup table (src/decode/jpeg.rs:123-144): `(len, code, val)` for every code. -/
def fillLookup (entries : List (Nat × Nat × Nat)) : List Nat :=
  entries.foldl (fun t e => if e.1 ≤ 8 then fillEntries e.1 e.2.1 e.2.2 t else t) (List.replicate 256 0)

/-- `HuffmanTable::build` (src/decode/jpeg.rs:77-147). -/
def Huff.build (bits values : List Nat) : Huff :=
  let huffsize := sizes bits
  let huffcode := codes 0 (huffsize.headD 0) huffsize
  let lims := limits huffcode bits 0
  let entries := huffsize.zipIdx.map (fun (s, i) => (s, huffcode.getD i 0, values.getD i 0))
  ⟨fillLookup entries, values, -1 :: lims.map (·.1), 0 :: lims.map (·.2)⟩

/-- `decode_slow` (src/decode/jpeg.rs:165-179) from length `len` on: `n` lengths are left. -/
def decodeSlow (ck : Bool) (t : Huff) : Nat → Nat → Int → MsbBitReader → R (Option Nat × MsbBitReader)
  | 0, _, _, r => .ok (none, r)
  | n + 1, len, code, r => do
    let (bit, r) ← readBits ck r 1
    match bit with
    | none => return (none, r)
    | some b =>
      let code := code * 2 + b
      let m ← getChecked t.maxCode len
      if code ≤ m then do
        let o ← getChecked t.valOffset len
        let idx := code + o
        return (if 0 ≤ idx then t.values[idx.toNat]? else none, r)
      else decodeSlow ck t n (len + 1) code r

/-- `HuffmanTable::decode` (src/decode/jpeg.rs:150-163). -/
def Huff.decode (ck : Bool) (t : Huff) (r : MsbBitReader) : R (Option Nat × MsbBitReader) := do
  let (peek, r) ← peekBits ck r 8
  match peek with
  | none => decodeSlow ck t 16 1 0 r
  | some p =>
    let entry ← getChecked t.lookup p
    let len := entry >>> 8
    if len > 0 ∧ len ≤ 8 then do
      let r ← consume r len
      return (some (entry &&& 0xFF), r)
    else decodeSlow ck t 16 1 0 r

/-- `read_amplitude` (src/decode/jpeg.rs:674-685) for a size of at least one. -/
def readAmplitude (ck : Bool) (r : MsbBitReader) (size : Nat) : R (Option Int × MsbBitReader) := do
  let (bits, r) ← readBits ck r size
  match bits with
  | none => return (none, r)
  | some b =>
    let bits := wrap32 b
    let s ← shift ck (size - 1)
    let threshold := wrap32 (2 ^ s)
    if bits < threshold then do
      let a ← i32 ck (2 * threshold)
      let a ← i32 ck (a - 1)
      let a ← i32 ck (bits - a)
      return (some a, r)
    else return (some bits, r)

/-! ### Headers -/

/-- `Component` (src/decode/jpeg.rs:38-46). -/
structure Component where
  h : Nat
  v : Nat
  quant : Nat
  dc : Nat := 0
  ac : Nat := 0
  deriving DecidableEq, Repr

/-- `JpegDecoder` (src/decode/jpeg.rs:183-195) without the file. -/
structure State where
  width : Nat := 0
  height : Nat := 0
  components : List Component := []
  quant : List (List Nat) := List.replicate 4 (List.replicate 64 0)
  dc : List Huff := List.replicate 4 Huff.empty
  ac : List Huff := List.replicate 4 Huff.empty
  restart : Nat := 0
  maxH : Nat := 1
  maxV : Nat := 1

/-- `JpegImage` (src/decode/jpeg.rs:25-35). -/
structure Image where
  width : Nat
  height : Nat
  pixels : List UInt8
  colorType : ColorType
  deriving DecidableEq, Repr

/-- A two byte big-endian number. -/
def be16 (hi lo : UInt8) : Nat := 256 * hi.toNat + lo.toNat

/-- `read_marker` (src/decode/jpeg.rs:253-292): marker, segment and the bytes after it. -/
def readMarker (data : List UInt8) : R (UInt8 × List UInt8 × List UInt8) :=
  match (data.dropWhile (· ≠ 0xFF)).dropWhile (· = 0xFF) with
  | [] => .error .invalid
  | marker :: rest =>
    if 0xD0 ≤ marker ∧ marker ≤ 0xD9 then .ok (marker, [], rest)
    else match rest with
      | hi :: lo :: rest =>
        let length := be16 hi lo
        if length < 2 ∨ rest.length < length - 2 then .error .invalid
        else .ok (marker, rest.take (length - 2), rest.drop (length - 2))
      | _ => .error .invalid

/-- The component loop of `parse_sof0` (src/decode/jpeg.rs:321-354): `n` components are left. -/
def sofComponents (seg : List UInt8) : Nat → Nat → State → R State
  | 0, _, s => .ok s
  | n + 1, i, s => do
    let offset := 6 + i * 3
    let sampling ← getChecked seg (offset + 1)
    let h := (sampling.toNat >>> 4) &&& 0x0F
    let v := sampling.toNat &&& 0x0F
    if h = 0 ∨ v = 0 then .error .invalid
    else do
      let tq ← getChecked seg (offset + 2)
      if tq.toNat > 3 then .error .invalid
      else
        let c : Component := ⟨h, v, tq.toNat, 0, 0⟩
        let s := { s with maxH := max s.maxH h, maxV := max s.maxV v, components := s.components ++ [c] }
        sofComponents seg n (i + 1) s

/-- `parse_sof0` (src/decode/jpeg.rs:294-357). -/
def parseSof0 (seg : List UInt8) (s : State) : R State :=
  if seg.length < 8 then .error .invalid
  else do
    let precision ← getChecked seg 0
    if precision ≠ 8 then .error .unsupported
    else do
      let height := be16 (← getChecked seg 1) (← getChecked seg 2)
      let width := be16 (← getChecked seg 3) (← getChecked seg 4)
      let n := (← getChecked seg 5).toNat
      if n ≠ 1 ∧ n ≠ 3 then .error .unsupported
      else if seg.length < 6 + n * 3 then .error .invalid
      else sofComponents seg n 0 { s with height := height, width := width, components := [] }

/-- The first `n` elements of a slice read one by one, which panics for a shorter slice. -/
def takeChecked {α : Type} (l : List α) (n : Nat) : R (List α) := if l.length < n then .error .panic else .ok (l.take n)

/-- `parse_dht` (src/decode/jpeg.rs:359-396). -/
def parseDht : Nat → List UInt8 → State → R State
  | _, [], s => .ok s
  | 0, _ :: _, _ => .error .hang
  | fuel + 1, info :: rest, s =>
    let cls := (info.toNat >>> 4) &&& 0x0F
    let id := info.toNat &&& 0x0F
    if id > 3 then .error .invalid
    else if rest.length < 16 then .error .invalid
    else do
      let bits ← takeChecked rest 16
      let bits := bits.map UInt8.toNat
      let rest := rest.drop 16
      let n := bits.sum
      if rest.length < n then .error .invalid
      else do
        let values ← takeChecked rest n
        let table := Huff.build bits (values.map UInt8.toNat)
        if cls = 0 then do
          let dc ← setChecked s.dc id table
          parseDht fuel (rest.drop n) { s with dc := dc }
        else do
          let ac ← setChecked s.ac id table
          parseDht fuel (rest.drop n) { s with ac := ac }

/-- Sixteen bit numbers. -/
def be16s : List UInt8 → List Nat
  | hi :: lo :: rest => be16 hi lo :: be16s rest
  | _ => []

/-- `parse_dqt` (src/decode/jpeg.rs:398-434). -/
def parseDqt : Nat → List UInt8 → State → R State
  | _, [], s => .ok s
  | 0, _ :: _, _ => .error .hang
  | fuel + 1, info :: rest, s =>
    let precision := (info.toNat >>> 4) &&& 0x0F
    let id := info.toNat &&& 0x0F
    if id > 3 then .error .invalid
    else if precision = 0 then
      if rest.length < 64 then .error .invalid
      else do
        let bytes ← takeChecked rest 64
        let quant ← setChecked s.quant id (bytes.map UInt8.toNat)
        parseDqt fuel (rest.drop 64) { s with quant := quant }
    else
      if rest.length < 128 then .error .invalid
      else do
        let bytes ← takeChecked rest 128
        let quant ← setChecked s.quant id (be16s bytes)
        parseDqt fuel (rest.drop 128) { s with quant := quant }

/-- `parse_dri` (src/decode/jpeg.rs:436-444). -/
def parseDri (seg : List UInt8) (s : State) : R State :=
  match seg with
  | [hi, lo] => .ok { s with restart := be16 hi lo }
  | _ => .error .invalid

/-- The loop of `parse_sos` (src/decode/jpeg.rs:457-481): `n` components are left. -/
def sosComponents (seg : List UInt8) : Nat → Nat → List Component → R (List Component)
  | 0, _, cs => .ok cs
  | n + 1, i, cs =>
    let offset := 1 + i * 2
    if offset + 1 ≥ seg.length then .error .invalid
    else do
      let tables ← getChecked seg (offset + 1)
      let dc := (tables.toNat >>> 4) &&& 0x0F
      let ac := tables.toNat &&& 0x0F
      if dc > 3 then .error .invalid
      else if ac > 3 then .error .invalid
      else do
        let c ← getChecked cs i
        sosComponents seg n (i + 1) (cs.set i { c with dc := dc, ac := ac })

/-- `parse_sos` (src/decode/jpeg.rs:446-484). -/
def parseSos (seg : List UInt8) (s : State) : R State :=
  match seg with
  | [] => .error .invalid
  | n :: _ =>
    if n.toNat ≠ s.components.length then .error .invalid
    else do
      let cs ← sosComponents seg n.toNat 0 s.components
      return { s with components := cs }

/-! ### The scan -/

/-- `find_entropy_end` (src/decode/jpeg.rs:652-671). -/
def entropyEnd : List UInt8 → Nat
  | a :: b :: rest =>
    if a = 0xFF ∧ b ≠ 0x00 ∧ b ≠ 0xFF then
      if 0xD0 ≤ b ∧ b ≤ 0xD7 then 2 + entropyEnd rest else 0
    else 1 + entropyEnd (b :: rest)
  | l => l.length

/-- The AC loop (src/decode/jpeg.rs:549-585) from position `k`; every round moves it. Nothing stands for
leaving the MCU loop. -/
def acLoop (ck : Bool) (t : Huff) : Nat → Nat → List Int → MsbBitReader → R (Option (List Int) × MsbBitReader)
  | 0, _, _, _ => .error .hang
  | fuel + 1, k, coeffs, r =>
    if k < 64 then do
      let (symbol, r) ← t.decode ck r
      match symbol with
      | none => return (none, r)
      | some symbol =>
        if symbol = 0 then return (some coeffs, r)
        else
          let run := (symbol >>> 4) &&& 0x0F
          let size := symbol &&& 0x0F
          if symbol = 0xF0 then acLoop ck t fuel (k + 16) coeffs r
          else if k + run ≥ 64 then return (some coeffs, r)
          else if size > 0 then do
            let (amp, r) ← readAmplitude ck r size
            match amp with
            | none => return (none, r)
            | some a => do
              let coeffs ← setChecked coeffs (k + run) (wrap16 a)
              acLoop ck t fuel (k + run + 1) coeffs r
          else acLoop ck t fuel (k + run + 1) coeffs r
    else return (some coeffs, r)

/-- The coefficients of a block and the new DC prediction (src/decode/jpeg.rs:530-585), in zigzag order. -/
def decodeBlock (ck : Bool) (s : State) (c : Component) (pred : Int) (r : MsbBitReader) :
    R (Option (List Int × Int) × MsbBitReader) := do
  let dc ← getChecked s.dc c.dc
  let (category, r) ← dc.decode ck r
  match category with
  | none => return (none, r)
  | some category =>
    let (diff, r) ← if category > 0 then readAmplitude ck r category else pure (some 0, r)
    match diff with
    | none => return (none, r)
    | some diff => do
      let pred ← i32 ck (pred + diff)
      let ac ← getChecked s.ac c.ac
      let (coeffs, r) ← acLoop ck ac 64 1 ((List.replicate 64 0).set 0 (wrap16 pred)) r
      match coeffs with
      | none => return (none, r)
      | some coeffs => return (some (coeffs, pred), r)

/-- Store a block (src/decode/jpeg.rs:592-606). The samples are kept as bytes. -/
def storeBlock (width x y : Nat) (pixels data : List UInt8) : List UInt8 :=
  (List.range 64).foldl (fun data i =>
    let idx := (y + i / 8) * width + (x + i % 8)
    if idx < data.length then data.set idx (pixels.getD i 0) else data) data

/-- What the MCU loop changes. -/
structure Scan where
  reader : MsbBitReader
  preds : List Int
  data : List (List UInt8)

/-- A block of an MCU (src/decode/jpeg.rs:528-606): component and position in blocks. -/
def blockStep (ck : Bool) (s : State) (mcuCols : Nat) (i bx byy : Nat) (st : Scan) : R (Bool × Scan) := do
  let c ← getChecked s.components i
  let pred ← getChecked st.preds i
  let (res, r) ← decodeBlock ck s c pred st.reader
  match res with
  | none => return (false, { st with reader := r })
  | some (coeffs, pred) => do
    let preds ← setChecked st.preds i pred
    let q ← getChecked s.quant c.quant
    let pixels ← idct ck (dequantize coeffs q)
    let d ← getChecked st.data i
    let data ← setChecked st.data i (storeBlock (mcuCols * c.h * 8) (bx * 8) (byy * 8) pixels d)
    return (true, ⟨r, preds, data⟩)

/-- The blocks of the MCU in column `mx` and row `my` (src/decode/jpeg.rs:523-529, 594-595). -/
def mcuBlocks (cs : List Component) (mx my : Nat) : List (Nat × Nat × Nat) :=
  cs.zipIdx.flatMap (fun (c, i) => (List.range c.v).flatMap (fun byy =>
    (List.range c.h).map (fun bx => (i, mx * c.h + bx, my * c.v + byy))))

/-- Blocks one after another, up to a failure. -/
def blocksLoop (ck : Bool) (s : State) (mcuCols : Nat) : List (Nat × Nat × Nat) → Scan → R (Bool × Scan)
  | [], st => .ok (true, st)
  | (i, bx, byy) :: rest, st => do
    let (go, st) ← blockStep ck s mcuCols i bx byy st
    if go then blocksLoop ck s mcuCols rest st else return (false, st)

/-- The MCU loop (src/decode/jpeg.rs:511-612), `count` MCUs done. -/
def mcuLoop (ck : Bool) (s : State) (mcuCols : Nat) : List (Nat × Nat) → Nat → Scan → R Scan
  | [], _, st => .ok st
  | (mx, my) :: rest, count, st => do
    let st := if s.restart > 0 ∧ count > 0 ∧ count % s.restart = 0 then { st with preds := st.preds.map (fun _ => 0) }
      else st
    let (go, st) ← blocksLoop ck s mcuCols (mcuBlocks s.components mx my) st
    if go then mcuLoop ck s mcuCols rest (count + 1) st else return st

/-- `usize::div_ceil` by a positive number (the sampling factors start at 1 and only grow). -/
def divCeil (a b : Nat) : Nat := (a + b - 1) / b

/-- Grayscale pixels (src/decode/jpeg.rs:616-625). -/
def grayPixels (data : List UInt8) (compWidth width height : Nat) : List UInt8 :=
  (List.range height).flatMap (fun y => (List.range width).map (fun x => data.getD (y * compWidth + x) 0))

/-- `v.clamp(0, 255) as u8`. -/
def clampByte (v : Int) : UInt8 := UInt8.ofNat (min (max v 0) 255).toNat

/-- The conversion of a pixel (src/decode/jpeg.rs:719-730). -/
def toRgb (y cb cr : Int) : List UInt8 :=
  let cb := cb - 128
  let cr := cr - 128
  [clampByte (y + cr * 359 / 2 ^ 8), clampByte (y - (cb * 88 + cr * 183) / 2 ^ 8), clampByte (y + cb * 454 / 2 ^ 8)]

/-- `a / b` on unsigned integers, which panics for a zero divisor. -/
def divChecked (a b : Nat) : R Nat := if b = 0 then .error .panic else .ok (a / b)

/-- `ycbcr_to_rgb` (src/decode/jpeg.rs:688-735). -/
def rgbPixels (data : List (List UInt8)) (width height : Nat) (cs : List Component) (maxH maxV : Nat) : R (List UInt8) := do
  let c1 ← getChecked cs 1
  let c2 ← getChecked cs 2
  let hCb ← divChecked maxH c1.h
  let vCb ← divChecked maxV c1.v
  let hCr ← divChecked maxH c2.h
  let vCr ← divChecked maxV c2.v
  let d0 ← getChecked data 0
  let d1 ← getChecked data 1
  let d2 ← getChecked data 2
  let cols := divCeil width (maxH * 8)
  let rows ← (List.range height).mapM (fun y => do
    let cbY ← divChecked y vCb
    let crY ← divChecked y vCr
    let row ← (List.range width).mapM (fun x => do
      let cbX ← divChecked x hCb
      let crX ← divChecked x hCr
      return toRgb ((d0.getD (y * (cols * maxH * 8) + x) 0).toNat)
        ((d1.getD (cbY * (cols * c1.h * 8) + cbX) 128).toNat)
        ((d2.getD (crY * (cols * c2.h * 8) + crX) 128).toNat))
    return row.flatten)
  return rows.flatten

/-- `decode_scan` (src/decode/jpeg.rs:486-649) on the bytes after the scan header. -/
def decodeScan (ck : Bool) (s : State) (rest : List UInt8) : R Image := do
  let mcuCols := divCeil s.width (s.maxH * 8)
  let mcuRows := divCeil s.height (s.maxV * 8)
  let data := s.components.map (fun c => List.replicate (mcuCols * c.h * 8 * (mcuRows * c.v * 8)) (0 : UInt8))
  let reader : MsbBitReader := ⟨rest.take (entropyEnd rest), 0, 0, 0⟩
  let mcus := (List.range mcuRows).flatMap (fun my => (List.range mcuCols).map (fun mx => (mx, my)))
  let st ← mcuLoop ck s mcuCols mcus 0 ⟨reader, s.components.map (fun _ => 0), data⟩
  if s.components.length = 1 then do
    let c ← getChecked s.components 0
    let d ← getChecked st.data 0
    return ⟨s.width, s.height, grayPixels d (mcuCols * c.h * 8) s.width s.height, .gray⟩
  else do
    let pixels ← rgbPixels st.data s.width s.height s.components s.maxH s.maxV
    return ⟨s.width, s.height, pixels, .rgb⟩

/-- The marker loop of `decode` (src/decode/jpeg.rs:221-250); every round reads a marker. -/
def markerLoop (ck : Bool) : Nat → State → List UInt8 → R Image
  | 0, _, _ => .error .hang
  | fuel + 1, s, data => do
    let (marker, seg, rest) ← readMarker data
    if marker = 0xC0 then do
      let s ← parseSof0 seg s
      markerLoop ck fuel s rest
    else if marker = 0xC2 then .error .unsupported
    else if marker = 0xC4 then do
      let s ← parseDht seg.length seg s
      markerLoop ck fuel s rest
    else if marker = 0xDB then do
      let s ← parseDqt seg.length seg s
      markerLoop ck fuel s rest
    else if marker = 0xDD then do
      let s ← parseDri seg s
      markerLoop ck fuel s rest
    else if marker = 0xDA then do
      let s ← parseSos seg s
      decodeScan ck s rest
    else if marker = 0xD9 then .error .invalid
    else markerLoop ck fuel s rest

/-- `decode_jpeg` (src/decode/jpeg.rs:738-740, 214-251). -/
def decodeJpeg (ck : Bool) (data : List UInt8) : R Image :=
  match data with
  | 0xFF :: 0xD8 :: rest => markerLoop ck (rest.length + 1) {} rest
  | _ => .error .invalid

end Pixo.JpegDecode
