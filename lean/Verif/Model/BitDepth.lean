import Verif.Model.Color
/-
Model of src/png/bit_depth.rs. Bit depths are 1, 2, 4 or 8.
-/
namespace Pixo.BitDepth

/-- `palette_bit_depth` (src/png/bit_depth.rs:18-30). -/
def paletteBitDepth (len : Nat) : Nat :=
  if len = 0 then 8 else if len ≤ 2 then 1 else if len ≤ 4 then 2 else if len ≤ 16 then 4 else 8

/-- `data.iter().copied().max().unwrap()` of a non-empty slice (src/png/bit_depth.rs:36). -/
def maxByte (data : List UInt8) : Nat := data.foldl (fun m b => max m b.toNat) 0

/-- `reduce_gray_bit_depth` (src/png/bit_depth.rs:32-46). -/
def reduceGray (data : List UInt8) : Option Nat :=
  if data.isEmpty then none
  else if maxByte data ≤ 1 then some 1
  else if maxByte data ≤ 3 then some 2
  else if maxByte data ≤ 15 then some 4
  else some 8

/-- `reduce_bit_depth` (src/png/bit_depth.rs:11-16). -/
def reduceBitDepth (data : List UInt8) (ct : ColorType) : Option Nat :=
  match ct with
  | .gray => reduceGray data
  | _ => none

/-- The loop over one row (src/png/bit_depth.rs:123-138), for a depth below 8: `acc` and
`acc_bits`, then the final flush. `acc << bits` drops the bits shifted out. -/
def packRow (bits : Nat) : List UInt8 → UInt8 → Nat → List UInt8
  | [], acc, accBits => if accBits > 0 then [acc <<< UInt8.ofNat (8 - accBits)] else []
  | v :: row, acc, accBits =>
    let acc := (acc <<< UInt8.ofNat bits) ||| (v &&& UInt8.ofNat (2 ^ bits - 1))
    if accBits + bits = 8 then acc :: packRow bits row 0 0 else packRow bits row acc (accBits + bits)

/-- The rows of `chunks_exact(width)`. -/
def rowsExact (data : List UInt8) (width : Nat) : List (List UInt8) :=
  (List.range (data.length / width)).map fun y => (data.drop (y * width)).take width

/-- `pack_bits_rows` (src/png/bit_depth.rs:105-149), with its two names `pack_gray_rows` and
`pack_indexed_rows` (70-76). The assertion on the length (142-147) is checked in debug builds. -/
def packRows (data : List UInt8) (width bits : Nat) : R (List UInt8) :=
  if bits = 8 then .ok data
  else if width = 0 ∨ data.isEmpty then .ok []
  else if data.length % width = 0 then
    .ok ((rowsExact data width).flatMap fun row => packRow bits row 0 0)
  else .error .panic

end Pixo.BitDepth
