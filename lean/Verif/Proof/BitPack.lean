import Verif.Model.BitDepth
import Verif.Proof.PngPixels
import Verif.Proof.BitWriter
/-
Packing samples of 1, 2 or 4 bits: the rows hold the samples in the order of the PNG
specification, with zero padding.
-/
namespace Pixo.BitDepth
open Spec Spec.Png
open Pixo.PngDecode (ceil8 flatMap_get flatMap_length)

/-- The depths below 8. -/
def SubByte (d : Nat) : Prop := d = 1 ∨ d = 2 ∨ d = 4

theorem bitsMSB_mod (v n k : Nat) (h : n ≤ k) : bitsMSB (v % 2 ^ k) n = bitsMSB v n := by
  unfold bitsMSB; rw [bitsLSB_mod v n k h]

theorem bitsMSB_concat (a b n m : Nat) (h : b < 2 ^ m) : bitsMSB (a * 2 ^ m + b) (m + n) = bitsMSB a n ++ bitsMSB b m := by
  rw [bitsMSB_add, Nat.mul_comm a, Nat.mul_add_div (Nat.two_pow_pos m), Nat.div_eq_of_lt h, Nat.add_zero]
  congr 1
  rw [← bitsMSB_mod _ m m (Nat.le_refl _), Nat.mul_add_mod, Nat.mod_eq_of_lt h]

theorem shl_toNat (a : UInt8) {k : Nat} (hk : k < 8) : (a <<< UInt8.ofNat k).toNat = a.toNat * 2 ^ k % 2 ^ 8 := by
  rw [UInt8.toNat_shiftLeft, UInt8.toNat_ofNat', Nat.mod_eq_of_lt (show k < 2 ^ 8 by omega), Nat.mod_eq_of_lt hk,
    Nat.shiftLeft_eq]

theorem step_toNat {d : Nat} (hd : SubByte d) (acc v : UInt8) :
    ((acc <<< UInt8.ofNat d) ||| (v &&& UInt8.ofNat (2 ^ d - 1))).toNat
      = acc.toNat * 2 ^ d % 2 ^ 8 + v.toNat % 2 ^ d := by
  have hd8 : d < 8 := by rcases hd with rfl | rfl | rfl <;> decide
  have hp : 2 ^ d ≤ 2 ^ 8 := Nat.pow_le_pow_right (by decide) (by omega)
  rw [UInt8.toNat_or, UInt8.toNat_and, shl_toNat _ hd8, UInt8.toNat_ofNat',
    Nat.mod_eq_of_lt (a := 2 ^ d - 1) (by have := Nat.two_pow_pos d; omega), Nat.and_two_pow_sub_one_eq_mod]
  have e : acc.toNat * 2 ^ d % 2 ^ 8 = acc.toNat % 2 ^ (8 - d) * 2 ^ d := by
    have : (2 : Nat) ^ 8 = 2 ^ (8 - d) * 2 ^ d := by rw [← Nat.pow_add]; congr 1; omega
    rw [this, Nat.mul_mod_mul_right]
  rw [e, Nat.mul_comm, Nat.two_pow_add_eq_or_of_lt (Nat.mod_lt _ (Nat.two_pow_pos d))]

theorem step_bits {d ab : Nat} (hd : SubByte d) (hab : ab + d ≤ 8) (acc v : UInt8) :
    bitsMSB ((acc <<< UInt8.ofNat d) ||| (v &&& UInt8.ofNat (2 ^ d - 1))).toNat (d + ab)
      = bitsMSB acc.toNat ab ++ bitsMSB v.toNat d := by
  have hm : v.toNat % 2 ^ d < 2 ^ d := Nat.mod_lt _ (Nat.two_pow_pos d)
  rw [step_toNat hd]
  have e : acc.toNat * 2 ^ d % 2 ^ 8 = acc.toNat % 2 ^ (8 - d) * 2 ^ d := by
    have : (2 : Nat) ^ 8 = 2 ^ (8 - d) * 2 ^ d := by rw [← Nat.pow_add]; congr 1; omega
    rw [this, Nat.mul_mod_mul_right]
  rw [e, bitsMSB_concat _ _ _ _ hm, bitsMSB_mod _ _ _ (by omega), bitsMSB_mod _ _ _ (Nat.le_refl _)]

/-- The padding of a row of `n` bits. -/
def padding (n : Nat) : Nat := (8 - n % 8) % 8

theorem packRow_bits {d : Nat} (hd : SubByte d) : ∀ (row : List UInt8) (acc : UInt8) (ab : Nat), ab + d ≤ 8 → ab % d = 0 →
    bytesMSB (packRow d row acc ab) = bitsMSB acc.toNat ab ++ row.flatMap (fun v => bitsMSB v.toNat d)
      ++ List.replicate (padding (ab + d * row.length)) false
  | [], acc, ab, h, hm => by
    rw [packRow]
    have hd0 : 0 < d := by rcases hd with rfl | rfl | rfl <;> decide
    by_cases h0 : ab > 0
    · rw [if_pos h0]
      have hlt : ab < 8 := by omega
      simp only [bytesMSB, List.flatMap_cons, List.flatMap_nil, List.append_nil, List.length_nil, Nat.mul_zero, Nat.add_zero]
      rw [shl_toNat _ (by omega), bitsMSB_mod _ _ _ (Nat.le_refl _),
        show padding ab = 8 - ab by unfold padding; rw [Nat.mod_eq_of_lt hlt, Nat.mod_eq_of_lt (by omega)]]
      have := bitsMSB_concat acc.toNat 0 ab (8 - ab) (Nat.two_pow_pos _)
      rw [Nat.add_zero, show 8 - ab + ab = 8 by omega] at this
      rw [this]
      congr 1
      unfold bitsMSB
      rw [bitsLSB_zero_val, List.reverse_replicate]
    · have : ab = 0 := by omega
      subst this
      rw [if_neg h0]
      simp [bytesMSB, padding, bitsMSB]
  | v :: row, acc, ab, h, hm => by
    have hd0 : 0 < d := by rcases hd with rfl | rfl | rfl <;> decide
    rw [packRow]
    by_cases h8 : ab + d = 8
    · rw [if_pos h8, bytesMSB_cons, packRow_bits hd row 0 0 (by omega) (Nat.zero_mod _)]
      have := step_bits hd (Nat.le_of_eq h8) acc v
      rw [Nat.add_comm d ab, h8] at this
      rw [this, List.flatMap_cons, List.length_cons, Nat.mul_succ,
        show padding (ab + (d * row.length + d)) = padding (0 + d * row.length) by
          unfold padding; rw [show ab + (d * row.length + d) = 0 + d * row.length + 8 by omega, Nat.add_mod_right]]
      simp [bitsMSB]
    · have hle : ab + d + d ≤ 8 := by
        rcases hd with rfl | rfl | rfl <;> omega
      rw [if_neg h8, packRow_bits hd row _ (ab + d) hle (by rw [Nat.add_mod_right, hm]), Nat.add_comm ab d,
        step_bits hd (by omega) acc v, List.flatMap_cons, List.length_cons, Nat.mul_succ,
        show d + ab + d * row.length = ab + (d * row.length + d) by omega]
      simp only [List.append_assoc]

theorem packRow_row {d : Nat} (hd : SubByte d) (row : List UInt8) :
    bytesMSB (packRow d row 0 0) = row.flatMap (fun v => bitsMSB v.toNat d)
      ++ List.replicate (padding (d * row.length)) false := by
  have hd8 : 0 + d ≤ 8 := by rcases hd with rfl | rfl | rfl <;> decide
  rw [packRow_bits hd row 0 0 hd8 (Nat.zero_mod _), Nat.zero_add]
  simp [bitsMSB]

theorem packRow_length {d : Nat} (hd : SubByte d) (row : List UInt8) :
    (packRow d row 0 0).length = ceil8 (row.length * d) := by
  have := congrArg List.length (packRow_row hd row)
  rw [bytesMSB_length, List.length_append, flatMap_length (m := d) _ (by simp), List.length_replicate] at this
  unfold padding at this
  unfold ceil8
  rw [Nat.mul_comm d] at this
  omega

theorem packRow_sample {d : Nat} (hd : SubByte d) {row : List UInt8} {x : Nat} (hx : x < row.length) :
    sampleAt d (packRow d row 0 0) x = row[x].toNat % 2 ^ d := by
  have hd0 : 0 < d := by rcases hd with rfl | rfl | rfl <;> decide
  unfold sampleAt
  rw [packRow_row hd]
  have hfl : (row.flatMap (fun v => bitsMSB v.toNat d)).length = row.length * d := flatMap_length (m := d) _ (by simp)
  have hle : x * d + d ≤ row.length * d := by
    have := Nat.mul_le_mul_right d (show x + 1 ≤ row.length from hx)
    rwa [Nat.succ_mul] at this
  rw [List.drop_append_of_le_length (by omega), List.take_append_of_le_length (by rw [List.length_drop]; omega)]
  have : ((row.flatMap (fun v => bitsMSB v.toNat d)).drop (x * d)).take d = bitsMSB row[x].toNat d := by
    apply List.ext_getElem?
    intro j
    by_cases hj : j < d
    · rw [List.getElem?_take_of_lt hj, List.getElem?_drop, flatMap_get (m := d) row (by simp) x j hj,
        List.getElem?_eq_getElem hx]
      rfl
    · rw [List.getElem?_eq_none (by rw [List.length_take]; omega), List.getElem?_eq_none (by simp; omega)]
  rw [this, ofBitsMSB_bitsMSB]

/-! ### Rows -/

theorem rowsExact_eq {data : List UInt8} {width height : Nat} (hw : 0 < width) (hl : data.length = height * width) :
    rowsExact data width = (List.range height).map fun y => (data.drop (y * width)).take width := by
  unfold rowsExact
  rw [hl, Nat.mul_div_cancel _ hw]

/-- The rows of `pack_bits_rows`: row `y` is the packing of row `y` of the data. -/
theorem packRows_eq {data : List UInt8} {width height d : Nat} (hw : 0 < width) (hh : 0 < height)
    (hl : data.length = height * width) (hd : SubByte d) :
    packRows data width d = .ok (((List.range height).map fun y =>
      packRow d ((data.drop (y * width)).take width) 0 0).flatten) := by
  unfold packRows
  have h8 : d ≠ 8 := by rcases hd with rfl | rfl | rfl <;> decide
  have hne : ¬ (width = 0 ∨ data.isEmpty) := by
    rintro (h | h)
    · omega
    · rw [List.isEmpty_iff] at h
      rw [h] at hl
      have := Nat.mul_pos hh hw
      simp at hl; omega
  rw [if_neg h8, if_neg hne, if_pos (by rw [hl, Nat.mul_mod_left]), rowsExact_eq hw hl, List.flatMap_map, List.flatMap_def]

end Pixo.BitDepth
