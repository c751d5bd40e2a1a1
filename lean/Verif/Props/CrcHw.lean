import Verif.Proof.CrcAgree
/-
C103: `crc32_hw`, which says that it computes the CRC-32, gives the CRC-32 that PNG and the other `crc32` functions of
the crate give.

The statement is false: the instruction has the polynomial of CRC-32C. What the function computes is CRC-32C, for all
data.
-/
namespace Pixo.Props.CrcHw
open Pixo.Simd Spec

/-- **C103 (full statement).** -/
def C103_full : Prop := ∀ data, crc32Hw data = Spec.crc32 data

/-- **C103 (what it computes).** For all data, taken in pieces of 8, 4, 2 and 1 bytes, the result is CRC-32C as
defined bit by bit. -/
theorem C103_castagnoli (data : List UInt8) : crc32Hw data = Spec.crc32c data := crc32Hw_spec data

theorem bytes_ones (data : List UInt8) : (∀ b ∈ bytesLSB data, b = true) ↔ ∀ x ∈ data, x = 0xFF := by
  have one : ∀ x : UInt8, (∀ b ∈ bitsLSB x.toNat 8, b = true) ↔ x = 0xFF := by
    have h : ∀ n : Fin 256, (∀ b ∈ bitsLSB n.1 8, b = true) ↔ n.1 = 255 := by decide +kernel
    intro x
    rw [h ⟨x.toNat, x.toNat_lt⟩]
    exact ⟨fun e => UInt8.toNat_inj.1 e, fun e => by rw [e]; rfl⟩
  constructor
  · intro h x hx
    exact (one x).1 fun b hb => h b (List.mem_flatMap.2 ⟨x, hx, hb⟩)
  · intro h b hb
    obtain ⟨x, hx, hb⟩ := List.mem_flatMap.1 hb
    exact (one x).2 (h x hx) b hb

theorem bytes_length (data : List UInt8) : (bytesLSB data).length = 8 * data.length := by
  induction data with
  | nil => rfl
  | cons x data ih =>
    show (bitsLSB x.toNat 8 ++ bytesLSB data).length = _
    rw [List.length_append, ih, List.length_cons, show (bitsLSB x.toNat 8).length = 8 from rfl]
    omega

/-- **C103 (exact, up to four bytes).** Of all strings of up to four bytes, the two agree on those of bytes 255 and
on no other. For longer data see `C103_exact`. -/
theorem C103_exact_partial (data : List UInt8) (h : data.length ≤ 4) :
    crc32Hw data = Spec.crc32 data ↔ ∀ x ∈ data, x = 0xFF := by
  rw [C103_castagnoli, ← bytes_ones, ← agree_ones _ (by rw [bytes_length]; omega)]
  show ~~~ _ = ~~~ _ ↔ _
  rw [BitVec.not_inj]
  rfl

/-- Two bytes 255 and two that are not. -/
example : crc32Hw [0xFF, 0xFF] = Spec.crc32 [0xFF, 0xFF] ∧ crc32Hw [0xFF, 0xFE] ≠ Spec.crc32 [0xFF, 0xFE] := by
  constructor
  · exact (C103_exact_partial _ (by decide)).2 (by decide)
  · exact fun e => absurd ((C103_exact_partial _ (by decide)).1 e) (by decide)

/-- **C103 (exact, from four bytes on).** However the data begins, the two agree for exactly one choice of its last
four bytes, that is for one string in 2^32. -/
theorem C103_exact (start : List UInt8) :
    ∃ fin : List UInt8, fin.length = 4 ∧ ∀ last : List UInt8, last.length = 4 →
      (crc32Hw (start ++ last) = Spec.crc32 (start ++ last) ↔ last = fin) := by
  obtain ⟨ds, hl, h⟩ := agree_after ((bytesLSB start).foldl (crcBitOf 0x82F63B78#32) (BitVec.allOnes 32))
    ((bytesLSB start).foldl (crcBitOf 0xEDB88320#32) (BitVec.allOnes 32))
  have hbytes : ∃ fin : List UInt8, fin.length = 4 ∧ bytesLSB fin = ds := by
    have one : ∀ l : List Bool, l.length = 8 → ∃ b : UInt8, bitsLSB b.toNat 8 = l := by
      intro l h8
      refine ⟨UInt8.ofNat (ofBitsLSB l), ?_⟩
      rw [bitsLSB_ofNat, ← h8, bitsLSB_ofBitsLSB]
    obtain ⟨b0, e0⟩ := one (ds.take 8) (by rw [List.length_take]; omega)
    obtain ⟨b1, e1⟩ := one ((ds.drop 8).take 8) (by rw [List.length_take, List.length_drop]; omega)
    obtain ⟨b2, e2⟩ := one (((ds.drop 8).drop 8).take 8) (by simp only [List.length_take, List.length_drop]; omega)
    obtain ⟨b3, e3⟩ := one (((ds.drop 8).drop 8).drop 8) (by simp only [List.length_drop]; omega)
    refine ⟨[b0, b1, b2, b3], rfl, ?_⟩
    show bitsLSB b0.toNat 8 ++ (bitsLSB b1.toNat 8 ++ (bitsLSB b2.toNat 8 ++ (bitsLSB b3.toNat 8 ++ []))) = ds
    rw [e0, e1, e2, e3, List.append_nil, List.take_append_drop, List.take_append_drop, List.take_append_drop]
  obtain ⟨fin, hf, rfl⟩ := hbytes
  refine ⟨fin, hf, fun last hlast => ?_⟩
  rw [C103_castagnoli]
  show ~~~ _ = ~~~ _ ↔ _
  rw [BitVec.not_inj, bytesLSB_append, List.foldl_append, List.foldl_append]
  refine (h (bytesLSB last) (by rw [bytes_length]; omega)).trans ⟨fun e => bytesLSB_inj e, fun e => by rw [e]⟩

/-- After 'IEND' they agree for four bytes that are not all zero. -/
example : ∃ fin : List UInt8, fin.length = 4 ∧ crc32Hw ([73, 69, 78, 68] ++ fin) = Spec.crc32 ([73, 69, 78, 68] ++ fin) ∧
    crc32Hw ([73, 69, 78, 68] ++ [0, 0, 0, 0]) ≠ Spec.crc32 ([73, 69, 78, 68] ++ [0, 0, 0, 0]) ∧ fin ≠ [0, 0, 0, 0] := by
  obtain ⟨fin, hl, h⟩ := C103_exact [73, 69, 78, 68]
  have h0 : crc32Hw ([73, 69, 78, 68] ++ [0, 0, 0, 0]) ≠ Spec.crc32 ([73, 69, 78, 68] ++ [0, 0, 0, 0]) := by decide +kernel
  exact ⟨fin, hl, (h fin hl).2 rfl, h0, fun e => h0 ((h [0, 0, 0, 0] rfl).2 e.symm)⟩

/-- **C103 (violation).** The check value of both, the CRC of the digits from 1 to 9. -/
theorem C103_violation :
    crc32Hw [49, 50, 51, 52, 53, 54, 55, 56, 57] = 0xE3069283#32 ∧
      Spec.crc32 [49, 50, 51, 52, 53, 54, 55, 56, 57] = 0xCBF43926#32 := by decide +kernel

theorem C103_full_fails : ¬ C103_full := fun h => by
  have := h [49, 50, 51, 52, 53, 54, 55, 56, 57]
  rw [C103_violation.1, C103_violation.2] at this
  exact absurd this (by decide)

end Pixo.Props.CrcHw
