import Verif.Proof.BitWriter
import Verif.Proof.BitMsb
import Verif.Proof.BitReader
/-
C19 (bit writers) and C20 (bit readers invert bit writers).
-/
namespace Pixo.Props
open Spec Pixo

/-! ## C19 -/

/-- A call on the LSB-first writer. -/
inductive Op where
  | bits (value width : Nat)
  | bit (b : Bool)
  | byte (b : UInt8)
  | bytes (bs : List UInt8)

/-- Specification: the bits a call appends to the stream. -/
def Op.spec : Op → List Bool
  | .bits v n => bitsLSB v n
  | .bit b => [b]
  | .byte b => bitsLSB b.toNat 8
  | .bytes bs => bytesLSB bs

/-- Widths the documentation allows. -/
def Op.ok : Op → Prop
  | .bits _ n => n ≤ 32
  | _ => True

/-- The call on the model of `BitWriter`. -/
def Op.run (w : BitWriter) : Op → BitWriter
  | .bits v n => w.writeBits v n
  | .bit b => w.writeBit b
  | .byte b => w.writeByte b
  | .bytes bs => w.writeBytes bs

theorem run_spec (ops : List Op) (hok : ∀ o ∈ ops, o.ok) (w : BitWriter) (h : w.Inv) :
    (ops.foldl Op.run w).bits = w.bits ++ ops.flatMap Op.spec ∧ (ops.foldl Op.run w).Inv := by
  induction ops generalizing w with
  | nil => simp [h]
  | cons o ops ih =>
    have ho := hok o (by simp)
    have hstep : (Op.run w o).bits = w.bits ++ o.spec ∧ (Op.run w o).Inv := by
      cases o with
      | bits v n => exact w.writeBits_spec h v n ho
      | bit b =>
        have := w.writeBits_spec h b.toNat 1 (by decide)
        have hb : bitsLSB b.toNat 1 = [b] := by cases b <;> rfl
        rw [hb] at this
        exact this
      | byte b => exact w.writeByte_spec h b
      | bytes bs => exact w.writeBytes_spec h bs
    obtain ⟨h1, h2⟩ := ih (fun o ho => hok o (by simp [ho])) _ hstep.2
    refine ⟨?_, h2⟩
    rw [List.foldl_cons, h1, hstep.1]; simp

/-- C19 (`BitWriter`): any sequence of calls produces the concatenation of the written bits,
zero padded to a byte. -/
theorem C19_bitwriter (ops : List Op) (hok : ∀ o ∈ ops, o.ok) :
    bytesLSB (ops.foldl Op.run {}).finish =
      ops.flatMap Op.spec ++ List.replicate (padLen (ops.flatMap Op.spec).length) false := by
  obtain ⟨h1, h2⟩ := run_spec ops hok {} BitWriter.inv_new
  have h0 : ({} : BitWriter).bits = [] := rfl
  rw [h0, List.nil_append] at h1
  rw [BitWriter.finish_spec _ h2, h1]; rfl

example : (∀ o ∈ [Op.bits 5 3, .bit true, .bytes [1, 2], .bits 0xFFFFFFFF 32], o.ok) ∧
    ([Op.bits 5 3, .bit true, .bytes [1, 2], .bits 0xFFFFFFFF 32].foldl Op.run {}).finish =
      [0x1D, 0x20, 0xF0, 0xFF, 0xFF, 0xFF, 0x0F] := by
  constructor
  · intro o ho; simp at ho; rcases ho with rfl | rfl | rfl | rfl <;> simp [Op.ok]
  · decide

theorem fold64_spec (ops : List (Nat × Nat)) (hok : ∀ o ∈ ops, o.2 < 32) (w : BitWriter64)
    (h : w.Inv) :
    ∃ w', ops.foldlM (fun w o => w.writeBitsChecked o.1 o.2) w = .ok w' ∧
      w'.bits = w.bits ++ ops.flatMap (fun o => bitsLSB o.1 o.2) ∧ w'.Inv := by
  induction ops generalizing w with
  | nil => exact ⟨w, rfl, by simp, h⟩
  | cons o ops ih =>
    have ho := hok o (by simp)
    have hlt := h.lt
    obtain ⟨h1, h2⟩ := w.writeBits_spec h o.1 o.2 (by omega)
    obtain ⟨w', e, b, i⟩ := ih (fun o ho => hok o (by simp [ho])) _ h2
    refine ⟨w', ?_, ?_, i⟩
    · rw [List.foldlM_cons]
      have : w.writeBitsChecked o.1 o.2 = .ok (w.writeBits o.1 o.2) := by
        unfold BitWriter64.writeBitsChecked
        rw [if_neg (by omega)]
      rw [this]; exact e
    · rw [b, h1]; simp

/-- C19 (`BitWriter64`), partial: width 32 is excluded, see
`C19_bitwriter64_width32_violation`. For widths below 32 no call panics and the output is the
concatenation of the written bits, zero padded. -/
theorem C19_bitwriter64_partial (ops : List (Nat × Nat)) (hok : ∀ o ∈ ops, o.2 < 32) :
    ∃ w, ops.foldlM (fun w o => BitWriter64.writeBitsChecked w o.1 o.2) {} = .ok w ∧
      bytesLSB w.finish = ops.flatMap (fun o => bitsLSB o.1 o.2) ++
        List.replicate (padLen (ops.flatMap (fun o => bitsLSB o.1 o.2)).length) false := by
  obtain ⟨w, e, b, i⟩ := fold64_spec ops hok {} BitWriter64.inv_new
  refine ⟨w, e, ?_⟩
  rw [BitWriter64.bits_new, List.nil_append] at b
  rw [BitWriter64.finish_spec _ i, b]; rfl

example : (∀ o ∈ [(5, 3), (0x7FFFFFFF, 31), (2, 9)], o.2 < 32) ∧
    ([(5, 3), (0x7FFFFFFF, 31), (2, 9)].foldlM
      (fun w o => BitWriter64.writeBitsChecked w o.1 o.2) {}).map BitWriter64.finish =
      .ok [0xFD, 0xFF, 0xFF, 0xFF, 0x0B, 0] := by decide

/-- C19: the two LSB-first writers agree on widths below 32 (width 32 is missing). -/
theorem C19_writers_agree_partial (ops : List (Nat × Nat)) (hok : ∀ o ∈ ops, o.2 < 32) :
    (ops.foldlM (fun w o => BitWriter64.writeBitsChecked w o.1 o.2) {}).map BitWriter64.finish =
      .ok (ops.foldl (fun w o => BitWriter.writeBits w o.1 o.2) {}).finish := by
  obtain ⟨w, e, b⟩ := C19_bitwriter64_partial ops hok
  rw [e]
  have h1 := C19_bitwriter (ops.map (fun o => Op.bits o.1 o.2)) (by
    intro o ho
    obtain ⟨p, hp, rfl⟩ := List.mem_map.mp ho
    have := hok p hp
    simp only [Op.ok]; omega)
  rw [List.flatMap_map, List.foldl_map] at h1
  have : bytesLSB w.finish = bytesLSB (ops.foldl (fun w o => BitWriter.writeBits w o.1 o.2) {}).finish := by
    rw [b]; exact h1.symm
  exact congrArg Except.ok (bytesLSB_inj this)

/-- C19 fails for `BitWriter64` at width 32, which its debug assertion allows: the call
panics (`1u32 << 32`). -/
theorem C19_bitwriter64_width32_panics (w : BitWriter64) (v : Nat) :
    w.writeBitsChecked v 32 = .error .panic := by
  unfold BitWriter64.writeBitsChecked
  rw [if_pos (by omega)]

/-- The full statement for `BitWriter64` is false; witness: one 32-bit write. -/
theorem C19_bitwriter64_width32_violation :
    ¬ ∀ ops : List (Nat × Nat), (∀ o ∈ ops, o.2 ≤ 32) →
      ∃ w, ops.foldlM (fun w o => BitWriter64.writeBitsChecked w o.1 o.2) {} = .ok w ∧
        bytesLSB w.finish = ops.flatMap (fun o => bitsLSB o.1 o.2) ++
          List.replicate (padLen (ops.flatMap (fun o => bitsLSB o.1 o.2)).length) false := by
  intro h
  obtain ⟨w, e, _⟩ := h [(0, 32)] (by decide)
  rw [List.foldlM_cons, C19_bitwriter64_width32_panics] at e
  simp [bind, Except.bind] at e

/-- C19 (`BitWriterMsb`): the output is the JPEG byte-stuffed form of the concatenated bits
padded with ones. -/
theorem C19_bitwriter_msb (ops : List (Nat × Nat)) (hok : ∀ o ∈ ops, o.2 ≤ 32) :
    ∃ raw, (ops.foldl (fun w o => BitWriterMsb.writeBits w o.1 o.2) {}).finish = stuff raw ∧
      bytesMSB raw = ops.flatMap (fun o => bitsMSB o.1 o.2) ++
        List.replicate (padLen (ops.flatMap (fun o => bitsMSB o.1 o.2)).length) true := by
  have key : ∀ (ops : List (Nat × Nat)), (∀ o ∈ ops, o.2 ≤ 32) → ∀ (w : BitWriterMsb) raw bits,
      w.Rep raw bits → ∃ raw', (ops.foldl (fun w o => BitWriterMsb.writeBits w o.1 o.2) w).Rep raw'
        (bits ++ ops.flatMap (fun o => bitsMSB o.1 o.2)) := by
    intro ops
    induction ops with
    | nil => intro _ w raw bits h; exact ⟨raw, by simpa using h⟩
    | cons o ops ih =>
      intro hok w raw bits h
      obtain ⟨raw1, h1⟩ := w.writeBits_spec raw bits h o.1 o.2 (hok o (by simp))
      obtain ⟨raw2, h2⟩ := ih (fun o ho => hok o (by simp [ho])) _ _ _ h1
      exact ⟨raw2, by simpa using h2⟩
  obtain ⟨raw, h⟩ := key ops hok {} [] [] BitWriterMsb.rep_new
  exact BitWriterMsb.finish_spec _ _ _ (by simpa using h)

example : ([(0xFF, 8), (1, 2), (0x1FFFF, 17)].foldl (fun w o => BitWriterMsb.writeBits w o.1 o.2)
    {}).finish = [0xFF, 0, 0x7F, 0xFF, 0, 0xFF, 0] := by decide

/-! ## C20 -/

/-- Read fields of the given widths one after the other. -/
def readAll {ρ : Type} (read : ρ → Nat → R (Nat × ρ)) : ρ → List Nat → R (List Nat)
  | _, [] => .ok []
  | r, n :: ns => do
    let (v, r) ← read r n
    let vs ← readAll read r ns
    return v :: vs

/-- C20 (LSB): what `BitWriter` wrote, `BitReader` reads back, whatever follows in the
buffer. -/
theorem C20_lsb (ops : List (Nat × Nat)) (hok : ∀ o ∈ ops, o.2 ≤ 32 ∧ o.1 < 2 ^ o.2)
    (tail : List UInt8) :
    readAll BitReader.readBits
      ⟨(ops.foldl (fun w o => BitWriter.writeBits w o.1 o.2) {}).finish ++ tail, 0, 0, 0⟩
      (ops.map Prod.snd) = .ok (ops.map Prod.fst) := by
  have h1 := C19_bitwriter (ops.map (fun o => Op.bits o.1 o.2)) (by
    intro o ho
    obtain ⟨p, hp, rfl⟩ := List.mem_map.mp ho
    exact (hok p hp).1)
  rw [List.flatMap_map, List.foldl_map] at h1
  have h2 : (⟨(ops.foldl (fun w o => BitWriter.writeBits w o.1 o.2) {}).finish ++ tail, 0, 0, 0⟩ :
      BitReader).bits = ops.flatMap (fun o => bitsLSB o.1 o.2) ++
        (List.replicate (padLen (ops.flatMap (fun o => bitsLSB o.1 o.2)).length) false ++ bytesLSB tail) := by
    rw [BitReader.bits_new, bytesLSB_append]
    refine Eq.trans (congrArg (· ++ bytesLSB tail) h1) ?_
    rw [List.append_assoc]; rfl
  have key : ∀ (ops : List (Nat × Nat)), (∀ o ∈ ops, o.2 ≤ 32 ∧ o.1 < 2 ^ o.2) → ∀ (r : BitReader)
      (rest : List Bool), r.Inv → r.bits = ops.flatMap (fun o => bitsLSB o.1 o.2) ++ rest →
      readAll BitReader.readBits r (ops.map Prod.snd) = .ok (ops.map Prod.fst) := by
    intro ops
    induction ops with
    | nil => intro _ r rest _ _; rfl
    | cons o ops ih =>
      intro hok r rest hr hb
      simp only [List.flatMap_cons, List.append_assoc] at hb
      obtain ⟨r', e, i, b, _⟩ := r.readBits_field hr o.2 o.1 _ (hok o (by simp)).1 (hok o (by simp)).2 hb
      simp only [List.map_cons, readAll, e, bind, Except.bind]
      rw [ih (fun o ho => hok o (by simp [ho])) r' rest i b]
      rfl
  exact key ops hok _ _ (BitReader.inv_new _) h2

example : (∀ o ∈ [(5, 3), (0xFFFFFFFF, 32), (0, 1), (700, 10)], o.2 ≤ 32 ∧ o.1 < 2 ^ o.2) := by decide

/-- C20 (MSB): what `BitWriterMsb` wrote, including `0xFF` stuffing, `MsbBitReader` reads
back, whatever follows in the buffer (widths within the reader's limit of 25). -/
theorem C20_msb (ops : List (Nat × Nat)) (hok : ∀ o ∈ ops, o.2 ≤ 25 ∧ o.1 < 2 ^ o.2)
    (tail : List UInt8) :
    readAll MsbBitReader.readBits
      ⟨(ops.foldl (fun w o => BitWriterMsb.writeBits w o.1 o.2) {}).finish ++ tail, 0, 0, 0⟩
      (ops.map Prod.snd) = .ok (ops.map Prod.fst) := by
  obtain ⟨raw, h1, h2⟩ := C19_bitwriter_msb ops (fun o ho => by have := (hok o ho).1; omega)
  rw [h1]
  have h3 := MsbBitReader.rep_new raw tail
  rw [h2] at h3
  have key : ∀ (ops : List (Nat × Nat)), (∀ o ∈ ops, o.2 ≤ 25 ∧ o.1 < 2 ^ o.2) → ∀ (r : MsbBitReader)
      (rest : List Bool), r.Rep (ops.flatMap (fun o => bitsMSB o.1 o.2) ++ rest) →
      readAll MsbBitReader.readBits r (ops.map Prod.snd) = .ok (ops.map Prod.fst) := by
    intro ops
    induction ops with
    | nil => intro _ r rest _; rfl
    | cons o ops ih =>
      intro hok r rest hr
      simp only [List.flatMap_cons, List.append_assoc] at hr
      obtain ⟨r', e, i, _⟩ := r.readBits_field o.2 o.1 _ (hok o (by simp)).1 (hok o (by simp)).2 hr
      simp only [List.map_cons, readAll, e, bind, Except.bind]
      rw [ih (fun o ho => hok o (by simp [ho])) r' rest i]
      rfl
  exact key ops hok _ _ h3

example : (∀ o ∈ [(0xFF, 8), (0, 1), (0x1FFFFFF, 25), (3, 2)], o.2 ≤ 25 ∧ o.1 < 2 ^ o.2) := by decide

end Pixo.Props
