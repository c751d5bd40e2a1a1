import Verif.Model.Bits
import Verif.Proof.Bits
/-
The bit writers of src/bits.rs refine bit-string concatenation.
-/
namespace Pixo
open Spec

/-- Bits written so far. -/
def BitWriter64.bits (w : BitWriter64) : List Bool := bytesLSB w.buffer ++ bitsLSB w.acc w.bitsInAcc

/-- Reachable states between calls. -/
structure BitWriter64.Inv (w : BitWriter64) : Prop where
  lt : w.bitsInAcc < 8
  acc : w.acc < 2 ^ w.bitsInAcc

theorem BitWriter64.drain_spec (fuel : Nat) (w : BitWriter64) (hacc : w.acc < 2 ^ w.bitsInAcc)
    (hf : w.bitsInAcc < 8 * fuel + 8) :
    (BitWriter64.drain fuel w).bits = w.bits ∧ (BitWriter64.drain fuel w).Inv := by
  induction fuel generalizing w with
  | zero => exact ⟨rfl, ⟨by simpa [drain] using hf, hacc⟩⟩
  | succ fuel ih =>
    unfold BitWriter64.drain
    split
    · rename_i h8
      have hs : w.acc >>> 8 < 2 ^ (w.bitsInAcc - 8) := by
        rw [Nat.shiftRight_eq_div_pow, Nat.div_lt_iff_lt_mul (by decide), ← Nat.pow_add]
        rwa [Nat.sub_add_cancel h8]
      obtain ⟨h1, h2⟩ := ih ⟨w.buffer ++ [UInt8.ofNat (w.acc % 256)], w.acc >>> 8, w.bitsInAcc - 8⟩
        hs (by simp; omega)
      refine ⟨?_, h2⟩
      rw [h1]
      simp only [BitWriter64.bits, bytesLSB_append, bytesLSB_cons, bytesLSB_nil, List.append_nil,
        bitsLSB_ofNat, List.append_assoc]
      congr 1
      conv => rhs; rw [show w.bitsInAcc = 8 + (w.bitsInAcc - 8) by omega, bitsLSB_add]
      rw [Nat.shiftRight_eq_div_pow]
      congr 1
      exact bitsLSB_mod w.acc 8 8 (Nat.le_refl _)
    · exact ⟨rfl, ⟨by omega, hacc⟩⟩

theorem BitWriter64.writeBits_spec (w : BitWriter64) (h : w.Inv) (v n : Nat) (hn : n ≤ 32) :
    (w.writeBits v n).bits = w.bits ++ bitsLSB v n ∧ (w.writeBits v n).Inv := by
  have hlt := h.lt
  have hacc := h.acc
  unfold BitWriter64.writeBits
  simp only [and_mask]
  have hv : v % 2 ^ 32 % 2 ^ n = v % 2 ^ n := by
    rw [Nat.mod_mod_of_dvd]; exact Nat.pow_dvd_pow 2 hn
  rw [hv]
  have hvn : v % 2 ^ n < 2 ^ n := Nat.mod_lt _ (Nat.two_pow_pos n)
  have hsh : (v % 2 ^ n) <<< w.bitsInAcc < 2 ^ 64 := by
    rw [Nat.shiftLeft_eq]
    calc v % 2 ^ n * 2 ^ w.bitsInAcc < 2 ^ n * 2 ^ w.bitsInAcc :=
          Nat.mul_lt_mul_of_pos_right hvn (Nat.two_pow_pos _)
      _ = 2 ^ (n + w.bitsInAcc) := (Nat.pow_add ..).symm
      _ ≤ 2 ^ 64 := Nat.pow_le_pow_right (by decide) (by omega)
  rw [Nat.mod_eq_of_lt hsh, or_shift _ _ _ hacc]
  have hnew : w.acc + v % 2 ^ n * 2 ^ w.bitsInAcc < 2 ^ (w.bitsInAcc + n) := by
    rw [Nat.pow_add, Nat.mul_comm (2 ^ w.bitsInAcc)]
    have : (v % 2 ^ n + 1) * 2 ^ w.bitsInAcc ≤ 2 ^ n * 2 ^ w.bitsInAcc :=
      Nat.mul_le_mul_right _ hvn
    rw [Nat.add_mul] at this; omega
  obtain ⟨h1, h2⟩ := BitWriter64.drain_spec 8
    ⟨w.buffer, w.acc + v % 2 ^ n * 2 ^ w.bitsInAcc, w.bitsInAcc + n⟩ hnew (by simp; omega)
  refine ⟨?_, h2⟩
  rw [h1]
  simp only [BitWriter64.bits, bitsLSB_concat _ _ _ _ hacc, List.append_assoc]
  rw [bitsLSB_mod v n n (Nat.le_refl _)]

theorem BitWriter64.inv_new : ({} : BitWriter64).Inv := ⟨by decide, by decide⟩

theorem BitWriter64.bits_new : ({} : BitWriter64).bits = [] := rfl

/-- Zero padding up to a byte boundary. -/
def zeroPad (n : Nat) : List Bool := List.replicate ((8 - n % 8) % 8) false

theorem bitsLSB_zero_val (n : Nat) : bitsLSB 0 n = List.replicate n false := by
  induction n with
  | zero => rfl
  | succ n ih => simp [bitsLSB_succ, ih, List.replicate_succ]

theorem bitsLSB_pad (a n k : Nat) (h : a < 2 ^ n) :
    bitsLSB a (n + k) = bitsLSB a n ++ List.replicate k false := by
  have := bitsLSB_concat a 0 n k h
  simpa [bitsLSB_zero_val] using this

theorem BitWriter64.finish_spec (w : BitWriter64) (h : w.Inv) :
    bytesLSB w.finish = w.bits ++ zeroPad w.bits.length := by
  have hlt := h.lt
  unfold BitWriter64.finish BitWriter64.flush
  have hl : w.bits.length % 8 = w.bitsInAcc := by
    simp [BitWriter64.bits, bytesLSB_length]; omega
  unfold zeroPad
  rw [hl]
  split
  · simp only [bytesLSB_append, bytesLSB_cons, bytesLSB_nil, List.append_nil, bitsLSB_ofNat,
      BitWriter64.bits, List.append_assoc]
    congr 1
    rw [bitsLSB_mod w.acc 8 8 (Nat.le_refl _)]
    have := bitsLSB_pad w.acc w.bitsInAcc (8 - w.bitsInAcc) h.acc
    rw [show w.bitsInAcc + (8 - w.bitsInAcc) = 8 by omega] at this
    rw [this, Nat.mod_eq_of_lt (a := 8 - w.bitsInAcc) (by omega)]
  · have h0 : w.bitsInAcc = 0 := by omega
    simp [BitWriter64.bits, h0]

/-! ### `BitWriter` -/

def BitWriter.bits (w : BitWriter) : List Bool :=
  bytesLSB w.buffer ++ bitsLSB w.currentByte w.bitPosition

structure BitWriter.Inv (w : BitWriter) : Prop where
  lt : w.bitPosition < 8
  acc : w.currentByte < 2 ^ w.bitPosition

theorem BitWriter.writeLoop_spec (fuel : Nat) (w : BitWriter) (h : w.Inv) (v r : Nat)
    (hf : r ≤ fuel) :
    (BitWriter.writeLoop fuel w v r).bits = w.bits ++ bitsLSB v r ∧
      (BitWriter.writeLoop fuel w v r).Inv := by
  induction fuel generalizing w v r with
  | zero =>
    have : r = 0 := by omega
    subst this; simp [writeLoop, h]
  | succ fuel ih =>
    unfold BitWriter.writeLoop
    have hlt := h.lt
    have hacc := h.acc
    split
    · simp only [and_mask]
      generalize ht : min r (8 - w.bitPosition) = t
      have ht1 : 1 ≤ t := by omega
      have ht8 : w.bitPosition + t ≤ 8 := by omega
      have htr : t ≤ r := by omega
      have hvt : v % 2 ^ t < 2 ^ t := Nat.mod_lt _ (Nat.two_pow_pos t)
      have h256 : (2:Nat) ^ t ≤ 256 := by
        calc (2:Nat) ^ t ≤ 2 ^ 8 := Nat.pow_le_pow_right (by decide) (by omega)
          _ = 256 := rfl
      have hm : v % 2 ^ t % 256 = v % 2 ^ t := Nat.mod_eq_of_lt (by omega)
      have hnew : w.currentByte + v % 2 ^ t * 2 ^ w.bitPosition < 2 ^ (w.bitPosition + t) := by
        rw [Nat.pow_add, Nat.mul_comm (2 ^ w.bitPosition)]
        have : (v % 2 ^ t + 1) * 2 ^ w.bitPosition ≤ 2 ^ t * 2 ^ w.bitPosition :=
          Nat.mul_le_mul_right _ hvt
        rw [Nat.add_mul] at this; omega
      have hp8 : (2:Nat) ^ (w.bitPosition + t) ≤ 256 := by
        calc (2:Nat) ^ _ ≤ 2 ^ 8 := Nat.pow_le_pow_right (by decide) (by omega)
          _ = 256 := rfl
      have hsh : (v % 2 ^ t) <<< w.bitPosition % 256 = (v % 2 ^ t) <<< w.bitPosition := by
        apply Nat.mod_eq_of_lt; rw [Nat.shiftLeft_eq]; omega
      rw [hm, hsh, or_shift _ _ _ hacc]
      have hb : bitsLSB v r = bitsLSB v t ++ bitsLSB (v >>> t) (r - t) := by
        rw [Nat.shiftRight_eq_div_pow, ← bitsLSB_add]; congr 1; omega
      have hcur : bitsLSB (w.currentByte + v % 2 ^ t * 2 ^ w.bitPosition) (w.bitPosition + t)
          = bitsLSB w.currentByte w.bitPosition ++ bitsLSB v t := by
        rw [bitsLSB_concat _ _ _ _ hacc, bitsLSB_mod v t t (Nat.le_refl _)]
      split
      · rename_i h8
        obtain ⟨h1, h2⟩ := ih
          ⟨w.buffer ++ [UInt8.ofNat (w.currentByte + v % 2 ^ t * 2 ^ w.bitPosition)], 0, 0⟩
          ⟨by simp, by simp⟩ (v >>> t) (r - t) (by omega)
        refine ⟨?_, h2⟩
        rw [h1, hb]
        rw [h8] at hcur
        simp only [BitWriter.bits, bytesLSB_append, bytesLSB_cons, bitsLSB_ofNat, hcur, bytesLSB_nil,
          List.append_nil, bitsLSB_zero, List.append_assoc]
      · obtain ⟨h1, h2⟩ := ih
          ⟨w.buffer, w.currentByte + v % 2 ^ t * 2 ^ w.bitPosition, w.bitPosition + t⟩
          ⟨by simp; omega, by simpa using hnew⟩ (v >>> t) (r - t) (by omega)
        refine ⟨?_, h2⟩
        rw [h1, hb]
        simp [BitWriter.bits, hcur]
    · have : r = 0 := by omega
      subst this; simp [h]

theorem BitWriter.writeBits_spec (w : BitWriter) (h : w.Inv) (v n : Nat) (hn : n ≤ 32) :
    (w.writeBits v n).bits = w.bits ++ bitsLSB v n ∧ (w.writeBits v n).Inv := by
  have := BitWriter.writeLoop_spec n w h (v % 2 ^ 32) n (Nat.le_refl _)
  rwa [bitsLSB_mod v n 32 hn] at this

theorem BitWriter.inv_new : ({} : BitWriter).Inv := ⟨by decide, by decide⟩

theorem BitWriter.finish_spec (w : BitWriter) (h : w.Inv) :
    bytesLSB w.finish = w.bits ++ zeroPad w.bits.length := by
  have hlt := h.lt
  unfold BitWriter.finish BitWriter.flush
  have hl : w.bits.length % 8 = w.bitPosition := by
    simp [BitWriter.bits, bytesLSB_length]; omega
  unfold zeroPad
  rw [hl]
  split
  · simp only [bytesLSB_append, bytesLSB_cons, bytesLSB_nil, List.append_nil, bitsLSB_ofNat,
      BitWriter.bits, List.append_assoc]
    congr 1
    have := bitsLSB_pad w.currentByte w.bitPosition (8 - w.bitPosition) h.acc
    rw [show w.bitPosition + (8 - w.bitPosition) = 8 by omega] at this
    rw [this, Nat.mod_eq_of_lt (a := 8 - w.bitPosition) (by omega)]
  · have h0 : w.bitPosition = 0 := by omega
    simp [BitWriter.bits, h0]

theorem BitWriter.writeByte_spec (w : BitWriter) (h : w.Inv) (b : UInt8) :
    (w.writeByte b).bits = w.bits ++ bitsLSB b.toNat 8 ∧ (w.writeByte b).Inv := by
  unfold BitWriter.writeByte
  split
  · rename_i h0
    refine ⟨?_, ⟨h.lt, h.acc⟩⟩
    simp [BitWriter.bits, h0, bytesLSB_append, bytesLSB_cons]
  · exact BitWriter.writeBits_spec w h _ 8 (by decide)

theorem BitWriter.writeBytes_spec (w : BitWriter) (h : w.Inv) (bs : List UInt8) :
    (w.writeBytes bs).bits = w.bits ++ bytesLSB bs ∧ (w.writeBytes bs).Inv := by
  unfold BitWriter.writeBytes
  split
  · rename_i h0
    refine ⟨?_, ⟨h.lt, h.acc⟩⟩
    simp [BitWriter.bits, h0, bytesLSB_append]
  · rename_i h0
    clear h0
    induction bs generalizing w with
    | nil => simp [h]
    | cons b bs ih =>
      obtain ⟨h1, h2⟩ := BitWriter.writeBits_spec w h b.toNat 8 (by decide)
      obtain ⟨h3, h4⟩ := ih _ h2
      refine ⟨?_, h4⟩
      rw [List.foldl_cons, h3, h1, bytesLSB_cons, List.append_assoc]

end Pixo
