import Verif.Model.BitReader
import Verif.Proof.Bits
/-
The LSB-first reader refines a bit list.
-/
namespace Pixo
open Spec

/-- Bits not yet consumed. -/
def BitReader.bits (r : BitReader) : List Bool :=
  bitsLSB r.bitBuf r.bitsInBuf ++ bytesLSB (r.data.drop r.pos)

structure BitReader.Inv (r : BitReader) : Prop where
  buf : r.bitBuf < 2 ^ r.bitsInBuf
  small : r.bitsInBuf ≤ 40
  pos : r.pos ≤ r.data.length
  cons : r.bitsInBuf ≤ 8 * r.pos

theorem BitReader.load_spec (r : BitReader) (h : r.Inv) (b : UInt8) (hb : r.data[r.pos]? = some b)
    (hs : r.bitsInBuf ≤ 32) :
    (r.load b).bits = r.bits ∧ (r.load b).Inv := by
  have hlt : b.toNat < 256 := UInt8.toNat_lt b
  have hsh : (b.toNat <<< r.bitsInBuf) % 2 ^ 64 = b.toNat <<< r.bitsInBuf := by
    apply Nat.mod_eq_of_lt
    rw [Nat.shiftLeft_eq]
    calc b.toNat * 2 ^ r.bitsInBuf ≤ 2 ^ 8 * 2 ^ r.bitsInBuf := Nat.mul_le_mul_right _ (by omega)
      _ = 2 ^ (8 + r.bitsInBuf) := (Nat.pow_add ..).symm
      _ < 2 ^ 64 := Nat.pow_lt_pow_right (by decide) (by omega)
  have hpos : r.pos < r.data.length := by
    have := List.getElem?_eq_some_iff.mp hb
    exact this.1
  have hd : r.data.drop r.pos = b :: r.data.drop (r.pos + 1) := by
    rw [List.drop_eq_getElem_cons hpos]
    have := List.getElem?_eq_some_iff.mp hb
    rw [this.2]
  refine ⟨?_, ?_, ?_, ?_, ?_⟩
  · simp only [BitReader.bits, BitReader.load, hsh]
    rw [or_shift _ _ _ h.buf, bitsLSB_concat _ _ _ _ h.buf, hd, bytesLSB_cons, List.append_assoc]
  · simp only [BitReader.load, hsh]
    rw [or_shift _ _ _ h.buf, Nat.pow_add]
    have : (b.toNat + 1) * 2 ^ r.bitsInBuf ≤ 256 * 2 ^ r.bitsInBuf := Nat.mul_le_mul_right _ hlt
    have hb := h.buf
    rw [Nat.add_mul] at this
    omega
  · simp only [BitReader.load]; omega
  · simp only [BitReader.load]; omega
  · have := h.cons
    simp only [BitReader.load]; omega

theorem BitReader.bits_length (r : BitReader) :
    r.bits.length = r.bitsInBuf + 8 * (r.data.length - r.pos) := by
  simp [BitReader.bits, bytesLSB_length]

theorem BitReader.ensureLoop_spec (fuel : Nat) (r : BitReader) (h : r.Inv) (n : Nat) (hn : n ≤ 32)
    (hf : n ≤ r.bitsInBuf + 8 * fuel) :
    (n ≤ r.bits.length → ∃ r', BitReader.ensureLoop fuel r n = .ok r' ∧ r'.Inv ∧ r'.bits = r.bits ∧
      r'.data = r.data ∧ n ≤ r'.bitsInBuf) ∧
    (r.bits.length < n → BitReader.ensureLoop fuel r n = .error .invalid) := by
  induction fuel generalizing r with
  | zero =>
    unfold ensureLoop
    constructor
    · intro _
      exact ⟨r, by rw [if_neg (by omega)], h, rfl, rfl, by omega⟩
    · intro hl
      rw [bits_length] at hl
      omega
  | succ fuel ih =>
    unfold ensureLoop
    by_cases hlt : r.bitsInBuf < n
    · rw [if_pos hlt]
      rcases hb : r.data[r.pos]? with _ | b
      · have hp : r.data.length ≤ r.pos := List.getElem?_eq_none_iff.mp hb
        constructor
        · intro hl; rw [bits_length] at hl; omega
        · intro _; rfl
      · obtain ⟨h1, h2⟩ := r.load_spec h b hb (by omega)
        have := ih (r.load b) h2 (by simp only [BitReader.load]; omega)
        rw [h1] at this
        exact this
    · rw [if_neg hlt]
      constructor
      · intro _; exact ⟨r, rfl, h, rfl, rfl, by omega⟩
      · intro hl; rw [bits_length] at hl; omega

theorem BitReader.take_bits (r : BitReader) (n : Nat) (hn : n ≤ r.bitsInBuf) :
    r.bits.take n = bitsLSB r.bitBuf n := by
  unfold BitReader.bits
  rw [List.take_append_of_le_length (by simpa using hn)]
  rw [show r.bitsInBuf = n + (r.bitsInBuf - n) by omega, bitsLSB_add]
  rw [List.take_append_of_le_length (by simp), List.take_of_length_le (by simp)]

theorem BitReader.consume_spec (r : BitReader) (h : r.Inv) (n : Nat) (hn : n ≤ r.bitsInBuf) :
    ∃ r', r.consume n = .ok r' ∧ r'.Inv ∧ r'.bits = r.bits.drop n ∧ r'.data = r.data := by
  unfold BitReader.consume
  rw [if_pos hn]
  refine ⟨_, rfl, ⟨?_, ?_, h.pos, ?_⟩, ?_, rfl⟩
  · simp only
    rw [Nat.shiftRight_eq_div_pow, Nat.div_lt_iff_lt_mul (Nat.two_pow_pos n), ← Nat.pow_add,
      Nat.sub_add_cancel hn]
    exact h.buf
  · have := h.small; simp only; omega
  · have := h.cons; simp only; omega
  · unfold BitReader.bits
    simp only
    rw [List.drop_append_of_le_length (by simpa using hn), Nat.shiftRight_eq_div_pow]
    congr 1
    conv => rhs; rw [show r.bitsInBuf = n + (r.bitsInBuf - n) by omega, bitsLSB_add]
    rw [List.drop_append_of_le_length (by simp), List.drop_of_length_le (by simp)]
    simp

theorem BitReader.readBits_ok (r : BitReader) (h : r.Inv) (n : Nat) (hn : n ≤ 32)
    (hl : n ≤ r.bits.length) :
    ∃ r', r.readBits n = .ok (ofBitsLSB (r.bits.take n), r') ∧ r'.Inv ∧ r'.bits = r.bits.drop n ∧
      r'.data = r.data := by
  obtain ⟨r1, e1, i1, b1, d1, n1⟩ := (ensureLoop_spec n r h n hn (by omega)).1 hl
  obtain ⟨r2, e2, i2, b2, d2⟩ := r1.consume_spec i1 n n1
  refine ⟨r2, ?_, i2, by rw [b2, b1], by rw [d2, d1]⟩
  simp only [BitReader.readBits, BitReader.peekBits, BitReader.ensure, e1, bind, Except.bind, pure,
    Except.pure, e2, and_mask]
  rw [← b1, take_bits r1 n n1, ofBitsLSB_bitsLSB]

theorem BitReader.readBits_err (r : BitReader) (h : r.Inv) (n : Nat) (hn : n ≤ 32)
    (hl : r.bits.length < n) : r.readBits n = .error .invalid := by
  have e1 := (ensureLoop_spec n r h n hn (by omega)).2 hl
  simp only [BitReader.readBits, BitReader.peekBits, BitReader.ensure, e1, bind, Except.bind]

/-- Reading back a field of the stream. -/
theorem BitReader.readBits_field (r : BitReader) (h : r.Inv) (n v : Nat) (rest : List Bool)
    (hn : n ≤ 32) (hv : v < 2 ^ n) (hb : r.bits = bitsLSB v n ++ rest) :
    ∃ r', r.readBits n = .ok (v, r') ∧ r'.Inv ∧ r'.bits = rest ∧ r'.data = r.data := by
  obtain ⟨r', e, i, b, d⟩ := r.readBits_ok h n hn (by rw [hb]; simp)
  refine ⟨r', ?_, i, ?_, d⟩
  · rw [e, hb, List.take_append_of_le_length (by simp), List.take_of_length_le (by simp),
      ofBitsLSB_bitsLSB, Nat.mod_eq_of_lt hv]
  · rw [b, hb, List.drop_append_of_le_length (by simp), List.drop_of_length_le (by simp)]; rfl

theorem BitReader.fillLoop_spec (fuel : Nat) (r : BitReader) (h : r.Inv) (n : Nat) (hn : n ≤ 32)
    (hf : n ≤ r.bitsInBuf + 8 * fuel) :
    (BitReader.fillLoop fuel r n).Inv ∧ (BitReader.fillLoop fuel r n).bits = r.bits ∧
      (BitReader.fillLoop fuel r n).data = r.data ∧
      min (BitReader.fillLoop fuel r n).bitsInBuf n = min r.bits.length n := by
  induction fuel generalizing r with
  | zero =>
    unfold fillLoop
    refine ⟨h, rfl, rfl, ?_⟩
    rw [bits_length]; omega
  | succ fuel ih =>
    unfold fillLoop
    by_cases hlt : r.bitsInBuf < n
    · rw [if_pos hlt]
      rcases hb : r.data[r.pos]? with _ | b
      · have hp : r.data.length ≤ r.pos := List.getElem?_eq_none_iff.mp hb
        refine ⟨h, rfl, rfl, ?_⟩
        rw [bits_length]
        show min r.bitsInBuf n = _
        omega
      · obtain ⟨h1, h2⟩ := r.load_spec h b hb (by omega)
        have := ih (r.load b) h2 (by simp only [BitReader.load]; omega)
        rw [h1] at this
        exact this
    · rw [if_neg hlt]
      refine ⟨h, rfl, rfl, ?_⟩
      rw [bits_length]; omega

theorem BitReader.tryPeek_spec (r : BitReader) (h : r.Inv) (n : Nat) (hn : n ≤ 32) :
    ∃ r', r.tryPeekBits n = (ofBitsLSB (r.bits.take n), min r.bits.length n, r') ∧
      r'.Inv ∧ r'.bits = r.bits ∧ r'.data = r.data ∧ min r.bits.length n ≤ r'.bitsInBuf := by
  obtain ⟨i, b, d, m⟩ := fillLoop_spec n r h n hn (by omega)
  refine ⟨_, ?_, i, b, d, by omega⟩
  simp only [BitReader.tryPeekBits, and_mask, m]
  rw [show r.bits.take n = r.bits.take (min r.bits.length n) by
    rw [Nat.min_comm, ← List.take_eq_take_min]]
  congr 1
  have hle : min r.bits.length n ≤ (fillLoop n r n).bitsInBuf := by omega
  rw [← b]
  rw [b, ← b, take_bits _ _ (by rw [b]; exact hle), ofBitsLSB_bitsLSB]

/-- Position of the next unread bit. -/
def BitReader.consumed (r : BitReader) : Nat := 8 * r.pos - r.bitsInBuf

theorem BitReader.consumed_eq (r : BitReader) (h : r.Inv) :
    r.consumed + r.bits.length = 8 * r.data.length := by
  have h1 := h.pos
  have h2 := h.cons
  rw [bits_length]; unfold consumed; omega

theorem BitReader.align_spec (r : BitReader) (h : r.Inv) :
    r.alignToByte.Inv ∧ r.alignToByte.bits = r.bits.drop (r.bitsInBuf % 8) ∧
      r.alignToByte.data = r.data ∧ r.alignToByte.bitsInBuf % 8 = 0 := by
  unfold BitReader.alignToByte
  have hd : r.bitsInBuf % 8 ≤ r.bitsInBuf := Nat.mod_le _ _
  by_cases h0 : r.bitsInBuf % 8 > 0
  · simp only [h0, if_true]
    obtain ⟨r', e, i, b, d⟩ := r.consume_spec h (r.bitsInBuf % 8) hd
    unfold BitReader.consume at e
    rw [if_pos hd] at e
    injection e with e
    subst e
    exact ⟨i, b, trivial, by omega⟩
  · simp only [h0, if_false]
    have : r.bitsInBuf % 8 = 0 := by omega
    exact ⟨h, by simp [this], by simp, by simpa using this⟩

theorem BitReader.drainBytes_spec (k : Nat) (r : BitReader) (h : r.Inv) (acc : List UInt8)
    (hk : 8 * k ≤ r.bitsInBuf) :
    ∃ bs r', BitReader.drainBytes k r acc = (acc ++ bs, r') ∧ bs.length = k ∧
      r.bits = bytesLSB bs ++ r'.bits ∧ r'.Inv ∧ r'.data = r.data ∧
      r'.bitsInBuf = r.bitsInBuf - 8 * k := by
  induction k generalizing r acc with
  | zero => exact ⟨[], r, by simp [drainBytes], rfl, by simp, h, rfl, by omega⟩
  | succ k ih =>
    obtain ⟨r1, e, i, b, d⟩ := r.consume_spec h 8 (by omega)
    unfold BitReader.consume at e
    rw [if_pos (by omega)] at e
    injection e with e
    subst e
    obtain ⟨bs, r', e', l', b', i', d', n'⟩ :=
      ih _ i (acc ++ [UInt8.ofNat (r.bitBuf &&& 0xFF)]) (by simp only; omega)
    refine ⟨UInt8.ofNat (r.bitBuf &&& 0xFF) :: bs, r', ?_, by simp [l'], ?_, i', by rw [d', d], ?_⟩
    · unfold drainBytes
      rw [e']; simp
    · rw [bytesLSB_cons, bitsLSB_ofNat, List.append_assoc, ← b', b]
      have : r.bitBuf &&& 0xFF = r.bitBuf % 2 ^ 8 := and_mask r.bitBuf 8
      rw [this, bitsLSB_mod _ 8 8 (Nat.le_refl _), ← take_bits r 8 (by omega), List.take_append_drop]
    · rw [n']; simp only; omega

theorem bytesLSB_take_bytes (bs : List UInt8) (n : Nat) :
    bytesLSB bs = bytesLSB (bs.take n) ++ bytesLSB (bs.drop n) := by
  rw [← bytesLSB_append, List.take_append_drop]

/-- `read_bytes` on a byte-aligned reader. -/
theorem BitReader.readBytes_ok (r : BitReader) (h : r.Inv) (ha : r.bitsInBuf % 8 = 0) (n : Nat)
    (hl : 8 * n ≤ r.bits.length) :
    ∃ bs r', r.readBytes n = .ok (bs, r') ∧ bs.length = n ∧ r.bits = bytesLSB bs ++ r'.bits ∧
      r'.Inv ∧ r'.data = r.data := by
  rw [bits_length] at hl
  obtain ⟨bs, r1, e, l, b, i, d, nb⟩ := drainBytes_spec (min (r.bitsInBuf / 8) n) r h [] (by omega)
  have hp := h.pos
  have hp1 := i.pos
  have hl1 : r1.bitsInBuf + 8 * (r1.data.length - r1.pos) + 8 * (min (r.bitsInBuf / 8) n) =
      r.bitsInBuf + 8 * (r.data.length - r.pos) := by
    have := congrArg List.length b
    rw [List.length_append, bytesLSB_length, bits_length, bits_length, l] at this
    omega
  refine ⟨bs ++ (r1.data.drop r1.pos).take (n - min (r.bitsInBuf / 8) n),
    { r1 with pos := r1.pos + (n - min (r.bitsInBuf / 8) n) }, ?_, ?_, ?_, ?_, d⟩
  · simp only [BitReader.readBytes, e, List.nil_append]
    rw [if_neg (by omega)]
  · simp [l]; omega
  · rw [b, bytesLSB_append, List.append_assoc]
    congr 1
    by_cases hz : n - min (r.bitsInBuf / 8) n = 0
    · rw [hz]; simp [BitReader.bits]
    · have h0 : r1.bitsInBuf = 0 := by omega
      simp only [BitReader.bits, h0, bitsLSB_zero, List.nil_append]
      rw [bytesLSB_take_bytes (r1.data.drop r1.pos) (n - min (r.bitsInBuf / 8) n), List.drop_drop]
  · refine ⟨i.buf, i.small, by simp only; omega, ?_⟩
    have := i.cons; simp only; omega

theorem BitReader.readBytes_err (r : BitReader) (h : r.Inv) (ha : r.bitsInBuf % 8 = 0) (n : Nat)
    (hl : r.bits.length < 8 * n) : r.readBytes n = .error .invalid := by
  rw [bits_length] at hl
  obtain ⟨bs, r1, e, l, b, i, d, nb⟩ := drainBytes_spec (min (r.bitsInBuf / 8) n) r h [] (by omega)
  have hp := h.pos
  have hp1 := i.pos
  have hl1 : r1.bitsInBuf + 8 * (r1.data.length - r1.pos) + 8 * (min (r.bitsInBuf / 8) n) =
      r.bitsInBuf + 8 * (r.data.length - r.pos) := by
    have := congrArg List.length b
    rw [List.length_append, bytesLSB_length, bits_length, bits_length, l] at this
    omega
  simp only [BitReader.readBytes, e, List.nil_append]
  rw [if_pos (by omega)]

theorem BitReader.inv_new (data : List UInt8) : (⟨data, 0, 0, 0⟩ : BitReader).Inv :=
  ⟨by simp, by simp, by simp, by simp⟩

theorem BitReader.bits_new (data : List UInt8) :
    (⟨data, 0, 0, 0⟩ : BitReader).bits = bytesLSB data := by simp [BitReader.bits]

end Pixo
