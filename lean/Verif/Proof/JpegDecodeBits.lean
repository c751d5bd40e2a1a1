import Verif.Model.JpegDecode
import Verif.Proof.BitMsb
import Verif.Proof.Canonical
/-
The bit reader of the JPEG decoder in front of stuffed bytes without markers.
-/
namespace Pixo.JpegDecode
open Pixo Pixo.Idct Spec

/-- The unread bits of a reader whose data ends with stuffed bytes. -/
structure Bits (r : MsbBitReader) (bits : List Bool) : Prop where
  buf : r.bitBuf < 2 ^ r.bitsInBuf
  small : r.bitsInBuf ≤ 32
  pos : r.pos ≤ r.data.length
  data : ∃ raw, r.data.drop r.pos = stuff raw ∧ bits = bitsMSB r.bitBuf r.bitsInBuf ++ bytesMSB raw

theorem nextByte_bits (r : MsbBitReader) (b : UInt8) (raw : List UInt8)
    (hd : r.data.drop r.pos = stuff (b :: raw)) (fuel : Nat) :
    ∃ p', nextByte (fuel + 1) r = .ok (some b.toNat, { r with pos := p' }) ∧
      r.data.drop p' = stuff raw ∧ r.pos < p' ∧ p' ≤ r.data.length := by
  have hs : stuff (b :: raw) = stuff [b] ++ stuff raw := stuff_append [b] raw
  rw [hs, stuff_single] at hd
  unfold nextByte
  have hget : ∀ i, (r.data.drop r.pos)[i]? = r.data[r.pos + i]? := by
    intro i; rw [List.getElem?_drop]
  by_cases hb : b = 0xFF
  · rw [if_pos hb] at hd
    have h0 := hget 0
    have h1 := hget 1
    rw [hd] at h0 h1
    simp only [List.cons_append, List.getElem?_cons_zero, Nat.add_zero, List.getElem?_cons_succ] at h0 h1
    rw [← h0, ← h1]
    simp only [if_true]
    have hlen := congrArg List.length hd
    simp only [List.length_drop, List.length_append, List.length_cons] at hlen
    refine ⟨r.pos + 2, by rw [hb], ?_, by omega, by omega⟩
    rw [← List.drop_drop, hd]; rfl
  · rw [if_neg hb] at hd
    have h0 := hget 0
    rw [hd] at h0
    simp only [List.cons_append, List.getElem?_cons_zero, Nat.add_zero] at h0
    rw [← h0]
    simp only [if_neg hb]
    have hlen := congrArg List.length hd
    simp only [List.length_drop, List.length_append, List.length_cons] at hlen
    refine ⟨r.pos + 1, rfl, ?_, by omega, by omega⟩
    rw [← List.drop_drop, hd]; rfl

theorem nextByte_end (r : MsbBitReader) (hp : r.pos ≤ r.data.length) (hd : r.data.drop r.pos = []) (fuel : Nat) :
    nextByte (fuel + 1) r = .ok (none, r) := by
  have := List.drop_eq_nil_iff.1 hd
  unfold nextByte
  rw [List.getElem?_eq_none this]

theorem ensure_bits (ck : Bool) (fuel : Nat) (r : MsbBitReader) (bits : List Bool) (h : Bits r bits) (n : Nat)
    (hn : n ≤ 25) (hf : r.data.length - r.pos < fuel) :
    ∃ r', ensure ck fuel r n = .ok (decide (n ≤ bits.length), r') ∧ Bits r' bits ∧
      (n ≤ bits.length → n ≤ r'.bitsInBuf) := by
  induction fuel generalizing r with
  | zero => omega
  | succ fuel ih =>
    unfold ensure
    by_cases hlt : r.bitsInBuf < n
    · rw [if_pos hlt]
      have h' := h
      obtain ⟨hbuf, hsmall, hpos, raw, hd, hbits⟩ := h'
      cases raw with
      | nil =>
        rw [nextByte_end r hpos hd]
        have hl : ¬ n ≤ bits.length := by rw [hbits]; simp [bytesMSB]; omega
        refine ⟨r, ?_, h, fun h => absurd h hl⟩
        simp only [bind, Except.bind, pure, Except.pure, hl, decide_false]
      | cons b raw =>
        obtain ⟨p', e1, hd', hp1, hp2⟩ := nextByte_bits r b raw hd r.data.length
        rw [e1]
        have hb : b.toNat < 256 := UInt8.toNat_lt b
        have hsh : (r.bitBuf <<< 8) % 2 ^ 32 = r.bitBuf * 256 := by
          rw [Nat.shiftLeft_eq]
          apply Nat.mod_eq_of_lt
          have : (2:Nat) ^ r.bitsInBuf ≤ 2 ^ 24 := Nat.pow_le_pow_right (by decide) (by omega)
          omega
        have hor : (r.bitBuf <<< 8) % 2 ^ 32 ||| b.toNat = r.bitBuf * 2 ^ 8 + b.toNat := by
          rw [hsh]
          have h1 := or_shift b.toNat r.bitBuf 8 hb
          rw [Nat.shiftLeft_eq, Nat.or_comm] at h1
          rw [h1]; omega
        have hr' := ih { r with bitBuf := ((r.bitBuf <<< 8) % 2 ^ 32) ||| b.toNat,
                                bitsInBuf := r.bitsInBuf + 8, pos := p' } ⟨?_, ?_, ?_, raw, hd', ?_⟩
          (by simp only; omega)
        · simp only [bind, Except.bind]
          rw [if_pos (by omega)]
          exact hr'
        · simp only [hor]
          rw [Nat.pow_add]; omega
        · simp only; omega
        · exact hp2
        · simp only [hor]
          rw [hbits, bytesMSB_cons, ← List.append_assoc]
          congr 1
          rw [Nat.add_comm r.bitsInBuf 8, bitsMSB_add]
          congr 1
          · congr 1; omega
          · unfold bitsMSB
            rw [← bitsLSB_mod (r.bitBuf * 2 ^ 8 + b.toNat) 8 8 (Nat.le_refl _)]
            congr 2; omega
    · rw [if_neg hlt]
      have hl : n ≤ bits.length := by
        obtain ⟨_, _, _, raw, _, hbits⟩ := h
        rw [hbits]; simp; omega
      exact ⟨r, by simp [hl], h, fun _ => by omega⟩

/-- With enough bits `peek_bits` gives the next ones and keeps them. -/
theorem peekBits_bits (ck : Bool) (r : MsbBitReader) (bits : List Bool) (h : Bits r bits) (n : Nat) (hn1 : 1 ≤ n)
    (hn : n ≤ 25) (hl : n ≤ bits.length) :
    ∃ r' v, peekBits ck r n = .ok (some v, r') ∧ Bits r' bits ∧ n ≤ r'.bitsInBuf ∧ v < 2 ^ n ∧
      bits.take n = bitsMSB v n := by
  obtain ⟨r', e, h', hb⟩ := ensure_bits ck (r.data.length + 2) r bits h n hn (by omega)
  have hb := hb hl
  have hs := h'.small
  refine ⟨r', (r'.bitBuf >>> (r'.bitsInBuf - n)) &&& (1 <<< n - 1), ?_, h', hb, ?_, ?_⟩
  · unfold peekBits
    rw [if_neg (by omega), e]
    simp only [bind, Except.bind, pure, Except.pure, hl, decide_true, if_true, shift]
    rw [if_pos (by omega), if_pos (by omega)]
  · rw [and_mask]; exact Nat.mod_lt _ (Nat.two_pow_pos n)
  · obtain ⟨hbuf, _, _, raw, hd, hbits⟩ := h'
    rw [and_mask, hbits, List.take_append_of_le_length (by simpa using hb), Nat.shiftRight_eq_div_pow,
      bitsMSB_take hb]
    unfold bitsMSB
    rw [bitsLSB_mod _ _ _ (Nat.le_refl _)]

/-- Without enough bits it fails and loses nothing. -/
theorem peekBits_short (ck : Bool) (r : MsbBitReader) (bits : List Bool) (h : Bits r bits) (n : Nat)
    (hn : n ≤ 25) (hl : bits.length < n) :
    ∃ r', peekBits ck r n = .ok (none, r') ∧ Bits r' bits := by
  obtain ⟨r', e, h', _⟩ := ensure_bits ck (r.data.length + 2) r bits h n hn (by omega)
  refine ⟨r', ?_, h'⟩
  unfold peekBits
  rw [if_neg (by omega), e]
  have : ¬ n ≤ bits.length := by omega
  simp [bind, Except.bind, pure, Except.pure, this]

theorem consume_bits (r : MsbBitReader) (bits : List Bool) (h : Bits r bits) (n : Nat) (hn : n ≤ r.bitsInBuf) :
    ∃ r', consume r n = .ok r' ∧ Bits r' (bits.drop n) := by
  obtain ⟨hbuf, hsmall, hpos, raw, hd, hbits⟩ := h
  unfold consume
  rw [if_pos hn]
  simp only [and_mask]
  have hval : (if r.bitsInBuf - n < 32 then r.bitBuf % 2 ^ (r.bitsInBuf - n) else r.bitBuf) =
      r.bitBuf % 2 ^ (r.bitsInBuf - n) := by
    split
    · rfl
    · rename_i hh
      have : n = 0 := by omega
      subst this
      exact (Nat.mod_eq_of_lt (by simpa using hbuf)).symm
  rw [hval]
  refine ⟨_, rfl, Nat.mod_lt _ (Nat.two_pow_pos _), by simp only; omega, hpos, raw, hd, ?_⟩
  simp only
  rw [hbits, List.drop_append_of_le_length (by simpa using hn), bitsMSB_drop hn]
  congr 1
  unfold bitsMSB
  rw [bitsLSB_mod _ _ _ (Nat.le_refl _)]

theorem readBits_bits (ck : Bool) (r : MsbBitReader) (n v : Nat) (rest : List Bool) (hn1 : 1 ≤ n) (hn : n ≤ 25)
    (hv : v < 2 ^ n) (h : Bits r (bitsMSB v n ++ rest)) :
    ∃ r', readBits ck r n = .ok (some v, r') ∧ Bits r' rest := by
  obtain ⟨r1, w, e1, h1, hb, hw, ht⟩ := peekBits_bits ck r _ h n hn1 hn (by simp)
  obtain ⟨r2, e2, h2⟩ := consume_bits r1 _ h1 n hb
  rw [List.take_append_of_le_length (by simp), List.take_of_length_le (by simp)] at ht
  have := bitsMSB_inj hv hw ht
  subst this
  rw [List.drop_append_of_le_length (by simp), List.drop_of_length_le (by simp)] at h2
  refine ⟨r2, ?_, h2⟩
  simp only [readBits, e1, e2, bind, Except.bind, pure, Except.pure]

theorem bits_new (raw : List UInt8) : Bits ⟨stuff raw, 0, 0, 0⟩ (bytesMSB raw) :=
  ⟨by simp, by simp, by simp, raw, by simp, by simp [bitsMSB]⟩

end Pixo.JpegDecode
