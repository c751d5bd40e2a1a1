import Verif.Model.Bits
import Verif.Model.BitReader
import Verif.Proof.Bits
import Verif.Proof.Safe
/-
The MSB-first writer and reader of the JPEG code.
-/
namespace Pixo
open Spec

theorem stuff_append (a b : List UInt8) : stuff (a ++ b) = stuff a ++ stuff b := by
  simp [stuff]

@[simp] theorem stuff_nil : stuff [] = [] := rfl

theorem stuff_single (b : UInt8) : stuff [b] = if b = 0xFF then [0xFF, 0] else [b] := by
  simp [stuff]

/-- State of the writer after the bits `bits`: complete bytes `raw` are in the buffer in
stuffed form, the rest in the current byte. -/
structure BitWriterMsb.Rep (w : BitWriterMsb) (raw : List UInt8) (bits : List Bool) : Prop where
  buf : w.buffer = stuff raw
  pos : 1 ≤ w.bitPosition ∧ w.bitPosition ≤ 8
  low : w.currentByte % 2 ^ w.bitPosition = 0
  lt : w.currentByte < 256
  bits : bits = bytesMSB raw ++ bitsMSB (w.currentByte / 2 ^ w.bitPosition) (8 - w.bitPosition)

theorem BitWriterMsb.rep_new : ({} : BitWriterMsb).Rep [] [] :=
  ⟨rfl, by decide, by decide, by decide, rfl⟩

theorem pushByte_eq (cur : Nat) (h : cur < 256) (buf : List UInt8) :
    buf ++ [UInt8.ofNat cur] ++ (if cur = 0xFF then [0] else []) = buf ++ stuff [UInt8.ofNat cur] := by
  rw [stuff_single, List.append_assoc]
  congr 1
  by_cases hc : cur = 255
  · subst hc; rfl
  · have : UInt8.ofNat cur ≠ 0xFF := by
      intro hh
      have h2 := congrArg UInt8.toNat hh
      rw [UInt8.toNat_ofNat_of_lt' (by simpa using h)] at h2
      exact hc h2
    rw [if_neg hc, if_neg this]; rfl

theorem BitWriterMsb.writeLoop_spec (fuel : Nat) (w : BitWriterMsb) (raw : List UInt8)
    (bits : List Bool) (h : w.Rep raw bits) (v r : Nat) (hf : r ≤ fuel) :
    ∃ raw', (BitWriterMsb.writeLoop fuel w v r).Rep raw' (bits ++ bitsMSB v r) := by
  induction fuel generalizing w raw bits r with
  | zero =>
    have : r = 0 := by omega
    subst this
    exact ⟨raw, by simpa [writeLoop, bitsMSB] using h⟩
  | succ fuel ih =>
    unfold BitWriterMsb.writeLoop
    obtain ⟨hbuf, ⟨hp1, hp8⟩, hlow, hlt, hbits⟩ := h
    split
    · simp only [and_mask]
      generalize ht : min r w.bitPosition = t
      have ht1 : 1 ≤ t := by omega
      have htr : t ≤ r := by omega
      have htp : t ≤ w.bitPosition := by omega
      generalize hx : v >>> (r - t) % 2 ^ t = x
      have hxt : x < 2 ^ t := by rw [← hx]; exact Nat.mod_lt _ (Nat.two_pow_pos t)
      have hp256 : ∀ k, k ≤ 8 → (2:Nat) ^ k ≤ 256 := fun k hk =>
        Nat.le_trans (Nat.pow_le_pow_right (by decide) hk) (by decide)
      have hx8 : x % 256 = x := Nat.mod_eq_of_lt (by have := hp256 t (by omega); omega)
      rw [hx8]
      generalize hq : w.bitPosition - t = q
      -- the current byte as a number of its top bits
      obtain ⟨c, hc⟩ : ∃ c, w.currentByte = c * 2 ^ w.bitPosition :=
        ⟨w.currentByte / 2 ^ w.bitPosition, by
          have := Nat.div_add_mod w.currentByte (2 ^ w.bitPosition)
          rw [hlow, Nat.mul_comm] at this; omega⟩
      have hpq : (2:Nat) ^ w.bitPosition = 2 ^ t * 2 ^ q := by rw [← Nat.pow_add]; congr 1; omega
      have hxq : x * 2 ^ q < 2 ^ w.bitPosition := by
        rw [hpq]; exact Nat.mul_lt_mul_of_pos_right hxt (Nat.two_pow_pos q)
      have hshift : (x <<< q) % 256 = x * 2 ^ q := by
        rw [Nat.shiftLeft_eq]
        exact Nat.mod_eq_of_lt (by have := hp256 w.bitPosition hp8; omega)
      have hor : w.currentByte ||| (x * 2 ^ q) = (c * 2 ^ t + x) * 2 ^ q := by
        have h1 := or_shift (x * 2 ^ q) c w.bitPosition hxq
        rw [Nat.shiftLeft_eq, ← hc, Nat.or_comm] at h1
        rw [h1, hc, hpq, Nat.add_mul, Nat.mul_assoc]; omega
      rw [hshift, hor]
      have hclt : c * 2 ^ w.bitPosition < 256 := by omega
      have hcc : c < 2 ^ (8 - w.bitPosition) := by
        have h8 : (256:Nat) = 2 ^ (8 - w.bitPosition) * 2 ^ w.bitPosition := by
          rw [← Nat.pow_add, Nat.sub_add_cancel hp8]
        rw [h8] at hclt
        exact Nat.lt_of_mul_lt_mul_right hclt
      have hct : c * 2 ^ t + x < 2 ^ (8 - q) := by
        have h8 : (2:Nat) ^ (8 - q) = 2 ^ (8 - w.bitPosition) * 2 ^ t := by
          rw [← Nat.pow_add]; congr 1; omega
        have : (c + 1) * 2 ^ t ≤ 2 ^ (8 - w.bitPosition) * 2 ^ t := Nat.mul_le_mul_right _ hcc
        rw [Nat.add_mul] at this
        omega
      have hcur : (c * 2 ^ t + x) * 2 ^ q < 256 := by
        have h8 : (256:Nat) = 2 ^ (8 - q) * 2 ^ q := by
          rw [← Nat.pow_add, Nat.sub_add_cancel (by omega)]
        rw [h8]
        exact Nat.mul_lt_mul_of_pos_right hct (Nat.two_pow_pos q)
      have hdiv : w.currentByte / 2 ^ w.bitPosition = c := by
        rw [hc, Nat.mul_div_cancel _ (Nat.two_pow_pos _)]
      have hsplit : bitsMSB v r = bitsMSB x t ++ bitsMSB v (r - t) := by
        have h1 := bitsMSB_add v (r - t) t
        rw [Nat.sub_add_cancel htr] at h1
        rw [h1]; congr 1
        unfold bitsMSB
        rw [← hx, bitsLSB_mod _ _ _ (Nat.le_refl t), Nat.shiftRight_eq_div_pow]
      have hjoin : bitsMSB c (8 - w.bitPosition) ++ bitsMSB x t = bitsMSB (c * 2 ^ t + x) (8 - q) := by
        have h1 := bitsMSB_add (c * 2 ^ t + x) t (8 - w.bitPosition)
        rw [show t + (8 - w.bitPosition) = 8 - q by omega] at h1
        have hd2 : (c * 2 ^ t + x) / 2 ^ t = c := by
          rw [Nat.mul_comm, Nat.mul_add_div (Nat.two_pow_pos t), Nat.div_eq_of_lt hxt]; simp
        have hm2 : bitsMSB (c * 2 ^ t + x) t = bitsMSB x t := by
          unfold bitsMSB
          rw [← bitsLSB_mod (c * 2 ^ t + x) t t (Nat.le_refl t), Nat.mul_comm, Nat.mul_add_mod,
            Nat.mod_eq_of_lt hxt]
        rw [h1, hd2, hm2]
      by_cases hq0 : q = 0
      · rw [if_pos hq0]
        have := ih
          (⟨w.buffer, (c * 2 ^ t + x) * 2 ^ q, q⟩ : BitWriterMsb).flushByteWithStuffing
          (raw ++ [UInt8.ofNat ((c * 2 ^ t + x) * 2 ^ q)]) (bits ++ bitsMSB x t)
          ⟨?_, by simp [flushByteWithStuffing], by simp [flushByteWithStuffing],
            by simp [flushByteWithStuffing], ?_⟩ (r - t) (by omega)
        · rw [hsplit, ← List.append_assoc]; exact this
        · simp only [flushByteWithStuffing]
          rw [pushByte_eq _ hcur, hbuf, stuff_append]
        · simp only [flushByteWithStuffing]
          rw [hbits, hdiv, List.append_assoc, hjoin, bytesMSB_append, bytesMSB_cons]
          subst hq0
          simp only [Nat.pow_zero, Nat.mul_one, bitsMSB_ofNat, Nat.sub_zero]
          simp [bytesMSB, bitsMSB]
      · rw [if_neg hq0]
        have := ih ⟨w.buffer, (c * 2 ^ t + x) * 2 ^ q, q⟩ raw (bits ++ bitsMSB x t)
          ⟨hbuf, ⟨by simp only; omega, by simp only; omega⟩, by simp, hcur, ?_⟩ (r - t) (by omega)
        · rw [hsplit, ← List.append_assoc]; exact this
        · simp only
          rw [hbits, hdiv, List.append_assoc, hjoin, Nat.mul_div_cancel _ (Nat.two_pow_pos q)]
    · have : r = 0 := by omega
      subst this
      exact ⟨raw, by simpa [bitsMSB] using ⟨hbuf, ⟨hp1, hp8⟩, hlow, hlt, hbits⟩⟩

theorem BitWriterMsb.writeBits_spec (w : BitWriterMsb) (raw : List UInt8) (bits : List Bool)
    (h : w.Rep raw bits) (v n : Nat) (hn : n ≤ 32) :
    ∃ raw', (w.writeBits v n).Rep raw' (bits ++ bitsMSB v n) := by
  obtain ⟨raw', h'⟩ := writeLoop_spec n w raw bits h (v % 2 ^ 32) n (Nat.le_refl _)
  refine ⟨raw', ?_⟩
  have : bitsMSB (v % 2 ^ 32) n = bitsMSB v n := by unfold bitsMSB; rw [bitsLSB_mod v n 32 hn]
  rwa [this] at h'

theorem bitsLSB_ones (k : Nat) : bitsLSB (2 ^ k - 1) k = List.replicate k true := by
  induction k with
  | zero => rfl
  | succ k ih =>
    rw [bitsLSB_succ]
    have h1 : (2 ^ (k + 1) - 1) % 2 = 1 := by have := Nat.two_pow_pos k; rw [Nat.pow_succ]; omega
    have h2 : (2 ^ (k + 1) - 1) / 2 = 2 ^ k - 1 := by have := Nat.two_pow_pos k; rw [Nat.pow_succ]; omega
    rw [h1, h2, ih]; rfl

/-- `finish` pads with ones, as T.81 F.1.2.3 requires, and stuffs. -/
theorem BitWriterMsb.finish_spec (w : BitWriterMsb) (raw : List UInt8) (bits : List Bool)
    (h : w.Rep raw bits) :
    ∃ raw', w.finish = stuff raw' ∧
      bytesMSB raw' = bits ++ List.replicate (padLen bits.length) true := by
  obtain ⟨hbuf, ⟨hp1, hp8⟩, hlow, hlt, hbits⟩ := h
  have hl : bits.length = 8 * raw.length + (8 - w.bitPosition) := by
    rw [hbits, List.length_append, bytesMSB_length, bitsMSB_length]
  unfold BitWriterMsb.finish BitWriterMsb.flush
  by_cases hp : w.bitPosition < 8
  · rw [if_pos hp]
    simp only
    have hpad : padLen bits.length = w.bitPosition := by unfold padLen; omega
    obtain ⟨c, hc⟩ : ∃ c, w.currentByte = c * 2 ^ w.bitPosition :=
      ⟨w.currentByte / 2 ^ w.bitPosition, by
        have := Nat.div_add_mod w.currentByte (2 ^ w.bitPosition)
        rw [hlow, Nat.mul_comm] at this; omega⟩
    have hpos := Nat.two_pow_pos w.bitPosition
    have hones : 2 ^ w.bitPosition - 1 < 2 ^ w.bitPosition := by omega
    have hor : w.currentByte ||| (1 <<< w.bitPosition - 1) = c * 2 ^ w.bitPosition + (2 ^ w.bitPosition - 1) := by
      rw [Nat.one_shiftLeft]
      have h1 := or_shift (2 ^ w.bitPosition - 1) c w.bitPosition hones
      rw [Nat.shiftLeft_eq, ← hc, Nat.or_comm] at h1
      rw [h1, hc]; omega
    have hcc : c < 2 ^ (8 - w.bitPosition) := by
      have h8 : (256:Nat) = 2 ^ (8 - w.bitPosition) * 2 ^ w.bitPosition := by
        rw [← Nat.pow_add, Nat.sub_add_cancel hp8]
      have hclt : c * 2 ^ w.bitPosition < 256 := by omega
      rw [h8] at hclt
      exact Nat.lt_of_mul_lt_mul_right hclt
    have hcur : c * 2 ^ w.bitPosition + (2 ^ w.bitPosition - 1) < 256 := by
      have h8 : (256:Nat) = 2 ^ (8 - w.bitPosition) * 2 ^ w.bitPosition := by
        rw [← Nat.pow_add, Nat.sub_add_cancel hp8]
      have : (c + 1) * 2 ^ w.bitPosition ≤ 2 ^ (8 - w.bitPosition) * 2 ^ w.bitPosition :=
        Nat.mul_le_mul_right _ hcc
      rw [Nat.add_mul] at this; omega
    rw [hor, pushByte_eq _ hcur, hbuf]
    refine ⟨raw ++ [UInt8.ofNat (c * 2 ^ w.bitPosition + (2 ^ w.bitPosition - 1))], by rw [stuff_append], ?_⟩
    rw [bytesMSB_append, bytesMSB_cons, bitsMSB_ofNat, hbits, List.append_assoc]
    congr 1
    rw [← hbits, hpad]
    have h1 := bitsMSB_add (c * 2 ^ w.bitPosition + (2 ^ w.bitPosition - 1)) w.bitPosition (8 - w.bitPosition)
    rw [show w.bitPosition + (8 - w.bitPosition) = 8 by omega] at h1
    have hd : (c * 2 ^ w.bitPosition + (2 ^ w.bitPosition - 1)) / 2 ^ w.bitPosition = c := by
      rw [Nat.mul_comm, Nat.mul_add_div hpos, Nat.div_eq_of_lt hones]; simp
    have hm : bitsMSB (c * 2 ^ w.bitPosition + (2 ^ w.bitPosition - 1)) w.bitPosition =
        List.replicate w.bitPosition true := by
      unfold bitsMSB
      rw [← bitsLSB_mod _ _ _ (Nat.le_refl w.bitPosition), Nat.mul_comm, Nat.mul_add_mod,
        Nat.mod_eq_of_lt hones, bitsLSB_ones, List.reverse_replicate]
    rw [h1, hd, hm, hc, Nat.mul_div_cancel _ hpos]
    simp [bytesMSB]
  · rw [if_neg hp]
    have h8 : w.bitPosition = 8 := by omega
    refine ⟨raw, hbuf, ?_⟩
    rw [hbits, h8]
    simp [bytesMSB_length, padLen, bitsMSB]

/-! ### Reader -/

/-- The unread bits of a reader standing in front of stuffed bytes `raw`, whatever follows. -/
structure MsbBitReader.Rep (r : MsbBitReader) (bits : List Bool) : Prop where
  buf : r.bitBuf < 2 ^ r.bitsInBuf
  small : r.bitsInBuf ≤ 32
  pos : r.pos ≤ r.data.length
  data : ∃ raw tail, r.data.drop r.pos = stuff raw ++ tail ∧
    bits = bitsMSB r.bitBuf r.bitsInBuf ++ bytesMSB raw

theorem MsbBitReader.nextByte_spec (r : MsbBitReader) (b : UInt8) (raw tail : List UInt8)
    (hd : r.data.drop r.pos = stuff (b :: raw) ++ tail) (fuel : Nat) (hf : 0 < fuel) :
    ∃ p', MsbBitReader.nextByte fuel r = .ok (b.toNat, { r with pos := p' }) ∧
      r.data.drop p' = stuff raw ++ tail ∧ r.pos < p' ∧ p' ≤ r.data.length := by
  obtain ⟨f, rfl⟩ : ∃ f, fuel = f + 1 := ⟨fuel - 1, by omega⟩
  have hs : stuff (b :: raw) = stuff [b] ++ stuff raw := stuff_append [b] raw
  rw [hs, stuff_single] at hd
  unfold MsbBitReader.nextByte
  have hget : ∀ i, (r.data.drop r.pos)[i]? = r.data[r.pos + i]? := by
    intro i; rw [List.getElem?_drop]
  by_cases hb : b = 0xFF
  · rw [if_pos hb] at hd
    have h0 := hget 0
    have h1 := hget 1
    rw [hd] at h0 h1
    simp only [List.cons_append, List.getElem?_cons_zero, Nat.add_zero, List.getElem?_cons_succ] at h0 h1
    rw [← h0, ← h1]
    simp only [if_true]
    have hlen := congrArg List.length hd
    simp only [List.length_drop, List.length_append, List.length_cons] at hlen
    refine ⟨r.pos + 2, by rw [hb], ?_, by omega, by omega⟩
    rw [← List.drop_drop, hd]; rfl
  · rw [if_neg hb] at hd
    have h0 := hget 0
    rw [hd] at h0
    simp only [List.cons_append, List.getElem?_cons_zero, Nat.add_zero] at h0
    rw [← h0]
    simp only [if_neg hb]
    have hlen := congrArg List.length hd
    simp only [List.length_drop, List.length_append, List.length_cons] at hlen
    refine ⟨r.pos + 1, rfl, ?_, by omega, by omega⟩
    rw [← List.drop_drop, hd]; rfl

theorem MsbBitReader.ensureLoop_spec (fuel : Nat) (r : MsbBitReader) (bits : List Bool)
    (h : r.Rep bits) (n : Nat) (hn : n ≤ 25) (hl : n ≤ bits.length)
    (hf : r.data.length - r.pos < fuel) :
    ∃ r', MsbBitReader.ensureLoop fuel r n = .ok r' ∧ r'.Rep bits ∧ n ≤ r'.bitsInBuf ∧
      r'.data = r.data := by
  induction fuel generalizing r with
  | zero => omega
  | succ fuel ih =>
    unfold MsbBitReader.ensureLoop
    by_cases hlt : r.bitsInBuf < n
    · rw [if_pos hlt]
      obtain ⟨hbuf, hsmall, hpos, raw, tail, hd, hbits⟩ := h
      cases raw with
      | nil =>
        rw [hbits] at hl
        simp [bytesMSB] at hl
        omega
      | cons b raw =>
        obtain ⟨p', e1, hd', hp1, hp2⟩ := r.nextByte_spec b raw tail hd (r.data.length + 1) (by omega)
        simp only [e1, bind, Except.bind]
        have hb : b.toNat < 256 := UInt8.toNat_lt b
        have hsh : (r.bitBuf <<< 8) % 2 ^ 32 = r.bitBuf * 256 := by
          rw [Nat.shiftLeft_eq]
          apply Nat.mod_eq_of_lt
          have : (2:Nat) ^ r.bitsInBuf ≤ 2 ^ 24 := Nat.pow_le_pow_right (by decide) (by omega)
          omega
        have hor : (r.bitBuf <<< 8) % 2 ^ 32 ||| b.toNat = r.bitBuf * 2 ^ 8 + b.toNat := by
          rw [hsh]
          have h1 := or_shift b.toNat r.bitBuf 8 hb
          rw [Nat.shiftLeft_eq, Nat.or_comm] at h1
          rw [h1]; omega
        have hr' := ih { r with bitBuf := ((r.bitBuf <<< 8) % 2 ^ 32) ||| b.toNat,
                                bitsInBuf := r.bitsInBuf + 8, pos := p' } ⟨?_, ?_, ?_, raw, tail, hd', ?_⟩
          (by simp only; omega)
        · exact hr'
        · simp only [hor]
          rw [Nat.pow_add]; omega
        · simp only; omega
        · exact hp2
        · simp only [hor]
          rw [hbits, bytesMSB_cons, ← List.append_assoc]
          congr 1
          rw [Nat.add_comm r.bitsInBuf 8, bitsMSB_add]
          congr 1
          · congr 1; omega
          · unfold bitsMSB
            rw [← bitsLSB_mod (r.bitBuf * 2 ^ 8 + b.toNat) 8 8 (Nat.le_refl _)]
            congr 2; omega
    · rw [if_neg hlt]
      exact ⟨r, rfl, h, by omega, rfl⟩

theorem bitsMSB_drop {v n k : Nat} (h : k ≤ n) :
    (bitsMSB v n).drop k = bitsMSB v (n - k) := by
  have := bitsMSB_add v (n - k) k
  rw [Nat.sub_add_cancel h] at this
  rw [this, List.drop_append_of_le_length (by simp), List.drop_of_length_le (by simp)]; rfl

theorem MsbBitReader.consume_spec (r : MsbBitReader) (bits : List Bool) (h : r.Rep bits) (n : Nat)
    (hn : n ≤ r.bitsInBuf) :
    ∃ r', r.consume n = .ok r' ∧ r'.Rep (bits.drop n) ∧ r'.data = r.data := by
  obtain ⟨hbuf, hsmall, hpos, raw, tail, hd, hbits⟩ := h
  unfold MsbBitReader.consume
  rw [if_pos hn]
  simp only [and_mask]
  have hval : (if r.bitsInBuf - n < 32 then r.bitBuf % 2 ^ (r.bitsInBuf - n) else r.bitBuf) =
      r.bitBuf % 2 ^ (r.bitsInBuf - n) := by
    split
    · rfl
    · rename_i hh
      have : n = 0 := by omega
      subst this
      exact (Nat.mod_eq_of_lt (by simpa using hbuf)).symm
  rw [hval]
  refine ⟨_, rfl, ⟨Nat.mod_lt _ (Nat.two_pow_pos _), by simp only; omega, hpos, raw, tail, hd, ?_⟩, rfl⟩
  simp only
  rw [hbits, List.drop_append_of_le_length (by simpa using hn), bitsMSB_drop hn]
  congr 1
  unfold bitsMSB
  rw [bitsLSB_mod _ _ _ (Nat.le_refl _)]

theorem MsbBitReader.readBits_field (r : MsbBitReader) (n v : Nat) (rest : List Bool)
    (hn : n ≤ 25) (hv : v < 2 ^ n) (h : r.Rep (bitsMSB v n ++ rest)) :
    ∃ r', r.readBits n = .ok (v, r') ∧ r'.Rep rest ∧ r'.data = r.data := by
  obtain ⟨r1, e1, h1, n1, d1⟩ := ensureLoop_spec (r.data.length + 2) r _ h n hn (by simp) (by omega)
  obtain ⟨r2, e2, h2, d2⟩ := r1.consume_spec _ h1 n n1
  refine ⟨r2, ?_, ?_, by rw [d2, d1]⟩
  · have hle : ¬ n > 25 := by omega
    simp only [MsbBitReader.readBits, MsbBitReader.peekBits, hle, if_false, MsbBitReader.ensure, e1,
      bind, Except.bind, pure, Except.pure, e2, and_mask]
    obtain ⟨hbuf, _, _, raw, tail, hd, hbits⟩ := h1
    congr 2
    have h3 := congrArg (List.take n) hbits
    rw [List.take_append_of_le_length (by simp), List.take_of_length_le (by simp),
      List.take_append_of_le_length (by simpa using n1)] at h3
    have h4 : (bitsMSB r1.bitBuf r1.bitsInBuf).take n = bitsMSB (r1.bitBuf / 2 ^ (r1.bitsInBuf - n)) n := by
      have := bitsMSB_add r1.bitBuf (r1.bitsInBuf - n) n
      rw [Nat.sub_add_cancel n1] at this
      rw [this, List.take_append_of_le_length (by simp), List.take_of_length_le (by simp)]
    rw [h4] at h3
    have h5 := congrArg ofBitsMSB h3
    rw [ofBitsMSB_bitsMSB, ofBitsMSB_bitsMSB, Nat.mod_eq_of_lt hv] at h5
    rw [Nat.shiftRight_eq_div_pow]; exact h5.symm
  · rw [List.drop_append_of_le_length (by simp), List.drop_of_length_le (by simp)] at h2
    exact h2

theorem MsbBitReader.rep_new (raw tail : List UInt8) :
    (⟨stuff raw ++ tail, 0, 0, 0⟩ : MsbBitReader).Rep (bytesMSB raw) :=
  ⟨by simp, by simp, by simp, raw, tail, by simp, by simp [bitsMSB]⟩

end Pixo
