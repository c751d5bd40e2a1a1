import Verif.Proof.InflateTotal
import Verif.Spec.Rfc1950
/-
C17 (inflate is total), C18 (inflate decodes every RFC 1951 stream) and C49 (the zlib decoder
accepts only matching check values).
-/
namespace Pixo.Props
open Spec Spec.Rfc1951 Pixo Pixo.Inflate

/-! ## C17 -/

/-- C17: on every byte string `inflate` ends with a value or a decode error: no panic and no
endless loop. -/
theorem C17_inflate_total (data : List UInt8) :
    (∃ out, inflate data = .ok out) ∨ inflate data = .error .invalid ∨
      inflate data = .error .unsupported := by
  have h := inflate_safe data
  rcases hx : inflate data with e | out
  · rw [hx] at h
    unfold Safe at h
    rcases h with h | h <;> simp [h]
  · exact Or.inl ⟨out, rfl⟩

/-- C17: the same for the zlib wrapper, for any checksum function. -/
theorem C17_inflate_zlib_total (adler : List UInt8 → Nat) (data : List UInt8)
    (expected : Option Nat) :
    (∃ out, inflateZlib adler data expected = .ok out) ∨
      inflateZlib adler data expected = .error .invalid ∨
      inflateZlib adler data expected = .error .unsupported := by
  have h := inflateZlib_safe adler data expected
  rcases hx : inflateZlib adler data expected with e | out
  · rw [hx] at h
    unfold Safe at h
    rcases h with h | h <;> simp [h]
  · exact Or.inl ⟨out, rfl⟩

/-- C17: the output is at most 1032 times the input, so memory use is bounded. -/
theorem C17_output_bound (data out : List UInt8) (h : inflate data = .ok out) :
    out.length ≤ 1032 * data.length := (inflate_safe data).of_ok h

example : inflate [0x01, 0x02, 0x00, 0xFD, 0xFF, 0x68, 0x69] = .ok [0x68, 0x69] := by decide +kernel

example : inflate [0xFF, 0xFF] = .error .invalid := by decide +kernel

/-- C17: every read of the bit reader stays within the input. -/
theorem C17_reader_in_bounds (r : BitReader) (h : r.Inv) (n : Nat) (hn : n ≤ 32) :
    match r.readBits n with
    | .ok (v, r') => v < 2 ^ n ∧ r'.pos ≤ r'.data.length ∧ r'.data = r.data
    | .error e => e = .invalid := by
  have hs := readBits_safe r h n hn
  by_cases hl : n ≤ r.bits.length
  · obtain ⟨r', e, i, b, d⟩ := r.readBits_ok h n hn hl
    rw [e] at hs ⊢
    unfold Safe at hs
    exact ⟨hs.1, i.pos, d⟩
  · rw [r.readBits_err h n hn (by omega)]

example : (⟨[1, 2, 3], 1, 1, 1⟩ : BitReader).Inv := ⟨by decide, by decide, by decide, by decide⟩

/-! ## C18 -/

/-- C18: any byte string that begins with an RFC 1951 encoding of `data` is decoded to
exactly `data`, for every encoder and every mixture of block types. -/
theorem C18_inflate_correct (bytes data : List UInt8) (h : BeginsWith false bytes data) :
    inflate bytes = .ok data := inflate_spec h

/-- Consequence: the RFC grammar is unambiguous. -/
theorem C18_decoding_unique (bytes a b : List UInt8) (ha : BeginsWith false bytes a)
    (hb : BeginsWith false bytes b) : a = b := by
  have h1 := inflate_spec ha
  rw [inflate_spec hb] at h1
  injection h1 with h1
  exact h1.symm

/-- A stored block followed by a fixed block holding a literal and a copy. -/
example : BeginsWith false [0x00, 0x02, 0x00, 0xFD, 0xFF, 0x68, 0x69, 0x73, 0x04, 0x41, 0x00, 0x55]
    [0x68, 0x69, 0x41, 0x69, 0x41, 0x69, 0x41] := by
  have h1 : Block false 1 _ _ := Block.stored (List.replicate 5 false) [0x68, 0x69] (by decide)
    (by decide) (by decide)
  have h2 : Body fixedLit fixedDist _ _ :=
    Body.lit 0x41 (by decide) (Body.copy 1 0 1 0 (lb := 4) (lx := 0) (db := 2) (dx := 0) (by decide) (by decide) (by decide)
      (by decide) (by decide) (by decide) (Body.eob (by decide)))
  exact ⟨_, [false, false] ++ bitsLSB 0x55 8, _, by decide +kernel,
    Stream.more h1 (Stream.last (Block.fixed h2)), by decide +kernel⟩

/-! ## C49 -/

/-- C49: what `inflate_zlib` accepts has the zlib header (deflate, check bits, no preset
dictionary), a body that inflates to the result, the check value of the result at its end, and
the expected size if one was given. `adler` is the checksum in use. -/
theorem C49_zlib_checks (adler : List UInt8 → Nat) (bytes out : List UInt8) (expected : Option Nat)
    (h : inflateZlib adler bytes expected = .ok out) :
    ∃ (cmf flg : UInt8) (body trailer : List UInt8), bytes = [cmf, flg] ++ body ++ trailer ∧
      cmf.toNat % 16 = 8 ∧ (256 * cmf.toNat + flg.toNat) % 31 = 0 ∧ flg.toNat / 32 % 2 = 0 ∧
      inflate body = .ok out ∧ trailer.length = 4 ∧ Rfc1950.ofBytesBE trailer = adler out ∧
      ∀ e, expected = some e → out.length = e := by
  unfold inflateZlib at h
  split at h
  · rename_i cmf flg rest
    by_cases c1 : rest.length < 4
    · rw [if_pos c1] at h; cases h
    rw [if_neg c1] at h
    by_cases c2 : cmf.toNat &&& 0x0F ≠ 8
    · rw [if_pos c2] at h; cases h
    rw [if_neg c2] at h
    by_cases c3 : ((cmf.toNat <<< 8) ||| flg.toNat) % 31 ≠ 0
    · rw [if_pos c3] at h; cases h
    rw [if_neg c3] at h
    by_cases c4 : flg.toNat &&& 0x20 ≠ 0
    · rw [if_pos c4] at h; cases h
    rw [if_neg c4] at h
    simp only at h
    have hf := flg.toNat_lt
    cases hi : inflate (rest.take (rest.length - 4)) with
    | error e => rw [hi] at h; cases h
    | ok o =>
      rw [hi, ok_bind] at h
      by_cases c5 : (rest.drop (rest.length - 4)).foldl (fun a b => a * 256 + b.toNat) 0 ≠ adler o
      · rw [if_pos c5] at h; cases h
      rw [if_neg c5] at h
      have ho : o = out ∧ ∀ e, expected = some e → o.length = e := by
        cases expected with
        | none => exact ⟨Except.ok.inj h, fun e he => nomatch he⟩
        | some n =>
          simp only at h
          by_cases c6 : o.length ≠ n
          · rw [if_pos c6] at h; cases h
          · rw [if_neg c6] at h
            refine ⟨Except.ok.inj h, fun e he => ?_⟩
            cases he
            omega
      obtain ⟨rfl, he⟩ := ho
      have e1 : cmf.toNat &&& 0x0F = cmf.toNat % 16 := by
        rw [show (0x0F : Nat) = 2 ^ 4 - 1 from rfl, Nat.and_two_pow_sub_one_eq_mod]
      have e2 : (cmf.toNat <<< 8) ||| flg.toNat = 256 * cmf.toNat + flg.toNat := by
        rw [← Nat.shiftLeft_add_eq_or_of_lt (by omega), Nat.shiftLeft_eq]; omega
      refine ⟨cmf, flg, rest.take (rest.length - 4), rest.drop (rest.length - 4), by simp, by omega, by omega, ?_, hi,
        by rw [List.length_drop]; omega, Decidable.not_not.1 c5, he⟩
      have c4 := Decidable.not_not.1 c4
      rw [show (0x20 : Nat) = 2 ^ 5 from rfl] at c4
      have hb : flg.toNat.testBit 5 = false := by
        have := congrArg (fun n => Nat.testBit n 5) c4
        have h32 : Nat.testBit (2 ^ 5) 5 = true := by decide
        simpa only [Nat.testBit_and, h32, Bool.and_true, Nat.zero_testBit] using this
      rw [Nat.testBit_eq_decide_div_mod_eq] at hb
      simp at hb
      omega
  · cases h

/-- A stored block with the right check value, and with a wrong one. -/
example : inflateZlib Spec.adler32 [0x78, 0x01, 0x01, 0x01, 0x00, 0xFE, 0xFF, 0x61, 0x00, 0x62, 0x00, 0x62] none
      = .ok [0x61] ∧
    inflateZlib Spec.adler32 [0x78, 0x01, 0x01, 0x01, 0x00, 0xFE, 0xFF, 0x61, 0x00, 0x62, 0x00, 0x63] none
      = .error .invalid := by decide +kernel

end Pixo.Props
