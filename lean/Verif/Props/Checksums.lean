import Verif.Proof.Crc32
import Verif.Proof.SimdAdler
import Verif.Model.SimdCrc
/-
C08 (Adler-32), C09 (accelerated Adler-32), C10 (CRC-32), C11 (error detection), C41
(accelerated CRC-32).
-/
namespace Pixo.Props
open Spec Pixo

/-! ## C08 -/

/-- C08: the portable Adler-32 is the RFC 1950 value for every input, and no 32-bit addition
overflows (the model panics on overflow). -/
theorem C08_adler32 (data : List UInt8) : Pixo.adler32 data = .ok (Spec.adler32 data) :=
  adler32_ok data

/-- The checksum of RFC 1950 fits in 32 bits. -/
theorem C08_adler32_range (data : List UInt8) : Spec.adler32 data < 2 ^ 32 := by
  have := Simd.adlerStep_lt data 1 0 (by decide) (by decide)
  unfold Spec.adler32
  simp only
  omega

/-- "Wikipedia" has the well known checksum. -/
example : Spec.adler32 [87, 105, 107, 105, 112, 101, 100, 105, 97] = 0x11E60398 := by decide

example : Pixo.adler32 [87, 105, 107, 105, 112, 101, 100, 105, 97] = .ok 0x11E60398 := by decide

/-! ## C09 -/

/-- C09 holds on CPUs with NEON and on CPUs without any SIMD level. -/
theorem C09_neon (data : List UInt8) : Simd.adler32 .neon data = .ok (Spec.adler32 data) :=
  Simd.blockAdler_ok Simd.neonBlock_ok data

theorem C09_scalar (data : List UInt8) : Simd.adler32 .scalar data = .ok (Spec.adler32 data) :=
  adler32_ok data

/-- C09, AVX2, partial: right below 11136 bytes. -/
theorem C09_avx2_short_partial (data : List UInt8) (h : data.length < 11136) :
    Simd.adler32 .avx2 data = .ok (Spec.adler32 data) := by
  show Except.ok (Simd.adlerAvx2 data) = _
  rw [Simd.adlerAvx2_eq, Simd.avxFinal_medium data h]; rfl

/-- C09, AVX2, partial: right for any length when no byte exceeds 253. -/
theorem C09_avx2_dark_partial (data : List UInt8) (h : ∀ b ∈ data, b.toNat ≤ 253) :
    Simd.adler32 .avx2 data = .ok (Spec.adler32 data) := by
  show Except.ok (Simd.adlerAvx2 data) = _
  rw [Simd.adlerAvx2_eq, Simd.avxFinal_dark data.length data (Nat.le_refl _) 1 0 (by decide) (by decide) h]; rfl

example : (List.replicate 100000 (253 : UInt8)).length = 100000 ∧
    ∀ b ∈ List.replicate 100000 (253 : UInt8), b.toNat ≤ 253 :=
  ⟨List.length_replicate, fun b hb => by rw [(List.mem_replicate.mp hb).2]; decide⟩

/-- C09 fails on AVX2: 32-bit overflow on an input of 11136 bytes (so the length bound of
`C09_avx2_short_partial` is sharp). -/
theorem C09_avx2_violation : ∃ data : List UInt8, data.length = 11136 ∧
    Simd.adler32 .avx2 data ≠ .ok (Spec.adler32 data) := by
  refine ⟨Simd.avxWitness, ?_, fun h => Simd.avxWitness_bad (Except.ok.inj h)⟩
  unfold Simd.avxWitness
  rw [List.length_append, List.length_append, List.length_append, List.length_replicate,
    List.length_replicate, List.length_replicate]; rfl

/-- C09, SSSE3/SSE2, partial: right below 16 bytes. -/
theorem C09_ssse3_partial (data : List UInt8) (h : data.length < 16) :
    Simd.adler32 .ssse3 data = .ok (Spec.adler32 data) ∧
      Simd.adler32 .sse2 data = .ok (Spec.adler32 data) :=
  ⟨Simd.adlerSsse3_short data h, Simd.adlerSsse3_short data h⟩

/-- C09 fails on SSSE3 and SSE2: wrong for **every** input of 16 to 5551 bytes. -/
theorem C09_ssse3_violation (data : List UInt8) (h16 : 16 ≤ data.length) (h : data.length < 5552) :
    Simd.adler32 .ssse3 data ≠ .ok (Spec.adler32 data) ∧
      Simd.adler32 .sse2 data ≠ .ok (Spec.adler32 data) := by
  have key : Simd.adlerSsse3 data ≠ .ok (Spec.adler32 data) := by
    rw [Simd.adlerSsse3_value data h16 h]
    intro he
    have he := Except.ok.inj he
    unfold Spec.adler32 at he
    rw [spec_fold _ _ _ (by decide) (by decide)] at he
    simp only at he
    omega
  exact ⟨key, key⟩

example : Simd.adler32 .ssse3 (List.replicate 16 0) = .ok 0x00000001 ∧
    Spec.adler32 (List.replicate 16 0) = 0x00100001 := by decide +kernel

/-! ## C10 -/

/-- C10: `crc32` (slicing by 8) is the bit-by-bit CRC-32 for every input. -/
theorem C10_crc32 (data : List UInt8) : Crc.crc32 data = Spec.crc32 data := Crc.crc32_spec data

/-- C10: feeding pieces of any sizes to `Crc32::update` gives the CRC of the whole. -/
theorem C10_incremental (pieces : List (List UInt8)) :
    Crc.finalize (pieces.foldl Crc.update Crc.new) = Spec.crc32 pieces.flatten := by
  have key : ∀ (ps : List (List UInt8)) (c : BitVec 32),
      ps.foldl Crc.update c = (bytesLSB ps.flatten).foldl crcBit c := by
    intro ps
    induction ps with
    | nil => intro c; rfl
    | cons p ps ih =>
      intro c
      rw [List.foldl_cons, ih, Crc.update_spec, List.flatten_cons, bytesLSB_append, List.foldl_append]
  rw [Crc.finalize, key, Crc.xor_ones]; rfl

/-- Check value of CRC-32/ISO-HDLC: CRC of "123456789". -/
example : Spec.crc32 [49, 50, 51, 52, 53, 54, 55, 56, 57] = 0xCBF43926#32 := by decide +kernel

example : Crc.crc32 [49, 50, 51, 52, 53, 54, 55, 56, 57] = 0xCBF43926#32 := by decide +kernel

/-! ## C11 -/

/-- The check the PNG decoder makes: CRC of type and data equals the stored value. -/
def chunkPasses (typeAndData : List UInt8) (stored : BitVec 32) : Prop :=
  Crc.crc32 typeAndData = stored

/-- C11, bursts within type and data: changing any window of at most 32 consecutive bits
(in transmission order, least significant bit of each byte first) is detected. -/
theorem C11_burst_partial (m m' : List UInt8) (stored : BitVec 32) (pre w w' post : List Bool)
    (hm : bytesLSB m = pre ++ w ++ post) (hm' : bytesLSB m' = pre ++ w' ++ post)
    (hl : w.length = w'.length) (h32 : w.length ≤ 32) (hne : w ≠ w')
    (hpass : chunkPasses m stored) : ¬ chunkPasses m' stored := by
  intro hp
  unfold chunkPasses at *
  rw [Crc.crc32_spec] at hpass hp
  have heq : Spec.crc32 m = Spec.crc32 m' := by rw [hpass, hp]
  unfold Spec.crc32 crcBits at heq
  rw [hm, hm'] at heq
  simp only [List.foldl_append] at heq
  have h0 := (BitVec.not_inj (x := List.foldl crcBit _ post)).mp heq
  have h1 : ∀ x y : BitVec 32, x = y → x ^^^ y = 0#32 := by intro x y h; rw [h, BitVec.xor_self]
  have h2 := h1 _ _ h0
  rw [Crc.foldl_xor _ _ rfl, Crc.foldl_xor _ _ hl, BitVec.xor_self] at h2
  have hz : ∀ l : List Bool, List.zipWith Bool.xor l l = List.replicate l.length false := by
    intro l; induction l with
    | nil => rfl
    | cons a l ih => rw [List.zipWith_cons_cons, ih, Bool.xor_self]; rfl
  rw [hz, Crc.foldl_zeros] at h2
  have h3 := Crc.burst_ne_zero _ (by rw [List.length_zipWith]; omega) (Crc.Tn_eq_zero h2)
  apply hne
  clear hm hm' hpass hp heq h0 h1 h2 hz hne
  induction w generalizing w' with
  | nil => simpa using hl.symm
  | cons a w ih =>
    cases w' with
    | nil => simp at hl
    | cons b w' =>
      have ha := h3 (Bool.xor a b) (by simp)
      rw [ih w' (by simpa using hl) (by simp at h32; omega) (fun x hx => h3 x (by simp [hx]))]
      simpa using ha

/-- C11, single bits: any one flipped bit of type or data is detected. -/
theorem C11_single_bit (m m' : List UInt8) (stored : BitVec 32) (pre post : List Bool) (b : Bool)
    (hm : bytesLSB m = pre ++ [b] ++ post) (hm' : bytesLSB m' = pre ++ [!b] ++ post)
    (hpass : chunkPasses m stored) : ¬ chunkPasses m' stored :=
  C11_burst_partial m m' stored pre [b] [!b] post hm hm' rfl (by simp) (by simp) hpass

/-- C11, damage confined to the CRC field (any number of bits) is detected. -/
theorem C11_crc_field (m : List UInt8) (stored stored' : BitVec 32) (hne : stored ≠ stored')
    (hpass : chunkPasses m stored) : ¬ chunkPasses m stored' :=
  fun h => hne (hpass.symm.trans h)

example : chunkPasses [73, 69, 78, 68] 0xAE426082#32 := by unfold chunkPasses; decide +kernel

/-- C11 fails for bursts that straddle the boundary between data and CRC field, because the
field is stored most significant byte first: the last two data bytes and the first two CRC
bytes can change together without notice. This is a property of the PNG format. -/
theorem C11_straddle_violation : ∃ (m m' : List UInt8) (stored stored' : BitVec 32),
    m.length = m'.length ∧ m.take (m.length - 2) = m'.take (m.length - 2) ∧ m ≠ m' ∧
    stored &&& 0xFFFF#32 = stored' &&& 0xFFFF#32 ∧ chunkPasses m stored ∧ chunkPasses m' stored' := by
  refine ⟨[73, 69, 78, 68, 0, 0], [73, 69, 78, 68, 97, 216],
    Crc.crc32 [73, 69, 78, 68, 0, 0], Crc.crc32 [73, 69, 78, 68, 97, 216], by decide, by decide,
    by decide, by decide +kernel, rfl, rfl⟩

/-! ## C41 -/

/-- C41, partial: right below 64 bytes, and without PCLMULQDQ for every input. -/
theorem C41_short_partial (align : Nat) (data : List UInt8) (h : data.length < 64) (has : Bool) :
    Simd.crc32 has align data = Spec.crc32 data := by
  have : Simd.crcFallback data = Spec.crc32 data := by
    rw [Simd.crcFallback, Crc.foldl_byteStep, Crc.xor_ones]; rfl
  cases has
  · exact this
  · show Simd.crcPclmul align data = _
    rw [Simd.crcPclmul, if_pos h, this]

theorem C41_no_pclmul (align : Nat) (data : List UInt8) :
    Simd.crc32 false align data = Spec.crc32 data := by
  show Simd.crcFallback data = _
  rw [Simd.crcFallback, Crc.foldl_byteStep, Crc.xor_ones]; rfl

/-- C41, partial: also right when fewer than 64 bytes remain after the alignment prefix. -/
theorem C41_unaligned_partial (align : Nat) (data : List UInt8) (h0 : 0 < align)
    (ha : align ≤ data.length) (h : data.length < 64 + align) :
    Simd.crc32 true align data = Spec.crc32 data := by
  show Simd.crcPclmul align data = _
  by_cases h64 : data.length < 64
  · exact C41_short_partial align data h64 true
  · rw [Simd.crcPclmul, if_neg h64, if_pos ⟨h0, ha⟩]
    simp only
    rw [Simd.pclmulBody, if_neg (by simp; omega)]
    simp only
    rw [← List.foldl_append, List.take_append_drop, Crc.foldl_byteStep]; rfl

example : (0 < 5) ∧ 5 ≤ (List.replicate 66 (1 : UInt8)).length ∧ (List.replicate 66 (1 : UInt8)).length < 64 + 5 := by
  decide

/-- C41 fails: 64 zero bytes at an aligned address. -/
theorem C41_violation : Simd.crc32 true 0 (List.replicate 64 0) ≠ Spec.crc32 (List.replicate 64 0) := by
  have f0 : Simd.fold16 4294967295 0 0x1751997d0 0x0ccaa009e = 15206559513012826800 := by decide +kernel
  have f1 : Simd.fold16 15206559513012826800 0 0x1751997d0 0x0ccaa009e = 75222994819401855328240586496 := by decide +kernel
  have f2 : Simd.fold16 75222994819401855328240586496 0 0x1751997d0 0x0ccaa009e = 18179809186515042621117683840 := by decide +kernel
  have c0 : Simd.clmul (18179809186515042621117683840 >>> 64) 0x163cd6124 = 3681700583805644184 := by decide +kernel
  have c1 : Simd.clmul (18179809190052612520571221272 % 2 ^ 32) 0x1db710640 = 15924011750715495936 := by decide +kernel
  have c2 : Simd.clmul (16591410593270984417 % 2 ^ 32) 0x1f7011641 = 17361149995021172897 := by decide +kernel
  have c3 : Simd.clmul ((17361149995021172897 >>> 32) % 2 ^ 32) 0x1db710641 = 13625082705786447919 := by decide +kernel
  have r : Simd.reduce 18179809186515042621117683840 = 3072968398 := by
    unfold Simd.reduce
    simp only
    rw [c0, show 3681700583805644184 ^^^ 18179809186515042621117683840 = 18179809190052612520571221272 from by decide +kernel, c1,
      show (18179809190052612520571221272 >>> 32) ^^^ 15924011750715495936 = 16591410593270984417 from by decide +kernel, c2, c3]
    decide +kernel
  have hb : Simd.pclmulBody 0xFFFFFFFF#32 (List.replicate 64 0) = ([], BitVec.ofNat 32 3072968398) := by
    unfold Simd.pclmulBody
    rw [if_pos (by decide)]
    simp only
    rw [show Simd.load128 ((List.replicate 64 (0 : UInt8)).take 16) ^^^ (0xFFFFFFFF#32).toNat = 4294967295 from by decide +kernel,
      show Simd.load128 (((List.replicate 64 (0 : UInt8)).drop 16).take 16) = 0 from by decide +kernel,
      show Simd.load128 (((List.replicate 64 (0 : UInt8)).drop 32).take 16) = 0 from by decide +kernel,
      show Simd.load128 (((List.replicate 64 (0 : UInt8)).drop 48).take 16) = 0 from by decide +kernel,
      show (List.replicate 64 (0 : UInt8)).drop 64 = [] from by decide +kernel,
      show Simd.fold64 (List.replicate 64 (0 : UInt8)).length [] (4294967295, 0, 0, 0) = ([], 4294967295, 0, 0, 0) from by
        rw [List.length_replicate]; simp [Simd.fold64]]
    simp only
    rw [f0, f1, f2]
    simp [Simd.foldRest, r]
  rw [show Simd.crc32 true 0 (List.replicate 64 0) = Simd.crcPclmul 0 (List.replicate 64 0) from if_pos rfl]
  have hz : bytesLSB (List.replicate 64 (0 : UInt8)) = List.replicate 512 false := by decide +kernel
  rw [Simd.crcPclmul, if_neg (by decide), if_neg (by decide)]
  simp only
  rw [hb, Spec.crc32, crcBits, hz, Crc.foldl_zeros]
  have t0 : Crc.Tn 32 4294967295#32 = 3736805603#32 := by decide +kernel
  have t1 : Crc.Tn 32 3736805603#32 = 2598183062#32 := by decide +kernel
  have t2 : Crc.Tn 32 2598183062#32 = 2217359760#32 := by decide +kernel
  have t3 : Crc.Tn 32 2217359760#32 = 323269802#32 := by decide +kernel
  have t4 : Crc.Tn 32 323269802#32 = 4029310066#32 := by decide +kernel
  have t5 : Crc.Tn 32 4029310066#32 = 1547580895#32 := by decide +kernel
  have t6 : Crc.Tn 32 1547580895#32 = 2140112918#32 := by decide +kernel
  have t7 : Crc.Tn 32 2140112918#32 = 3874859602#32 := by decide +kernel
  have t8 : Crc.Tn 32 3874859602#32 = 2504609066#32 := by decide +kernel
  have t9 : Crc.Tn 32 2504609066#32 = 370393678#32 := by decide +kernel
  have t10 : Crc.Tn 32 370393678#32 = 2094766563#32 := by decide +kernel
  have t11 : Crc.Tn 32 2094766563#32 = 225922154#32 := by decide +kernel
  have t12 : Crc.Tn 32 225922154#32 = 869593167#32 := by decide +kernel
  have t13 : Crc.Tn 32 869593167#32 = 741825206#32 := by decide +kernel
  have t14 : Crc.Tn 32 741825206#32 = 4226643703#32 := by decide +kernel
  have t15 : Crc.Tn 32 4226643703#32 = 2322767049#32 := by decide +kernel
  rw [show BitVec.allOnes 32 = 4294967295#32 from by decide,
    show 512 = 480 + 32 from rfl, Crc.Tn_add, t0,
    show 480 = 448 + 32 from rfl, Crc.Tn_add, t1,
    show 448 = 416 + 32 from rfl, Crc.Tn_add, t2,
    show 416 = 384 + 32 from rfl, Crc.Tn_add, t3,
    show 384 = 352 + 32 from rfl, Crc.Tn_add, t4,
    show 352 = 320 + 32 from rfl, Crc.Tn_add, t5,
    show 320 = 288 + 32 from rfl, Crc.Tn_add, t6,
    show 288 = 256 + 32 from rfl, Crc.Tn_add, t7,
    show 256 = 224 + 32 from rfl, Crc.Tn_add, t8,
    show 224 = 192 + 32 from rfl, Crc.Tn_add, t9,
    show 192 = 160 + 32 from rfl, Crc.Tn_add, t10,
    show 160 = 128 + 32 from rfl, Crc.Tn_add, t11,
    show 128 = 96 + 32 from rfl, Crc.Tn_add, t12,
    show 96 = 64 + 32 from rfl, Crc.Tn_add, t13,
    show 64 = 32 + 32 from rfl, Crc.Tn_add, t14, t15]
  decide +kernel

end Pixo.Props
