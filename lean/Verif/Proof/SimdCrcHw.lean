import Verif.Spec.Crc32c
import Verif.Model.SimdCrcHw
import Verif.Proof.Crc32
/-
The CRC32 instruction is a shift register, and shift registers with two polynomials compared.
-/
namespace Pixo.Simd
open Spec

theorem reflect_lt (k s : Nat) : reflect k s < 2 ^ k := by
  induction k generalizing s with
  | zero => simp [reflect]
  | succ k ih =>
    have := ih (s / 2)
    have h2 : s % 2 ≤ 1 := by omega
    have : s % 2 * 2 ^ k ≤ 1 * 2 ^ k := Nat.mul_le_mul_right _ h2
    rw [reflect, Nat.pow_succ]; omega

theorem reflect_testBit (k s i : Nat) : (reflect k s).testBit i = (decide (i < k) && s.testBit (k - 1 - i)) := by
  induction k generalizing s i with
  | zero => simp [reflect]
  | succ k ih =>
    have hl := reflect_lt k (s / 2)
    rw [reflect, Nat.mul_comm, Nat.testBit_two_pow_mul_add _ hl]
    by_cases h : i < k
    · rw [if_pos h, ih, Nat.testBit_div_two]
      rw [show k - 1 - i + 1 = k + 1 - 1 - i by omega]
      simp [h, show i < k + 1 by omega]
    · rw [if_neg h]
      by_cases h' : i = k
      · subst h'; simp [Nat.testBit_zero]
      · rw [Nat.testBit_lt_two_pow]
        · simp [show ¬ i < k + 1 by omega]
        · have : 2 ^ 1 ≤ 2 ^ (i - k) := Nat.pow_le_pow_right (by decide) (by omega)
          omega

/-- The bits of the divisor. -/
theorem divisor_bit (m : Nat) :
    (0x11EDC6F41 : Nat).testBit m = (decide (m = 32) || (decide (m < 32) && (0x82F63B78#32).getLsbD (31 - m))) := by
  by_cases h : m < 33
  · have : ∀ m : Fin 33, (0x11EDC6F41 : Nat).testBit m.1 =
        (decide (m.1 = 32) || (decide (m.1 < 32) && (0x82F63B78#32).getLsbD (31 - m.1))) := by decide +kernel
    exact this ⟨m, h⟩
  · rw [Nat.testBit_lt_two_pow]
    · simp [show ¬ m = 32 by omega, show ¬ m < 32 by omega]
    · have : 2 ^ 33 ≤ 2 ^ m := Nat.pow_le_pow_right (by decide) (by omega)
      omega

theorem crcBitOf_bit (p c : BitVec 32) (b : Bool) (j : Nat) :
    (crcBitOf p c b).getLsbD j = (c.getLsbD (j + 1) ^^ ((c.getLsbD 0 != b) && p.getLsbD j)) := by
  unfold crcBitOf
  split <;> rename_i h <;> simp_all [BitVec.getLsbD_ushiftRight, Nat.add_comm]

theorem div_step (k s : Nat) (c : BitVec 32) :
    (let x := (reflect (k + 1) s <<< 32) ^^^ (reflect 32 c.toNat <<< (k + 1))
     if x.testBit (32 + k) then x ^^^ (0x11EDC6F41 <<< k) else x) =
    (reflect k (s / 2) <<< 32) ^^^ (reflect 32 (crcBitOf 0x82F63B78#32 c (s % 2 == 1)).toNat <<< k) := by
  have hc : ∀ (c : BitVec 32) j, c.toNat.testBit j = c.getLsbD j := fun c j => by simp [BitVec.testBit_toNat]
  have htop : ((reflect (k + 1) s <<< 32) ^^^ (reflect 32 c.toNat <<< (k + 1))).testBit (32 + k) =
      (c.getLsbD 0 != (s % 2 == 1)) := by
    simp only [Nat.testBit_xor, Nat.testBit_shiftLeft, reflect_testBit, hc]
    rw [show k + 1 - 1 - (32 + k - 32) = 0 by omega, show 32 - 1 - (32 + k - (k + 1)) = 0 by omega]
    simp [show k + 1 ≤ 32 + k by omega, show 32 + k - (k + 1) < 32 by omega, Nat.testBit_zero]
    cases c.getLsbD 0 <;> rcases Nat.mod_two_eq_zero_or_one s with h | h <;> simp [h]
  show (if _ then _ else _) = _
  rw [htop]
  apply Nat.eq_of_testBit_eq
  intro i
  have hite : ∀ (t : Bool) (x y : Nat), (if t = true then x ^^^ y else x).testBit i =
      (x.testBit i ^^ (t && y.testBit i)) := by intro t x y; cases t <;> simp
  rw [hite]
  simp only [Nat.testBit_xor, Nat.testBit_shiftLeft, reflect_testBit, hc, divisor_bit, crcBitOf_bit]
  generalize hb : (c.getLsbD 0 != (s % 2 == 1)) = t
  rcases Nat.lt_trichotomy i (k + 32) with h | h | h
  · have e1 : (decide (i ≥ 32) && (decide (i - 32 < k + 1) && s.testBit (k + 1 - 1 - (i - 32)))) =
        (decide (i ≥ 32) && (decide (i - 32 < k) && (s / 2).testBit (k - 1 - (i - 32)))) := by
      by_cases h32 : 32 ≤ i
      · rw [Nat.testBit_div_two, show k - 1 - (i - 32) + 1 = k + 1 - 1 - (i - 32) by omega]
        simp [h32, show i - 32 < k by omega, show i - 32 < k + 1 by omega]
      · simp [h32]
    rw [e1]
    by_cases hk : k ≤ i
    · by_cases hk1 : i = k
      · subst hk1
        simp [show ¬ i + 1 ≤ i by omega, BitVec.getLsbD_of_ge]
      · rw [show 32 - 1 - (i - k) + 1 = 32 - 1 - (i - (k + 1)) by omega,
          show 31 - (i - k) = 32 - 1 - (i - k) by omega]
        simp [hk, show k + 1 ≤ i by omega, show i - (k + 1) < 32 by omega, show i - k < 32 by omega,
          show ¬ i - k = 32 by omega]
    · simp [hk, show ¬ k + 1 ≤ i by omega]
  · subst h
    have h0 : k + 1 - 1 - (k + 32 - 32) = 0 := by omega
    have h1 : 32 - 1 - (k + 32 - (k + 1)) = 0 := by omega
    rw [h0, h1, Nat.testBit_zero, ← hb]
    generalize c.getLsbD 0 = z
    simp [show k + 1 ≤ k + 32 by omega, show k + 32 - (k + 1) < 32 by omega]
    cases z <;> rcases Nat.mod_two_eq_zero_or_one s with h | h <;> simp [h]
  · simp [show ¬ i - 32 < k + 1 by omega, show ¬ i - (k + 1) < 32 by omega, show ¬ i - 32 < k by omega,
      show ¬ i - k < 32 by omega, show ¬ i - k = 32 by omega]

theorem mod2_spec (k s : Nat) (c : BitVec 32) :
    mod2 k ((reflect k s <<< 32) ^^^ (reflect 32 c.toNat <<< k)) =
      reflect 32 ((bitsLSB s k).foldl (crcBitOf 0x82F63B78#32) c).toNat := by
  induction k generalizing s c with
  | zero => simp [mod2, reflect, bitsLSB]
  | succ k ih =>
    rw [mod2, bitsLSB, List.foldl_cons, ← ih]
    exact congrArg (mod2 k) (div_step k s c)

theorem reflect_reflect (c : BitVec 32) : BitVec.ofNat 32 (reflect 32 (reflect 32 c.toNat)) = c := by
  apply BitVec.eq_of_getLsbD_eq
  intro i hi
  rw [BitVec.getLsbD_ofNat, reflect_testBit, reflect_testBit]
  rw [show 32 - 1 - (32 - 1 - i) = i by omega]
  simp [hi, show 32 - 1 - i < 32 by omega, BitVec.testBit_toNat]

/-- The instruction feeds the bits of its source, lowest first, to a shift register. -/
theorem crc32Instr_spec (n s : Nat) (c : BitVec 32) :
    crc32Instr n c s = (bitsLSB s n).foldl (crcBitOf 0x82F63B78#32) c := by
  unfold crc32Instr
  simp only [mod2_spec, reflect_reflect]

theorem bitsLSB_load (bs : List UInt8) : bitsLSB (load128 bs) (8 * bs.length) = bytesLSB bs := by
  have key : ∀ (k v w m : Nat), v < 2 ^ k → bitsLSB (v + 2 ^ k * w) (k + m) = bitsLSB v k ++ bitsLSB w m := by
    intro k
    induction k with
    | zero => intro v w m hv
              obtain rfl : v = 0 := by simpa using hv
              simp [bitsLSB]
    | succ k ih =>
      intro v w m hv
      rw [show k + 1 + m = (k + m) + 1 by omega, bitsLSB, bitsLSB]
      have e : 2 ^ (k + 1) * w = 2 * (2 ^ k * w) := by rw [Nat.pow_succ, Nat.mul_comm (2 ^ k) 2, Nat.mul_assoc]
      rw [show (v + 2 ^ (k + 1) * w) % 2 = v % 2 by omega, show (v + 2 ^ (k + 1) * w) / 2 = v / 2 + 2 ^ k * w by omega,
        ih (v / 2) w m (by omega)]
      rfl
  induction bs with
  | nil => rfl
  | cons b bs ih =>
    show bitsLSB (b.toNat + 256 * load128 bs) (8 * (bs.length + 1)) = bitsLSB b.toNat 8 ++ bytesLSB bs
    rw [← ih, show 8 * (bs.length + 1) = 8 + 8 * bs.length by omega]
    exact key 8 b.toNat (load128 bs) (8 * bs.length) b.toNat_lt

/-- Register after some bytes. -/
abbrev feed (c : BitVec 32) (bs : List UInt8) : BitVec 32 := (bytesLSB bs).foldl (crcBitOf 0x82F63B78#32) c

theorem feed_append (c : BitVec 32) (a b : List UInt8) : feed c (a ++ b) = feed (feed c a) b := by
  simp [feed, bytesLSB, List.flatMap_append, List.foldl_append]

theorem instr_take (k : Nat) (c : BitVec 32) (bs : List UInt8) (h : k ≤ bs.length) :
    crc32Instr (8 * k) c (load128 (bs.take k)) = feed c (bs.take k) := by
  rw [crc32Instr_spec, feed, ← bitsLSB_load]
  simp [Nat.min_eq_left h]

theorem part_spec (k : Nat) (s : BitVec 32 × List UInt8) :
    feed (crcHwPart k s).1 (crcHwPart k s).2 = feed s.1 s.2 := by
  unfold crcHwPart
  split
  · rename_i h
    show feed (crc32Instr _ _ _) (s.2.drop k) = _
    rw [instr_take k _ _ h, ← feed_append, List.take_append_drop]
  · rfl

theorem part_length (k : Nat) (s : BitVec 32 × List UInt8) (h : s.2.length < 2 * k) :
    (crcHwPart k s).2.length < k := by
  unfold crcHwPart
  split
  · simp; omega
  · omega

theorem hwLoop_spec (fuel : Nat) (c : BitVec 32) (bs : List UInt8) (h : bs.length ≤ fuel) :
    feed (crcHwLoop fuel c bs).1 (crcHwLoop fuel c bs).2 = feed c bs ∧ (crcHwLoop fuel c bs).2.length < 8 := by
  induction fuel generalizing c bs with
  | zero =>
    have : bs = [] := List.length_eq_zero_iff.1 (by omega)
    subst this
    exact ⟨rfl, by simp [crcHwLoop]⟩
  | succ fuel ih =>
    rw [crcHwLoop]
    split
    · rename_i h8
      have := ih (crc32Instr 64 c (load128 (bs.take 8))) (bs.drop 8) (by simp; omega)
      refine ⟨?_, this.2⟩
      rw [this.1, instr_take 8 c bs h8, ← feed_append, List.take_append_drop]
    · rename_i h8
      exact ⟨rfl, by show bs.length < 8; omega⟩

theorem crc32Hw_spec (data : List UInt8) : crc32Hw data = crc32c data := by
  have h1 := hwLoop_spec data.length (~~~ 0#32) data (Nat.le_refl _)
  unfold crc32Hw
  generalize crcHwLoop data.length (~~~ 0#32) data = s1 at h1 ⊢
  have h2 := part_spec 4 s1
  have l2 := part_length 4 s1 (by omega)
  show ~~~ (match (crcHwPart 2 (crcHwPart 4 s1)).2 with
    | [] => (crcHwPart 2 (crcHwPart 4 s1)).1
    | b :: _ => crc32Instr 8 (crcHwPart 2 (crcHwPart 4 s1)).1 b.toNat) = _
  generalize crcHwPart 4 s1 = s2 at h2 l2 ⊢
  have h3 := part_spec 2 s2
  have l3 := part_length 2 s2 (by omega)
  generalize crcHwPart 2 s2 = s3 at h3 l3 ⊢
  have e : feed s3.1 s3.2 = (bytesLSB data).foldl (crcBitOf 0x82F63B78#32) (BitVec.allOnes 32) := by
    rw [h3, h2, h1.1]; rfl
  unfold crc32c crcOf
  rw [← e]
  obtain ⟨c, r⟩ := s3
  match r, l3 with
  | [], _ => rfl
  | [b], _ =>
    show ~~~ crc32Instr 8 c b.toNat = ~~~ feed c [b]
    rw [crc32Instr_spec]
    simp [feed, bytesLSB]
  | a :: b :: r, l3 => simp at l3; omega

end Pixo.Simd
