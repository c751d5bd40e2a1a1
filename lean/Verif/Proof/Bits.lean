import Verif.Spec.Bits
/-
Lemmas about the bit-string specification.
-/
namespace Spec

@[simp] theorem bitsLSB_zero (v : Nat) : bitsLSB v 0 = [] := rfl

theorem bitsLSB_succ (v n : Nat) : bitsLSB v (n + 1) = (v % 2 == 1) :: bitsLSB (v / 2) n := rfl

@[simp] theorem bitsLSB_length (v n : Nat) : (bitsLSB v n).length = n := by
  induction n generalizing v with
  | zero => rfl
  | succ n ih => simp [bitsLSB_succ, ih]

@[simp] theorem bitsMSB_length (v n : Nat) : (bitsMSB v n).length = n := by simp [bitsMSB]

theorem bitsLSB_add (v n m : Nat) : bitsLSB v (n + m) = bitsLSB v n ++ bitsLSB (v / 2 ^ n) m := by
  induction n generalizing v with
  | zero => simp
  | succ n ih =>
    rw [show n + 1 + m = (n + m) + 1 by omega, bitsLSB_succ, bitsLSB_succ, ih]
    simp [Nat.div_div_eq_div_mul, Nat.pow_succ, Nat.mul_comm]

theorem bitsLSB_mod (v n k : Nat) (h : n ≤ k) : bitsLSB (v % 2 ^ k) n = bitsLSB v n := by
  induction n generalizing v k with
  | zero => rfl
  | succ n ih =>
    obtain ⟨k, rfl⟩ : ∃ j, k = j + 1 := ⟨k - 1, by omega⟩
    rw [bitsLSB_succ, bitsLSB_succ]
    have h1 : v % 2 ^ (k + 1) % 2 = v % 2 := by
      rw [Nat.pow_succ, Nat.mul_comm]; exact Nat.mod_mul_right_mod v 2 (2 ^ k)
    have h2 : v % 2 ^ (k + 1) / 2 = (v / 2) % 2 ^ k := by
      rw [Nat.pow_succ, Nat.mul_comm, Nat.mod_mul_right_div_self]
    rw [h1, h2, ih _ _ (by omega)]

theorem bitsLSB_concat (a b n m : Nat) (h : a < 2 ^ n) :
    bitsLSB (a + b * 2 ^ n) (n + m) = bitsLSB a n ++ bitsLSB b m := by
  have hp : 0 < 2 ^ n := Nat.two_pow_pos n
  rw [bitsLSB_add]
  congr 1
  · rw [← bitsLSB_mod _ n n (Nat.le_refl _)]
    simp [Nat.mod_eq_of_lt h]
  · rw [Nat.add_mul_div_right _ _ hp, Nat.div_eq_of_lt h]; simp

theorem or_shift (a b n : Nat) (h : a < 2 ^ n) : a ||| (b <<< n) = a + b * 2 ^ n := by
  rw [Nat.or_comm, ← Nat.shiftLeft_add_eq_or_of_lt h, Nat.shiftLeft_eq]; omega

theorem and_mask (v n : Nat) : v &&& ((1 <<< n) - 1) = v % 2 ^ n := by
  rw [Nat.shiftLeft_eq, Nat.one_mul, Nat.and_two_pow_sub_one_eq_mod]

theorem ofBitsLSB_bitsLSB (v n : Nat) : ofBitsLSB (bitsLSB v n) = v % 2 ^ n := by
  induction n generalizing v with
  | zero => simp [ofBitsLSB, Nat.mod_one]
  | succ n ih =>
    rw [bitsLSB_succ, ofBitsLSB, ih, Nat.pow_succ, Nat.mul_comm (2 ^ n) 2, Nat.mod_mul]
    have : v % 2 = 0 ∨ v % 2 = 1 := by omega
    rcases this with h | h <;> simp [h]

theorem ofBitsLSB_lt (bs : List Bool) : ofBitsLSB bs < 2 ^ bs.length := by
  induction bs with
  | nil => simp [ofBitsLSB]
  | cons b bs ih =>
    simp only [ofBitsLSB, List.length_cons, Nat.pow_succ]
    cases b <;> simp <;> omega

theorem bitsLSB_ofBitsLSB (bs : List Bool) : bitsLSB (ofBitsLSB bs) bs.length = bs := by
  induction bs with
  | nil => rfl
  | cons b bs ih =>
    simp only [ofBitsLSB, List.length_cons, bitsLSB_succ]
    have h1 : (b.toNat + 2 * ofBitsLSB bs) % 2 = b.toNat := by cases b <;> simp
    have h2 : (b.toNat + 2 * ofBitsLSB bs) / 2 = ofBitsLSB bs := by cases b <;> simp <;> omega
    rw [h1, h2, ih]; cases b <;> simp

theorem bitsLSB_inj {a b n : Nat} (ha : a < 2 ^ n) (hb : b < 2 ^ n)
    (h : bitsLSB a n = bitsLSB b n) : a = b := by
  have := congrArg ofBitsLSB h
  simpa [ofBitsLSB_bitsLSB, Nat.mod_eq_of_lt ha, Nat.mod_eq_of_lt hb] using this

theorem bitsMSB_inj {a b n : Nat} (ha : a < 2 ^ n) (hb : b < 2 ^ n)
    (h : bitsMSB a n = bitsMSB b n) : a = b :=
  bitsLSB_inj ha hb (by simpa [bitsMSB] using h)

theorem bitsMSB_add (v n m : Nat) : bitsMSB v (n + m) = bitsMSB (v / 2 ^ n) m ++ bitsMSB v n := by
  simp [bitsMSB, bitsLSB_add]

theorem bitsMSB_succ (v n : Nat) : bitsMSB v (n + 1) = bitsMSB (v / 2) n ++ [v % 2 == 1] := by
  simp [bitsMSB, bitsLSB_succ]

theorem ofBitsMSB_append_single (bs : List Bool) (b : Bool) :
    ofBitsMSB (bs ++ [b]) = 2 * ofBitsMSB bs + b.toNat := by simp [ofBitsMSB]

theorem ofBitsMSB_bitsMSB (v n : Nat) : ofBitsMSB (bitsMSB v n) = v % 2 ^ n := by
  induction n generalizing v with
  | zero => simp [bitsMSB, ofBitsMSB, Nat.mod_one]
  | succ n ih =>
    rw [bitsMSB_succ, ofBitsMSB_append_single, ih, Nat.pow_succ, Nat.mul_comm (2 ^ n) 2,
      Nat.mod_mul]
    have : v % 2 = 0 ∨ v % 2 = 1 := by omega
    rcases this with h | h <;> simp [h] <;> omega

@[simp] theorem bytesLSB_nil : bytesLSB [] = [] := rfl

theorem bytesLSB_cons (b : UInt8) (bs : List UInt8) :
    bytesLSB (b :: bs) = bitsLSB b.toNat 8 ++ bytesLSB bs := by simp [bytesLSB]

theorem bytesLSB_append (a b : List UInt8) : bytesLSB (a ++ b) = bytesLSB a ++ bytesLSB b := by
  simp [bytesLSB]

theorem bytesLSB_length (bs : List UInt8) : (bytesLSB bs).length = 8 * bs.length := by
  induction bs with
  | nil => rfl
  | cons b bs ih => simp [bytesLSB_cons, ih]; omega

theorem bytesMSB_cons (b : UInt8) (bs : List UInt8) :
    bytesMSB (b :: bs) = bitsMSB b.toNat 8 ++ bytesMSB bs := by simp [bytesMSB]

theorem bytesMSB_append (a b : List UInt8) : bytesMSB (a ++ b) = bytesMSB a ++ bytesMSB b := by
  simp [bytesMSB]

theorem bytesMSB_length (bs : List UInt8) : (bytesMSB bs).length = 8 * bs.length := by
  induction bs with
  | nil => rfl
  | cons b bs ih => simp [bytesMSB_cons, ih]; omega

@[simp] theorem bitsLSB_ofNat (v : Nat) : bitsLSB (UInt8.ofNat v).toNat 8 = bitsLSB v 8 := by
  rw [UInt8.toNat_ofNat']
  exact bitsLSB_mod v 8 8 (Nat.le_refl _)

@[simp] theorem bitsMSB_ofNat (v : Nat) : bitsMSB (UInt8.ofNat v).toNat 8 = bitsMSB v 8 := by
  unfold bitsMSB; rw [bitsLSB_ofNat]

theorem bytesLSB_inj {a b : List UInt8} (h : bytesLSB a = bytesLSB b) : a = b := by
  induction a generalizing b with
  | nil =>
    cases b with
    | nil => rfl
    | cons y ys => have := congrArg List.length h; simp [bytesLSB_length] at this
  | cons x xs ih =>
    cases b with
    | nil => have := congrArg List.length h; simp [bytesLSB_length] at this
    | cons y ys =>
      rw [bytesLSB_cons, bytesLSB_cons] at h
      have := List.append_inj h (by simp)
      have hx : x.toNat = y.toNat :=
        bitsLSB_inj (n := 8) (UInt8.toNat_lt x) (UInt8.toNat_lt y) this.1
      rw [UInt8.toNat_inj.mp hx, ih this.2]

end Spec
