import Verif.Model.F64
/-
Error bounds for the `f64` operations.
-/
namespace Pixo.F64

/-- Rounding moves a number below `2^(53+k)` units by at most `2^k / 2` … stated doubled. -/
theorem rnd_err (n d k : Nat) (hd : 0 < d) (h : n < d * 2 ^ (53 + k)) :
    2 * (rnd n d * d) ≤ 2 * n + d * 2 ^ k ∧ 2 * n ≤ 2 * (rnd n d * d) + d * 2 ^ k := by
  unfold rnd
  simp only
  have he : (n / d).log2 - 52 ≤ k := by
    have h1 : n / d < 2 ^ (53 + k) := by
      rw [Nat.div_lt_iff_lt_mul hd, Nat.mul_comm]; exact h
    have h2 : (n / d).log2 < 53 + k := by
      by_cases h0 : n / d = 0
      · rw [h0]; simp; omega
      · exact (Nat.log2_lt h0).2 h1
    omega
  generalize (n / d).log2 - 52 = e at he
  have hg : d * 2 ^ e ≤ d * 2 ^ k := Nat.mul_le_mul_left _ (Nat.pow_le_pow_right (by decide) he)
  have hdm := Nat.div_add_mod n (d * 2 ^ e)
  have hlt : n % (d * 2 ^ e) < d * 2 ^ e := Nat.mod_lt _ (Nat.mul_pos hd (Nat.two_pow_pos e))
  generalize hq : n / (d * 2 ^ e) = q at *
  generalize hr : n % (d * 2 ^ e) = r at *
  have e1 : q * 2 ^ e * d = d * 2 ^ e * q := by
    rw [Nat.mul_comm (q * 2 ^ e) d, Nat.mul_comm q, Nat.mul_assoc]
  have e2 : (q + 1) * 2 ^ e * d = d * 2 ^ e * q + d * 2 ^ e := by
    rw [Nat.mul_comm ((q + 1) * 2 ^ e) d, Nat.mul_comm (q + 1), ← Nat.mul_assoc, Nat.mul_add, Nat.mul_one]
  split
  · rw [e2]
    generalize d * 2 ^ e * q = Q at *
    generalize d * 2 ^ e = g at *
    generalize d * 2 ^ k = G at *
    omega
  · rw [e1]
    generalize d * 2 ^ e * q = Q at *
    generalize d * 2 ^ e = g at *
    generalize d * 2 ^ k = G at *
    omega

theorem rndI_err (n : Int) (d k : Nat) (hd : 0 < d) (h : -(d * 2 ^ (53 + k) : Nat) < n ∧ n < (d * 2 ^ (53 + k) : Nat)) :
    2 * (rndI n d * d) ≤ 2 * n + (d * 2 ^ k : Nat) ∧ 2 * n ≤ 2 * (rndI n d * d) + (d * 2 ^ k : Nat) := by
  unfold rndI
  split
  · have := rnd_err n.toNat d k hd (by omega)
    rw [← Int.natCast_mul]
    omega
  · have := rnd_err (-n).toNat d k hd (by omega)
    rw [Int.neg_mul, ← Int.natCast_mul]
    omega

/-- Rounding is exact on multiples of a small power of two. -/
theorem rnd_exact (m e d : Nat) (hm : m < 2 ^ 53) (hd : 0 < d) : rnd (m * 2 ^ e * d) d = m * 2 ^ e := by
  unfold rnd
  simp only
  rw [Nat.mul_div_cancel _ hd]
  have hle : (m * 2 ^ e).log2 - 52 ≤ e := by
    by_cases h0 : m * 2 ^ e = 0
    · rw [h0]; simp
    · have : (m * 2 ^ e).log2 < 53 + e := by
        rw [Nat.log2_lt h0, Nat.pow_add]
        exact Nat.mul_lt_mul_of_pos_right hm (Nat.two_pow_pos e)
      omega
  generalize (m * 2 ^ e).log2 - 52 = x at hle
  have hs : m * 2 ^ e * d = (m * 2 ^ (e - x)) * (d * 2 ^ x) := by
    rw [show e = (e - x) + x by omega, Nat.pow_add, show e - x + x - x = e - x by omega,
      Nat.mul_comm d, ← Nat.mul_assoc, ← Nat.mul_assoc]
  have hpos : 0 < d * 2 ^ x := Nat.mul_pos hd (Nat.two_pow_pos x)
  have hmod : m * 2 ^ e * d % (d * 2 ^ x) = 0 := by rw [hs]; exact Nat.mul_mod_left _ _
  have hdiv : m * 2 ^ e * d / (d * 2 ^ x) = m * 2 ^ (e - x) := by
    rw [hs, Nat.mul_div_cancel _ hpos]
  rw [hmod, hdiv]
  rw [if_neg (by omega), Nat.mul_assoc, ← Nat.pow_add, show e - x + x = e by omega]

end Pixo.F64
