import Verif.Proof.Resize
import Verif.Spec.Resample
/-
src/resize.rs and the real numbers: how far positions and interpolated values are off.
-/
namespace Pixo.Resize
open Pixo F32

/-- The number an `f32` stands for. -/
noncomputable def val (x : Int) : ℝ := (x : ℝ) / 2 ^ 149

theorem rnd_real (n d : ℕ) (hd : 0 < d) : |(F32.rnd n d : ℝ) - n / d| ≤ n / d / 2 ^ 24 + 1 / 2 := by
  obtain ⟨h1, h2⟩ := rnd_rel n d hd
  have h1' : (2 : ℝ) ^ 24 * (F32.rnd n d * d) ≤ 2 ^ 24 * n + n + 2 ^ 23 * d := by exact_mod_cast h1
  have h2' : (2 : ℝ) ^ 24 * n ≤ 2 ^ 24 * (F32.rnd n d * d) + n + 2 ^ 23 * d := by exact_mod_cast h2
  have hd' : (0 : ℝ) < d := by exact_mod_cast hd
  have e : (n : ℝ) = n / d * d := by field_simp
  generalize (F32.rnd n d : ℝ) = r at *
  generalize (n : ℝ) / d = q at *
  rw [e] at h1' h2'
  rw [abs_le]
  constructor
  · have : (q - r - q / 2 ^ 24 - 1 / 2) * d ≤ 0 := by nlinarith
    have := nonpos_of_mul_nonpos_left this hd'
    linarith
  · have : (r - q - q / 2 ^ 24 - 1 / 2) * d ≤ 0 := by nlinarith
    have := nonpos_of_mul_nonpos_left this hd'
    linarith

theorem rndI_real (n : ℤ) (d : ℕ) (hd : 0 < d) : |(F32.rndI n d : ℝ) - n / d| ≤ |(n : ℝ) / d| / 2 ^ 24 + 1 / 2 := by
  have hd' : (0 : ℝ) < d := by exact_mod_cast hd
  unfold F32.rndI
  split
  · have h := rnd_real n.toNat d hd
    have e : ((n.toNat : ℕ) : ℝ) = n := by
      have : ((n.toNat : ℕ) : ℤ) = n := by omega
      exact_mod_cast this
    rw [e] at h
    have h0 : (0 : ℝ) ≤ n / d := div_nonneg (by exact_mod_cast (by assumption : 0 ≤ n)) hd'.le
    rw [abs_of_nonneg h0]
    exact_mod_cast h
  · have h := rnd_real (-n).toNat d hd
    have e : (((-n).toNat : ℕ) : ℝ) = -n := by
      have : (((-n).toNat : ℕ) : ℤ) = -n := by omega
      exact_mod_cast this
    rw [e] at h
    have h0 : (n : ℝ) / d ≤ 0 := by
      refine div_nonpos_of_nonpos_of_nonneg ?_ hd'.le
      have : n ≤ 0 := by omega
      exact_mod_cast this
    rw [abs_of_nonpos h0]
    rw [neg_div] at h
    push_cast
    rw [abs_sub_comm]
    rw [show (n : ℝ) / d - -(F32.rnd (-n).toNat d : ℝ) = (F32.rnd (-n).toNat d : ℝ) - -(n / d) by ring]
    exact h

theorem val_add (a b : Int) : |val (F32.add a b) - (val a + val b)| ≤ |val a + val b| / 2 ^ 24 + 1 / 2 ^ 150 := by
  have h := rndI_real (a + b) 1 (by omega)
  have e : val (F32.add a b) - (val a + val b) = ((F32.rndI (a + b) 1 : ℝ) - ((a + b : ℤ) : ℝ) / (1 : ℕ)) / 2 ^ 149 := by
    unfold val F32.add; push_cast; ring
  have e2 : val a + val b = (((a + b : ℤ) : ℝ) / (1 : ℕ)) / 2 ^ 149 := by unfold val; push_cast; ring
  rw [e, e2, abs_div, abs_div, abs_of_pos (show (0 : ℝ) < 2 ^ 149 by positivity)]
  have : |(((a + b : ℤ) : ℝ) / (1 : ℕ))| / 2 ^ 149 / 2 ^ 24 + 1 / 2 ^ 150
      = (|(((a + b : ℤ) : ℝ) / (1 : ℕ))| / 2 ^ 24 + 1 / 2) / 2 ^ 149 := by ring
  rw [this]
  exact div_le_div_of_nonneg_right h (by positivity)

theorem val_sub (a b : Int) : |val (F32.sub a b) - (val a - val b)| ≤ |val a - val b| / 2 ^ 24 + 1 / 2 ^ 150 := by
  have h := val_add a (-b)
  have e : val (-b) = - val b := by unfold val; push_cast; ring
  rw [e] at h
  rw [show F32.sub a b = F32.add a (-b) by unfold F32.sub F32.add; rfl]
  simpa only [sub_eq_add_neg] using h

theorem val_mul (a b : Int) : |val (F32.mul a b) - val a * val b| ≤ |val a * val b| / 2 ^ 24 + 1 / 2 ^ 150 := by
  have h := rndI_real (a * b) one F32.one_pos
  have h1 : ((one : ℕ) : ℝ) = 2 ^ 149 := by rw [one_eq]; norm_num
  rw [h1] at h
  have e2 : val a * val b = (((a * b : ℤ) : ℝ) / 2 ^ 149) / 2 ^ 149 := by unfold val; push_cast; ring
  have e : val (F32.mul a b) - val a * val b = ((F32.rndI (a * b) one : ℝ) - ((a * b : ℤ) : ℝ) / 2 ^ 149) / 2 ^ 149 := by
    rw [e2]; unfold val F32.mul; ring
  rw [e, e2, abs_div, abs_div, abs_of_pos (show (0 : ℝ) < 2 ^ 149 by positivity)]
  have : |(((a * b : ℤ) : ℝ) / 2 ^ 149)| / 2 ^ 149 / 2 ^ 24 + 1 / 2 ^ 150
      = (|(((a * b : ℤ) : ℝ) / 2 ^ 149)| / 2 ^ 24 + 1 / 2) / 2 ^ 149 := by ring
  rw [this]
  exact div_le_div_of_nonneg_right h (by positivity)

theorem val_div (a b : Int) (hb : 0 < b) :
    |val (F32.div a b) - val a / val b| ≤ |val a / val b| / 2 ^ 24 + 1 / 2 ^ 150 := by
  have h := rndI_real (a * one) b.toNat (by omega)
  have h1 : ((one : ℕ) : ℝ) = 2 ^ 149 := by rw [one_eq]; norm_num
  have h3 : ((b.toNat : ℕ) : ℝ) = b := by
    have : ((b.toNat : ℕ) : ℤ) = b := by omega
    exact_mod_cast this
  have hb' : (0 : ℝ) < b := by exact_mod_cast hb
  have e0 : ((a * (one : ℤ) : ℤ) : ℝ) = a * 2 ^ 149 := by rw [Int.cast_mul, Int.cast_natCast, h1]
  rw [e0, h3] at h
  have e2 : val a / val b = ((a : ℝ) * 2 ^ 149 / b) / 2 ^ 149 := by unfold val; field_simp
  have e : val (F32.div a b) - val a / val b = ((F32.rndI (a * one) b.toNat : ℝ) - (a : ℝ) * 2 ^ 149 / b) / 2 ^ 149 := by
    rw [e2]; unfold val F32.div; ring
  rw [e, e2, abs_div, abs_div ((a : ℝ) * 2 ^ 149 / b), abs_of_pos (show (0 : ℝ) < 2 ^ 149 by positivity)]
  have : |(a : ℝ) * 2 ^ 149 / b| / 2 ^ 149 / 2 ^ 24 + 1 / 2 ^ 150
      = (|(a : ℝ) * 2 ^ 149 / b| / 2 ^ 24 + 1 / 2) / 2 ^ 149 := by ring
  rw [this]
  exact div_le_div_of_nonneg_right h (by positivity)

theorem val_ofInt {n : ℕ} (h : n ≤ 2 ^ 24) : val (F32.ofInt n) = n := by
  rw [ofInt_exact h, one_eq]; unfold val; push_cast; norm_num

theorem val_half : val (F32.lit 1 2) = 1 / 2 := by rw [lit_half]; unfold val; push_cast; norm_num

theorem val_one : val (F32.lit 1 1) = 1 := by rw [lit_one, one_eq]; unfold val; push_cast; norm_num

theorem round_real (x : Int) : |((F32.round x : ℤ) : ℝ) - val x| ≤ 1 / 2 := by
  have key : ∀ x : ℤ, 2 * (F32.round x * 2 ^ 149) ≤ 2 * x + 2 ^ 149 ∧ 2 * x ≤ 2 * (F32.round x * 2 ^ 149) + 2 ^ 149 := by
    intro x
    unfold F32.round
    rw [one_eq]
    split <;> constructor <;> push_cast <;> omega
  obtain ⟨h1, h2⟩ := key x
  have h1' : (2 : ℝ) * (F32.round x * 2 ^ 149) ≤ 2 * x + 2 ^ 149 := by exact_mod_cast h1
  have h2' : (2 : ℝ) * x ≤ 2 * (F32.round x * 2 ^ 149) + 2 ^ 149 := by exact_mod_cast h2
  have e : (x : ℝ) = val x * 2 ^ 149 := by unfold val; field_simp
  rw [e] at h1' h2'
  rw [abs_le]
  constructor
  · have : (val x - F32.round x - 1 / 2) * 2 ^ 149 ≤ 0 := by linarith
    have := nonpos_of_mul_nonpos_left this (by positivity)
    linarith
  · have : (F32.round x - val x - 1 / 2) * 2 ^ 149 ≤ 0 := by linarith
    have := nonpos_of_mul_nonpos_left this (by positivity)
    linarith

/-! ### Nearest neighbour -/

theorem middle_real {A S s a r m c : ℝ} (hs : 1 ≤ s) (hs2 : s ≤ 2 ^ 24) (hA : 0 ≤ A) (hA2 : A ≤ 2 ^ 24)
    (hS : 0 ≤ S) (hS2 : S ≤ 2 ^ 24) (hAS : A * S ≤ s)
    (ha : |a - A| ≤ A / 2 ^ 24 + 1 / 2 ^ 150) (hr : |r - S| ≤ S / 2 ^ 24 + 1 / 2 ^ 150)
    (hm : |m - a * r| ≤ |a * r| / 2 ^ 24 + 1 / 2 ^ 150)
    (hc : |c - (m - 1 / 2)| ≤ |m - 1 / 2| / 2 ^ 24 + 1 / 2 ^ 150) :
    |c - (A * S - 1 / 2)| ≤ s / 2 ^ 21 := by
  have h0 : 0 ≤ A * S := mul_nonneg hA hS
  have h1 : |a * r - A * S| ≤ s / 2 ^ 23 + s / 2 ^ 26 := by
    have e : a * r - A * S = (a - A) * (r - S) + (a - A) * S + A * (r - S) := by ring
    rw [e]
    have t1 : |(a - A) * (r - S)| ≤ (A / 2 ^ 24 + 1 / 2 ^ 150) * (S / 2 ^ 24 + 1 / 2 ^ 150) := by
      rw [abs_mul]
      exact mul_le_mul ha hr (abs_nonneg _) (by positivity)
    have t2 : |(a - A) * S| ≤ (A / 2 ^ 24 + 1 / 2 ^ 150) * S := by
      rw [abs_mul, abs_of_nonneg hS]
      exact mul_le_mul_of_nonneg_right ha hS
    have t3 : |A * (r - S)| ≤ A * (S / 2 ^ 24 + 1 / 2 ^ 150) := by
      rw [abs_mul, abs_of_nonneg hA]
      exact mul_le_mul_of_nonneg_left hr hA
    refine (abs_add_three _ _ _).trans ?_
    have e2 : (A / 2 ^ 24 + 1 / 2 ^ 150) * (S / 2 ^ 24 + 1 / 2 ^ 150) + (A / 2 ^ 24 + 1 / 2 ^ 150) * S
        + A * (S / 2 ^ 24 + 1 / 2 ^ 150) = A * S / 2 ^ 48 + A / 2 ^ 174 + S / 2 ^ 174 + 1 / 2 ^ 150 * (1 / 2 ^ 150)
        + A * S / 2 ^ 24 + S / 2 ^ 150 + A * S / 2 ^ 24 + A / 2 ^ 150 := by ring
    have b1 : A / 2 ^ 174 ≤ 1 / 2 ^ 120 := by
      rw [div_le_div_iff₀ (by positivity) (by positivity)]; nlinarith
    have b2 : S / 2 ^ 174 ≤ 1 / 2 ^ 120 := by
      rw [div_le_div_iff₀ (by positivity) (by positivity)]; nlinarith
    have b3 : S / 2 ^ 150 ≤ 1 / 2 ^ 120 := by
      rw [div_le_div_iff₀ (by positivity) (by positivity)]; nlinarith
    have b4 : A / 2 ^ 150 ≤ 1 / 2 ^ 120 := by
      rw [div_le_div_iff₀ (by positivity) (by positivity)]; nlinarith
    have := add_le_add (add_le_add t1 t2) t3
    rw [e2] at this
    refine this.trans ?_
    generalize A * S = P at *
    norm_num at *
    linarith
  have h2 : |a * r| ≤ s + s / 2 ^ 22 := by
    have := abs_sub_abs_le_abs_sub (a * r) (A * S)
    rw [abs_of_nonneg h0] at this
    norm_num at *
    linarith
  have h3 : |m - A * S| ≤ s / 2 ^ 22 := by
    have := abs_sub_le m (a * r) (A * S)
    norm_num at *
    linarith
  have h4 : |m - 1 / 2| ≤ 2 * s := by
    rw [abs_le] at *
    constructor <;> norm_num at * <;> linarith [h3.1, h3.2]
  rw [show c - (A * S - 1 / 2) = (c - (m - 1 / 2)) + (m - A * S) by ring]
  refine (abs_add_le _ _).trans ?_
  norm_num at *
  linarith

theorem nearestIndex_real {src dst d : ℕ} (h0 : 0 < src) (hs : src ≤ 2 ^ 24) (ht : dst ≤ 2 ^ 24) (hd : d < dst) :
    |(nearestIndex src dst d : ℝ) - Spec.Resample.centre src dst d| ≤ 1 / 2 + src / 2 ^ 21 := by
  have hs1 : (1 : ℝ) ≤ src := by exact_mod_cast h0
  have hs2 : (src : ℝ) ≤ 2 ^ 24 := by exact_mod_cast hs
  have ht0 : (0 : ℝ) < dst := by exact_mod_cast (show 0 < dst by omega)
  have ht1 : (1 : ℝ) ≤ dst := by exact_mod_cast (show 1 ≤ dst by omega)
  have ht2 : (dst : ℝ) ≤ 2 ^ 24 := by exact_mod_cast ht
  have hd0 : (0 : ℝ) ≤ d := by positivity
  have hd1 : (d : ℝ) + 1 ≤ dst := by exact_mod_cast hd
  have ha := val_add (F32.ofInt d) (F32.lit 1 2)
  have hpos : 0 < F32.ofInt dst := by
    rw [ofInt_exact ht]
    have := Nat.mul_pos (show 0 < dst by omega) F32.one_pos
    exact_mod_cast this
  have hr := val_div (F32.ofInt src) (F32.ofInt dst) hpos
  rw [val_ofInt (by omega), val_half, abs_of_nonneg (show (0 : ℝ) ≤ d + 1 / 2 by positivity)] at ha
  rw [val_ofInt hs, val_ofInt ht, abs_of_nonneg (show (0 : ℝ) ≤ src / dst by positivity)] at hr
  have hm := val_mul (F32.add (F32.ofInt d) (F32.lit 1 2)) (F32.div (F32.ofInt src) (F32.ofInt dst))
  have hc := val_sub (F32.mul (F32.add (F32.ofInt d) (F32.lit 1 2)) (F32.div (F32.ofInt src) (F32.ofInt dst)))
    (F32.lit 1 2)
  rw [val_half] at hc
  have hAS : ((d : ℝ) + 1 / 2) * (src / dst) ≤ src := by
    rw [← mul_div_assoc, div_le_iff₀ ht0]
    nlinarith
  have hS2 : (src : ℝ) / dst ≤ 2 ^ 24 := by
    rw [div_le_iff₀ ht0]; nlinarith
  have key := middle_real hs1 hs2 (by positivity) (by linarith) (by positivity) hS2 hAS ha hr hm hc
  have hAS0 : (0 : ℝ) ≤ ((d : ℝ) + 1 / 2) * (src / dst) := by positivity
  have hrd := round_real (F32.sub (F32.mul (F32.add (F32.ofInt d) (F32.lit 1 2))
    (F32.div (F32.ofInt src) (F32.ofInt dst))) (F32.lit 1 2))
  have ee : Spec.Resample.centre src dst d = ((d : ℝ) + 1 / 2) * (src / dst) - 1 / 2 := by
    unfold Spec.Resample.centre; ring
  rw [ee]
  unfold nearestIndex
  simp only
  have e : F32.floor (F32.ofInt ((src - 1 : Nat) : Int)) = ((src - 1 : Nat) : Int) := by
    rw [ofInt_exact (by omega), F32.floor, Int.natCast_mul]
    exact Int.mul_ediv_cancel _ (by have := F32.one_pos; omega)
  rw [e]
  generalize F32.sub (F32.mul (F32.add (F32.ofInt d) (F32.lit 1 2)) (F32.div (F32.ofInt src) (F32.ofInt dst)))
    (F32.lit 1 2) = cc at *
  generalize F32.round cc = v at *
  generalize ((d : ℝ) + 1 / 2) * (src / dst) = X at *
  have hs21 : (0 : ℝ) ≤ src / 2 ^ 21 := by positivity
  rw [abs_le] at key hrd
  by_cases hv0 : v < 0
  · have e1 : (min (max v 0) ((src - 1 : Nat) : Int)).toNat = 0 := by omega
    have hv : (v : ℝ) ≤ -1 := by exact_mod_cast (show v ≤ -1 by omega)
    rw [e1, abs_le]
    constructor <;> push_cast <;> linarith [key.1, key.2, hrd.1, hrd.2]
  · by_cases hv1 : v ≤ ((src - 1 : Nat) : Int)
    · have e1 : (min (max v 0) ((src - 1 : Nat) : Int)).toNat = v.toNat := by omega
      have e2 : ((v.toNat : ℕ) : ℝ) = v := by
        have : ((v.toNat : ℕ) : ℤ) = v := by omega
        exact_mod_cast this
      rw [e1, e2, abs_le]
      constructor <;> linarith [key.1, key.2, hrd.1, hrd.2]
    · have e1 : (min (max v 0) ((src - 1 : Nat) : Int)).toNat = src - 1 := by omega
      have hv : (src : ℝ) ≤ v := by exact_mod_cast (show (src : ℤ) ≤ v by omega)
      rw [e1, abs_le, Nat.cast_sub (by omega)]
      constructor <;> push_cast <;> linarith [key.1, key.2, hrd.1, hrd.2]

/-! ### Bilinear -/

theorem frac_rep {f : Int} (hf : 0 ≤ f) (hr : Rep f) : Rep (f - (F32.floor f).toNat * one) := by
  obtain ⟨m, e, h1, h2⟩ := hr
  have e1 : f = ((m * 2 ^ e : ℕ) : ℤ) := by omega
  have e2 : f - (F32.floor f).toNat * one = ((m * 2 ^ e % one : ℕ) : ℤ) := by
    rw [e1]
    unfold F32.floor
    rw [one_eq]
    omega
  rw [e2]
  by_cases he : e ≤ 149
  · have e3 : m * 2 ^ e % one = (m % 2 ^ (149 - e)) * 2 ^ e := by
      rw [one_eq, show 2 ^ 149 = 2 ^ (149 - e) * 2 ^ e by rw [← pow_add, Nat.sub_add_cancel he], Nat.mul_mod_mul_right]
    rw [e3]
    exact rep_nat e ((Nat.mod_le _ _).trans h1)
  · have e3 : m * 2 ^ e % one = 0 := by
      rw [one_eq, show m * 2 ^ e = m * 2 ^ (e - 149) * 2 ^ 149 by
        rw [mul_assoc, ← pow_add, Nat.sub_add_cancel (by omega)]]
      exact Nat.mul_mod_left _ _
    rw [e3]
    exact rep_zero

/-- The taps belong to the coordinate: its integer part and its fraction, exactly. -/
theorem taps_real {src dst d : ℕ} (h : (taps src dst d).1 ≤ 2 ^ 24) :
    (taps src dst d).1 = ⌊val (coordinate src dst d)⌋.toNat ∧
    (taps src dst d).2.1 = min (⌊val (coordinate src dst d)⌋.toNat + 1) (src - 1) ∧
    val (taps src dst d).2.2 = val (coordinate src dst d) - ⌊val (coordinate src dst d)⌋ ∧
    0 ≤ val (taps src dst d).2.2 ∧ val (taps src dst d).2.2 ≤ 1 := by
  have h0 := coordinate_nonneg src dst d
  have hr : Rep (coordinate src dst d) := rep_mul _ _
  unfold taps at *
  simp only at *
  generalize coordinate src dst d = f at *
  have hfl : ⌊val f⌋ = F32.floor f := by
    rw [Int.floor_eq_iff]
    have h1 : F32.floor f * 2 ^ 149 ≤ f := by unfold F32.floor; rw [one_eq]; push_cast; omega
    have h2 : f < (F32.floor f + 1) * 2 ^ 149 := by unfold F32.floor; rw [one_eq]; push_cast; omega
    have h1' : (F32.floor f : ℝ) * 2 ^ 149 ≤ f := by exact_mod_cast h1
    have h2' : (f : ℝ) < (F32.floor f + 1) * 2 ^ 149 := by exact_mod_cast h2
    unfold val
    rw [le_div_iff₀ (by positivity), div_lt_iff₀ (by positivity)]
    exact ⟨h1', h2'⟩
  have hfr := frac_rep h0 hr
  have e1 : F32.ofInt ((F32.floor f).toNat : ℕ) = (((F32.floor f).toNat * one : ℕ) : ℤ) := ofInt_exact h
  have e2 : F32.sub f (F32.ofInt ((F32.floor f).toNat : ℕ)) = f - (F32.floor f).toNat * one := by
    rw [e1, sub_exact (by push_cast; exact hfr)]; push_cast; rfl
  have h3 : val (f - (F32.floor f).toNat * one) = val f - (F32.floor f : ℤ) := by
    have hn : ((F32.floor f).toNat : ℤ) = F32.floor f := by
      have : 0 ≤ F32.floor f := by unfold F32.floor; exact Int.ediv_nonneg h0 (by have := F32.one_pos; omega)
      omega
    rw [hn]
    unfold val
    rw [one_eq]; push_cast; field_simp
    norm_num
  rw [hfl, e2, h3]
  refine ⟨rfl, rfl, rfl, ?_, ?_⟩
  · rw [← hfl]; linarith [Int.floor_le (val f)]
  · rw [← hfl]; linarith [Int.lt_floor_add_one (val f)]

theorem coordinate_real {src dst d : ℕ} (h0 : 0 < src) (hs : src ≤ 2 ^ 24) (ht : dst ≤ 2 ^ 24) (hd : d < dst) :
    |val (coordinate src dst d) - Spec.Resample.corner src dst d| ≤ src / 2 ^ 22 := by
  have hs1 : (1 : ℝ) ≤ src := by exact_mod_cast h0
  unfold Spec.Resample.corner coordinate
  by_cases h1 : dst ≤ 1
  · rw [if_pos h1, show bilinearRatio src dst = 0 by unfold bilinearRatio; rw [if_neg (by omega)], mul_zero]
    unfold val
    norm_num
    positivity
  · rw [if_neg h1]
    have hc1 : ((src - 1 : ℕ) : ℝ) = (src : ℝ) - 1 := by rw [Nat.cast_sub (by omega)]; norm_num
    have hc2 : ((dst - 1 : ℕ) : ℝ) = (dst : ℝ) - 1 := by rw [Nat.cast_sub (by omega)]; norm_num
    have ht0 : (0 : ℝ) < (dst : ℝ) - 1 := by
      rw [← hc2]; exact_mod_cast (show 0 < dst - 1 by omega)
    have hs2 : (src : ℝ) ≤ 2 ^ 24 := by exact_mod_cast hs
    have hd1 : (d : ℝ) ≤ dst - 1 := by
      rw [← hc2]; exact_mod_cast (show d ≤ dst - 1 by omega)
    have ht2 : (dst : ℝ) ≤ 2 ^ 24 := by exact_mod_cast ht
    have hpos : 0 < F32.ofInt ((dst - 1 : ℕ) : ℤ) := by
      rw [ofInt_exact (by omega)]
      have := Nat.mul_pos (show 0 < dst - 1 by omega) F32.one_pos
      exact_mod_cast this
    have hr := val_div (F32.ofInt ((src - 1 : ℕ) : ℤ)) (F32.ofInt ((dst - 1 : ℕ) : ℤ)) hpos
    have hS0 : (0 : ℝ) ≤ (src - 1) / (dst - 1) := div_nonneg (by linarith) ht0.le
    rw [val_ofInt (by omega), val_ofInt (by omega), hc1, hc2, abs_of_nonneg hS0] at hr
    have hm := val_mul (F32.ofInt d) (bilinearRatio src dst)
    rw [val_ofInt (by omega), show bilinearRatio src dst = F32.div (F32.ofInt ((src - 1 : ℕ) : ℤ))
      (F32.ofInt ((dst - 1 : ℕ) : ℤ)) by unfold bilinearRatio; rw [if_pos (by omega)]] at hm
    rw [show bilinearRatio src dst = F32.div (F32.ofInt ((src - 1 : ℕ) : ℤ))
      (F32.ofInt ((dst - 1 : ℕ) : ℤ)) by unfold bilinearRatio; rw [if_pos (by omega)]]
    have hd0 : (0 : ℝ) ≤ d := by positivity
    rw [mul_div_assoc]
    generalize val (F32.mul (F32.ofInt d) (F32.div (F32.ofInt ((src - 1 : ℕ) : ℤ))
      (F32.ofInt ((dst - 1 : ℕ) : ℤ)))) = m at *
    generalize val (F32.div (F32.ofInt ((src - 1 : ℕ) : ℤ)) (F32.ofInt ((dst - 1 : ℕ) : ℤ))) = r at *
    have hAS : (d : ℝ) * ((src - 1) / (dst - 1)) ≤ src := by
      rw [← mul_div_assoc, div_le_iff₀ ht0]
      nlinarith
    generalize ((src : ℝ) - 1) / (dst - 1) = S at *
    have h2 : |d * r - d * S| ≤ src / 2 ^ 24 + 1 / 2 ^ 120 := by
      rw [← mul_sub, abs_mul, abs_of_nonneg hd0]
      refine (mul_le_mul_of_nonneg_left hr hd0).trans ?_
      have b : (d : ℝ) / 2 ^ 150 ≤ 1 / 2 ^ 120 := by
        rw [div_le_div_iff₀ (by positivity) (by positivity)]; nlinarith
      have e : (d : ℝ) * (S / 2 ^ 24 + 1 / 2 ^ 150) = d * S / 2 ^ 24 + d / 2 ^ 150 := by ring
      rw [e]
      have : (d : ℝ) * S / 2 ^ 24 ≤ src / 2 ^ 24 := div_le_div_of_nonneg_right hAS (by positivity)
      linarith
    have h3 : |d * r| ≤ 2 * src := by
      have h4 : 0 ≤ (d : ℝ) * S := mul_nonneg hd0 hS0
      have := abs_sub_abs_le_abs_sub (d * r) (d * S)
      rw [abs_of_nonneg h4] at this
      norm_num at *
      linarith
    rw [show m - d * S = (m - d * r) + (d * r - d * S) by ring]
    refine (abs_add_le _ _).trans ?_
    norm_num at *
    linarith

theorem lerp_real {a b t : Int} (ha : |val a| ≤ 256) (hb : |val b| ≤ 256) (ht0 : 0 ≤ val t) (ht1 : val t ≤ 1) :
    |val (lerp a b t) - (val a * (1 - val t) + val b * val t)| ≤ 1 / 2 ^ 13 := by
  unfold lerp
  have h1 := val_sub (F32.lit 1 1) t
  rw [val_one] at h1
  have h2 := val_mul a (F32.sub (F32.lit 1 1) t)
  have h3 := val_mul b t
  have h4 := val_add (F32.mul a (F32.sub (F32.lit 1 1) t)) (F32.mul b t)
  generalize F32.add (F32.mul a (F32.sub (F32.lit 1 1) t)) (F32.mul b t) = s at *
  generalize F32.mul a (F32.sub (F32.lit 1 1) t) = p at *
  generalize F32.mul b t = q at *
  generalize F32.sub (F32.lit 1 1) t = u at *
  generalize val a = a at *
  generalize val b = b at *
  generalize val t = t at *
  generalize val s = s at *
  generalize val p = p at *
  generalize val q = q at *
  generalize val u = u at *
  have ht : |1 - t| ≤ 1 := by rw [abs_le]; constructor <;> linarith
  have ht' : |t| ≤ 1 := by rw [abs_le]; constructor <;> linarith
  have h5 : |u - (1 - t)| ≤ 1 / 2 ^ 23 := by norm_num at *; linarith
  have h6 : |a * u - a * (1 - t)| ≤ 1 / 2 ^ 15 := by
    rw [← mul_sub, abs_mul]
    have := mul_le_mul ha h5 (abs_nonneg _) (by norm_num)
    norm_num at *
    linarith
  have h7 : |a * (1 - t)| ≤ 256 := by
    rw [abs_mul]
    have := mul_le_mul ha ht (abs_nonneg _) (by norm_num)
    linarith
  have h8 : |b * t| ≤ 256 := by
    rw [abs_mul]
    have := mul_le_mul hb ht' (abs_nonneg _) (by norm_num)
    linarith
  have h9 : |a * u| ≤ 257 := by
    have := abs_sub_abs_le_abs_sub (a * u) (a * (1 - t))
    norm_num at *
    linarith
  have h10 : |p - a * (1 - t)| ≤ 1 / 2 ^ 15 + 257 / 2 ^ 24 + 1 / 2 ^ 150 := by
    have := abs_sub_le p (a * u) (a * (1 - t))
    norm_num at *
    linarith
  have h11 : |q - b * t| ≤ 256 / 2 ^ 24 + 1 / 2 ^ 150 := by
    norm_num at *
    linarith
  have h12 : |p + q| ≤ 513 := by
    rw [abs_le] at *
    norm_num at *
    constructor <;> linarith [h10.1, h10.2, h11.1, h11.2, h7.1, h7.2, h8.1, h8.2]
  rw [show s - (a * (1 - t) + b * t) = (s - (p + q)) + (p - a * (1 - t)) + (q - b * t) by ring]
  refine (abs_add_three _ _ _).trans ?_
  norm_num at *
  linarith

/-- Interpolation lies between. -/
theorem mix_between {a b t : ℝ} (lo hi : ℝ) (ha : lo ≤ a ∧ a ≤ hi) (hb : lo ≤ b ∧ b ≤ hi) (h0 : 0 ≤ t) (h1 : t ≤ 1) :
    lo ≤ a * (1 - t) + b * t ∧ a * (1 - t) + b * t ≤ hi := by
  constructor <;> nlinarith [ha.1, ha.2, hb.1, hb.2]

theorem toByte_real {v : Int} {B : ℝ} (h0 : 0 ≤ B) (h1 : B ≤ 255) :
    |((toByte v).toNat : ℝ) - B| ≤ |val v - B| + 1 / 2 := by
  have h := round_real v
  unfold toByte
  generalize F32.round v = r at *
  have h2 : |(r : ℝ) - B| ≤ |val v - B| + 1 / 2 := by
    have := abs_sub_le (r : ℝ) (val v) B
    linarith
  unfold clampU8
  split
  · have hr : (r : ℝ) ≤ 0 := by exact_mod_cast (show r ≤ 0 by omega)
    refine le_trans ?_ h2
    rw [abs_of_nonpos (show (r : ℝ) - B ≤ 0 by linarith)]
    simp only [UInt8.toNat_zero, Nat.cast_zero, zero_sub, abs_neg, abs_of_nonneg h0]
    linarith
  · split
    · have hr : (255 : ℝ) ≤ r := by exact_mod_cast (show 255 ≤ r by omega)
      refine le_trans ?_ h2
      rw [abs_of_nonneg (show 0 ≤ (r : ℝ) - B by linarith)]
      rw [show ((255 : UInt8).toNat : ℝ) = 255 by rw [show (255 : UInt8).toNat = 255 from rfl]; norm_num, abs_of_nonneg (by linarith)]
      linarith
    · have e : ((UInt8.ofNat r.toNat).toNat : ℝ) = r := by
        have : ((UInt8.ofNat r.toNat).toNat : ℤ) = r := by
          rw [UInt8.toNat_ofNat']; omega
        exact_mod_cast this
      rw [e]; exact h2

theorem bilinearByte_real (p00 p01 p10 p11 : UInt8) {xf yf : Int} (hx0 : 0 ≤ val xf) (hx1 : val xf ≤ 1)
    (hy0 : 0 ≤ val yf) (hy1 : val yf ≤ 1) :
    |((bilinearByte p00 p01 p10 p11 xf yf).toNat : ℝ) -
      (((p00.toNat : ℝ) * (1 - val xf) + p01.toNat * val xf) * (1 - val yf) +
       ((p10.toNat : ℝ) * (1 - val xf) + p11.toNat * val xf) * val yf)| ≤ 1 / 2 + 1 / 2 ^ 12 := by
  have hb : ∀ p : UInt8, (0 : ℝ) ≤ p.toNat ∧ (p.toNat : ℝ) ≤ 255 := fun p =>
    ⟨by positivity, by exact_mod_cast (show p.toNat ≤ 255 by have := p.toNat_lt; omega)⟩
  have hv : ∀ p : UInt8, val (F32.ofInt p.toNat) = p.toNat := fun p => val_ofInt (by have := p.toNat_lt; omega)
  have hab : ∀ p : UInt8, |val (F32.ofInt p.toNat)| ≤ 256 := fun p => by
    rw [hv, abs_of_nonneg (hb p).1]; linarith [(hb p).2]
  have ht := lerp_real (hab p00) (hab p01) hx0 hx1
  have hbt := lerp_real (hab p10) (hab p11) hx0 hx1
  rw [hv, hv] at ht hbt
  have m1 := mix_between 0 255 (hb p00) (hb p01) hx0 hx1
  have m2 := mix_between 0 255 (hb p10) (hb p11) hx0 hx1
  unfold bilinearByte
  simp only
  generalize lerp (F32.ofInt p00.toNat) (F32.ofInt p01.toNat) xf = top at *
  generalize lerp (F32.ofInt p10.toNat) (F32.ofInt p11.toNat) xf = bot at *
  generalize (p00.toNat : ℝ) * (1 - val xf) + p01.toNat * val xf = T at *
  generalize (p10.toNat : ℝ) * (1 - val xf) + p11.toNat * val xf = B at *
  have hT : |val top| ≤ 256 := by
    rw [abs_le] at *; norm_num at *; constructor <;> linarith [ht.1, ht.2]
  have hB : |val bot| ≤ 256 := by
    rw [abs_le] at *; norm_num at *; constructor <;> linarith [hbt.1, hbt.2]
  have hl := lerp_real hT hB hy0 hy1
  have m3 := mix_between 0 255 m1 m2 hy0 hy1
  refine (toByte_real m3.1 m3.2).trans ?_
  have h5 : |(val top * (1 - val yf) + val bot * val yf) - (T * (1 - val yf) + B * val yf)| ≤ 1 / 2 ^ 13 := by
    rw [show (val top * (1 - val yf) + val bot * val yf) - (T * (1 - val yf) + B * val yf)
      = (val top - T) * (1 - val yf) + (val bot - B) * val yf by ring]
    rw [abs_le] at ht hbt ⊢
    have := mix_between (-(1 / 2 ^ 13)) (1 / 2 ^ 13) ht hbt hy0 hy1
    exact this
  have h6 := abs_sub_le (val (lerp top bot yf)) (val top * (1 - val yf) + val bot * val yf) (T * (1 - val yf) + B * val yf)
  norm_num at *
  linarith

/-- The interpolated byte is not below the least and not above the greatest of the four. -/
theorem bilinearByte_between (p00 p01 p10 p11 : UInt8) {xf yf : Int} (hx0 : 0 ≤ val xf) (hx1 : val xf ≤ 1)
    (hy0 : 0 ≤ val yf) (hy1 : val yf ≤ 1) (lo hi : ℕ)
    (h00 : lo ≤ p00.toNat ∧ p00.toNat ≤ hi) (h01 : lo ≤ p01.toNat ∧ p01.toNat ≤ hi)
    (h10 : lo ≤ p10.toNat ∧ p10.toNat ≤ hi) (h11 : lo ≤ p11.toNat ∧ p11.toNat ≤ hi) :
    lo ≤ (bilinearByte p00 p01 p10 p11 xf yf).toNat ∧ (bilinearByte p00 p01 p10 p11 xf yf).toNat ≤ hi := by
  have h := bilinearByte_real p00 p01 p10 p11 hx0 hx1 hy0 hy1
  have c : ∀ p : UInt8, lo ≤ p.toNat ∧ p.toNat ≤ hi → (lo : ℝ) ≤ p.toNat ∧ (p.toNat : ℝ) ≤ hi := fun p h =>
    ⟨by exact_mod_cast h.1, by exact_mod_cast h.2⟩
  have m1 := mix_between lo hi (c _ h00) (c _ h01) hx0 hx1
  have m2 := mix_between lo hi (c _ h10) (c _ h11) hx0 hx1
  have m3 := mix_between lo hi m1 m2 hy0 hy1
  generalize (bilinearByte p00 p01 p10 p11 xf yf).toNat = b at *
  rw [abs_le] at h
  norm_num at h
  constructor
  · by_contra hlt
    have : (b : ℝ) + 1 ≤ lo := by exact_mod_cast (show b + 1 ≤ lo by omega)
    linarith [h.1, h.2, m3.1, m3.2]
  · by_contra hlt
    have : (hi : ℝ) + 1 ≤ b := by exact_mod_cast (show hi + 1 ≤ b by omega)
    linarith [h.1, h.2, m3.1, m3.2]

end Pixo.Resize
