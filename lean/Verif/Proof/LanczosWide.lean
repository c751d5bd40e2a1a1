import Verif.Proof.LanczosMean
/-
Lanczos at the right edge of an image of `2^24` columns.
-/
namespace Pixo.Resize
open Pixo F32

theorem sin_zero_near {a : ℝ} {j : ℕ} (e : ℝ) (h : |a + j * Real.pi| ≤ e) : |Real.sin a| ≤ e := by
  have h1 : |Real.sin a| = |Real.sin (a + j * Real.pi)| := by
    rw [Real.sin_add_nat_mul_pi, abs_mul, abs_pow, abs_neg, abs_one, one_pow, one_mul]
  rw [h1]
  exact (Real.abs_sin_le_abs).trans h

/-- A weight from bounds on its parts. -/
theorem weight_le {sin : Int → Int} (hsin : GoodSine sin) {x px pxa D : Int} {s1 s2 : ℝ}
    (h1 : ¬ ((x.natAbs : Int) < epsilon)) (h2 : ¬ ((x.natAbs : Int) ≥ F32.lit 3 1)) (e1 : F32.mul pi x = px)
    (e2 : divS px (F32.lit 3 1) = pxa) (e3 : F32.mul px pxa = D) (hD : 2 ^ 149 < D) (b1 : |val px| ≤ 10) (b2 : |val pxa| ≤ 10)
    (c1 : |Real.sin (val px)| ≤ s1) (c2 : |Real.sin (val pxa)| ≤ s2) (hs1 : s1 ≤ 1 / 2 ^ 20) (hs2 : s2 ≤ 1) :
    |val (kernel sin x)| ≤ 3.0001 * s1 * s2 / val D + 1 / 2 ^ 100 := by
  have hv : 1 < val D := by
    unfold val
    rw [lt_div_iff₀ (by positivity)]
    have : ((2 ^ 149 : ℤ) : ℝ) < D := by exact_mod_cast hD
    push_cast at this
    linarith
  have hv0 : 0 < val D := by linarith
  unfold kernel
  rw [if_neg h1, if_neg h2]
  simp only
  rw [e1, e2, e3]
  have g1 := hsin px b1
  have g2 := hsin pxa b2
  have m1 := val_mul (F32.lit 3 1) (sin px)
  have m2 := val_mul (F32.mul (F32.lit 3 1) (sin px)) (sin pxa)
  have m3 := val_divS (F32.mul (F32.mul (F32.lit 3 1) (sin px)) (sin pxa)) D (by omega)
  rw [val_three] at m1
  generalize val (divS (F32.mul (F32.mul (F32.lit 3 1) (sin px)) (sin pxa)) D) = r at *
  generalize val (F32.mul (F32.mul (F32.lit 3 1) (sin px)) (sin pxa)) = c at *
  generalize val (F32.mul (F32.lit 3 1) (sin px)) = b at *
  generalize val (sin px) = u at *
  generalize val (sin pxa) = v at *
  generalize Real.sin (val px) = U at *
  generalize Real.sin (val pxa) = V at *
  generalize val D = d at *
  have a1 := abs_sub_abs_le_abs_sub u U
  have a2 := abs_sub_abs_le_abs_sub v V
  have a3 := abs_sub_abs_le_abs_sub b (3 * u)
  have a4 := abs_sub_abs_le_abs_sub c (b * v)
  have a5 := abs_sub_abs_le_abs_sub r (c / d)
  rw [abs_mul, show |(3 : ℝ)| = 3 by norm_num] at m1 a3
  rw [abs_mul] at m2 a4
  rw [abs_div, abs_of_pos hv0] at m3 a5
  have hs10 : 0 ≤ s1 := (abs_nonneg _).trans c1
  have hs20 : 0 ≤ s2 := (abs_nonneg _).trans c2
  have u1 : |u| ≤ s1 * (1 + 1 / 2 ^ 22) + 1 / 2 ^ 140 := by linarith
  have v1 : |v| ≤ s2 * (1 + 1 / 2 ^ 22) + 1 / 2 ^ 140 := by linarith
  have b3 : |b| ≤ 3 * s1 * (1 + 1 / 2 ^ 20) + 1 / 2 ^ 138 := by linarith
  have bv : |b| * |v| ≤ 3 * (s1 * s2) * (1 + 1 / 2 ^ 18) + 1 / 2 ^ 130 := by
    refine (mul_le_mul b3 v1 (abs_nonneg _) (by positivity)).trans ?_
    have : s1 * s2 ≤ 1 / 2 ^ 20 * 1 := mul_le_mul hs1 hs2 hs20 (by norm_num)
    have h0 : 0 ≤ s1 * s2 := mul_nonneg hs10 hs20
    have e : (3 * s1 * (1 + 1 / 2 ^ 20) + 1 / 2 ^ 138) * (s2 * (1 + 1 / 2 ^ 22) + 1 / 2 ^ 140)
        = s1 * s2 * (3 * (1 + 1 / 2 ^ 20) * (1 + 1 / 2 ^ 22)) + s1 * (3 * (1 + 1 / 2 ^ 20) / 2 ^ 140)
          + s2 * ((1 + 1 / 2 ^ 22) / 2 ^ 138) + 1 / 2 ^ 138 * (1 / 2 ^ 140) := by ring
    rw [e]
    generalize s1 * s2 = z at *
    clear e1 e2 e3 b1 b2 m1 m2 m3 a1 a2 a3 a4 a5 u1 v1 b3 h1 h2 hD
    norm_num at *
    linarith
  have c3 : |c| ≤ 3 * (s1 * s2) * (1 + 1 / 2 ^ 17) + 1 / 2 ^ 120 := by
    have h0 : 0 ≤ s1 * s2 := mul_nonneg hs10 hs20
    generalize s1 * s2 = z at *
    generalize |b| * |v| = y at *
    norm_num at *
    linarith
  have c4 : |c| / d ≤ (3 * (s1 * s2) * (1 + 1 / 2 ^ 17) + 1 / 2 ^ 120) / d := div_le_div_of_nonneg_right c3 hv0.le
  have c5 : (3 * (s1 * s2) * (1 + 1 / 2 ^ 17) + 1 / 2 ^ 120) / d = 3 * (1 + 1 / 2 ^ 17) * (s1 * s2 / d) + 1 / d / 2 ^ 120 := by ring
  have c6 : 1 / d ≤ 1 := by rw [div_le_one hv0]; exact hv.le
  have c7 : 0 ≤ s1 * s2 / d := div_nonneg (mul_nonneg hs10 hs20) hv0.le
  have c8 : 3.0001 * s1 * s2 / d = 3.0001 * (s1 * s2 / d) := by ring
  rw [c5] at c4
  rw [c8]
  generalize s1 * s2 / d = z at *
  generalize 1 / d = y at *
  generalize |c| / d = t at *
  norm_num at *
  linarith

theorem third_sine : Real.sin (Real.pi / 3) ≤ 0.8661 ∧ Real.sin (2 * (Real.pi / 3)) ≤ 0.8661 ∧
    0 ≤ Real.sin (Real.pi / 3) ∧ 0 ≤ Real.sin (2 * (Real.pi / 3)) := by
  have e : Real.sin (2 * (Real.pi / 3)) = Real.sin (Real.pi / 3) := by
    rw [← Real.sin_pi_sub]; congr 1; ring
  rw [e, Real.sin_pi_div_three]
  have h3 : Real.sqrt 3 ≤ 1.7322 := by
    rw [Real.sqrt_le_left (by norm_num)]
    norm_num
  have h0 := Real.sqrt_nonneg 3
  norm_num at h3
  have h4 : Real.sqrt 3 / 2 ≤ 0.8661 := by norm_num; linarith
  exact ⟨h4, h4, by linarith, by linarith⟩

theorem weight_one {sin : Int → Int} (hsin : GoodSine sin) : |val (kernel sin (-1 * one))| ≤ 7 / 10 ^ 8 := by
  have h1 := Real.pi_gt_d20
  have h2 := Real.pi_lt_d20
  have ep : val (-1686629760 * 2 ^ 120) = -13176795 / 2 ^ 22 := by unfold val; push_cast; norm_num
  have eq : val (-562209920 * 2 ^ 120) = -562209920 / 2 ^ 29 := by unfold val; push_cast; norm_num
  have ed : val (1766234624 * 2 ^ 120) = 1766234624 / 2 ^ 29 := by unfold val; push_cast; norm_num
  have h := weight_le hsin (x := -1 * one) (px := -1686629760 * 2 ^ 120) (pxa := -562209920 * 2 ^ 120)
    (D := 1766234624 * 2 ^ 120) (s1 := 8.75 / 10 ^ 8) (s2 := 0.8662) (by decide +kernel) (by decide +kernel) (by decide +kernel)
    (by decide +kernel) (by decide +kernel) (by decide) (by rw [ep, abs_le]; constructor <;> norm_num)
    (by rw [eq, abs_le]; constructor <;> norm_num)
    (by
      rw [ep]
      refine sin_zero_near (j := 1) _ ?_
      rw [abs_le]
      constructor <;> norm_num at * <;> linarith)
    (by
      rw [eq]
      have h3 := Real.abs_sin_sub_sin_le (-562209920 / 2 ^ 29) (-(Real.pi / 3))
      have h4 : |(-562209920 / 2 ^ 29 : ℝ) - -(Real.pi / 3)| ≤ 0.0001 := by
        rw [abs_le]
        constructor <;> norm_num at * <;> linarith
      rw [Real.sin_neg] at h3
      have h5 := abs_le.1 (h3.trans h4)
      have h6 := third_sine
      rw [abs_le]
      constructor <;> norm_num at * <;> linarith) (by norm_num) (by norm_num)
  refine h.trans ?_
  rw [ed]
  norm_num

theorem weight_two {sin : Int → Int} (hsin : GoodSine sin) : |val (kernel sin (-2 * one))| ≤ 3.5 / 10 ^ 8 := by
  have h1 := Real.pi_gt_d20
  have h2 := Real.pi_lt_d20
  have ep : val (-3373259520 * 2 ^ 120) = -13176795 / 2 ^ 21 := by unfold val; push_cast; norm_num
  have eq : val (-1124419840 * 2 ^ 120) = -1124419840 / 2 ^ 29 := by unfold val; push_cast; norm_num
  have ed : val (7064938496 * 2 ^ 120) = 7064938496 / 2 ^ 29 := by unfold val; push_cast; norm_num
  have h := weight_le hsin (x := -2 * one) (px := -3373259520 * 2 ^ 120) (pxa := -1124419840 * 2 ^ 120)
    (D := 7064938496 * 2 ^ 120) (s1 := 17.5 / 10 ^ 8) (s2 := 0.8662) (by decide +kernel) (by decide +kernel) (by decide +kernel)
    (by decide +kernel) (by decide +kernel) (by decide) (by rw [ep, abs_le]; constructor <;> norm_num)
    (by rw [eq, abs_le]; constructor <;> norm_num)
    (by
      rw [ep]
      refine sin_zero_near (j := 2) _ ?_
      rw [abs_le]
      constructor <;> norm_num at * <;> linarith)
    (by
      rw [eq]
      have h3 := Real.abs_sin_sub_sin_le (-1124419840 / 2 ^ 29) (-(2 * (Real.pi / 3)))
      have h4 : |(-1124419840 / 2 ^ 29 : ℝ) - -(2 * (Real.pi / 3))| ≤ 0.0001 := by
        rw [abs_le]
        constructor <;> norm_num at * <;> linarith
      rw [Real.sin_neg] at h3
      have h5 := abs_le.1 (h3.trans h4)
      have h6 := third_sine
      rw [abs_le]
      constructor <;> norm_num at * <;> linarith) (by norm_num) (by norm_num)
  refine h.trans ?_
  rw [ed]
  norm_num

/-- The last contribution of a row of `2^24` pixels that keeps its width: the middle of the last pixel is rounded to
one pixel past the edge, and no weight is large. -/
theorem wide_last {sin : Int → Int} (hsin : GoodSine sin) :
    ∃ k, contribution sin 16777216 16777216 16777215 = .ok k ∧ ∀ bytes base stride,
      toByte (weightedSum bytes base stride k.weights 0 0) = 0 := by
  have k3 : kernel sin (-3 * one) = 0 := by
    unfold kernel
    rw [if_neg (by decide +kernel), if_pos (by decide +kernel)]
  have e : contribution sin 16777216 16777216 16777215 = .ok ⟨16777213,
      if (([0, kernel sin (-2 * one), kernel sin (-1 * one)].foldl F32.add 0).natAbs : Int) > epsilon
      then [0, kernel sin (-2 * one), kernel sin (-1 * one)].map (fun w => divS w ([0, kernel sin (-2 * one),
        kernel sin (-1 * one)].foldl F32.add 0)) else [0, kernel sin (-2 * one), kernel sin (-1 * one)]⟩ := by
    unfold contribution
    simp only
    have c1 : F32.div (F32.ofInt ((16777216 : Nat) : Int)) (F32.ofInt ((16777216 : Nat) : Int)) = one := by decide +kernel
    have c2 : max (one : Int) (F32.lit 1 1) = one := by decide +kernel
    have c3 : F32.sub (F32.mul (F32.add (F32.ofInt ((16777215 : Nat) : Int)) (F32.lit 1 2)) one) (F32.lit 1 2)
      = 16777216 * one := by decide +kernel
    have c4 : (F32.floor (F32.sub (16777216 * one) (F32.mul (F32.lit 3 1) one))).toNat = 16777213 := by decide +kernel
    have c5 : min ((F32.ceil (F32.add (16777216 * one) (F32.mul (F32.lit 3 1) one))).toNat + 1) 16777216 = 16777216 := by
      decide +kernel
    rw [c1, c2, c3, c4, c5, if_neg (by decide)]
    have c6 : (List.range (16777216 - 16777213)).map (fun i =>
        kernel sin (F32.div (F32.sub (F32.ofInt ((16777213 + i : Nat) : Int)) (16777216 * one)) one))
        = [0, kernel sin (-2 * one), kernel sin (-1 * one)] := by
      have a0 : F32.div (F32.sub (F32.ofInt ((16777213 + 0 : Nat) : Int)) (16777216 * one)) one = -3 * one := by decide +kernel
      have a1 : F32.div (F32.sub (F32.ofInt ((16777213 + 1 : Nat) : Int)) (16777216 * one)) one = -2 * one := by decide +kernel
      have a2 : F32.div (F32.sub (F32.ofInt ((16777213 + 2 : Nat) : Int)) (16777216 * one)) one = -1 * one := by decide +kernel
      rw [show (16777216 - 16777213 : Nat) = 3 from rfl, show List.range 3 = [0, 1, 2] from rfl]
      simp only [List.map_cons, List.map_nil]
      rw [a0, a1, a2, k3]
    rw [c6]
  refine ⟨_, e, fun bytes base stride => ?_⟩
  have w1 := weight_one hsin
  have w2 := weight_two hsin
  generalize kernel sin (-1 * one) = A at *
  generalize kernel sin (-2 * one) = B at *
  have e0 : val 0 = 0 := by unfold val; norm_num
  have hsum : |val ([0, B, A].foldl F32.add 0)| < 1 / 2 ^ 23 := by
    simp only [List.foldl_cons, List.foldl_nil]
    rw [show F32.add 0 0 = 0 by decide +kernel]
    have h1 := val_add 0 B
    have h2 := val_add (F32.add 0 B) A
    rw [e0, zero_add] at h1
    generalize val (F32.add (F32.add 0 B) A) = S at *
    generalize val (F32.add 0 B) = T at *
    have t1 := abs_sub_abs_le_abs_sub T (val B)
    have t2 := abs_sub_abs_le_abs_sub S (T + val A)
    have t3 := abs_add_le T (val A)
    norm_num at *
    linarith
  have hsmall : ¬ ((([0, B, A].foldl F32.add 0).natAbs : Int) > epsilon) := by
    intro hc
    have := (epsilon_le_iff _).1 (Int.le_of_lt hc)
    linarith
  rw [if_neg hsmall]
  refine toByte_near ?_
  have h3 := weightedSum_small bytes base stride [0, B, A] 0 0 (by
    intro w hw
    simp only [List.mem_cons, List.not_mem_nil, or_false] at hw
    rcases hw with rfl | rfl | rfl
    · rw [e0, abs_zero]; norm_num
    · exact w2.trans (by norm_num)
    · exact w1.trans (by norm_num)) (by rw [e0, abs_zero]; norm_num)
  rw [e0, sub_zero] at h3
  rw [show ((0 : UInt8).toNat : ℝ) = 0 by norm_num, sub_zero]
  refine lt_of_le_of_lt h3 ?_
  norm_num

end Pixo.Resize
