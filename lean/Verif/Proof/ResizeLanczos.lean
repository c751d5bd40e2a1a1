import Verif.Proof.ResizeReal
/-
The kernel of src/resize.rs and the Lanczos kernel.
-/
namespace Pixo.Resize
open Pixo F32

/-- A sine as libraries compute it: with a relative error of at most `2^-22`. -/
def GoodSine (sin : Int → Int) : Prop :=
  ∀ y, |val y| ≤ 10 → |val (sin y) - Real.sin (val y)| ≤ |Real.sin (val y)| / 2 ^ 22 + 1 / 2 ^ 140

theorem val_neg (a : Int) : val (-a) = - val a := by unfold val; push_cast; ring

theorem val_divS (a b : Int) (hb : b ≠ 0) :
    |val (divS a b) - val a / val b| ≤ |val a / val b| / 2 ^ 24 + 1 / 2 ^ 150 := by
  unfold divS
  split
  · exact val_div a b (by omega)
  · have := val_div (-a) (-b) (by omega)
    rwa [val_neg, val_neg, neg_div_neg_eq] at this

theorem val_pi : |val pi - Real.pi| ≤ 1 / 2 ^ 23 := by
  have h1 := Real.pi_gt_d20
  have h2 := Real.pi_lt_d20
  have e : val pi = 13176795 / 2 ^ 22 := by unfold val pi; push_cast; norm_num
  rw [e, abs_le]
  constructor <;> norm_num at * <;> linarith

theorem val_three : val (F32.lit 3 1) = 3 := by
  rw [lit_three, one_eq]; unfold val; push_cast; norm_num

/-- `sin t / t` for arguments that are close. -/
theorem sinc_near {t u : ℝ} (ht : t ≠ 0) (h : |u - t| ≤ |t| / 2 ^ 21) :
    |Real.sin u / u - Real.sin t / t| ≤ 1 / 2 ^ 19 := by
  have htp : 0 < |t| := abs_pos.2 ht
  have hu : |t| / 2 ≤ |u| := by
    have := abs_sub_abs_le_abs_sub t u
    rw [abs_sub_comm] at this
    linarith
  have hup : 0 < |u| := by linarith
  have hu0 : u ≠ 0 := abs_pos.1 hup
  have e : Real.sin u / u - Real.sin t / t = (Real.sin u - Real.sin t) / u + Real.sin t / t * ((t - u) / u) := by
    field_simp; ring
  have h1 : |Real.sin u - Real.sin t| ≤ |u - t| := Real.abs_sin_sub_sin_le u t
  have h2 : |Real.sin t| ≤ |t| := Real.abs_sin_le_abs
  have h3 : |u - t| / |u| ≤ 1 / 2 ^ 20 := by
    rw [div_le_div_iff₀ hup (by positivity)]
    linarith
  have a1 : |(Real.sin u - Real.sin t) / u| ≤ 1 / 2 ^ 20 := by
    rw [abs_div]
    exact (div_le_div_of_nonneg_right h1 hup.le).trans h3
  have a2 : |Real.sin t / t * ((t - u) / u)| ≤ 1 / 2 ^ 20 := by
    rw [abs_mul, abs_div, abs_div, abs_sub_comm t u]
    have : |Real.sin t| / |t| ≤ 1 := by rw [div_le_one htp]; exact h2
    have h4 : 0 ≤ |u - t| / |u| := by positivity
    nlinarith
  rw [e]
  refine (abs_add_le _ _).trans ?_
  linarith

theorem sinc_le_one (t : ℝ) : |Real.sin t / t| ≤ 1 := by
  rw [abs_div]
  by_cases h : t = 0
  · subst h; simp
  · rw [div_le_one (abs_pos.2 h)]; exact Real.abs_sin_le_abs

/-- A product with its rounding errors: the numerator. -/
theorem numerator_near {a b s1 s2 n1 n2 : ℝ} (ha : |a| ≤ 1) (hb : |b| ≤ 1)
    (h1 : |s1 - a| ≤ |a| / 2 ^ 22 + 1 / 2 ^ 140) (h2 : |s2 - b| ≤ |b| / 2 ^ 22 + 1 / 2 ^ 140)
    (h3 : |n1 - 3 * s1| ≤ |3 * s1| / 2 ^ 24 + 1 / 2 ^ 150) (h4 : |n2 - n1 * s2| ≤ |n1 * s2| / 2 ^ 24 + 1 / 2 ^ 150) :
    |n2 - 3 * (a * b)| ≤ 3 * |a * b| / 2 ^ 20 + 1 / 2 ^ 130 := by
  have hab : |a * b| = |a| * |b| := abs_mul a b
  have ha0 := abs_nonneg a
  have hb0 := abs_nonneg b
  have e1 : |n1 - 3 * a| ≤ 3 * |a| / 2 ^ 21 + 1 / 2 ^ 137 := by
    have t1 : |s1| ≤ |a| + (|a| / 2 ^ 22 + 1 / 2 ^ 140) := by
      have := abs_sub_abs_le_abs_sub s1 a; linarith
    have t2 := abs_sub_le n1 (3 * s1) (3 * a)
    have t3 : |3 * s1 - 3 * a| = 3 * |s1 - a| := by rw [← mul_sub, abs_mul]; norm_num
    have t4 : |3 * s1| = 3 * |s1| := by rw [abs_mul]; norm_num
    rw [t3] at t2
    rw [t4] at h3
    linarith
  have n1b : |n1| ≤ 3 * |a| + (3 * |a| / 2 ^ 21 + 1 / 2 ^ 137) := by
    have := abs_sub_abs_le_abs_sub n1 (3 * a)
    have t4 : |3 * a| = 3 * |a| := by rw [abs_mul]; norm_num
    linarith
  have e2 : |n1 * s2 - 3 * (a * b)| ≤ 3 * (|a| * |b|) / 2 ^ 21 + 3 * (|a| * |b|) / 2 ^ 22 + 3 * (|a| * |b|) / 2 ^ 43 + 1 / 2 ^ 134 := by
    have e : n1 * s2 - 3 * (a * b) = (n1 - 3 * a) * b + n1 * (s2 - b) := by ring
    rw [e]
    have t1 : |(n1 - 3 * a) * b| ≤ (3 * |a| / 2 ^ 21 + 1 / 2 ^ 137) * |b| := by
      rw [abs_mul]; exact mul_le_mul_of_nonneg_right e1 hb0
    have t2 : |n1 * (s2 - b)| ≤ (3 * |a| + (3 * |a| / 2 ^ 21 + 1 / 2 ^ 137)) * (|b| / 2 ^ 22 + 1 / 2 ^ 140) := by
      rw [abs_mul]; exact mul_le_mul n1b h2 (abs_nonneg _) (by positivity)
    refine (abs_add_le _ _).trans ((add_le_add t1 t2).trans ?_)
    generalize hA : |a| = A at *
    generalize hB : |b| = B at *
    have e5 : (3 * A / 2 ^ 21 + 1 / 2 ^ 137) * B + (3 * A + (3 * A / 2 ^ 21 + 1 / 2 ^ 137)) * (B / 2 ^ 22 + 1 / 2 ^ 140)
        = 3 * (A * B) / 2 ^ 21 + 3 * (A * B) / 2 ^ 22 + 3 * (A * B) / 2 ^ 43 + (B / 2 ^ 137 + 3 * A / 2 ^ 140 + 3 * A / 2 ^ 161
          + B / 2 ^ 159 + 1 / 2 ^ 137 * (1 / 2 ^ 140)) := by ring
    rw [e5]
    linarith
  have p1 : |n1 * s2| ≤ 4 * (|a| * |b|) + 1 / 2 ^ 133 := by
    have := abs_sub_abs_le_abs_sub (n1 * s2) (3 * (a * b))
    have t4 : |3 * (a * b)| = 3 * (|a| * |b|) := by rw [abs_mul, abs_mul]; norm_num
    rw [t4] at this
    have : 0 ≤ |a| * |b| := by positivity
    linarith
  have := abs_sub_le n2 (n1 * s2) (3 * (a * b))
  rw [hab]
  have h0 : 0 ≤ |a| * |b| := by positivity
  generalize |a| * |b| = AB at *
  linarith

/-- A quotient with its rounding errors. -/
theorem quotient_near {N w n d k : ℝ} (hw : 1 / 2 ^ 50 ≤ |w|) (hN : |N| ≤ 3 * |w|)
    (hn : |n - N| ≤ |N| / 2 ^ 20 + 1 / 2 ^ 130) (hd : |d - w| ≤ |w| / 2 ^ 24 + 1 / 2 ^ 150)
    (hk : |k - n / d| ≤ |n / d| / 2 ^ 24 + 1 / 2 ^ 150) : |k - N / w| ≤ 1 / 2 ^ 16 := by
  have hw0 : 0 < |w| := lt_of_lt_of_le (by positivity) hw
  have hwne : w ≠ 0 := abs_pos.1 hw0
  have hd2 : |w| / 2 ≤ |d| := by
    have := abs_sub_abs_le_abs_sub w d
    rw [abs_sub_comm] at this
    linarith
  have hd0 : 0 < |d| := by linarith
  have hdne : d ≠ 0 := abs_pos.1 hd0
  have e : n / d - N / w = (n - N) / d + N / w * ((w - d) / d) := by field_simp; ring
  have a1 : |(n - N) / d| ≤ 1 / 2 ^ 17 := by
    rw [abs_div, div_le_div_iff₀ hd0 (by positivity)]
    linarith
  have hq : |N / w| ≤ 3 := by rw [abs_div, div_le_iff₀ hw0]; exact hN
  have a2 : |N / w * ((w - d) / d)| ≤ 3 * (1 / 2 ^ 22) := by
    rw [abs_mul]
    refine mul_le_mul hq ?_ (abs_nonneg _) (by norm_num)
    rw [abs_div, abs_sub_comm w d, div_le_div_iff₀ hd0 (by positivity)]
    linarith
  have h1 : |n / d - N / w| ≤ 1 / 2 ^ 17 + 3 * (1 / 2 ^ 22) := by
    rw [e]; exact (abs_add_le _ _).trans (add_le_add a1 a2)
  have h2 : |n / d| ≤ 4 := by
    have := abs_sub_abs_le_abs_sub (n / d) (N / w)
    linarith
  have := abs_sub_le k (n / d) (N / w)
  linarith

/-- Off the middle the kernel is three times the Lanczos kernel. -/
theorem kernel_real {sin : Int → Int} (hsin : GoodSine sin) {x : Int} (h1 : epsilon ≤ (x.natAbs : Int))
    (h2 : (x.natAbs : Int) < F32.lit 3 1) : |val (kernel sin x) - 3 * Spec.Resample.lanczos (val x)| ≤ 1 / 2 ^ 15 := by
  have habs : |val x| = (x.natAbs : ℝ) / 2 ^ 149 := by
    unfold val
    rw [abs_div, abs_of_pos (show (0 : ℝ) < 2 ^ 149 by positivity), Nat.cast_natAbs]
    push_cast
    rfl
  have hX1 : 1 / 2 ^ 23 ≤ |val x| := by
    rw [habs]
    have : (2 : ℝ) ^ 126 ≤ x.natAbs := by
      have h3 : (2 : ℤ) ^ 126 ≤ x.natAbs := h1
      exact_mod_cast h3
    rw [div_le_div_iff₀ (by positivity) (by positivity)]
    linarith
  have hX2 : |val x| < 3 := by
    rw [habs]
    rw [lit_three, one_eq] at h2
    have : (x.natAbs : ℝ) < 3 * 2 ^ 149 := by exact_mod_cast h2
    rw [div_lt_iff₀ (by positivity)]
    exact this
  have hXne : val x ≠ 0 := by
    intro h0; rw [h0, abs_zero] at hX1; norm_num at hX1
  unfold kernel
  rw [if_neg (by omega), if_neg (by omega)]
  simp only
  unfold Spec.Resample.lanczos
  rw [if_neg hXne, if_neg (by linarith)]
  have hpi := val_pi
  have hp1 := Real.pi_gt_three
  have hp2 := Real.pi_lt_four
  have hu := val_mul pi x
  have hu3 := val_divS (F32.mul pi x) (F32.lit 3 1) (by rw [lit_three, one_eq]; norm_num)
  rw [val_three] at hu3
  generalize hpx : F32.mul pi x = px at *
  generalize hpa : divS px (F32.lit 3 1) = pxa at *
  have hw := val_mul px pxa
  generalize val x = X at *
  have hpiX : |Real.pi * X| = Real.pi * |X| := by rw [abs_mul, abs_of_pos (by linarith)]
  have hcl : |val px - Real.pi * X| ≤ |Real.pi * X| / 2 ^ 22 := by
    have t1 := abs_sub_le (val px) (val pi * X) (Real.pi * X)
    have t2 : |val pi * X - Real.pi * X| ≤ 1 / 2 ^ 23 * |X| := by
      rw [← sub_mul, abs_mul]; exact mul_le_mul_of_nonneg_right hpi (abs_nonneg _)
    have t3 : |val pi * X| ≤ 4 * |X| := by
      rw [abs_mul]
      refine mul_le_mul_of_nonneg_right ?_ (abs_nonneg _)
      have := abs_sub_abs_le_abs_sub (val pi) Real.pi
      have e4 : Real.pi < 3.15 := Real.pi_lt_d2
      rw [abs_of_pos (show 0 < Real.pi by linarith)] at this
      norm_num at *
      linarith
    rw [hpiX]
    have t5 : 3 * |X| ≤ Real.pi * |X| := mul_le_mul_of_nonneg_right hp1.le (abs_nonneg _)
    generalize Real.pi * |X| = q at *
    linarith
  have hcl3 : |val pxa - Real.pi * X / 3| ≤ |Real.pi * X / 3| / 2 ^ 21 := by
    have t1 := abs_sub_le (val pxa) (val px / 3) (Real.pi * X / 3)
    have t2 : |val px / 3 - Real.pi * X / 3| = |val px - Real.pi * X| / 3 := by rw [← sub_div, abs_div]; norm_num
    have t3 : |val px / 3| = |val px| / 3 := by rw [abs_div]; norm_num
    have t4 : |Real.pi * X / 3| = |Real.pi * X| / 3 := by rw [abs_div]; norm_num
    have t5 := abs_sub_abs_le_abs_sub (val px) (Real.pi * X)
    have t6 : 3 * |X| ≤ |Real.pi * X| := by rw [hpiX]; exact mul_le_mul_of_nonneg_right hp1.le (abs_nonneg _)
    rw [t3] at hu3
    rw [t2] at t1
    rw [t4]
    generalize |Real.pi * X| = q at *
    linarith
  have ht0 : Real.pi * X ≠ 0 := mul_ne_zero (by linarith) hXne
  have ht3 : Real.pi * X / 3 ≠ 0 := div_ne_zero ht0 (by norm_num)
  have hq1 : 3 * |X| ≤ |Real.pi * X| := by rw [hpiX]; exact mul_le_mul_of_nonneg_right hp1.le (abs_nonneg _)
  have hq2 : |Real.pi * X| ≤ 9.45 := by
    rw [hpiX]
    have e4 : Real.pi < 3.15 := Real.pi_lt_d2
    nlinarith [abs_nonneg X]
  have hsu := sinc_near ht0 (hcl.trans (by
    have := abs_nonneg (Real.pi * X)
    linarith))
  have hsv := sinc_near ht3 hcl3
  have hua : |val px| ≤ 10 := by
    have := abs_sub_abs_le_abs_sub (val px) (Real.pi * X)
    linarith
  have hul : 2 * |X| ≤ |val px| := by
    have := abs_sub_abs_le_abs_sub (Real.pi * X) (val px)
    rw [abs_sub_comm] at this
    linarith
  have e9 : |Real.pi * X / 3| = |Real.pi * X| / 3 := by rw [abs_div]; norm_num
  have hva : |val pxa| ≤ 10 := by
    have := abs_sub_abs_le_abs_sub (val pxa) (Real.pi * X / 3)
    have hcl4 := hcl3
    rw [e9] at this hcl4
    linarith
  have hvl : |X| / 2 ≤ |val pxa| := by
    have := abs_sub_abs_le_abs_sub (Real.pi * X / 3) (val pxa)
    rw [abs_sub_comm] at this
    have hcl4 := hcl3
    rw [e9] at this hcl4
    linarith
  have hs1 := hsin px hua
  have hs2 := hsin pxa hva
  have hn1 := val_mul (F32.lit 3 1) (sin px)
  have hn2 := val_mul (F32.mul (F32.lit 3 1) (sin px)) (sin pxa)
  rw [val_three] at hn1
  have hwl : 1 / 2 ^ 50 ≤ |val px * val pxa| := by
    rw [abs_mul]
    have := mul_le_mul hul hvl (by positivity) (abs_nonneg _)
    have h4 : 2 * |X| * (|X| / 2) = |X| * |X| := by ring
    have h5 := mul_le_mul hX1 hX1 (by positivity) (abs_nonneg _)
    linarith
  have hDne : F32.mul px pxa ≠ 0 := by
    intro h0
    rw [h0] at hw
    have e0 : val 0 = 0 := by unfold val; norm_num
    rw [e0, zero_sub, abs_neg] at hw
    linarith
  have hk := val_divS (F32.mul (F32.mul (F32.lit 3 1) (sin px)) (sin pxa)) (F32.mul px pxa) hDne
  have hnum := numerator_near (Real.abs_sin_le_one (val px)) (Real.abs_sin_le_one (val pxa)) hs1 hs2 hn1 hn2
  have hN : |3 * (Real.sin (val px) * Real.sin (val pxa))| ≤ 3 * |val px * val pxa| := by
    rw [abs_mul, abs_mul, abs_mul]
    have := mul_le_mul (Real.abs_sin_le_abs (x := val px)) (Real.abs_sin_le_abs (x := val pxa)) (abs_nonneg _) (abs_nonneg _)
    rw [show |(3 : ℝ)| = 3 by norm_num]
    linarith
  have hN' : |val (F32.mul (F32.mul (F32.lit 3 1) (sin px)) (sin pxa)) - 3 * (Real.sin (val px) * Real.sin (val pxa))|
      ≤ |3 * (Real.sin (val px) * Real.sin (val pxa))| / 2 ^ 20 + 1 / 2 ^ 130 := by
    refine hnum.trans (le_of_eq ?_)
    rw [abs_mul 3, show |(3 : ℝ)| = 3 by norm_num]
  have hfin := quotient_near hwl hN hN' hw hk
  generalize val (divS (F32.mul (F32.mul (F32.lit 3 1) (sin px)) (sin pxa)) (F32.mul px pxa)) = K at *
  have e10 : 3 * (Real.sin (val px) * Real.sin (val pxa)) / (val px * val pxa)
      = 3 * (Real.sin (val px) / val px * (Real.sin (val pxa) / val pxa)) := by
    rw [div_mul_div_comm, mul_div_assoc]
  rw [e10] at hfin
  have b1 := sinc_le_one (val px)
  have b2 := sinc_le_one (Real.pi * X / 3)
  generalize Real.sin (val px) / val px = A at *
  generalize Real.sin (val pxa) / val pxa = B at *
  generalize Real.sin (Real.pi * X) / (Real.pi * X) = A' at *
  generalize Real.sin (Real.pi * X / 3) / (Real.pi * X / 3) = B' at *
  have hprod : |A * B - A' * B'| ≤ 1 / 2 ^ 18 := by
    have e11 : A * B - A' * B' = A * (B - B') + (A - A') * B' := by ring
    rw [e11]
    refine (abs_add_le _ _).trans ?_
    rw [abs_mul, abs_mul]
    have t1 := mul_le_mul b1 hsv (abs_nonneg _) (by norm_num)
    have t2 := mul_le_mul hsu b2 (abs_nonneg _) (by norm_num)
    linarith
  have t1 := abs_sub_le K (3 * (A * B)) (3 * (A' * B'))
  have t2 : |3 * (A * B) - 3 * (A' * B')| = 3 * |A * B - A' * B'| := by rw [← mul_sub, abs_mul]; norm_num
  rw [t2] at t1
  linarith

end Pixo.Resize

namespace Pixo.Resize
open Pixo F32

/-! ### Three pixels made one -/

/-- `1/3` as an `f32`. -/
def third : Int := 11184811 * 2 ^ 124

theorem val_third : val third = 11184811 / 2 ^ 25 := by unfold val third; push_cast; norm_num

theorem lanczos_third_ge : 0.75 ≤ Spec.Resample.lanczos (11184811 / 2 ^ 25) := by
  have h1 := Real.pi_gt_d2
  have h2 := Real.pi_lt_d2
  unfold Spec.Resample.lanczos
  rw [if_neg (by norm_num), if_neg (by rw [abs_of_pos (by norm_num)]; norm_num)]
  have hs3 : (1.7 : ℝ) ≤ √3 := by
    rw [show (1.7 : ℝ) = √(1.7 ^ 2) by rw [Real.sqrt_sq (by norm_num)]]
    exact Real.sqrt_le_sqrt (by norm_num)
  have a : 0.85 ≤ Real.sin (Real.pi * (11184811 / 2 ^ 25)) := by
    have : Real.sin (Real.pi / 3) ≤ Real.sin (Real.pi * (11184811 / 2 ^ 25)) := by
      refine Real.sin_le_sin_of_le_of_le_pi_div_two (by linarith) ?_ ?_
      · norm_num; linarith
      · norm_num; linarith
    rw [Real.sin_pi_div_three] at this
    norm_num at *
    linarith
  have a2 : Real.pi * (11184811 / 2 ^ 25) ≤ 1.051 := by norm_num at *; linarith
  have a3 : 0 < Real.pi * (11184811 / 2 ^ 25) := by positivity
  have b0 : 0 < Real.pi * (11184811 / 2 ^ 25) / 3 := by positivity
  have b1 : Real.pi * (11184811 / 2 ^ 25) / 3 ≤ 0.351 := by linarith
  have b := Real.sin_gt_sub_cube b0
  generalize Real.pi * (11184811 / 2 ^ 25) / 3 = t at *
  have h3 : 0.96 ≤ Real.sin t / t := by
    rw [le_div_iff₀ b0]
    nlinarith [mul_pos b0 b0, mul_pos (mul_pos b0 b0) b0]
  have h4 : 0.8 ≤ Real.sin (Real.pi * (11184811 / 2 ^ 25)) / (Real.pi * (11184811 / 2 ^ 25)) := by
    rw [le_div_iff₀ a3]; linarith
  nlinarith

theorem lanczos_neg (x : ℝ) : Spec.Resample.lanczos (-x) = Spec.Resample.lanczos x := by
  unfold Spec.Resample.lanczos
  simp only [neg_eq_zero, abs_neg, mul_neg, neg_div, Real.sin_neg, div_neg, neg_mul, neg_neg]

theorem contribution_three (sin : Int → Int) : contribution sin 3 1 0 =
    .ok ⟨0, if ((F32.add (F32.add (F32.add 0 (kernel sin (-third))) (F32.lit 1 1)) (kernel sin third)).natAbs : Int) > epsilon
      then [kernel sin (-third), F32.lit 1 1, kernel sin third].map (fun w => divS w
        (F32.add (F32.add (F32.add 0 (kernel sin (-third))) (F32.lit 1 1)) (kernel sin third)))
      else [kernel sin (-third), F32.lit 1 1, kernel sin third]⟩ := by
  unfold contribution
  have e0 : F32.div (F32.ofInt ((3 : Nat) : Int)) (F32.ofInt ((1 : Nat) : Int)) = F32.lit 3 1 := by decide +kernel
  have e1 : max (F32.lit 3 1) (F32.lit 1 1) = F32.lit 3 1 := by decide +kernel
  have e2 : F32.sub (F32.mul (F32.add (F32.ofInt ((0 : Nat) : Int)) (F32.lit 1 2)) (F32.lit 3 1)) (F32.lit 1 2) = F32.lit 1 1 := by
    decide +kernel
  have e3 : (F32.floor (F32.sub (F32.lit 1 1) (F32.mul (F32.lit 3 1) (F32.lit 3 1)))).toNat = 0 := by decide +kernel
  have e4 : min ((F32.ceil (F32.add (F32.lit 1 1) (F32.mul (F32.lit 3 1) (F32.lit 3 1)))).toNat + 1) 3 = 3 := by decide +kernel
  simp only [e0, e1, e2, e3, e4]
  rw [if_neg (by omega)]
  have x0 : F32.div (F32.sub (F32.ofInt ((0 + 0 : Nat) : Int)) (F32.lit 1 1)) (F32.lit 3 1) = -third := by decide +kernel
  have x1 : F32.div (F32.sub (F32.ofInt ((0 + 1 : Nat) : Int)) (F32.lit 1 1)) (F32.lit 3 1) = 0 := by decide +kernel
  have x2 : F32.div (F32.sub (F32.ofInt ((0 + 2 : Nat) : Int)) (F32.lit 1 1)) (F32.lit 3 1) = third := by decide +kernel
  have k1 : kernel sin 0 = F32.lit 1 1 := by
    unfold kernel; rw [if_pos (by decide +kernel)]
  have hl : (List.range (3 - 0)).map (fun i => kernel sin (F32.div (F32.sub (F32.ofInt ((0 + i : Nat) : Int)) (F32.lit 1 1)) (F32.lit 3 1)))
      = [kernel sin (-third), F32.lit 1 1, kernel sin third] := by
    rw [show List.range (3 - 0) = [0, 1, 2] from rfl, List.map_cons, List.map_cons, List.map_cons, List.map_nil, x0, x1, x2, k1]
  rw [hl]
  simp only [List.foldl_cons, List.foldl_nil]
  exact congrArg (fun w => Except.ok (Contribution.mk 0 w)) (if_congr Iff.rfl rfl rfl)

theorem contribution_one (sin : Int → Int) : contributions sin 1 1 = .ok [⟨0, [F32.lit 1 1]⟩] := by
  unfold contributions
  rw [show List.range 1 = [0] from rfl, List.mapM_cons, List.mapM_nil]
  have : contribution sin 1 1 0 = .ok ⟨0, [F32.lit 1 1]⟩ := by
    unfold contribution
    have e0 : F32.div (F32.ofInt ((1 : Nat) : Int)) (F32.ofInt ((1 : Nat) : Int)) = F32.lit 1 1 := by decide +kernel
    have e2 : F32.sub (F32.mul (F32.add (F32.ofInt ((0 : Nat) : Int)) (F32.lit 1 2)) (F32.lit 1 1)) (F32.lit 1 2) = 0 := by
      decide +kernel
    have e3 : (F32.floor (F32.sub 0 (F32.mul (F32.lit 3 1) (F32.lit 1 1)))).toNat = 0 := by decide +kernel
    have e4 : min ((F32.ceil (F32.add 0 (F32.mul (F32.lit 3 1) (F32.lit 1 1)))).toNat + 1) 1 = 1 := by decide +kernel
    simp only [e0, max_self, e2, e3, e4]
    rw [if_neg (by omega)]
    have x0 : F32.div (F32.sub (F32.ofInt ((0 + 0 : Nat) : Int)) 0) (F32.lit 1 1) = 0 := by decide +kernel
    have k1 : kernel sin 0 = F32.lit 1 1 := by
      unfold kernel; rw [if_pos (by decide +kernel)]
    rw [show List.range (1 - 0) = [0] from rfl, List.map_cons, List.map_nil, x0, k1]
    have e5 : [F32.lit 1 1].foldl F32.add 0 = F32.lit 1 1 := by decide +kernel
    have e6 : divS (F32.lit 1 1) (F32.lit 1 1) = F32.lit 1 1 := by decide +kernel
    rw [e5, if_pos (by decide +kernel), List.map_cons, List.map_nil, e6]
  rw [this]; rfl

/-- One bright pixel between two dark ones. -/
theorem lanczos_three {sin : Int → Int} (hsin : GoodSine sin) :
    ∃ b, lanczos3 ⟨sin, none, none⟩ [0, 255, 0] 3 1 1 1 1 = .ok [b] ∧ b.toNat ≤ 52 := by
  have ht1 : epsilon ≤ (third.natAbs : Int) := by decide +kernel
  have ht2 : (third.natAbs : Int) < F32.lit 3 1 := by decide +kernel
  have k2 := kernel_real hsin ht1 ht2
  have k0 := kernel_real hsin (x := -third) (by rw [Int.natAbs_neg]; exact ht1) (by rw [Int.natAbs_neg]; exact ht2)
  rw [val_neg, lanczos_neg] at k0
  rw [val_third] at k0 k2
  have hL := lanczos_third_ge
  have hc := contribution_three sin
  generalize kernel sin (-third) = A at *
  generalize kernel sin third = C at *
  have s1 := val_add 0 A
  have e0 : val 0 = 0 := by unfold val; norm_num
  rw [e0, zero_add] at s1
  have s2 := val_add (F32.add 0 A) (F32.lit 1 1)
  rw [val_one] at s2
  have s3 := val_add (F32.add (F32.add 0 A) (F32.lit 1 1)) C
  generalize hS : F32.add (F32.add (F32.add 0 A) (F32.lit 1 1)) C = S at *
  generalize F32.add (F32.add 0 A) (F32.lit 1 1) = S2 at *
  generalize F32.add 0 A = S1 at *
  have hLA : Spec.Resample.lanczos (11184811 / 2 ^ 25) ≤ 1 := by
    unfold Spec.Resample.lanczos
    rw [if_neg (by norm_num), if_neg (by rw [abs_of_pos (by norm_num)]; norm_num)]
    refine le_trans (le_abs_self _) ?_
    rw [abs_mul]
    exact mul_le_one₀ (sinc_le_one _) (abs_nonneg _) (sinc_le_one _)
  generalize Spec.Resample.lanczos (11184811 / 2 ^ 25) = L at *
  have hSge : 5 ≤ val S := by
    rw [abs_le] at k0 k2
    have a1 : |val A| ≤ 4 := by rw [abs_le]; constructor <;> linarith [k0.1, k0.2]
    have a2 : |val S1 + 1| ≤ 6 := by
      have s0 : |val S1 - val A| ≤ 1 := by linarith
      rw [abs_le] at s0 a1 ⊢
      constructor <;> linarith [s0.1, s0.2, a1.1, a1.2]
    have s1' : |val S1 - val A| ≤ 1 / 2 ^ 20 := by linarith
    have s2' : |val S2 - (val S1 + 1)| ≤ 1 / 2 ^ 20 := by linarith
    rw [abs_le] at s1' s2'
    have a3 : |val S2 + val C| ≤ 16 := by
      rw [abs_le] at a1 a2 ⊢
      constructor <;> linarith [k2.1, k2.2, s2'.1, s2'.2, a2.1, a2.2]
    have s3' : |val S - (val S2 + val C)| ≤ 1 / 2 ^ 19 := by linarith
    rw [abs_le] at s3'
    linarith [k0.1, k2.1, s1'.1, s2'.1, s3'.1]
  have hSe : (S.natAbs : Int) > epsilon := by
    have : (2 : ℝ) ^ 126 < S := by
      have h3 : (S : ℝ) = val S * 2 ^ 149 := by unfold val; field_simp
      rw [h3]; linarith
    have h4 : (2 : ℤ) ^ 126 < S := by exact_mod_cast this
    unfold epsilon
    omega
  rw [if_pos hSe] at hc
  have hSne : S ≠ 0 := by intro h; rw [h, e0] at hSge; norm_num at hSge
  have hw := val_divS (F32.lit 1 1) S hSne
  have hm := val_mul (F32.ofInt ((255 : UInt8).toNat : Nat)) (divS (F32.lit 1 1) S)
  rw [val_one] at hw
  rw [val_ofInt (by decide)] at hm
  have e255 : (((255 : UInt8).toNat : ℕ) : ℝ) = 255 := by rw [show (255 : UInt8).toNat = 255 from rfl]; norm_num
  rw [e255] at hm
  have hzero : ∀ w : Int, F32.mul (F32.ofInt ((0 : UInt8).toNat : Nat)) w = 0 := by
    intro w
    rw [show F32.ofInt ((0 : UInt8).toNat : Nat) = 0 by decide +kernel]
    unfold F32.mul
    rw [zero_mul]; decide
  have hcs : contributions sin 3 1 = .ok [⟨0, [divS A S, divS (F32.lit 1 1) S, divS C S]⟩] := by
    unfold contributions
    rw [show List.range 1 = [0] from rfl, List.mapM_cons, List.mapM_nil, hc]; rfl
  have hrm : Rep (F32.mul (F32.ofInt ((255 : UInt8).toNat : Nat)) (divS (F32.lit 1 1) S)) := rep_mul _ _
  generalize hM : F32.mul (F32.ofInt ((255 : UInt8).toNat : Nat)) (divS (F32.lit 1 1) S) = M at *
  have hrow : horizontalRow [0, 255, 0] [⟨0, [divS A S, divS (F32.lit 1 1) S, divS C S]⟩] 1 = .ok [toByte M] := by
    unfold horizontalRow
    rw [List.mapM_cons, List.mapM_nil, show List.range 1 = [0] from rfl, List.mapM_cons, List.mapM_nil]
    have : weighted [0, 255, 0] (0 * 1 + 0) 1 [divS A S, divS (F32.lit 1 1) S, divS C S] 0 0 = .ok M := by
      simp only [weighted]
      rw [show getChecked ([0, 255, 0] : List UInt8) (0 * 1 + 0 + 0 * 1) = .ok 0 from rfl, ok_bind,
        show getChecked ([0, 255, 0] : List UInt8) (0 * 1 + 0 + (0 + 1) * 1) = .ok 255 from rfl, ok_bind,
        show getChecked ([0, 255, 0] : List UInt8) (0 * 1 + 0 + (0 + 1 + 1) * 1) = .ok 0 from rfl, ok_bind,
        hzero, hzero, hM, F32.add_zero rep_zero]
      rw [show F32.add 0 M = F32.add M 0 by unfold F32.add; rw [add_comm], F32.add_zero hrm, F32.add_zero hrm]
    rw [this]
    rfl
  have hcol : verticalRow [toByte M] ⟨0, [F32.lit 1 1]⟩ 1 1 = .ok [toByte M] := by
    unfold verticalRow
    rw [show List.range 1 = [0] from rfl, List.mapM_cons, List.mapM_nil, List.mapM_cons, List.mapM_nil]
    have : weighted [toByte M] (0 * (1 * 1) + 0 * 1 + 0) (1 * 1) [F32.lit 1 1] 0 0 = .ok (((toByte M).toNat * one : Nat) : Int) := by
      simp only [weighted]
      rw [show getChecked [toByte M] (0 * (1 * 1) + 0 * 1 + 0 + 0 * (1 * 1)) = .ok (toByte M) from rfl, ok_bind,
        ofInt_exact (by have := (toByte M).toNat_lt; omega), lit_one,
        mul_one_right (rep_one (by have := (toByte M).toNat_lt; omega)),
        show F32.add 0 (((toByte M).toNat * one : Nat) : Int) = F32.add (((toByte M).toNat * one : Nat) : Int) 0 by
          unfold F32.add; rw [add_comm],
        F32.add_zero (rep_one (by have := (toByte M).toNat_lt; omega))]
    rw [this, ok_bind, toByte_nat]
    rfl
  refine ⟨toByte M, ?_, ?_⟩
  · unfold lanczos3
    simp only
    rw [hcs, ok_bind, contribution_one, ok_bind]
    have h1 : Parallel.loop none 1 (fun y => do
        let row ← slice [0, 255, 0] (y * (3 * 1)) (3 * 1)
        horizontalRow row [⟨0, [divS A S, divS (F32.lit 1 1) S, divS C S]⟩] 1) = .ok [[toByte M]] := by
      unfold Parallel.loop
      simp only
      rw [show List.range 1 = [0] from rfl, List.mapM_cons, List.mapM_nil,
        show slice [0, 255, 0] (0 * (3 * 1)) (3 * 1) = .ok [0, 255, 0] from rfl, ok_bind, hrow]
      rfl
    rw [h1, ok_bind]
    have h2 : Parallel.loop none 1 (fun y => do
        let k ← getChecked [(⟨0, [F32.lit 1 1]⟩ : Contribution)] y
        verticalRow ([[toByte M]] : List (List UInt8)).flatten k 1 1) = .ok [[toByte M]] := by
      unfold Parallel.loop
      simp only
      rw [show List.range 1 = [0] from rfl, List.mapM_cons, List.mapM_nil,
        show getChecked [(⟨0, [F32.lit 1 1]⟩ : Contribution)] 0 = .ok ⟨0, [F32.lit 1 1]⟩ from rfl, ok_bind,
        show ([[toByte M]] : List (List UInt8)).flatten = [toByte M] from rfl, hcol]
      rfl
    rw [h2]; rfl
  · have h5 : |1 / val S| ≤ 0.2 := by
      rw [abs_div, abs_one, abs_of_pos (by linarith), div_le_iff₀ (by linarith)]
      linarith
    have h6 : |val (divS (F32.lit 1 1) S)| ≤ 0.201 := by
      have := abs_sub_abs_le_abs_sub (val (divS (F32.lit 1 1) S)) (1 / val S)
      norm_num at *
      linarith
    have h7 : |255 * val (divS (F32.lit 1 1) S)| ≤ 51.255 := by
      rw [abs_mul, show |(255 : ℝ)| = 255 by norm_num]; linarith
    have h8 : |val M| ≤ 51.3 := by
      have := abs_sub_abs_le_abs_sub (val M) (255 * val (divS (F32.lit 1 1) S))
      norm_num at *
      linarith
    have h9 : 0 ≤ max 0 (val M) ∧ max 0 (val M) ≤ 51.3 :=
      ⟨le_max_left _ _, max_le (by norm_num) ((le_abs_self _).trans h8)⟩
    have h11 := round_real M
    have h12 : F32.round M ≤ 51 := by
      by_contra hlt
      have : (52 : ℝ) ≤ F32.round M := by exact_mod_cast (show 52 ≤ F32.round M by omega)
      rw [abs_le] at h11 h8
      norm_num at *
      linarith [h11.1, h11.2, h8.2]
    unfold toByte clampU8
    split
    · decide
    · split
      · omega
      · rw [UInt8.toNat_ofNat']; omega

end Pixo.Resize
