import Verif.Spec.Resample
import Mathlib.Analysis.Convex.SpecificFunctions.Deriv
/-
Sums of the Lanczos kernel over points at equal distances: the negative lobes never outweigh the middle.
-/
namespace Pixo.Lanczos
open Spec.Resample (lanczos)

/-! ### The lobes -/

theorem sin_chord {t b : ℝ} (h0 : 0 ≤ t) (h1 : t ≤ 1) (hb0 : 0 ≤ b) (hb : b ≤ Real.pi) :
    t * Real.sin b ≤ Real.sin (t * b) := by
  have hm : b ∈ Set.Icc (0 : ℝ) Real.pi := ⟨hb0, hb⟩
  have hz : (0 : ℝ) ∈ Set.Icc (0 : ℝ) Real.pi := ⟨le_refl _, Real.pi_pos.le⟩
  have h := strictConcaveOn_sin_Icc.concaveOn.2 hm hz h0 (by linarith : 0 ≤ 1 - t) (by ring)
  simpa using h

theorem neg (x : ℝ) : lanczos (-x) = lanczos x := by
  unfold lanczos
  have e1 : Real.pi * -x = -(Real.pi * x) := by ring
  have e2 : -(Real.pi * x) / 3 = -(Real.pi * x / 3) := by ring
  simp only [neg_eq_zero, abs_neg, e1, e2, Real.sin_neg, neg_div_neg_eq]

theorem abs_eq (x : ℝ) : lanczos |x| = lanczos x := by
  rcases abs_cases x with h | h <;> rw [h.1]
  exact neg x

/-- Inside, without quotients. -/
theorem form {x : ℝ} (h0 : 0 < x) (h3 : x < 3) :
    lanczos x = 3 * (Real.sin (Real.pi * x) * Real.sin (Real.pi * x / 3)) / (Real.pi ^ 2 * x ^ 2) := by
  have hp := Real.pi_pos
  unfold lanczos
  rw [if_neg (by linarith), if_neg (by rw [abs_of_pos h0]; linarith)]
  field_simp

theorem zero : lanczos 0 = 1 := by unfold lanczos; rw [if_pos rfl]

theorem le_one (x : ℝ) : |lanczos x| ≤ 1 := by
  have hs : ∀ t : ℝ, |Real.sin t / t| ≤ 1 := by
    intro t
    rw [abs_div]
    by_cases h : t = 0
    · subst h; simp
    · rw [div_le_one (abs_pos.2 h)]; exact Real.abs_sin_le_abs
  unfold lanczos
  split
  · norm_num
  · split
    · norm_num
    · rw [abs_mul]
      exact mul_le_one₀ (hs _) (abs_nonneg _) (hs _)

theorem sin_third {x : ℝ} (h0 : 0 ≤ x) (h3 : x ≤ 3) : 0 ≤ Real.sin (Real.pi * x / 3) := by
  have hp := Real.pi_pos
  apply Real.sin_nonneg_of_nonneg_of_le_pi
  · positivity
  · nlinarith

/-- The middle lobe is positive. -/
theorem middle {x : ℝ} (h0 : 0 ≤ x) (h1 : x ≤ 1) : 0 ≤ lanczos x := by
  have hp := Real.pi_pos
  rcases h0.lt_or_eq with h | h
  · rw [form h (by linarith)]
    have a1 : 0 ≤ Real.sin (Real.pi * x) := Real.sin_nonneg_of_nonneg_of_le_pi (by positivity) (by nlinarith)
    have a2 := sin_third h0 (by linarith : x ≤ 3)
    positivity
  · rw [← h, zero]; norm_num

/-- The outermost lobes are positive. -/
theorem outer {x : ℝ} (h2 : 2 ≤ x) : 0 ≤ lanczos x := by
  have hp := Real.pi_pos
  by_cases h3 : x < 3
  · rw [form (by linarith) h3]
    have a1 : 0 ≤ Real.sin (Real.pi * x) := by
      have e : Real.sin (Real.pi * x) = Real.sin (Real.pi * (x - 2)) := by
        rw [show Real.pi * (x - 2) = Real.pi * x - 2 * Real.pi by ring, Real.sin_sub_two_pi]
      rw [e]
      exact Real.sin_nonneg_of_nonneg_of_le_pi (mul_nonneg hp.le (by linarith)) (by nlinarith)
    have a2 := sin_third (by linarith : 0 ≤ x) h3.le
    positivity
  · unfold lanczos
    rw [if_neg (by linarith), if_pos (by rw [abs_of_pos (by linarith)]; linarith)]

theorem outside {x : ℝ} (h : 3 ≤ |x|) : lanczos x = 0 := by
  unfold lanczos
  rw [if_neg (by intro h0; rw [h0, abs_zero] at h; norm_num at h), if_pos h]

/-- The middle lobe falls. -/
theorem antitone {a b : ℝ} (h0 : 0 ≤ a) (hab : a ≤ b) (h1 : b ≤ 1) : lanczos b ≤ lanczos a := by
  have hp := Real.pi_pos
  rcases h0.lt_or_eq with h | h
  · have hb : 0 < b := by linarith
    have ht0 : 0 ≤ a / b := by positivity
    have ht1 : a / b ≤ 1 := by rw [div_le_one hb]; exact hab
    have c1 := sin_chord (b := Real.pi * b) ht0 ht1 (by positivity) (by nlinarith)
    have c2 := sin_chord (b := Real.pi * b / 3) ht0 ht1 (by positivity) (by nlinarith)
    rw [show a / b * (Real.pi * b) = Real.pi * a by field_simp] at c1
    rw [show a / b * (Real.pi * b / 3) = Real.pi * a / 3 by field_simp] at c2
    have s1 : 0 ≤ Real.sin (Real.pi * b) := Real.sin_nonneg_of_nonneg_of_le_pi (by positivity) (by nlinarith)
    have s2 := sin_third hb.le (by linarith : b ≤ 3)
    rw [form h (by linarith), form hb (by linarith), div_le_div_iff₀ (by positivity) (by positivity)]
    have := mul_le_mul c1 c2 (by positivity) (le_trans (by positivity) c1)
    generalize Real.sin (Real.pi * b) = B1 at *
    generalize Real.sin (Real.pi * b / 3) = B2 at *
    generalize Real.sin (Real.pi * a) = A1 at *
    generalize Real.sin (Real.pi * a / 3) = A2 at *
    have e : a / b * B1 * (a / b * B2) = a ^ 2 * (B1 * B2) / b ^ 2 := by field_simp
    rw [e, div_le_iff₀ (by positivity)] at this
    have h2 : 0 ≤ 3 * Real.pi ^ 2 := by positivity
    nlinarith [mul_le_mul_of_nonneg_left this h2]
  · rw [← h, zero]; exact (le_abs_self _).trans (le_one b)

/-- `sin (π u)` lies below the parabola through its zeros and its top. -/
theorem sin_parabola {u : ℝ} (h0 : 0 ≤ u) (h1 : u ≤ 1) : Real.sin (Real.pi * u) ≤ 4 * u * (1 - u) := by
  have hp := Real.pi_pos
  have key : ∀ v : ℝ, 0 ≤ v → v ≤ 1 / 2 → Real.cos (Real.pi * v) ≤ 1 - 4 * v ^ 2 := by
    intro v hv0 hv1
    have c := sin_chord (t := 2 * v) (b := Real.pi / 4) (by linarith) (by linarith) (by positivity) (by linarith)
    rw [Real.sin_pi_div_four, show 2 * v * (Real.pi / 4) = Real.pi * v / 2 by ring] at c
    have e : Real.cos (Real.pi * v) = 1 - 2 * Real.sin (Real.pi * v / 2) ^ 2 := by
      have := Real.cos_two_mul (Real.pi * v / 2)
      rw [show 2 * (Real.pi * v / 2) = Real.pi * v by ring] at this
      have h2 := Real.sin_sq_add_cos_sq (Real.pi * v / 2)
      linarith
    rw [e]
    have hq : 0 ≤ 2 * v * (Real.sqrt 2 / 2) := by positivity
    have := mul_self_le_mul_self hq c
    have h2 : Real.sqrt 2 * Real.sqrt 2 = 2 := Real.mul_self_sqrt (by norm_num)
    have e2 : 2 * v * (Real.sqrt 2 / 2) * (2 * v * (Real.sqrt 2 / 2)) = v ^ 2 * (Real.sqrt 2 * Real.sqrt 2) := by ring
    rw [e2, h2] at this
    nlinarith
  have e : Real.sin (Real.pi * u) = Real.cos (Real.pi * |u - 1 / 2|) := by
    rw [← Real.cos_pi_div_two_sub]
    rcases abs_cases (u - 1 / 2) with h | h <;> rw [h.1]
    · rw [← Real.cos_neg]; congr 1; ring
    · congr 1; ring
  rw [e]
  refine (key _ (abs_nonneg _) ?_).trans ?_
  · rw [abs_le]; constructor <;> linarith
  · rw [sq_abs]; nlinarith

/-- The negative lobe, from its sine. -/
theorem negative_form {x : ℝ} (h1 : 1 ≤ x) (h2 : x ≤ 2) :
    -lanczos x = 3 * (Real.sin (Real.pi * (x - 1)) * Real.sin (Real.pi * x / 3)) / (Real.pi ^ 2 * x ^ 2) := by
  rw [form (by linarith) (by linarith)]
  have e : Real.sin (Real.pi * (x - 1)) = - Real.sin (Real.pi * x) := by
    rw [show Real.pi * (x - 1) = Real.pi * x - Real.pi by ring, Real.sin_sub_pi]
  rw [e]; ring

/-- How deep the negative lobe is. -/
theorem depth {x : ℝ} (h1 : 1 ≤ x) (h2 : x ≤ 2) : -lanczos x ≤ 0.1521 := by
  have hp := Real.pi_gt_d4
  have hpos := Real.pi_pos
  rw [negative_form h1 h2, div_le_iff₀ (by positivity)]
  have a1 := sin_parabola (u := x - 1) (by linarith) (by linarith)
  have a2 := Real.sin_le_one (Real.pi * x / 3)
  have a3 := sin_third (by linarith : 0 ≤ x) (by linarith : x ≤ 3)
  have a4 : 0 ≤ Real.sin (Real.pi * (x - 1)) :=
    Real.sin_nonneg_of_nonneg_of_le_pi (mul_nonneg hpos.le (by linarith)) (by nlinarith)
  have h5 : Real.sin (Real.pi * (x - 1)) * Real.sin (Real.pi * x / 3) ≤ x ^ 2 / 2 := by
    calc _ ≤ Real.sin (Real.pi * (x - 1)) * 1 := mul_le_mul_of_nonneg_left a2 a4
      _ ≤ 4 * (x - 1) * (1 - (x - 1)) := by rw [mul_one]; exact a1
      _ ≤ x ^ 2 / 2 := by nlinarith [sq_nonneg (3 * x - 4)]
  have h6 : 9.869 ≤ Real.pi ^ 2 := by norm_num at hp ⊢; nlinarith
  nlinarith [sq_nonneg x, mul_le_mul_of_nonneg_right h6 (sq_nonneg x)]

/-- Just past one the kernel has hardly fallen below zero. -/
theorem shallow {x : ℝ} (h1 : 1 ≤ x) (h2 : x ≤ 2) : -lanczos x ≤ x - 1 := by
  have hpos := Real.pi_pos
  rw [negative_form h1 h2, div_le_iff₀ (by positivity)]
  have a1 : Real.sin (Real.pi * (x - 1)) ≤ Real.pi * (x - 1) :=
    Real.sin_le (mul_nonneg hpos.le (by linarith))
  have a2 : Real.sin (Real.pi * x / 3) ≤ Real.pi * x / 3 := Real.sin_le (by positivity)
  have a3 := sin_third (by linarith : 0 ≤ x) (by linarith : x ≤ 3)
  have h3 := mul_le_mul a1 a2 a3 (mul_nonneg hpos.le (by linarith))
  have h4 : 0 ≤ Real.pi ^ 2 * (x - 1) * x * (x - 1) := by
    have : 0 ≤ x - 1 := by linarith
    positivity
  nlinarith

/-- The negative lobe is at most a third of the middle lobe one to the left. -/
theorem third {x : ℝ} (h1 : 1 ≤ x) (h2 : x ≤ 2) : -lanczos x ≤ lanczos (x - 1) / 3 := by
  have hpos := Real.pi_pos
  rcases h1.lt_or_eq with h | h
  · rw [negative_form h1 h2, form (by linarith : 0 < x - 1) (by linarith)]
    have a2 := Real.sin_le_one (Real.pi * x / 3)
    have a3 := sin_third (by linarith : 0 ≤ x) (by linarith : x ≤ 3)
    have a4 : 0 ≤ Real.sin (Real.pi * (x - 1)) :=
      Real.sin_nonneg_of_nonneg_of_le_pi (mul_nonneg hpos.le (by linarith)) (by nlinarith)
    have c := sin_chord (t := x - 1) (b := Real.pi / 3) (by linarith) (by linarith) (by positivity) (by linarith)
    rw [Real.sin_pi_div_three, show (x - 1) * (Real.pi / 3) = Real.pi * (x - 1) / 3 by ring] at c
    have h3 : (1.732 : ℝ) ≤ Real.sqrt 3 := by
      rw [show (1.732 : ℝ) = Real.sqrt (1.732 ^ 2) by rw [Real.sqrt_sq (by norm_num)]]
      exact Real.sqrt_le_sqrt (by norm_num)
    have hu : 0 < x - 1 := by linarith
    have c' : (x - 1) * 0.866 ≤ Real.sin (Real.pi * (x - 1) / 3) := by nlinarith
    rw [div_div, div_le_div_iff₀ (by positivity) (by positivity)]
    generalize Real.sin (Real.pi * (x - 1)) = S at *
    generalize Real.sin (Real.pi * (x - 1) / 3) = B at *
    generalize Real.sin (Real.pi * x / 3) = A at *
    have h5 : A * ((x - 1) ^ 2 * 3) ≤ B * x ^ 2 := by
      have t1 : A * ((x - 1) ^ 2 * 3) ≤ 1 * ((x - 1) ^ 2 * 3) := mul_le_mul_of_nonneg_right a2 (by positivity)
      have t2 : (x - 1) * 0.866 * x ^ 2 ≤ B * x ^ 2 := mul_le_mul_of_nonneg_right c' (by positivity)
      have t3 : 1 * ((x - 1) ^ 2 * 3) ≤ (x - 1) * 0.866 * x ^ 2 := by
        have : (x - 1) * 3 ≤ 0.866 * x ^ 2 := by nlinarith [sq_nonneg (x - 1.75)]
        nlinarith
      linarith
    have h6 : 0 ≤ 3 * S * Real.pi ^ 2 := by positivity
    nlinarith [mul_le_mul_of_nonneg_left h5 h6]
  · rw [← h, sub_self, zero]
    have := depth (le_refl (1 : ℝ)) (by norm_num)
    norm_num at *
    linarith

/-- Near the middle the kernel is at least one half. -/
theorem half {x : ℝ} (h : |x| ≤ 9 / 16) : 1 / 2 ≤ lanczos x := by
  have hpos := Real.pi_pos
  have hp1 := Real.pi_gt_d4
  have hp2 := Real.pi_lt_d4
  rw [← abs_eq]
  refine le_trans ?_ (antitone (abs_nonneg x) h (by norm_num))
  have e1 : Real.sin (Real.pi * (9 / 16)) = Real.cos (Real.pi / 16) := by
    rw [← Real.cos_pi_div_two_sub, ← Real.cos_neg]; congr 1; ring
  have c1 : 1 - (Real.pi / 16) ^ 2 / 2 ≤ Real.cos (Real.pi / 16) := Real.one_sub_sq_div_two_le_cos
  have c2 := Real.sin_gt_sub_cube (x := Real.pi * (9 / 16) / 3) (by positivity)
  rw [form (by norm_num) (by norm_num), e1, le_div_iff₀ (by positivity)]
  norm_num at hp1 hp2
  have b1 : 0.98 ≤ Real.cos (Real.pi / 16) := by norm_num at *; nlinarith
  have b2 : 0.554 ≤ Real.sin (Real.pi * (9 / 16) / 3) := by
    refine le_trans ?_ c2.le
    have e : Real.pi * (9 / 16) / 3 - (Real.pi * (9 / 16) / 3) ^ 3 / 6
        = Real.pi * (3 / 16 - Real.pi ^ 2 * (9 / 8192)) := by ring
    rw [e]
    have : Real.pi ^ 2 ≤ 9.8697 := by norm_num; nlinarith
    have h3 : (0.17665 : ℝ) ≤ 3 / 16 - Real.pi ^ 2 * (9 / 8192) := by norm_num at *; linarith
    norm_num at *
    nlinarith
  have h7 := mul_le_mul b1 b2 (by norm_num) (by linarith)
  have : Real.pi ^ 2 ≤ 9.8697 := by norm_num; nlinarith
  norm_num at *
  nlinarith

/-! ### Sums on one side -/

/-- The middle lobe. -/
noncomputable def body (x : ℝ) : ℝ := if |x| < 1 then lanczos x else 0

theorem body_nonneg (x : ℝ) : 0 ≤ body x := by
  unfold body
  split
  · rw [← abs_eq]; exact middle (abs_nonneg x) (by linarith)
  · exact le_refl _

/-- How far below zero the negative lobe on the right is. -/
noncomputable def dip (x : ℝ) : ℝ := if 1 ≤ x ∧ x < 2 then -lanczos x else 0

theorem body_sub_dip {x : ℝ} (h : 0 ≤ x) : body x - dip x ≤ lanczos x := by
  unfold body dip
  rw [abs_of_nonneg h]
  by_cases h1 : x < 1
  · rw [if_pos h1, if_neg (by intro h2; linarith [h2.1])]; linarith
  · rw [if_neg h1]
    by_cases h2 : x < 2
    · rw [if_pos ⟨by linarith, h2⟩]; linarith
    · rw [if_neg (by intro h3; exact h2 h3.2)]
      have := outer (by linarith : 2 ≤ x)
      linarith

theorem dip_sum {h y δ : ℝ} (hh0 : 0 < h) (hy0 : 0 ≤ y) (hy : y ≤ h + δ) (hδ0 : 0 ≤ δ)
    (hδ : δ ≤ h) {M : ℕ} (hM1 : 1 ≤ M * h) (hM2 : ((M : ℝ) - 1) * h < 1) : ∀ N : ℕ,
    ∑ j ∈ Finset.range N, dip (y + j * h) ≤ (if M ≤ N then 0.1521 else 0) + (if M ≤ N + 1 then δ else 0)
      + 1 / 3 * ∑ j ∈ Finset.range (N - M), body (y + j * h)
  | 0 => by
    rw [Finset.sum_range_zero, Nat.zero_sub, Finset.sum_range_zero]
    have h1 : (0 : ℝ) ≤ if M ≤ 0 then 0.1521 else 0 := by split <;> norm_num
    have h2 : (0 : ℝ) ≤ if M ≤ 0 + 1 then δ else 0 := by split <;> linarith
    linarith
  | N + 1 => by
    have ih := dip_sum hh0 hy0 hy hδ0 hδ hM1 hM2 N
    rw [Finset.sum_range_succ]
    have hx0 : 0 ≤ y + N * h := by positivity
    by_cases c1 : M ≤ N
    · -- paired with the point `M` to the left
      rw [if_pos c1, if_pos (by omega)] at ih
      rw [if_pos (by omega), if_pos (by omega), show N + 1 - M = (N - M) + 1 by omega, Finset.sum_range_succ]
      have hd : dip (y + N * h) ≤ 1 / 3 * body (y + (N - M : ℕ) * h) := by
        unfold dip
        split
        · rename_i hx
          have e : y + ((N - M : ℕ) : ℝ) * h = y + N * h - M * h := by
            rw [Nat.cast_sub c1]; ring
          have hz0 : 0 ≤ y + ((N - M : ℕ) : ℝ) * h := by positivity
          have hz1 : y + ((N - M : ℕ) : ℝ) * h ≤ y + N * h - 1 := by rw [e]; linarith
          unfold body
          rw [abs_of_nonneg hz0, if_pos (by linarith [hx.2])]
          have := third hx.1 hx.2.le
          have := antitone hz0 hz1 (by linarith [hx.2])
          linarith
        · have := body_nonneg (y + (N - M : ℕ) * h)
          linarith
      linarith
    · rw [if_neg c1, show N - M = 0 by omega] at ih
      rw [show N + 1 - M = 0 by omega]
      by_cases c2 : M = N + 1
      · rw [if_pos (by omega)] at ih
        rw [if_pos (by omega), if_pos (by omega)]
        have hd : dip (y + N * h) ≤ 0.1521 := by
          unfold dip
          split
          · rename_i hx; exact depth hx.1 hx.2.le
          · norm_num
        linarith
      · rw [if_neg (by omega)] at ih
        rw [if_neg (by omega)]
        by_cases c3 : M = N + 2
        · rw [if_pos (by omega)]
          have hd : dip (y + N * h) ≤ δ := by
            unfold dip
            split
            · rename_i hx
              have := shallow hx.1 hx.2.le
              have e : ((M : ℝ) - 1) * h = h + N * h := by rw [c3]; push_cast; ring
              linarith
            · exact hδ0
          linarith
        · rw [if_neg (by omega)]
          have hd : dip (y + N * h) = 0 := by
            unfold dip
            rw [if_neg]
            intro hx
            have h3 : N + 3 ≤ M := by omega
            have h4 : ((N + 3 : ℕ) : ℝ) ≤ M := by exact_mod_cast h3
            push_cast at h4
            have h5 := mul_le_mul_of_nonneg_right (by linarith : (N : ℝ) + 2 ≤ (M : ℝ) - 1) hh0.le
            linarith [hx.1]
          linarith

/-- On one side of the middle, the sum is at least two thirds of the part in the middle lobe, up to what a
single point can take away. -/
theorem side {h y δ : ℝ} (hh0 : 0 < h) (hy0 : 0 ≤ y) (hy : y ≤ h + δ) (hδ0 : 0 ≤ δ) (hδ : δ ≤ h)
    (N : ℕ) : 2 / 3 * ∑ j ∈ Finset.range N, body (y + j * h) - 0.1521 - δ ≤ ∑ j ∈ Finset.range N, lanczos (y + j * h) := by
  have hM1 : 1 ≤ (⌈1 / h⌉₊ : ℝ) * h := by
    rw [← div_le_iff₀ hh0]; exact Nat.le_ceil _
  have hM2 : ((⌈1 / h⌉₊ : ℝ) - 1) * h < 1 := by
    rw [← lt_div_iff₀ hh0]
    have := Nat.ceil_lt_add_one (by positivity : 0 ≤ 1 / h)
    linarith
  have hd := dip_sum hh0 hy0 hy hδ0 hδ hM1 hM2 N
  have h1 : (if ⌈1 / h⌉₊ ≤ N then (0.1521 : ℝ) else 0) ≤ 0.1521 := by split <;> norm_num
  have h2 : (if ⌈1 / h⌉₊ ≤ N + 1 then δ else 0) ≤ δ := by split <;> linarith
  have h3 : ∑ j ∈ Finset.range (N - ⌈1 / h⌉₊), body (y + j * h) ≤ ∑ j ∈ Finset.range N, body (y + j * h) :=
    Finset.sum_le_sum_of_subset_of_nonneg (Finset.range_mono (by omega)) (fun _ _ _ => body_nonneg _)
  have h4 : ∑ j ∈ Finset.range N, (body (y + j * h) - dip (y + j * h)) ≤ ∑ j ∈ Finset.range N, lanczos (y + j * h) :=
    Finset.sum_le_sum (fun j _ => body_sub_dip (by positivity))
  rw [Finset.sum_sub_distrib] at h4
  linarith

/-! ### Sums on both sides -/

/-- The points to the left of `a` and those from `b` on. -/
theorem two_sides {c s δ : ℝ} {a b n : ℕ} (hs : 0 < s) (hδ0 : 0 ≤ δ) (hδ : δ ≤ 1 / s)
    (ha : a = 0 ∨ (((a : ℝ) - 1 - c ≤ 0) ∧ c - ((a : ℝ) - 1) ≤ 1 + δ * s)) (hbn : b ≤ n)
    (hb : b = n ∨ (0 ≤ (b : ℝ) - c ∧ (b : ℝ) - c ≤ 1 + δ * s)) :
    2 / 3 * (∑ i ∈ Finset.range a, body ((i - c) / s) + ∑ i ∈ Finset.Ico b n, body ((i - c) / s)) - 0.3042 - 2 * δ
      ≤ ∑ i ∈ Finset.range a, lanczos ((i - c) / s) + ∑ i ∈ Finset.Ico b n, lanczos ((i - c) / s) := by
  have hh0 : 0 < 1 / s := by positivity
  have hδs : ∀ z : ℝ, z ≤ 1 + δ * s → z / s ≤ 1 / s + δ := by
    intro z hz
    rw [div_le_iff₀ hs, add_mul, div_mul_cancel₀ _ (by linarith : s ≠ 0)]
    exact hz
  have hl : 2 / 3 * ∑ i ∈ Finset.range a, body ((i - c) / s) - 0.1521 - δ ≤ ∑ i ∈ Finset.range a, lanczos ((i - c) / s) := by
    rcases ha with ha | ⟨h1, h2⟩
    · subst ha
      rw [Finset.sum_range_zero, Finset.sum_range_zero]
      norm_num; linarith
    · have hsd := side (y := (c - ((a : ℝ) - 1)) / s) hh0 (div_nonneg (by linarith) hs.le) (hδs _ h2) hδ0 hδ a
      have e : ∀ g : ℝ → ℝ, (∀ x, g (-x) = g x) →
          ∑ i ∈ Finset.range a, g ((i - c) / s) = ∑ j ∈ Finset.range a, g ((c - ((a : ℝ) - 1)) / s + j * (1 / s)) := by
        intro g hg
        rw [← Finset.sum_range_reflect]
        refine Finset.sum_congr rfl (fun j hj => ?_)
        have hj' : j < a := Finset.mem_range.1 hj
        rw [← hg]
        congr 1
        have : ((a - 1 - j : ℕ) : ℝ) = (a : ℝ) - 1 - j := by
          rw [Nat.cast_sub (by omega), Nat.cast_sub (by omega)]; norm_num
        rw [this]
        field_simp
        ring
      rw [e body (fun x => by unfold body; rw [abs_neg, neg]), e lanczos neg]
      exact hsd
  have hr : 2 / 3 * ∑ i ∈ Finset.Ico b n, body ((i - c) / s) - 0.1521 - δ ≤ ∑ i ∈ Finset.Ico b n, lanczos ((i - c) / s) := by
    rcases hb with hb | ⟨h1, h2⟩
    · subst hb
      rw [Finset.Ico_self, Finset.sum_empty, Finset.sum_empty]
      norm_num; linarith
    · have hsd := side (y := ((b : ℝ) - c) / s) hh0 (div_nonneg h1 hs.le) (hδs _ h2) hδ0 hδ (n - b)
      have e : ∀ g : ℝ → ℝ, ∑ i ∈ Finset.Ico b n, g ((i - c) / s)
          = ∑ j ∈ Finset.range (n - b), g (((b : ℝ) - c) / s + j * (1 / s)) := by
        intro g
        rw [Finset.sum_Ico_eq_sum_range]
        refine Finset.sum_congr rfl (fun j _ => ?_)
        congr 1
        push_cast
        ring
      rw [e body, e lanczos]
      exact hsd
  linarith

/-- Points near the middle. -/
noncomputable def near (c s : ℝ) (i : ℕ) : ℝ := if |((i : ℝ) - c) / s| ≤ 9 / 16 then 1 / 2 else 0

theorem near_le (c s : ℝ) (i : ℕ) : near c s i ≤ body ((i - c) / s) := by
  unfold near
  split
  · rename_i h
    unfold body
    rw [if_pos (by linarith)]
    exact half h
  · exact body_nonneg _

theorem near_half (c s : ℝ) (i : ℕ) : near c s i ≤ 1 / 2 := by unfold near; split <;> norm_num

theorem near_nonneg (c s : ℝ) (i : ℕ) : 0 ≤ near c s i := by unfold near; split <;> norm_num

theorem near_sum {c s : ℝ} {n m a : ℕ} (ha : a + m ≤ n) (h : ∀ j, j < m → |((a + j : ℕ) : ℝ) - c| ≤ s * (9 / 16))
    (hs : 0 < s) : (m : ℝ) / 2 ≤ ∑ i ∈ Finset.range n, near c s i := by
  have h1 : ∑ i ∈ Finset.Ico a (a + m), near c s i ≤ ∑ i ∈ Finset.range n, near c s i := by
    refine Finset.sum_le_sum_of_subset_of_nonneg (fun i hi => ?_) (fun i _ _ => near_nonneg c s i)
    rw [Finset.mem_Ico] at hi
    rw [Finset.mem_range]
    omega
  refine le_trans (le_of_eq ?_) h1
  rw [Finset.sum_Ico_eq_sum_range, show a + m - a = m by omega]
  rw [Finset.sum_congr rfl (g := fun _ => (1 / 2 : ℝ))]
  · rw [Finset.sum_const, Finset.card_range, nsmul_eq_mul]; ring
  · intro j hj
    unfold near
    rw [if_pos]
    rw [abs_div, abs_of_pos hs, div_le_iff₀ hs, mul_comm]
    exact h j (Finset.mem_range.1 hj)

/-- The sum of the weights: at least the number of points known to be near the middle, less one and a bit. -/
theorem total {c s : ℝ} {n m a : ℕ} {w : ℕ → ℝ} (hs : 1 ≤ s) (hs2 : s ≤ 2 ^ 20) (hw : Spec.Resample.Weights n c s w)
    (ha : a + m ≤ n) (h : ∀ j, j < m → |((a + j : ℕ) : ℝ) - c| ≤ s * (9 / 16)) (hc0 : -(9 / 16) ≤ c) (hc1 : c ≤ n - 7 / 16) :
    (m : ℝ) - 0.913 ≤ ∑ i ∈ Finset.range n, w i := by
  have hs0 : 0 < s := by linarith
  have hnear := near_sum ha h hs0
  have hδ : (1 : ℝ) / 2 ^ 22 ≤ 1 / s := by
    apply one_div_le_one_div_of_le hs0; linarith
  by_cases hex : ∃ e, e < n ∧ w e = 1 ∧ |((e : ℝ) - c) / s| < 1 / 2 ^ 22
  · obtain ⟨e, hen, he1, he2⟩ := hex
    have he3 : |(e : ℝ) - c| < 1 / 2 ^ 22 * s := by
      rwa [abs_div, abs_of_pos hs0, div_lt_iff₀ hs0] at he2
    have hsmall : (1 : ℝ) / 2 ^ 22 * s ≤ 1 / 4 := by linarith
    have hab := abs_lt.1 he3
    have hts := two_sides (a := e) (b := e + 1) (n := n) (c := c) hs0 (by positivity : (0 : ℝ) ≤ 1 / 2 ^ 22) hδ
      (Or.inr ⟨by linarith, by linarith⟩) (by omega)
      (Or.inr ⟨by push_cast; linarith, by push_cast; linarith⟩)
    have split : ∀ g : ℕ → ℝ, ∑ i ∈ Finset.range n, g i = ∑ i ∈ Finset.range e, g i + g e + ∑ i ∈ Finset.Ico (e + 1) n, g i := by
      intro g
      rw [← Finset.sum_range_succ, Finset.sum_range_add_sum_Ico _ (by omega : e + 1 ≤ n)]
    rw [split, he1]
    have hother : ∀ i, i < n → i ≠ e → w i = 3 * lanczos ((i - c) / s) := by
      intro i hi hie
      rcases hw i hi with h1 | ⟨_, h2⟩
      · exact h1
      · exfalso
        rw [abs_div, abs_of_pos hs0, div_lt_iff₀ hs0] at h2
        have h2' := abs_lt.1 h2
        rcases Nat.lt_or_gt_of_ne hie with h3 | h3
        · have : ((i + 1 : ℕ) : ℝ) ≤ e := by exact_mod_cast h3
          push_cast at this
          linarith [h2'.1, hab.2]
        · have : ((e + 1 : ℕ) : ℝ) ≤ i := by exact_mod_cast h3
          push_cast at this
          linarith [h2'.2, hab.1]
    have e1 : ∑ i ∈ Finset.range e, w i = 3 * ∑ i ∈ Finset.range e, lanczos ((i - c) / s) := by
      rw [Finset.mul_sum]
      refine Finset.sum_congr rfl (fun i hi => hother i ?_ ?_) <;> have := Finset.mem_range.1 hi <;> omega
    have e2 : ∑ i ∈ Finset.Ico (e + 1) n, w i = 3 * ∑ i ∈ Finset.Ico (e + 1) n, lanczos ((i - c) / s) := by
      rw [Finset.mul_sum]
      refine Finset.sum_congr rfl (fun i hi => hother i ?_ ?_) <;> have := Finset.mem_Ico.1 hi <;> omega
    have n1 : ∑ i ∈ Finset.range e, near c s i ≤ ∑ i ∈ Finset.range e, body ((i - c) / s) :=
      Finset.sum_le_sum (fun i _ => near_le c s i)
    have n2 : ∑ i ∈ Finset.Ico (e + 1) n, near c s i ≤ ∑ i ∈ Finset.Ico (e + 1) n, body ((i - c) / s) :=
      Finset.sum_le_sum (fun i _ => near_le c s i)
    rw [split] at hnear
    have n3 := near_half c s e
    rw [e1, e2]
    norm_num at *
    linarith
  · have hall : ∀ i, i < n → w i = 3 * lanczos ((i - c) / s) := by
      intro i hi
      rcases hw i hi with h1 | h1
      · exact h1
      · exact absurd ⟨i, hi, h1⟩ hex
    have hr1 : c ≤ (⌈c⌉₊ : ℝ) := Nat.le_ceil c
    have hrn : ⌈c⌉₊ ≤ n := Nat.ceil_le.2 (by linarith)
    have hts := two_sides (a := ⌈c⌉₊) (b := ⌈c⌉₊) (n := n) (c := c) (δ := 0) hs0 (le_refl _) (by positivity)
      (by
        rcases Nat.eq_zero_or_pos ⌈c⌉₊ with h0 | h0
        · exact Or.inl h0
        · right
          have := Nat.ceil_lt_add_one (Nat.ceil_pos.1 h0).le
          constructor <;> linarith) hrn
      (by
        right
        refine ⟨by linarith, ?_⟩
        rcases le_or_gt 0 c with h0 | h0
        · have := Nat.ceil_lt_add_one h0
          linarith
        · rw [Nat.ceil_eq_zero.2 h0.le]; push_cast; linarith)
    rw [Finset.sum_range_add_sum_Ico _ hrn, Finset.sum_range_add_sum_Ico _ hrn] at hts
    have e1 : ∑ i ∈ Finset.range n, w i = 3 * ∑ i ∈ Finset.range n, lanczos ((i - c) / s) := by
      rw [Finset.mul_sum]
      exact Finset.sum_congr rfl (fun i hi => hall i (Finset.mem_range.1 hi))
    have n1 : ∑ i ∈ Finset.range n, near c s i ≤ ∑ i ∈ Finset.range n, body ((i - c) / s) :=
      Finset.sum_le_sum (fun i _ => near_le c s i)
    rw [e1]
    norm_num at *
    linarith

end Pixo.Lanczos
