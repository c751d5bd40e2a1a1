import Verif.Proof.IdctReal
/-
The inverse transform of the JPEG decoder (src/decode/idct.rs) against the real inverse DCT.
-/
namespace Pixo.Props
open Pixo Spec.T81 Real

theorem samples_getD (f : Nat → Nat → UInt8) (y x : Nat) (hy : y < 8) (hx : x < 8) :
    ((List.range 8).flatMap (fun y => (List.range 8).map (fun x => f y x))).getD (8 * y + x) 0 = f y x := by
  have hr : List.range 8 = [0, 1, 2, 3, 4, 5, 6, 7] := rfl
  rw [hr]
  match y, hy, x, hx with
  | 0, _, 0, _ | 0, _, 1, _ | 0, _, 2, _ | 0, _, 3, _ | 0, _, 4, _ | 0, _, 5, _ | 0, _, 6, _ | 0, _, 7, _
  | 1, _, 0, _ | 1, _, 1, _ | 1, _, 2, _ | 1, _, 3, _ | 1, _, 4, _ | 1, _, 5, _ | 1, _, 6, _ | 1, _, 7, _
  | 2, _, 0, _ | 2, _, 1, _ | 2, _, 2, _ | 2, _, 3, _ | 2, _, 4, _ | 2, _, 5, _ | 2, _, 6, _ | 2, _, 7, _
  | 3, _, 0, _ | 3, _, 1, _ | 3, _, 2, _ | 3, _, 3, _ | 3, _, 4, _ | 3, _, 5, _ | 3, _, 6, _ | 3, _, 7, _
  | 4, _, 0, _ | 4, _, 1, _ | 4, _, 2, _ | 4, _, 3, _ | 4, _, 4, _ | 4, _, 5, _ | 4, _, 6, _ | 4, _, 7, _
  | 5, _, 0, _ | 5, _, 1, _ | 5, _, 2, _ | 5, _, 3, _ | 5, _, 4, _ | 5, _, 5, _ | 5, _, 6, _ | 5, _, 7, _
  | 6, _, 0, _ | 6, _, 1, _ | 6, _, 2, _ | 6, _, 3, _ | 6, _, 4, _ | 6, _, 5, _ | 6, _, 6, _ | 6, _, 7, _
  | 7, _, 0, _ | 7, _, 1, _ | 7, _, 2, _ | 7, _, 3, _ | 7, _, 4, _ | 7, _, 5, _ | 7, _, 6, _ | 7, _, 7, _ => rfl

theorem idct_samples {ck : Bool} {coeffs : List Int} {b : Nat} (hb : b ≤ 4096) (h : ∀ i < 64, (coeffs.getD i 0).natAbs ≤ b) :
    ∃ px, Idct.idct ck coeffs = .ok px ∧ px.length = 64 ∧ ∀ y < 8, ∀ x < 8, px.getD (8 * y + x) 0 = Idct.sample coeffs y x :=
  ⟨_, Idct.idct_eq (fun i hi => by have := h i hi; omega), by simp [List.length_flatMap],
    fun y hy x hx => samples_getD _ y x hy hx⟩

/-- C32 for the frequencies the code gets right: for every block whose coefficients are at most 4096 in
absolute value, in any build, the code gives the samples of the exact inverse transform of the
coefficients of even frequency (in both directions) to within `3/5 + b/1100` levels.

Missing for C32: the coefficients of odd frequency are all but ignored (`C32_violation`). -/
theorem C32_partial (ck : Bool) (coeffs : List Int) (b : Nat) (hb : b ≤ 4096) (h : ∀ i < 64, (coeffs.getD i 0).natAbs ≤ b) :
    ∃ px, Idct.idct ck coeffs = .ok px ∧ px.length = 64 ∧ ∀ y < 8, ∀ x < 8,
      |((px.getD (8 * y + x) 0).toNat : ℝ) -
        clampLevel (128 + idct (evenPart (fun v u => (coeffs.getD (8 * v + u) 0 : ℝ))) y x)| ≤ 3 / 5 + b / 1100 := by
  obtain ⟨px, h1, h2, h3⟩ := idct_samples (ck := ck) hb h
  exact ⟨px, h1, h2, fun y hy x hx => by rw [h3 y hy x hx]; exact Idct.sample_all b h y x hy hx⟩

/-- C32 for blocks with even frequencies only: less than one level from the exact inverse transform for
coefficients up to 2048. -/
theorem C32_even_partial (ck : Bool) (coeffs : List Int) (b : Nat) (hb : b ≤ 4096) (h : ∀ i < 64, (coeffs.getD i 0).natAbs ≤ b)
    (hz : ∀ v < 8, ∀ u < 8, ¬(v % 2 = 0 ∧ u % 2 = 0) → coeffs.getD (8 * v + u) 0 = 0) :
    ∃ px, Idct.idct ck coeffs = .ok px ∧ px.length = 64 ∧ ∀ y < 8, ∀ x < 8,
      |((px.getD (8 * y + x) 0).toNat : ℝ) -
        clampLevel (128 + idct (fun v u => (coeffs.getD (8 * v + u) 0 : ℝ)) y x)| ≤ 3 / 5 + b / 6000 := by
  obtain ⟨px, h1, h2, h3⟩ := idct_samples (ck := ck) hb h
  exact ⟨px, h1, h2, fun y hy x hx => by rw [h3 y hy x hx]; exact Idct.sample_even b h hz y x hy hx⟩

/-- A block with one coefficient. -/
def single (i : Nat) (v : Int) : List Int := (List.replicate 64 0).set i v

theorem single_getD (i : Nat) (v : Int) (j : Nat) (hj : j < 64) : (single i v).getD j 0 = if i = j then v else 0 := by
  unfold single
  rw [List.getD_eq_getElem?_getD, List.getElem?_set]
  split
  · rename_i h; subst h
    rw [List.length_replicate, if_pos hj]
    rfl
  · rw [List.getElem?_replicate, if_pos hj]
    rfl

/-- C32 fails: of a block with the single coefficient 800 in row 0, column 1 the code makes a flat block,
though the left end of its first row should be more than 120 levels brighter. -/
theorem C32_violation : ∃ coeffs : List Int, (∀ i < 64, (coeffs.getD i 0).natAbs ≤ 800) ∧
    Idct.idct false coeffs = .ok (List.replicate 64 128) ∧
    clampLevel (128 + idct (fun v u => (coeffs.getD (8 * v + u) 0 : ℝ)) 0 0) > 248 := by
  refine ⟨single 1 800, ?_, ?_, ?_⟩
  · intro i hi
    rw [single_getD _ _ _ hi]
    split <;> decide
  · have : (Idct.idct false (single 1 800)).toOption = some (List.replicate 64 128) := by decide +kernel
    cases h : Idct.idct false (single 1 800) with
    | ok a => rw [h] at this; exact congrArg Except.ok (Option.some.inj this)
    | error e => rw [h] at this; cases this
  · rw [Idct.idct_sep]
    have e : ∀ u < 8, ∀ v < 8, (((single 1 800).getD (8 * v + u) 0 : Int) : ℝ) = if u = 1 ∧ v = 0 then 800 else 0 := by
      intro u hu v hv
      rw [single_getD _ _ _ (by omega)]
      by_cases h : u = 1 ∧ v = 0
      · rw [if_pos h, if_pos (by omega)]; norm_num
      · rw [if_neg h, if_neg (by omega)]; norm_num
    rw [Finset.sum_congr rfl (fun u hu => by rw [Finset.sum_congr rfl (fun v hv => by
      rw [e u (Finset.mem_range.1 hu) v (Finset.mem_range.1 hv)])])]
    simp only [Finset.sum_range_succ, Finset.sum_range_zero]
    norm_num
    rw [Jpeg.kern_eq, Jpeg.kern_eq]
    have h1 := Jpeg.cos_all 1
    have h4 := Jpeg.cos_all 4
    rw [show Jpeg.cosTable.getD (1 % 32) 0 = 980785280 from rfl] at h1
    rw [show Jpeg.cosTable.getD (4 % 32) 0 = 707106781 from rfl] at h4
    rw [show Jpeg.kernAngle 1 0 = 1 from rfl, show Jpeg.kernAngle 0 0 = 4 from rfl]
    generalize cos (((1 : Nat) : ℝ) * π / 16) = a at *
    generalize cos (((4 : Nat) : ℝ) * π / 16) = c at *
    rw [abs_le] at h1 h4
    push_cast at h1 h4
    have ha : 0.98 ≤ a := by linarith [h1.1]
    have hc : 0.7 ≤ c := by linarith [h4.1]
    have : 0.98 * 0.7 ≤ a * c := mul_le_mul ha hc (by norm_num) (by linarith)
    unfold clampLevel
    rw [lt_min_iff, lt_max_iff]
    refine ⟨Or.inl ?_, by norm_num⟩
    nlinarith

/-- The specification: the exact inverse transform undoes the exact forward transform. -/
theorem C32_inverse (s : Nat → Nat → ℝ) (y x : Nat) (hy : y < 8) (hx : x < 8) : idct (fdct s) y x = s y x :=
  Idct.idct_fdct s y x hy hx

/-- What becomes of a block: if the coefficients are within `e` of the forward transform of the samples
`s`, the code gives, to within `3/5 + b/1100 + 4 e`, the mean of the block and its three mirror images. -/
theorem C32_mirror (ck : Bool) (coeffs : List Int) (b : Nat) (hb : b ≤ 4096) (h : ∀ i < 64, (coeffs.getD i 0).natAbs ≤ b)
    (s : Nat → Nat → ℝ) (e : ℝ) (hs : ∀ v < 8, ∀ u < 8, |(coeffs.getD (8 * v + u) 0 : ℝ) - fdct s v u| ≤ e) :
    ∃ px, Idct.idct ck coeffs = .ok px ∧ ∀ y < 8, ∀ x < 8,
      |((px.getD (8 * y + x) 0).toNat : ℝ) -
        clampLevel (128 + 1 / 4 * (s y x + s y (7 - x) + s (7 - y) x + s (7 - y) (7 - x)))| ≤ 3 / 5 + b / 1100 + 4 * e := by
  obtain ⟨px, h1, _, h3⟩ := C32_partial ck coeffs b hb h
  refine ⟨px, h1, fun y hy x hx => ?_⟩
  have h4 := h3 y hy x hx
  have h5 : |idct (evenPart (fun v u => (coeffs.getD (8 * v + u) 0 : ℝ))) y x - idct (evenPart (fdct s)) y x| ≤ 4 * e := by
    rw [Idct.idct_even, Idct.idct_even]
    have he : 0 ≤ e := (abs_nonneg _).trans (hs 0 (by norm_num) 0 (by norm_num))
    have lip : ∀ (d f : Nat → ℝ) (c : ℝ), 0 ≤ c → (∀ i < 8, |d i - f i| ≤ c) → ∀ z, |Idct.half d z - Idct.half f z| ≤ 2 * c := by
      intro d f c hc hd z
      unfold Idct.half
      rw [← Finset.sum_sub_distrib]
      refine (Finset.abs_sum_le_sum_abs _ _).trans ?_
      refine (Finset.sum_le_sum (g := fun _ => 1 / 2 * c) fun k hk => ?_).trans (by simp; linarith)
      have hk := Finset.mem_range.1 hk
      rw [← mul_sub, abs_mul]
      exact mul_le_mul (Jpeg.kern_abs _ _) (hd _ (by omega)) (abs_nonneg _) (by norm_num)
    have := lip (fun u => Idct.half (fun v => (coeffs.getD (8 * v + u) 0 : ℝ)) y) (fun u => Idct.half (fun v => fdct s v u) y)
      (2 * e) (by linarith) (fun u hu => lip _ _ e he (fun v hv => hs v hv u hu) y) x
    linarith
  rw [Idct.idct_even_fdct s y x hy hx] at h5
  have h6 := Idct.clampLevel_lip (128 + idct (evenPart (fun v u => (coeffs.getD (8 * v + u) 0 : ℝ))) y x)
    (128 + 1 / 4 * (s y x + s y (7 - x) + s (7 - y) x + s (7 - y) (7 - x)))
  rw [add_sub_add_left_eq_sub] at h6
  refine (abs_sub_le _ _ _).trans (add_le_add h4 (h6.trans h5))

/-- The hypotheses are met. -/
example : ∃ coeffs : List Int, (∀ i < 64, (coeffs.getD i 0).natAbs ≤ 300) ∧ coeffs.getD 0 0 = 300 ∧
    (∀ v < 8, ∀ u < 8, ¬(v % 2 = 0 ∧ u % 2 = 0) → coeffs.getD (8 * v + u) 0 = 0) := by
  refine ⟨single 0 300, ?_, rfl, ?_⟩
  · intro i hi
    rw [single_getD _ _ _ hi]
    split <;> decide
  · intro v hv u hu h
    rw [single_getD _ _ _ (by omega), if_neg (by omega)]

/-- A block and its transform. -/
example : ∀ v < 8, ∀ u < 8, |(((List.replicate 64 0).getD (8 * v + u) 0 : Int) : ℝ) - fdct (fun _ _ => 0) v u| ≤ 0 := by
  intro v hv u hu
  rw [List.getD_eq_getElem?_getD, List.getElem?_replicate, if_pos (by omega)]
  simp [fdct]

end Pixo.Props
