import Verif.Proof.IdctF32
/-
The floating-point inverse transform of src/jpeg/dct.rs.
-/
namespace Pixo.Props
open Pixo Spec.T81 Real

/-- The value of an `f32` of the model, which counts units of `2^-149`. -/
noncomputable def f32Value (x : Int) : ℝ := (x : ℝ) / 2 ^ 149

/-- **C86** in full: forward with `dct_2d` and back with `idct_2d`, the samples come out so that rounding gives them
back. -/
def C86_full : Prop := ∀ block : List Int, (∀ i < 64, -128 ≤ f32Value (block.getD i 0) ∧ f32Value (block.getD i 0) ≤ 127) →
  ∃ out, IdctF32.idct2d (Jpeg.dct2d block) = .ok out ∧
    ∀ i < 64, |f32Value (out.getD i 0) - f32Value (block.getD i 0)| < 1 / 2

/-- What is lost at most in one direction at each place, in millionths. -/
def placeLoss (n : Nat) : Nat := [9, 17442, 16259, 17958, 8616, 4135, 8384, 15027].getD n 0

theorem in_samples {block : List Int} (h : ∀ i < 64, -128 ≤ f32Value (block.getD i 0) ∧ f32Value (block.getD i 0) ≤ 127) :
    ∀ i < 64, Jpeg.smLo ≤ block.getD i 0 ∧ block.getD i 0 ≤ Jpeg.smHi := by
  intro i hi
  obtain ⟨h1, h2⟩ := h i hi
  unfold f32Value at h1 h2
  rw [le_div_iff₀ (by positivity)] at h1
  rw [div_le_iff₀ (by positivity)] at h2
  have h3 : ((-128 * 2 ^ 149 : Int) : ℝ) ≤ (block.getD i 0 : ℝ) := by push_cast; norm_num at h1 ⊢; exact h1
  have h4 : ((block.getD i 0 : Int) : ℝ) ≤ ((127 * 2 ^ 149 : Int) : ℝ) := by push_cast; norm_num at h2 ⊢; exact h2
  have h3 : -128 * 2 ^ 149 ≤ block.getD i 0 := by exact_mod_cast h3
  have h4 : block.getD i 0 ≤ 127 * 2 ^ 149 := by exact_mod_cast h4
  simp only [Jpeg.smLo, Jpeg.smHi]
  omega

/-- C86 as far as it holds: for every block of samples from -128 to 127 (integers or not) the result differs from the
block by less than five, and at each place by no more than what the cosines for its row and column lose. In particular
the first sample always rounds back.

Missing for C86: less than one half everywhere, which is false (`C86_violated`). -/
theorem C86_partial (block : List Int) (h : ∀ i < 64, -128 ≤ f32Value (block.getD i 0) ∧ f32Value (block.getD i 0) ≤ 127) :
    ∃ out, IdctF32.idct2d (Jpeg.dct2d block) = .ok out ∧ out.length = 64 ∧
      (∀ i < 64, |f32Value (out.getD i 0) - f32Value (block.getD i 0)| < 5) ∧
      (∀ y < 8, ∀ x < 8, |f32Value (out.getD (8 * y + x) 0) - f32Value (block.getD (8 * y + x) 0)| ≤
        3 / 8 + 129.3 * (placeLoss y + placeLoss x) / 10 ^ 6) ∧
      |f32Value (out.getD 0 0) - f32Value (block.getD 0 0)| < 1 / 2 := by
  obtain ⟨out, h1, h2, h3⟩ := IdctF32.round_trip block (in_samples h)
  have hp : ∀ y < 8, ∀ x < 8, |f32Value (out.getD (8 * y + x) 0) - f32Value (block.getD (8 * y + x) 0)| ≤
      3 / 8 + 128.01 * ((placeLoss y : ℝ) + 1.0096 * placeLoss x) / 10 ^ 6 := by
    intro y hy x hx
    rw [show 8 * y = y * 8 from Nat.mul_comm _ _]
    exact h3 y hy x hx
  have hl : ∀ n < 8, (placeLoss n : ℝ) ≤ 17958 := by
    intro n hn
    have : ∀ n ∈ List.range 8, placeLoss n ≤ 17958 := by decide +kernel
    exact_mod_cast this n (by simpa using hn)
  refine ⟨out, h1, h2, fun i hi => ?_, fun y hy x hx => ?_, ?_⟩
  · have := hp (i / 8) (by omega) (i % 8) (by omega)
    rw [show 8 * (i / 8) + i % 8 = i by omega] at this
    have l1 := hl (i / 8) (by omega)
    have l2 := hl (i % 8) (by omega)
    refine this.trans_lt ?_
    norm_num
    linarith
  · refine (hp y hy x hx).trans ?_
    have l1 : (0 : ℝ) ≤ placeLoss y := Nat.cast_nonneg _
    have l2 : (0 : ℝ) ≤ placeLoss x := Nat.cast_nonneg _
    norm_num
    linarith
  · refine (hp 0 (by norm_num) 0 (by norm_num)).trans_lt ?_
    rw [show placeLoss 0 = 9 from rfl]
    norm_num

/-- For any coefficients up to 1500: how near the result is to the inverse transform of T.81. The errors are those of
the cosines, in millionths; the first place is exact up to rounding. -/
def placeTol (n : Nat) : Nat := [5, 10584, 7158, 9963, 4904, 2686, 5451, 8219].getD n 0

theorem C86_inverse (block : List Int) (b : ℝ) (hb : b ≤ 1500) (h : ∀ i < 64, |f32Value (block.getD i 0)| ≤ b) :
    ∃ out, IdctF32.idct2d block = .ok out ∧ out.length = 64 ∧ ∀ y < 8, ∀ x < 8,
      |f32Value (out.getD (8 * y + x) 0) - idct (fun v u => f32Value (block.getD (8 * v + u) 0)) y x| ≤
        11 / 500 + 2.653 * b * ((placeTol y + placeTol x) / 10 ^ 6) := by
  obtain ⟨out, h1, h2, h3⟩ := IdctF32.idct2d_fac block b hb h
  refine ⟨out, h1, h2, fun y hy x hx => ?_⟩
  have h4 := IdctF32.fac_idct (fun v u => f32Value (block.getD (8 * v + u) 0)) b (fun v hv u hu => h _ (by omega)) y x hy hx
  have h5 := h3 y hy x hx
  simp only [Nat.mul_comm _ 8] at h5
  exact (abs_sub_le _ _ _).trans (add_le_add h5 h4)

/-- A block of black and white. -/
def blackWhite : List Int := [-128, 127, -128, -128, -128, 127, -128, -128, 127, -128, 127, 127, 127, -128, 127, 127, -128, 127, -128, -128, -128, 127, -128, -128, -128, 127, -128, 127, -128, 127, -128, -128, -128, 127, -128, -128, -128, 127, -128, -128, 127, -128, 127, 127, 127, -128, 127, 127, -128, 127, -128, -128, -128, 127, -128, -128, -128, 127, -128, -128, -128, 127, -128, -128]

theorem blackWhite_range : ∀ i < 64, -128 ≤ f32Value ((blackWhite.map (· * 2 ^ 149)).getD i 0) ∧
    f32Value ((blackWhite.map (· * 2 ^ 149)).getD i 0) ≤ 127 := by
  have h : ∀ i < 64, -128 * 2 ^ 149 ≤ (blackWhite.map (· * 2 ^ 149)).getD i 0 ∧
      (blackWhite.map (· * 2 ^ 149)).getD i 0 ≤ 127 * 2 ^ 149 := by decide +kernel
  intro i hi
  obtain ⟨h1, h2⟩ := h i hi
  generalize (blackWhite.map (· * 2 ^ 149)).getD i 0 = t at *
  unfold f32Value
  rw [le_div_iff₀ (by positivity), div_le_iff₀ (by positivity)]
  exact ⟨by exact_mod_cast h1, by exact_mod_cast h2⟩

example : blackWhite.length = 64 ∧ 127 ∈ blackWhite ∧ -128 ∈ blackWhite := by decide +kernel

theorem blackWhite_out : ((IdctF32.idct2d (Jpeg.dct2d (blackWhite.map (· * 2 ^ 149)))).toOption.map fun out =>
    decide (10 * (127 * 2 ^ 149 - out.getD 27 0) > 45 * 2 ^ 149)) = some true ∧ blackWhite.getD 27 0 = 127 := by
  decide +kernel

/-- C86 fails: a block of black and white of which one sample comes back more than four and a half levels darker, so
that the bound of `C86_partial` cannot be improved much. -/
theorem C86_violated : ∃ out, IdctF32.idct2d (Jpeg.dct2d (blackWhite.map (· * 2 ^ 149))) = .ok out ∧
    (blackWhite.map (· * 2 ^ 149)).getD 27 0 = 127 * 2 ^ 149 ∧ f32Value (out.getD 27 0) < 122.5 := by
  obtain ⟨h1, h2⟩ := blackWhite_out
  cases hc : IdctF32.idct2d (Jpeg.dct2d (blackWhite.map (· * 2 ^ 149))) with
  | error e => rw [hc] at h1; cases h1
  | ok out =>
    rw [hc] at h1
    have h3 := of_decide_eq_true (Option.some.inj h1)
    refine ⟨out, rfl, by decide +kernel, ?_⟩
    generalize out.getD 27 0 = t at *
    unfold f32Value
    rw [div_lt_iff₀ (by positivity)]
    have h4 : ((45 * 2 ^ 149 : Int) : ℝ) < ((10 * (127 * 2 ^ 149 - t) : Int) : ℝ) := by exact_mod_cast h3
    push_cast at h4
    norm_num at h4 ⊢
    linarith

theorem C86_full_fails : ¬C86_full := by
  intro h
  obtain ⟨out, h1, h2⟩ := h _ blackWhite_range
  obtain ⟨out', h3, h4, h5⟩ := C86_violated
  rw [h1] at h3
  cases h3
  have h6 := h2 27 (by norm_num)
  rw [h4, abs_lt] at h6
  have : f32Value (127 * 2 ^ 149) = 127 := by unfold f32Value; push_cast; norm_num
  rw [this] at h6
  norm_num at h5 h6
  linarith [h6.1]

/-- The hypotheses of `C86_inverse` are met. -/
example : ∃ block : List Int, (∀ i < 64, |f32Value (block.getD i 0)| ≤ 1024) ∧ f32Value (block.getD 0 0) = 1024 := by
  refine ⟨List.replicate 64 (1024 * 2 ^ 149), fun i hi => ?_, ?_⟩
  · rw [List.getD_eq_getElem?_getD, List.getElem?_replicate, if_pos hi]
    unfold f32Value
    push_cast
    norm_num
  · unfold f32Value
    push_cast
    norm_num

end Pixo.Props
