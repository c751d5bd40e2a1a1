import Mathlib.Analysis.Real.Pi.Bounds
/-
The forward and the inverse DCT of ITU-T T.81 over the real numbers (A.3.3).
-/
namespace Spec.T81
open Real

/-- `C(u)`: `1 / √2` for `u = 0`, else 1. -/
noncomputable def dctC (u : Nat) : ℝ := if u = 0 then 1 / √2 else 1

/-- The forward DCT: coefficient in row `v`, column `u`, of the samples `s y x`. -/
noncomputable def fdct (s : Nat → Nat → ℝ) (v u : Nat) : ℝ :=
  1 / 4 * dctC u * dctC v * ∑ x ∈ Finset.range 8, ∑ y ∈ Finset.range 8,
    s y x * cos ((2 * x + 1) * u * π / 16) * cos ((2 * y + 1) * v * π / 16)

/-- The inverse DCT: the sample in row `y`, column `x`, of the coefficients `c v u`. -/
noncomputable def idct (c : Nat → Nat → ℝ) (y x : Nat) : ℝ :=
  1 / 4 * ∑ u ∈ Finset.range 8, ∑ v ∈ Finset.range 8, dctC u * dctC v * c v u *
    cos ((2 * x + 1) * u * π / 16) * cos ((2 * y + 1) * v * π / 16)

/-- The coefficients of even frequency in both directions; zero elsewhere. -/
noncomputable def evenPart (c : Nat → Nat → ℝ) (v u : Nat) : ℝ := if v % 2 = 0 ∧ u % 2 = 0 then c v u else 0

/-- A decoded sample before rounding (A.3.1): level shift by 128 and clamping. -/
noncomputable def clampLevel (v : ℝ) : ℝ := min (max v 0) 255

end Spec.T81
