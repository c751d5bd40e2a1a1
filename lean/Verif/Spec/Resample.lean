import Mathlib.Analysis.Real.Pi.Bounds
/-
What resampling means, in the real numbers. An image is a function of column and row; pixels sit at
integer coordinates.
-/
namespace Spec.Resample

/-- The middle of pixel `d` of `dst`, as a coordinate in a source of `src` pixels: pixel `d` covers the
interval from `d` to `d + 1` of a line of length `dst`. -/
noncomputable def centre (src dst d : ℕ) : ℝ := ((d : ℝ) + 1 / 2) * src / dst - 1 / 2

/-- The coordinate when the middles of the first and of the last pixel are kept; with one pixel, the
first. -/
noncomputable def corner (src dst d : ℕ) : ℝ :=
  if dst ≤ 1 then 0 else (d : ℝ) * ((src : ℝ) - 1) / ((dst : ℝ) - 1)

/-- Linear interpolation between samples; beyond the last one, the last one. -/
noncomputable def linear (s : ℕ → ℝ) (n : ℕ) (x : ℝ) : ℝ :=
  s ⌊x⌋.toNat * (1 - (x - ⌊x⌋)) + s (min (⌊x⌋.toNat + 1) (n - 1)) * (x - ⌊x⌋)

/-- Interpolation along the rows, then along the column. -/
noncomputable def bilinear (img : ℕ → ℕ → ℝ) (w h : ℕ) (x y : ℝ) : ℝ :=
  linear (fun j => linear (fun i => img i j) w x) h y

end Spec.Resample

namespace Spec.Resample

/-- The Lanczos kernel with three lobes: `sinc x * sinc (x / 3)`, with `sinc x = sin (π x) / (π x)`. -/
noncomputable def lanczos (x : ℝ) : ℝ :=
  if x = 0 then 1
  else if 3 ≤ |x| then 0
  else Real.sin (Real.pi * x) / (Real.pi * x) * (Real.sin (Real.pi * x / 3) / (Real.pi * x / 3))

end Spec.Resample

namespace Spec.Resample

/-- Three times the Lanczos kernel around `c`, stretched by `s`, at the pixels below `n`; a pixel in the very
middle may have the weight 1 instead of 3. -/
def Weights (n : ℕ) (c s : ℝ) (w : ℕ → ℝ) : Prop :=
  ∀ i, i < n → w i = 3 * lanczos ((i - c) / s) ∨ (w i = 1 ∧ |(i - c) / s| < 1 / 2 ^ 22)

/-- The mean of `p` with the weights `w`. -/
noncomputable def mean (n : ℕ) (p w : ℕ → ℝ) : ℝ := (∑ i ∈ Finset.range n, p i * w i) / ∑ i ∈ Finset.range n, w i

end Spec.Resample

namespace Spec.Resample

/-- The nearest number a byte can hold before rounding. -/
noncomputable def clamp (x : ℝ) : ℝ := max 0 (min x 255)

/-- Where new pixel `d` of `dst` looks in a source of `src` pixels: around `c`, the middle of the new pixel, with the
kernel stretched by `s`, the ratio of the sizes when the image shrinks and 1 otherwise, both up to the rounding of
coordinates; the weights do not cancel. -/
structure Stands (src dst d : ℕ) (c s : ℝ) (w : ℕ → ℝ) : Prop where
  middle : |c - centre src dst d| ≤ src / 2 ^ 21
  stretch : |s - max ((src : ℝ) / dst) 1| ≤ 1 / 2 ^ 15
  weights : Weights src c s w
  total : max (1 / 12) (s - 2) ≤ ∑ i ∈ Finset.range src, w i

/-- `b` is the mean `m`, made with weights of sum `total`, cut to the range of a byte, up to rounding. -/
def Near (s total m b : ℝ) : Prop := |b - clamp m| ≤ 1 / 2 + (255 + |m|) * (s / 2 ^ 9 + s ^ 2 / 2 ^ 18) / total

end Spec.Resample
