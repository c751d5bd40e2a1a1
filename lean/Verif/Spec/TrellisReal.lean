import Verif.Spec.Trellis
import Mathlib.Data.Real.Basic
/-
The cost of quantized values (Spec/Trellis) in real numbers, its two parts apart: the estimated bits and the
squared error.
-/
namespace Spec.Trellis

/-- Estimated bits of the code for a run of zeros before a value of some size. -/
noncomputable def codeBits (run size : Nat) : ℝ :=
  match run, size with
  | 0, 1 => 2
  | 0, 2 => 5 / 2
  | 0, 3 => 3
  | 0, 4 => 4
  | 1, 1 => 3
  | 1, 2 => 4
  | 2, 1 => 4
  | run, size => 3 + run / 2 + 3 * size / 10

/-- Estimated bits of values behind a run of zeros: sixteen zeros take ten, a value takes its code and as many
as its size, and zeros at the end take four. -/
noncomputable def bits : Nat → List Int → ℝ
  | run, [] => if 0 < run then 4 else 0
  | run, v :: vs =>
    if v = 0 then (if run = 15 then 10 + bits 0 vs else bits (run + 1) vs)
    else codeBits run (size v) + size v + bits 0 vs

/-- The squared error of values for coefficients (in units of `2^-149`, with their steps). -/
noncomputable def squares : List (Int × Int) → List Int → ℝ
  | c :: cs, v :: vs => ((c.1 : ℝ) / 2 ^ 149 - v * (c.2 / 2 ^ 149)) ^ 2 + squares cs vs
  | _, _ => 0

/-- Bits and weighted error together. -/
noncomputable def total (weight : ℝ) (coefs : List (Int × Int)) (values : List Int) : ℝ :=
  bits 0 values + weight * squares coefs values

/-- Estimated bits of what is written for values behind a run of zeros (T.81 F.1.2.2): every sixteen zeros before
a value take ten, a value takes its code and as many as its size, and zeros at the end take four together. -/
noncomputable def written : Nat → List Int → ℝ
  | run, [] => if 0 < run then 4 else 0
  | run, v :: vs =>
    if v = 0 then written (run + 1) vs
    else 10 * (run / 16 : Nat) + codeBits (run % 16) (size v) + size v + written 0 vs

/-- The zeros at the end, behind a run of zeros. -/
def zerosAtEnd : Nat → List Int → Nat
  | run, [] => run
  | run, v :: vs => zerosAtEnd (if v = 0 then run + 1 else 0) vs

end Spec.Trellis
