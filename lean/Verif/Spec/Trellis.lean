import Verif.Model.F32
/-
What choosing quantized values for a sequence of coefficients is estimated to cost: the error they make,
squared and times some weight, plus the bits an encoder would need for them, estimated by a table of typical
code lengths.
Sums and products are those of binary32, each term added as it arises. A coefficient comes with its step:
`(coefficient, step)`.
-/
namespace Spec.Trellis
open Pixo

/-- Bits of the magnitude of a value. -/
def size (v : Int) : Nat := if v = 0 then 0 else v.natAbs.log2 + 1

/-- Estimated length of the code for a run of zeros before a value of some size. -/
def symbolBits (run size : Nat) : Int :=
  match run, size with
  | 0, 1 => F32.lit 2 1
  | 0, 2 => F32.lit 5 2
  | 0, 3 => F32.lit 3 1
  | 0, 4 => F32.lit 4 1
  | 1, 1 => F32.lit 3 1
  | 1, 2 => F32.lit 4 1
  | 2, 1 => F32.lit 4 1
  | run, size => F32.add (F32.add (F32.lit 3 1) (F32.mul (F32.ofInt run) (F32.lit 1 2)))
      (F32.mul (F32.ofInt size) (F32.lit 3 10))

/-- The error of a value, squared. -/
def distortion (c : Int × Int) (v : Int) : Int :=
  F32.mul (F32.sub c.1 (F32.mul (F32.ofInt v) c.2)) (F32.sub c.1 (F32.mul (F32.ofInt v) c.2))

/-- `(zeros since the last value, cost so far)` after one more value. Sixteen zeros take a symbol of ten
bits of their own. -/
def step (lambda : Int) (c : Int × Int) (s : Nat × Int) (v : Int) : Nat × Int :=
  if v = 0 then
    if s.1 = 15 then (0, F32.add (F32.add s.2 (F32.lit 10 1)) (F32.mul lambda (distortion c v)))
    else (s.1 + 1, F32.add s.2 (F32.mul lambda (distortion c v)))
  else (0, F32.add (F32.add s.2 (F32.add (symbolBits s.1 (size v)) (F32.ofInt (size v)))) (F32.mul lambda (distortion c v)))

/-- `(zeros since the last value, cost)` of values for a sequence of coefficients. -/
def tally (lambda : Int) (coefs : List (Int × Int)) (values : List Int) : Nat × Int :=
  (coefs.zip values).foldl (fun s p => step lambda p.1 s p.2) (0, 0)

/-- The cost of a whole block: trailing zeros take an end of block of four bits. -/
def price (lambda : Int) (coefs : List (Int × Int)) (values : List Int) : Int :=
  if 0 < (tally lambda coefs values).1 then F32.add (tally lambda coefs values).2 (F32.lit 4 1) else (tally lambda coefs values).2

/-- The values considered for a quotient `x`: zero, those less than one away, and for a quotient beyond
3/2 also those less than two away that are further from zero. -/
def Allowed (x v : Int) : Prop :=
  v = 0 ∨ (v * F32.one - x).natAbs < F32.one ∨
    (3 * F32.one < 2 * x.natAbs ∧ x.natAbs < (v * F32.one).natAbs ∧ (v * F32.one - x).natAbs < 2 * F32.one)

/-- Each value is one of those considered for its coefficient. -/
def AllowedSeq (coefs : List (Int × Int)) (values : List Int) : Prop :=
  values.length = coefs.length ∧
    ∀ p ∈ coefs.zip values, Allowed (F32.div p.1.1 p.1.2) p.2

/-- What the rest of a sequence depends on, and the last value. -/
def ending (lambda : Int) (coefs : List (Int × Int)) (values : List Int) : Int × Nat :=
  (values.getLastD 0, (tally lambda coefs values).1)

/-- Eight other ways to choose values for the first `k` coefficients, all ending differently, none costing
more. -/
def Outnumbered (lambda : Int) (coefs : List (Int × Int)) (values : List Int) (k : Nat) : Prop :=
  ∃ others : List (List Int), others.length = 8 ∧
    (∀ o ∈ others, AllowedSeq (coefs.take k) o ∧
      (tally lambda (coefs.take k) o).2 ≤ (tally lambda (coefs.take k) (values.take k)).2) ∧
    ((others ++ [values.take k]).map (ending lambda (coefs.take k))).Nodup

end Spec.Trellis
