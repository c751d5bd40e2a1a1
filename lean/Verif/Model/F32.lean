import Verif.Model.Basic
/-
Finite IEEE 754 binary32 arithmetic, as used by src/jpeg/dct.rs, src/jpeg/quantize.rs and
src/resize.rs. A finite `f32` is an `Int` in units of `2^-149`, the least positive `f32`; every
operation is exact arithmetic followed by rounding to nearest, ties to even. Not represented:
infinities, NaN (no modelled computation reaches them: the theorems bound every value) and the
sign of zero (no modelled operation depends on it).
-/
namespace Pixo.F32

/-- One, in units of `2^-149`. -/
def one : Nat := 2 ^ 149

/-- Rounding of the non-negative rational `n / d` (in units) to an `f32`: 24 significant bits, not
finer than one unit, to nearest, ties to even. -/
def rnd (n d : Nat) : Nat :=
  let e := (n / d).log2 - 23
  let g := d * 2 ^ e
  let q := n / g
  let r := n % g
  (if 2 * r > g ∨ (2 * r = g ∧ q % 2 = 1) then q + 1 else q) * 2 ^ e

/-- Signed rounding. -/
def rndI (n : Int) (d : Nat) : Int := if 0 ≤ n then (rnd n.toNat d : Int) else -(rnd (-n).toNat d : Int)

/-- `a + b`. -/
def add (a b : Int) : Int := rndI (a + b) 1

/-- `a - b`. -/
def sub (a b : Int) : Int := rndI (a - b) 1

/-- `a * b`. -/
def mul (a b : Int) : Int := rndI (a * b) one

/-- `a / b`, for `b` positive. -/
def div (a b : Int) : Int := rndI (a * one) b.toNat

/-- An integer as an `f32`. -/
def ofInt (n : Int) : Int := rndI (n * one) 1

/-- A decimal literal `n / d`. -/
def lit (n d : Nat) : Int := rnd (n * one) d

/-- `x.floor()` as an integer. -/
def floor (x : Int) : Int := x / one

/-- `x.ceil()` as an integer. -/
def ceil (x : Int) : Int := -(-x / one)

/-- `x.round()` as an integer: to nearest, halves away from zero. -/
def round (x : Int) : Int := if 0 ≤ x then (2 * x + one) / (2 * one) else -((2 * (-x) + one) / (2 * one))

/-- `v as i16` of an integral value: saturating. -/
def toI16 (v : Int) : Int := max (-32768) (min 32767 v)

end Pixo.F32
