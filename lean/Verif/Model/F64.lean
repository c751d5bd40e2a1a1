import Verif.Model.Basic
/-
Finite IEEE 754 binary64 arithmetic, as used by the block splitting of src/compress/deflate.rs.
A finite `f64` is an `Int` in units of `2^-1074`, the least positive `f64`; every operation is exact
arithmetic followed by rounding to nearest, ties to even. Not represented: infinities, NaN (the
theorems bound every value) and the sign of zero (no modelled operation depends on it).
-/
namespace Pixo.F64

/-- One, in units of `2^-1074`. -/
def one : Nat := 2 ^ 1074

/-- Rounding of the non-negative rational `n / d` (in units) to an `f64`: 53 significant bits, not
finer than one unit, to nearest, ties to even. -/
def rnd (n d : Nat) : Nat :=
  let e := (n / d).log2 - 52
  let g := d * 2 ^ e
  let q := n / g
  let r := n % g
  (if 2 * r > g ∨ (2 * r = g ∧ q % 2 = 1) then q + 1 else q) * 2 ^ e

/-- Signed rounding. -/
def rndI (n : Int) (d : Nat) : Int := if 0 ≤ n then (rnd n.toNat d : Int) else -(rnd (-n).toNat d : Int)

/-- `a + b`. -/
def add (a b : Int) : Int := rndI (a + b) 1

/-- `a - b`. -/
def sub (a b : Int) : Int := rndI (a - b) 1

/-- `a * b`. -/
def mul (a b : Int) : Int := rndI (a * b) one

/-- An integer as an `f64`. -/
def ofInt (n : Int) : Int := rndI (n * one) 1

end Pixo.F64
