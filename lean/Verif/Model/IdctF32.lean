import Verif.Model.JpegDct
/-
Model of the floating-point inverse transform of src/jpeg/dct.rs: `idct_2d` and the table of cosines
it uses. (The decoder uses another one, see Model/Idct.)
-/
namespace Pixo.IdctF32
open Pixo

/-- `PI` of `std::f32::consts`. -/
def pi : Int := F32.lit 3141592653589793238462643383279502884 (10 ^ 36)

/-- `while x > PI { x -= 2.0 * PI }` (src/jpeg/dct.rs:726-728). -/
def lower : Nat → Int → R Int
  | 0, _ => .error .hang
  | fuel + 1, x => if x > pi then lower fuel (F32.sub x (F32.mul (F32.lit 2 1) pi)) else .ok x

/-- `while x < -PI { x += 2.0 * PI }` (src/jpeg/dct.rs:729-731). -/
def raise : Nat → Int → R Int
  | 0, _ => .error .hang
  | fuel + 1, x => if x < -pi then raise fuel (F32.add x (F32.mul (F32.lit 2 1) pi)) else .ok x

/-- The polynomial (src/jpeg/dct.rs:733-738). -/
def taylor (x : Int) : Int :=
  let x2 := F32.mul x x
  let x4 := F32.mul x2 x2
  let x6 := F32.mul x4 x2
  let x8 := F32.mul x4 x4
  F32.add (F32.sub (F32.add (F32.sub (F32.lit 1 1) (F32.div x2 (F32.lit 2 1))) (F32.div x4 (F32.lit 24 1)))
    (F32.div x6 (F32.lit 720 1))) (F32.div x8 (F32.lit 40320 1))

/-- `cos_approx` (src/jpeg/dct.rs:724-739), for arguments up to 8 turns. -/
def cosApprox (x : Int) : R Int := do
  let x ← lower 9 x
  let x ← raise 9 x
  return taylor x

/-- `precompute_cos_table` (src/jpeg/dct.rs:708-721), which gives `COS_TABLE` (src/jpeg/dct.rs:705). -/
def cosTable : R (List (List Int)) :=
  (List.range 8).mapM fun i => (List.range 8).mapM fun j =>
    cosApprox (F32.div (F32.mul (F32.ofInt ((2 * i + 1) * j : Nat)) pi) (F32.lit 16 1))

/-- `ALPHA` (src/jpeg/dct.rs:743-752); `FRAC_1_SQRT_2` is `a1` of Model/JpegDct. -/
def alpha : List Int := Jpeg.a1 :: List.replicate 7 (F32.lit 1 1)

/-- The loop over `k` (src/jpeg/dct.rs:793-796): `n` terms from 0 on, the input being `f`. -/
def sumLoop (row : List Int) (f : Nat → Int) : Nat → Int
  | 0 => 0
  | k + 1 => F32.add (sumLoop row f k) (F32.mul (F32.mul (alpha.getD k 0) (f k)) (row.getD k 0))

/-- `idct_1d` (src/jpeg/dct.rs:788-799), on the eight values `f 0`, …, `f 7`. -/
def idct1d (table : List (List Int)) (f : Nat → Int) : List Int :=
  (List.range 8).map fun n => F32.mul (F32.lit 1 2) (sumLoop (table.getD n []) f 8)

/-- `idct_2d` (src/jpeg/dct.rs:756-786): columns, then rows. -/
def idct2d (block : List Int) : R (List Int) := do
  let table ← cosTable
  let cols := (List.range 8).map fun col => idct1d table (fun row => block.getD (row * 8 + col) 0)
  let rows := (List.range 8).map fun row => idct1d table (fun col => (cols.getD col []).getD row 0)
  return (List.range 64).map fun i => (rows.getD (i / 8) []).getD (i % 8) 0

end Pixo.IdctF32
