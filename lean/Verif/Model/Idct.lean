import Verif.Model.Basic
/-
Model of src/decode/idct.rs. `ck` says whether the build checks for overflow (debug) or not (release):
`i32` sums panic or wrap. Shifts to the left and `as i32` never panic and always wrap.
-/
namespace Pixo.Idct

/-- `v as i32` for a wider number: the low 32 bits in two's complement. -/
def wrap32 (v : Int) : Int := (v + 2 ^ 31) % 2 ^ 32 - 2 ^ 31

/-- `v as i16`. -/
def wrap16 (v : Int) : Int := (v + 2 ^ 15) % 2 ^ 16 - 2 ^ 15

/-- The result of an `i32` operation whose exact result is `v`. -/
def i32 (ck : Bool) (v : Int) : R Int :=
  if -2 ^ 31 ≤ v ∧ v < 2 ^ 31 then .ok v else if ck then .error .panic else .ok (wrap32 v)

/-- `fix_mul` (src/decode/idct.rs:17-19): the product of two `i32` fits an `i64`. -/
def fixMul (a b : Int) : Int := wrap32 (a * b / 2 ^ 13)

/-- The even part of a pass (src/decode/idct.rs:60-76, 130-146): `tmp0`, `tmp1`, `tmp2`, `tmp3`. -/
def even (ck : Bool) (d0 d2 d4 d6 : Int) : R (Int × Int × Int × Int) := do
  let tmp0 := wrap32 (d0 * 2 ^ 13)
  let tmp1 := wrap32 (d2 * 2 ^ 13)
  let tmp2 := wrap32 (d4 * 2 ^ 13)
  let tmp3 := wrap32 (d6 * 2 ^ 13)
  let tmp10 ← i32 ck (tmp0 + tmp2)
  let tmp11 ← i32 ck (tmp0 - tmp2)
  let s ← i32 ck (tmp1 + tmp3)
  let z1 := fixMul s 4433
  let tmp12 ← i32 ck (z1 - fixMul tmp3 15137)
  let tmp13 ← i32 ck (z1 + fixMul tmp1 6270)
  let t0 ← i32 ck (tmp10 + tmp13)
  let t3 ← i32 ck (tmp10 - tmp13)
  let t1 ← i32 ck (tmp11 + tmp12)
  let t2 ← i32 ck (tmp11 - tmp12)
  return (t0, t1, t2, t3)

/-- The odd part of a pass (src/decode/idct.rs:78-102, 148-172): `tmp10`, `tmp11`, `tmp12`, `tmp13`. -/
def odd (ck : Bool) (d1 d3 d5 d7 : Int) : R (Int × Int × Int × Int) := do
  let s ← i32 ck (d1 + d5)
  let z5 := fixMul s 9633
  let tmp10 := fixMul d1 2446
  let tmp11 := fixMul d3 16819
  let tmp12 := fixMul d5 25172
  let tmp13 := fixMul d7 12299
  let s1 ← i32 ck (d1 + d7)
  let z1 := fixMul s1 (-7373)
  let s2 ← i32 ck (d3 + d5)
  let z2 := fixMul s2 (-20995)
  let s3 ← i32 ck (d5 + d7)
  let z3 := fixMul s3 (-16069)
  let s4 ← i32 ck (d1 + d3)
  let z4 := fixMul s4 (-3196)
  let z3 ← i32 ck (z3 + z5)
  let z4 ← i32 ck (z4 + z5)
  let a ← i32 ck (tmp10 + z1)
  let tmp10 ← i32 ck (a + z3)
  let a ← i32 ck (tmp11 + z2)
  let tmp11 ← i32 ck (a + z4)
  let a ← i32 ck (tmp12 + z2)
  let tmp12 ← i32 ck (a + z3)
  let a ← i32 ck (tmp13 + z1)
  let tmp13 ← i32 ck (a + z4)
  return (tmp10, tmp11, tmp12, tmp13)

/-- The eight sums a pass descales, in order of position (src/decode/idct.rs:105-112, 175-182). -/
def pass (ck : Bool) (d : List Int) : R (List Int) := do
  let (t0, t1, t2, t3) ← even ck (d.getD 0 0) (d.getD 2 0) (d.getD 4 0) (d.getD 6 0)
  let (o0, o1, o2, o3) ← odd ck (d.getD 1 0) (d.getD 3 0) (d.getD 5 0) (d.getD 7 0)
  [(t0 + o3), (t1 + o2), (t2 + o1), (t3 + o0), (t3 - o0), (t2 - o1), (t1 - o2), (t0 - o3)].mapM (i32 ck)

/-- `(v + ROUND_PASS1) >> (CONST_BITS - PASS1_BITS)` (src/decode/idct.rs:105-112). -/
def descale1 (ck : Bool) (v : Int) : R Int := do
  let s ← i32 ck (v + 2 ^ 10)
  return s / 2 ^ 11

/-- `descale_and_clamp` (src/decode/idct.rs:199-204). -/
def descale2 (ck : Bool) (v : Int) : R UInt8 := do
  let s ← i32 ck (v + 2 ^ 17)
  let w := s / 2 ^ 18 + 128
  return UInt8.ofNat (min (max w 0) 255).toNat

/-- `idct_2d_integer` (src/decode/idct.rs:45-195): the first pass transforms columns, the second rows.
The workspace is kept as the list of its columns. -/
def idct (ck : Bool) (coeffs : List Int) : R (List UInt8) := do
  let cols ← (List.range 8).mapM (fun c => do
    let p ← pass ck ((List.range 8).map (fun r => coeffs.getD (c + 8 * r) 0))
    p.mapM (descale1 ck))
  let rows ← (List.range 8).mapM (fun r => do
    let p ← pass ck ((List.range 8).map (fun c => (cols.getD c []).getD r 0))
    p.mapM (descale2 ck))
  return rows.flatten

/-- `UNZIGZAG` (src/decode/idct.rs:217-222). -/
def unzigzag : List Nat :=
  [0, 1, 8, 16, 9, 2, 3, 10, 17, 24, 32, 25, 18, 11, 4, 5, 12, 19, 26, 33, 40, 48, 41, 34, 27,
   20, 13, 6, 7, 14, 21, 28, 35, 42, 49, 56, 57, 50, 43, 36, 29, 22, 15, 23, 30, 37, 44, 51,
   58, 59, 52, 45, 38, 31, 39, 46, 53, 60, 61, 54, 47, 55, 62, 63]

/-- `dequantize` (src/decode/idct.rs:214-230): the product of an `i16` and a `u16` fits an `i32`. -/
def dequantize (coeffs : List Int) (qtable : List Nat) : List Int :=
  (List.range 64).foldl (fun result i =>
    result.set (unzigzag.getD i 0) (coeffs.getD i 0 * (qtable.getD i 0 : Int))) (List.replicate 64 0)

end Pixo.Idct
