import Verif.Model.Idct
/-
Model of the integer DCT of src/jpeg/dct.rs (scalar and NEON), of its AVX2 version in src/simd/x86_64.rs
and of `quantize_block_integer`. They are public; the encoder itself uses the f32 version.

`ck` says whether overflow of scalar `i32` operations is checked. Vectors are lists of lanes, lane 0
first; their sums and differences always wrap. Loads and stores of whole vectors are in bounds by the
types of the arrays.
-/
namespace Pixo.DctInt
open Pixo Pixo.Idct

/-! ### Scalar -/

/-- A pass before scaling (src/jpeg/dct.rs:78-126, 143-193): eight sums in order of frequency. Both
passes do the same up to here. -/
def pass (ck : Bool) (d : List Int) : R (List Int) := do
  let tmp0 ← i32 ck (d.getD 0 0 + d.getD 7 0)
  let tmp1 ← i32 ck (d.getD 1 0 + d.getD 6 0)
  let tmp2 ← i32 ck (d.getD 2 0 + d.getD 5 0)
  let tmp3 ← i32 ck (d.getD 3 0 + d.getD 4 0)
  let tmp10 ← i32 ck (tmp0 + tmp3)
  let tmp12 ← i32 ck (tmp0 - tmp3)
  let tmp11 ← i32 ck (tmp1 + tmp2)
  let tmp13 ← i32 ck (tmp1 - tmp2)
  let tmp0 ← i32 ck (d.getD 0 0 - d.getD 7 0)
  let tmp1 ← i32 ck (d.getD 1 0 - d.getD 6 0)
  let tmp2 ← i32 ck (d.getD 2 0 - d.getD 5 0)
  let tmp3 ← i32 ck (d.getD 3 0 - d.getD 4 0)
  let out0 ← i32 ck (tmp10 + tmp11)
  let out4 ← i32 ck (tmp10 - tmp11)
  let s ← i32 ck (tmp12 + tmp13)
  let z1 := fixMul s 4433
  let out2 ← i32 ck (z1 + fixMul tmp12 6270)
  let out6 ← i32 ck (z1 - fixMul tmp13 15137)
  let tmp10 ← i32 ck (tmp0 + tmp3)
  let tmp11 ← i32 ck (tmp1 + tmp2)
  let tmp12 ← i32 ck (tmp0 + tmp2)
  let tmp13 ← i32 ck (tmp1 + tmp3)
  let s ← i32 ck (tmp12 + tmp13)
  let z1 := fixMul s 9633
  let tmp0 := fixMul tmp0 12299
  let tmp1 := fixMul tmp1 25172
  let tmp2 := fixMul tmp2 16819
  let tmp3 := fixMul tmp3 2446
  let tmp10 := fixMul tmp10 (-7373)
  let tmp11 := fixMul tmp11 (-20995)
  let tmp12 ← i32 ck (fixMul tmp12 (-3196) + z1)
  let tmp13 ← i32 ck (fixMul tmp13 (-16069) + z1)
  let a ← i32 ck (tmp0 + tmp10)
  let out1 ← i32 ck (a + tmp12)
  let a ← i32 ck (tmp1 + tmp11)
  let out3 ← i32 ck (a + tmp13)
  let a ← i32 ck (tmp2 + tmp11)
  let out5 ← i32 ck (a + tmp12)
  let a ← i32 ck (tmp3 + tmp10)
  let out7 ← i32 ck (a + tmp13)
  return [out0, out1, out2, out3, out4, out5, out6, out7]

/-- What the first pass stores (src/jpeg/dct.rs:97-98, 101-102, 123-126): `<< PASS1_BITS` for the
frequencies 0 and 4, and the others as they are. -/
def rowScale (l : List Int) : List Int :=
  [wrap32 (l.getD 0 0 * 2 ^ 2), l.getD 1 0, l.getD 2 0, l.getD 3 0, wrap32 (l.getD 4 0 * 2 ^ 2), l.getD 5 0, l.getD 6 0,
    l.getD 7 0]

/-- `(v + (1 << (descale - 1))) >> descale` (src/jpeg/dct.rs:163-193), `descale` being 5. -/
def descale (ck : Bool) (v : Int) : R Int := do
  let s ← i32 ck (v + 2 ^ 4)
  return s / 2 ^ 5

/-- The first pass over a row (src/jpeg/dct.rs:66-127). -/
def row (ck : Bool) (block : List Int) (r : Nat) : R (List Int) := do
  let p ← pass ck ((List.range 8).map (fun i => block.getD (8 * r + i) 0))
  return rowScale p

/-- The second pass over a column of the workspace (src/jpeg/dct.rs:131-194), given by its rows. -/
def column (ck : Bool) (rows : List (List Int)) (c : Nat) : R (List Int) := do
  let p ← pass ck ((List.range 8).map (fun i => (rows.getD i []).getD c 0))
  p.mapM (descale ck)

/-- Eight columns as a block in row-major order. -/
def ofColumns (cols : List (List Int)) : List Int :=
  (List.range 8).flatMap (fun k => (List.range 8).map (fun c => (cols.getD c []).getD k 0))

/-- `dct_2d_integer` (src/jpeg/dct.rs:61-186). -/
def dct (ck : Bool) (block : List Int) : R (List Int) := do
  let rows ← (List.range 8).mapM (row ck block)
  let cols ← (List.range 8).mapM (column ck rows)
  return ofColumns cols

/-! ### AVX2 -/

/-- `_mm256_add_epi32`. -/
def vadd (a b : List Int) : List Int := List.zipWith (fun x y => wrap32 (x + y)) a b

/-- `_mm256_sub_epi32`. -/
def vsub (a b : List Int) : List Int := List.zipWith (fun x y => wrap32 (x - y)) a b

/-- `_mm256_srai_epi32(a, 5)`. -/
def vsra5 (a : List Int) : List Int := a.map (· / 2 ^ 5)

/-- `_mm_mul_epi32`: the products of lanes 0 and 2, as 64 bit lanes. -/
def mulEven (a b : List Int) : List Int := [a.getD 0 0 * b.getD 0 0, a.getD 2 0 * b.getD 2 0]

/-- `_mm_shuffle_epi32(a, 0b11_11_01_01)`. -/
def shuffleOdd (a : List Int) : List Int := [a.getD 1 0, a.getD 1 0, a.getD 3 0, a.getD 3 0]

/-- `sra_epi64_const13` (src/simd/x86_64.rs:1250-1259). -/
def sra13 (a : List Int) : List Int := a.map (· / 2 ^ 13)

/-- 64 bit lanes as 32 bit lanes. -/
def words (a : List Int) : List Int := a.flatMap (fun v => [wrap32 v, wrap32 (v / 2 ^ 32)])

/-- `_mm_shuffle_ps(a, b, 0b10_00_10_00)`: lanes 0 and 2 of each. -/
def shufflePs (a b : List Int) : List Int := [a.getD 0 0, a.getD 2 0, b.getD 0 0, b.getD 2 0]

/-- `_mm_shuffle_epi32(a, 0b11_01_10_00)`: lanes 0, 2, 1, 3. -/
def shuffleMiddle (a : List Int) : List Int := [a.getD 0 0, a.getD 2 0, a.getD 1 0, a.getD 3 0]

/-- Half of `avx2_fix_mul` (src/simd/x86_64.rs:1274-1315), on four lanes. -/
def fixMul4 (a b : List Int) : List Int :=
  let even := sra13 (mulEven a b)
  let odd := sra13 (mulEven (shuffleOdd a) (shuffleOdd b))
  shuffleMiddle (shufflePs (words even) (words odd))

/-- `avx2_fix_mul` (src/simd/x86_64.rs:1263-1315). -/
def fixMul8 (a b : List Int) : List Int := fixMul4 (a.take 4) (b.take 4) ++ fixMul4 (a.drop 4) (b.drop 4)

/-- `_mm256_set1_epi32`. -/
def splat (v : Int) : List Int := List.replicate 8 v

/-- `dct_columns_avx2` (src/simd/x86_64.rs:1132-1245): rows to rows, all columns at once. -/
def columnsAvx2 (rows : List (List Int)) : List (List Int) :=
  let row := fun i => rows.getD i []
  let tmp0 := vadd (row 0) (row 7)
  let tmp1 := vadd (row 1) (row 6)
  let tmp2 := vadd (row 2) (row 5)
  let tmp3 := vadd (row 3) (row 4)
  let tmp10 := vadd tmp0 tmp3
  let tmp12 := vsub tmp0 tmp3
  let tmp11 := vadd tmp1 tmp2
  let tmp13 := vsub tmp1 tmp2
  let odd0 := vsub (row 0) (row 7)
  let odd1 := vsub (row 1) (row 6)
  let odd2 := vsub (row 2) (row 5)
  let odd3 := vsub (row 3) (row 4)
  let round := splat (2 ^ 4)
  let out0 := vsra5 (vadd (vadd tmp10 tmp11) round)
  let out4 := vsra5 (vadd (vsub tmp10 tmp11) round)
  let z1 := fixMul8 (vadd tmp12 tmp13) (splat 4433)
  let out2 := vsra5 (vadd (vadd z1 (fixMul8 tmp12 (splat 6270))) round)
  let out6 := vsra5 (vadd (vsub z1 (fixMul8 tmp13 (splat 15137))) round)
  let o10 := vadd odd0 odd3
  let o11 := vadd odd1 odd2
  let o12 := vadd odd0 odd2
  let o13 := vadd odd1 odd3
  let z1 := fixMul8 (vadd o12 o13) (splat 9633)
  let m0 := fixMul8 odd0 (splat 12299)
  let m1 := fixMul8 odd1 (splat 25172)
  let m2 := fixMul8 odd2 (splat 16819)
  let m3 := fixMul8 odd3 (splat 2446)
  let m10 := fixMul8 o10 (splat (-7373))
  let m11 := fixMul8 o11 (splat (-20995))
  let m12 := vadd (fixMul8 o12 (splat (-3196))) z1
  let m13 := vadd (fixMul8 o13 (splat (-16069))) z1
  let out1 := vsra5 (vadd (vadd (vadd m0 m10) m12) round)
  let out3 := vsra5 (vadd (vadd (vadd m1 m11) m13) round)
  let out5 := vsra5 (vadd (vadd (vadd m2 m11) m12) round)
  let out7 := vsra5 (vadd (vadd (vadd m3 m10) m13) round)
  [out0, out1, out2, out3, out4, out5, out6, out7]

/-- `dct_2d_avx2` (src/simd/x86_64.rs:1053-1123). Its first pass (1059-1112) is the scalar one. -/
def dctAvx2 (ck : Bool) (block : List Int) : R (List Int) := do
  let rows ← (List.range 8).mapM (row ck block)
  return (columnsAvx2 rows).flatten

/-! ### NEON -/

/-- `vrev64q_s32`: swaps the lanes of each half. -/
def vrev64 (a : List Int) : List Int := [a.getD 1 0, a.getD 0 0, a.getD 3 0, a.getD 2 0]

/-- `vextq_s32(a, a, 2)`: lanes 2, 3, 0, 1. -/
def vext2 (a : List Int) : List Int := [a.getD 2 0, a.getD 3 0, a.getD 0 0, a.getD 1 0]

/-- The sums of `dct_row_neon_vectorized` and `dct_column_neon_vectorized` before scaling
(src/jpeg/dct.rs:265-330, 344-406): sums and differences of the inputs in lanes, the rest scalar. -/
def passNeon (ck : Bool) (lo hi : List Int) : R (List Int) := do
  let rev := vext2 (vrev64 hi)
  let sum := vadd lo rev
  let diff := vsub lo rev
  let tmp10 ← i32 ck (sum.getD 0 0 + sum.getD 3 0)
  let tmp11 ← i32 ck (sum.getD 1 0 + sum.getD 2 0)
  let tmp12 ← i32 ck (sum.getD 0 0 - sum.getD 3 0)
  let tmp13 ← i32 ck (sum.getD 1 0 - sum.getD 2 0)
  let out0 ← i32 ck (tmp10 + tmp11)
  let out4 ← i32 ck (tmp10 - tmp11)
  let s ← i32 ck (tmp12 + tmp13)
  let z1 := fixMul s 4433
  let out2 ← i32 ck (z1 + fixMul tmp12 6270)
  let out6 ← i32 ck (z1 - fixMul tmp13 15137)
  let o10 ← i32 ck (diff.getD 0 0 + diff.getD 3 0)
  let o11 ← i32 ck (diff.getD 1 0 + diff.getD 2 0)
  let o12 ← i32 ck (diff.getD 0 0 + diff.getD 2 0)
  let o13 ← i32 ck (diff.getD 1 0 + diff.getD 3 0)
  let s ← i32 ck (o12 + o13)
  let z1 := fixMul s 9633
  let m0 := fixMul (diff.getD 0 0) 12299
  let m1 := fixMul (diff.getD 1 0) 25172
  let m2 := fixMul (diff.getD 2 0) 16819
  let m3 := fixMul (diff.getD 3 0) 2446
  let m10 := fixMul o10 (-7373)
  let m11 := fixMul o11 (-20995)
  let m12 ← i32 ck (fixMul o12 (-3196) + z1)
  let m13 ← i32 ck (fixMul o13 (-16069) + z1)
  let a ← i32 ck (m0 + m10)
  let out1 ← i32 ck (a + m12)
  let a ← i32 ck (m1 + m11)
  let out3 ← i32 ck (a + m13)
  let a ← i32 ck (m2 + m11)
  let out5 ← i32 ck (a + m12)
  let a ← i32 ck (m3 + m10)
  let out7 ← i32 ck (a + m13)
  return [out0, out1, out2, out3, out4, out5, out6, out7]

/-- `vtrn1q_s32`. -/
def trn1 (a b : List Int) : List Int := [a.getD 0 0, b.getD 0 0, a.getD 2 0, b.getD 2 0]

/-- `vtrn2q_s32`. -/
def trn2 (a b : List Int) : List Int := [a.getD 1 0, b.getD 1 0, a.getD 3 0, b.getD 3 0]

/-- `vtrn1q_s64` on vectors of 32 bit lanes. -/
def trn1Wide (a b : List Int) : List Int := [a.getD 0 0, a.getD 1 0, b.getD 0 0, b.getD 1 0]

/-- `vtrn2q_s64` on vectors of 32 bit lanes. -/
def trn2Wide (a b : List Int) : List Int := [a.getD 2 0, a.getD 3 0, b.getD 2 0, b.getD 3 0]

/-- A quadrant of `transpose_8x8_neon` (src/jpeg/dct.rs:424-444, and the same three times more). -/
def transpose4 (a b c d : List Int) : List (List Int) :=
  let t0 := trn1 a b
  let t1 := trn2 a b
  let t2 := trn1 c d
  let t3 := trn2 c d
  [trn1Wide t0 t2, trn1Wide t1 t3, trn2Wide t0 t2, trn2Wide t1 t3]

/-- `transpose_8x8_neon` (src/jpeg/dct.rs:418-527). A row is a pair of vectors. -/
def transpose8 (rows : List (List Int × List Int)) : List (List Int × List Int) :=
  let row := fun i => rows.getD i ([], [])
  let tl := transpose4 (row 0).1 (row 1).1 (row 2).1 (row 3).1
  let tr := transpose4 (row 0).2 (row 1).2 (row 2).2 (row 3).2
  let bl := transpose4 (row 4).1 (row 5).1 (row 6).1 (row 7).1
  let br := transpose4 (row 4).2 (row 5).2 (row 6).2 (row 7).2
  tl.zip bl ++ tr.zip br

/-- `dct_2d_integer_neon_impl` (src/jpeg/dct.rs:207-259). -/
def dctNeon (ck : Bool) (block : List Int) : R (List Int) := do
  let rows ← (List.range 8).mapM (fun r => do
    let p ← passNeon ck ((block.drop (8 * r)).take 4) ((block.drop (8 * r + 4)).take 4)
    return rowScale p)
  let t := transpose8 (rows.map (fun r => (r.take 4, r.drop 4)))
  let cols ← t.mapM (fun c => do
    let p ← passNeon ck c.1 c.2
    p.mapM (descale ck))
  return ofColumns cols

/-! ### Choice and quantization -/

/-- What `dct_2d_fast` finds out about the machine. -/
inductive Cpu where
  | x86 (avx2 : Bool) | aarch64 | other

/-- `dct_2d_fast` (src/jpeg/dct.rs:535-568). The product of an `i16` and 8 fits an `i32`. -/
def dctFast (cpu : Cpu) (ck : Bool) (block : List Int) : R (List Int) :=
  if (block.drop 1).all (· = block.getD 0 0) then .ok ((List.replicate 64 0).set 0 (block.getD 0 0 * 8))
  else match cpu with
    | .x86 true => dctAvx2 ck block
    | .x86 false => dct ck block
    | .aarch64 => dctNeon ck block
    | .other => dct ck block

/-- One coefficient of `quantize_block_integer` (src/jpeg/dct.rs:573-581). Division of `i32` rounds to
zero; it panics for a zero divisor. -/
def quantizeOne (ck : Bool) (coef : Int) (q : Nat) : R Int := do
  let n ← i32 ck (if 0 ≤ coef then coef + q / 2 else coef - q / 2)
  if q = 0 then .error .panic else return wrap16 (n.tdiv q)

/-- `quantize_block_integer` (src/jpeg/dct.rs:570-584). -/
def quantize (ck : Bool) (dct : List Int) (table : List Nat) : R (List Int) :=
  (List.range 64).mapM (fun i => quantizeOne ck (dct.getD i 0) (table.getD i 0))

end Pixo.DctInt
