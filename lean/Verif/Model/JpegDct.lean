import Verif.Model.F32
/-
Model of the floating-point forward transform the encoder uses: `dct_2d` and `aan_dct_1d` of
src/jpeg/dct.rs. (`dct_2d_integer`, `dct_2d_fast`, `idct_2d` there are not called by the encoder.)
-/
namespace Pixo.Jpeg
open Pixo

/-- `A1`, `A3` (src/jpeg/dct.rs:591, 593): `FRAC_1_SQRT_2`. -/
def a1 : Int := F32.lit 707106781186547524400844362104849039 (10 ^ 36)
/-- `A2` (src/jpeg/dct.rs:592). -/
def a2 : Int := F32.lit 5411961 (10 ^ 7)
/-- `A4` (src/jpeg/dct.rs:594). -/
def a4 : Int := F32.lit 13065629 (10 ^ 7)
/-- `A5` (src/jpeg/dct.rs:595). -/
def a5 : Int := F32.lit 38268343 (10 ^ 8)

/-- `S` (src/jpeg/dct.rs:599-608). -/
def dctScale : List Int :=
  [F32.lit 3535534 (10 ^ 7), F32.lit 2548978 (10 ^ 7), F32.lit 2705981 (10 ^ 7),
   F32.lit 3006724 (10 ^ 7), F32.lit 3535534 (10 ^ 7), F32.lit 4499881 (10 ^ 7),
   F32.lit 6532815 (10 ^ 7), F32.lit 12814578 (10 ^ 7)]

/-- `aan_dct_1d` (src/jpeg/dct.rs:651-700), on eight values. -/
def aan (d0 d1 d2 d3 d4 d5 d6 d7 : Int) : List Int :=
  let tmp0 := F32.add d0 d7
  let tmp7 := F32.sub d0 d7
  let tmp1 := F32.add d1 d6
  let tmp6 := F32.sub d1 d6
  let tmp2 := F32.add d2 d5
  let tmp5 := F32.sub d2 d5
  let tmp3 := F32.add d3 d4
  let tmp4 := F32.sub d3 d4
  let tmp10 := F32.add tmp0 tmp3
  let tmp13 := F32.sub tmp0 tmp3
  let tmp11 := F32.add tmp1 tmp2
  let tmp12 := F32.sub tmp1 tmp2
  let o0 := F32.add tmp10 tmp11
  let o4 := F32.sub tmp10 tmp11
  let z1 := F32.mul (F32.add tmp12 tmp13) a1
  let o2 := F32.add tmp13 z1
  let o6 := F32.sub tmp13 z1
  let tmp10 := F32.add tmp4 tmp5
  let tmp11 := F32.add tmp5 tmp6
  let tmp12 := F32.add tmp6 tmp7
  let z5 := F32.mul (F32.sub tmp10 tmp12) a5
  let z2 := F32.add (F32.mul tmp10 a2) z5
  let z4 := F32.add (F32.mul tmp12 a4) z5
  let z3 := F32.mul tmp11 a1
  let z11 := F32.add tmp7 z3
  let z13 := F32.sub tmp7 z3
  let o5 := F32.add z13 z2
  let o3 := F32.sub z13 z2
  let o1 := F32.add z11 z4
  let o7 := F32.sub z11 z4
  List.zipWith F32.mul [o0, o1, o2, o3, o4, o5, o6, o7] dctScale

/-- `aan_dct_1d` on the eight values `f 0`, …, `f 7`. -/
def aanOf (f : Nat → Int) : List Int := aan (f 0) (f 1) (f 2) (f 3) (f 4) (f 5) (f 6) (f 7)

/-- `dct_2d` (src/jpeg/dct.rs:614-644): rows, then columns. -/
def dct2d (block : List Int) : List Int :=
  let temp := (List.range 8).map (fun row => aanOf (fun i => block.getD (row * 8 + i) 0))
  let cols := (List.range 8).map (fun col => aanOf (fun row => (temp.getD row []).getD col 0))
  (List.range 64).map (fun i => (cols.getD (i % 8) []).getD (i / 8) 0)

end Pixo.Jpeg
