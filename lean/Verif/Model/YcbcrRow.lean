import Verif.Model.Idct
/-
Model of `rgb_to_ycbcr_row_avx2` (src/simd/x86_64.rs:1330-1420). It is public; the encoder converts pixel
by pixel (src/color.rs).

The f32 written are whole numbers between -128 and 255, which f32 holds exactly, so they are modelled as
`Int`. Vectors are lists of eight lanes. An output is its contents; what a vector store writes past its
end is counted, as the code checks only where the store begins.
-/
namespace Pixo.YcbcrRow
open Pixo Pixo.Idct

/-- `_mm256_set1_epi32`. -/
def set1 (v : Int) : List Int := List.replicate 8 v

/-- `_mm256_mullo_epi32`. -/
def mullo (a b : List Int) : List Int := List.zipWith (fun x y => wrap32 (x * y)) a b

/-- `_mm256_add_epi32`. -/
def add (a b : List Int) : List Int := List.zipWith (fun x y => wrap32 (x + y)) a b

/-- `_mm256_srai_epi32(a, 16)`. -/
def sra16 (a : List Int) : List Int := a.map (· / 2 ^ 16)

/-- The sum of three products and the rounding, shifted (src/simd/x86_64.rs:1372-1376, 1382-1386,
1392-1396). -/
def combine (mr mg mb : Int) (r g b : List Int) : List Int :=
  sra16 (add (add (mullo (set1 mr) r) (mullo (set1 mg) g)) (add (mullo (set1 mb) b) (set1 32768)))

/-- An output: its contents and how many values were written past its end. -/
structure Out where
  vals : List Int
  past : Nat
  deriving DecidableEq

/-- `_mm256_storeu_ps(out[i..].as_mut_ptr(), v)`: slicing panics for `i` beyond the end, the store itself
is not checked. -/
def store8 (o : Out) (i : Nat) (v : List Int) : R Out :=
  if o.vals.length < i then .error .panic
  else .ok ⟨o.vals.take i ++ v.take (o.vals.length - i) ++ o.vals.drop (i + 8), o.past + (i + 8 - o.vals.length)⟩

/-- `out[i] = v`. -/
def store1 (o : Out) (i : Nat) (v : Int) : R Out :=
  if i < o.vals.length then .ok ⟨o.vals.set i v, o.past⟩ else .error .panic

/-- A byte of the input as `i32`. -/
def at' (rgb : List UInt8) (i : Nat) : Int := (rgb.getD i 0).toNat

/-- The three outputs. -/
structure Outs where
  y : Out
  cb : Out
  cr : Out
  deriving DecidableEq

/-- A turn of the vector loop (src/simd/x86_64.rs:1354-1399). -/
def step8 (rgb : List UInt8) (i : Nat) (o : Outs) : R Outs := do
  let r := (List.range 8).map (fun j => at' rgb ((i + j) * 3))
  let g := (List.range 8).map (fun j => at' rgb ((i + j) * 3 + 1))
  let b := (List.range 8).map (fun j => at' rgb ((i + j) * 3 + 2))
  let y ← store8 o.y i ((combine 19595 38470 7471 r g b).map (· - 128))
  let cb ← store8 o.cb i (combine (-11056) (-21712) 32768 r g b)
  let cr ← store8 o.cr i (combine 32768 (-27440) (-5328) r g b)
  return ⟨y, cb, cr⟩

/-- A turn of the scalar loop (src/simd/x86_64.rs:1404-1417). -/
def step1 (rgb : List UInt8) (i : Nat) (o : Outs) : R Outs := do
  let r := at' rgb (i * 3)
  let g := at' rgb (i * 3 + 1)
  let b := at' rgb (i * 3 + 2)
  let y ← store1 o.y i ((19595 * r + 38470 * g + 7471 * b + 32768) / 2 ^ 16 - 128)
  let cb ← store1 o.cb i ((-11056 * r - 21712 * g + 32768 * b + 32768) / 2 ^ 16)
  let cr ← store1 o.cr i ((32768 * r - 27440 * g - 5328 * b + 32768) / 2 ^ 16)
  return ⟨y, cb, cr⟩

/-- The vector loop (src/simd/x86_64.rs:1353-1401): where it stops, and the outputs. -/
def loop8 (rgb : List UInt8) (i : Nat) (o : Outs) : R (Nat × Outs) :=
  if i + 8 ≤ rgb.length / 3 then do
    let o ← step8 rgb i o
    loop8 rgb (i + 8) o
  else .ok (i, o)
termination_by rgb.length / 3 - i

/-- The scalar loop (src/simd/x86_64.rs:1404-1418). -/
def loop1 (rgb : List UInt8) (i : Nat) (o : Outs) : R Outs :=
  if i < rgb.length / 3 then do
    let o ← step1 rgb i o
    loop1 rgb (i + 1) o
  else .ok o
termination_by rgb.length / 3 - i

/-- `rgb_to_ycbcr_row_avx2` (src/simd/x86_64.rs:1330-1420). -/
def row (rgb : List UInt8) (y cb cr : List Int) : R Outs := do
  let (i, o) ← loop8 rgb 0 ⟨⟨y, 0⟩, ⟨cb, 0⟩, ⟨cr, 0⟩⟩
  loop1 rgb i o

end Pixo.YcbcrRow
