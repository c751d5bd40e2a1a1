import Verif.Model.F32
import Verif.Model.Color
import Verif.Model.Parallel
/-
Model of src/resize.rs. `usize` has 64 bits, so the products of dimensions (at most `2^24`) cannot
overflow; allocation always succeeds. The output buffer is written from the front to the back, pixel by
pixel, and modelled by the concatenation of what is written.
-/
namespace Pixo.Resize
open Pixo

/-- `ResizeAlgorithm` (src/resize.rs:34-45). -/
inductive Algorithm where
  | nearest | bilinear | lanczos3
  deriving DecidableEq, Repr

/-- `ResizeOptions` (src/resize.rs:65-79). -/
structure Options where
  srcWidth : Nat
  srcHeight : Nat
  dstWidth : Nat
  dstHeight : Nat
  colorType : ColorType
  algorithm : Algorithm
  deriving DecidableEq, Repr

/-- `MAX_DIMENSION` (src/resize.rs:30). -/
def maxDimension : Nat := 1 <<< 24

/-- What the functions of the standard library and the threads are free in: `f32::sin`, whose result is
a finite number for the finite arguments here, and the order of rows in the two passes of Lanczos
(`none` without the `parallel` feature). -/
structure Env where
  sin : Int → Int
  horizontal : Option (List Nat)
  vertical : Option (List Nat)

/-- `v.round().clamp(0.0, 255.0) as u8`. -/
def toByte (v : Int) : UInt8 := clampU8 (F32.round v)

/-- `&data[start..start + len]`. -/
def slice (data : List UInt8) (start len : Nat) : R (List UInt8) :=
  if start + len ≤ data.length then .ok ((data.drop start).take len) else .error .panic

/-! ### Nearest neighbour -/

/-- The source coordinate (src/resize.rs:307-318):
`((d as f32 + 0.5) * ratio - 0.5).round().max(0.0).min((src - 1) as f32) as usize`. -/
def nearestIndex (src dst d : Nat) : Nat :=
  let ratio := F32.div (F32.ofInt src) (F32.ofInt dst)
  let v := F32.round (F32.sub (F32.mul (F32.add (F32.ofInt d) (F32.lit 1 2)) ratio) (F32.lit 1 2))
  (min (max v 0) (F32.floor (F32.ofInt ((src - 1 : Nat) : Int)))).toNat

/-- `resize_nearest` (src/resize.rs:299-330). -/
def nearest (data : List UInt8) (sw sh dw dh bpp : Nat) : R (List UInt8) := do
  let rows ← (List.range dh).mapM (fun y => do
    let sy := nearestIndex sh dh y
    let pixels ← (List.range dw).mapM (fun x =>
      slice data ((sy * sw + nearestIndex sw dw x) * bpp) bpp)
    return pixels.flatten)
  return rows.flatten

/-! ### Bilinear -/

/-- `x_ratio`, `y_ratio` (src/resize.rs:342-351). -/
def bilinearRatio (src dst : Nat) : Int :=
  if dst > 1 then F32.div (F32.ofInt ((src - 1 : Nat) : Int)) (F32.ofInt ((dst - 1 : Nat) : Int)) else 0

/-- The source coordinate as an `f32` (src/resize.rs:354, 360). -/
def coordinate (src dst d : Nat) : Int := F32.mul (F32.ofInt d) (bilinearRatio src dst)

/-- The two taps and the fraction (src/resize.rs:355-357, 361-363). -/
def taps (src dst d : Nat) : Nat × Nat × Int :=
  let f := coordinate src dst d
  let i0 := (F32.floor f).toNat
  (i0, min (i0 + 1) (src - 1), F32.sub f (F32.ofInt i0))

/-- `a * (1.0 - t) + b * t` (src/resize.rs:381-383). -/
def lerp (a b t : Int) : Int :=
  F32.add (F32.mul a (F32.sub (F32.lit 1 1) t)) (F32.mul b t)

/-- The new byte from four old ones (src/resize.rs:375-385). -/
def bilinearByte (p00 p01 p10 p11 : UInt8) (xf yf : Int) : UInt8 :=
  let top := lerp (F32.ofInt p00.toNat) (F32.ofInt p01.toNat) xf
  let bottom := lerp (F32.ofInt p10.toNat) (F32.ofInt p11.toNat) xf
  toByte (lerp top bottom yf)

/-- `resize_bilinear` (src/resize.rs:333-389). -/
def bilinear (data : List UInt8) (sw sh dw dh bpp : Nat) : R (List UInt8) := do
  let rows ← (List.range dh).mapM (fun y => do
    let (y0, y1, yf) := taps sh dh y
    let pixels ← (List.range dw).mapM (fun x => do
      let (x0, x1, xf) := taps sw dw x
      (List.range bpp).mapM (fun c => do
        let p00 ← getChecked data ((y0 * sw + x0) * bpp + c)
        let p01 ← getChecked data ((y0 * sw + x1) * bpp + c)
        let p10 ← getChecked data ((y1 * sw + x0) * bpp + c)
        let p11 ← getChecked data ((y1 * sw + x1) * bpp + c)
        return bilinearByte p00 p01 p10 p11 xf yf))
    return pixels.flatten)
  return rows.flatten

/-! ### Lanczos -/

/-- `f32::consts::PI`. -/
def pi : Int := 13176795 * 2 ^ 127

/-- `f32::EPSILON`, `2^-23`. -/
def epsilon : Int := 2 ^ 126

/-- `a / b` for `b` of either sign. -/
def divS (a b : Int) : Int := if 0 ≤ b then F32.div a b else F32.div (-a) (-b)

/-- `lanczos_kernel` (src/resize.rs:393-403) with `a` 3. -/
def kernel (sin : Int → Int) (x : Int) : Int :=
  if (x.natAbs : Int) < epsilon then F32.lit 1 1
  else if (x.natAbs : Int) ≥ F32.lit 3 1 then 0
  else
    let px := F32.mul pi x
    let pxa := divS (F32.mul pi x) (F32.lit 3 1)
    divS (F32.mul (F32.mul (F32.lit 3 1) (sin px)) (sin pxa)) (F32.mul px pxa)

/-- `Contribution` (src/resize.rs:407-412). -/
structure Contribution where
  start : Nat
  weights : List Int

/-- One round of the loop of `precompute_contributions` (src/resize.rs:427-456). `end - start` would
underflow for an empty range. -/
def contribution (sin : Int → Int) (src dst d : Nat) : R Contribution :=
  let scale := F32.div (F32.ofInt src) (F32.ofInt dst)
  let filterScale := max scale (F32.lit 1 1)
  let support := F32.mul (F32.lit 3 1) filterScale
  let center := F32.sub (F32.mul (F32.add (F32.ofInt d) (F32.lit 1 2)) scale) (F32.lit 1 2)
  let start := (F32.floor (F32.sub center support)).toNat
  let stop := min ((F32.ceil (F32.add center support)).toNat + 1) src
  if stop < start then .error .panic
  else
    let weights := (List.range (stop - start)).map (fun i =>
      kernel sin (F32.div (F32.sub (F32.ofInt ((start + i : Nat) : Int)) center) filterScale))
    let sum := weights.foldl F32.add 0
    .ok ⟨start, if (sum.natAbs : Int) > epsilon then weights.map (fun w => divS w sum) else weights⟩

/-- `precompute_contributions` (src/resize.rs:416-456). -/
def contributions (sin : Int → Int) (src dst : Nat) : R (List Contribution) :=
  (List.range dst).mapM (contribution sin src dst)

/-- A weighted sum of the bytes at `base + i * stride` (src/resize.rs:470-482, 499-511), one channel. -/
def weighted (bytes : List UInt8) (base stride : Nat) : List Int → Nat → Int → R Int
  | [], _, sum => .ok sum
  | w :: ws, i, sum => do
    let b ← getChecked bytes (base + i * stride)
    weighted bytes base stride ws (i + 1) (F32.add sum (F32.mul (F32.ofInt b.toNat) w))

/-- `resample_row_horizontal` (src/resize.rs:460-484). -/
def horizontalRow (row : List UInt8) (cs : List Contribution) (bpp : Nat) : R (List UInt8) := do
  let pixels ← cs.mapM (fun k => (List.range bpp).mapM (fun c => do
    let sum ← weighted row (k.start * bpp + c) bpp k.weights 0 0
    return toByte sum))
  return pixels.flatten

/-- `resample_column_vertical` (src/resize.rs:488-513). -/
def verticalRow (temp : List UInt8) (k : Contribution) (width bpp : Nat) : R (List UInt8) := do
  let pixels ← (List.range width).mapM (fun x => (List.range bpp).mapM (fun c => do
    let sum ← weighted temp (k.start * (width * bpp) + x * bpp + c) (width * bpp) k.weights 0 0
    return toByte sum))
  return pixels.flatten

/-- `resize_lanczos3` (src/resize.rs:517-602). -/
def lanczos3 (env : Env) (data : List UInt8) (sw sh dw dh bpp : Nat) : R (List UInt8) := do
  let hc ← contributions env.sin sw dw
  let vc ← contributions env.sin sh dh
  let temp ← Parallel.loop env.horizontal sh (fun y => do
    let row ← slice data (y * (sw * bpp)) (sw * bpp)
    horizontalRow row hc bpp)
  let out ← Parallel.loop env.vertical dh (fun y => do
    let k ← getChecked vc y
    verticalRow temp.flatten k dw bpp)
  return out.flatten

/-! ### The interface -/

/-- The checks of `resize_impl` (src/resize.rs:205-250); the products do not overflow. -/
def validate (data : List UInt8) (o : Options) : R Unit :=
  if o.srcWidth = 0 ∨ o.srcHeight = 0 then .error (.dimensions o.srcWidth o.srcHeight)
  else if o.dstWidth = 0 ∨ o.dstHeight = 0 then .error (.dimensions o.dstWidth o.dstHeight)
  else if o.srcWidth > maxDimension ∨ o.srcHeight > maxDimension ∨ o.dstWidth > maxDimension ∨
      o.dstHeight > maxDimension then
    .error (.tooLarge (max o.srcWidth o.dstWidth) (max o.srcHeight o.dstHeight) maxDimension)
  else
    let expected := o.srcWidth * o.srcHeight * o.colorType.bytesPerPixel
    if data.length ≠ expected then .error (.dataLength expected data.length) else .ok ()

/-- The dispatch (src/resize.rs:261-293). -/
def run (env : Env) (data : List UInt8) (o : Options) : R (List UInt8) :=
  let bpp := o.colorType.bytesPerPixel
  match o.algorithm with
  | .nearest => nearest data o.srcWidth o.srcHeight o.dstWidth o.dstHeight bpp
  | .bilinear => bilinear data o.srcWidth o.srcHeight o.dstWidth o.dstHeight bpp
  | .lanczos3 => lanczos3 env data o.srcWidth o.srcHeight o.dstWidth o.dstHeight bpp

/-- `resize_into` (src/resize.rs:180-191, 195-296): the result and the buffer afterwards, which a failed
check leaves alone. (After a panic the buffer is whatever was written; modelled as empty.) -/
def resizeInto (env : Env) (output data : List UInt8) (o : Options) : R Unit × List UInt8 :=
  match validate data o with
  | .error e => (.error e, output)
  | .ok _ =>
    match run env data o with
    | .error e => (.error e, [])
    | .ok bytes => (.ok (), bytes)

/-- `resize` (src/resize.rs:163-167). -/
def resize (env : Env) (data : List UInt8) (o : Options) : R (List UInt8) :=
  match resizeInto env [] data o with
  | (.error e, _) => .error e
  | (.ok _, bytes) => .ok bytes

end Pixo.Resize
