import Verif.Model.Resize
/-
Model of src/resize.rs once more, for a machine whose `usize` has 32 bits (WebAssembly, for which src/wasm.rs is made), in a release build:
arithmetic wraps, allocations of 2^31 bytes or more panic, smaller ones succeed. There are no threads.

Not modelled: conversions of coordinates from `f32`; these are below 2^27, so that `isize` and `usize` of 32 bits hold them (`nearestIndex`, `taps`
and `contribution` are those of Model/Resize). The positions at which the new image is written are below its length, which does not wrap
(src/resize.rs:253-260), so they are left out as in Model/Resize; those of the rows of the intermediate image of Lanczos are checked.
-/
namespace Pixo.Resize32
open Pixo Pixo.Resize

/-- Arithmetic of `usize` wraps. -/
def w32 (n : Nat) : Nat := n % 2 ^ 32

/-- `&data[start..start + len]`: the end may wrap. -/
def slice32 (data : List UInt8) (start len : Nat) : R (List UInt8) :=
  if start ≤ w32 (start + len) ∧ w32 (start + len) ≤ data.length then .ok ((data.drop start).take (w32 (start + len) - start)) else .error .panic

/-- Allocation of `n` bytes: more than `isize::MAX` is a capacity overflow, which panics. -/
def alloc32 (n : Nat) : R Unit := if n < 2 ^ 31 then .ok () else .error .panic

/-- `resize_nearest` (src/resize.rs:299-330). -/
def nearest32 (data : List UInt8) (sw sh dw dh bpp : Nat) : R (List UInt8) := do
  let rows ← (List.range dh).mapM (fun y => do
    let sy := nearestIndex sh dh y
    let pixels ← (List.range dw).mapM (fun x =>
      slice32 data (w32 (w32 (w32 (sy * sw) + nearestIndex sw dw x) * bpp)) bpp)
    return pixels.flatten)
  return rows.flatten

/-- `(y * src_width + x) * bytes_per_pixel + c` (src/resize.rs:366-369, 375-378). -/
def index32 (y sw x bpp c : Nat) : Nat := w32 (w32 (w32 (w32 (y * sw) + x) * bpp) + c)

/-- `resize_bilinear` (src/resize.rs:333-389). -/
def bilinear32 (data : List UInt8) (sw sh dw dh bpp : Nat) : R (List UInt8) := do
  let rows ← (List.range dh).mapM (fun y => do
    let (y0, y1, yf) := taps sh dh y
    let pixels ← (List.range dw).mapM (fun x => do
      let (x0, x1, xf) := taps sw dw x
      (List.range bpp).mapM (fun c => do
        let p00 ← getChecked data (index32 y0 sw x0 bpp c)
        let p01 ← getChecked data (index32 y0 sw x1 bpp c)
        let p10 ← getChecked data (index32 y1 sw x0 bpp c)
        let p11 ← getChecked data (index32 y1 sw x1 bpp c)
        return bilinearByte p00 p01 p10 p11 xf yf))
    return pixels.flatten)
  return rows.flatten

/-- A weighted sum of the bytes at `(start + i) * stride + off + c` (src/resize.rs:470-482, 499-511), one channel. -/
def weighted32 (bytes : List UInt8) (start stride off c : Nat) : List Int → Nat → Int → R Int
  | [], _, sum => .ok sum
  | w :: ws, i, sum => do
    let b ← getChecked bytes (w32 (w32 (w32 (w32 (start + i) * stride) + off) + c))
    weighted32 bytes start stride off c ws (i + 1) (F32.add sum (F32.mul (F32.ofInt b.toNat) w))

/-- `resample_row_horizontal` (src/resize.rs:460-484). -/
def horizontalRow32 (row : List UInt8) (cs : List Contribution) (bpp : Nat) : R (List UInt8) := do
  let pixels ← cs.mapM (fun k => (List.range bpp).mapM (fun c => do
    let sum ← weighted32 row k.start bpp 0 c k.weights 0 0
    return toByte sum))
  return pixels.flatten

/-- `resample_column_vertical` (src/resize.rs:488-513). -/
def verticalRow32 (temp : List UInt8) (k : Contribution) (width bpp : Nat) : R (List UInt8) := do
  let pixels ← (List.range width).mapM (fun x => (List.range bpp).mapM (fun c => do
    let sum ← weighted32 temp k.start (w32 (width * bpp)) (w32 (x * bpp)) c k.weights 0 0
    return toByte sum))
  return pixels.flatten

/-- `&mut temp[temp_start..temp_start + temp_row_stride]` (src/resize.rs:562-563) of a buffer of `size` bytes. -/
def rowRange32 (size y stride : Nat) : R Unit :=
  if w32 (y * stride) ≤ w32 (w32 (y * stride) + stride) ∧ w32 (w32 (y * stride) + stride) ≤ size then .ok () else .error .panic

/-- `resize_lanczos3` (src/resize.rs:517-602) without the `parallel` feature. -/
def lanczos32 (sin : Int → Int) (data : List UInt8) (sw sh dw dh bpp : Nat) : R (List UInt8) := do
  let hc ← contributions sin sw dw
  let vc ← contributions sin sh dh
  let size := w32 (w32 (sh * dw) * bpp)
  alloc32 size
  let temp ← (List.range sh).mapM (fun y => do
    let row ← slice32 data (w32 (y * w32 (sw * bpp))) (w32 (sw * bpp))
    rowRange32 size y (w32 (dw * bpp))
    horizontalRow32 row hc bpp)
  let out ← (List.range dh).mapM (fun y => do
    let k ← getChecked vc y
    verticalRow32 temp.flatten k dw bpp)
  return out.flatten

/-- `a.checked_mul(b).and_then(|v| v.checked_mul(c))` (src/resize.rs:237-239, 253-255). -/
def checkedLen (a b c : Nat) : Option Nat := if a * b < 2 ^ 32 ∧ a * b * c < 2 ^ 32 then some (a * b * c) else none

/-- The checks of `resize_impl` (src/resize.rs:205-258): the length of the new image. -/
def validate32 (data : List UInt8) (o : Options) : R Nat :=
  if o.srcWidth = 0 ∨ o.srcHeight = 0 then .error (.dimensions o.srcWidth o.srcHeight)
  else if o.dstWidth = 0 ∨ o.dstHeight = 0 then .error (.dimensions o.dstWidth o.dstHeight)
  else if o.srcWidth > maxDimension ∨ o.srcHeight > maxDimension ∨ o.dstWidth > maxDimension ∨
      o.dstHeight > maxDimension then
    .error (.tooLarge (max o.srcWidth o.dstWidth) (max o.srcHeight o.dstHeight) maxDimension)
  else
    match checkedLen o.srcWidth o.srcHeight o.colorType.bytesPerPixel with
    | none => .error (.dataLength (2 ^ 32 - 1) data.length)
    | some expected =>
      if data.length ≠ expected then .error (.dataLength expected data.length)
      else
        match checkedLen o.dstWidth o.dstHeight o.colorType.bytesPerPixel with
        | none => .error (.dataLength (2 ^ 32 - 1) 0)
        | some n => .ok n

/-- `resize` (src/resize.rs:163-167, 195-296): `output.resize(output_len, 0)` (261) allocates. -/
def resize32 (sin : Int → Int) (data : List UInt8) (o : Options) : R (List UInt8) := do
  let n ← validate32 data o
  alloc32 n
  let bpp := o.colorType.bytesPerPixel
  match o.algorithm with
  | .nearest => nearest32 data o.srcWidth o.srcHeight o.dstWidth o.dstHeight bpp
  | .bilinear => bilinear32 data o.srcWidth o.srcHeight o.dstWidth o.dstHeight bpp
  | .lanczos3 => lanczos32 sin data o.srcWidth o.srcHeight o.dstWidth o.dstHeight bpp

end Pixo.Resize32
