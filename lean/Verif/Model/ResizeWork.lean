import Verif.Model.InflateWork
import Verif.Model.Resize
/-
How much work `resize` does: Model/Resize once more with the number of steps (`Counted` of Model/InflateWork). A step is one round of an innermost
loop, one pixel of the result or of the intermediate image, or one byte that is set, whichever processor core does it. The steps of a loop
are counted before it runs.
-/
namespace Pixo.Resize
open Pixo
open Pixo.Inflate (Counted tick free)

/-- `precompute_contributions` (src/resize.rs:416-456): a round for each place, and for each weight one to compute (438-443) and one to
normalize it (446-450). -/
def contributionsC (sin : Int → Int) (src dst : Nat) : Counted (List Contribution) := do
  let cs ← free (contributions sin src dst)
  tick (cs.map (fun k => 1 + 2 * k.weights.length)).sum
  return cs

/-- The rounds for one pixel of either pass (src/resize.rs:466-483, 497-512): for each weight and each channel, and for each channel. -/
def pixelSteps (k : Contribution) (bpp : Nat) : Nat := 1 + k.weights.length * bpp + bpp

/-- `resize_lanczos3` (src/resize.rs:517-602), with the zeros of the intermediate image (532). -/
def lanczos3C (env : Env) (data : List UInt8) (sw sh dw dh bpp : Nat) : Counted (List UInt8) := do
  let hc ← contributionsC env.sin sw dw
  let vc ← contributionsC env.sin sh dh
  tick (sh * dw * bpp)
  tick (sh * (hc.map (pixelSteps · bpp)).sum)
  let temp ← free (Parallel.loop env.horizontal sh (fun y => do
    let row ← slice data (y * (sw * bpp)) (sw * bpp)
    horizontalRow row hc bpp))
  tick (dw * (vc.map (pixelSteps · bpp)).sum)
  let out ← free (Parallel.loop env.vertical dh (fun y => do
    let k ← getChecked vc y
    verticalRow temp.flatten k dw bpp))
  return out.flatten

/-- The dispatch (src/resize.rs:261-293); `resize_nearest` (299-330) and `resize_bilinear` (333-389) have one round for each pixel and one for
each of its bytes. -/
def runC (env : Env) (data : List UInt8) (o : Options) : Counted (List UInt8) :=
  let bpp := o.colorType.bytesPerPixel
  match o.algorithm with
  | .nearest => do
    tick (o.dstHeight * o.dstWidth * (1 + bpp))
    free (nearest data o.srcWidth o.srcHeight o.dstWidth o.dstHeight bpp)
  | .bilinear => do
    tick (o.dstHeight * o.dstWidth * (1 + bpp))
    free (bilinear data o.srcWidth o.srcHeight o.dstWidth o.dstHeight bpp)
  | .lanczos3 => lanczos3C env data o.srcWidth o.srcHeight o.dstWidth o.dstHeight bpp

/-- `resize` (src/resize.rs:163-167, 195-296), with the zeros of the result (262). -/
def resizeC (env : Env) (data : List UInt8) (o : Options) : Counted (List UInt8) := do
  free (validate data o)
  tick (o.dstWidth * o.dstHeight * o.colorType.bytesPerPixel)
  runC env data o

end Pixo.Resize
