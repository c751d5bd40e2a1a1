import Verif.Model.F32
import Verif.Model.Quantize
/-
The Floyd–Steinberg loop of `quantize_image` (src/png/mod.rs:1634-1700) with its f32 arithmetic,
which Model/Quantize.lean leaves open (`Env.adjust`). The three channels do not interact, so the
updates of one channel are done together.
-/
namespace Pixo.Quantize
open Pixo.Palette (Rgba)
open Pixo.PngDecode (chunksExact)
open Pixo.F32 (lit ofInt)

/-- `err_r`, `err_g`, `err_b` (src/png/mod.rs:1638-1640) or `next_err_*` (1641-1643). -/
structure Errs where
  r : List Int
  g : List Int
  b : List Int

/-- `vec![0f32; width + 2]` three times (src/png/mod.rs:1638-1643), also `fill(0.0)` (1693-1695). -/
def noErrs (w : Nat) : Errs :=
  ⟨List.replicate (w + 2) 0, List.replicate (w + 2) 0, List.replicate (w + 2) 0⟩

/-- `(v as f32 + err[x + 1]).clamp(0.0, 255.0) as u8` (src/png/mod.rs:1663-1665). -/
def adjusted (v : UInt8) (err : List Int) (x : Nat) : R UInt8 := do
  let e ← getChecked err (x + 1)
  let s := F32.add (ofInt v.toNat) e
  return UInt8.ofNat (F32.floor (max 0 (min (lit 255 1) s))).toNat

/-- `l[i] += d`. -/
def bump (l : List Int) (i : Nat) (d : Int) : R (List Int) := do
  let v ← getChecked l i
  return l.set i (F32.add v d)

/-- `e * k / 16.0`. -/
def part (e : Int) (k : Nat) : Int := F32.div (F32.mul e (lit k 1)) (lit 16 1)

/-- `adj as f32 - p as f32` (src/png/mod.rs:1672-1674). -/
def errorOf (adj p : UInt8) : Int := F32.sub (ofInt adj.toNat) (ofInt p.toNat)

/-- One channel of the distribution of an error (src/png/mod.rs:1676-1691): the new `err` and
`next_err`. -/
def distribute (err next : List Int) (x : Nat) (e : Int) : R (List Int × List Int) := do
  let err ← bump err (x + 2) (part e 7)
  let next ← bump next x (part e 3)
  let next ← bump next (x + 1) (part e 5)
  let next ← bump next (x + 2) (part e 1)
  return (err, next)

/-- The body of the inner loop (src/png/mod.rs:1648-1691) for a pixel already read. -/
def ditherPixel (palette : List Rgba) (c : Rgba) (x : Nat) (err next : Errs) : R (UInt8 × Errs × Errs) := do
  let r ← adjusted c.1 err.r x
  let g ← adjusted c.2.1 err.g x
  let b ← adjusted c.2.2.1 err.b x
  let idx := lookup palette (r, g, b, c.2.2.2)
  let p ← getChecked palette idx.toNat
  let (er, nr) ← distribute err.r next.r x (errorOf r p.1)
  let (eg, ng) ← distribute err.g next.g x (errorOf g p.2.1)
  let (eb, nb) ← distribute err.b next.b x (errorOf b p.2.2.1)
  return (idx, ⟨er, eg, eb⟩, ⟨nr, ng, nb⟩)

/-- The inner loop from column `x` on, `n` columns left (src/png/mod.rs:1647-1692); `px` holds the
pixels, `data[pos..]` is pixel `start + x`. -/
def ditherRow (palette px : List Rgba) (start : Nat) : Nat → Nat → Errs → Errs → R (List UInt8 × Errs)
  | 0, _, _, next => .ok ([], next)
  | n + 1, x, err, next => do
    let c ← getChecked px (start + x)
    let (idx, err, next) ← ditherPixel palette c x err next
    let (rest, next) ← ditherRow palette px start n (x + 1) err next
    return (idx :: rest, next)

/-- The outer loop from row `y` on, `n` rows left (src/png/mod.rs:1646-1699). `err` is cleared and
then swapped with `next_err`. -/
def ditherRows (palette px : List Rgba) (w : Nat) : Nat → Nat → Errs → R (List UInt8)
  | 0, _, _ => .ok []
  | n + 1, y, err => do
    let (row, next) ← ditherRow palette px (y * w) w 0 err (noErrs w)
    let rest ← ditherRows palette px w n (y + 1) next
    return row ++ rest

/-- `quantize_image` (src/png/mod.rs:1505-1701) with the error diffusion: `tie` is the order of
colours of equal count. -/
def quantizeExact (tie : Nat → Nat) (data : List UInt8) (w h : Nat) (ct : ColorType) (maxColors : Nat)
    (dithering : Bool) : R (List Rgba × List UInt8) :=
  let bpp := ct.bytesPerPixel
  if bpp ≠ 3 ∧ bpp ≠ 4 then .error .colorType
  else do
    let total := data.length / bpp
    let stride := max (total / 50000) 1
    let keys ← sampleLoop data bpp stride (total + 1) 0
    let colors := truncateHist ⟨tie, fun _ => (0, 0, 0)⟩ (histogram stride (Palette.sortKeys keys))
    let px ← (chunksExact bpp data).mapM pixel
    if colors.length ≤ maxColors ∨ ¬ dithering then
      quantizeWith ⟨tie, fun _ => (0, 0, 0)⟩ px colors maxColors dithering
    else do
      let palette ← medianCut colors maxColors
      let indices ← ditherRows palette px w h 0 (noErrs w)
      return (palette, indices)

end Pixo.Quantize
