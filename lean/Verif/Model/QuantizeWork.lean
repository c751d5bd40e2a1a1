import Verif.Model.InflateWork
import Verif.Model.Quantize
/-
How much work `quantize_image` does: the functions of Model/Quantize once more with the number of steps (`Counted` of Model/InflateWork). A step
is one round of a loop or one element that is copied or moved. Not counted are the comparisons of sorting and of the binary search, and
the rows of errors that are cleared while dithering.
-/
namespace Pixo.Quantize
open Pixo
open Pixo.Palette (Rgba key sortKeys)
open Pixo.PngDecode (chunksExact)
open Pixo.Inflate (Counted tick free)

/-- The loop of `median_cut_palette` (src/png/mod.rs:1310-1331): all boxes are compared (1312-1319), boxes move when one is removed (1323), and
each colour of that box is summed (1254), passed in the search (1257-1263), copied (1269-1270) and looked at for the ranges (1182-1192). -/
def cutLoopC (maxColors : Nat) : Nat → List (List ColorCount) → Counted (List (List ColorCount))
  | 0, _ => free (.error .hang)
  | fuel + 1, boxes =>
    if boxes.length < maxColors then do
      tick boxes.length
      match ← free (widest boxes 0 none) with
      | none => free (.error .panic)
      | some (idx, _) => do
        let b ← free (getChecked boxes idx)
        if b.length > 1 then do
          tick (boxes.length + 4 * b.length)
          let (l, r) ← free (split b)
          cutLoopC maxColors fuel (pushBox (pushBox (boxes.eraseIdx idx) l) r)
        else return boxes
    else return boxes

/-- `median_cut_palette` (src/png/mod.rs:1301-1339) and `refine_palette_kmeans` (1346-1390): colours are copied (1307), looked at for the
ranges (1309) and for the entries (1333); in each of two iterations the accumulators are made (1355), each colour is compared with
each entry and added (1358-1375), and the entries are set (1378-1388). -/
def medianCutC (colors : List ColorCount) (maxColors : Nat) : Counted (List Rgba) :=
  if colors.isEmpty then return [(0, 0, 0, 255)]
  else do
    tick (2 * colors.length)
    let boxes ← cutLoopC maxColors (maxColors + 1) [colors]
    tick (colors.length + boxes.length)
    tick (2 * (boxes.length + colors.length * (boxes.length + 1) + boxes.length))
    return refine (boxes.map paletteEntry) colors

/-- The rounds of `PaletteLut::lookup` (src/png/mod.rs:1486-1499): colours that are not opaque are compared with every entry. -/
def lookupSteps (palette : List Rgba) (c : Rgba) : Nat := if c.2.2.2 = 255 then 1 else 1 + palette.length

/-- The rounds of the exact lookup (src/png/mod.rs:1607-1610): a colour that is not found is compared with every entry. -/
def exactSteps (palette : List Rgba) (c : Rgba) : Nat :=
  match (palette.map key).idxOf? (key c) with
  | some _ => 1
  | none => 1 + palette.length

/-- The part of `quantize_image` after the histogram (src/png/mod.rs:1582-1700), with the tables made for the exact lookup (1584-1597), or
`PaletteLut::new` (1457-1483), which sets each of its 2^18 entries to zero and then compares with every entry of the palette. -/
def quantizeWithC (env : Env) (px : List Rgba) (colors : List ColorCount) (maxColors : Nat)
    (dithering : Bool) : Counted (List Rgba × List UInt8) :=
  if colors.length ≤ maxColors then do
    let palette := colors.map ColorCount.rgba
    tick (2 * colors.length)
    tick (px.map (exactSteps palette)).sum
    return (palette, px.map (exactIndex palette))
  else do
    let palette ← medianCutC colors maxColors
    tick (palette.length + 64 * 64 * 64 * (1 + palette.length))
    tick (px.map (lookupSteps palette)).sum
    if dithering then do
      let indices ← free (ditherLoop env palette px 0)
      return (palette, indices)
    else return (palette, px.map (lookup palette))

/-- `quantize_image` (src/png/mod.rs:1505-1701): keys are collected (1526-1538) and counted (1546-1561). -/
def quantizeImageC (env : Env) (data : List UInt8) (ct : ColorType) (maxColors : Nat)
    (dithering : Bool) : Counted (List Rgba × List UInt8) :=
  let bpp := ct.bytesPerPixel
  if bpp ≠ 3 ∧ bpp ≠ 4 then free (.error .colorType)
  else do
    let total := data.length / bpp
    let stride := max (total / 50000) 1
    let keys ← free (sampleLoop data bpp stride (total + 1) 0)
    tick (2 * keys.length)
    let colors := truncateHist env (histogram stride (sortKeys keys))
    let px ← free ((chunksExact bpp data).mapM pixel)
    quantizeWithC env px colors maxColors dithering

end Pixo.Quantize
