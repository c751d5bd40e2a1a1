import Verif.Model.Palette
/-
Model of the palette quantization in src/png/mod.rs:1153-1762. Colours are `Rgba` tuples.

Left open: the order `sort_unstable_by` gives to colours of equal count (`tie`), and the f32
error diffusion (`adjust`: any channel values the clamped sums may take, per pixel).
-/
namespace Pixo.Quantize
open Pixo.Palette (Rgba key unkey sortBy sortKeys)
open Pixo.PngDecode (chunksExact)
open Pixo.MatchLength (slice)

/-- What the model leaves open. -/
structure Env where
  tie : Nat → Nat
  adjust : Nat → UInt8 × UInt8 × UInt8

/-- `ColorCount` (src/png/mod.rs:1153-1157). -/
structure ColorCount where
  rgba : Rgba
  count : Nat
  deriving DecidableEq

/-- Channel 0 to 3 of a colour, as in the key of `split` (src/png/mod.rs:1247-1252). -/
def channel (c : Rgba) : Nat → Nat
  | 0 => c.1.toNat
  | 1 => c.2.1.toNat
  | 2 => c.2.2.1.toNat
  | _ => c.2.2.2.toNat

/-- `max - min` of a channel over the colours of a box; the minimum starts at 255 and the maximum
at 0 (src/png/mod.rs:1173-1204, 1212-1215). The fields of `ColorBox` other than the colours are
functions of them and are computed here. The u8 subtraction panics for a box without colours. -/
def spread (box : List ColorCount) (ch : Nat) : R Nat :=
  let lo := box.foldl (fun m c => min m (channel c.rgba ch)) 255
  let hi := box.foldl (fun m c => max m (channel c.rgba ch)) 0
  Lz77.subUsize hi lo

/-- One comparison `if score > max_score` (src/png/mod.rs:1225-1236). -/
def better (best : Nat × Nat) (ch score : Nat) : Nat × Nat :=
  if score > best.2 then (ch, score) else best

/-- `ColorBox::range` (src/png/mod.rs:1211-1238). -/
def range (box : List ColorCount) : R (Nat × Nat) := do
  let r ← spread box 0
  let g ← spread box 1
  let b ← spread box 2
  let a ← spread box 3
  return better (better (better (0, r * 2) 1 (g * 4)) 2 b) 3 (a * 3)

/-- `colors.iter().map(|c| c.count).sum()` as u32 (src/png/mod.rs:1254). -/
def totalCount : List ColorCount → Nat → R Nat
  | [], acc => .ok acc
  | c :: cs, acc => do
    let acc ← addU32 acc c.count
    totalCount cs acc

/-- The search for the split point (src/png/mod.rs:1255-1263). -/
def splitIndex (half : Nat) : List ColorCount → Nat → Nat → R Nat
  | [], _, _ => .ok 0
  | c :: cs, i, acc => do
    let acc ← addU32 acc c.count
    if acc ≥ half then return i else splitIndex half cs (i + 1) acc

/-- `ColorBox::split` (src/png/mod.rs:1244-1272). -/
def split (box : List ColorCount) : R (List ColorCount × List ColorCount) := do
  let (ch, _) ← range box
  let colors := sortBy (fun a b => channel a.rgba ch < channel b.rgba ch) box
  let total ← totalCount colors 0
  let i ← splitIndex (total / 2) colors 0 0
  let i := min i (colors.length - 2)
  if i + 1 ≤ colors.length then return (colors.take (i + 1), colors.drop (i + 1)) else .error .panic

/-- The sum of a channel weighted with the counts (src/png/mod.rs:1275-1288); u64 sums of at most
8192 terms below 2^40 do not overflow. -/
def weighted (box : List ColorCount) (ch : Nat) : Nat :=
  (box.map fun c => channel c.rgba ch * c.count).sum

/-- The sum of the counts. -/
def weight (box : List ColorCount) : Nat := (box.map ColorCount.count).sum

/-- `[(r_sum / total) as u8, ..]` (src/png/mod.rs:1292-1297, 1381-1386). -/
def mean (box : List ColorCount) : Rgba :=
  (UInt8.ofNat (weighted box 0 / weight box), UInt8.ofNat (weighted box 1 / weight box),
    UInt8.ofNat (weighted box 2 / weight box), UInt8.ofNat (weighted box 3 / weight box))

/-- `make_palette_entry` (src/png/mod.rs:1274-1298). -/
def paletteEntry (box : List ColorCount) : Rgba :=
  if weight box = 0 then (0, 0, 0, 255) else mean box

/-- `max_by_key` over the boxes: the last of the largest (src/png/mod.rs:1312-1319). -/
def widest : List (List ColorCount) → Nat → Option (Nat × Nat) → R (Option (Nat × Nat))
  | [], _, best => .ok best
  | b :: bs, i, best => do
    let (_, r) ← range b
    match best with
    | none => widest bs (i + 1) (some (i, r))
    | some (j, s) => widest bs (i + 1) (some (if r ≥ s then (i, r) else (j, s)))

/-- `if !b.colors.is_empty() { boxes.push(b) }` (src/png/mod.rs:1325-1330). -/
def pushBox (boxes : List (List ColorCount)) (b : List ColorCount) : List (List ColorCount) :=
  if b.isEmpty then boxes else boxes ++ [b]

/-- The loop of `median_cut_palette` (src/png/mod.rs:1310-1331). -/
def cutLoop (maxColors : Nat) : Nat → List (List ColorCount) → R (List (List ColorCount))
  | 0, _ => .error .hang
  | fuel + 1, boxes =>
    if boxes.length < maxColors then do
      match ← widest boxes 0 none with
      | none => .error .panic
      | some (idx, _) => do
        let b ← getChecked boxes idx
        if b.length > 1 then do
          let (l, r) ← split b
          cutLoop maxColors fuel (pushBox (pushBox (boxes.eraseIdx idx) l) r)
        else return boxes
    else .ok boxes

/-- `perceptual_distance_sq` (src/png/mod.rs:1405-1430). The i32 values stay below 2^28. -/
def distance (c1 c2 : Rgba) : Nat :=
  let d (ch : Nat) : Int := (channel c1 ch : Int) - (channel c2 ch : Int)
  let rMean : Int := ((channel c1 0 : Int) + (channel c2 0 : Int)) / 2
  let dist := ((512 + rMean) * d 0 * d 0 + 1024 * d 1 * d 1 + (767 - rMean) * d 2 * d 2) / 256
  (dist + d 3 * d 3).toNat

/-- The search loop shared by `refine_palette_kmeans` (src/png/mod.rs:1359-1367) and
`nearest_palette_index` (1433-1441): the first entry at the least distance. -/
def nearestLoop (color : Rgba) : List Rgba → Nat → Nat → Nat → Nat
  | [], _, best, _ => best
  | p :: ps, i, best, dist =>
    if distance color p < dist then nearestLoop color ps (i + 1) i (distance color p)
    else nearestLoop color ps (i + 1) best dist

/-- The index of the nearest entry, starting from `u32::MAX`. -/
def nearest (color : Rgba) (palette : List Rgba) : Nat := nearestLoop color palette 0 0 (2 ^ 32 - 1)

/-- `nearest_palette_index` (src/png/mod.rs:1432-1443): the index is cast to u8. -/
def nearestIndex (color : Rgba) (palette : List Rgba) : UInt8 := UInt8.ofNat (nearest color palette)

/-- One iteration of `refine_palette_kmeans` (src/png/mod.rs:1353-1389): every entry becomes the
mean of the colours nearest to it, if there are any with a positive count. The accumulators are
the weighted sums over those colours. -/
def refineOnce (palette : List Rgba) (colors : List ColorCount) : List Rgba :=
  palette.zipIdx.map fun p =>
    let own := colors.filter fun c => nearest c.rgba palette = p.2
    if weight own > 0 then mean own else p.1

/-- `refine_palette_kmeans` (src/png/mod.rs:1346-1390): two iterations. -/
def refine (palette : List Rgba) (colors : List ColorCount) : List Rgba :=
  if palette.isEmpty ∨ colors.isEmpty then palette
  else refineOnce (refineOnce palette colors) colors

/-- `median_cut_palette` (src/png/mod.rs:1301-1339). -/
def medianCut (colors : List ColorCount) (maxColors : Nat) : R (List Rgba) :=
  if colors.isEmpty then .ok [(0, 0, 0, 255)]
  else do
    let boxes ← cutLoop maxColors (maxColors + 1) [colors]
    return refine (boxes.map paletteEntry) colors

/-- `(v << 2) | (v >> 4)` for a 6-bit value (src/png/mod.rs:1468-1470). -/
def expand6 (v : UInt8) : UInt8 := (v <<< 2) ||| (v >>> 4)

/-- `PaletteLut::lookup` (src/png/mod.rs:1486-1499). The table of `PaletteLut::new` (1457-1483) is
modelled as the function that computes its entries: index `(r6 << 12) | (g6 << 6) | b6` holds the
index nearest to the expanded colour. -/
def lookup (palette : List Rgba) (c : Rgba) : UInt8 :=
  if c.2.2.2 = 255 then
    nearestIndex (expand6 (c.1 >>> 2), expand6 (c.2.1 >>> 2), expand6 (c.2.2.1 >>> 2), 255) palette
  else nearestIndex c palette

/-- `match (bpp, chunk)` (src/png/mod.rs:1529-1535 etc.): the colour of a chunk of 3 or 4 bytes,
anything else is `unreachable!`. -/
def pixel : List UInt8 → R Rgba
  | [r, g, b] => .ok (r, g, b, 255)
  | [r, g, b, a] => .ok (r, g, b, a)
  | _ => .error .panic

/-- The sampling loop (src/png/mod.rs:1526-1538, 1720-1740): the keys of every `stride`-th pixel. -/
def sampleLoop (data : List UInt8) (bpp stride : Nat) : Nat → Nat → R (List Nat)
  | 0, _ => .error .hang
  | fuel + 1, idx =>
    if idx + bpp ≤ data.length then do
      let chunk ← slice data idx bpp
      let c ← pixel chunk
      let rest ← sampleLoop data bpp stride fuel (idx + stride * bpp)
      return key c :: rest
    else .ok []

/-- u32 `saturating_add`. -/
def satAdd (a b : Nat) : Nat := min (a + b) (2 ^ 32 - 1)

/-- The run-length loop (src/png/mod.rs:1546-1572), from the second key on. -/
def histLoop (stride : Nat) : List Nat → Nat → Nat → List ColorCount
  | [], prev, count => [⟨unkey prev, count⟩]
  | k :: ks, prev, count =>
    if k = prev then histLoop stride ks prev (satAdd count (stride % 2 ^ 32))
    else ⟨unkey prev, count⟩ :: histLoop stride ks k (stride % 2 ^ 32)

/-- The histogram of the sorted keys (src/png/mod.rs:1541-1573). -/
def histogram (stride : Nat) (keys : List Nat) : List ColorCount :=
  match keys with
  | [] => []
  | k :: ks => histLoop stride ks k (stride % 2 ^ 32)

/-- `sort_unstable_by(count descending)` and `truncate` (src/png/mod.rs:1576-1580). -/
def truncateHist (env : Env) (colors : List ColorCount) : List ColorCount :=
  if colors.length > 8192 then
    ((sortBy (fun a b => a.1.count > b.1.count ∨ (a.1.count = b.1.count ∧ env.tie a.2 < env.tie b.2))
      colors.zipIdx).map Prod.fst).take 8192
  else colors

/-- The lookup `binary_search_by_key(..).map(..).unwrap_or_else(..)` (src/png/mod.rs:1607-1610) in
the palette sorted by key; keys of the palette are distinct, so it finds the entry with the key. -/
def exactIndex (palette : List Rgba) (c : Rgba) : UInt8 :=
  match (palette.map key).idxOf? (key c) with
  | some i => UInt8.ofNat i
  | none => nearestIndex c palette

/-- One step of the dithering loop (src/png/mod.rs:1645-1698): the adjusted channels are open, the
alpha is kept; `palette[idx]` is read for the error. -/
def ditherLoop (env : Env) (palette : List Rgba) : List Rgba → Nat → R (List UInt8)
  | [], _ => .ok []
  | c :: cs, i => do
    let (r, g, b) := env.adjust i
    let idx := lookup palette (r, g, b, c.2.2.2)
    let _ ← getChecked palette idx.toNat
    let rest ← ditherLoop env palette cs (i + 1)
    return idx :: rest

/-- The part of `quantize_image` after the histogram (src/png/mod.rs:1582-1700). With the data
length checked by the caller, the dithering loops over rows and columns visit the pixels in
order. -/
def quantizeWith (env : Env) (px : List Rgba) (colors : List ColorCount) (maxColors : Nat)
    (dithering : Bool) : R (List Rgba × List UInt8) :=
  if colors.length ≤ maxColors then
    let palette := colors.map ColorCount.rgba
    .ok (palette, px.map (exactIndex palette))
  else do
    let palette ← medianCut colors maxColors
    if dithering then do
      let indices ← ditherLoop env palette px 0
      return (palette, indices)
    else return (palette, px.map (lookup palette))

/-- `quantize_image` (src/png/mod.rs:1505-1701): palette and indices. -/
def quantizeImage (env : Env) (data : List UInt8) (ct : ColorType) (maxColors : Nat)
    (dithering : Bool) : R (List Rgba × List UInt8) :=
  let bpp := ct.bytesPerPixel
  if bpp ≠ 3 ∧ bpp ≠ 4 then .error .colorType
  else do
    let total := data.length / bpp
    let stride := max (total / 50000) 1
    let keys ← sampleLoop data bpp stride (total + 1) 0
    let colors := truncateHist env (histogram stride (sortKeys keys))
    let px ← (chunksExact bpp data).mapM pixel
    quantizeWith env px colors maxColors dithering

/-- The loop counting distinct keys (src/png/mod.rs:1747-1757); `none` when the threshold is
passed. -/
def uniqueLoop (threshold : Nat) : List Nat → Nat → Nat → Option Nat
  | [], _, count => some count
  | k :: ks, prev, count =>
    if k ≠ prev then
      if count + 1 > threshold then none else uniqueLoop threshold ks k (count + 1)
    else uniqueLoop threshold ks k count

/-- The number of distinct sorted keys. -/
def unique (threshold : Nat) (keys : List Nat) : Option Nat :=
  match keys with
  | [] => some 0
  | k :: ks => uniqueLoop threshold ks k 1

/-- `should_quantize_auto` (src/png/mod.rs:1708-1762). For 3 bytes per pixel the key omits the
constant alpha, which changes neither order nor equality; the model uses the same key. -/
def shouldQuantizeAuto (data : List UInt8) (bpp maxColors : Nat) : R Bool :=
  let total := data.length / bpp
  if total = 0 then .ok false
  else if bpp ≠ 3 ∧ bpp ≠ 4 then .ok false
  else do
    let stride := max (total / 20000) 1
    let keys ← sampleLoop data bpp stride (total + 1) 0
    let threshold := maxColors * 32
    match unique threshold (sortKeys keys) with
    | none => return false
    | some u => return u > maxColors && u ≤ threshold

end Pixo.Quantize
