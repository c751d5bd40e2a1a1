import Verif.Model.BitDepth
import Verif.Model.PngDecode
import Verif.Model.Adler32
import Verif.Model.Lz77
/-
Model of the palette reduction in src/png/mod.rs:838-1120. Counters are u32 and panic on
overflow, as in a build with overflow checks.
-/
namespace Pixo.Palette
open Pixo.PngDecode (chunksExact)

/-- A colour `[r, g, b, a]`. -/
abbrev Rgba := UInt8 × UInt8 × UInt8 × UInt8

/-- The key `r << 24 | g << 16 | b << 8 | a` (src/png/mod.rs:856-870). -/
def key (c : Rgba) : Nat :=
  (c.1.toNat <<< 24) ||| (c.2.1.toNat <<< 16) ||| (c.2.2.1.toNat <<< 8) ||| c.2.2.2.toNat

/-- `[(k >> 24) as u8, (k >> 16) as u8, (k >> 8) as u8, k as u8]` (src/png/mod.rs:887). -/
def unkey (k : Nat) : Rgba :=
  (UInt8.ofNat (k >>> 24), UInt8.ofNat (k >>> 16), UInt8.ofNat (k >>> 8), UInt8.ofNat k)

/-- The colour of one chunk of an RGB or RGBA image (src/png/mod.rs:856-870). -/
def pixelRgb (c : List UInt8) : R Rgba := do
  return (← getChecked c 0, ← getChecked c 1, ← getChecked c 2, 255)

def pixelRgba (c : List UInt8) : R Rgba := do
  return (← getChecked c 0, ← getChecked c 1, ← getChecked c 2, ← getChecked c 3)

/-- All pixels of an RGB or RGBA image, in order. -/
def pixels (data : List UInt8) (ct : ColorType) : R (List Rgba) :=
  match ct with
  | .rgb => (chunksExact 3 data).mapM pixelRgb
  | .rgba => (chunksExact 4 data).mapM pixelRgba
  | _ => .error .panic

/-- Insertion into a sorted list, before the elements that are not smaller. -/
def insertBy {α : Type} (lt : α → α → Bool) (x : α) : List α → List α
  | [] => [x]
  | y :: l => if lt y x then y :: insertBy lt x l else x :: y :: l

/-- A stable sort, the result demanded of `sort_by`. -/
def sortBy {α : Type} (lt : α → α → Bool) (l : List α) : List α := l.foldr (insertBy lt) []

/-- `sort_unstable` on u32 keys: equal keys are indistinguishable. -/
def sortKeys (l : List Nat) : List Nat := sortBy (fun a b => a < b) l

/-- `dedup`: removes repeated neighbours. -/
def dedup : List Nat → List Nat
  | a :: b :: l => if a = b then dedup (b :: l) else a :: dedup (b :: l)
  | l => l

/-- `binary_search(&key).unwrap()` on sorted distinct keys: the position of the key. -/
def search (keys : List Nat) (k : Nat) : R Nat :=
  match keys.idxOf? k with
  | some i => .ok i
  | none => .error .panic

/-! ### Ordering (src/png/mod.rs:909-1120) -/

/-- `matrix[a][b] += 1`. -/
def bump (m : List (List Nat)) (a b : Nat) : R (List (List Nat)) := do
  let row ← getChecked m a
  let v ← getChecked row b
  let v ← addU32 v 1
  let row ← setChecked row b v
  setChecked m a row

/-- One neighbour (src/png/mod.rs:959-962, 968-971). -/
def neighbour (m : List (List Nat)) (n val other : Nat) : R (List (List Nat)) :=
  if other < n then do
    let m ← bump m val other
    bump m other val
  else .ok m

/-- The right neighbour (src/png/mod.rs:957-963). -/
def rightNeighbour (indexed : List UInt8) (n width : Nat) (m : List (List Nat)) (rowStart x val : Nat) :
    R (List (List Nat)) :=
  if x + 1 < width then do
    let next ← getChecked indexed (rowStart + x + 1)
    neighbour m n val next.toNat
  else .ok m

/-- The neighbour below (src/png/mod.rs:966-972). -/
def belowNeighbour (indexed : List UInt8) (n width height : Nat) (m : List (List Nat))
    (y rowStart x val : Nat) : R (List (List Nat)) :=
  if y + 1 < height then do
    let below ← getChecked indexed (rowStart + width + x)
    neighbour m n val below.toNat
  else .ok m

/-- One pixel of `build_co_occurrence_matrix` (src/png/mod.rs:951-972). -/
def coPixel (indexed : List UInt8) (n width height : Nat) (m : List (List Nat)) (y x : Nat) :
    R (List (List Nat)) := do
  let val ← getChecked indexed (y * width + x)
  if val.toNat ≥ n then return m
  else do
    let m ← rightNeighbour indexed n width m (y * width) x val.toNat
    belowNeighbour indexed n width height m y (y * width) x val.toNat

/-- The pixels `x, x+1, ...` of row `y`. -/
def coRow (indexed : List UInt8) (n width height y : Nat) : Nat → Nat → List (List Nat) → R (List (List Nat))
  | _, 0, m => .ok m
  | x, k + 1, m => do
    let m ← coPixel indexed n width height m y x
    coRow indexed n width height y (x + 1) k m

/-- The rows `y, y+1, ...`. -/
def coRows (indexed : List UInt8) (n width height : Nat) : Nat → Nat → List (List Nat) → R (List (List Nat))
  | _, 0, m => .ok m
  | y, k + 1, m => do
    let m ← coRow indexed n width height y 0 width m
    coRows indexed n width height (y + 1) k m

/-- `build_co_occurrence_matrix` (src/png/mod.rs:940-977). -/
def coMatrix (indexed : List UInt8) (n width height : Nat) : R (List (List Nat)) :=
  coRows indexed n width height 0 height (List.replicate n (List.replicate n 0))

/-- The edges `(j, i)` with `j < i` of row `i` (src/png/mod.rs:983-987). -/
def rowEdges (i : Nat) (row : List Nat) : List ((Nat × Nat) × Nat) :=
  ((row.zipIdx.take i).filter fun p => p.1 > 0).map fun p => ((p.2, i), p.1)

/-- `weighted_edges` (src/png/mod.rs:980-991). -/
def weightedEdges (m : List (List Nat)) : List (Nat × Nat) :=
  let edges := m.zipIdx.flatMap fun p => rowEdges p.2 p.1
  (sortBy (fun a b => a.2 > b.2) edges).map Prod.fst

/-- `sums`, `best_sum_pos` and `best_sum` of `mzeng_reindex` (src/png/mod.rs:1008-1010). -/
structure Sums where
  sums : List (Nat × Nat)
  pos : Nat
  best : Nat × Nat

/-- `if sum > best_sum.1 { best_sum_pos = pos; best_sum = (i, sum) }` (src/png/mod.rs:1017-1020,
1050-1053). -/
def Sums.consider (s : Sums) (pos i sum : Nat) : Sums :=
  if sum > s.best.2 then { s with pos := pos, best := (i, sum) } else s

/-- The loop over the matrix rows (src/png/mod.rs:1012-1022). -/
def initSums (r0 r1 : Nat) : List (List Nat) → Nat → Sums → R Sums
  | [], _, s => .ok s
  | row :: rows, i, s =>
    if i = r0 ∨ i = r1 then initSums r0 r1 rows (i + 1) s
    else do
      let a ← getChecked row r0
      let b ← getChecked row r1
      let sum ← addU32 a b
      let t := s.consider s.sums.length i sum
      initSums r0 r1 rows (i + 1) { t with sums := s.sums ++ [(i, sum)] }

/-- `matrix[a][b]`. -/
def entry (m : List (List Nat)) (a b : Nat) : R Nat := do
  let row ← getChecked m a
  getChecked row b

/-- The delta loop (src/png/mod.rs:1030-1033). The isize values stay below 2^50 in magnitude. -/
def deltaLoop (m : List (List Nat)) (n : Int) (best : Nat) : Nat → List Nat → Int → R Int
  | _, [], d => .ok d
  | i, idx :: rest, d => do
    let w ← entry m best idx
    deltaLoop m n best (i + 1) rest (d + (n - 1 - 2 * i) * w)

/-- `swap_remove`: the last element takes the place of the removed one; panics out of range. -/
def swapRemove {α : Type} (l : List α) (i : Nat) : R (List α) :=
  if i < l.length then
    match l.getLast? with
    | some x => .ok ((l.set i x).dropLast)
    | none => .error .panic
  else .error .panic

/-- The update of the sums (src/png/mod.rs:1046-1054). -/
def updateSums (m : List (List Nat)) (best : Nat) : List (Nat × Nat) → Sums → R Sums
  | [], s => .ok s
  | (c, v) :: rest, s => do
    let w ← entry m best c
    let v ← addU32 v w
    let t := s.consider s.sums.length c v
    updateSums m best rest { t with sums := s.sums ++ [(c, v)] }

/-- `if delta > 0 { insert(0, ..) } else { push(..) }` (src/png/mod.rs:1035-1039). -/
def place (remapping : List Nat) (best : Nat) (delta : Int) : List Nat :=
  if delta > 0 then best :: remapping else remapping ++ [best]

/-- The `while` loop (src/png/mod.rs:1024-1056); every round removes one of the sums. -/
def zengLoop (m : List (List Nat)) (n : Nat) : Nat → List Nat → Sums → R (List Nat)
  | 0, _, _ => .error .hang
  | fuel + 1, remapping, s =>
    if s.sums.isEmpty then .ok remapping
    else do
      let placed ← Lz77.subUsize n s.sums.length
      let delta ← deltaLoop m placed s.best.1 0 remapping 0
      let rest ← swapRemove s.sums s.pos
      if rest.isEmpty then zengLoop m n fuel (place remapping s.best.1 delta) ⟨rest, s.pos, s.best⟩
      else do
        let t ← updateSums m s.best.1 rest ⟨[], 0, (0, 0)⟩
        zengLoop m n fuel (place remapping s.best.1 delta) t

/-- `mzeng_reindex` (src/png/mod.rs:998-1059). -/
def zengReindex (n : Nat) (edges : List (Nat × Nat)) (m : List (List Nat)) : R (List Nat) :=
  match edges with
  | [] => .ok (List.range n)
  | (a, b) :: _ =>
    if n = 0 then .ok (List.range n)
    else do
      let s ← initSums a b m 0 ⟨[], 0, (0, 0)⟩
      zengLoop m n (n + 1) [a, b] s

/-- `counts[val] += 1` for every index (src/png/mod.rs:1070-1072). -/
def countLoop : List UInt8 → List Nat → R (List Nat)
  | [], counts => .ok counts
  | v :: rest, counts => do
    let c ← getChecked counts v.toNat
    let c ← addU32 c 1
    let counts ← setChecked counts v.toNat c
    countLoop rest counts

/-- `max_by_key(|&(_, count)| count)`: the last of the largest (src/png/mod.rs:1075-1079). -/
def maxByCount : List (Nat × Nat) → Option (Nat × Nat) → Option (Nat × Nat)
  | [], best => best
  | p :: rest, none => maxByCount rest (some p)
  | p :: rest, some b => maxByCount rest (some (if p.2 ≥ b.2 then p else b))

/-- The rotation (src/png/mod.rs:1090-1095). -/
def rotateTo (remapping : List Nat) (pos : Nat) : List Nat :=
  if pos ≥ remapping.length / 2 then
    let r := remapping.reverse
    let k := r.length - (pos + 1)
    r.drop k ++ r.take k
  else remapping.drop pos ++ remapping.take pos

/-- `indexed.len() as u32 * 3 / 20` (src/png/mod.rs:1082): the conversion drops high bits, the
product may overflow. -/
def threshold (len : Nat) : R Nat :=
  if len % 2 ^ 32 * 3 < 2 ^ 32 then .ok (len % 2 ^ 32 * 3 / 20) else .error .panic

/-- `apply_most_popular_first` (src/png/mod.rs:1063-1099). -/
def popularFirst (indexed : List UInt8) (remapping : List Nat) : R (List Nat) :=
  if remapping.isEmpty ∨ indexed.isEmpty then .ok remapping
  else do
    let counts ← countLoop indexed (List.replicate 256 0)
    let pairs ← remapping.mapM fun i => do return (i, ← getChecked counts i)
    let best := (maxByCount pairs none).getD (0, 0)
    let t ← threshold indexed.length
    if best.2 < t then return remapping
    else
      match remapping.idxOf? best.1 with
      | some pos => return rotateTo remapping pos
      | none => return remapping

/-- `byte_map[old_idx] = new_idx as u8` (src/png/mod.rs:1111-1114). -/
def byteMapLoop : List Nat → Nat → List UInt8 → R (List UInt8)
  | [], _, map => .ok map
  | old :: rest, new, map => do
    let map ← setChecked map old (UInt8.ofNat new)
    byteMapLoop rest (new + 1) map

/-- `apply_remapping` (src/png/mod.rs:1102-1120). -/
def applyRemapping (indexed : List UInt8) (palette : List Rgba) (remapping : List Nat) :
    R (List UInt8 × List Rgba) := do
  let newPalette ← remapping.mapM (getChecked palette)
  let map ← byteMapLoop remapping 0 (List.replicate 256 0)
  let newIndexed ← indexed.mapM fun b => getChecked map b.toNat
  return (newIndexed, newPalette)

/-- `optimize_palette_order` (src/png/mod.rs:909-937). -/
def optimizeOrder (indexed : List UInt8) (palette : List Rgba) (width height : Nat) :
    R (List UInt8 × List Rgba) :=
  let n := palette.length
  if n ≤ 2 then .ok (indexed, palette)
  else do
    let m ← coMatrix indexed n width height
    let edges := weightedEdges m
    if edges.isEmpty then return (indexed, palette)
    else do
      let remapping ← zengReindex n edges m
      let remapping ← popularFirst indexed remapping
      applyRemapping indexed palette remapping

/-- The part of `build_palette` after collecting the keys (src/png/mod.rs:875-899). -/
def paletteOfKeys (keys : List Nat) (width height : Nat) : R (Option (List UInt8 × List Rgba)) :=
  let sorted := dedup (sortKeys keys)
  if sorted.length > 256 then .ok none
  else do
    let indices ← keys.mapM (search sorted)
    let r ← optimizeOrder (indices.map UInt8.ofNat) (sorted.map unkey) width height
    return some r

/-- `build_palette` (src/png/mod.rs:838-900): indices and palette, if there are at most 256
colours. -/
def buildPalette (data : List UInt8) (ct : ColorType) (width height : Nat) :
    R (Option (List UInt8 × List Rgba)) :=
  match ct with
  | .gray => .ok none
  | .grayAlpha => .ok none
  | ct => do
    let px ← pixels data ct
    paletteOfKeys (px.map key) width height

end Pixo.Palette
