import Verif.Model.JpegHuffman
import Verif.Model.JpegTables
/-
Model of `trellis_quantize` (src/jpeg/trellis.rs) for any `lambda`, which `quantize_dct` leaves out, and of
`trellis_quantize_adaptive`, which no other code calls. `f32` values are those of Model/F32; the state's
`parent` index stays below eight, so `as u16` is the identity. Tables hold integers, as those of the
encoder do.
-/
namespace Pixo.Jpeg
open Pixo

/-- `a - b` of `u8`. -/
def subU8 (a b : UInt8) : R UInt8 := if b ≤ a then .ok (a - b) else .error .panic

/-- `a + b` of `i16`. -/
def addI16 (a b : Int) : R Int :=
  if -32768 ≤ a + b ∧ a + b ≤ 32767 then .ok (a + b) else .error .panic

/-- `TrellisState` (src/jpeg/trellis.rs:32-41). -/
structure TrellisState where
  cost : Int
  zeroRun : Nat
  parent : Nat
  value : Int
  deriving DecidableEq, Repr

/-- `if v != 0 && !candidates.contains(&v) { candidates.push(v) }` (src/jpeg/trellis.rs:221-229). As 0
is the first candidate the test for it changes nothing, so this is also the last push (237-239). -/
def pushNew (l : List Int) (v : Int) : List Int := if l.contains v then l else l ++ [v]

/-- `generate_candidates` (src/jpeg/trellis.rs:209-243). -/
def candidates (x : Int) : R (List Int) := do
  let rounded := F32.toI16 (F32.round x)
  let floorVal := F32.toI16 (F32.floor x)
  let ceilVal := F32.toI16 (F32.ceil x)
  let l := pushNew (pushNew (pushNew [0] floorVal) rounded) ceilVal
  if F32.lit 3 2 < x.natAbs then do
    let extended ← if x ≥ 0 then addI16 ceilVal 1 else subI16 floorVal 1
    return pushNew l extended
  else return l

/-- `estimate_ac_huffman_length` (src/jpeg/trellis.rs:260-280). -/
def acLengthEstimate (rs : Nat) : Int :=
  match rs with
  | 0x00 => F32.lit 4 1
  | 0x01 => F32.lit 2 1
  | 0x02 => F32.lit 5 2
  | 0x03 => F32.lit 3 1
  | 0x04 => F32.lit 4 1
  | 0x11 => F32.lit 3 1
  | 0x12 => F32.lit 4 1
  | 0x21 => F32.lit 4 1
  | 0xF0 => F32.lit 10 1
  | _ => F32.add (F32.add (F32.lit 3 1) (F32.mul (F32.ofInt (rs >>> 4 : Nat)) (F32.lit 1 2)))
      (F32.mul (F32.ofInt (rs &&& 0x0F : Nat)) (F32.lit 3 10))

/-- `estimate_ac_rate` (src/jpeg/trellis.rs:245-258). -/
def acRate (value : Int) (zeroRun : Nat) : Int :=
  F32.add (acLengthEstimate ((zeroRun <<< 4) ||| category value)) (F32.ofInt (category value : Nat))

/-- The new state for a candidate after `parent` (src/jpeg/trellis.rs:108-141). `powi(2)` is one
multiplication. -/
def nextState (lambda coef q : Int) (parent : TrellisState) (index : Nat) (candidate : Int) : TrellisState :=
  let difference := F32.sub coef (F32.mul (F32.ofInt candidate) q)
  let distortion := F32.mul difference difference
  let newRun := min 255 (parent.zeroRun + 1)
  let (rate, zeroRun) :=
    if candidate = 0 then (if newRun ≥ 16 then (F32.lit 10 1, 0) else (0, newRun))
    else (acRate candidate parent.zeroRun, 0)
  ⟨F32.add (F32.add parent.cost rate) (F32.mul lambda distortion), zeroRun, index, candidate⟩

/-- Merge with a state of the same value and run, if there is one (src/jpeg/trellis.rs:143-152). -/
def mergeState (s : TrellisState) : List TrellisState → List TrellisState
  | [] => [s]
  | t :: ts =>
    if t.value = s.value ∧ t.zeroRun = s.zeroRun then (if s.cost < t.cost then s :: ts else t :: ts)
    else t :: mergeState s ts

/-- Insertion behind everything not costlier. -/
def insertState (s : TrellisState) : List TrellisState → List TrellisState
  | [] => [s]
  | t :: ts => if s.cost < t.cost then s :: t :: ts else t :: insertState s ts

/-- `sort_by` cost (src/jpeg/trellis.rs:157-161), which is stable. -/
def sortStates (l : List TrellisState) : List TrellisState := l.foldl (fun acc s => insertState s acc) []

/-- The states after one more coefficient (src/jpeg/trellis.rs:96-162), at most `MAX_STATES`. -/
def trellisStep (lambda coef q : Int) (states : List TrellisState) : R (List TrellisState) := do
  let cands ← candidates (F32.div coef q)
  let next := states.zipIdx.foldl (fun acc p =>
    cands.foldl (fun acc c => mergeState (nextState lambda coef q p.1 p.2 c) acc) acc) []
  return (sortStates next).take 8

/-- The loop over the coefficients (src/jpeg/trellis.rs:95-171): the columns of states, the last
first. -/
def trellisColumns (lambda : Int) : List (Int × Int) → List (List TrellisState) → R (List (List TrellisState))
  | [], cols => .ok cols
  | (coef, q) :: rest, cols => do
    let states ← trellisStep lambda coef q (cols.headD [])
    if states = [] then return states :: cols else trellisColumns lambda rest (states :: cols)

/-- The cost with that of the end of block (src/jpeg/trellis.rs:174-179). -/
def finalCost (s : TrellisState) : Int := if s.zeroRun > 0 then F32.add s.cost (F32.lit 4 1) else s.cost

/-- Index of the first state of least final cost (src/jpeg/trellis.rs:182-193): `(best, its cost)` so
far. -/
def bestIndex : List TrellisState → Nat → Option (Nat × Int) → Option Nat
  | [], _, best => best.map (·.1)
  | s :: ss, i, none => bestIndex ss (i + 1) (some (i, finalCost s))
  | s :: ss, i, some (b, cost) =>
    if finalCost s < cost then bestIndex ss (i + 1) (some (i, finalCost s)) else bestIndex ss (i + 1) (some (b, cost))

/-- The walk back (src/jpeg/trellis.rs:196-202) over columns, the last first: the values in order. -/
def backtrack : List (List TrellisState) → Nat → List Int → List Int
  | [], _, acc => acc
  | states :: cols, i, acc =>
    match states[i]? with
    | some s => backtrack cols s.parent (s.value :: acc)
    | none => backtrack cols i (0 :: acc)

/-- The values of the best path (src/jpeg/trellis.rs:181-202); none if there is no final state. -/
def trellisPath (cols : List (List TrellisState)) : List Int :=
  match bestIndex (cols.headD []) 0 none with
  | none => []
  | some i => backtrack cols.dropLast i []

/-- `trellis_quantize` with some `lambda` (src/jpeg/trellis.rs:66-207). The columns behind the first belong to zigzag
positions 1 to 63. (Without a final state all AC coefficients are zero; there always is one.) -/
def trellisQuantizeWith (lambda : Int) (dct : List Int) (table : List Nat) : R (List Int) := do
  let at' := fun i => (dct.getD i 0, F32.ofInt (table.getD i 1))
  let dc := F32.toI16 (F32.round (F32.div (at' 0).1 (at' 0).2))
  let cols ← trellisColumns lambda ((List.range 63).map (fun k => at' (zigzag.getD (k + 1) 0))) [[⟨0, 0, 0, 0⟩]]
  return (List.range 64).map (fun n => if n = 0 then dc else (trellisPath cols).getD (zigzag.idxOf n - 1) 0)

/-- `trellis_quantize` without `lambda`, which is then `DEFAULT_LAMBDA` (src/jpeg/trellis.rs:23, 71). -/
def trellisQuantize (dct : List Int) (table : List Nat) : R (List Int) :=
  trellisQuantizeWith (F32.lit 1 1) dct table

/-- The `lambda` for a quality (src/jpeg/trellis.rs:312-318). `100 - quality` is of `u8`. -/
def adaptiveLambda (quality : UInt8) : R Int := do
  if quality ≥ 80 then do
    let d ← subU8 100 quality
    return F32.add (F32.lit 1 2) (F32.mul (F32.ofInt (d.toNat : Nat)) (F32.lit 25 1000))
  else if quality ≥ 50 then do
    let d ← subU8 80 quality
    return F32.add (F32.lit 1 1) (F32.mul (F32.ofInt (d.toNat : Nat)) (F32.lit 33 1000))
  else do
    let d ← subU8 50 quality
    return F32.add (F32.lit 2 1) (F32.mul (F32.ofInt (d.toNat : Nat)) (F32.lit 4 100))

/-- `trellis_quantize_adaptive` (src/jpeg/trellis.rs:304-321). -/
def trellisQuantizeAdaptive (dct : List Int) (table : List Nat) (quality : UInt8) : R (List Int) := do
  let lambda ← adaptiveLambda quality
  trellisQuantizeWith lambda dct table

end Pixo.Jpeg
