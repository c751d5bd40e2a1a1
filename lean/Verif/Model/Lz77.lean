import Verif.Model.MatchLength
/-
Model of src/compress/lz77.rs. `lv` is the instruction set `simd::match_length` runs on
(`Level.scalar` also stands for a build without the `simd` feature).

`usize` is 64 bits. Additions of positions and lengths are not checked for overflow, because
they stay below twice the length of a slice; subtractions are checked.
-/
namespace Pixo.Lz77
open Pixo

/-- src/compress/lz77.rs:11. -/
def MAX_DISTANCE : Nat := 32768
/-- src/compress/lz77.rs:15. -/
def GOOD_MATCH_LENGTH : Nat := 16
/-- src/compress/lz77.rs:18. -/
def MAX_MATCH_LENGTH : Nat := 258
/-- src/compress/lz77.rs:21. -/
def MIN_MATCH_LENGTH : Nat := 3
/-- src/compress/lz77.rs:25. -/
def HASH_SIZE : Nat := 65536
/-- src/compress/lz77.rs:28. -/
def HASH3_SIZE : Nat := 32768
/-- src/compress/lz77.rs:31-32. -/
def HT_HASH_SIZE : Nat := 32768
/-- src/compress/lz77.rs:1399. -/
def LITERAL_THRESHOLD : Nat := 512
/-- src/compress/lz77.rs:1401. -/
def CHAIN_LIMIT : Nat := 1
/-- src/compress/lz77.rs:1403. -/
def PROBE_INTERVAL : Nat := 256
/-- src/compress/lz77.rs:1406. -/
def UPDATE_INTERVAL : Nat := 64

/-- `Token` (src/compress/lz77.rs:37-47); `length` and `distance` are `u16`. -/
inductive Token where
  | lit (b : UInt8)
  | mtch (length distance : Nat)
  deriving DecidableEq, Repr

/-- Subtraction of `usize` in a checked build. -/
def subUsize (a b : Nat) : R Nat := if b ≤ a then .ok (a - b) else .error .panic

/-- The cast `pos as i32`. -/
def asI32 (n : Nat) : Int :=
  if n % 2 ^ 32 < 2 ^ 31 then ((n % 2 ^ 32 : Nat) : Int) else ((n % 2 ^ 32 : Nat) : Int) - 2 ^ 32

/-- The cast `x as u16`. -/
def asU16 (n : Nat) : Nat := n % 2 ^ 16

/-- A `Vec<i32>` of fixed size, as a function with bounds checked access
(src/compress/lz77.rs:364-371). -/
structure Tab where
  size : Nat
  val : Nat → Int

/-- `vec![-1; size]` (src/compress/lz77.rs:384-387). -/
def Tab.new (size : Nat) : Tab := ⟨size, fun _ => -1⟩

/-- `fill(-1)` (src/compress/lz77.rs:423-428). -/
def Tab.fill (t : Tab) : Tab := ⟨t.size, fun _ => -1⟩

def Tab.get (t : Tab) (i : Nat) : R Int := if i < t.size then .ok (t.val i) else .error .panic

def Tab.set (t : Tab) (i : Nat) (v : Int) : R Tab :=
  if i < t.size then .ok ⟨t.size, fun j => if j = i then v else t.val j⟩ else .error .panic

/-- `LazyKind` (src/compress/lz77.rs:63-67). -/
inductive LazyKind where
  | none
  | lazy
  | lazy2
  deriving DecidableEq

/-- `LevelConfig` (src/compress/lz77.rs:71-77). -/
structure Config where
  maxChain : Nat
  maxDepth : Nat
  nice : Nat
  lazy : LazyKind
  useHt : Bool

/-- `config_for_level` (src/compress/lz77.rs:1415-1488). -/
def configForLevel : Nat → Config
  | 1 => ⟨4, 4, 32, .none, true⟩
  | 2 => ⟨8, 6, 10, .none, false⟩
  | 3 => ⟨16, 12, 14, .none, false⟩
  | 4 => ⟨32, 16, 30, .none, false⟩
  | 5 => ⟨64, 16, 30, .lazy, false⟩
  | 6 => ⟨128, 35, 65, .lazy, false⟩
  | 7 => ⟨256, 100, 130, .lazy, false⟩
  | 8 => ⟨1024, 300, MAX_MATCH_LENGTH, .lazy2, false⟩
  | 9 => ⟨4096, 600, MAX_MATCH_LENGTH, .lazy2, false⟩
  | _ => ⟨4096, 600, MAX_MATCH_LENGTH, .lazy2, false⟩

/-- `Lz77Compressor` (src/compress/lz77.rs:363-374). The two columns of `ht_buckets` are kept
as two tables. -/
structure State where
  head : Tab
  head3 : Tab
  ht0 : Tab
  ht1 : Tab
  prev : Tab
  config : Config

/-- `Lz77Compressor::new` (src/compress/lz77.rs:378-390). -/
def State.new (level : Nat) : State :=
  { head := Tab.new HASH_SIZE
    head3 := Tab.new HASH3_SIZE
    ht0 := Tab.new HT_HASH_SIZE
    ht1 := Tab.new HT_HASH_SIZE
    prev := Tab.new MAX_DISTANCE
    config := configForLevel (min (max level 1) 9) }

/-- `u32::from_le_bytes` of four bytes. -/
def le32 (a b c d : UInt8) : Nat := a.toNat + 256 * b.toNat + 65536 * c.toNat + 16777216 * d.toNat

/-- The four bytes at `pos`. -/
def word (data : List UInt8) (pos : Nat) : R Nat := do
  let a ← getChecked data pos
  let b ← getChecked data (pos + 1)
  let c ← getChecked data (pos + 2)
  let d ← getChecked data (pos + 3)
  return le32 a b c d

/-- The multiplicative hash of a `u32`: `wrapping_mul` and a shift. -/
def mulHash (val shift : Nat) : Nat := ((val * 0x1E35A7BD) % 2 ^ 32) >>> shift

/-- `hash4` (src/compress/lz77.rs:239-246). -/
def hash4 (data : List UInt8) (pos : Nat) : R Nat :=
  if pos + 3 ≥ data.length then .ok 0
  else do
    let v ← word data pos
    return mulHash v 16 &&& (HASH_SIZE - 1)

/-- `hash3` (src/compress/lz77.rs:250-256). -/
def hash3 (data : List UInt8) (pos : Nat) : R Nat :=
  if pos + 2 ≥ data.length then .ok 0
  else do
    let a ← getChecked data pos
    let b ← getChecked data (pos + 1)
    let c ← getChecked data (pos + 2)
    return mulHash (le32 a b c 0) 17 &&& (HASH3_SIZE - 1)

/-- `hash4_ht` (src/compress/lz77.rs:320-326). -/
def hash4Ht (data : List UInt8) (pos : Nat) : R Nat :=
  if pos + 3 ≥ data.length then .ok 0
  else do
    let v ← word data pos
    return mulHash v (32 - 15) &&& (HT_HASH_SIZE - 1)

/-- The scan of the chunk in which a run ends (src/compress/lz77.rs:298-306). -/
def runChunk (byte : UInt8) (maxRun : Nat) : List UInt8 → Nat → Nat
  | [], len => len
  | b :: bs, len => if b = byte ∧ len < maxRun then runChunk byte maxRun bs (len + 1) else len

/-- The eight bytes at a time loop (src/compress/lz77.rs:293-308). The flag says that the run
ended inside a chunk. -/
def runBlocks (data : List UInt8) (pos : Nat) (byte : UInt8) (maxRun : Nat) :
    Nat → Nat → R (Nat × Bool)
  | 0, _ => .error .hang
  | fuel + 1, len =>
    if len + 8 ≤ maxRun then do
      let chunk ← MatchLength.slice data (pos + len) 8
      if chunk.all (· == byte) then runBlocks data pos byte maxRun fuel (len + 8)
      else .ok (runChunk byte maxRun chunk len, true)
    else .ok (len, false)

/-- The final byte loop (src/compress/lz77.rs:311-313). -/
def runBytes (data : List UInt8) (pos : Nat) (byte : UInt8) (maxRun : Nat) : Nat → Nat → R Nat
  | 0, _ => .error .hang
  | fuel + 1, len =>
    if len < maxRun then do
      let b ← getChecked data (pos + len)
      if b = byte then runBytes data pos byte maxRun fuel (len + 1) else .ok len
    else .ok len

/-- `detect_same_byte_run` (src/compress/lz77.rs:272-316). -/
def detectRun (data : List UInt8) (pos : Nat) : R Nat :=
  if pos ≥ data.length then .ok 0
  else if pos + 1 ≥ data.length then .ok 1
  else do
    let byte ← getChecked data pos
    let maxRun := min (data.length - pos) MAX_MATCH_LENGTH
    let next ← getChecked data (pos + 1)
    if next ≠ byte then .ok 1
    else do
      let (len, done) ← runBlocks data pos byte maxRun (maxRun + 1) 2
      if done then .ok len else runBytes data pos byte maxRun (maxRun + 1) len

/-- The count of distinct bytes (src/compress/lz77.rs:330-338). -/
def countUsed : List UInt8 → List Bool → Nat → R Nat
  | [], _, n => .ok n
  | b :: bs, used, n => do
    let u ← getChecked used b.toNat
    if u then countUsed bs used n
    else do
      let used ← setChecked used b.toNat true
      countUsed bs used (n + 1)

/-- `choose_min_match_len` (src/compress/lz77.rs:342-360). -/
def chooseMinMatchLen (numUsed maxDepth : Nat) : Nat :=
  if maxDepth ≤ 4 then MIN_MATCH_LENGTH
  else
    let m := MIN_MATCH_LENGTH
    let m := if numUsed > 32 then 4 else m
    let m := if numUsed > 64 ∧ maxDepth ≥ 10 then 5 else m
    let m := if numUsed > 96 ∧ maxDepth ≥ 20 then 6 else m
    min m MAX_MATCH_LENGTH

/-- `calculate_min_match_len` (src/compress/lz77.rs:329-340). -/
def calculateMinMatchLen (data : List UInt8) (maxDepth : Nat) : R Nat := do
  let scan ← MatchLength.slice data 0 (min data.length 4096)
  let numUsed ← countUsed scan (List.replicate 256 false) 0
  return chooseMinMatchLen numUsed maxDepth

/-- `match_length` (src/compress/lz77.rs:816-828). -/
def matchLen (lv : Simd.Level) (data : List UInt8) (pos1 pos2 : Nat) : R Nat := do
  let rest ← subUsize data.length pos2
  Simd.matchLength lv data pos1 pos2 (min rest MAX_MATCH_LENGTH)

/-- `update_hash` (src/compress/lz77.rs:864-876). -/
def updateHash (st : State) (data : List UInt8) (pos : Nat) : R State :=
  if pos + 3 ≥ data.length then .ok st
  else do
    let h3 ← hash3 data pos
    let head3 ← st.head3.set h3 (asI32 pos)
    let hash ← hash4 data pos
    let old ← st.head.get hash
    let prev ← st.prev.set (pos % MAX_DISTANCE) old
    let head ← st.head.set hash (asI32 pos)
    return { st with head3 := head3, prev := prev, head := head }

/-- `run_len >= min && pos >= 1 && data[pos - 1] == data[pos]`
(src/compress/lz77.rs:620, 634, 898). -/
def continuesRun (data : List UInt8) (pos minLen runLen : Nat) : R Bool :=
  if minLen ≤ runLen ∧ 1 ≤ pos then do
    let a ← getChecked data (pos - 1)
    let b ← getChecked data pos
    return a == b
  else .ok false

/-- `data[pos..pos + 3] == data[match_pos..match_pos + 3]`
(src/compress/lz77.rs:647-649, 784-786, 922-924). -/
def same3 (data : List UInt8) (pos matchPos : Nat) : R Bool := do
  let a ← MatchLength.slice data pos 3
  let b ← MatchLength.slice data matchPos 3
  return a == b

/-- The update test of `find_best_match` (src/compress/lz77.rs:657-659, 723-725). -/
def better (minLen len dist : Nat) (best : Nat × Nat) : Bool :=
  decide (len ≥ minLen) && !(decide (len = 3) && decide (dist > 8192)) &&
    (decide (len > best.1) || (decide (len = best.1) && decide (dist < best.2)))

/-- The length-3 probe of `find_best_match` (src/compress/lz77.rs:639-669). The flag says
that the function returns at once. -/
def probe3 (lv : Simd.Level) (st : State) (data : List UInt8) (pos nice minLen : Nat)
    (best : Nat × Nat) : R ((Nat × Nat) × Bool) := do
  let h ← hash3 data pos
  let cand ← st.head3.get h
  if cand ≥ 0 then do
    let matchPos := cand.toNat
    let distance ← subUsize pos matchPos
    if distance = 0 then .ok (best, false)
    else if distance ≤ MAX_DISTANCE ∧ matchPos + 3 ≤ data.length then do
      let same ← same3 data pos matchPos
      if same then do
        let l ← matchLen lv data matchPos pos
        let len := min l MAX_MATCH_LENGTH
        if better minLen len distance best then .ok ((len, distance), decide (len ≥ nice))
        else .ok (best, false)
      else .ok (best, false)
    else .ok (best, false)
  else .ok (best, false)

/-- The walk along a hash chain (src/compress/lz77.rs:689-739, 946-981): `step` handles one
candidate and says whether to leave the loop. -/
def chainLoop {S : Type} (prev : Tab) (step : Nat → S → R (S × Bool)) : Nat → Int → S → R S
  | 0, _, s => .ok s
  | remaining + 1, chainPos, s =>
    if chainPos ≥ 0 then do
      let (s, stop) ← step chainPos.toNat s
      if stop then .ok s
      else do
        let next ← prev.get (chainPos.toNat % MAX_DISTANCE)
        chainLoop prev step remaining next s
    else .ok s

/-- The quick rejection of a candidate (src/compress/lz77.rs:678-687, 703-717). -/
def prefixDiffers (data : List UInt8) (pos matchPos : Nat) : R Bool :=
  if pos + 4 ≤ data.length ∧ matchPos + 4 ≤ data.length then do
    let a ← word data pos
    let b ← word data matchPos
    return b != a
  else .ok false

/-- One candidate of the chain in `find_best_match` (src/compress/lz77.rs:690-734). -/
def chainStep (lv : Simd.Level) (data : List UInt8) (pos nice minLen matchPos : Nat)
    (best : Nat × Nat) : R ((Nat × Nat) × Bool) := do
  let distance ← subUsize pos matchPos
  if distance = 0 then .ok (best, false)
  else if distance > min pos MAX_DISTANCE then .ok (best, true)
  else do
    let skip ← prefixDiffers data pos matchPos
    if skip then .ok (best, false)
    else do
      let length ← matchLen lv data matchPos pos
      if better minLen length distance best then
        .ok ((length, distance), decide (length ≥ MAX_MATCH_LENGTH) || decide (length ≥ nice))
      else .ok (best, false)

/-- The chain search of `find_best_match` and its result (src/compress/lz77.rs:671-748). -/
def searchChain (lv : Simd.Level) (st : State) (data : List UInt8) (pos limit nice minLen : Nat)
    (best : Nat × Nat) : R (Option (Nat × Nat)) := do
  let h ← hash4 data pos
  let first ← st.head.get h
  let best ← chainLoop st.prev (chainStep lv data pos nice minLen) limit first best
  if best.1 ≥ minLen then .ok (some best) else .ok none

/-- The search after the run check (src/compress/lz77.rs:639-748). -/
def searchFrom (lv : Simd.Level) (st : State) (data : List UInt8) (pos limit nice minLen : Nat)
    (best : Nat × Nat) : R (Option (Nat × Nat)) := do
  let (best, now) ← probe3 lv st data pos nice minLen best
  if now then .ok (some best) else searchChain lv st data pos limit nice minLen best

/-- `find_best_match` (src/compress/lz77.rs:605-749). -/
def findBestMatch (lv : Simd.Level) (st : State) (data : List UInt8)
    (pos limit nice minLen : Nat) : R (Option (Nat × Nat)) :=
  if pos + MIN_MATCH_LENGTH > data.length then .ok none
  else do
    let runLen ← detectRun data pos
    let run ← continuesRun data pos minLen runLen
    if run then
      if runLen ≥ nice ∨ runLen ≥ MAX_MATCH_LENGTH then
        .ok (some (min runLen MAX_MATCH_LENGTH, 1))
      else searchFrom lv st data pos limit nice minLen (runLen, 1)
    else searchFrom lv st data pos limit nice minLen (minLen - 1, 0)

/-- One bucket entry of `find_best_match_ht` (src/compress/lz77.rs:776-801). The flag says
that the loop is left. -/
def htStep (lv : Simd.Level) (data : List UInt8) (pos nice minLen : Nat) (cand : Int)
    (best : Nat × Nat) : R ((Nat × Nat) × Bool) :=
  if cand < 0 then .ok (best, false)
  else do
    let matchPos := cand.toNat
    let distance ← subUsize pos matchPos
    if distance = 0 ∨ distance > MAX_DISTANCE ∨ matchPos + 3 > data.length then .ok (best, false)
    else do
      let same ← same3 data pos matchPos
      if same then do
        let l ← matchLen lv data matchPos pos
        let len := min l MAX_MATCH_LENGTH
        if len < minLen ∨ (len = 3 ∧ distance > 8192) then .ok (best, false)
        else if len > best.1 then .ok ((len, distance), decide (len ≥ nice))
        else .ok (best, false)
      else .ok (best, false)

/-- The loop over the two bucket entries (src/compress/lz77.rs:775-802). -/
def htLoop (lv : Simd.Level) (data : List UInt8) (pos nice minLen : Nat) :
    List Int → Nat × Nat → R (Nat × Nat)
  | [], best => .ok best
  | cand :: cands, best => do
    let (best, stop) ← htStep lv data pos nice minLen cand best
    if stop then .ok best else htLoop lv data pos nice minLen cands best

/-- `find_best_match_ht` (src/compress/lz77.rs:752-812). -/
def findBestMatchHt (lv : Simd.Level) (st : State) (data : List UInt8)
    (pos nice minLen : Nat) : R (Option (Nat × Nat) × State) :=
  if pos + MIN_MATCH_LENGTH > data.length then .ok (none, st)
  else do
    let h ← hash4Ht data pos
    let cand0 ← st.ht0.get h
    let cand1 ← st.ht1.get h
    let ht1 ← st.ht1.set h cand0
    let ht0 ← st.ht0.set h (asI32 pos)
    let st := { st with ht0 := ht0, ht1 := ht1 }
    let best ← htLoop lv data pos nice minLen [cand0, cand1] (minLen - 1, 0)
    if best.1 ≥ minLen then .ok (some best, st) else .ok (none, st)

/-- The choice between the two match finders (src/compress/lz77.rs:488-498, 530-545). -/
def findMatch (lv : Simd.Level) (st : State) (data : List UInt8) (pos limit minLen : Nat) :
    R (Option (Nat × Nat) × State) :=
  if st.config.useHt then findBestMatchHt lv st data pos st.config.nice minLen
  else do
    let m ← findBestMatch lv st data pos (min limit st.config.maxDepth) st.config.nice minLen
    return (m, st)

/-- `for i in 0..n { self.update_hash(data, pos + i) }` (src/compress/lz77.rs:454-456,
574-576). -/
def updateRange (st : State) (data : List UInt8) (pos : Nat) : Nat → R State
  | 0 => .ok st
  | n + 1 => do
    let st ← updateRange st data pos n
    updateHash st data (pos + n)

/-- The table updates after a match (src/compress/lz77.rs:448-457, 566-577). -/
def updateMatch (st : State) (data : List UInt8) (pos length distance : Nat) : R State :=
  if distance = 1 ∧ length ≥ MIN_MATCH_LENGTH then do
    let st ← updateHash st data pos
    if length > 1 then updateHash st data (pos + length - 1) else .ok st
  else updateRange st data pos length

/-- Local variables of `compress_into_sink` (src/compress/lz77.rs:414-420). `out` holds the
tokens pushed so far. -/
structure Loop where
  st : State
  pos : Nat
  streak : Nat
  incompressible : Bool
  probe : Nat
  updates : Nat
  pending : Option (Nat × Nat)
  out : List Token

/-- `saturating_add(1)` of a `usize`. -/
def satInc (n : Nat) : Nat := min (n + 1) (2 ^ 64 - 1)

/-- Push a literal and advance (src/compress/lz77.rs:464-473). -/
def stayLiteral (data : List UInt8) (s : Loop) : R Loop := do
  let b ← getChecked data s.pos
  let s := { s with out := s.out ++ [Token.lit b], updates := s.updates + 1 }
  if s.updates ≥ UPDATE_INTERVAL then do
    let st ← updateHash s.st data s.pos
    return { s with st := st, updates := 0, pos := s.pos + 1, streak := satInc s.streak,
                    probe := satInc s.probe }
  else
    .ok { s with pos := s.pos + 1, streak := satInc s.streak, probe := satInc s.probe }

/-- The iteration in incompressible mode (src/compress/lz77.rs:431-474). -/
def stepIncompressible (lv : Simd.Level) (data : List UInt8) (minLen : Nat) (s : Loop) :
    R Loop :=
  if s.probe ≥ PROBE_INTERVAL then do
    let m ← findBestMatch lv s.st data s.pos (min CHAIN_LIMIT s.st.config.maxDepth)
      s.st.config.nice minLen
    match m with
    | some (length, distance) => do
      let st ← updateMatch s.st data s.pos length distance
      return { s with st := st, probe := 0, incompressible := false, streak := 0,
                      out := s.out ++ [Token.mtch (asU16 length) (asU16 distance)],
                      pos := s.pos + length }
    | none => stayLiteral data { s with probe := 0 }
  else stayLiteral data s

/-- The match is emitted (src/compress/lz77.rs:561-578). -/
def emitMatch (data : List UInt8) (s : Loop) (length distance : Nat) : R Loop := do
  let st ← updateMatch s.st data s.pos length distance
  return { s with st := st, out := s.out ++ [Token.mtch (asU16 length) (asU16 distance)],
                  pos := s.pos + length }

/-- The look-ahead of lazy matching (src/compress/lz77.rs:522-558). -/
def lazyMatch (lv : Simd.Level) (data : List UInt8) (minLen chainLimit : Nat) (s : Loop)
    (length distance : Nat) : R Loop := do
  let st ← updateHash s.st data s.pos
  let nextChain := if st.config.lazy = .lazy2 then max (chainLimit / 2) 1 else chainLimit
  let (m, st) ← findMatch lv st data (s.pos + 1) nextChain minLen
  let s := { s with st := st }
  match m with
  | some (nextLength, nextDistance) =>
    if nextLength ≥ length + 3 ∨ nextLength ≥ s.st.config.nice then do
      let b ← getChecked data s.pos
      return { s with out := s.out ++ [Token.lit b], pending := some (nextLength, nextDistance),
                      pos := s.pos + 1 }
    else emitMatch data s length distance
  | none => emitMatch data s length distance

/-- A match was found (src/compress/lz77.rs:500-578). -/
def haveMatch (lv : Simd.Level) (data : List UInt8) (minLen chainLimit : Nat) (s : Loop)
    (length distance : Nat) : R Loop :=
  let s := { s with streak := 0, incompressible := false, probe := 0 }
  if distance = 0 then do
    let b ← getChecked data s.pos
    let st ← updateHash s.st data s.pos
    return { s with st := st, out := s.out ++ [Token.lit b], pos := s.pos + 1 }
  else if s.st.config.lazy ≠ .none ∧ length < s.st.config.nice ∧ length < GOOD_MATCH_LENGTH ∧
      s.pos + 1 < data.length then
    lazyMatch lv data minLen chainLimit s length distance
  else emitMatch data s length distance

/-- No match was found (src/compress/lz77.rs:580-588). -/
def noMatch (data : List UInt8) (s : Loop) : R Loop := do
  let s := { s with streak := satInc s.streak }
  let s := if s.streak ≥ LITERAL_THRESHOLD then
    { s with incompressible := true, probe := 0, updates := 0 } else s
  let b ← getChecked data s.pos
  let st ← updateHash s.st data s.pos
  return { s with st := st, out := s.out ++ [Token.lit b], pos := s.pos + 1 }

/-- The match used at this position: the pending one, or a new search
(src/compress/lz77.rs:486-498). -/
def currentMatch (lv : Simd.Level) (data : List UInt8) (minLen chainLimit : Nat) (s : Loop) :
    R (Option (Nat × Nat) × Loop) :=
  match s.pending with
  | some m => .ok (some m, { s with pending := none })
  | none => do
    let (m, st) ← findMatch lv s.st data s.pos chainLimit minLen
    return (m, { s with st := st })

/-- The iteration in normal mode (src/compress/lz77.rs:476-589). -/
def stepNormal (lv : Simd.Level) (data : List UInt8) (minLen : Nat) (s : Loop) : R Loop := do
  let (chainLimit, s) :=
    if s.streak ≥ LITERAL_THRESHOLD then (CHAIN_LIMIT, { s with incompressible := true, probe := 0 })
    else (s.st.config.maxChain, s)
  let (m, s) ← currentMatch lv data minLen chainLimit s
  match m with
  | some (length, distance) => haveMatch lv data minLen chainLimit s length distance
  | none => noMatch data s

/-- One iteration (src/compress/lz77.rs:431-589). -/
def step (lv : Simd.Level) (data : List UInt8) (minLen : Nat) (s : Loop) : R Loop :=
  if s.incompressible then stepIncompressible lv data minLen s else stepNormal lv data minLen s

/-- The main loop (src/compress/lz77.rs:430-590). -/
def mainLoop (lv : Simd.Level) (data : List UInt8) (minLen : Nat) : Nat → Loop → R Loop
  | 0, _ => .error .hang
  | fuel + 1, s =>
    if s.pos < data.length then do
      let s ← step lv data minLen s
      mainLoop lv data minLen fuel s
    else .ok s

/-- Reset of the tables (src/compress/lz77.rs:422-428). -/
def State.reset (st : State) : State :=
  { st with head := st.head.fill, head3 := st.head3.fill, ht0 := st.ht0.fill,
            ht1 := st.ht1.fill, prev := st.prev.fill }

/-- `compress_into_sink` (src/compress/lz77.rs:403-591), also `compress` and `compress_into`
(src/compress/lz77.rs:399-401): the tokens pushed and the new state. The sink is only written
to, so the pushes are collected in a list. -/
def compress (lv : Simd.Level) (st : State) (data : List UInt8) : R (List Token × State) :=
  if data.isEmpty then .ok ([], st)
  else do
    let minLen ← calculateMinMatchLen data st.config.maxDepth
    let s ← mainLoop lv data minLen (data.length + 1)
      { st := st.reset, pos := 0, streak := 0, incompressible := false, probe := 0, updates := 0,
        pending := none, out := [] }
    return (s.out, s.st)

/-! ### Packed tokens -/

/-- `PackedToken::literal` (src/compress/lz77.rs:152-154). -/
def packLiteral (b : UInt8) : Nat := 0x80000000 ||| b.toNat

/-- `PackedToken::match_` (src/compress/lz77.rs:157-164), including the debug assertion. -/
def packMatch (length distance : Nat) : R Nat :=
  if distance ≥ 1 then .ok ((distance - 1) <<< 16 ||| length) else .error .panic

/-- `PackedToken::is_literal` (src/compress/lz77.rs:167-169). -/
def isLiteral (p : Nat) : Bool := p &&& 0x80000000 != 0

/-- `PackedToken::as_literal` (src/compress/lz77.rs:172-178). -/
def asLiteral (p : Nat) : Option UInt8 := if isLiteral p then some (UInt8.ofNat p) else none

/-- `PackedToken::as_match` (src/compress/lz77.rs:181-190); the addition is checked. -/
def asMatch (p : Nat) : R (Option (Nat × Nat)) :=
  if isLiteral p then .ok none
  else
    let length := p &&& 0xFFFF
    let d := asU16 (p >>> 16)
    if d + 1 < 2 ^ 16 then .ok (some (length, d + 1)) else .error .panic

/-- `TokenSink for Vec<PackedToken>` (src/compress/lz77.rs:219-235). -/
def pack : Token → R Nat
  | .lit b => .ok (packLiteral b)
  | .mtch length distance => packMatch length distance

/-- `compress_packed`, `compress_packed_into` (src/compress/lz77.rs:594-598): the same run, with
the packing sink. -/
def compressPacked (lv : Simd.Level) (st : State) (data : List UInt8) : R (List Nat × State) := do
  let (tokens, st) ← compress lv st data
  let packed ← tokens.mapM pack
  return (packed, st)

/-! ### Optimal parsing -/

/-- The list `sublen`: `sublen[len] = d` for `len` in `lo..=hi`
(src/compress/lz77.rs:902-904). -/
def fillSublen (d : Nat) : Nat → Nat → List Nat → R (List Nat)
  | 0, _, sub => .ok sub
  | n + 1, lo, sub => do
    let sub ← setChecked sub lo d
    fillSublen d n (lo + 1) sub

/-- `if sublen[len] == 0 || (distance as u16) < sublen[len]` and the assignment
(src/compress/lz77.rs:927-929, 967-969). -/
def improve (sub : List Nat) (len distance : Nat) : R (List Nat) := do
  let old ← getChecked sub len
  if old = 0 ∨ asU16 distance < old then setChecked sub len (asU16 distance) else .ok sub

/-- `for len in lo..lo + n` of the above (src/compress/lz77.rs:966-970). -/
def improveRange (distance : Nat) : Nat → Nat → List Nat → R (List Nat)
  | 0, _, sub => .ok sub
  | n + 1, lo, sub => do
    let sub ← improve sub lo distance
    improveRange distance n (lo + 1) sub

/-- The length-3 probe (src/compress/lz77.rs:914-936). -/
def sublenProbe (st : State) (data : List UInt8) (pos : Nat) (s : List Nat × Nat) :
    R (List Nat × Nat) := do
  let h ← hash3 data pos
  let cand ← st.head3.get h
  if cand ≥ 0 then do
    let matchPos := cand.toNat
    let distance ← subUsize pos matchPos
    if distance = 0 then .ok s
    else if distance ≤ MAX_DISTANCE ∧ matchPos + 3 ≤ data.length then do
      let same ← same3 data pos matchPos
      if same then do
        let sub ← improve s.1 3 distance
        return (sub, max s.2 3)
      else .ok s
    else .ok s
  else .ok s

/-- One candidate (src/compress/lz77.rs:947-977). -/
def sublenStep (lv : Simd.Level) (data : List UInt8) (pos matchPos : Nat) (s : List Nat × Nat) :
    R ((List Nat × Nat) × Bool) := do
  let distance ← subUsize pos matchPos
  if distance = 0 then .ok (s, false)
  else if distance > min pos MAX_DISTANCE then .ok (s, true)
  else do
    let length ← matchLen lv data matchPos pos
    if length ≥ MIN_MATCH_LENGTH ∧ ¬(length = 3 ∧ distance > 8192) then do
      let sub ← improveRange distance (length + 1 - MIN_MATCH_LENGTH) MIN_MATCH_LENGTH s.1
      if length > s.2 then .ok ((sub, length), decide (length ≥ MAX_MATCH_LENGTH))
      else .ok ((sub, s.2), false)
    else .ok (s, false)

/-- The hash probes of `find_match_with_sublen` (src/compress/lz77.rs:914-983). -/
def sublenSearch (lv : Simd.Level) (st : State) (data : List UInt8) (pos : Nat)
    (s : List Nat × Nat) : R (List Nat × Nat) := do
  let s ← sublenProbe st data pos s
  let h ← hash4 data pos
  let first ← st.head.get h
  chainLoop st.prev (sublenStep lv data pos) (min st.config.maxChain st.config.maxDepth) first s

/-- `find_match_with_sublen` (src/compress/lz77.rs:886-984): shortest distance per length, and
the longest length. -/
def findSublen (lv : Simd.Level) (st : State) (data : List UInt8) (pos : Nat) :
    R (List Nat × Nat) :=
  let sub := List.replicate 259 0
  if pos + MIN_MATCH_LENGTH > data.length then .ok (sub, 0)
  else do
    let runLen ← detectRun data pos
    let run ← continuesRun data pos MIN_MATCH_LENGTH runLen
    if run then do
      let sub ← fillSublen 1 (runLen + 1 - MIN_MATCH_LENGTH) MIN_MATCH_LENGTH sub
      if runLen ≥ MAX_MATCH_LENGTH then .ok (sub, runLen)
      else sublenSearch lv st data pos (sub, runLen)
    else sublenSearch lv st data pos (sub, 0)

/-! Finite `f32` values are `Int`s in units of `2^-149`. -/

/-- Rounding to 24 significant bits, to nearest, ties to even. -/
def roundNat (x : Nat) : Nat :=
  let e := x.log2 - 23
  let q := x >>> e
  let r := x % 2 ^ e
  let q := if 2 * r > 2 ^ e ∨ (2 * r = 2 ^ e ∧ q % 2 = 1) then q + 1 else q
  q <<< e

/-- `f32` addition. Overflow to infinity is not modelled: no sum here comes near `f32::MAX`. -/
def addF (a b : Int) : Int :=
  let s := a + b
  if s ≥ 0 then (roundNat s.toNat : Int) else -(roundNat (-s).toNat : Int)

/-- `f32::MAX`. -/
def f32Max : Int := (2 ^ 24 - 1) * 2 ^ 253

/-- An integer as an `f32` (exact below `2^24`). -/
def ofNatF (n : Nat) : Int := (n : Int) * 2 ^ 149

/-- `CostModel` (src/compress/lz77.rs:1213-1218). -/
structure CostModel where
  litLen : List Int
  dist : List Int

/-- `CostModel::fixed` (src/compress/lz77.rs:1225-1254). -/
def CostModel.fixed : CostModel :=
  { litLen := List.replicate 144 (ofNatF 8) ++ List.replicate 112 (ofNatF 9) ++
      List.replicate 24 (ofNatF 7) ++ List.replicate 6 (ofNatF 8)
    dist := List.replicate 30 (ofNatF 5) }

/-- Sum of `u32` counts in a checked build (src/compress/lz77.rs:1265, 1283). -/
def sumU32 : List Nat → Nat → R Nat
  | [], acc => .ok acc
  | c :: cs, acc => if acc + c < 2 ^ 32 then sumU32 cs (acc + c) else .error .panic

/-- Entropy costs (src/compress/lz77.rs:1267-1276, 1285-1292); `log2` is an oracle for
`(n as f32).log2()`. -/
def entropyCosts (log2 : Nat → Int) (total : Nat) (counts : List Nat) : List Int :=
  counts.map (fun c => if c > 0 then addF (log2 total) (-(log2 c)) else ofNatF 15)

/-- `CostModel::from_statistics` (src/compress/lz77.rs:1260-1304). -/
def CostModel.fromStatistics (log2 : Nat → Int) (litLen dist : List Nat) : R CostModel := do
  let litTotal ← sumU32 litLen 0
  if litTotal > 0 then do
    let distTotal ← sumU32 dist 0
    if distTotal > 0 then
      .ok ⟨entropyCosts log2 litTotal litLen, entropyCosts log2 distTotal dist⟩
    else .ok ⟨entropyCosts log2 litTotal litLen, List.replicate 30 (ofNatF 5)⟩
  else .ok CostModel.fixed

/-- src/compress/lz77.rs:1336-1339. -/
def LENGTH_BASE : List Nat :=
  [3, 4, 5, 6, 7, 8, 9, 10, 11, 13, 15, 17, 19, 23, 27, 31, 35, 43, 51, 59, 67, 83, 99, 115, 131,
    163, 195, 227, 258]

/-- src/compress/lz77.rs:1342-1344. -/
def LENGTH_EXTRA : List Nat :=
  [0, 0, 0, 0, 0, 0, 0, 0, 1, 1, 1, 1, 2, 2, 2, 2, 3, 3, 3, 3, 4, 4, 4, 4, 5, 5, 5, 5, 0]

/-- src/compress/lz77.rs:1355-1358. -/
def DISTANCE_EXTRA : List Nat :=
  [0, 0, 0, 0, 1, 1, 2, 2, 3, 3, 4, 4, 5, 5, 6, 6, 7, 7, 8, 8, 9, 9, 10, 10, 11, 11, 12, 12, 13,
    13]

/-- The scan of `length_to_symbol` (src/compress/lz77.rs:1370-1375). -/
def lengthScan (length : Nat) : Nat → Nat → R (Nat × Nat)
  | 0, _ => .ok (285, 0)
  | n + 1, i => do
    let base ← getChecked LENGTH_BASE (i + 1)
    if length < base then do
      let extra ← getChecked LENGTH_EXTRA i
      return (257 + i, extra)
    else lengthScan length n (i + 1)

/-- `length_to_symbol` (src/compress/lz77.rs:1362-1376), including the debug assertion. -/
def lengthToSymbol (length : Nat) : R (Nat × Nat) :=
  if MIN_MATCH_LENGTH ≤ length ∧ length ≤ MAX_MATCH_LENGTH then lengthScan length 28 0
  else .error .panic

/-- `distance_to_symbol` (src/compress/lz77.rs:1380-1395), including the debug assertion. -/
def distanceToSymbol (distance : Nat) : R (Nat × Nat) :=
  if 1 ≤ distance ∧ distance ≤ 32768 then
    if distance < 5 then .ok (distance - 1, 0)
    else do
      let d := distance - 1
      let msb := d.log2
      let second := d >>> (msb - 1) &&& 1
      let code := min (2 * msb + second) 29
      let extra ← getChecked DISTANCE_EXTRA code
      return (code, extra)
  else .error .panic

/-- `literal_cost` (src/compress/lz77.rs:1307-1309). -/
def CostModel.literalCost (cm : CostModel) (b : UInt8) : R Int := getChecked cm.litLen b.toNat

/-- `match_cost` (src/compress/lz77.rs:1312-1322). -/
def CostModel.matchCost (cm : CostModel) (length distance : Nat) : R Int := do
  let (ls, le) ← lengthToSymbol length
  let lc ← getChecked cm.litLen ls
  let (ds, de) ← distanceToSymbol distance
  let dc ← getChecked cm.dist ds
  return addF (addF lc (ofNatF le)) (addF dc (ofNatF de))

/-- The arrays `costs`, `length_array`, `dist_array` (src/compress/lz77.rs:1011-1013, 1089-1091). -/
structure Dp where
  costs : List Int
  lengths : List Nat
  dists : List Nat

/-- `vec![..; n + 1]` and `costs[0] = 0.0` (src/compress/lz77.rs:1011-1015, 1089-1093). -/
def Dp.new (n : Nat) : Dp :=
  ⟨(0 : Int) :: List.replicate n f32Max, List.replicate (n + 1) 0, List.replicate (n + 1) 0⟩

/-- `if cost < costs[p]` and the three assignments (src/compress/lz77.rs:1025-1029,
1043-1047, 1103-1107, 1132-1136). -/
def Dp.relax (dp : Dp) (p : Nat) (cost : Int) (len dist : Nat) : R Dp := do
  let old ← getChecked dp.costs p
  if cost < old then do
    let costs ← setChecked dp.costs p cost
    let lengths ← setChecked dp.lengths p len
    let dists ← setChecked dp.dists p dist
    return ⟨costs, lengths, dists⟩
  else .ok dp

/-- The loop over the match lengths (src/compress/lz77.rs:1035-1048, 1124-1137), `count` of them starting
at `len`; `base` is `costs[i]`. -/
def tryMatches (cm : CostModel) (n i : Nat) (base : Int) (sub : List Nat) :
    Nat → Nat → Dp → R Dp
  | 0, _, dp => .ok dp
  | count + 1, len, dp => do
    let dist ← getChecked sub len
    if dist = 0 then tryMatches cm n i base sub count (len + 1) dp
    else do
      let c ← cm.matchCost (asU16 len) dist
      if i + len ≤ n then do
        let dp ← dp.relax (i + len) (addF base c) (asU16 len) dist
        tryMatches cm n i base sub count (len + 1) dp
      else tryMatches cm n i base sub count (len + 1) dp

/-- The literal and the matches at one position, given the match table
(src/compress/lz77.rs:1024-1048, 1102-1137). -/
def tryAt (cm : CostModel) (data : List UInt8) (i : Nat) (base : Int) (dp : Dp)
    (m : R ((List Nat × Nat) × α)) : R (Dp × α) := do
  let b ← getChecked data i
  let lc ← cm.literalCost b
  let dp ← dp.relax (i + 1) (addF base lc) 1 0
  let ((sub, maxLen), a) ← m
  let dp ← tryMatches cm data.length i base sub (maxLen + 1 - MIN_MATCH_LENGTH) MIN_MATCH_LENGTH dp
  return (dp, a)

/-- The forward pass of `compress_optimal` (src/compress/lz77.rs:1018-1052), `count` positions
starting at `i`. -/
def forward (lv : Simd.Level) (cm : CostModel) (data : List UInt8) :
    Nat → Nat → State → Dp → R (Dp × State)
  | 0, _, st, dp => .ok (dp, st)
  | count + 1, i, st, dp => do
    let base ← getChecked dp.costs i
    if base ≥ f32Max then forward lv cm data count (i + 1) st dp
    else do
      let (dp, _) ← tryAt cm data i base dp (do let m ← findSublen lv st data i; return (m, ()))
      let st ← updateHash st data i
      forward lv cm data count (i + 1) st dp

/-- The backward walk (src/compress/lz77.rs:1165-1175), giving `(len, dist)` pairs from the
first to the last. The first backward loop (src/compress/lz77.rs:1150-1158) computes nothing
that is used. -/
def collect (dp : Dp) : Nat → Nat → List (Nat × Nat) → R (List (Nat × Nat))
  | 0, _, _ => .error .hang
  | fuel + 1, p, acc =>
    if p > 0 then do
      let len ← getChecked dp.lengths p
      let dist ← getChecked dp.dists p
      if len = 0 then .ok acc
      else do
        let p ← subUsize p len
        collect dp fuel p ((len, dist) :: acc)
    else .ok acc

/-- The tokens in forward order (src/compress/lz77.rs:1178-1197). -/
def emitTokens (data : List UInt8) : List (Nat × Nat) → Nat → List Token → R (List Token)
  | [], _, out => .ok out
  | (len, dist) :: rest, pos, out =>
    if dist = 0 then do
      let b ← getChecked data pos
      emitTokens data rest (pos + len) (out ++ [.lit b])
    else emitTokens data rest (pos + len) (out ++ [.mtch (asU16 len) dist])

/-- `trace_backwards` (src/compress/lz77.rs:1145-1200). -/
def traceBackwards (dp : Dp) (data : List UInt8) : R (List Token) := do
  let pairs ← collect dp (data.length + 1) data.length []
  emitTokens data pairs 0 []

/-- Reset without the `ht` buckets (src/compress/lz77.rs:1004-1006, 1080-1084). -/
def State.resetChains (st : State) : State :=
  { st with head := st.head.fill, head3 := st.head3.fill, prev := st.prev.fill }

/-- `compress_optimal` (src/compress/lz77.rs:996-1056). -/
def compressOptimal (lv : Simd.Level) (st : State) (cm : CostModel) (data : List UInt8) :
    R (List Token × State) :=
  if data.isEmpty then .ok ([], st)
  else do
    let (dp, st) ← forward lv cm data data.length 0 st.resetChains (Dp.new data.length)
    let tokens ← traceBackwards dp data
    return (tokens, st)

/-- `LongestMatchCache` (src/compress/lz77.rs:91-105): one `(sublen, max_length)` per position;
`max_length` is stored as `u16`. -/
abbrev Cache := List (List Nat × Nat)

/-- `LongestMatchCache::new` (src/compress/lz77.rs:118-122). -/
def Cache.new (n : Nat) : Cache := List.replicate n (List.replicate 259 0, 0)

/-- `LongestMatchCache::get` with the fallback of its callers (src/compress/lz77.rs:126-130,
1112, 1120). -/
def Cache.lookup (c : Cache) (pos : Nat) : List Nat × Nat :=
  match c[pos]? with
  | some e => e
  | none => (List.replicate 259 0, 0)

/-- `LongestMatchCache::set` (src/compress/lz77.rs:134-139). -/
def Cache.put (c : Cache) (pos : Nat) (e : List Nat × Nat) : Cache := c.set pos (e.1, asU16 e.2)

/-- `LongestMatchCache::is_populated` (src/compress/lz77.rs:143-145). -/
def Cache.populated (c : Cache) : Bool := c.any (fun e => decide (e.2 > 0))

/-- Computation of the matches at one position, through the cache
(src/compress/lz77.rs:1110-1121). -/
def cachedMatches (lv : Simd.Level) (useCache : Bool) (st : State) (data : List UInt8) (i : Nat)
    (cache : Cache) : R ((List Nat × Nat) × (State × Cache)) :=
  if useCache then .ok (cache.lookup i, (st, cache))
  else do
    let m ← findSublen lv st data i
    let cache := cache.put i m
    let st ← updateHash st data i
    return (cache.lookup i, (st, cache))

/-- The forward pass of `compress_optimal_cached` (src/compress/lz77.rs:1096-1138). -/
def forwardCached (lv : Simd.Level) (cm : CostModel) (useCache : Bool) (data : List UInt8) :
    Nat → Nat → State → Cache → Dp → R (Dp × (State × Cache))
  | 0, _, st, cache, dp => .ok (dp, (st, cache))
  | count + 1, i, st, cache, dp => do
    let base ← getChecked dp.costs i
    if base ≥ f32Max then forwardCached lv cm useCache data count (i + 1) st cache dp
    else do
      let (dp, st, cache) ← tryAt cm data i base dp (cachedMatches lv useCache st data i cache)
      forwardCached lv cm useCache data count (i + 1) st cache dp

/-- `compress_optimal_cached` (src/compress/lz77.rs:1066-1142). -/
def compressOptimalCached (lv : Simd.Level) (st : State) (cm : CostModel) (data : List UInt8)
    (cache : Cache) : R (List Token × (State × Cache)) :=
  if data.isEmpty then .ok ([], (st, cache))
  else do
    let useCache := cache.populated
    let st := if useCache then st else st.resetChains
    let (dp, st, cache) ← forwardCached lv cm useCache data data.length 0 st cache
      (Dp.new data.length)
    let tokens ← traceBackwards dp data
    return (tokens, (st, cache))

end Pixo.Lz77
