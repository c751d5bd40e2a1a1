import Verif.Model.Lz77
/-
How much work the LZ77 encoders do: the functions of Model/Lz77 once more, each also giving the number of earlier positions looked at
(rounds of the loops over hash chains and buckets, probes for three bytes), of updates of the hash tables and, in optimal parsing, of rounds of
the loops over lengths. What is done in each of them is of bounded length: comparing at most 258 bytes with those of the earlier position, or
a few memory accesses. `detect_same_byte_run` (at most 258 bytes, once for each search) and the reset of the tables (of constant size) are not
counted.
-/
namespace Pixo.Lz77
open Pixo

/-- The walk along a hash chain (src/compress/lz77.rs:689-739): one for each round. -/
def chainLoopW {S : Type} (prev : Tab) (step : Nat → S → R ((S × Bool) × Nat)) : Nat → Int → S → R (S × Nat)
  | 0, _, s => .ok (s, 0)
  | remaining + 1, chainPos, s =>
    if chainPos ≥ 0 then do
      let ((s, stop), a) ← step chainPos.toNat s
      if stop then .ok (s, a)
      else do
        let next ← prev.get (chainPos.toNat % MAX_DISTANCE)
        let (s, b) ← chainLoopW prev step remaining next s
        return (s, a + b)
    else .ok (s, 0)

/-- One candidate of the chain in `find_best_match` (src/compress/lz77.rs:690-734). -/
def chainStepW (lv : Simd.Level) (data : List UInt8) (pos nice minLen matchPos : Nat) (best : Nat × Nat) : R (((Nat × Nat) × Bool) × Nat) := do
  let r ← chainStep lv data pos nice minLen matchPos best
  return (r, 1)

/-- The chain search of `find_best_match` (src/compress/lz77.rs:671-748). -/
def searchChainW (lv : Simd.Level) (st : State) (data : List UInt8) (pos limit nice minLen : Nat) (best : Nat × Nat) :
    R (Option (Nat × Nat) × Nat) := do
  let h ← hash4 data pos
  let first ← st.head.get h
  let (best, a) ← chainLoopW st.prev (chainStepW lv data pos nice minLen) limit first best
  if best.1 ≥ minLen then .ok (some best, a) else .ok (none, a)

/-- The search after the run check (src/compress/lz77.rs:639-748): one for the probe, and the chain. -/
def searchFromW (lv : Simd.Level) (st : State) (data : List UInt8) (pos limit nice minLen : Nat) (best : Nat × Nat) :
    R (Option (Nat × Nat) × Nat) := do
  let (best, now) ← probe3 lv st data pos nice minLen best
  if now then .ok (some best, 1)
  else do
    let (m, a) ← searchChainW lv st data pos limit nice minLen best
    return (m, 1 + a)

/-- `find_best_match` (src/compress/lz77.rs:605-749). -/
def findBestMatchW (lv : Simd.Level) (st : State) (data : List UInt8) (pos limit nice minLen : Nat) : R (Option (Nat × Nat) × Nat) :=
  if pos + MIN_MATCH_LENGTH > data.length then .ok (none, 0)
  else do
    let runLen ← detectRun data pos
    let run ← continuesRun data pos minLen runLen
    if run then
      if runLen ≥ nice ∨ runLen ≥ MAX_MATCH_LENGTH then .ok (some (min runLen MAX_MATCH_LENGTH, 1), 0)
      else searchFromW lv st data pos limit nice minLen (runLen, 1)
    else searchFromW lv st data pos limit nice minLen (minLen - 1, 0)

/-- The loop over the two bucket entries (src/compress/lz77.rs:775-802): one for each round. -/
def htLoopW (lv : Simd.Level) (data : List UInt8) (pos nice minLen : Nat) : List Int → Nat × Nat → R ((Nat × Nat) × Nat)
  | [], best => .ok (best, 0)
  | cand :: cands, best => do
    let (best, stop) ← htStep lv data pos nice minLen cand best
    if stop then .ok (best, 1)
    else do
      let (best, a) ← htLoopW lv data pos nice minLen cands best
      return (best, 1 + a)

/-- `find_best_match_ht` (src/compress/lz77.rs:752-812). -/
def findBestMatchHtW (lv : Simd.Level) (st : State) (data : List UInt8) (pos nice minLen : Nat) : R ((Option (Nat × Nat) × State) × Nat) :=
  if pos + MIN_MATCH_LENGTH > data.length then .ok ((none, st), 0)
  else do
    let h ← hash4Ht data pos
    let cand0 ← st.ht0.get h
    let cand1 ← st.ht1.get h
    let ht1 ← st.ht1.set h cand0
    let ht0 ← st.ht0.set h (asI32 pos)
    let st := { st with ht0 := ht0, ht1 := ht1 }
    let (best, a) ← htLoopW lv data pos nice minLen [cand0, cand1] (minLen - 1, 0)
    if best.1 ≥ minLen then .ok ((some best, st), a) else .ok ((none, st), a)

/-- The choice between the two match finders (src/compress/lz77.rs:488-498, 530-545). -/
def findMatchW (lv : Simd.Level) (st : State) (data : List UInt8) (pos limit minLen : Nat) : R ((Option (Nat × Nat) × State) × Nat) :=
  if st.config.useHt then findBestMatchHtW lv st data pos st.config.nice minLen
  else do
    let (m, a) ← findBestMatchW lv st data pos (min limit st.config.maxDepth) st.config.nice minLen
    return ((m, st), a)

/-- `update_hash` (src/compress/lz77.rs:864-876): one. -/
def updateHashW (st : State) (data : List UInt8) (pos : Nat) : R (State × Nat) := do
  let st ← updateHash st data pos
  return (st, 1)

/-- `for i in 0..n { self.update_hash(data, pos + i) }` (src/compress/lz77.rs:454-456, 574-576). -/
def updateRangeW (st : State) (data : List UInt8) (pos : Nat) : Nat → R (State × Nat)
  | 0 => .ok (st, 0)
  | n + 1 => do
    let (st, a) ← updateRangeW st data pos n
    let (st, b) ← updateHashW st data (pos + n)
    return (st, a + b)

/-- The table updates after a match (src/compress/lz77.rs:448-457, 566-577). -/
def updateMatchW (st : State) (data : List UInt8) (pos length distance : Nat) : R (State × Nat) :=
  if distance = 1 ∧ length ≥ MIN_MATCH_LENGTH then do
    let (st, a) ← updateHashW st data pos
    if length > 1 then do
      let (st, b) ← updateHashW st data (pos + length - 1)
      return (st, a + b)
    else .ok (st, a)
  else updateRangeW st data pos length

/-- Push a literal and advance (src/compress/lz77.rs:464-473). -/
def stayLiteralW (data : List UInt8) (s : Loop) : R (Loop × Nat) := do
  let b ← getChecked data s.pos
  let s := { s with out := s.out ++ [Token.lit b], updates := s.updates + 1 }
  if s.updates ≥ UPDATE_INTERVAL then do
    let (st, a) ← updateHashW s.st data s.pos
    return ({ s with st := st, updates := 0, pos := s.pos + 1, streak := satInc s.streak, probe := satInc s.probe }, a)
  else
    .ok ({ s with pos := s.pos + 1, streak := satInc s.streak, probe := satInc s.probe }, 0)

/-- The iteration in incompressible mode (src/compress/lz77.rs:431-474). -/
def stepIncompressibleW (lv : Simd.Level) (data : List UInt8) (minLen : Nat) (s : Loop) : R (Loop × Nat) :=
  if s.probe ≥ PROBE_INTERVAL then do
    let (m, a) ← findBestMatchW lv s.st data s.pos (min CHAIN_LIMIT s.st.config.maxDepth) s.st.config.nice minLen
    match m with
    | some (length, distance) => do
      let (st, b) ← updateMatchW s.st data s.pos length distance
      return ({ s with st := st, probe := 0, incompressible := false, streak := 0,
                       out := s.out ++ [Token.mtch (asU16 length) (asU16 distance)],
                       pos := s.pos + length }, a + b)
    | none => do
      let (s, b) ← stayLiteralW data { s with probe := 0 }
      return (s, a + b)
  else stayLiteralW data s

/-- The match is emitted (src/compress/lz77.rs:561-578). -/
def emitMatchW (data : List UInt8) (s : Loop) (length distance : Nat) : R (Loop × Nat) := do
  let (st, a) ← updateMatchW s.st data s.pos length distance
  return ({ s with st := st, out := s.out ++ [Token.mtch (asU16 length) (asU16 distance)], pos := s.pos + length }, a)

/-- The look-ahead of lazy matching (src/compress/lz77.rs:522-558). -/
def lazyMatchW (lv : Simd.Level) (data : List UInt8) (minLen chainLimit : Nat) (s : Loop) (length distance : Nat) : R (Loop × Nat) := do
  let (st, a) ← updateHashW s.st data s.pos
  let nextChain := if st.config.lazy = .lazy2 then max (chainLimit / 2) 1 else chainLimit
  let ((m, st), b) ← findMatchW lv st data (s.pos + 1) nextChain minLen
  let s := { s with st := st }
  match m with
  | some (nextLength, nextDistance) =>
    if nextLength ≥ length + 3 ∨ nextLength ≥ s.st.config.nice then do
      let c ← getChecked data s.pos
      return ({ s with out := s.out ++ [Token.lit c], pending := some (nextLength, nextDistance), pos := s.pos + 1 }, a + b)
    else do
      let (s, c) ← emitMatchW data s length distance
      return (s, a + b + c)
  | none => do
    let (s, c) ← emitMatchW data s length distance
    return (s, a + b + c)

/-- A match was found (src/compress/lz77.rs:500-578). -/
def haveMatchW (lv : Simd.Level) (data : List UInt8) (minLen chainLimit : Nat) (s : Loop) (length distance : Nat) : R (Loop × Nat) :=
  let s := { s with streak := 0, incompressible := false, probe := 0 }
  if distance = 0 then do
    let b ← getChecked data s.pos
    let (st, a) ← updateHashW s.st data s.pos
    return ({ s with st := st, out := s.out ++ [Token.lit b], pos := s.pos + 1 }, a)
  else if s.st.config.lazy ≠ .none ∧ length < s.st.config.nice ∧ length < GOOD_MATCH_LENGTH ∧ s.pos + 1 < data.length then
    lazyMatchW lv data minLen chainLimit s length distance
  else emitMatchW data s length distance

/-- No match was found (src/compress/lz77.rs:580-588). -/
def noMatchW (data : List UInt8) (s : Loop) : R (Loop × Nat) := do
  let s := { s with streak := satInc s.streak }
  let s := if s.streak ≥ LITERAL_THRESHOLD then { s with incompressible := true, probe := 0, updates := 0 } else s
  let b ← getChecked data s.pos
  let (st, a) ← updateHashW s.st data s.pos
  return ({ s with st := st, out := s.out ++ [Token.lit b], pos := s.pos + 1 }, a)

/-- The match used at this position (src/compress/lz77.rs:486-498): nothing to do if there is a pending one. -/
def currentMatchW (lv : Simd.Level) (data : List UInt8) (minLen chainLimit : Nat) (s : Loop) : R ((Option (Nat × Nat) × Loop) × Nat) :=
  match s.pending with
  | some m => .ok ((some m, { s with pending := none }), 0)
  | none => do
    let ((m, st), a) ← findMatchW lv s.st data s.pos chainLimit minLen
    return ((m, { s with st := st }), a)

/-- The iteration in normal mode (src/compress/lz77.rs:476-589). -/
def stepNormalW (lv : Simd.Level) (data : List UInt8) (minLen : Nat) (s : Loop) : R (Loop × Nat) := do
  let (chainLimit, s) :=
    if s.streak ≥ LITERAL_THRESHOLD then (CHAIN_LIMIT, { s with incompressible := true, probe := 0 })
    else (s.st.config.maxChain, s)
  let ((m, s), a) ← currentMatchW lv data minLen chainLimit s
  match m with
  | some (length, distance) => do
    let (s, b) ← haveMatchW lv data minLen chainLimit s length distance
    return (s, a + b)
  | none => do
    let (s, b) ← noMatchW data s
    return (s, a + b)

/-- One iteration (src/compress/lz77.rs:431-589). -/
def stepW (lv : Simd.Level) (data : List UInt8) (minLen : Nat) (s : Loop) : R (Loop × Nat) :=
  if s.incompressible then stepIncompressibleW lv data minLen s else stepNormalW lv data minLen s

/-- The main loop (src/compress/lz77.rs:430-590). -/
def mainLoopW (lv : Simd.Level) (data : List UInt8) (minLen : Nat) : Nat → Loop → R (Loop × Nat)
  | 0, _ => .error .hang
  | fuel + 1, s =>
    if s.pos < data.length then do
      let (s, a) ← stepW lv data minLen s
      let (s, b) ← mainLoopW lv data minLen fuel s
      return (s, a + b)
    else .ok (s, 0)

/-- `compress_into_sink` (src/compress/lz77.rs:403-591). The count of distinct bytes (330-338) looks at no more than 4096 bytes. -/
def compressW (lv : Simd.Level) (st : State) (data : List UInt8) : R ((List Token × State) × Nat) :=
  if data.isEmpty then .ok (([], st), 0)
  else do
    let minLen ← calculateMinMatchLen data st.config.maxDepth
    let (s, a) ← mainLoopW lv data minLen (data.length + 1)
      { st := st.reset, pos := 0, streak := 0, incompressible := false, probe := 0, updates := 0,
        pending := none, out := [] }
    return ((s.out, s.st), a)

/-! ### Optimal parsing -/

/-- One candidate of `find_match_with_sublen` (src/compress/lz77.rs:947-977): one, and one for each round of the loop over lengths
(966-970), of which there are `length + 1 - 3`. -/
def sublenStepW (lv : Simd.Level) (data : List UInt8) (pos matchPos : Nat) (s : List Nat × Nat) : R (((List Nat × Nat) × Bool) × Nat) := do
  let distance ← subUsize pos matchPos
  if distance = 0 then .ok ((s, false), 1)
  else if distance > min pos MAX_DISTANCE then .ok ((s, true), 1)
  else do
    let length ← matchLen lv data matchPos pos
    if length ≥ MIN_MATCH_LENGTH ∧ ¬(length = 3 ∧ distance > 8192) then do
      let sub ← improveRange distance (length + 1 - MIN_MATCH_LENGTH) MIN_MATCH_LENGTH s.1
      if length > s.2 then .ok (((sub, length), decide (length ≥ MAX_MATCH_LENGTH)), 1 + (length + 1 - MIN_MATCH_LENGTH))
      else .ok (((sub, s.2), false), 1 + (length + 1 - MIN_MATCH_LENGTH))
    else .ok ((s, false), 1)

/-- The hash probes of `find_match_with_sublen` (src/compress/lz77.rs:914-983): one for the probe, and the chain. -/
def sublenSearchW (lv : Simd.Level) (st : State) (data : List UInt8) (pos : Nat) (s : List Nat × Nat) : R ((List Nat × Nat) × Nat) := do
  let s ← sublenProbe st data pos s
  let h ← hash4 data pos
  let first ← st.head.get h
  let (s, a) ← chainLoopW st.prev (sublenStepW lv data pos) (min st.config.maxChain st.config.maxDepth) first s
  return (s, 1 + a)

/-- `find_match_with_sublen` (src/compress/lz77.rs:886-984), with the rounds of the loop over the lengths of a run (902-904). -/
def findSublenW (lv : Simd.Level) (st : State) (data : List UInt8) (pos : Nat) : R ((List Nat × Nat) × Nat) :=
  let sub := List.replicate 259 0
  if pos + MIN_MATCH_LENGTH > data.length then .ok ((sub, 0), 0)
  else do
    let runLen ← detectRun data pos
    let run ← continuesRun data pos MIN_MATCH_LENGTH runLen
    if run then do
      let sub ← fillSublen 1 (runLen + 1 - MIN_MATCH_LENGTH) MIN_MATCH_LENGTH sub
      if runLen ≥ MAX_MATCH_LENGTH then .ok ((sub, runLen), runLen + 1 - MIN_MATCH_LENGTH)
      else do
        let (s, a) ← sublenSearchW lv st data pos (sub, runLen)
        return (s, runLen + 1 - MIN_MATCH_LENGTH + a)
    else sublenSearchW lv st data pos (sub, 0)

/-- The literal and the matches at one position (src/compress/lz77.rs:1024-1048, 1102-1137): one for each round of the loop over lengths
(1035, 1124). -/
def tryAtW (cm : CostModel) (data : List UInt8) (i : Nat) (base : Int) (dp : Dp) (m : R (((List Nat × Nat) × α) × Nat)) :
    R ((Dp × α) × Nat) := do
  let b ← getChecked data i
  let lc ← cm.literalCost b
  let dp ← dp.relax (i + 1) (addF base lc) 1 0
  let (((sub, maxLen), a), w) ← m
  let dp ← tryMatches cm data.length i base sub (maxLen + 1 - MIN_MATCH_LENGTH) MIN_MATCH_LENGTH dp
  return ((dp, a), w + (maxLen + 1 - MIN_MATCH_LENGTH))

/-- Computation of the matches at one position, through the cache (src/compress/lz77.rs:1110-1121). -/
def cachedMatchesW (lv : Simd.Level) (useCache : Bool) (st : State) (data : List UInt8) (i : Nat) (cache : Cache) :
    R (((List Nat × Nat) × (State × Cache)) × Nat) :=
  if useCache then .ok ((cache.lookup i, (st, cache)), 0)
  else do
    let (m, a) ← findSublenW lv st data i
    let cache := cache.put i m
    let (st, b) ← updateHashW st data i
    return ((cache.lookup i, (st, cache)), a + b)

/-- The forward pass of `compress_optimal_cached` (src/compress/lz77.rs:1096-1138). -/
def forwardCachedW (lv : Simd.Level) (cm : CostModel) (useCache : Bool) (data : List UInt8) :
    Nat → Nat → State → Cache → Dp → R ((Dp × (State × Cache)) × Nat)
  | 0, _, st, cache, dp => .ok ((dp, (st, cache)), 0)
  | count + 1, i, st, cache, dp => do
    let base ← getChecked dp.costs i
    if base ≥ f32Max then forwardCachedW lv cm useCache data count (i + 1) st cache dp
    else do
      let ((dp, st, cache), a) ← tryAtW cm data i base dp (cachedMatchesW lv useCache st data i cache)
      let (r, b) ← forwardCachedW lv cm useCache data count (i + 1) st cache dp
      return (r, a + b)

/-- `compress_optimal_cached` (src/compress/lz77.rs:1066-1142). `trace_backwards` (1145-1200) has no more rounds than there are bytes. -/
def compressOptimalCachedW (lv : Simd.Level) (st : State) (cm : CostModel) (data : List UInt8) (cache : Cache) :
    R ((List Token × (State × Cache)) × Nat) :=
  if data.isEmpty then .ok (([], (st, cache)), 0)
  else do
    let useCache := cache.populated
    let st := if useCache then st else st.resetChains
    let ((dp, st, cache), a) ← forwardCachedW lv cm useCache data data.length 0 st cache (Dp.new data.length)
    let tokens ← traceBackwards dp data
    return ((tokens, (st, cache)), a)

end Pixo.Lz77
