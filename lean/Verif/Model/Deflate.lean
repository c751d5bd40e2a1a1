import Verif.Model.Lz77
import Verif.Model.Bits
import Verif.Model.Huffman
import Verif.Model.F32
import Verif.Model.F64
/-
Model of src/compress/deflate.rs.

Capacity hints of vectors (`estimated_deflate_size` and the like) have no effect on the result
and are left out. The buffers `tokens` and `packed_tokens` of `Deflater` are cleared before
every use and are therefore not part of its state. `f32` values are finite and kept as `Int`
multiples of `2^-149`, `f64` values as multiples of `2^-1074`; their logarithms are oracles
(`Env`). The order in which the standard library's binary heap returns equal elements is
likewise an oracle, a function of the arguments of `build_codes`.
-/
namespace Pixo.Deflate
open Pixo Pixo.Lz77

/-- What the model leaves open. -/
structure Env where
  /-- The instruction set `simd` runs on. -/
  level : Simd.Level
  /-- Heap order in `build_codes`, given frequencies and maximal length. -/
  tie : List Nat → Nat → Nat → Nat
  /-- `(n as f32).log2()`, in units of `2^-149`. -/
  log2 : Nat → Int
  /-- `(n as f64).log2()`, in units of `2^-1074`. -/
  log64 : Nat → Int

/-! ### Tables -/

/-- src/compress/deflate.rs:14-17. -/
def LENGTH_BASE : List Nat :=
  [3, 4, 5, 6, 7, 8, 9, 10, 11, 13, 15, 17, 19, 23, 27, 31, 35, 43, 51, 59, 67, 83, 99, 115, 131,
    163, 195, 227, 258]

/-- src/compress/deflate.rs:20-22. -/
def LENGTH_EXTRA : List Nat :=
  [0, 0, 0, 0, 0, 0, 0, 0, 1, 1, 1, 1, 2, 2, 2, 2, 3, 3, 3, 3, 4, 4, 4, 4, 5, 5, 5, 5, 0]

/-- src/compress/deflate.rs:25-28. -/
def DISTANCE_BASE : List Nat :=
  [1, 2, 3, 4, 5, 7, 9, 13, 17, 25, 33, 49, 65, 97, 129, 193, 257, 385, 513, 769, 1025, 1537,
    2049, 3073, 4097, 6145, 8193, 12289, 16385, 24577]

/-- src/compress/deflate.rs:31-34. -/
def DISTANCE_EXTRA : List Nat :=
  [0, 0, 0, 0, 1, 1, 2, 2, 3, 3, 4, 4, 5, 5, 6, 6, 7, 7, 8, 8, 9, 9, 10, 10, 11, 11, 12, 12, 13,
    13]

/-- The search loop of the two tables (src/compress/deflate.rs:44-52, 188-194): `n` codes are
left to try, starting at `i`. -/
def searchCode (base : List Nat) (v : Nat) : Nat → Nat → Nat
  | 0, i => i
  | n + 1, i => if v ≥ base.getD i 0 ∧ v < base.getD (i + 1) 0 then i else searchCode base v n (i + 1)

/-- `LENGTH_LOOKUP` (src/compress/deflate.rs:38-58). -/
def LENGTH_LOOKUP : List (Nat × Nat) :=
  (List.range 256).map (fun i =>
    let c := searchCode LENGTH_BASE (i + 3) 28 0
    (c, LENGTH_EXTRA.getD c 0))

/-- `DISTANCE_LOOKUP_SMALL` (src/compress/deflate.rs:184-199). -/
def DISTANCE_LOOKUP_SMALL : List Nat :=
  (List.range 512).map (fun i => if i = 0 then 0 else searchCode DISTANCE_BASE i 29 0)

/-- `length_code` (src/compress/deflate.rs:204-215), including the debug assertion. -/
def lengthCode (length : Nat) : R (Nat × Nat × Nat) :=
  if MIN_MATCH_LENGTH ≤ length ∧ length ≤ MAX_MATCH_LENGTH then do
    let (off, extra) ← getChecked LENGTH_LOOKUP (length - 3)
    let base ← getChecked LENGTH_BASE off
    let value ← subUsize length base
    return (257 + off, extra, value)
  else .error .panic

/-- The index computed by `distance_code` (src/compress/deflate.rs:223-236). -/
def distanceIndex (distance : Nat) : R Nat :=
  if distance < 512 then getChecked DISTANCE_LOOKUP_SMALL distance
  else
    let d := distance - 1
    let msb := d.log2
    let second := (d >>> (msb - 1)) &&& 1
    .ok (min (2 * msb + second) 29)

/-- `distance_code` (src/compress/deflate.rs:220-241), including the debug assertion. -/
def distanceCode (distance : Nat) : R (Nat × Nat × Nat) :=
  if 1 ≤ distance ∧ distance ≤ 32768 then do
    let idx ← distanceIndex distance
    let extra ← getChecked DISTANCE_EXTRA idx
    let base ← getChecked DISTANCE_BASE idx
    let value ← subUsize distance base
    return (idx, extra, value)
  else .error .panic

/-- The eight rounds filling one entry of `REVERSE_BYTE` (src/compress/deflate.rs:1556-1563). -/
def reverseLoop : Nat → Nat → Nat → Nat
  | 0, _, r => r
  | n + 1, b, r => reverseLoop n (b >>> 1) (((r <<< 1) % 256) ||| (b &&& 1))

/-- `REVERSE_BYTE` (src/compress/deflate.rs:1552-1568). -/
def REVERSE_BYTE : List Nat := (List.range 256).map (fun i => reverseLoop 8 i 0)

/-- `reverse_bits` (src/compress/deflate.rs:1573-1582); `code` is a `u16`. -/
def reverseBits (code length : Nat) : R Nat :=
  if length = 0 then .ok 0
  else do
    let low ← getChecked REVERSE_BYTE (code % 256)
    let high ← getChecked REVERSE_BYTE ((code >>> 8) % 256)
    let reversed := ((low <<< 8) % 2 ^ 16) ||| high
    let shift ← subUsize 16 length
    return reversed >>> shift

/-- `prepare_reversed_codes` (src/compress/deflate.rs:1585-1590), also the static tables
(src/compress/deflate.rs:1613-1630). -/
def reversedCodes (codes : List (Nat × Nat)) : R (List (Nat × Nat)) :=
  codes.mapM (fun c => do return (← reverseBits c.1 c.2, c.2))

/-- `fixed_literal_codes_rev` (src/compress/deflate.rs:1613-1620, 1633-1635). -/
def fixedLitRev : R (List (Nat × Nat)) := do reversedCodes (← Huffman.fixedLiteralCodes)

/-- `fixed_distance_codes_rev` (src/compress/deflate.rs:1623-1630, 1638-1640). -/
def fixedDistRev : R (List (Nat × Nat)) := do reversedCodes (← Huffman.fixedDistanceCodes)

/-! ### Counting -/

/-- `freqs[s] += 1` on `u32` counters. -/
def bump (freqs : List Nat) (s : Nat) : R (List Nat) := do
  let f ← getChecked freqs s
  if f + 1 < 2 ^ 32 then setChecked freqs s (f + 1) else .error .panic

/-- The counting of one token (src/compress/deflate.rs:405-420, 661-670, 1249-1258). -/
def countToken (f : List Nat × List Nat) : Token → R (List Nat × List Nat)
  | .lit b => do return (← bump f.1 b.toNat, f.2)
  | .mtch length distance => do
    let (ls, _, _) ← lengthCode length
    let lit ← bump f.1 ls
    let (ds, _, _) ← distanceCode distance
    let dist ← bump f.2 ds
    return (lit, dist)

/-- Counting of a list of tokens. -/
def countLoop : List Token → List Nat × List Nat → R (List Nat × List Nat)
  | [], f => .ok f
  | t :: ts, f => do countLoop ts (← countToken f t)

/-- `count_symbols` (src/compress/deflate.rs:400-431), `count_symbols_range`
(src/compress/deflate.rs:447-480, after slicing), and the same code inside the block writers
(src/compress/deflate.rs:656-676, 1244-1266, 1368-1388). The additional debug assertion on the
distance repeats that of `distance_code`. -/
def countSymbols (tokens : List Token) : R (List Nat × List Nat) := do
  let (lit, dist) ← countLoop tokens (List.replicate 286 0, List.replicate 30 0)
  let lit ← bump lit 256
  if dist.all (· == 0) then do
    let dist ← setChecked dist 0 1
    return (lit, dist)
  else return (lit, dist)

/-! ### Code lengths -/

/-- `rposition(|&l| l != 0)` on the first `n` elements. -/
def rposition (l : List Nat) : Nat → Option Nat
  | 0 => none
  | n + 1 => if l.getD n 0 ≠ 0 then some n else rposition l n

/-- `last_nonzero` (src/compress/deflate.rs:1470-1476). -/
def lastNonzero (lengths : List Nat) : Nat :=
  match rposition lengths lengths.length with
  | some i => i + 1
  | none => 1

/-- The list of emitted triples and the frequencies of the code length symbols. -/
abbrev Rle := List (Nat × Nat × Nat) × List Nat

/-- `encoded.push(..)` and `cl_freqs[..] += 1` (src/compress/deflate.rs:1513-1514 and the
same five times below). -/
def Rle.emit (r : Rle) (sym extra bits : Nat) : R Rle := do
  let freqs ← bump r.2 sym
  return (r.1 ++ [(sym, extra, bits)], freqs)

/-- A run of zeros (src/compress/deflate.rs:1509-1526). -/
def rleZeros : Nat → Nat → Rle → R Rle
  | 0, _, _ => .error .hang
  | fuel + 1, rem, r =>
    if rem > 0 then
      if rem ≥ 11 then do
        let take := min rem 138
        let r ← r.emit 18 (take - 11) 7
        rleZeros fuel (rem - take) r
      else if rem ≥ 3 then do
        let take := min rem 10
        let r ← r.emit 17 (take - 3) 3
        rleZeros fuel (rem - take) r
      else do
        let r ← r.emit 0 0 0
        rleZeros fuel (rem - 1) r
    else .ok r

/-- Repetitions of a non-zero length (src/compress/deflate.rs:1532-1537). -/
def rleRepeats : Nat → Nat → Rle → R (Nat × Rle)
  | 0, _, _ => .error .hang
  | fuel + 1, rem, r =>
    if rem ≥ 3 then do
      let take := min rem 6
      let r ← r.emit 16 (take - 3) 2
      rleRepeats fuel (rem - take) r
    else .ok (rem, r)

/-- The remaining copies (src/compress/deflate.rs:1538-1542). -/
def rleSingles (curr : Nat) : Nat → Rle → R Rle
  | 0, r => .ok r
  | rem + 1, r => do
    let r ← r.emit curr 0 0
    rleSingles curr rem r

/-- A run (src/compress/deflate.rs:1508-1543). -/
def rleRun (curr run : Nat) (r : Rle) : R Rle :=
  if curr = 0 then rleZeros (run + 1) run r
  else do
    let r ← r.emit curr 0 0
    let (rem, r) ← rleRepeats (run + 1) (run - 1) r
    rleSingles curr rem r

/-- The number of further elements equal to `curr` (src/compress/deflate.rs:1503-1506). -/
def runLength (curr : Nat) : List Nat → Nat
  | [] => 0
  | x :: xs => if x = curr then 1 + runLength curr xs else 0

/-- The main loop of `rle_code_lengths` (src/compress/deflate.rs:1501-1546); the index `i` is
replaced by what is left of the sequence. -/
def rleLoop : Nat → List Nat → Rle → R Rle
  | _, [], r => .ok r
  | 0, _ :: _, _ => .error .hang
  | fuel + 1, curr :: rest, r => do
    let more := runLength curr rest
    let r ← rleRun curr (1 + more) r
    rleLoop fuel (rest.drop more) r

/-- `rle_code_lengths` (src/compress/deflate.rs:1490-1549). -/
def rleCodeLengths (lit dist : List Nat) : R Rle :=
  rleLoop (lit ++ dist).length (lit ++ dist) ([], List.replicate 19 0)

/-- `cl_order` (src/compress/deflate.rs:698-700, 1293-1295, 1410-1412). -/
def clOrder : List Nat := [16, 17, 18, 0, 8, 7, 9, 6, 10, 5, 11, 4, 12, 3, 13, 2, 14, 1, 15]

/-- The search for the last used code length code (src/compress/deflate.rs:701-707, 1298-1304,
1414-1420), on the first `n` entries of `cl_order`. -/
def hclenLoop (codes : List (Nat × Nat)) : Nat → R Nat
  | 0 => .ok 0
  | n + 1 => do
    let idx ← getChecked clOrder n
    let c ← getChecked codes idx
    if c.2 > 0 then .ok (min n 15) else hclenLoop codes n

/-! ### Writing -/

/-- `writer.write_bits(code, len)` for a table entry. -/
def writeCode (rev : List (Nat × Nat)) (s : Nat) (w : BitWriter64) : R BitWriter64 := do
  let (code, len) ← getChecked rev s
  w.writeBitsChecked code len

/-- `if bits > 0 { writer.write_bits(value, bits) }`. -/
def writeExtra (value bits : Nat) (w : BitWriter64) : R BitWriter64 :=
  if bits > 0 then w.writeBitsChecked value bits else .ok w

/-- One token (src/compress/deflate.rs:729-749, 1162-1186, 1213-1230, 1330-1350, 1444-1461). -/
def writeToken (lit dist : List (Nat × Nat)) (w : BitWriter64) : Token → R BitWriter64
  | .lit b => writeCode lit b.toNat w
  | .mtch length distance => do
    let (ls, lx, lv) ← lengthCode length
    let w ← writeCode lit ls w
    let w ← writeExtra lv lx w
    let (ds, dx, dv) ← distanceCode distance
    let w ← writeCode dist ds w
    writeExtra dv dx w

/-- All tokens and the end of block symbol (src/compress/deflate.rs:728-753, 1161-1191,
1329-1355, 1443-1465). -/
def writeBody (lit dist : List (Nat × Nat)) : List Token → BitWriter64 → R BitWriter64
  | [], w => writeCode lit 256 w
  | t :: ts, w => do writeBody lit dist ts (← writeToken lit dist w t)

/-- The code length code lengths (src/compress/deflate.rs:716-718, 1315-1317, 1431-1433). -/
def writeClLengths (codes : List (Nat × Nat)) : List Nat → BitWriter64 → R BitWriter64
  | [], w => .ok w
  | idx :: rest, w => do
    let c ← getChecked codes idx
    writeClLengths codes rest (← w.writeBitsChecked c.2 3)

/-- The run-length coded lengths (src/compress/deflate.rs:720-726, 1320-1326, 1435-1441). -/
def writeRle (rev : List (Nat × Nat)) : List (Nat × Nat × Nat) → BitWriter64 → R BitWriter64
  | [], w => .ok w
  | (sym, extra, bits) :: rest, w => do
    let w ← writeCode rev sym w
    writeRle rev rest (← writeExtra extra bits w)

/-- `write_dynamic_huffman_block` (src/compress/deflate.rs:655-754). The same code, with a new
writer and `is_final`, is `encode_dynamic_huffman_with_capacity`
(src/compress/deflate.rs:1243-1358). -/
def writeDynamicBlock (env : Env) (w : BitWriter64) (tokens : List Token) (isFinal : Bool) :
    R BitWriter64 := do
  let (litFreqs, distFreqs) ← countSymbols tokens
  let litCodes ← Huffman.buildCodes (env.tie litFreqs 15) litFreqs 15
  let distCodes ← Huffman.buildCodes (env.tie distFreqs 15) distFreqs 15
  let litRev ← reversedCodes litCodes
  let distRev ← reversedCodes distCodes
  let litLengths := litCodes.map Prod.snd
  let distLengths := distCodes.map Prod.snd
  let hlit := min (lastNonzero litLengths - 257) 29
  let hdist := min (lastNonzero distLengths - 1) 29
  let (rle, clFreqs) ← rleCodeLengths (litLengths.take (257 + hlit)) (distLengths.take (1 + hdist))
  let clCodes ← Huffman.buildCodes (env.tie clFreqs 7) clFreqs 7
  let clRev ← reversedCodes clCodes
  let hclen ← hclenLoop clCodes 19
  let w ← w.writeBitsChecked (if isFinal then 1 else 0) 1
  let w ← w.writeBitsChecked 2 2
  let w ← w.writeBitsChecked hlit 5
  let w ← w.writeBitsChecked hdist 5
  let w ← w.writeBitsChecked hclen 4
  let w ← writeClLengths clCodes (clOrder.take (hclen + 4)) w
  let w ← writeRle clRev rle w
  writeBody litRev distRev tokens w

/-- `encode_dynamic_huffman_with_capacity` (src/compress/deflate.rs:1243-1358). -/
def encodeDynamic (env : Env) (tokens : List Token) : R (List UInt8) := do
  return (← writeDynamicBlock env {} tokens true).finish

/-- `encode_fixed_huffman_with_capacity` (src/compress/deflate.rs:1151-1194). -/
def encodeFixed (tokens : List Token) : R (List UInt8) := do
  let lit ← fixedLitRev
  let dist ← fixedDistRev
  let w ← BitWriter64.writeBitsChecked {} 1 1
  let w ← w.writeBitsChecked 1 2
  return (← writeBody lit dist tokens w).finish

/-- `encode_best_huffman` (src/compress/deflate.rs:99-118). -/
def encodeBest (env : Env) (tokens : List Token) : R (List UInt8) :=
  if tokens.length ≤ 128 then encodeFixed tokens
  else if tokens.length ≥ 128 then encodeDynamic env tokens
  else do
    let fixed ← encodeFixed tokens
    let dynamic ← encodeDynamic env tokens
    return if dynamic.length < fixed.length then dynamic else fixed

/-- What the loops over packed tokens see of one: `as_literal`, else `as_match`
(src/compress/deflate.rs:1212-1231, 1372-1382, 1443-1462). -/
def viewPacked (p : Nat) : R (Option Token) :=
  match asLiteral p with
  | some b => .ok (some (.lit b))
  | none => do
    match ← asMatch p with
    | some (l, d) => return some (.mtch l d)
    | none => return none

/-- The tokens seen by a loop over packed tokens. -/
def viewAll (ps : List Nat) : R (List Token) := do
  let ts ← ps.mapM viewPacked
  return ts.filterMap id

/-- `encode_fixed_huffman_packed_with_capacity` (src/compress/deflate.rs:1200-1237). -/
def encodeFixedPacked (ps : List Nat) : R (List UInt8) := do encodeFixed (← viewAll ps)

/-- `encode_dynamic_huffman_packed_with_capacity` (src/compress/deflate.rs:1364-1468). -/
def encodeDynamicPacked (env : Env) (ps : List Nat) : R (List UInt8) := do
  encodeDynamic env (← viewAll ps)

/-- `encode_best_huffman_packed` (src/compress/deflate.rs:121-143). -/
def encodeBestPacked (env : Env) (ps : List Nat) : R (List UInt8) :=
  if ps.length ≤ 128 then encodeFixedPacked ps
  else if ps.length ≥ 128 then encodeDynamicPacked env ps
  else do
    let fixed ← encodeFixedPacked ps
    let dynamic ← encodeDynamicPacked env ps
    return if dynamic.length < fixed.length then dynamic else fixed

/-! ### Block splitting -/

/-- `&tokens[start..end]`. -/
def sliceTokens (tokens : List Token) (start stop : Nat) : R (List Token) :=
  if start ≤ stop ∧ stop ≤ tokens.length then .ok ((tokens.drop start).take (stop - start))
  else .error .panic

/-- The entropy of the symbols with the given counts (src/compress/deflate.rs:509-514, 517-522). -/
def entropyLoop (env : Env) (logTotal : Int) : List Nat → Int → Int
  | [], bits => bits
  | c :: cs, bits =>
    entropyLoop env logTotal cs
      (if c > 0 then F64.add bits (F64.mul (F64.ofInt c) (F64.sub logTotal (env.log64 c))) else bits)

/-- The extra bits of lengths and distances (src/compress/deflate.rs:525-531). -/
def extraLoop : List Token → Int → R Int
  | [], bits => .ok bits
  | .lit _ :: ts, bits => extraLoop ts bits
  | .mtch length distance :: ts, bits => do
    let (_, lenExtra, _) ← lengthCode length
    let (_, distExtra, _) ← distanceCode distance
    extraLoop ts (F64.add bits (F64.ofInt (lenExtra + distExtra : Nat)))

/-- `BLOCK_HEADER_OVERHEAD_BITS` (src/compress/deflate.rs:439). -/
def headerBits : Int := F64.ofInt 300

/-- `estimate_block_cost` (src/compress/deflate.rs:484-534). -/
def estimateBlockCost (env : Env) (tokens : List Token) (start stop : Nat) : R Int :=
  if stop ≤ start then .ok 0
  else do
    let ts ← sliceTokens tokens start stop
    let (lit, dist) ← countSymbols ts
    let litTotal ← sumU32 lit 0
    let distTotal ← sumU32 dist 0
    if litTotal = 0 then return headerBits
    let logDist := if distTotal > 0 then env.log64 distTotal else 0
    extraLoop ts (entropyLoop env logDist dist (entropyLoop env (env.log64 litTotal) lit headerBits))

/-- The cost of splitting at `i` (src/compress/deflate.rs:553-555, 576-578). -/
def splitCost (env : Env) (tokens : List Token) (start i stop : Nat) : R Int := do
  let left ← estimateBlockCost env tokens start i
  let right ← estimateBlockCost env tokens i stop
  return F64.add left right

/-- The candidates `(start + 10..end - 10).step_by(step)` (src/compress/deflate.rs:550-557). -/
def candidates (env : Env) (tokens : List Token) (start stop step : Nat) :
    Nat → Nat → R (List (Nat × Int))
  | 0, _ => .error .hang
  | fuel + 1, i =>
    if i < stop - MIN_BLOCK then do
      let total ← splitCost env tokens start i stop
      let rest ← candidates env tokens start stop step fuel (i + step)
      return (i, total) :: rest
    else .ok []
where
  /-- src/compress/deflate.rs:442. -/
  MIN_BLOCK : Nat := 10

/-- `min_by`: the first smallest (src/compress/deflate.rs:560-562). -/
def minBy : List (Nat × Int) → Option (Nat × Int)
  | [] => none
  | c :: cs =>
    match minBy cs with
    | none => some c
    | some b => if b.2 < c.2 then some b else some c

/-- The fine search (src/compress/deflate.rs:575-583), `n` positions starting at `i`. -/
def fineSearch (env : Env) (tokens : List Token) (start stop : Nat) :
    Nat → Nat → Nat × Int → R (Nat × Int)
  | 0, _, best => .ok best
  | n + 1, i, best => do
    let total ← splitCost env tokens start i stop
    fineSearch env tokens start stop n (i + 1) (if total < best.2 then (i, total) else best)

/-- `find_best_split` (src/compress/deflate.rs:538-594), without the cost, which is not used. -/
def findBestSplit (env : Env) (tokens : List Token) (start stop : Nat) : R (Option Nat) := do
  let size ← subUsize stop start
  if size < 20 then .ok none
  else do
    let orig ← estimateBlockCost env tokens start stop
    let step := max (size / 9) 1
    let cands ← candidates env tokens start stop step (size + 1) (start + 10)
    match minBy cands with
    | none => .ok none
    | some (bi, cost) =>
      if cost < orig then do
        let fineStart := max (bi - step) (start + 10)
        let fineEnd := min (bi + step) (stop - 10)
        let (split, best) ← fineSearch env tokens start stop (fineEnd + 1 - fineStart) fineStart (bi, cost)
        if best < F64.sub orig (F64.ofInt 10) then .ok (some split) else .ok none
      else .ok none

/-- `largest_block.is_none_or(|(_, _, s)| size > s)` (src/compress/deflate.rs:627). -/
def beats (size : Nat) : Option (Nat × Nat × Nat) → Bool
  | none => true
  | some (_, _, s) => decide (size > s)

/-- The search for the largest block that is not done (src/compress/deflate.rs:612-631), over
consecutive boundaries. -/
def largestBlock (done : List Bool) : List Nat → Option (Nat × Nat × Nat) → R (Option (Nat × Nat × Nat))
  | start :: stop :: rest, best => do
    let size ← subUsize stop start
    let d ← getChecked done start
    largestBlock done (stop :: rest) (if !d && decide (size ≥ 20) && beats size best then some (start, stop, size) else best)
  | _, best => .ok best

/-- `once(0).chain(splits).chain(once(tokens.len()))` (src/compress/deflate.rs:166-169,
615-618, 835-838). -/
def boundaries (splits : List Nat) (n : Nat) : List Nat := 0 :: (splits ++ [n])

/-- Insertion in sorted order (src/compress/deflate.rs:640-644). -/
def insertSplit (splits : List Nat) (s : Nat) : List Nat :=
  let pos := (splits.findIdx? (· > s)).getD splits.length
  splits.take pos ++ s :: splits.drop pos

/-- The loop of `find_block_splits` (src/compress/deflate.rs:607-650). -/
def splitLoop (env : Env) (tokens : List Token) (maxBlocks : Nat) :
    Nat → List Nat → List Bool → Nat → R (List Nat)
  | 0, _, _, _ => .error .hang
  | fuel + 1, splits, done, num =>
    if num ≥ maxBlocks then .ok splits
    else do
      match ← largestBlock done (boundaries splits tokens.length) none with
      | none => .ok splits
      | some (start, stop, _) =>
        match ← findBestSplit env tokens start stop with
        | some s => splitLoop env tokens maxBlocks fuel (insertSplit splits s) done (num + 1)
        | none => do
          let done ← setChecked done start true
          splitLoop env tokens maxBlocks fuel splits done num

/-- `find_block_splits` (src/compress/deflate.rs:598-653). -/
def findBlockSplits (env : Env) (tokens : List Token) (maxBlocks : Nat) : R (List Nat) :=
  if tokens.length < 20 ∨ maxBlocks ≤ 1 then .ok []
  else splitLoop env tokens maxBlocks (maxBlocks + tokens.length + 1) []
    (List.replicate tokens.length false) 1

/-- One dynamic block per pair of boundaries (src/compress/deflate.rs:171-177, 840-847). -/
def writeBlocks (env : Env) (tokens : List Token) : List Nat → BitWriter64 → R BitWriter64
  | start :: stop :: rest, w => do
    let ts ← sliceTokens tokens start stop
    let w ← writeDynamicBlock env w ts rest.isEmpty
    writeBlocks env tokens (stop :: rest) w
  | _, w => .ok w

/-- A match with distance zero (src/compress/deflate.rs:153-156, 814). -/
def zeroDistance : Token → Bool
  | .mtch _ 0 => true
  | _ => false

/-- `encode_with_block_splitting` (src/compress/deflate.rs:146-180). The debug assertion says
that no match has distance zero. -/
def encodeSplit (env : Env) (tokens : List Token) (maxBlocks : Nat) : R (List UInt8) :=
  if tokens.length < 20 then encodeDynamic env tokens
  else if tokens.any zeroDistance then .error .panic
  else do
    let splits ← findBlockSplits env tokens maxBlocks
    if splits.isEmpty then encodeDynamic env tokens
    else return (← writeBlocks env tokens (boundaries splits tokens.length) {}).finish

/-! ### Containers -/

/-- `deflate_stored` (src/compress/deflate.rs:1664-1688). -/
def storedLoop : Nat → List UInt8 → R (List UInt8)
  | _, [] => .ok []
  | 0, _ :: _ => .error .hang
  | fuel + 1, data => do
    let chunk := data.take 65535
    let rest := data.drop 65535
    let len := chunk.length % 2 ^ 16
    let nlen := 65535 - len
    let more ← storedLoop fuel rest
    return [if rest.isEmpty then 1 else 0, UInt8.ofNat len, UInt8.ofNat (len >>> 8), UInt8.ofNat nlen,
      UInt8.ofNat (nlen >>> 8)] ++ chunk ++ more

/-- `deflate_stored` (src/compress/deflate.rs:1664-1688). -/
def deflateStored (data : List UInt8) : R (List UInt8) := storedLoop data.length data

/-- `zlib_header` (src/compress/deflate.rs:1642-1658). -/
def zlibHeader (level : Nat) : List UInt8 :=
  let cmf := 0x78
  let flevel := if level ≤ 2 then 1 else if level ≤ 6 then 2 else 3
  let flg := flevel <<< 6
  let fcheck := (31 - ((cmf <<< 8 ||| flg) % 31)) % 31
  [UInt8.ofNat cmf, UInt8.ofNat (flg ||| fcheck)]

/-- `to_be_bytes` of a `u32`. -/
def beBytes (v : Nat) : List UInt8 :=
  [UInt8.ofNat (v >>> 24), UInt8.ofNat (v >>> 16), UInt8.ofNat (v >>> 8), UInt8.ofNat v]

/-- `empty_deflate_fixed_block` (src/compress/deflate.rs:1593-1601). -/
def emptyFixedBlock : R (List UInt8) := do
  let w ← BitWriter64.writeBitsChecked {} 1 1
  let w ← w.writeBitsChecked 1 2
  let lit ← fixedLitRev
  return (← writeCode lit 256 w).finish

/-- Header, body and checksum (src/compress/deflate.rs:383-392, 863-872, 959-968, 1023-1025,
1035-1044, 1084-1087, 1606-1608). -/
def zlibWrap (adler : List UInt8 → R Nat) (level : Nat) (data body : List UInt8) : R (List UInt8) := do
  let sum ← adler data
  return zlibHeader level ++ body ++ beBytes sum

/-- `empty_zlib` (src/compress/deflate.rs:1604-1610). -/
def emptyZlib (adler : List UInt8 → R Nat) (level : Nat) : R (List UInt8) := do
  zlibWrap adler level [] (← emptyFixedBlock)

/-- `should_use_stored` (src/compress/deflate.rs:1091-1097). -/
def shouldUseStored (dataLen deflatedLen : Nat) : Bool :=
  let storedOverhead := (dataLen / 65535 + 1) * 5
  let storedTotal := dataLen + storedOverhead + 2 + 4
  decide (deflatedLen + 2 + 4 ≥ storedTotal)

/-- The choice between the compressed and the stored form (src/compress/deflate.rs:380-393,
860-873, 956-969, 1032-1045). -/
def wrapBest (adler : List UInt8 → R Nat) (level : Nat) (data deflated : List UInt8) : R (List UInt8) := do
  if shouldUseStored data.length deflated.length then
    zlibWrap adler level data (← deflateStored data)
  else zlibWrap adler level data deflated

/-- `Deflater` (src/compress/deflate.rs:877-882). -/
structure Deflater where
  level : Nat
  lz77 : State

/-- `Deflater::new` (src/compress/deflate.rs:885-893). -/
def Deflater.new (level : Nat) : Deflater :=
  ⟨min (max level 1) 9, State.new (min (max level 1) 9)⟩

/-- The encoding of the tokens in `compress` and `compress_zlib`
(src/compress/deflate.rs:910-919, 946-954). -/
def encodeChoice (env : Env) (level : Nat) (data : List UInt8) (tokens : List Token) : R (List UInt8) :=
  if level ≥ 5 ∧ data.length > 1024 ∧ data.length ≤ 512 * 1024 then encodeSplit env tokens 15
  else encodeBest env tokens

/-- `Deflater::compress` (src/compress/deflate.rs:900-920). -/
def Deflater.compress (env : Env) (d : Deflater) (data : List UInt8) : R (List UInt8 × Deflater) :=
  if data.isEmpty then do return (← emptyFixedBlock, d)
  else do
    let (tokens, lz) ← Lz77.compress env.level d.lz77 data
    return (← encodeChoice env d.level data tokens, { d with lz77 := lz })

/-- `Deflater::compress_fixed_only` (src/compress/deflate.rs:923-934). -/
def Deflater.compressFixedOnly (env : Env) (d : Deflater) (data : List UInt8) :
    R (List UInt8 × Deflater) :=
  if data.isEmpty then do return (← emptyFixedBlock, d)
  else do
    let (tokens, lz) ← Lz77.compress env.level d.lz77 data
    return (← encodeFixed tokens, { d with lz77 := lz })

/-- `Deflater::compress_zlib` (src/compress/deflate.rs:936-970). -/
def Deflater.compressZlib (env : Env) (adler : List UInt8 → R Nat) (d : Deflater) (data : List UInt8) :
    R (List UInt8 × Deflater) :=
  if data.isEmpty then do return (← emptyZlib adler d.level, d)
  else do
    let (tokens, lz) ← Lz77.compress env.level d.lz77 data
    let deflated ← encodeChoice env d.level data tokens
    return (← wrapBest adler d.level data deflated, { d with lz77 := lz })

/-- `token_counts_packed`, the second count (src/compress/deflate.rs:1049-1060). -/
def matchCount (ps : List Nat) : Nat := ps.countP (fun p => !isLiteral p)

/-- `Deflater::compress_packed` (src/compress/deflate.rs:972-991). -/
def Deflater.compressPacked (env : Env) (d : Deflater) (data : List UInt8) : R (List UInt8 × Deflater) :=
  if data.isEmpty then do return (← emptyFixedBlock, d)
  else do
    let (ps, lz) ← Lz77.compressPacked env.level d.lz77 data
    if matchCount ps = 0 ∧ data.length ≥ 8192 then
      return (← deflateStored data, { d with lz77 := lz })
    else return (← encodeBestPacked env ps, { d with lz77 := lz })

/-- `Deflater::compress_fixed_only_packed` (src/compress/deflate.rs:994-1006). -/
def Deflater.compressFixedOnlyPacked (env : Env) (d : Deflater) (data : List UInt8) :
    R (List UInt8 × Deflater) :=
  if data.isEmpty then do return (← emptyFixedBlock, d)
  else do
    let (ps, lz) ← Lz77.compressPacked env.level d.lz77 data
    return (← encodeFixedPacked ps, { d with lz77 := lz })

/-- `Deflater::compress_packed_zlib` (src/compress/deflate.rs:1008-1046). -/
def Deflater.compressPackedZlib (env : Env) (adler : List UInt8 → R Nat) (d : Deflater)
    (data : List UInt8) : R (List UInt8 × Deflater) :=
  if data.isEmpty then do return (← emptyZlib adler d.level, d)
  else do
    let (ps, lz) ← Lz77.compressPacked env.level d.lz77 data
    if matchCount ps = 0 ∧ data.length ≥ 8192 then
      return (← zlibWrap adler d.level data (← deflateStored data), { d with lz77 := lz })
    else do
      let deflated ← encodeBestPacked env ps
      return (← wrapBest adler d.level data deflated, { d with lz77 := lz })

/-- The static pool `DEFLATE_REUSE` (src/compress/deflate.rs:77-81). -/
abbrev Pool := List Deflater

/-- Initialisation of the pool (src/compress/deflate.rs:78-80). -/
def Pool.new : Pool := (List.range 10).map (fun level => Deflater.new (max level 1))

/-- `with_reusable_deflater` (src/compress/deflate.rs:84-96). Calls are serialised by the mutex;
a poisoned mutex is not modelled, since nothing here panics. -/
def withReusable {α : Type} (pool : Pool) (level : Nat) (f : Deflater → R (α × Deflater)) : R (α × Pool) := do
  let level := min (max level 1) 9
  let d ← getChecked pool level
  let d := if d.level ≠ level then Deflater.new level else d
  let (a, d) ← f d
  return (a, pool.set level d)

/-- `deflate` (src/compress/deflate.rs:245-255). -/
def deflate (env : Env) (pool : Pool) (data : List UInt8) (level : Nat) : R (List UInt8 × Pool) :=
  if data.isEmpty then do return (← emptyFixedBlock, pool)
  else if data.length ≤ 1024 then withReusable pool level (fun d => d.compressFixedOnly env data)
  else withReusable pool level (fun d => d.compress env data)

/-- `deflate_packed` (src/compress/deflate.rs:259-269). -/
def deflatePacked (env : Env) (pool : Pool) (data : List UInt8) (level : Nat) : R (List UInt8 × Pool) :=
  if data.isEmpty then do return (← emptyFixedBlock, pool)
  else if data.length ≤ 1024 then withReusable pool level (fun d => d.compressFixedOnlyPacked env data)
  else withReusable pool level (fun d => d.compressPacked env data)

/-- The loop of `is_high_entropy_data` (src/compress/deflate.rs:1124-1133): `n` windows starting
at `i`. -/
def collisions (sample : List UInt8) : Nat → Nat → List Bool → Nat → R Nat
  | 0, _, _, c => .ok c
  | n + 1, i, seen, c => do
    let v ← word sample i
    let h := mulHash v 20 &&& (4096 - 1)
    let s ← getChecked seen h
    if s then collisions sample n (i + 1) seen (c + 1)
    else do
      let seen ← setChecked seen h true
      collisions sample n (i + 1) seen c

/-- `is_high_entropy_data` (src/compress/deflate.rs:1108-1145). -/
def isHighEntropy (data : List UInt8) : R Bool :=
  if data.length < 4096 then .ok false
  else do
    let sample := data.take 8192
    let c ← collisions sample (sample.length - 3) 0 (List.replicate 4096 false) 0
    return decide (F32.div (F32.ofInt c) (F32.ofInt (sample.length - 3 : Nat)) < F32.lit 5 100)

/-- `deflate_zlib_stored` (src/compress/deflate.rs:1082-1089). -/
def deflateZlibStored (adler : List UInt8 → R Nat) (data : List UInt8) (level : Nat) : R (List UInt8) := do
  zlibWrap adler level data (← deflateStored data)

/-- `data.len() >= HIGH_ENTROPY_BAIL_BYTES && is_high_entropy_data(data)`
(src/compress/deflate.rs:1067, 1075). -/
def bail (data : List UInt8) : R Bool :=
  if data.length ≥ 4096 then isHighEntropy data else .ok false

/-- `deflate_zlib` (src/compress/deflate.rs:1066-1071). -/
def deflateZlib (env : Env) (adler : List UInt8 → R Nat) (pool : Pool) (data : List UInt8) (level : Nat) :
    R (List UInt8 × Pool) := do
  let b ← bail data
  if b then return (← deflateZlibStored adler data level, pool)
  else withReusable pool level (fun d => d.compressZlib env adler data)

/-- `deflate_zlib_packed` (src/compress/deflate.rs:1074-1079). -/
def deflateZlibPacked (env : Env) (adler : List UInt8 → R Nat) (pool : Pool) (data : List UInt8)
    (level : Nat) : R (List UInt8 × Pool) := do
  let b ← bail data
  if b then return (← deflateZlibStored adler data level, pool)
  else withReusable pool level (fun d => d.compressPackedZlib env adler data)

/-! ### Iterated optimal parsing -/

/-- `literal_cost` or `match_cost` of a token (src/compress/deflate.rs:335-338, 790-793). -/
def tokenCost (cm : CostModel) : Token → R Int
  | .lit b => cm.literalCost b
  | .mtch l d => cm.matchCost l d

/-- The `f32` sum (src/compress/deflate.rs:333-339, 788-794). -/
def costSum (cm : CostModel) : List Token → Int → R Int
  | [], acc => .ok acc
  | t :: ts, acc => do costSum cm ts (addF acc (← tokenCost cm t))

/-- `(old as f32 * 0.5 + new as f32) as u32` (src/compress/deflate.rs:348-353, 804-809). In units
of one half the product is exact. -/
def blend (old new : Nat) : Nat :=
  min (roundNat (roundNat old + 2 * roundNat new) / 2) (2 ^ 32 - 1)

/-- `(prev_cost - cost).abs() < cost * 0.001` (src/compress/deflate.rs:341, 796). -/
def converged (prev cost : Int) : Bool :=
  decide (((F32.sub prev cost).natAbs : Int) < F32.mul cost (F32.lit 1 1000))

/-- State of the refinement loop. -/
structure Refine where
  lz : State
  cache : Cache
  lit : List Nat
  dist : List Nat
  prev : Int

/-- The part of an iteration common to `deflate_optimal` and `deflate_optimal_split`
(src/compress/deflate.rs:315-353, 781-809): the tokens, the next state, and whether the loop is
left. -/
def refineStep (env : Env) (data : List UInt8) (iter : Nat) (s : Refine) :
    R (List Token × Refine × Bool) := do
  let cm ← CostModel.fromStatistics env.log2 s.lit s.dist
  let (tokens, lz, cache) ← compressOptimalCached env.level s.lz cm data s.cache
  let (newLit, newDist) ← countSymbols tokens
  let cost ← costSum cm tokens 0
  return (tokens,
    ⟨lz, cache, List.zipWith blend s.lit newLit, List.zipWith blend s.dist newDist, cost⟩,
    decide (iter > 2) && converged s.prev cost)

/-- The start of both functions (src/compress/deflate.rs:296-312, 767-777). -/
def refineStart (env : Env) (data : List UInt8) : R (List Token × Refine) := do
  let (tokens, lz) ← Lz77.compress env.level (State.new 9) data
  let (lit, dist) ← countSymbols tokens
  return (tokens, ⟨lz, Cache.new data.length, lit, dist, f32Max⟩)

/-- The loop of `deflate_optimal` (src/compress/deflate.rs:314-354): `n` iterations are left. -/
def optimalLoop (env : Env) (data : List UInt8) : Nat → Nat → Refine → List UInt8 → R (List UInt8)
  | 0, _, _, best => .ok best
  | n + 1, iter, s, best => do
    let (tokens, s, stop) ← refineStep env data iter s
    let output ← encodeDynamic env tokens
    let best := if output.length < best.length then output else best
    if stop then .ok best else optimalLoop env data n (iter + 1) s best

/-- `deflate_optimal` (src/compress/deflate.rs:291-357). -/
def deflateOptimal (env : Env) (data : List UInt8) (iterations : Nat) : R (List UInt8) :=
  if data.isEmpty then emptyFixedBlock
  else do
    let (tokens, s) ← refineStart env data
    let best ← encodeDynamic env tokens
    optimalLoop env data iterations 0 s best

/-- The loop of `deflate_optimal_split` (src/compress/deflate.rs:780-810). -/
def splitRefineLoop (env : Env) (data : List UInt8) :
    Nat → Nat → Refine → List Token → R (List Token × Refine)
  | 0, _, s, best => .ok (best, s)
  | n + 1, iter, s, _ => do
    let (tokens, s, stop) ← refineStep env data iter s
    if stop then .ok (tokens, s) else splitRefineLoop env data n (iter + 1) s tokens

/-- The end of `deflate_optimal_split` (src/compress/deflate.rs:823-850). -/
def encodeSplitBlocks (env : Env) (tokens : List Token) (maxBlocks : Nat) : R (List UInt8) := do
  let splits ← findBlockSplits env tokens maxBlocks
  if splits.isEmpty then return (← writeDynamicBlock env {} tokens true).finish
  else return (← writeBlocks env tokens (boundaries splits tokens.length) {}).finish

/-- `deflate_optimal_split` (src/compress/deflate.rs:762-851). -/
def deflateOptimalSplit (env : Env) (data : List UInt8) (iterations maxBlocks : Nat) : R (List UInt8) :=
  if data.isEmpty then emptyFixedBlock
  else do
    let (tokens, s) ← refineStart env data
    let (best, s) ← splitRefineLoop env data iterations 0 s tokens
    if best.any zeroDistance then do
      let (tokens, _) ← Lz77.compress env.level s.lz data
      encodeBest env tokens
    else encodeSplitBlocks env best maxBlocks

/-- `deflate_optimal_split_zlib` (src/compress/deflate.rs:854-874). -/
def deflateOptimalSplitZlib (env : Env) (adler : List UInt8 → R Nat) (data : List UInt8)
    (iterations maxBlocks : Nat) : R (List UInt8) :=
  if data.isEmpty then emptyZlib adler 9
  else do
    let deflated ← deflateOptimalSplit env data iterations maxBlocks
    wrapBest adler 9 data deflated

/-- `deflate_optimal_zlib` (src/compress/deflate.rs:371-398). -/
def deflateOptimalZlib (env : Env) (adler : List UInt8 → R Nat) (data : List UInt8) (iterations : Nat) :
    R (List UInt8) :=
  if data.isEmpty then emptyZlib adler 9
  else if data.length > 512 * 1024 then do
    let deflated ← deflateOptimal env data iterations
    wrapBest adler 9 data deflated
  else deflateOptimalSplitZlib env adler data iterations 15

end Pixo.Deflate
