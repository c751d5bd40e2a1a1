import Verif.Model.SimdAdler
import Verif.Model.MatchLength
/-
Model of src/png/filter.rs and of the row filters in src/simd/fallback.rs:91-160,
src/simd/x86_64.rs:506-1027, src/simd/aarch64.rs:163-449, with the dispatch of
src/simd/mod.rs:130-236.

A filter function appends one byte per row byte to its output; the model returns the appended
bytes. Row scores are sums of at most `len` bytes and cannot reach 2^64, so they are natural
numbers without wrapping. A vector load past the end of a slice, undefined behaviour in Rust,
is `panic` here. Building without the `simd` feature (src/png/filter.rs:214-219 etc.) runs the
same loops as src/simd/fallback.rs and is the level `scalar`.
-/
namespace Pixo.Filter
open Pixo.Simd (Level)
open Pixo.MatchLength (slice)

/-- `FilterStrategy` (src/png/mod.rs:337-358). -/
inductive Strategy where
  | none | sub | up | average | paeth | minSum | adaptive | adaptiveFast | bigrams
  deriving DecidableEq

/-- `n` iterations of a loop over byte indices `i, i+1, ...`, each pushing one byte. -/
def idxLoop (f : Nat → R UInt8) : Nat → Nat → R (List UInt8)
  | _, 0 => .ok []
  | i, n + 1 => do
    let x ← f i
    let r ← idxLoop f (i + 1) n
    return x :: r

/-- The loop `while i + w <= len { ...; i += w }`, each round pushing the `w` bytes `v i`;
returns them with the final `i`. -/
def vecLoop (w : Nat) (v : Nat → R (List UInt8)) : Nat → Nat → Nat → R (List UInt8 × Nat)
  | 0, _, _ => .error .hang
  | fuel + 1, i, len =>
    if i + w ≤ len then do
      let x ← v i
      let (r, j) ← vecLoop w v fuel (i + w) len
      return (x ++ r, j)
    else .ok ([], i)

/-- Vector loop followed by the scalar loop `while i < len`. -/
def vecThenTail (w : Nat) (v : Nat → R (List UInt8)) (f : Nat → R UInt8) (i len : Nat) :
    R (List UInt8) := do
  let (x, j) ← vecLoop w v (len + 1) i len
  let y ← idxLoop f j (len - j)
  return x ++ y

/-- `if i >= bpp { row[i - bpp] } else { 0 }`. -/
def leftByte (row : List UInt8) (bpp i : Nat) : R UInt8 :=
  if i ≥ bpp then getChecked row (i - bpp) else .ok 0

/-- `((left as u16 + above as u16) / 2) as u8`. -/
def average (left above : UInt8) : UInt8 := UInt8.ofNat ((left.toNat + above.toNat) / 2)

/-- `paeth_predictor` (src/png/filter.rs:281-299, src/simd/fallback.rs:142-160,
src/decode/png.rs:412-426). The i16 (i32 in the decoder) intermediate values lie between -255
and 510. -/
def paethPredictor (a b c : UInt8) : UInt8 :=
  let p : Int := a.toNat + b.toNat - c.toNat
  let pa := (p - a.toNat).natAbs
  let pb := (p - b.toNat).natAbs
  let pc := (p - c.toNat).natAbs
  if pa ≤ pb && pa ≤ pc then a else if pb ≤ pc then b else c

/-! ### Scalar filters -/

/-- One byte of `filter_sub` (src/simd/fallback.rs:103-106). -/
def subAt (row : List UInt8) (bpp i : Nat) : R UInt8 := do
  let byte ← getChecked row i
  let left ← leftByte row bpp i
  return byte - left

/-- One byte of `filter_up` (src/simd/fallback.rs:112-114). -/
def upAt (row prev : List UInt8) (i : Nat) : R UInt8 := do
  let byte ← getChecked row i
  let above ← getChecked prev i
  return byte - above

/-- One byte of `filter_average` (src/simd/fallback.rs:120-125). -/
def averageAt (row prev : List UInt8) (bpp i : Nat) : R UInt8 := do
  let byte ← getChecked row i
  let left ← leftByte row bpp i
  let above ← getChecked prev i
  return byte - average left above

/-- One byte of `filter_paeth` (src/simd/fallback.rs:131-137). -/
def paethAt (row prev : List UInt8) (bpp i : Nat) : R UInt8 := do
  let byte ← getChecked row i
  let left ← leftByte row bpp i
  let above ← getChecked prev i
  let upperLeft ← leftByte prev bpp i
  return byte - paethPredictor left above upperLeft

/-- `filter_sub` (src/simd/fallback.rs:102-107). -/
def subScalar (row : List UInt8) (bpp : Nat) : R (List UInt8) :=
  idxLoop (subAt row bpp) 0 row.length

/-- `filter_up` (src/simd/fallback.rs:111-115). -/
def upScalar (row prev : List UInt8) : R (List UInt8) := idxLoop (upAt row prev) 0 row.length

/-- `filter_average` (src/simd/fallback.rs:119-126). -/
def averageScalar (row prev : List UInt8) (bpp : Nat) : R (List UInt8) :=
  idxLoop (averageAt row prev bpp) 0 row.length

/-- `filter_paeth` (src/simd/fallback.rs:130-139). -/
def paethScalar (row prev : List UInt8) (bpp : Nat) : R (List UInt8) :=
  idxLoop (paethAt row prev bpp) 0 row.length

/-- `(b as i8).unsigned_abs()`. -/
def absI8 (b : UInt8) : Nat := if b.toNat < 128 then b.toNat else 256 - b.toNat

/-- `score_filter` (src/simd/fallback.rs:93-98, src/png/filter.rs:616-629). -/
def scoreScalar (filtered : List UInt8) : Nat := (filtered.map absI8).sum

/-! ### Vector filters -/

/-- `_mm_sub_epi8`, `_mm256_sub_epi8`, `vsubq_u8`. -/
def subLanes (a b : List UInt8) : List UInt8 := List.zipWith (· - ·) a b

/-- Body of the vector loop of `filter_sub` on the slices `remaining` and `left`
(src/simd/x86_64.rs:619-628, 688-697; src/simd/aarch64.rs:231-239). -/
def subVec (w : Nat) (remaining left : List UInt8) (i : Nat) : R (List UInt8) := do
  let curr ← slice remaining i w
  let prev ← slice left i w
  return subLanes curr prev

/-- Byte of its scalar tail: `remaining[i].wrapping_sub(left[i])` (src/simd/x86_64.rs:632). -/
def subTail (remaining left : List UInt8) (i : Nat) : R UInt8 := do
  let a ← getChecked remaining i
  let b ← getChecked left i
  return a - b

/-- The common part of the vector `filter_sub`s after the first `bpp` bytes. -/
def subRest (w : Nat) (row : List UInt8) (bpp : Nat) : R (List UInt8) :=
  let remaining := row.drop bpp
  let left := row.take (row.length - bpp)
  vecThenTail w (subVec w remaining left) (subTail remaining left) 0 remaining.length

/-- `filter_sub_sse2` (src/simd/x86_64.rs:601-635); `&row[..bpp]` panics on a row shorter than
a pixel. -/
def subSse2 (row : List UInt8) (bpp : Nat) : R (List UInt8) := do
  let first ← slice row 0 bpp
  let rest ← subRest 16 row bpp
  return first ++ rest

/-- `filter_sub_avx2` (src/simd/x86_64.rs:670-702) and `filter_sub_neon`
(src/simd/aarch64.rs:209-246). -/
def subWide (w : Nat) (row : List UInt8) (bpp : Nat) : R (List UInt8) :=
  if row.length ≤ bpp then .ok (row.take (min bpp row.length))
  else do
    let rest ← subRest w row bpp
    return row.take (min bpp row.length) ++ rest

/-- Body of the vector loop of `filter_up` (src/simd/x86_64.rs:646-655, 947-956;
src/simd/aarch64.rs:259-267). -/
def upVec (w : Nat) (row prev : List UInt8) (i : Nat) : R (List UInt8) := do
  let curr ← slice row i w
  let above ← slice prev i w
  return subLanes curr above

/-- `filter_up_sse2`, `filter_up_avx2`, `filter_up_neon` (src/simd/x86_64.rs:642-663, 942-963;
src/simd/aarch64.rs:252-275). -/
def upWide (w : Nat) (row prev : List UInt8) : R (List UInt8) :=
  vecThenTail w (upVec w row prev) (upAt row prev) 0 row.length

/-- `unpacklo_epi8(v, zero)` on each 128-bit half: 16-bit lanes. -/
def unpackLo (v : List UInt8) : List Nat :=
  (List.range (v.length / 2)).map fun k => (v.getD (k / 8 * 16 + k % 8) 0).toNat

/-- `unpackhi_epi8(v, zero)` on each 128-bit half. -/
def unpackHi (v : List UInt8) : List Nat :=
  (List.range (v.length / 2)).map fun k => (v.getD (k / 8 * 16 + k % 8 + 8) 0).toNat

/-- Saturation of a signed 16-bit lane to a byte. -/
def satU8 (n : Nat) : UInt8 := if n ≥ 2 ^ 15 then 0 else if n > 255 then 255 else UInt8.ofNat n

/-- `packus_epi16(lo, hi)` on each 128-bit half. -/
def packus (lo hi : List Nat) : List UInt8 :=
  (List.range (2 * lo.length)).map fun j =>
    satU8 (if j % 16 < 8 then lo.getD (j / 16 * 8 + j % 8) 0 else hi.getD (j / 16 * 8 + j % 8) 0)

/-- `srli_epi16(add_epi16(a, b), 1)` on one lane. -/
def avgLane (a b : Nat) : Nat := (a + b) % 2 ^ 16 / 2

/-- The average of two 256-bit registers (src/simd/x86_64.rs:991-998). -/
def avgAvx2 (left above : List UInt8) : List UInt8 :=
  packus (List.zipWith avgLane (unpackLo left) (unpackLo above))
    (List.zipWith avgLane (unpackHi left) (unpackHi above))

/-- `vhaddq_u8`: halving add, rounding down. -/
def avgNeon (left above : List UInt8) : List UInt8 := List.zipWith average left above

/-- Body of the vector loop of `filter_average` (src/simd/x86_64.rs:985-1005,
src/simd/aarch64.rs:303-316). -/
def averageVec (w : Nat) (avg : List UInt8 → List UInt8 → List UInt8) (row prev : List UInt8)
    (bpp i : Nat) : R (List UInt8) := do
  let curr ← slice row i w
  let above ← slice prev i w
  let left ← slice row (i - bpp) w
  return subLanes curr (avg left above)

/-- The first bytes of `filter_average_avx2` and `filter_average_neon`, without left neighbour
(src/simd/x86_64.rs:974-979, src/simd/aarch64.rs:287-291). -/
def averageFirst (row prev : List UInt8) (i : Nat) : R UInt8 := do
  let above ← getChecked prev i
  let byte ← getChecked row i
  return byte - average 0 above

/-- `filter_average_avx2` (src/simd/x86_64.rs:969-1017) and `filter_average_neon`
(src/simd/aarch64.rs:282-325). -/
def averageWide (w : Nat) (avg : List UInt8 → List UInt8 → List UInt8) (row prev : List UInt8)
    (bpp : Nat) : R (List UInt8) := do
  let first ← idxLoop (averageFirst row prev) 0 (min bpp row.length)
  if row.length ≤ bpp then return first
  else do
    let rest ← vecThenTail w (averageVec w avg row prev bpp) (averageAt row prev bpp) bpp row.length
    return first ++ rest

/-- All ones or all zeros. -/
def mask16 (b : Bool) : BitVec 16 := if b then BitVec.allOnes 16 else 0#16

/-- `vabsq_s16`, `_mm256_abs_epi16`, `abs_epi16_sse2` (src/simd/x86_64.rs:707-711). -/
def abs16 (v : BitVec 16) : BitVec 16 := if v.toInt < 0 then 0#16 - v else v

/-- One 16-bit lane of `paeth_predict_neon` (src/simd/aarch64.rs:385-448), and of
`paeth_predict_128` and the AVX2 version (src/simd/x86_64.rs:714-776, 863-916), where
`pa <= pb` is computed as `NOT (pa > pb)`. -/
def paethLane (a b c : BitVec 16) : BitVec 16 :=
  let p := a + b - c
  let pa := abs16 (p - a)
  let pb := abs16 (p - b)
  let pc := abs16 (p - c)
  let maskA := mask16 (pa.toInt ≤ pb.toInt) &&& mask16 (pa.toInt ≤ pc.toInt)
  let maskB := ~~~maskA &&& mask16 (pb.toInt ≤ pc.toInt)
  ((a &&& maskA) ||| (b &&& maskB)) ||| (c &&& ~~~(maskA ||| maskB))

/-- Lanes of three registers. -/
def zip3 (f : BitVec 16 → BitVec 16 → BitVec 16 → BitVec 16) (a b c : List Nat) : List Nat :=
  List.zipWith (fun (p : Nat × Nat) z => (f (BitVec.ofNat 16 p.1) (BitVec.ofNat 16 p.2) (BitVec.ofNat 16 z)).toNat)
    (a.zip b) c

/-- `paeth_predict_128` and the AVX2 predictor: unpack, predict, pack with saturation. -/
def paethX86 (left above upperLeft : List UInt8) : List UInt8 :=
  packus (zip3 paethLane (unpackLo left) (unpackLo above) (unpackLo upperLeft))
    (zip3 paethLane (unpackHi left) (unpackHi above) (unpackHi upperLeft))

/-- `vmovl_u8` of half a register: 16-bit lanes. -/
def movl (v : List UInt8) : List Nat := v.map UInt8.toNat

/-- `vmovn_u16`: the low byte of each lane. -/
def movn (v : List Nat) : List UInt8 := v.map UInt8.ofNat

/-- `paeth_predict_neon` (src/simd/aarch64.rs:385-448): low and high half, widened, predicted,
narrowed and combined. -/
def paethNeon (left above upperLeft : List UInt8) : List UInt8 :=
  movn (zip3 paethLane (movl (left.take 8)) (movl (above.take 8)) (movl (upperLeft.take 8)))
    ++ movn (zip3 paethLane (movl (left.drop 8)) (movl (above.drop 8)) (movl (upperLeft.drop 8)))

/-- Body of the vector loop of `filter_paeth` (src/simd/x86_64.rs:800-814, 853-922;
src/simd/aarch64.rs:353-367). -/
def paethVec (w : Nat) (pred : List UInt8 → List UInt8 → List UInt8 → List UInt8)
    (row prev : List UInt8) (bpp i : Nat) : R (List UInt8) := do
  let curr ← slice row i w
  let left ← slice row (i - bpp) w
  let above ← slice prev i w
  let upperLeft ← slice prev (i - bpp) w
  return subLanes curr (pred left above upperLeft)

/-- First bytes of `filter_paeth_neon`: predicted by the byte above (src/simd/aarch64.rs:340-345). -/
def paethFirstNeon (row prev : List UInt8) (i : Nat) : R UInt8 := do
  let above ← getChecked prev i
  let byte ← getChecked row i
  return byte - above

/-- First bytes of the x86 versions (src/simd/x86_64.rs:787-793, 841-847). -/
def paethFirstX86 (row prev : List UInt8) (i : Nat) : R UInt8 := do
  let above ← getChecked prev i
  let byte ← getChecked row i
  return byte - paethPredictor 0 above 0

/-- `filter_paeth_neon` (src/simd/aarch64.rs:335-378), and the gated-off `filter_paeth_sse2`,
`filter_paeth_avx2` (src/simd/x86_64.rs:781-822, 837-934). -/
def paethWide (w : Nat) (pred : List UInt8 → List UInt8 → List UInt8 → List UInt8)
    (firstAt : Nat → R UInt8) (row prev : List UInt8) (bpp : Nat) : R (List UInt8) := do
  let first ← idxLoop firstAt 0 (min bpp row.length)
  if row.length ≤ bpp then return first
  else do
    let rest ← vecThenTail w (paethVec w pred row prev bpp) (paethAt row prev bpp) bpp row.length
    return first ++ rest

/-- One byte of `sad_epu8(v ^ 0x80, 0x80)` (src/simd/x86_64.rs:543-545, 578-580). -/
def sadByte (b : UInt8) : Nat := ((b ^^^ 0x80).toNat - (128 : Nat) : Int).natAbs

/-- A 64-bit lane of `sad_epu8`: eight bytes. -/
def sadLane (v : List UInt8) (k : Nat) : Nat := (((v.drop (8 * k)).take 8).map sadByte).sum

/-- `score_filter_sse2` with the two lanes of `sum` (src/simd/x86_64.rs:510-562). -/
def scoreSse2 : Nat → List UInt8 → Nat → Nat → Nat
  | 0, rem, l0, l1 => l0 + l1 + scoreScalar rem
  | fuel + 1, rem, l0, l1 =>
    if rem.length ≥ 16 then scoreSse2 fuel (rem.drop 16) (l0 + sadLane rem 0) (l1 + sadLane rem 1)
    else l0 + l1 + scoreScalar rem

/-- `score_filter_avx2` with the four lanes of `acc` (src/simd/x86_64.rs:569-595). -/
def scoreAvx2 : Nat → List UInt8 → Nat → Nat → Nat → Nat → Nat
  | 0, rem, l0, l1, l2, l3 => l0 + l1 + l2 + l3 + scoreScalar rem
  | fuel + 1, rem, l0, l1, l2, l3 =>
    if rem.length ≥ 32 then
      scoreAvx2 fuel (rem.drop 32) (l0 + sadLane rem 0) (l1 + sadLane rem 1) (l2 + sadLane rem 2)
        (l3 + sadLane rem 3)
    else l0 + l1 + l2 + l3 + scoreScalar rem

/-- Lanes of `vabsq_s8` reinterpreted as unsigned: the magnitude of -128 is 128. -/
def absLane (b : UInt8) : Nat := (if b.toNat ≥ 128 then 0 - b else b).toNat

/-- `vpaddlq` from eight bytes to one 64-bit lane. -/
def paddLane (v : List UInt8) (k : Nat) : Nat :=
  let x (j : Nat) := absLane (v.getD (8 * k + j) 0)
  ((x 0 + x 1) + (x 2 + x 3)) + ((x 4 + x 5) + (x 6 + x 7))

/-- `score_filter_neon` (src/simd/aarch64.rs:169-201). -/
def scoreNeon : Nat → List UInt8 → Nat → Nat
  | 0, rem, sum => sum + scoreScalar rem
  | fuel + 1, rem, sum =>
    if rem.length ≥ 16 then scoreNeon fuel (rem.drop 16) (sum + (paddLane rem 0 + paddLane rem 1))
    else sum + scoreScalar rem

/-! ### Dispatch (src/simd/mod.rs:130-236) -/

/-- `score_filter` (src/simd/mod.rs:136-155). -/
def scoreFilter (lv : Level) (filtered : List UInt8) : Nat :=
  match lv with
  | .avx2 => scoreAvx2 filtered.length filtered 0 0 0 0
  | .ssse3 | .sse2 => scoreSse2 filtered.length filtered 0 0
  | .scalar => scoreScalar filtered
  | .neon => scoreNeon filtered.length filtered 0

/-- `filter_sub` (src/simd/mod.rs:159-178). -/
def filterSub (lv : Level) (row : List UInt8) (bpp : Nat) : R (List UInt8) :=
  match lv with
  | .avx2 => subWide 32 row bpp
  | .ssse3 | .sse2 => subSse2 row bpp
  | .scalar => subScalar row bpp
  | .neon => subWide 16 row bpp

/-- `filter_up` (src/simd/mod.rs:182-201). -/
def filterUp (lv : Level) (row prev : List UInt8) : R (List UInt8) :=
  match lv with
  | .avx2 => upWide 32 row prev
  | .ssse3 | .sse2 => upWide 16 row prev
  | .scalar => upScalar row prev
  | .neon => upWide 16 row prev

/-- `filter_average` (src/simd/mod.rs:205-223). -/
def filterAverage (lv : Level) (row prev : List UInt8) (bpp : Nat) : R (List UInt8) :=
  match lv with
  | .avx2 => averageWide 32 avgAvx2 row prev bpp
  | .ssse3 | .sse2 | .scalar => averageScalar row prev bpp
  | .neon => averageWide 16 avgNeon row prev bpp

/-- `filter_paeth` (src/simd/mod.rs:227-236). -/
def filterPaeth (lv : Level) (row prev : List UInt8) (bpp : Nat) : R (List UInt8) :=
  match lv with
  | .neon => paethWide 16 paethNeon (paethFirstNeon row prev) row prev bpp
  | _ => paethScalar row prev bpp

/-! ### Row selection -/

/-- `score_bigrams` (src/png/filter.rs:635-649): counts the windows not seen before. -/
def bigramLoop : List UInt8 → List Nat → Nat → Nat
  | a :: b :: rest, seen, n =>
    let key := (a.toNat <<< 8) ||| b.toNat
    if key ∈ seen then bigramLoop (b :: rest) seen n else bigramLoop (b :: rest) (key :: seen) (n + 1)
  | _, _, n => n

/-- `score_bigrams` (src/png/filter.rs:635-649). -/
def scoreBigrams (filtered : List UInt8) : Nat := bigramLoop filtered [] 0

/-- A candidate kept so far: filter byte, filtered row, score. -/
structure Best where
  ft : UInt8
  row : List UInt8
  score : Nat

/-- `if score < best_score { best = candidate }`. -/
def Best.try (b : Best) (ft : UInt8) (row : List UInt8) (score : Nat) : Best :=
  if score < b.score then ⟨ft, row, score⟩ else b

/-- The bytes pushed for a chosen filter. -/
def Best.out (b : Best) : List UInt8 := b.ft :: b.row

/-- Paeth, the last candidate of `adaptive_filter` (src/png/filter.rs:373-392). -/
def adaptivePaeth (lv : Level) (row prev : List UInt8) (bpp : Nat) (best : Best) : R (List UInt8) := do
  let paeth ← filterPaeth lv row prev bpp
  return (best.try 4 paeth (scoreFilter lv paeth)).out

/-- Average (src/png/filter.rs:359-371): an improvement that is zero or at most `stop` ends
the search. -/
def adaptiveAverage (lv : Level) (row prev : List UInt8) (bpp stop : Nat) (best : Best) :
    R (List UInt8) := do
  let avg ← filterAverage lv row prev bpp
  let score := scoreFilter lv avg
  if score < best.score ∧ (score = 0 ∨ score ≤ stop) then return 3 :: avg
  else adaptivePaeth lv row prev bpp (best.try 3 avg score)

/-- Up (src/png/filter.rs:346-357). -/
def adaptiveUp (lv : Level) (row prev : List UInt8) (bpp stop : Nat) (best : Best) :
    R (List UInt8) := do
  let up ← filterUp lv row prev
  let score := scoreFilter lv up
  if score < best.score ∧ (score = 0 ∨ score ≤ stop) then return 2 :: up
  else adaptiveAverage lv row prev bpp stop (best.try 2 up score)

/-- Sub (src/png/filter.rs:333-344). -/
def adaptiveSub (lv : Level) (row prev : List UInt8) (bpp stop : Nat) (best : Best) :
    R (List UInt8) := do
  let sub ← filterSub lv row bpp
  let score := scoreFilter lv sub
  if score < best.score ∧ (score = 0 ∨ score ≤ stop) then return 1 :: sub
  else adaptiveUp lv row prev bpp stop (best.try 1 sub score)

/-- `adaptive_filter` (src/png/filter.rs:303-393) and `minsum_filter` (396-404). The first
score is below `u64::MAX`. -/
def adaptiveFilter (lv : Level) (row prev : List UInt8) (bpp : Nat) : R (List UInt8) :=
  let stop := row.length / 4 + 1
  let score := scoreFilter lv row
  if score ≤ stop then .ok (0 :: row)
  else if score = 0 then .ok (0 :: row)
  else adaptiveSub lv row prev bpp stop ⟨0, row, score⟩

/-- `bigrams_filter` (src/png/filter.rs:410-470). -/
def bigramsFilter (lv : Level) (row prev : List UInt8) (bpp : Nat) : R (List UInt8) := do
  let best : Best := ⟨0, row, scoreBigrams row⟩
  let sub ← filterSub lv row bpp
  let best := best.try 1 sub (scoreBigrams sub)
  let up ← filterUp lv row prev
  let best := best.try 2 up (scoreBigrams up)
  let avg ← filterAverage lv row prev bpp
  let best := best.try 3 avg (scoreBigrams avg)
  let paeth ← filterPaeth lv row prev bpp
  return (best.try 4 paeth (scoreBigrams paeth)).out

/-- The Paeth step of `adaptive_filter_fast` (src/png/filter.rs:511-527). -/
def fastPaeth (lv : Level) (row prev : List UInt8) (bpp stop : Nat) (best : Best) : R (List UInt8) :=
  if best.score ≤ stop then .ok best.out
  else do
    let paeth ← filterPaeth lv row prev bpp
    return (best.try 4 paeth (scoreFilter lv paeth)).out

/-- The Up step of `adaptive_filter_fast` (src/png/filter.rs:494-509). -/
def fastUp (lv : Level) (row prev : List UInt8) (bpp stop : Nat) (best : Best) : R (List UInt8) :=
  if best.score ≤ stop then .ok best.out
  else do
    let up ← filterUp lv row prev
    fastPaeth lv row prev bpp stop (best.try 2 up (scoreFilter lv up))

/-- `adaptive_filter_fast` (src/png/filter.rs:473-527). -/
def adaptiveFast (lv : Level) (row prev : List UInt8) (bpp : Nat) : R (List UInt8) := do
  let sub ← filterSub lv row bpp
  fastUp lv row prev bpp (row.length / 8 + 1) ⟨1, sub, scoreFilter lv sub⟩

/-- `filter_row` (src/png/filter.rs:529-570): the filter byte and the filtered row. -/
def filterRow (lv : Level) (row prev : List UInt8) (bpp : Nat) (st : Strategy) : R (List UInt8) :=
  match st with
  | .none => .ok (0 :: row)
  | .sub => return 1 :: (← filterSub lv row bpp)
  | .up => return 2 :: (← filterUp lv row prev)
  | .average => return 3 :: (← filterAverage lv row prev bpp)
  | .paeth => return 4 :: (← filterPaeth lv row prev bpp)
  | .minSum => adaptiveFilter lv row prev bpp
  | .adaptive => adaptiveFilter lv row prev bpp
  | .adaptiveFast => adaptiveFast lv row prev bpp
  | .bigrams => bigramsFilter lv row prev bpp

/-! ### Whole images -/

/-- The strategy used for the next row under `AdaptiveFast`, given the last filter byte
(src/png/filter.rs:145-150). -/
def biased (last : Option UInt8) : Strategy :=
  match last with
  | some 1 => .sub
  | some 2 => .up
  | some 4 => .paeth
  | _ => .adaptiveFast

/-- The strategy of one row of the sequential path (src/png/filter.rs:124-175). -/
def rowStrategy (st : Strategy) (last : Option UInt8) : Strategy :=
  match st with
  | .adaptiveFast => biased last
  | st => st

/-- The sequential loop over the rows `y, y+1, ...` (src/png/filter.rs:121-184). Filter
statistics for the log are in Model/FilterLog.lean. -/
def seqLoop (lv : Level) (data : List UInt8) (rowBytes bpp : Nat) (st : Strategy) :
    Nat → Nat → List UInt8 → Option UInt8 → R (List UInt8)
  | _, 0, _, _ => .ok []
  | y, n + 1, prev, last => do
    let row ← slice data (y * rowBytes) rowBytes
    let out ← filterRow lv row prev bpp (rowStrategy st last)
    let rest ← seqLoop lv data rowBytes bpp st (y + 1) n row out.head?
    return out ++ rest

/-- The row above row `y` in the parallel path (src/png/filter.rs:591-595). -/
def rowAbove (data : List UInt8) (rowBytes y : Nat) : R (List UInt8) :=
  if y = 0 then .ok (List.replicate rowBytes 0) else slice data ((y - 1) * rowBytes) rowBytes

/-- The task of one row in the parallel path (src/png/filter.rs:588-606). `copy_from_slice`
panics when the lengths differ. -/
def parRow (lv : Level) (data : List UInt8) (rowBytes bpp : Nat) (st : Strategy) (y : Nat) :
    R (List UInt8) := do
  let row ← slice data (y * rowBytes) rowBytes
  let prev ← rowAbove data rowBytes y
  let out ← filterRow lv row prev bpp st
  if out.length = rowBytes + 1 then return out else .error .panic

/-- Whether the strategy tries several filters and is replaced by Sub on small images. -/
def Strategy.tries (st : Strategy) : Bool :=
  match st with
  | .adaptive | .adaptiveFast | .bigrams => true
  | _ => false

/-- The height-aware strategy (src/png/filter.rs:76-85). The saturating product only matters
beyond 2^64. -/
def effective (st : Strategy) (width height : Nat) : Strategy :=
  if width * height ≤ 4096 ∧ st.tries then .sub else st

/-- `apply_filters_parallel` (src/png/filter.rs:574-608), for tasks run in the order `order`, a
permutation of the row numbers: each task writes its own chunk of the output. -/
def applyParallel (lv : Level) (data : List UInt8) (rowBytes bpp : Nat) (st : Strategy) :
    List Nat → List (List UInt8) → R (List (List UInt8))
  | [], out => .ok out
  | y :: ys, out => do
    let r ← parRow lv data rowBytes bpp st y
    let out ← setChecked out y r
    applyParallel lv data rowBytes bpp st ys out

/-- How rows are scheduled: `none` without the `parallel` feature, otherwise the order in which
the row tasks finish. -/
abbrev Schedule := Option (List Nat)

/-- `apply_filters_with_row_bytes` (src/png/filter.rs:64-203). -/
def applyFilters (lv : Level) (sched : Schedule) (data : List UInt8)
    (width height rowBytes bpp : Nat) (st : Strategy) : R (List UInt8) :=
  let st := effective st width height
  match sched with
  | some order =>
    if height > 32 ∧ st.tries then do
      let rows ← applyParallel lv data rowBytes bpp st order
        (List.replicate height (List.replicate (rowBytes + 1) 0))
      return rows.flatten
    else seqLoop lv data rowBytes bpp st 0 height (List.replicate rowBytes 0) none
  | none => seqLoop lv data rowBytes bpp st 0 height (List.replicate rowBytes 0) none

end Pixo.Filter
