import Verif.Model.Filter
import Verif.Model.SimdCrc
/-
The memory accesses of the vector routines of src/simd/x86_64.rs and src/simd/aarch64.rs behind the safe
functions of src/simd/mod.rs. Elsewhere in the model a vector load is a slice of the vector's width, so that a
load past the end of a slice is the same as a panic (Model/Filter.lean, Model/MatchLength.lean). Here it is told
apart: in `_mm_loadu_si128(row[i..].as_ptr())` only `i <= row.len()` is checked, and then sixteen bytes are read,
whether or not the slice has them. Sums of positions are taken not to overflow.
-/
namespace Pixo.Memory
open Pixo
open Pixo.Simd (Level)

/-- How a call can go wrong: it reads bytes outside the slice it was given, which is undefined behaviour, or it
panics. -/
inductive Fault where
  | outside
  | err (e : Err)
  deriving DecidableEq

abbrev U (α : Type) := Except Fault α

/-- Code without vector loads. -/
def lift {α : Type} : R α → U α
  | .ok v => .ok v
  | .error e => .error (.err e)

/-- `loadu(p.add(i))` of `w` bytes, where `p` is the start of `s`: nothing is checked
(src/simd/x86_64.rs:52-55, 516; src/simd/aarch64.rs:75, 175). -/
def loadAt (s : List UInt8) (i w : Nat) : U (List UInt8) :=
  if i + w ≤ s.length then .ok ((s.drop i).take w) else .error .outside

/-- `loadu(s[i..].as_ptr())` of `w` bytes: `i` is checked (src/simd/x86_64.rs:358-359, 620-621;
src/simd/aarch64.rs:119-120, 232-233). -/
def load (s : List UInt8) (i w : Nat) : U (List UInt8) :=
  if i ≤ s.length then loadAt s i w else .error (.err .panic)

/-! ### Filters -/

/-- The vector loop `while i + w <= len` (as `Filter.vecLoop`; src/simd/x86_64.rs:619-629, 646-656). -/
def vecLoop (w : Nat) (v : Nat → U (List UInt8)) : Nat → Nat → Nat → U (List UInt8 × Nat)
  | 0, _, _ => .error (.err .hang)
  | fuel + 1, i, len =>
    if i + w ≤ len then do
      let x ← v i
      let (r, j) ← vecLoop w v fuel (i + w) len
      return (x ++ r, j)
    else .ok ([], i)

/-- Vector loop followed by the scalar loop `while i < len` (src/simd/x86_64.rs:646-662). -/
def vecThenTail (w : Nat) (v : Nat → U (List UInt8)) (f : Nat → R UInt8) (i len : Nat) : U (List UInt8) := do
  let (x, j) ← vecLoop w v (len + 1) i len
  let y ← lift (Filter.idxLoop f j (len - j))
  return x ++ y

/-- Body of the vector loop of `filter_sub` (src/simd/x86_64.rs:619-628, 688-697; src/simd/aarch64.rs:231-239). -/
def subVec (w : Nat) (remaining left : List UInt8) (i : Nat) : U (List UInt8) := do
  let curr ← load remaining i w
  let prev ← load left i w
  return Filter.subLanes curr prev

/-- `filter_sub` after the first `bpp` bytes (src/simd/x86_64.rs:611-634, 681-702; src/simd/aarch64.rs:224-246). -/
def subRest (w : Nat) (row : List UInt8) (bpp : Nat) : U (List UInt8) :=
  let remaining := row.drop bpp
  let left := row.take (row.length - bpp)
  vecThenTail w (subVec w remaining left) (Filter.subTail remaining left) 0 remaining.length

/-- `filter_sub_sse2` (src/simd/x86_64.rs:601-635). -/
def subSse2 (row : List UInt8) (bpp : Nat) : U (List UInt8) := do
  let first ← lift (MatchLength.slice row 0 bpp)
  let rest ← subRest 16 row bpp
  return first ++ rest

/-- `filter_sub_avx2` (src/simd/x86_64.rs:670-702) and `filter_sub_neon` (src/simd/aarch64.rs:209-246). -/
def subWide (w : Nat) (row : List UInt8) (bpp : Nat) : U (List UInt8) :=
  if row.length ≤ bpp then .ok (row.take (min bpp row.length))
  else do
    let rest ← subRest w row bpp
    return row.take (min bpp row.length) ++ rest

/-- Body of the vector loop of `filter_up` (src/simd/x86_64.rs:646-655, 947-956; src/simd/aarch64.rs:259-267). -/
def upVec (w : Nat) (row prev : List UInt8) (i : Nat) : U (List UInt8) := do
  let curr ← load row i w
  let above ← load prev i w
  return Filter.subLanes curr above

/-- `filter_up_sse2`, `filter_up_avx2`, `filter_up_neon` (src/simd/x86_64.rs:642-663, 942-963;
src/simd/aarch64.rs:252-275). -/
def upWide (w : Nat) (row prev : List UInt8) : U (List UInt8) :=
  vecThenTail w (upVec w row prev) (Filter.upAt row prev) 0 row.length

/-- Body of the vector loop of `filter_average` (src/simd/x86_64.rs:985-1005, src/simd/aarch64.rs:303-316). -/
def averageVec (w : Nat) (avg : List UInt8 → List UInt8 → List UInt8) (row prev : List UInt8) (bpp i : Nat) :
    U (List UInt8) := do
  let curr ← load row i w
  let above ← load prev i w
  let left ← load row (i - bpp) w
  return Filter.subLanes curr (avg left above)

/-- `filter_average_avx2` (src/simd/x86_64.rs:969-1017) and `filter_average_neon` (src/simd/aarch64.rs:282-325). -/
def averageWide (w : Nat) (avg : List UInt8 → List UInt8 → List UInt8) (row prev : List UInt8) (bpp : Nat) :
    U (List UInt8) := do
  let first ← lift (Filter.idxLoop (Filter.averageFirst row prev) 0 (min bpp row.length))
  if row.length ≤ bpp then return first
  else do
    let rest ← vecThenTail w (averageVec w avg row prev bpp) (Filter.averageAt row prev bpp) bpp row.length
    return first ++ rest

/-- Body of the vector loop of `filter_paeth` (src/simd/x86_64.rs:800-814, 853-922;
src/simd/aarch64.rs:353-367). -/
def paethVec (w : Nat) (pred : List UInt8 → List UInt8 → List UInt8 → List UInt8)
    (row prev : List UInt8) (bpp i : Nat) : U (List UInt8) := do
  let curr ← load row i w
  let left ← load row (i - bpp) w
  let above ← load prev i w
  let upperLeft ← load prev (i - bpp) w
  return Filter.subLanes curr (pred left above upperLeft)

/-- `filter_paeth_neon` (src/simd/aarch64.rs:335-380), and the gated-off versions for x86
(src/simd/x86_64.rs:781-822, 830-934). -/
def paethWide (w : Nat) (pred : List UInt8 → List UInt8 → List UInt8 → List UInt8) (firstAt : Nat → R UInt8)
    (row prev : List UInt8) (bpp : Nat) : U (List UInt8) := do
  let first ← lift (Filter.idxLoop firstAt 0 (min bpp row.length))
  if row.length ≤ bpp then return first
  else do
    let rest ← vecThenTail w (paethVec w pred row prev bpp) (Filter.paethAt row prev bpp) bpp row.length
    return first ++ rest

/-- `filter_sub` (src/simd/mod.rs:159-178). -/
def filterSub (lv : Level) (row : List UInt8) (bpp : Nat) : U (List UInt8) :=
  match lv with
  | .avx2 => subWide 32 row bpp
  | .ssse3 | .sse2 => subSse2 row bpp
  | .scalar => lift (Filter.subScalar row bpp)
  | .neon => subWide 16 row bpp

/-- `filter_up` (src/simd/mod.rs:182-201). -/
def filterUp (lv : Level) (row prev : List UInt8) : U (List UInt8) :=
  match lv with
  | .avx2 => upWide 32 row prev
  | .ssse3 | .sse2 => upWide 16 row prev
  | .scalar => lift (Filter.upScalar row prev)
  | .neon => upWide 16 row prev

/-- `filter_average` (src/simd/mod.rs:205-223). -/
def filterAverage (lv : Level) (row prev : List UInt8) (bpp : Nat) : U (List UInt8) :=
  match lv with
  | .avx2 => averageWide 32 Filter.avgAvx2 row prev bpp
  | .ssse3 | .sse2 | .scalar => lift (Filter.averageScalar row prev bpp)
  | .neon => averageWide 16 Filter.avgNeon row prev bpp

/-- `filter_paeth` (src/simd/mod.rs:227-236). -/
def filterPaeth (lv : Level) (row prev : List UInt8) (bpp : Nat) : U (List UInt8) :=
  match lv with
  | .neon => paethWide 16 Filter.paethNeon (Filter.paethFirstNeon row prev) row prev bpp
  | _ => lift (Filter.paethScalar row prev bpp)

/-! ### Match length -/

/-- A loop comparing vectors of `W` bytes (src/simd/x86_64.rs:357-368, 405-418; src/simd/aarch64.rs:118-144). -/
def blockLoop (W : Nat) (cmp : List UInt8 → List UInt8 → Option Nat) :
    Nat → List UInt8 → Nat → Nat → Nat → Nat → U (Nat × Bool)
  | 0, _, _, _, _, _ => .error (.err .hang)
  | fuel + 1, data, pos1, pos2, maxLen, length =>
    if length + W ≤ maxLen then do
      let a ← load data (pos1 + length) W
      let b ← load data (pos2 + length) W
      match cmp a b with
      | some k => .ok (length + k, true)
      | none => blockLoop W cmp fuel data pos1 pos2 maxLen (length + W)
    else .ok (length, false)

/-- `match_length_sse2` (src/simd/x86_64.rs:353-394); what follows the vector loop is checked. -/
def matchSse2 (data : List UInt8) (pos1 pos2 maxLen : Nat) : U Nat := do
  let (length, done) ← blockLoop 16 MatchLength.cmp16 (maxLen + 1) data pos1 pos2 maxLen 0
  if done then .ok length else lift (MatchLength.tail data pos1 pos2 maxLen length)

/-- `match_length_avx2` (src/simd/x86_64.rs:401-425). -/
def matchAvx2 (data : List UInt8) (pos1 pos2 maxLen : Nat) : U Nat := do
  let (length, done) ← blockLoop 32 MatchLength.cmp32 (maxLen + 1) data pos1 pos2 maxLen 0
  if done then .ok length
  else if length < maxLen then do
    let k ← matchSse2 data (pos1 + length) (pos2 + length) (maxLen - length)
    return length + k
  else .ok length

/-- `match_length_neon` (src/simd/aarch64.rs:114-162). -/
def matchNeon (data : List UInt8) (pos1 pos2 maxLen : Nat) : U Nat := do
  let (length, done) ← blockLoop 16 MatchLength.cmpNeon (maxLen + 1) data pos1 pos2 maxLen 0
  if done then .ok length else lift (MatchLength.tail data pos1 pos2 maxLen length)

/-- `match_length` (src/simd/mod.rs:113-132). -/
def matchLength : Level → List UInt8 → Nat → Nat → Nat → U Nat
  | .avx2, d, p, q, n => matchAvx2 d p q n
  | .ssse3, d, p, q, n => matchSse2 d p q n
  | .sse2, d, p, q, n => matchSse2 d p q n
  | .scalar, d, p, q, n => lift (MatchLength.fallback d p q n)
  | .neon, d, p, q, n => matchNeon d p q n

/-! ### Checksums and scores

Which bytes these read does not depend on what is read, so that only the loads are listed. -/

/-- `while remaining.len() >= w { load(remaining.as_ptr()); remaining = &remaining[w..] }`: the loops of
`score_filter_*` (src/simd/x86_64.rs:515-549, 574-581; src/simd/aarch64.rs:174-195) and the loop over 16 bytes of
`crc32_pclmulqdq` (src/simd/x86_64.rs:104-108). Returns the rest. -/
def whileLoads (w : Nat) : Nat → List UInt8 → U (List UInt8)
  | 0, rem => .ok rem
  | fuel + 1, rem =>
    if rem.length ≥ w then do
      let _ ← loadAt rem 0 w
      whileLoads w fuel (rem.drop w)
    else .ok rem

/-- `for chunk in data.chunks_exact(w) { load(chunk.as_ptr()) }`: the loops of the Adler-32 routines
(src/simd/x86_64.rs:270-271, 447-449; src/simd/aarch64.rs:74-75). -/
def chunkLoads (w : Nat) : Nat → List UInt8 → U Unit
  | 0, _ => .ok ()
  | k + 1, data => do
    let _ ← loadAt (data.take w) 0 w
    chunkLoads w k (data.drop w)

/-- The loads of `score_filter` (src/simd/mod.rs:136-155). -/
def scoreLoads (lv : Level) (filtered : List UInt8) : U (List UInt8) :=
  match lv with
  | .avx2 => whileLoads 32 filtered.length filtered
  | .ssse3 | .sse2 | .neon => whileLoads 16 filtered.length filtered
  | .scalar => .ok filtered

/-- The blocks of `adler32_ssse3` and `adler32_neon` (src/simd/x86_64.rs:229-246, src/simd/aarch64.rs:29-46). -/
def blockLoads : Nat → List UInt8 → U Unit
  | 0, _ => .error (.err .hang)
  | fuel + 1, rem =>
    if rem.length ≥ 5552 then do
      chunkLoads 16 ((rem.take 5552).length / 16) (rem.take 5552)
      blockLoads fuel (rem.drop 5552)
    else if rem.length ≥ 16 then
      chunkLoads 16 ((rem.take (rem.length / 16 * 16)).length / 16) (rem.take (rem.length / 16 * 16))
    else .ok ()

/-- The loads of `adler32` (src/simd/mod.rs:71-89). -/
def adlerLoads (lv : Level) (data : List UInt8) : U Unit :=
  match lv with
  | .avx2 => chunkLoads 32 (data.length / 32) data
  | .ssse3 | .sse2 | .neon => blockLoads (data.length + 1) data
  | .scalar => .ok ()

/-- Four loads of 16 bytes at `remaining.as_ptr()` (src/simd/x86_64.rs:52-55, 69-90). -/
def load64 (rem : List UInt8) : U Unit := do
  let _ ← loadAt rem 0 16
  let _ ← loadAt rem 16 16
  let _ ← loadAt rem 32 16
  let _ ← loadAt rem 48 16
  return ()

/-- The loop over 64 bytes (src/simd/x86_64.rs:68-91). -/
def foldLoads : Nat → List UInt8 → U (List UInt8)
  | 0, rem => .ok rem
  | fuel + 1, rem =>
    if rem.length ≥ 64 then do
      load64 rem
      foldLoads fuel (rem.drop 64)
    else .ok rem

/-- The loads of `crc32` (src/simd/mod.rs:97-109, src/simd/x86_64.rs:31-120); `align` is the result of
`align_offset(16)`. -/
def crcLoads (hasPclmul : Bool) (align : Nat) (data : List UInt8) : U Unit :=
  if hasPclmul = false ∨ data.length < 64 then .ok ()
  else
    let rem := if 0 < align ∧ align ≤ data.length then data.drop align else data
    if rem.length ≥ 64 then do
      load64 rem
      let rem ← foldLoads rem.length (rem.drop 64)
      let _ ← whileLoads 16 rem.length rem
      return ()
    else .ok ()

end Pixo.Memory
