import Verif.Model.SimdAdler
/-
Model of the match length functions: src/simd/fallback.rs, src/simd/x86_64.rs,
src/simd/aarch64.rs and their dispatch in src/simd/mod.rs. The scalar version inside
src/compress/lz77.rs:832-862 (built without the `simd` feature) is the same code as the
fallback. Targets are little endian. A vector load is modelled as a slice of the vector's
width, so reading past the end of the data shows up as a panic.
-/
namespace Pixo.MatchLength
open Pixo

/-- `data[a..a + n]`. -/
def slice (data : List UInt8) (a n : Nat) : R (List UInt8) :=
  if a + n ≤ data.length then .ok ((data.drop a).take n) else .error .panic

/-- `from_ne_bytes` on a little-endian target (src/simd/fallback.rs:66-67). -/
def leNat : List UInt8 → Nat
  | [] => 0
  | b :: bs => b.toNat + 256 * leNat bs

/-- `trailing_zeros` of a `width`-bit integer (src/simd/fallback.rs:72). -/
def tz : Nat → Nat → Nat
  | 0, _ => 0
  | width + 1, x => if x % 2 = 1 then 0 else 1 + tz width (x / 2)

/-- Comparison of eight bytes through `u64` (src/simd/fallback.rs:66-78;
src/simd/x86_64.rs:373-385; src/simd/aarch64.rs:149-155): the index of the first
differing byte, if any. -/
def cmp8 (a b : List UInt8) : Option Nat :=
  if leNat a ≠ leNat b then some (tz 64 (leNat a ^^^ leNat b) / 8) else none

/-- `_mm_cmpeq_epi8` followed by `_mm_movemask_epi8` (src/simd/x86_64.rs:360-361, 409-410). -/
def movemask : List UInt8 → List UInt8 → Nat
  | a :: as, b :: bs => (if a = b then 1 else 0) + 2 * movemask as bs
  | _, _ => 0

/-- 16 byte comparison (src/simd/x86_64.rs:358-366). -/
def cmp16 (a b : List UInt8) : Option Nat :=
  let mask := movemask a b
  if mask ≠ 0xFFFF then some (tz 32 (2 ^ 32 - 1 - mask)) else none

/-- 32 byte comparison (src/simd/x86_64.rs:406-416). -/
def cmp32 (a b : List UInt8) : Option Nat :=
  let mask := movemask a b
  if mask ≠ 0xFFFFFFFF then some (tz 32 (2 ^ 32 - 1 - mask)) else none

/-- Scan of the stored comparison lanes for the first zero (src/simd/aarch64.rs:137-141). -/
def firstZero : List Nat → Nat → Option Nat
  | [], _ => none
  | c :: cs, i => if c = 0 then some i else firstZero cs (i + 1)

/-- NEON 16 byte comparison (src/simd/aarch64.rs:119-142). -/
def cmpNeon (a b : List UInt8) : Option Nat :=
  let cmp := List.zipWith (fun x y => if x = y then 255 else 0) a b
  if cmp.foldl min 255 ≠ 255 then firstZero cmp 0 else none

/-- A loop comparing `W` bytes at a time (src/simd/fallback.rs:65-81;
src/simd/x86_64.rs:357-368, 372-388, 405-418; src/simd/aarch64.rs:118-144, 148-157).
Returns the length and whether a mismatch was found. -/
def blockLoop (W : Nat) (cmp : List UInt8 → List UInt8 → Option Nat) :
    Nat → List UInt8 → Nat → Nat → Nat → Nat → R (Nat × Bool)
  | 0, _, _, _, _, _ => .error .hang
  | fuel + 1, data, pos1, pos2, maxLen, length =>
    if length + W ≤ maxLen then do
      let a ← slice data (pos1 + length) W
      let b ← slice data (pos2 + length) W
      match cmp a b with
      | some k => .ok (length + k, true)
      | none => blockLoop W cmp fuel data pos1 pos2 maxLen (length + W)
    else .ok (length, false)

/-- The byte loop at the end (src/simd/fallback.rs:84-86; src/simd/x86_64.rs:391-393;
src/simd/aarch64.rs:160-162). -/
def byteLoop : Nat → List UInt8 → Nat → Nat → Nat → Nat → R Nat
  | 0, _, _, _, _, _ => .error .hang
  | fuel + 1, data, pos1, pos2, maxLen, length =>
    if length < maxLen then do
      let a ← getChecked data (pos1 + length)
      let b ← getChecked data (pos2 + length)
      if a = b then byteLoop fuel data pos1 pos2 maxLen (length + 1) else .ok length
    else .ok length

/-- The eight byte loop and the byte loop, common to all versions
(src/simd/fallback.rs:65-88; src/simd/x86_64.rs:372-396; src/simd/aarch64.rs:148-165). -/
def tail (data : List UInt8) (pos1 pos2 maxLen length : Nat) : R Nat := do
  let (length, done) ← blockLoop 8 cmp8 (maxLen + 1) data pos1 pos2 maxLen length
  if done then .ok length else byteLoop (maxLen + 1) data pos1 pos2 maxLen length

/-- `fallback::match_length` (src/simd/fallback.rs:61-89; src/compress/lz77.rs:832-862). -/
def fallback (data : List UInt8) (pos1 pos2 maxLen : Nat) : R Nat := tail data pos1 pos2 maxLen 0

/-- `match_length_sse2` (src/simd/x86_64.rs:353-394). -/
def sse2 (data : List UInt8) (pos1 pos2 maxLen : Nat) : R Nat := do
  let (length, done) ← blockLoop 16 cmp16 (maxLen + 1) data pos1 pos2 maxLen 0
  if done then .ok length else tail data pos1 pos2 maxLen length

/-- `match_length_avx2` (src/simd/x86_64.rs:401-425). -/
def avx2 (data : List UInt8) (pos1 pos2 maxLen : Nat) : R Nat := do
  let (length, done) ← blockLoop 32 cmp32 (maxLen + 1) data pos1 pos2 maxLen 0
  if done then .ok length
  else if length < maxLen then do
    let k ← sse2 data (pos1 + length) (pos2 + length) (maxLen - length)
    return length + k
  else .ok length

/-- `match_length_neon` (src/simd/aarch64.rs:114-162). -/
def neon (data : List UInt8) (pos1 pos2 maxLen : Nat) : R Nat := do
  let (length, done) ← blockLoop 16 cmpNeon (maxLen + 1) data pos1 pos2 maxLen 0
  if done then .ok length else tail data pos1 pos2 maxLen length

end Pixo.MatchLength

namespace Pixo.Simd

/-- `simd::match_length` (src/simd/mod.rs:113-132); without the `simd` feature it is the scalar
code (src/compress/lz77.rs:816-830). -/
def matchLength : Level → List UInt8 → Nat → Nat → Nat → R Nat
  | .avx2 => MatchLength.avx2
  | .ssse3 => MatchLength.sse2
  | .sse2 => MatchLength.sse2
  | .scalar => MatchLength.fallback
  | .neon => MatchLength.neon

end Pixo.Simd
