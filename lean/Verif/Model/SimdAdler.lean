import Verif.Model.Adler32
/-
Model of the accelerated Adler-32 routines: src/simd/x86_64.rs:207-305 (SSSE3), 424-503
(AVX2), src/simd/aarch64.rs:12-108 (NEON). Vector registers are modelled lane by lane; a lane
is a natural number reduced modulo 2^32 where the instruction wraps. 16-bit products and
their pairwise sums are at most 255*32*2 and never wrap, so those lanes carry no reduction.
-/
namespace Pixo.Simd

/-- Byte `i` of a vector register. -/
def g (v : List UInt8) (i : Nat) : Nat := (v.getD i 0).toNat

/-- `_mm_add_epi32` on one lane. -/
def add32 (a b : Nat) : Nat := (a + b) % 2 ^ 32

/-- One 64-bit lane of `_mm_sad_epu8(v, zeros)` (src/simd/x86_64.rs:279, 453). -/
def sad (v : List UInt8) (k : Nat) : Nat :=
  g v (8 * k) + g v (8 * k + 1) + g v (8 * k + 2) + g v (8 * k + 3) + g v (8 * k + 4)
    + g v (8 * k + 5) + g v (8 * k + 6) + g v (8 * k + 7)

/-- One 32-bit lane of `_mm_madd_epi16` on bytes `i`, `i+1` widened to 16 bits, with weights
`n - i` (src/simd/x86_64.rs:285-291, 459-465). -/
def madd (n : Nat) (v : List UInt8) (i : Nat) : Nat := g v i * (n - i) + g v (i + 1) * (n - (i + 1))

/-- Vector accumulators of `adler32_block_ssse3` (src/simd/x86_64.rs:266-268): the nonzero
lanes 0 and 2 of `vs1` and `vs1_total`, and the four lanes of `vs2`. -/
structure Acc where
  vs1 : Nat × Nat := (0, 0)
  total : Nat × Nat := (0, 0)
  a : Nat := 0
  b : Nat := 0
  c : Nat := 0
  d : Nat := 0

/-- Loop body (src/simd/x86_64.rs:270-293). -/
def ssse3Step (s : Acc) (v : List UInt8) : Acc :=
  let a := add32 s.a (s.total.1 * 16 % 2 ^ 32)
  let c := add32 s.c (s.total.2 * 16 % 2 ^ 32)
  { vs1 := (add32 s.vs1.1 (sad v 0), add32 s.vs1.2 (sad v 1))
    total := (add32 s.total.1 (sad v 0), add32 s.total.2 (sad v 1))
    a := add32 a (add32 (madd 16 v 0) (madd 16 v 8))
    b := add32 s.b (add32 (madd 16 v 2) (madd 16 v 10))
    c := add32 c (add32 (madd 16 v 4) (madd 16 v 12))
    d := add32 s.d (add32 (madd 16 v 6) (madd 16 v 14)) }

/-- `data.chunks_exact(16)` loop; the callers pass multiples of 16. -/
def ssse3Loop : Nat → List UInt8 → Acc → Acc
  | 0, _, s => s
  | k + 1, data, s => ssse3Loop k (data.drop 16) (ssse3Step s (data.take 16))

/-- `adler32_block_ssse3` (src/simd/x86_64.rs:260-308), ending with the horizontal sums. -/
def ssse3Block (data : List UInt8) (s1 s2 : Nat) : R (Nat × Nat) := do
  let s := ssse3Loop (data.length / 16) data {}
  let s1 ← addU32 s1 (add32 s.vs1.1 s.vs1.2)
  let s2 ← addU32 s2 (add32 (add32 s.a s.c) (add32 s.b s.d))
  return (s1, s2)

/-- Loop over whole blocks, shared shape of SSSE3 and NEON (src/simd/x86_64.rs:229-235,
src/simd/aarch64.rs:29-35). -/
def blockLoop (block : List UInt8 → Nat → Nat → R (Nat × Nat)) :
    Nat → List UInt8 → Nat → Nat → R (List UInt8 × Nat × Nat)
  | 0, _, _, _ => .error .hang
  | fuel + 1, rem, s1, s2 =>
    if rem.length ≥ 5552 then do
      let (s1, s2) ← block (rem.take 5552) s1 s2
      blockLoop block fuel (rem.drop 5552) (s1 % 65521) (s2 % 65521)
    else .ok (rem, s1, s2)

/-- `if remaining.len() >= 16` (src/simd/x86_64.rs:238-245, src/simd/aarch64.rs:38-45). -/
def blockTail (block : List UInt8 → Nat → Nat → R (Nat × Nat)) (rem : List UInt8) (s1 s2 : Nat) :
    R (List UInt8 × Nat × Nat) :=
  if rem.length ≥ 16 then do
    let (s1, s2) ← block (rem.take (rem.length / 16 * 16)) s1 s2
    return (rem.drop (rem.length / 16 * 16), s1 % 65521, s2 % 65521)
  else return (rem, s1, s2)

/-- Frame shared by `adler32_ssse3` (src/simd/x86_64.rs:218-256) and `adler32_neon`
(src/simd/aarch64.rs:19-56). -/
def blockAdler (block : List UInt8 → Nat → Nat → R (Nat × Nat)) (data : List UInt8) : R Nat := do
  let (rem, s1, s2) ← blockLoop block (data.length + 1) data 1 0
  let (rem, s1, s2) ← blockTail block rem s1 s2
  let (s1, s2) ← adlerChunk rem s1 s2
  return (((s2 % 65521) <<< 16) ||| (s1 % 65521))

/-- `adler32_ssse3` (src/simd/x86_64.rs:218-256). -/
def adlerSsse3 (data : List UInt8) : R Nat := blockAdler ssse3Block data

/-- Loop body of `adler32_block_neon` (src/simd/aarch64.rs:74-104): `vpaddlq` sums are exact,
`s1` and `s2` wrap. The lanes of `prod_sum` add bytes `j` and `j+8`. -/
def neonStep (s : Nat × Nat) (v : List UInt8) : Nat × Nat :=
  let s2 := add32 s.2 (s.1 * 16 % 2 ^ 32)
  let chunkSum := sad v 0 + sad v 1
  let p (j : Nat) := g v j * (16 - j) + g v (j + 8) * (16 - (j + 8))
  let weighted := (p 0 + p 1 + (p 2 + p 3)) + (p 4 + p 5 + (p 6 + p 7))
  (add32 s.1 chunkSum, add32 s2 weighted)

/-- `data.chunks_exact(16)` loop (src/simd/aarch64.rs:74). -/
def neonLoop : Nat → List UInt8 → Nat × Nat → Nat × Nat
  | 0, _, s => s
  | k + 1, data, s => neonLoop k (data.drop 16) (neonStep s (data.take 16))

/-- `adler32_block_neon` (src/simd/aarch64.rs:68-108). -/
def neonBlock (data : List UInt8) (s1 s2 : Nat) : R (Nat × Nat) :=
  .ok (neonLoop (data.length / 16) data (s1, s2))

/-- `adler32_neon` (src/simd/aarch64.rs:19-56). -/
def adlerNeon (data : List UInt8) : R Nat := blockAdler neonBlock data

/-- Body of the AVX2 chunk loop up to the update of the sums (src/simd/x86_64.rs:449-477). -/
def avx2Step (s : Nat × Nat) (v : List UInt8) : Nat × Nat :=
  let chunkSum := sad v 0 + sad v 1 + sad v 2 + sad v 3
  let lane (h k : Nat) := add32 (madd 32 v (16 * h + 2 * k)) (madd 32 v (16 * h + 8 + 2 * k))
  let half (h : Nat) := add32 (add32 (lane h 0) (lane h 1)) (add32 (lane h 2) (lane h 3))
  let weighted := (half 0 + half 1) % 2 ^ 32
  (add32 s.1 chunkSum, add32 (add32 s.2 (s.1 * 32 % 2 ^ 32)) weighted)

/-- The deferred reduction (src/simd/x86_64.rs:479-484, 491-496). -/
def avx2Reduce (s : Nat × Nat) (processed : Nat) : (Nat × Nat) × Nat :=
  if processed ≥ 5552 then ((s.1 % 65521, s.2 % 65521), 0) else (s, processed)

/-- `data.chunks_exact(32)` loop (src/simd/x86_64.rs:447-485). -/
def avx2Loop : Nat → List UInt8 → (Nat × Nat) × Nat → (Nat × Nat) × Nat
  | 0, _, s => s
  | k + 1, data, s => avx2Loop k (data.drop 32) (avx2Reduce (avx2Step s.1 (data.take 32)) (s.2 + 32))

/-- Remainder loop (src/simd/x86_64.rs:488-497). -/
def avx2Rem : List UInt8 → (Nat × Nat) × Nat → (Nat × Nat) × Nat
  | [], s => s
  | b :: bs, s =>
    let s1 := add32 s.1.1 b.toNat
    avx2Rem bs (avx2Reduce (s1, add32 s.1.2 s1) (s.2 + 1))

/-- `adler32_avx2` (src/simd/x86_64.rs:432-503). -/
def adlerAvx2 (data : List UInt8) : Nat :=
  let k := data.length / 32
  let s := (avx2Rem (data.drop (32 * k)) (avx2Loop k data ((1, 0), 0))).1
  ((s.2 % 65521) <<< 16) ||| (s.1 % 65521)

/-- SIMD level of the CPU (src/simd/mod.rs:33-42) and the NEON build. -/
inductive Level where
  | avx2 | ssse3 | sse2 | scalar | neon
  deriving DecidableEq

/-- `simd::adler32` (src/simd/mod.rs:71-89); without the `simd` feature `adler32` is the scalar
code (src/compress/adler32.rs:11-21). -/
def adler32 : Level → List UInt8 → R Nat
  | .avx2, d => .ok (adlerAvx2 d)
  | .ssse3, d => adlerSsse3 d
  | .sse2, d => adlerSsse3 d
  | .scalar, d => Pixo.adler32 d
  | .neon, d => adlerNeon d

end Pixo.Simd
