import Verif.Model.Basic
/-
Model of src/compress/adler32.rs (portable path) and src/simd/fallback.rs adler32, which is
the same code.
-/
namespace Pixo

/-- `u32` addition in a checked build: panics on overflow. -/
def addU32 (a b : Nat) : R Nat := if a + b < 2 ^ 32 then .ok (a + b) else .error .panic

/-- Inner loop over one chunk (src/compress/adler32.rs:37-40; src/simd/fallback.rs:16-19). -/
def adlerChunk : List UInt8 → Nat → Nat → R (Nat × Nat)
  | [], s1, s2 => .ok (s1, s2)
  | b :: bs, s1, s2 => do
    let s1 ← addU32 s1 b.toNat
    let s2 ← addU32 s2 s1
    adlerChunk bs s1 s2

/-- Loop over `data.chunks(NMAX)` (src/compress/adler32.rs:36-44; src/simd/fallback.rs:15-22). -/
def adlerLoop : Nat → List UInt8 → Nat → Nat → R (Nat × Nat)
  | 0, _, _, _ => .error .hang
  | fuel + 1, data, s1, s2 =>
    if data.isEmpty then .ok (s1, s2)
    else do
      let (s1, s2) ← adlerChunk (data.take 5552) s1 s2
      adlerLoop fuel (data.drop 5552) (s1 % 65521) (s2 % 65521)

/-- `adler32_scalar` (src/compress/adler32.rs:26-47) and `fallback::adler32`
(src/simd/fallback.rs:8-25). -/
def adler32 (data : List UInt8) : R Nat := do
  let (s1, s2) ← adlerLoop (data.length + 1) data 1 0
  return ((s2 <<< 16) ||| s1)

end Pixo
