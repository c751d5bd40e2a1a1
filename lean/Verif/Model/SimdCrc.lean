import Verif.Model.Crc32
/-
Model of src/simd/fallback.rs:28-58 (`crc32`) and src/simd/x86_64.rs:10-205
(`crc32_pclmulqdq`). A 128-bit register is a natural number below 2^128.
-/
namespace Pixo.Simd

/-- `fallback::crc32` (src/simd/fallback.rs:50-57) with the byte table of lines 28-46, which is
`tables[0]` of src/compress/crc32.rs. -/
def crcFallback (data : List UInt8) : BitVec 32 :=
  data.foldl Crc.byteStep 0xFFFFFFFF#32 ^^^ 0xFFFFFFFF#32

/-- Carry-less product of two 64-bit values (the PCLMULQDQ instruction). -/
def clmulAux : Nat → Nat → Nat → Nat
  | 0, _, _ => 0
  | n + 1, a, b => (if b.testBit 0 then a else 0) ^^^ clmulAux n (a <<< 1) (b >>> 1)

def clmul (a b : Nat) : Nat := clmulAux 64 (a % 2 ^ 64) (b % 2 ^ 64)

/-- `_mm_loadu_si128`: 16 bytes, little endian. -/
def load128 : List UInt8 → Nat
  | [] => 0
  | b :: bs => b.toNat + 256 * load128 bs

/-- `fold_16` (src/simd/x86_64.rs:128-135); `k1`, `k2` are the low and high halves of `k`. -/
def fold16 (acc data k1 k2 : Nat) : Nat := clmul acc k1 ^^^ clmul (acc >>> 64) k2 ^^^ data

/-- `reduce_128_to_32` (src/simd/x86_64.rs:145-178). -/
def reduce (x : Nat) : Nat :=
  let t0 := clmul (x >>> 64) 0x163cd6124
  let crc := t0 ^^^ x
  let t1 := clmul (crc % 2 ^ 32) 0x1db710640
  let crc := (crc >>> 32) ^^^ t1
  let t2 := clmul (crc % 2 ^ 32) 0x1f7011641
  let t2high := t2 >>> 32
  let t3 := clmul (t2high % 2 ^ 32) 0x1db710641
  (crc ^^^ t3) % 2 ^ 32

/-- Loop folding 64 bytes at a time (src/simd/x86_64.rs:68-91). -/
def fold64 : Nat → List UInt8 → Nat × Nat × Nat × Nat → List UInt8 × Nat × Nat × Nat × Nat
  | 0, rem, x => (rem, x)
  | fuel + 1, rem, (x0, x1, x2, x3) =>
    if rem.length ≥ 64 then
      fold64 fuel (rem.drop 64)
        (fold16 x0 (load128 (rem.take 16)) 0x154442bd4 0x1c6e41596,
          fold16 x1 (load128 ((rem.drop 16).take 16)) 0x154442bd4 0x1c6e41596,
          fold16 x2 (load128 ((rem.drop 32).take 16)) 0x154442bd4 0x1c6e41596,
          fold16 x3 (load128 ((rem.drop 48).take 16)) 0x154442bd4 0x1c6e41596)
    else (rem, x0, x1, x2, x3)

/-- Loop folding 16 bytes at a time (src/simd/x86_64.rs:104-108). -/
def foldRest : Nat → List UInt8 → Nat → List UInt8 × Nat
  | 0, rem, x => (rem, x)
  | fuel + 1, rem, x =>
    if rem.length ≥ 16 then
      foldRest fuel (rem.drop 16) (fold16 x (load128 (rem.take 16)) 0x1751997d0 0x0ccaa009e)
    else (rem, x)

/-- Vector part of `crc32_pclmulqdq` (src/simd/x86_64.rs:49-112). -/
def pclmulBody (crc : BitVec 32) (rem : List UInt8) : List UInt8 × BitVec 32 :=
  if rem.length ≥ 64 then
    let x0 := load128 (rem.take 16) ^^^ crc.toNat
    let x1 := load128 ((rem.drop 16).take 16)
    let x2 := load128 ((rem.drop 32).take 16)
    let x3 := load128 ((rem.drop 48).take 16)
    let (rem, x0, x1, x2, x3) := fold64 rem.length (rem.drop 64) (x0, x1, x2, x3)
    let x0 := fold16 x0 x1 0x1751997d0 0x0ccaa009e
    let x0 := fold16 x0 x2 0x1751997d0 0x0ccaa009e
    let x0 := fold16 x0 x3 0x1751997d0 0x0ccaa009e
    let (rem, x0) := foldRest rem.length rem x0
    (rem, BitVec.ofNat 32 (reduce x0))
  else (rem, crc)

/-- `crc32_pclmulqdq` (src/simd/x86_64.rs:31-120); `align` is the result of `align_offset(16)`
for the address the data happens to have. -/
def crcPclmul (align : Nat) (data : List UInt8) : BitVec 32 :=
  if data.length < 64 then crcFallback data
  else
    let (crc, rem) :=
      if 0 < align ∧ align ≤ data.length then
        ((data.take align).foldl Crc.byteStep 0xFFFFFFFF#32, data.drop align)
      else (0xFFFFFFFF#32, data)
    let (rem, crc) := pclmulBody crc rem
    ~~~ (rem.foldl Crc.byteStep crc)

/-- `simd::crc32` (src/simd/mod.rs:97-109). -/
def crc32 (hasPclmul : Bool) (align : Nat) (data : List UInt8) : BitVec 32 :=
  if hasPclmul then crcPclmul align data else crcFallback data

end Pixo.Simd
