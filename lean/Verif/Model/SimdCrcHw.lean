import Verif.Model.SimdCrc
/-
Model of src/simd/x86_64.rs:310-345 (`crc32_hw`). The CRC32 instruction is modelled as the processor manual defines
it: operands with their bits reversed, and the remainder of a division of polynomials over the field of two elements.
-/
namespace Pixo.Simd

/-- `BIT_REFLECT`: the low `k` bits in the opposite order (Intel manual, CRC32). -/
def reflect : Nat → Nat → Nat
  | 0, _ => 0
  | k + 1, s => (s % 2) * 2 ^ k + reflect k (s / 2)

/-- `MOD2 11EDC6F41H`: long division without carries of a number of `32 + k` bits (Intel manual, CRC32). -/
def mod2 : Nat → Nat → Nat
  | 0, x => x
  | k + 1, x => mod2 k (if x.testBit (32 + k) then x ^^^ (0x11EDC6F41 <<< k) else x)

/-- The CRC32 instruction with a source of `n` bits, which is `_mm_crc32_u8`, `_u16`, `_u32` and `_u64`. -/
def crc32Instr (n : Nat) (crc : BitVec 32) (src : Nat) : BitVec 32 :=
  let temp1 := reflect n src
  let temp2 := reflect 32 crc.toNat
  let temp3 := temp1 <<< 32
  let temp4 := temp2 <<< n
  let temp5 := temp3 ^^^ temp4
  let temp6 := mod2 n temp5
  BitVec.ofNat 32 (reflect 32 temp6)

/-- Eight bytes at a time (src/simd/x86_64.rs:320-324). -/
def crcHwLoop : Nat → BitVec 32 → List UInt8 → BitVec 32 × List UInt8
  | 0, crc, rem => (crc, rem)
  | fuel + 1, crc, rem =>
    if rem.length ≥ 8 then crcHwLoop fuel (crc32Instr 64 crc (load128 (rem.take 8))) (rem.drop 8) else (crc, rem)

/-- `if remaining.len() >= k { .. }` with `k` bytes, for 4 and 2 (src/simd/x86_64.rs:327-338). -/
def crcHwPart (k : Nat) (s : BitVec 32 × List UInt8) : BitVec 32 × List UInt8 :=
  if s.2.length ≥ k then (crc32Instr (8 * k) s.1 (load128 (s.2.take k)), s.2.drop k) else s

/-- `crc32_hw` (src/simd/x86_64.rs:315-345). -/
def crc32Hw (data : List UInt8) : BitVec 32 :=
  let s := crcHwLoop data.length (~~~ 0#32) data
  let s := crcHwPart 4 s
  let s := crcHwPart 2 s
  let crc := match s.2 with
    | [] => s.1
    | b :: _ => crc32Instr 8 s.1 b.toNat
  ~~~ crc

end Pixo.Simd
