import Verif.Spec.Bits
/-
Checksum specifications, from RFC 1950 §8.2 and from the PNG specification (CRC-32 as used
by ISO 3309 / ITU-T V.42), bit by bit.
-/
namespace Spec

/-- RFC 1950: one byte, both sums reduced modulo 65521 at every step. -/
def adlerStep (s : Nat × Nat) (b : UInt8) : Nat × Nat :=
  ((s.1 + b.toNat) % 65521, (s.2 + (s.1 + b.toNat) % 65521) % 65521)

/-- RFC 1950 Adler-32: `s2 * 65536 + s1`. -/
def adler32 (data : List UInt8) : Nat :=
  let s := data.foldl adlerStep (1, 0)
  s.2 * 65536 + s.1

/-- One message bit through the CRC-32 shift register: the register is shifted right and the
polynomial is added when the bit shifted out differs from the message bit. -/
def crcBit (c : BitVec 32) (b : Bool) : BitVec 32 :=
  if c.getLsbD 0 != b then (c >>> 1) ^^^ 0xEDB88320#32 else c >>> 1

/-- CRC-32 of a bit sequence: register preset to ones, result complemented. -/
def crcBits (bits : List Bool) : BitVec 32 := ~~~ (bits.foldl crcBit (BitVec.allOnes 32))

/-- CRC-32 of a byte string: bits of each byte from least to most significant. -/
def crc32 (data : List UInt8) : BitVec 32 := crcBits (bytesLSB data)

end Spec
