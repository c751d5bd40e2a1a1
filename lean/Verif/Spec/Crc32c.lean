import Verif.Spec.Checksum
/-
CRC-32C (Castagnoli; RFC 3720 §12.1 and RFC 3309), bit by bit. It differs from the CRC-32 of PNG in the polynomial
only.
-/
namespace Spec

/-- One message bit through a shift register with polynomial `p`. -/
def crcBitOf (p : BitVec 32) (c : BitVec 32) (b : Bool) : BitVec 32 :=
  if c.getLsbD 0 != b then (c >>> 1) ^^^ p else c >>> 1

/-- The CRC with polynomial `p`: register preset to ones, result complemented, bits of each byte from least to most
significant. -/
def crcOf (p : BitVec 32) (data : List UInt8) : BitVec 32 :=
  ~~~ ((bytesLSB data).foldl (crcBitOf p) (BitVec.allOnes 32))

/-- RFC 3720: polynomial 0x1EDC6F41, its bits reversed. -/
def crc32c (data : List UInt8) : BitVec 32 := crcOf 0x82F63B78#32 data

end Spec
