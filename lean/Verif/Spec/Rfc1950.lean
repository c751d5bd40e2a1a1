import Verif.Spec.Rfc1951
import Verif.Spec.Checksum
/-
The zlib container of RFC 1950 §2.2.
-/
namespace Spec.Rfc1950

/-- Big-endian value of a byte string. -/
def ofBytesBE (bs : List UInt8) : Nat := bs.foldl (fun a b => a * 256 + b.toNat) 0

/-- `bytes` is a zlib stream for `data`, with `sum data` in the check field: compression method 8,
a window of at most 32 KiB, the header a multiple of 31, no preset dictionary. -/
def ZlibWith (sum : List UInt8 → Nat) (bytes data : List UInt8) : Prop :=
  ∃ (cmf flg : UInt8) (body trailer : List UInt8), bytes = [cmf, flg] ++ body ++ trailer ∧
    cmf.toNat % 16 = 8 ∧ cmf.toNat / 16 ≤ 7 ∧ (256 * cmf.toNat + flg.toNat) % 31 = 0 ∧
    flg.toNat / 32 % 2 = 0 ∧ Rfc1951.Encodes true body data ∧
    trailer.length = 4 ∧ ofBytesBE trailer = sum data

/-- A zlib stream: the check field is the Adler-32 checksum. -/
def Zlib (bytes data : List UInt8) : Prop := ZlibWith adler32 bytes data

end Spec.Rfc1950
