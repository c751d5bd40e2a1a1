/-
Bit strings. Specification level: nothing here refers to the crate.
-/
namespace Spec

/-- The `n` low bits of `v`, least significant first. -/
def bitsLSB : Nat → Nat → List Bool
  | _, 0 => []
  | v, n + 1 => (v % 2 == 1) :: bitsLSB (v / 2) n

/-- The `n` low bits of `v`, most significant first. -/
def bitsMSB (v n : Nat) : List Bool := (bitsLSB v n).reverse

/-- The number whose bits, least significant first, are the given list. -/
def ofBitsLSB : List Bool → Nat
  | [] => 0
  | b :: bs => b.toNat + 2 * ofBitsLSB bs

/-- The number whose bits, most significant first, are the given list. -/
def ofBitsMSB (bs : List Bool) : Nat := bs.foldl (fun a b => 2 * a + b.toNat) 0

/-- A byte string as bits, each byte least significant bit first (RFC 1951 §3.1.1). -/
def bytesLSB (bs : List UInt8) : List Bool := bs.flatMap (fun b => bitsLSB b.toNat 8)

/-- A byte string as bits, each byte most significant bit first (T.81). -/
def bytesMSB (bs : List UInt8) : List Bool := bs.flatMap (fun b => bitsMSB b.toNat 8)

/-- JPEG byte stuffing (T.81 F.1.2.3): a zero byte after every `0xFF`. -/
def stuff (bs : List UInt8) : List UInt8 := bs.flatMap (fun b => if b = 0xFF then [0xFF, 0] else [b])

/-- Bits missing to the next byte boundary. -/
def padLen (n : Nat) : Nat := (8 - n % 8) % 8

end Spec
