/-
Windows of four bytes and how often their hash values repeat. Written from the comments of
src/compress/deflate.rs:1091-1145.
-/
namespace Spec.Repeats

/-- The hash value of four bytes: their little endian number, multiplied and reduced to 12 bits. -/
def slot (a b c d : UInt8) : Nat :=
  (a.toNat + 256 * b.toNat + 65536 * c.toNat + 16777216 * d.toNat) * 0x1E35A7BD % 4294967296 / 1048576

/-- The hash values of all windows of four bytes. -/
def slots : List UInt8 → List Nat
  | a :: b :: c :: d :: rest => slot a b c d :: slots (b :: c :: d :: rest)
  | _ => []

/-- How many elements are equal to one before them, or to one of `prev`. -/
def repeatsAfter (prev : List Nat) : List Nat → Nat
  | [] => 0
  | x :: xs => (if x ∈ prev then 1 else 0) + repeatsAfter (x :: prev) xs

/-- How many elements are equal to one before them. -/
def repeats (l : List Nat) : Nat := repeatsAfter [] l

end Spec.Repeats
