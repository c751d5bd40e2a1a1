/-
Marker segments of a JPEG file (ITU-T T.81, B.1.1), as a grammar over the bytes of the file.
-/
namespace Spec.Markers

/-- Markers without parameters: RST0 to RST7, SOI and EOI. -/
def Standalone (m : UInt8) : Prop := 0xD0 ≤ m ∧ m ≤ 0xD9

/-- `Segment d m seg rest`: the first marker found in `d` is `m`, with the parameters `seg`, and `rest`
follows. Bytes before the marker which are not FF are passed over, any number of fill bytes FF may come
before the marker, and the length counts its own two bytes. -/
inductive Segment : List UInt8 → UInt8 → List UInt8 → List UInt8 → Prop where
  | bare (junk : List UInt8) (fill : Nat) (m : UInt8) (rest : List UInt8) :
      (0xFF ∉ junk) → 0 < fill → m ≠ 0xFF → Standalone m →
      Segment (junk ++ List.replicate fill 0xFF ++ m :: rest) m [] rest
  | params (junk : List UInt8) (fill : Nat) (m hi lo : UInt8) (seg rest : List UInt8) :
      (0xFF ∉ junk) → 0 < fill → m ≠ 0xFF → ¬Standalone m → 256 * hi.toNat + lo.toNat = seg.length + 2 →
      Segment (junk ++ List.replicate fill 0xFF ++ m :: hi :: lo :: (seg ++ rest)) m seg rest

/-- `Segments d l rest`: `d` begins with the segments `l`, and `rest` follows. -/
inductive Segments : List UInt8 → List (UInt8 × List UInt8) → List UInt8 → Prop where
  | nil (d : List UInt8) : Segments d [] d
  | cons {d : List UInt8} {m : UInt8} {seg d' : List UInt8} {l : List (UInt8 × List UInt8)} {rest : List UInt8} :
      Segment d m seg d' → Segments d' l rest → Segments d ((m, seg) :: l) rest

/-- A file whose first scan header (marker DA) names no component and has no frame header (marker C0)
before it. -/
def HeaderlessScan (file : List UInt8) : Prop :=
  ∃ body l d seg rest, file = 0xFF :: 0xD8 :: body ∧ Segments body l d ∧ Segment d 0xDA (0 :: seg) rest ∧
    ∀ p ∈ l, p.1 ≠ 0xC0 ∧ p.1 ≠ 0xC2 ∧ p.1 ≠ 0xDA ∧ p.1 ≠ 0xD9

/-- The last frame header among the segments `l` has eight bits, the size given, and one component if and
only if `gray`. -/
def FrameOf (l : List (UInt8 × List UInt8)) (width height : Nat) (gray : Prop) : Prop :=
  ∃ pre h1 h0 w1 w0 n tail post, l = pre ++ (0xC0, 8 :: h1 :: h0 :: w1 :: w0 :: n :: tail) :: post ∧
    (∀ p ∈ post, p.1 ≠ 0xC0) ∧ width = 256 * w1.toNat + w0.toNat ∧ height = 256 * h1.toNat + h0.toNat ∧
    (gray ↔ n.toNat = 1)

end Spec.Markers
