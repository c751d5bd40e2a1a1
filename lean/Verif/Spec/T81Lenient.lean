import Verif.Spec.T81Markers
/-
Files that look like baseline JPEG files up to the header of their scan (after ITU-T T.81, annex B), where
much that the standard demands is not demanded: anything may follow the header of the scan, tables may be
missing, markers of any kind may come before, several frame headers may come and the last one counts, and
neither the identifiers of components nor the codes of Huffman tables have to make sense. Nothing here
refers to the crate.
-/
namespace Spec.Markers

/-- Tables of a DHT segment: the number of each is at most 3, and it has as many values as its sixteen
counts say. -/
inductive HuffmanTables : List UInt8 → Prop where
  | done : HuffmanTables []
  | table (info : UInt8) (counts vals rest : List UInt8) : info.toNat % 16 < 4 → counts.length = 16 →
      vals.length = (counts.map UInt8.toNat).sum → HuffmanTables rest →
      HuffmanTables (info :: (counts ++ (vals ++ rest)))

/-- Tables of a DQT segment: the number of each is at most 3, and it has 64 entries of one byte or, if the
upper half of the first byte is not zero, of two. -/
inductive QuantizationTables : List UInt8 → Prop where
  | done : QuantizationTables []
  | one (info : UInt8) (entries rest : List UInt8) : info.toNat < 4 → entries.length = 64 →
      QuantizationTables rest → QuantizationTables (info :: (entries ++ rest))
  | two (info : UInt8) (entries rest : List UInt8) : 16 ≤ info.toNat → info.toNat % 16 < 4 → entries.length = 128 →
      QuantizationTables rest → QuantizationTables (info :: (entries ++ rest))

/-- The bytes begin with `n` components of a frame: an identifier, two sampling factors which are not zero,
and the number of a quantization table. -/
def FrameComponents : Nat → List UInt8 → Prop
  | 0, _ => True
  | n + 1, _ :: hv :: tq :: rest => 16 ≤ hv.toNat ∧ hv.toNat % 16 ≠ 0 ∧ tq.toNat < 4 ∧ FrameComponents n rest
  | _ + 1, _ => False

/-- A frame header with eight bits per sample and one or three components. -/
def FrameHeader (seg : List UInt8) (n : Nat) : Prop :=
  ∃ h1 h0 w1 w0 b tail, seg = 8 :: h1 :: h0 :: w1 :: w0 :: b :: tail ∧ b.toNat = n ∧ (n = 1 ∨ n = 3) ∧ FrameComponents n tail

/-- The bytes begin with `n` components of a scan: an identifier and the numbers of two Huffman tables. -/
def ScanComponents : Nat → List UInt8 → Prop
  | 0, _ => True
  | n + 1, _ :: t :: rest => t.toNat / 16 < 4 ∧ t.toNat % 16 < 4 ∧ ScanComponents n rest
  | _ + 1, _ => False

/-- A scan header with `n` components. -/
def ScanHeader (seg : List UInt8) (n : Nat) : Prop := ∃ b tail, seg = b :: tail ∧ b.toNat = n ∧ ScanComponents n tail

/-- A segment that may come before the scan. -/
def Legible (p : UInt8 × List UInt8) : Prop :=
  p.1 ≠ 0xC2 ∧ p.1 ≠ 0xDA ∧ p.1 ≠ 0xD9 ∧ (p.1 = 0xC0 → ∃ n, FrameHeader p.2 n) ∧ (p.1 = 0xC4 → HuffmanTables p.2) ∧
    (p.1 = 0xDB → QuantizationTables p.2) ∧ (p.1 = 0xDD → p.2.length = 2)

/-- The last frame header among the segments has `n` components. -/
def LastFrame (l : List (UInt8 × List UInt8)) (n : Nat) : Prop :=
  ∃ pre seg post, l = pre ++ (0xC0, seg) :: post ∧ (∀ p ∈ post, p.1 ≠ 0xC0) ∧ FrameHeader seg n

/-- `file` is legible up to the header of its first scan, after which `scan` follows. -/
def UpToScan (file scan : List UInt8) : Prop :=
  ∃ body l d seg n, file = 0xFF :: 0xD8 :: body ∧ Segments body l d ∧ (∀ p ∈ l, Legible p) ∧ LastFrame l n ∧
    Segment d 0xDA seg scan ∧ ScanHeader seg n

end Spec.Markers
