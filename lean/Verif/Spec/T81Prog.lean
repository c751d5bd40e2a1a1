import Verif.Spec.T81
/-
Progressive files of ITU-T T.81 (annex G), as far as spectral selection: every scan has one component
and codes a band of its coefficients in full (first scans, Al = 0). Nothing here refers to the crate.
-/
namespace Spec.T81

/-! ### Blocks of a component in a scan of its own (A.2.2) -/

/-- Greatest horizontal sampling factor. -/
def Frame.hmax (f : Frame) : Nat := (f.comps.map (·.h)).foldr max 0
/-- Greatest vertical sampling factor. -/
def Frame.vmax (f : Frame) : Nat := (f.comps.map (·.v)).foldr max 0

/-- Blocks in a row of a component (A.1.1, A.2.2): as many as cover its samples. -/
def blocksWide (f : Frame) (c : Component) : Nat := ceilDiv (ceilDiv (f.width * c.h) f.hmax) 8
/-- Rows of blocks of a component. -/
def blocksHigh (f : Frame) (c : Component) : Nat := ceilDiv (ceilDiv (f.height * c.v) f.vmax) 8

/-- Position of the first sample of block `k` of a component in a scan of its own: row by row. -/
def blockPos (f : Frame) (c : Component) (k : Nat) : Nat × Nat :=
  (8 * (k % blocksWide f c), 8 * (k / blocksWide f c))

/-! ### Entropy coding (G.1.2) -/

/-- The DC coefficients of a scan (G.1.2.1): differences, as in sequential mode. -/
inductive DcFirst (t : Table) : Int → List Int → List Bool → Prop where
  | nil {pred} : DcFirst t pred [] []
  | cons {pred d dcs b bs} : Dc t d b → DcFirst t (pred + d) dcs bs → DcFirst t pred ((pred + d) :: dcs) (b ++ bs)

/-- The bands of AC coefficients of a scan (G.1.2.2): what is left of the current band, and the bands
after it. Besides the symbols of sequential mode there are ends of band for a run of up to 32767
bands: the rest of this one and the following ones are zero. -/
inductive AcFirst (t : Table) (len : Nat) : List Int → List (List Int) → List Bool → Prop where
  | done : AcFirst t len [] [] []
  | next {band bands bits} : band.length = len → AcFirst t len band bands bits → AcFirst t len [] (band :: bands) bits
  | zrl {cur bands word bits} : t.HasCode 0xF0 word → AcFirst t len cur bands bits →
      AcFirst t len (List.replicate 16 0 ++ cur) bands (word ++ bits)
  | coef {r s v cur bands word bits} : r < 16 → 1 ≤ s → s ≤ 10 → v < 2 ^ s → t.HasCode (16 * r + s) word →
      AcFirst t len cur bands bits →
      AcFirst t len (List.replicate r 0 ++ extend v s :: cur) bands (word ++ bitsMSB v s ++ bits)
  | eob {n r v bands word bits} : 0 < n → r < 15 → v < 2 ^ r → t.HasCode (16 * r) word →
      AcFirst t len [] bands bits →
      AcFirst t len (List.replicate n 0) (List.replicate (2 ^ r + v - 1) (List.replicate len 0) ++ bands)
        (word ++ bitsMSB v r ++ bits)

/-- A symbol needed for a nonzero coefficient of a band (F.1.2.2, G.1.2.2): `r` zeros since the last one or
the start of the band, 16 of them at a time by ZRL, and its size. -/
def CoefSymbol (band : List Int) (s : Nat) : Prop :=
  ∃ pre r v post, band = pre ++ List.replicate r 0 ++ v :: post ∧ v ≠ 0 ∧ pre.getLast? ≠ some 0 ∧
    ((16 ≤ r ∧ s = 0xF0) ∨ ∃ c, 1 ≤ c ∧ 2 ^ (c - 1) ≤ v.natAbs ∧ v.natAbs < 2 ^ c ∧ s = 16 * (r % 16) + c)

/-- A symbol needed for a band by itself: that of a coefficient, or an end of band. -/
def BandSymbol (band : List Int) (s : Nat) : Prop := CoefSymbol band s ∨ (s = 0 ∧ band.getLast? = some 0)

/-- The blocks' bands `ss`..`se` in an entropy-coded segment (F.1.2.3, B.1.1.5). -/
def BandSegment (dc ac : Table) (ss se : Nat) (bands : List (List Int)) (bytes : List UInt8) : Prop :=
  ∃ raw bits, bytes = stuff raw ∧ bytesMSB raw = bits ++ List.replicate (padLen bits.length) true ∧
    if ss = 0 then se = 0 ∧ ∃ dcs, bands = dcs.map (fun d => [d]) ∧ DcFirst dc 0 dcs bits
    else ss ≤ se ∧ se ≤ 63 ∧ AcFirst ac (se + 1 - ss) [] bands bits

/-- Segments separated by restart markers; an MCU is a block (A.2.2). -/
inductive BandRestarts (dc ac : Table) (ss se ri : Nat) : Nat → List (List Int) → List UInt8 → Prop where
  | last {m bands bytes} : bands.length ≤ ri → bands ≠ [] → BandSegment dc ac ss se bands bytes →
      BandRestarts dc ac ss se ri m bands bytes
  | more {m bands rest bytes more} : bands.length = ri → BandSegment dc ac ss se bands bytes →
      BandRestarts dc ac ss se ri (m + 1) rest more →
      BandRestarts dc ac ss se ri m (bands ++ rest) (bytes ++ [0xFF, UInt8.ofNat (0xD0 + m % 8)] ++ more)

/-- The entropy-coded data of a scan. -/
def BandScan (dc ac : Table) (interval : Option Nat) (ss se : Nat) (bands : List (List Int))
    (bytes : List UInt8) : Prop :=
  match interval with
  | none => BandSegment dc ac ss se bands bytes
  | some ri => BandRestarts dc ac ss se ri 0 bands bytes

/-! ### Files -/

/-- The frame header of a progressive file. -/
def progFrameOf (segs : List (UInt8 × List UInt8)) : Option Frame :=
  segs.findSome? (fun s => if s.1 = 0xC2 then frame s.2 else none)

/-- What a scan says: the index of its component in the frame, its band, and the band of each block. -/
structure BandData where
  comp : Nat
  ss : Nat
  se : Nat
  bands : List (List Int)
  deriving DecidableEq, Repr

/-- The scans of a file up to EOI; `segs` are the marker segments so far, the latest first. A scan
header names one component of the frame and its (legal) tables, the band, and no successive
approximation; what follows the entropy-coded data is a marker. -/
inductive Scans (f : Frame) : List (UInt8 × List UInt8) → List UInt8 → List BandData → Prop where
  | eoi {segs} : Scans f segs [0xFF, 0xD9] []
  | scan {segs more data rest bytes tail id tabs ss se i c dc ac bands out} :
      walk 0xDA data.length data = some (more, rest) →
      more.getLast? = some (0xDA, [1, id, tabs, ss, se, 0]) →
      f.comps[i]? = some c → c.id = id.toNat →
      huffOf 0 (tabs.toNat / 16) (more ++ segs) = some dc → huffOf 1 (tabs.toNat % 16) (more ++ segs) = some ac →
      dc.Legal → ac.Legal → bands.length = blocksWide f c * blocksHigh f c →
      BandScan dc ac (intervalOf (more ++ segs)) ss.toNat se.toNat bands bytes →
      rest = bytes ++ tail → (∃ x xs, tail = 0xFF :: x :: xs ∧ x ≠ 0) →
      Scans f (more ++ segs) tail out → Scans f segs data (⟨i, ss.toNat, se.toNat, bands⟩ :: out)

/-- `file` is a progressive file: start of image, marker segments with a progressive frame header
before the first scan, scans, end of image. -/
def ReadsProg (file : List UInt8) (f : Frame) (quant : List (List Nat)) (out : List BandData) : Prop :=
  ∃ body segs rest, file = [0xFF, 0xD8] ++ body ∧ walk 0xDA file.length body = some (segs, rest) ∧
    progFrameOf segs = some f ∧ f.comps.mapM (fun c => quantOf c.tq segs) = some quant ∧
    (f.comps.map (·.id)).Nodup ∧ Scans f [] body out

/-- The bands of a scan whose component has these blocks (in zigzag order). -/
def bandOf (ss se : Nat) (block : List Int) : List Int := (block.drop ss).take (se + 1 - ss)

end Spec.T81
