import Verif.Spec.T81Prog
/-
Successive approximation of ITU-T T.81 (annex G): point transforms (A.4), refinement scans (G.1.2.1, G.1.2.3) and
the rules for sequences of scans (G.1.1.1). Nothing here refers to the crate.
-/
namespace Spec.T81

/-- The point transform of DC coefficients (A.4): an arithmetic shift. -/
def dcPoint (al : Nat) (v : Int) : Int := v.fdiv (2 ^ al)

/-- The point transform of AC coefficients (A.4): division by a power of two, truncated towards zero. -/
def acPoint (al : Nat) (v : Int) : Int := v.tdiv (2 ^ al)

/-- A refinement scan of DC coefficients (G.1.2.1): the lowest bit of each transformed coefficient. -/
def dcRefineBits (al : Nat) (dcs : List Int) : List Bool := dcs.map fun d => decide (dcPoint al d % 2 = 1)

/-- A coefficient (as transformed for this scan) without a nonzero history stays zero, or had a nonzero history. -/
def Passed (v : Int) : Prop := v = 0 ∨ 2 ≤ v.natAbs

instance (v : Int) : Decidable (Passed v) := by unfold Passed; infer_instance

/-- The correction bits of coefficients with nonzero history. -/
def corrections (l : List Int) : List Bool :=
  (l.filter fun v => decide (2 ≤ v.natAbs)).map fun v => decide (v.natAbs % 2 = 1)

/-- The bands of AC coefficients of a refinement scan (G.1.2.3): what is left of the current band, and the bands
after it; all coefficients as transformed for this scan, so that those of magnitude 1 are new. Runs count
coefficients that stay zero; the correction bits of those passed come after the code (and sign), and after an end of
bands those of all the bands it ends. -/
inductive AcRefine (t : Table) (len : Nat) : List Int → List (List Int) → List Bool → Prop where
  | done : AcRefine t len [] [] []
  | next {band bands bits} : band.length = len → AcRefine t len band bands bits → AcRefine t len [] (band :: bands) bits
  | zrl {pre cur bands word bits} : (∀ v ∈ pre, Passed v) → pre.count 0 = 15 → t.HasCode 0xF0 word →
      AcRefine t len cur bands bits → AcRefine t len (pre ++ 0 :: cur) bands (word ++ corrections pre ++ bits)
  | coef {pre v cur bands word bits} : (∀ v ∈ pre, Passed v) → pre.count 0 < 16 → v.natAbs = 1 →
      t.HasCode (16 * pre.count 0 + 1) word → AcRefine t len cur bands bits →
      AcRefine t len (pre ++ v :: cur) bands (word ++ decide (0 < v) :: corrections pre ++ bits)
  | eob {cur skipped r v bands word bits} : cur ≠ [] → (∀ v ∈ cur, Passed v) → r < 15 → v < 2 ^ r →
      t.HasCode (16 * r) word → skipped.length = 2 ^ r + v - 1 →
      (∀ b ∈ skipped, b.length = len ∧ ∀ v ∈ b, Passed v) → AcRefine t len [] bands bits →
      AcRefine t len cur (skipped ++ bands)
        (word ++ bitsMSB v r ++ corrections cur ++ (skipped.map corrections).flatten ++ bits)

/-- A scan of one component: its index, its band, and its two bit positions. -/
structure ScanRule where
  comp : Nat
  ss : Nat
  se : Nat
  ah : Nat
  al : Nat
  deriving DecidableEq, Repr

/-- The scan is legal by itself (G.1.1.1): DC or AC, and a refinement is by one bit. -/
def ScanRule.Legal (s : ScanRule) : Prop :=
  ((s.ss = 0 ∧ s.se = 0) ∨ (1 ≤ s.ss ∧ s.ss ≤ s.se ∧ s.se ≤ 63)) ∧ s.al ≤ 13 ∧ (s.ah = 0 ∨ s.ah = s.al + 1)

instance (s : ScanRule) : Decidable s.Legal := by unfold ScanRule.Legal; infer_instance

/-- The bit positions of the scans of a coefficient: one first scan, then a refinement bit by bit down to 0. -/
def BitChain : List (Nat × Nat) → Prop
  | [] => False
  | (ah, al) :: rest => ah = 0 ∧ rest = (List.range al).reverse.map (fun k => (k + 1, k))

instance (l : List (Nat × Nat)) : Decidable (BitChain l) := by
  cases l with
  | nil => exact .isFalse (fun h => h)
  | cons a l => unfold BitChain; infer_instance

/-- The scans of coefficient `k` of a component. -/
def scansOf (l : List ScanRule) (c k : Nat) : List (Nat × Nat) :=
  (l.filter fun s => decide (s.comp = c ∧ s.ss ≤ k ∧ k ≤ s.se)).map fun s => (s.ah, s.al)

/-- The scans say all coefficients of the components in full, in an order T.81 allows: a component's first scan is
of its DC coefficients. -/
def FullScript (n : Nat) (l : List ScanRule) : Prop :=
  (∀ s ∈ l, s.Legal ∧ s.comp < n) ∧ (∀ c < n, ∀ k < 64, BitChain (scansOf l c k)) ∧
    ∀ c < n, (l.find? (fun s => decide (s.comp = c))).map (·.ss) = some 0

instance (n : Nat) (l : List ScanRule) : Decidable (FullScript n l) := by unfold FullScript; infer_instance

/-- The entropy-coded segment of a scan (F.1.2.3, B.1.1.5): `bands` are the blocks' bands `ss`..`se` in full; the
scan says them from bit `al` on, or bit `al` of them. -/
def ApproxSegment (dc ac : Table) (s : ScanRule) (bands : List (List Int)) (bytes : List UInt8) : Prop :=
  ∃ raw bits, bytes = stuff raw ∧ bytesMSB raw = bits ++ List.replicate (padLen bits.length) true ∧
    if s.ss = 0 then s.se = 0 ∧ ∃ dcs, bands = dcs.map (fun d => [d]) ∧
      if s.ah = 0 then DcFirst dc 0 (dcs.map (dcPoint s.al)) bits else bits = dcRefineBits s.al dcs
    else s.ss ≤ s.se ∧ s.se ≤ 63 ∧
      if s.ah = 0 then AcFirst ac (s.se + 1 - s.ss) [] (bands.map fun b => b.map (acPoint s.al)) bits
      else AcRefine ac (s.se + 1 - s.ss) [] (bands.map fun b => b.map (acPoint s.al)) bits

end Spec.T81
