import Verif.Spec.T81
import Verif.Spec.T81Markers
/-
Baseline files of any encoder (ITU-T T.81, B.2): several tables in one segment, tables set again, tables of
any number, comments and application data anywhere before the scan. Nothing here refers to the crate.
-/
namespace Spec.T81

/-- What the segments before a scan leave behind: tables by their numbers, the restart interval (0 for
none) and the frame header. -/
structure Env where
  quant : Nat → Option (List Nat)
  dc : Nat → Option Table
  ac : Nat → Option Table
  interval : Nat
  frame : Option Frame

/-- At the start of an image nothing is set. -/
def Env.start : Env := ⟨fun _ => none, fun _ => none, fun _ => none, 0, none⟩

/-- A table set. -/
def put {α : Type} (f : Nat → Option α) (i : Nat) (a : α) : Nat → Option α := fun j => if j = i then some a else f j

/-- Parameters of a DQT segment (B.2.4.1): tables of 64 entries in zigzag order, of eight bits (`Pq` 0) or
sixteen (`Pq` 1), with a number `Tq` from 0 to 3. -/
inductive Dqt : List UInt8 → Env → Env → Prop where
  | done {e} : Dqt [] e e
  | eight {tq entries rest e e'} : tq < 4 → entries.length = 64 →
      Dqt rest { e with quant := put e.quant tq (entries.map UInt8.toNat) } e' →
      Dqt (UInt8.ofNat tq :: entries ++ rest) e e'
  | sixteen {tq entries rest e e'} : tq < 4 → entries.length = 64 → (∀ v ∈ entries, v < 65536) →
      Dqt rest { e with quant := put e.quant tq entries } e' →
      Dqt (UInt8.ofNat (16 + tq) :: entries.flatMap be16 ++ rest) e e'

/-- Parameters of a DHT segment (B.2.4.2): tables of class `Tc` 0 for DC and 1 for AC, with a number `Th`
from 0 to 3, sixteen counts and the values. -/
inductive Dht : List UInt8 → Env → Env → Prop where
  | done {e} : Dht [] e e
  | dc {th counts vals rest e e'} : th < 4 → Table.Legal ⟨counts.map UInt8.toNat, vals.map UInt8.toNat⟩ →
      Dht rest { e with dc := put e.dc th ⟨counts.map UInt8.toNat, vals.map UInt8.toNat⟩ } e' →
      Dht (UInt8.ofNat th :: counts ++ vals ++ rest) e e'
  | ac {th counts vals rest e e'} : th < 4 → Table.Legal ⟨counts.map UInt8.toNat, vals.map UInt8.toNat⟩ →
      Dht rest { e with ac := put e.ac th ⟨counts.map UInt8.toNat, vals.map UInt8.toNat⟩ } e' →
      Dht (UInt8.ofNat (16 + th) :: counts ++ vals ++ rest) e e'

/-- Sampling factors are from 1 to 4 and tables from 0 to 3 (table B.2). -/
def Frame.Legal (f : Frame) : Prop := ∀ c ∈ f.comps, 1 ≤ c.h ∧ c.h ≤ 4 ∧ 1 ≤ c.v ∧ c.v ≤ 4 ∧ c.tq < 4

/-- A segment before the scan: tables, restart interval, the one frame header of a baseline image,
application data (markers E0 to EF) or a comment (FE). -/
inductive Misc : UInt8 × List UInt8 → Env → Env → Prop where
  | dqt {seg e e'} : Dqt seg e e' → Misc (0xDB, seg) e e'
  | dht {seg e e'} : Dht seg e e' → Misc (0xC4, seg) e e'
  | dri {hi lo e} : Misc (0xDD, [hi, lo]) e { e with interval := 256 * hi.toNat + lo.toNat }
  | sof {seg f e} : e.frame = none → T81.frame seg = some f → f.Legal → Misc (0xC0, seg) e { e with frame := some f }
  | other {m seg e} : (0xE0 ≤ m ∧ m ≤ 0xEF ∨ m = 0xFE) → Misc (m, seg) e e

/-- Segments one after another. -/
inductive Miscs : List (UInt8 × List UInt8) → Env → Env → Prop where
  | done {e} : Miscs [] e e
  | step {s l e e' e''} : Misc s e e' → Miscs l e' e'' → Miscs (s :: l) e e''

/-- `file` is a baseline file: start of image, segments, the header of one scan with all the components of
the frame, the scan, end of image, and whatever follows. `quant` are the quantization tables of the
components, `interval` is the restart interval (0 for none), `mcus` are the blocks of quantized coefficients in
zigzag order. The first coefficient of each block has at most 16 bits. -/
structure Baseline (file : List UInt8) (f : Frame) (quant : List (List Nat)) (interval : Nat)
    (mcus : List (List (Nat × List Int))) : Prop where
  reads : ∃ body l d hdr data env sel ts scan tail, file = 0xFF :: 0xD8 :: body ∧ Markers.Segments body l d ∧
    Miscs l Env.start env ∧ Markers.Segment d 0xDA hdr data ∧ env.frame = some f ∧ env.interval = interval ∧
    f.comps.mapM (fun c => env.quant c.tq) = some quant ∧ scanHeader hdr = some sel ∧
    sel.map (·.1) = f.comps.map (·.id) ∧
    (∀ i s, sel[i]? = some s → env.dc s.2.1 = some (ts.dc i) ∧ env.ac s.2.2 = some (ts.ac i)) ∧
    Scan ts (if interval = 0 then none else some interval) mcus scan ∧ data = scan ++ 0xFF :: 0xD9 :: tail
  count : mcus.map (fun m => m.map (·.1)) = List.replicate (mcuCount f) (mcuShape f)
  first : ∀ b ∈ mcus.flatten, -32768 ≤ b.2.headD 0 ∧ b.2.headD 0 < 32768

/-- The blocks of MCU `k` of a scan with all components (A.2.3): component, and the position of the first
sample in the component. With one component an MCU is one block, whatever its sampling factors (A.2.2). -/
def placesAt (f : Frame) (k : Nat) : List (Nat × Nat × Nat) :=
  match f.comps with
  | [_] => [(0, 8 * (k % mcusPerRow f), 8 * (k / mcusPerRow f))]
  | _ => blocksAt f k

/-- The sample of component `c` that covers the pixel in row `y` and column `x` (A.1.1): the components have
`h / hmax` and `v / vmax` of the samples of the image. -/
def covering (f : Frame) (planes : Nat → Nat → Nat → UInt8) (c y x : Nat) : UInt8 :=
  match f.comps[c]? with
  | none => 0
  | some k => planes c (y * k.v / (f.comps.map (·.v)).foldr max 0) (x * k.h / (f.comps.map (·.h)).foldr max 0)

/-- One component with factors 1, or three of which the first has the largest factors and those of the
others divide them. -/
def Frame.Plain (f : Frame) : Prop :=
  (∃ c, f.comps = [c] ∧ c.h = 1 ∧ c.v = 1) ∨
  ∃ c0 c1 c2, f.comps = [c0, c1, c2] ∧ 0 < c0.h ∧ 0 < c0.v ∧ c1.h ∣ c0.h ∧ c1.v ∣ c0.v ∧ c2.h ∣ c0.h ∧ c2.v ∣ c0.v

end Spec.T81
