import Verif.Model.JpegProgressive
/-
Model of successive approximation (src/jpeg/progressive.rs, and the refinement scans of src/jpeg/mod.rs): these
functions are public, or called by `encode_progressive` for scripts other than the one it uses. `Al` is taken to
be less than 15 (T.81 allows 0 to 13), so that `1 << scan.al` is positive in `i16`.
-/
namespace Pixo.Jpeg
open Pixo

/-- `default_progressive_script` (src/jpeg/progressive.rs:68-95). -/
def defaultScript : List ScanSpec :=
  [⟨0, 0, 0, 0, 1⟩, ⟨1, 0, 0, 0, 1⟩, ⟨2, 0, 0, 0, 1⟩,
   ⟨0, 1, 5, 0, 2⟩, ⟨0, 6, 14, 0, 2⟩, ⟨0, 15, 63, 0, 1⟩,
   ⟨1, 1, 63, 0, 1⟩, ⟨2, 1, 63, 0, 1⟩,
   ⟨0, 0, 0, 1, 0⟩, ⟨1, 0, 0, 1, 0⟩, ⟨2, 0, 0, 1, 0⟩,
   ⟨0, 1, 5, 2, 1⟩, ⟨0, 1, 5, 1, 0⟩, ⟨0, 6, 14, 2, 1⟩, ⟨0, 6, 14, 1, 0⟩, ⟨0, 15, 63, 1, 0⟩,
   ⟨1, 1, 63, 1, 0⟩, ⟨2, 1, 63, 1, 0⟩]

/-- `encode_dc_first` (src/jpeg/progressive.rs:113-131). -/
def encodeDcFirst (w : BitWriterMsb) (diff : Int) (al : Nat) (code : Nat × Nat) : R BitWriterMsb :=
  let shifted := diff / 2 ^ al
  let w := writeCode w code
  if shifted ≠ 0 then do
    let v ← encodeValue shifted
    return writeCode w v
  else return w

/-- `encode_dc_refine` (src/jpeg/progressive.rs:134-138). -/
def encodeDcRefine (w : BitWriterMsb) (dc : Int) (al : Nat) : BitWriterMsb :=
  w.writeBits ((dc.natAbs >>> al) &&& 1) 1

/-- The block loop of `encode_dc_scan` (src/jpeg/mod.rs:1285-1307) of a refinement scan; the difference of line
1287 is computed there too. -/
def dcRefineBlocks (al : Nat) : List (List Int) → BitWriterMsb → Int → R BitWriterMsb
  | [], w, _ => .ok w
  | b :: bs, w, prev => do
    let dc := b.headD 0
    let _ ← subI16 dc prev
    dcRefineBlocks al bs (encodeDcRefine w dc al) dc

/-- The search for the end of the band (src/jpeg/progressive.rs:226-237), of which nothing is used: coefficients
from the last down to the second one. `abs` of -32768 overflows. -/
def findEnd (al : Nat) : List Int → R Unit
  | [] => .ok ()
  | x :: xs =>
    if x = -32768 then .error .panic
    else if x.natAbs > 1 <<< al then .ok ()
    else if (x.natAbs >>> al) &&& 1 ≠ 0 then .ok ()
    else findEnd al xs

/-- The loops over `correction_bits` (src/jpeg/progressive.rs:258-260, 275-277, 299-301). -/
def pushBits (w : BitWriterMsb) (bits : List Nat) : BitWriterMsb := bits.foldl (fun w b => w.writeBits b 1) w

/-- `while zero_run >= 16` (src/jpeg/progressive.rs:253-263): the writer, and the correction bits left. -/
def refineZrl (t : HuffTables) (lum : Bool) : Nat → List Nat → BitWriterMsb → R (BitWriterMsb × List Nat)
  | 0, corr, w => .ok (w, corr)
  | n + 1, corr, w => do
    let c ← progAcCode t 0xF0 lum
    refineZrl t lum n [] (pushBits (writeCode w c) corr)

/-- The coefficient loop (src/jpeg/progressive.rs:239-283) with `zero_run`, `correction_bits` and `eob_run`. -/
def refineCoefs (t : HuffTables) (lum : Bool) (al : Nat) :
    List Int → Nat → List Nat → Nat → BitWriterMsb → R (BitWriterMsb × Nat × List Nat × Nat)
  | [], zeroRun, corr, run, w => .ok (w, zeroRun, corr, run)
  | x :: xs, zeroRun, corr, run, w =>
    if x.natAbs > 1 <<< al then refineCoefs t lum al xs zeroRun (corr ++ [(x.natAbs >>> al) &&& 1]) run w
    else if (x.natAbs >>> al) &&& 1 ≠ 0 then do
      let w ← if run > 0 then flushEobRun t lum w run else .ok w
      let (w, corr) ← refineZrl t lum (zeroRun / 16) corr w
      let c ← progAcCode t ((((zeroRun % 16) <<< 4) % 2 ^ 8) ||| 1) lum
      let w := writeCode w c
      let w := w.writeBits (if x < 0 then 0 else 1) 1
      refineCoefs t lum al xs 0 [] 0 (pushBits w corr)
    else refineCoefs t lum al xs (zeroRun + 1) corr run w

/-- `encode_ac_refine` (src/jpeg/progressive.rs:212-302). -/
def encodeAcRefine (t : HuffTables) (scan : ScanSpec) (lum : Bool) (w : BitWriterMsb) (block : List Int)
    (eobRun : Nat) : R (BitWriterMsb × Nat) := do
  let band := ((zigzagReorder block).drop scan.ss).take (scan.se + 1 - scan.ss)
  findEnd scan.al (band.drop 1).reverse
  let (w, zeroRun, corr, run) ← refineCoefs t lum scan.al band 0 [] eobRun w
  if zeroRun > 0 ∨ corr ≠ [] then do
    let run ← addU16 run 1
    if run = 0x7FFF then do
      let w ← flushEobRun t lum w run
      return (pushBits w corr, 0)
    else return (pushBits w corr, run)
  else return (w, run)

/-- The block loop of `encode_ac_refine_scan` (src/jpeg/mod.rs:1391-1405) with the final flush. -/
def acRefineBlocks (t : HuffTables) (scan : ScanSpec) (lum : Bool) :
    List (List Int) → BitWriterMsb → Nat → R BitWriterMsb
  | [], w, run => if run > 0 then flushEobRun t lum w run else .ok w
  | b :: bs, w, run => do
    let (w, run) ← encodeAcRefine t scan lum w b run
    acRefineBlocks t scan lum bs w run

/-- The entropy-coded bytes of any scan (src/jpeg/mod.rs:889-925) of a component with these coefficients. -/
def scanData (t : HuffTables) (coeffs : List (List Int)) (s : ScanSpec) : R (List UInt8) := do
  let w ←
    if s.ss = 0 ∧ s.se = 0 then
      (if s.ah > 0 then dcRefineBlocks s.al coeffs {} 0 else dcScanBlocks t s (s.component = 0) coeffs {} 0)
    else if s.ah = 0 then acScanBlocks t s (s.component = 0) coeffs {} 0
    else acRefineBlocks t s (s.component = 0) coeffs {} 0
  return w.finish

end Pixo.Jpeg
