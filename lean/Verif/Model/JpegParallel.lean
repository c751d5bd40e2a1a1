import Verif.Model.JpegProgressive
import Verif.Model.Parallel
/-
The coefficients of a progressive file with the `parallel` feature (src/jpeg/mod.rs).
-/
namespace Pixo.Jpeg

/-- `process_block_444` (src/jpeg/mod.rs:981-1012). -/
def Ctx.processBlock444 (c : Ctx) (x y : Nat) : R (List Int × List Int × List Int) := do
  let (yb, cb, cr) ← extractBlock c.data c.width c.height x y c.colorType
  return (← c.coeffs false yb, ← c.coeffs true cb, ← c.coeffs true cr)

/-- `process_mcu_420` (src/jpeg/mod.rs:1015-1043). -/
def Ctx.processMcu420 (c : Ctx) (x y : Nat) : R (List (List Int) × List Int × List Int) := do
  let (ys, cb, cr) ← extractMcu420 c.data c.width c.height x y
  let yq ← ys.mapM (c.coeffs false)
  return (yq, ← c.coeffs true cb, ← c.coeffs true cr)

/-- `coords.par_iter().map(f).collect()` with the tasks in the given order. -/
def overCoords {α : Type} (order : List Nat) (ps : List (Nat × Nat)) (f : Nat × Nat → R α) : R (List α) :=
  Parallel.loop (some order) ps.length (fun i => do
    let p ← getChecked ps i
    f p)

/-- `unzip3` (src/jpeg/mod.rs:1233-1245). -/
def unzip3 {α β γ : Type} : List (α × β × γ) → List α × List β × List γ
  | [] => ([], [], [])
  | (a, b, c) :: rest =>
    let (as, bs, cs) := unzip3 rest
    (a :: as, b :: bs, c :: cs)

/-- `compute_all_coefficients_parallel` (src/jpeg/mod.rs:1137-1230). -/
def allCoefficientsParallel (order : List Nat) (c : Ctx) : R (List (List Int) × List (List Int) × List (List Int)) :=
  if c.colorType = .gray then do
    let y ← overCoords order (coords c.width c.height 8) (fun p => do
      let (yb, _, _) ← extractBlock c.data c.width c.height p.1 p.2 c.colorType
      c.coeffs false yb)
    return (y, [], [])
  else if c.subsampling = .s444 then do
    let results ← overCoords order (coords c.width c.height 8) (fun p => c.processBlock444 p.1 p.2)
    return unzip3 results
  else do
    let results ← overCoords order (coords c.width c.height 16) (fun p => c.processMcu420 p.1 p.2)
    let (ys, cb, cr) := unzip3 results
    return (ys.flatten, cb, cr)

/-- `compute_all_coefficients` (src/jpeg/mod.rs:932-966): `none` without the `parallel` feature. -/
def allCoefficientsWith (sched : Option (List Nat)) (c : Ctx) : R (List (List Int) × List (List Int) × List (List Int)) :=
  match sched with
  | none => allCoefficients c
  | some order => allCoefficientsParallel order c

/-- `encode_progressive` (src/jpeg/mod.rs:872-927). -/
def encodeProgressiveWith (sched : Option (List Nat)) (c : Ctx) (t : HuffTables) : R (List UInt8) := do
  let (y, cb, cr) ← allCoefficientsWith sched c
  let scans ← script.mapM (fun s => encodeProgScan t (component y cb cr s.component) s)
  return scans.flatten

/-- `encode_into` after its checks (src/jpeg/mod.rs:378-446) with either feature. -/
def encodeBodyWith (sched : Option (List Nat)) (data : List UInt8) (o : Options) : R (List UInt8) := do
  let q := QuantTables.withQuality o.quality
  let c := Ctx.of data o q
  let total := totalMcus c.width c.height c.step
  let mcus ← c.mcus
  let t ← chooseTables o mcus total
  if o.progressive then do
    let scans ← encodeProgressiveWith sched (c.progressive o) t
    return header o q t 0xFFC2 ++ scans ++ eoi
  else do
    let scan ← encodeScan t mcus o.restartInterval total
    return header o q t 0xFFC0 ++ sos o.colorType ++ scan ++ eoi

/-- `encode` (src/jpeg/mod.rs:88-92, 328-447) with either feature. -/
def encodeWith (sched : Option (List Nat)) (data : List UInt8) (o : Options) : R (List UInt8) := do
  validate data o
  encodeBodyWith sched data o

end Pixo.Jpeg
