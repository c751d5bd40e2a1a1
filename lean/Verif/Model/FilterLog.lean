import Verif.Model.Filter
/-
Model of the filter statistics of src/png/filter.rs (option `verbose_filter_log`).
-/
namespace Pixo.Filter
open Pixo.Simd (Level)
open Pixo.MatchLength (slice)

/-- What `eprintln!` is given (src/png/filter.rs:193-202). -/
structure Log where
  strategy : Strategy
  rows : Nat
  counts : List Nat
  deriving DecidableEq

/-- `last_filter` after a row: under `MinSum` the last byte of `output` (src/png/filter.rs:132-134), otherwise
the byte of `output` where the row begins (src/png/filter.rs:154-157 and 171-173). -/
def lastFilter (st : Strategy) (base : Nat) (output : List UInt8) (last : UInt8) : UInt8 :=
  match st with
  | .minSum => output.getLast?.getD last
  | _ => output[base]?.getD last

/-- Counting one row (src/png/filter.rs:187-189); the array has five places. -/
def countRow (verbose : Bool) (f : UInt8) (counts : List Nat) : List Nat :=
  if verbose ∧ f ≤ 4 then counts.modify f.toNat (· + 1) else counts

/-- The sequential loop with its statistics (src/png/filter.rs:121-190): `lastAdaptive`, `last`, `counts` and
`output` are the variables of that name. -/
def logLoop (lv : Level) (data : List UInt8) (rowBytes bpp : Nat) (st : Strategy) (verbose : Bool) :
    Nat → Nat → List UInt8 → Option UInt8 → UInt8 → List Nat → List UInt8 → R (List UInt8 × List Nat)
  | _, 0, _, _, _, counts, output => .ok (output, counts)
  | y, n + 1, prev, lastAdaptive, last, counts, output => do
    let row ← slice data (y * rowBytes) rowBytes
    let out ← filterRow lv row prev bpp (rowStrategy st lastAdaptive)
    let base := output.length
    let output := output ++ out
    let last := lastFilter st base output last
    logLoop lv data rowBytes bpp st verbose (y + 1) n row output[base]? last (countRow verbose last counts) output

/-- `apply_filters_with_row_bytes` (src/png/filter.rs:64-203) with what it prints. The parallel path returns
before anything is printed. -/
def applyFiltersLogged (lv : Level) (sched : Schedule) (data : List UInt8)
    (width height rowBytes bpp : Nat) (st : Strategy) (verbose : Bool) : R (List UInt8 × Option Log) :=
  let st := effective st width height
  if sched.isSome ∧ height > 32 ∧ st.tries then do
    let rows ← applyParallel lv data rowBytes bpp st (sched.getD [])
      (List.replicate height (List.replicate (rowBytes + 1) 0))
    return (rows.flatten, none)
  else do
    let (output, counts) ← logLoop lv data rowBytes bpp st verbose 0 height (List.replicate rowBytes 0) none 4
      (List.replicate 5 0) []
    return (output, if verbose then some ⟨st, height, counts⟩ else none)

end Pixo.Filter
