import Verif.Model.Deflate
/-
How many tokens the search for block splits looks at: the functions of src/compress/deflate.rs:484-653 once more, each also giving
the number of rounds of the loop over tokens in `count_symbols_range` (src/compress/deflate.rs:453). The second loop over the same
tokens (525-531) is not counted, nor are loops over symbols, candidates and blocks, which are of bounded length.
-/
namespace Pixo.Deflate
open Pixo Pixo.Lz77

/-- `estimate_block_cost` (src/compress/deflate.rs:484-534): the loop has one round for each token of the range; there is none if the
range is empty (485-487). -/
def estimateW (env : Env) (tokens : List Token) (start stop : Nat) : R (Int × Nat) := do
  let c ← estimateBlockCost env tokens start stop
  return (c, stop - start)

/-- Both halves (src/compress/deflate.rs:553-555, 576-578). -/
def splitCostW (env : Env) (tokens : List Token) (start i stop : Nat) : R (Int × Nat) := do
  let (left, a) ← estimateW env tokens start i
  let (right, b) ← estimateW env tokens i stop
  return (F64.add left right, a + b)

/-- The positions tried first (src/compress/deflate.rs:550-557). -/
def candidatesW (env : Env) (tokens : List Token) (start stop step : Nat) : Nat → Nat → R (List (Nat × Int) × Nat)
  | 0, _ => .error .hang
  | fuel + 1, i =>
    if i < stop - 10 then do
      let (total, a) ← splitCostW env tokens start i stop
      let (rest, b) ← candidatesW env tokens start stop step fuel (i + step)
      return ((i, total) :: rest, a + b)
    else .ok ([], 0)

/-- The fine search (src/compress/deflate.rs:575-583). -/
def fineSearchW (env : Env) (tokens : List Token) (start stop : Nat) : Nat → Nat → Nat × Int → R ((Nat × Int) × Nat)
  | 0, _, best => .ok (best, 0)
  | n + 1, i, best => do
    let (total, a) ← splitCostW env tokens start i stop
    let (best, b) ← fineSearchW env tokens start stop n (i + 1) (if total < best.2 then (i, total) else best)
    return (best, a + b)

/-- `find_best_split` (src/compress/deflate.rs:538-594). -/
def findBestSplitW (env : Env) (tokens : List Token) (start stop : Nat) : R (Option Nat × Nat) := do
  let size ← subUsize stop start
  if size < 20 then .ok (none, 0)
  else do
    let (orig, a) ← estimateW env tokens start stop
    let step := max (size / 9) 1
    let (cands, b) ← candidatesW env tokens start stop step (size + 1) (start + 10)
    match minBy cands with
    | none => .ok (none, a + b)
    | some (bi, cost) =>
      if cost < orig then do
        let fineStart := max (bi - step) (start + 10)
        let fineEnd := min (bi + step) (stop - 10)
        let ((split, best), c) ← fineSearchW env tokens start stop (fineEnd + 1 - fineStart) fineStart (bi, cost)
        if best < F64.sub orig (F64.ofInt 10) then .ok (some split, a + b + c) else .ok (none, a + b + c)
      else .ok (none, a + b)

/-- The loop of `find_block_splits` (src/compress/deflate.rs:607-650). -/
def splitLoopW (env : Env) (tokens : List Token) (maxBlocks : Nat) : Nat → List Nat → List Bool → Nat → R (List Nat × Nat)
  | 0, _, _, _ => .error .hang
  | fuel + 1, splits, done, num =>
    if num ≥ maxBlocks then .ok (splits, 0)
    else do
      match ← largestBlock done (boundaries splits tokens.length) none with
      | none => .ok (splits, 0)
      | some (start, stop, _) =>
        match ← findBestSplitW env tokens start stop with
        | (some s, a) => do
          let (splits, b) ← splitLoopW env tokens maxBlocks fuel (insertSplit splits s) done (num + 1)
          return (splits, a + b)
        | (none, a) => do
          let done ← setChecked done start true
          let (splits, b) ← splitLoopW env tokens maxBlocks fuel splits done num
          return (splits, a + b)

/-- `find_block_splits` (src/compress/deflate.rs:598-653). -/
def findBlockSplitsW (env : Env) (tokens : List Token) (maxBlocks : Nat) : R (List Nat × Nat) :=
  if tokens.length < 20 ∨ maxBlocks ≤ 1 then .ok ([], 0)
  else splitLoopW env tokens maxBlocks (maxBlocks + tokens.length + 1) [] (List.replicate tokens.length false) 1

end Pixo.Deflate
