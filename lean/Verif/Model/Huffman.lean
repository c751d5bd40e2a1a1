import Verif.Model.Adler32
/-
Model of src/compress/huffman.rs.
-/
namespace Pixo.Huffman
open Pixo

/-- `u32` subtraction in a checked build. -/
def subU32 (a b : Nat) : R Nat := if b ≤ a then .ok (a - b) else .error .panic

/-- `u16` addition in a checked build. -/
def addU16 (a b : Nat) : R Nat := if a + b < 2 ^ 16 then .ok (a + b) else .error .panic

/-- `Node` (src/compress/huffman.rs:21-28). A node has a symbol exactly if it is a leaf. -/
inductive Tree where
  | leaf (freq sym : Nat)
  | node (freq : Nat) (left right : Tree)
  deriving DecidableEq

def Tree.freq : Tree → Nat
  | .leaf f _ => f
  | .node f _ _ => f

/-- `symbol: Option<u16>` as compared by `Ord` (`None < Some`). -/
def Tree.symKey : Tree → Nat
  | .leaf _ s => s + 1
  | .node _ _ _ => 0

/-- `Ord for Node` (src/compress/huffman.rs:30-38): `self <= other`. -/
def Tree.le (a b : Tree) : Bool := a.freq < b.freq || (a.freq == b.freq && a.symKey ≤ b.symKey)

/-- `BinaryHeap<Reverse<Node>>::pop` (src/compress/huffman.rs:85-87): some minimal element is
removed. Which one among equal elements depends on the heap's internal layout; `choice` is an
oracle for it. -/
def popMin (choice : Nat) (heap : List Tree) : Option (Tree × List Tree) :=
  let candidates := (List.range heap.length).filter (fun i =>
    match heap[i]? with
    | some t => heap.all (t.le ·)
    | none => false)
  match candidates[choice % candidates.length]? with
  | some i =>
    match heap[i]? with
    | some t => some (t, heap.eraseIdx i)
    | none => none
  | none => none

/-- Tree building loop (src/compress/huffman.rs:85-100); `unwrap` of an empty heap panics.
`tie k` is the oracle for the `k`-th pop. -/
def buildTree (tie : Nat → Nat) : Nat → List Tree → R Tree
  | 0, _ => .error .hang
  | fuel + 1, heap =>
    if heap.length > 1 then
      match popMin (tie (2 * fuel + 1)) heap with
      | none => .error .panic
      | some (left, heap) =>
        match popMin (tie (2 * fuel)) heap with
        | none => .error .panic
        | some (right, heap) => do
          let f ← addU32 left.freq right.freq
          buildTree tie fuel (.node f left right :: heap)
    else
      match popMin 0 heap with
      | none => .error .panic
      | some (root, _) => .ok root

/-- `extract_lengths` (src/compress/huffman.rs:111-123); `depth` is a `u8`. -/
def extractLengths : Tree → Nat → List Nat → R (List Nat)
  | .leaf _ s, depth, lengths => setChecked lengths s (max depth 1)
  | .node _ l r, depth, lengths =>
    if depth + 1 < 256 then do
      let lengths ← extractLengths l (depth + 1) lengths
      extractLengths r (depth + 1) lengths
    else .error .panic

/-- Kraft contribution of a length (src/compress/huffman.rs:147-151). -/
def weight (maxLen l : Nat) : Nat := if l > 0 then 1 <<< (maxLen - l) else 0

/-- Sum of the contributions, in `u32` (src/compress/huffman.rs:147-151). -/
def kraftSum (maxLen : Nat) : List Nat → Nat → R Nat
  | [], acc => .ok acc
  | l :: ls, acc => do
    let acc ← addU32 acc (weight maxLen l)
    kraftSum maxLen ls acc

/-- Search for the shortest code that can be made longer (src/compress/huffman.rs:155-163). -/
def findShortest (maxLen : Nat) : List Nat → Nat → Option Nat → Nat → Option Nat
  | [], _, best, _ => best
  | l :: ls, i, best, bestLen =>
    if l > 0 ∧ l < maxLen ∧ l < bestLen then findShortest maxLen ls (i + 1) (some i) l
    else findShortest maxLen ls (i + 1) best bestLen

/-- Loop for over-subscribed lengths (src/compress/huffman.rs:154-173). -/
def overLoop (maxLen : Nat) : Nat → List Nat → Nat → R (List Nat × Nat)
  | 0, _, _ => .error .hang
  | fuel + 1, lengths, sum =>
    if sum > 1 <<< maxLen then
      match findShortest maxLen lengths 0 none maxLen with
      | some idx => do
        let l ← getChecked lengths idx
        let sum ← subU32 sum (1 <<< (maxLen - l))
        let lengths ← setChecked lengths idx (l + 1)
        let sum ← addU32 sum (1 <<< (maxLen - (l + 1)))
        overLoop maxLen fuel lengths sum
      | none => .ok (lengths, sum)
    else .ok (lengths, sum)

/-- Search for the longest code that can be made shorter (src/compress/huffman.rs:179-186). -/
def findLongest : List Nat → Nat → Option Nat → Nat → Option Nat
  | [], _, best, _ => best
  | l :: ls, i, best, bestLen =>
    if l > 1 ∧ l > bestLen then findLongest ls (i + 1) (some i) l
    else findLongest ls (i + 1) best bestLen

/-- Loop for under-subscribed lengths (src/compress/huffman.rs:177-204). -/
def underLoop (maxLen : Nat) : Nat → List Nat → Nat → R (List Nat)
  | 0, _, _ => .error .hang
  | fuel + 1, lengths, sum =>
    if sum < 1 <<< maxLen then
      match findLongest lengths 0 none 0 with
      | some idx => do
        let l ← getChecked lengths idx
        let old := 1 <<< (maxLen - l)
        let new := 1 <<< (maxLen - (l - 1))
        let rest ← subU32 sum old
        let total ← addU32 rest new
        if total ≤ 1 <<< maxLen then do
          let lengths ← setChecked lengths idx (l - 1)
          underLoop maxLen fuel lengths total
        else .ok lengths
      | none => .ok lengths
    else .ok lengths

/-- `limit_code_lengths` (src/compress/huffman.rs:128-205). The fuels exceed the number of
times any length can be changed. -/
def limitCodeLengths (lengths : List Nat) (maxLen : Nat) : R (List Nat) :=
  if lengths.any (· > maxLen) then do
    let lengths := lengths.map (fun l => if l > maxLen then maxLen else l)
    let sum ← kraftSum maxLen lengths 0
    let (lengths, sum) ← overLoop maxLen (lengths.length * maxLen + 1) lengths sum
    underLoop maxLen (lengths.length * maxLen + 1) lengths sum
  else .ok lengths

/-- `bl_count` (src/compress/huffman.rs:216-222); entry 0 stays 0. -/
def blCount (lengths : List Nat) (bits : Nat) : Nat :=
  if bits = 0 then 0 else lengths.countP (· == bits)

/-- Starting codes for lengths `bits+1..` (src/compress/huffman.rs:224-230), in `u16`. -/
def startCodes (lengths : List Nat) : Nat → Nat → Nat → R (List Nat)
  | 0, _, _ => .ok []
  | k + 1, bits, code => do
    let c ← addU16 code (blCount lengths bits % 2 ^ 16)
    let rest ← startCodes lengths k (bits + 1) ((c <<< 1) % 2 ^ 16)
    return ((c <<< 1) % 2 ^ 16) :: rest

/-- Assignment loop (src/compress/huffman.rs:232-241); a code is `(code, length)`. -/
def assign : List Nat → List Nat → R (List (Nat × Nat))
  | [], _ => .ok []
  | l :: ls, next =>
    if l > 0 then do
      let c ← getChecked next l
      let c' ← addU16 c 1
      let next ← setChecked next l c'
      let rest ← assign ls next
      return (c, l) :: rest
    else do
      let rest ← assign ls next
      return (0, 0) :: rest

/-- `generate_canonical_codes` (src/compress/huffman.rs:212-244); a length above 15 is out of
range of `bl_count`. -/
def generateCanonicalCodes (lengths : List Nat) : R (List (Nat × Nat)) :=
  if lengths.any (· > 15) then .error .panic
  else do
    let starts ← startCodes lengths 15 0 0
    assign lengths (0 :: starts)

/-- Symbols with non-zero frequency, in order, with their frequency
(src/compress/huffman.rs:54-59); `i as u16` truncates. -/
def nonZero : List Nat → Nat → List (Nat × Nat)
  | [], _ => []
  | f :: fs, i => if f > 0 then (i % 2 ^ 16, f) :: nonZero fs (i + 1) else nonZero fs (i + 1)

/-- `build_codes` (src/compress/huffman.rs:48-109). -/
def buildCodes (tie : Nat → Nat) (freqs : List Nat) (maxLen : Nat) : R (List (Nat × Nat)) :=
  match nonZero freqs 0 with
  | [] => .ok (List.replicate freqs.length (0, 0))
  | [(s, _)] => setChecked (List.replicate freqs.length (0, 0)) s (0, 1)
  | nz => do
    let root ← buildTree tie nz.length (nz.map (fun p => .leaf p.2 p.1))
    let lengths ← extractLengths root 0 (List.replicate freqs.length 0)
    let lengths ← limitCodeLengths lengths maxLen
    generateCanonicalCodes lengths

/-- Lengths of the fixed literal/length code (src/compress/huffman.rs:247-268). -/
def fixedLitLengths : List Nat :=
  List.replicate 144 8 ++ List.replicate 112 9 ++ List.replicate 24 7 ++ List.replicate 8 8

/-- `fixed_literal_codes` (src/compress/huffman.rs:247-268, 280-282). -/
def fixedLiteralCodes : R (List (Nat × Nat)) := generateCanonicalCodes fixedLitLengths

/-- `fixed_distance_codes` (src/compress/huffman.rs:271-275, 287-289). -/
def fixedDistanceCodes : R (List (Nat × Nat)) := generateCanonicalCodes (List.replicate 32 5)

end Pixo.Huffman
