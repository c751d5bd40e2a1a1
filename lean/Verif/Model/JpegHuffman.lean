import Verif.Model.JpegTables
import Verif.Model.Bits
/-
Model of src/jpeg/huffman.rs. An `i16` is an `Int`, a code is `(code, length)`; arithmetic is that of
a checked build.
-/
namespace Pixo.Jpeg
open Pixo

/-- `a - b` of `i16`. -/
def subI16 (a b : Int) : R Int :=
  if -32768 ≤ a - b ∧ a - b ≤ 32767 then .ok (a - b) else .error .panic

/-- `a + b` of `u8`. -/
def addU8 (a b : Nat) : R Nat := if a + b < 2 ^ 8 then .ok (a + b) else .error .panic

/-- `a + b` of `u16`. -/
def addU16 (a b : Nat) : R Nat := if a + b < 2 ^ 16 then .ok (a + b) else .error .panic

/-- `a + b` of `u64`. -/
def addU64 (a b : Nat) : R Nat := if a + b < 2 ^ 64 then .ok (a + b) else .error .panic

/-- One of the four tables of `HuffmanTables`: its header form and its codes by symbol. -/
structure Table where
  bits : List Nat
  vals : List Nat
  codes : List (Nat × Nat)
  deriving DecidableEq

/-- `HuffmanTables` (src/jpeg/huffman.rs:72-95), fields grouped by table. -/
structure HuffTables where
  dcLum : Table
  dcChrom : Table
  acLum : Table
  acChrom : Table
  deriving DecidableEq

/-- Variables of the code assigning loops: the table, `code` and `val_idx`. -/
structure CodeState where
  codes : List (Nat × Nat)
  code : Nat
  valIdx : Nat

/-- Inner loop of `build_codes` and `build_codes_256` (src/jpeg/huffman.rs:221-233, 246-256) for
`count` codes of one length; `n` is the table size (with 256 the test `symbol < n` is always true
of a `u8`, and absent from the code). -/
def fillCodes (n : Nat) (vals : List Nat) (length : Nat) : Nat → CodeState → R CodeState
  | 0, s => .ok s
  | count + 1, s => do
    let code ← addU16 s.code 1
    match vals[s.valIdx]? with
    | some symbol =>
      let codes := if symbol < n then s.codes.set symbol (s.code, length) else s.codes
      fillCodes n vals length count ⟨codes, code, s.valIdx + 1⟩
    | none => fillCodes n vals length count ⟨s.codes, code, s.valIdx⟩

/-- Outer loop (src/jpeg/huffman.rs:220-235, 245-258); `length` is that of the next code. -/
def fillLengths (n : Nat) (vals : List Nat) : List Nat → Nat → CodeState → R CodeState
  | [], _, s => .ok s
  | count :: bits, length, s => do
    let s ← fillCodes n vals length count s
    fillLengths n vals bits (length + 1) { s with code := (s.code <<< 1) % 2 ^ 16 }

/-- `build_codes` (`n = 12`, src/jpeg/huffman.rs:215-238) and `build_codes_256` (`n = 256`,
240-261). -/
def buildCodes (n : Nat) (bits vals : List Nat) : R (List (Nat × Nat)) := do
  let s ← fillLengths n vals bits 1 ⟨List.replicate n (0, 0), 0, 0⟩
  return s.codes

/-- Inner loop of `build_code_table` (src/jpeg/huffman.rs:273-287); `none` is `return None`. -/
def tableCodes (n : Nat) (vals : List Nat) (length : Nat) : Nat → CodeState → R (Option CodeState)
  | 0, s => .ok (some s)
  | count + 1, s =>
    match vals[s.valIdx]? with
    | none => .ok none
    | some symbol =>
      if symbol ≥ n then .ok none
      else do
        let code ← addU16 s.code 1
        tableCodes n vals length count ⟨s.codes.set symbol (s.code, length), code, s.valIdx + 1⟩

/-- Outer loop of `build_code_table` (src/jpeg/huffman.rs:272-289). -/
def tableLengths (n : Nat) (vals : List Nat) : List Nat → Nat → CodeState → R (Option CodeState)
  | [], _, s => .ok (some s)
  | count :: bits, length, s => do
    match ← tableCodes n vals length count s with
    | none => .ok none
    | some s => tableLengths n vals bits (length + 1) { s with code := (s.code <<< 1) % 2 ^ 16 }

/-- `build_code_table` (src/jpeg/huffman.rs:264-291). -/
def buildCodeTable (n : Nat) (bits vals : List Nat) : R (Option (List (Nat × Nat))) := do
  match ← tableLengths n vals bits 1 ⟨List.replicate n (0, 0), 0, 0⟩ with
  | none => return none
  | some s => return some s.codes

/-- One table of `HuffmanTables::new`. -/
def stdTable (n : Nat) (bits vals : List Nat) : R Table := do
  let codes ← buildCodes n bits vals
  return ⟨bits, vals, codes⟩

/-- `HuffmanTables::new` (src/jpeg/huffman.rs:99-119). -/
def HuffTables.std : R HuffTables := do
  let dcLum ← stdTable 12 dcLumBits dcLumVals
  let dcChrom ← stdTable 12 dcChromBits dcChromVals
  let acLum ← stdTable 256 acLumBits acLumVals
  let acChrom ← stdTable 256 acChromBits acChromVals
  return ⟨dcLum, dcChrom, acLum, acChrom⟩

/-- `get_dc_code` (src/jpeg/huffman.rs:121-127). -/
def HuffTables.dcCode (t : HuffTables) (category : Nat) (lum : Bool) : R (Nat × Nat) :=
  getChecked (if lum then t.dcLum.codes else t.dcChrom.codes) category

/-- `get_ac_code` (src/jpeg/huffman.rs:129-135). -/
def HuffTables.acCode (t : HuffTables) (rs : Nat) (lum : Bool) : R (Nat × Nat) :=
  getChecked (if lum then t.acLum.codes else t.acChrom.codes) rs

/-- `Node` (src/jpeg/huffman.rs:319-325): a leaf has a symbol, an inner node two children. The
indices into the vector of nodes are replaced by the nodes themselves. -/
inductive Node where
  | leaf (symbol : Nat)
  | node (left right : Node)
  deriving DecidableEq

/-- A heap entry `(freq, idx)` (src/jpeg/huffman.rs:327) with the node at `idx`. -/
structure Entry where
  freq : Nat
  idx : Nat
  node : Node
  deriving DecidableEq

/-- The order of `(u64, usize)`: `a` comes before `b`. -/
def Entry.before (a b : Entry) : Bool := a.freq < b.freq || (a.freq == b.freq && a.idx < b.idx)

/-- `BinaryHeap<Reverse<(u64, usize)>>::pop`: the least entry; indices are distinct, so there is
only one. -/
def popMin : List Entry → Option (Entry × List Entry)
  | [] => none
  | e :: es =>
    let m := es.foldl (fun m x => if x.before m then x else m) e
    some (m, (e :: es).erase m)

/-- Leaves for the symbols in use (src/jpeg/huffman.rs:330-342). -/
def leaves : List Nat → Nat → Nat → List Entry
  | [], _, _ => []
  | f :: fs, sym, idx =>
    if f = 0 then leaves fs (sym + 1) idx else ⟨f, idx, .leaf sym⟩ :: leaves fs (sym + 1) (idx + 1)

/-- Tree building (src/jpeg/huffman.rs:356-370); every round removes one entry, so the number of
entries is fuel enough. -/
def buildTree : Nat → List Entry → Nat → R Node
  | 0, _, _ => .error .hang
  | fuel + 1, heap, next =>
    if heap.length > 1 then
      match popMin heap with
      | none => .error .panic
      | some (a, heap) =>
        match popMin heap with
        | none => .error .panic
        | some (b, heap) => do
          let f ← addU64 a.freq b.freq
          buildTree fuel (⟨f, next, .node a.node b.node⟩ :: heap) (next + 1)
    else
      match popMin heap with
      | none => .error .panic
      | some (root, _) => .ok root.node

/-- Depth first walk (src/jpeg/huffman.rs:371-390): the right child is on top of the stack, `depth`
is a `u8`, and a length above 16 returns `None`. -/
def walk : Node → Nat → List Nat → R (Option (List Nat))
  | .leaf sym, depth, lengths => do
    let len ← addU8 depth 1
    if len > 16 then return none
    else do
      let lengths ← setChecked lengths sym len
      return some lengths
  | .node l r, depth, lengths => do
    let d ← addU8 depth 1
    match ← walk r d lengths with
    | none => return none
    | some lengths => walk l d lengths

/-- `build_code_lengths` (src/jpeg/huffman.rs:318-391). -/
def buildCodeLengths (counts : List Nat) : R (Option (List Nat)) :=
  match leaves counts 0 0 with
  | [] => .ok none
  | [⟨_, _, .leaf sym⟩] => do
    let lengths ← setChecked (List.replicate counts.length 0) sym 1
    return some lengths
  | heap => do
    let root ← buildTree heap.length heap heap.length
    walk root 0 (List.replicate counts.length 0)

/-- Counting of lengths (src/jpeg/huffman.rs:296-305), `bits` being `u8`s. -/
def countLengths : List Nat → List Nat → R (Option (List Nat))
  | [], bits => .ok (some bits)
  | len :: lens, bits =>
    if len = 0 then countLengths lens bits
    else if len > bits.length then .ok none
    else do
      let c ← getChecked bits (len - 1)
      let c ← addU8 c 1
      countLengths lens (bits.set (len - 1) c)

/-- `sort_by_key(|&sym| (lengths[sym], sym))` (src/jpeg/huffman.rs:307-313). -/
def sortedVals (lengths : List Nat) : List Nat :=
  (((List.range lengths.length).filter (fun i => lengths.getD i 0 > 0)).map (· % 256)).mergeSort
    (fun a b => lengths.getD a 0 < lengths.getD b 0 || (lengths.getD a 0 == lengths.getD b 0 && a ≤ b))

/-- `build_bits_vals` (src/jpeg/huffman.rs:294-315). -/
def buildBitsVals (counts : List Nat) : R (Option (List Nat × List Nat)) := do
  match ← buildCodeLengths counts with
  | none => return none
  | some lengths =>
    match ← countLengths lengths (List.replicate 16 0) with
    | none => return none
    | some bits => return some (bits, sortedVals lengths)

/-- One table of `from_specs`. -/
def specTable (n : Nat) (spec : List Nat × List Nat) : R (Option Table) := do
  match ← buildCodeTable n spec.1 spec.2 with
  | none => return none
  | some codes => return some ⟨spec.1, spec.2, codes⟩

/-- `HuffmanTables::from_specs` (src/jpeg/huffman.rs:138-163). -/
def HuffTables.fromSpecs (dcLum dcChrom acLum acChrom : List Nat × List Nat) :
    R (Option HuffTables) := do
  match ← specTable 12 dcLum with
  | none => return none
  | some dcLum =>
    match ← specTable 12 dcChrom with
    | none => return none
    | some dcChrom =>
      match ← specTable 256 acLum with
      | none => return none
      | some acLum =>
        match ← specTable 256 acChrom with
        | none => return none
        | some acChrom => return some ⟨dcLum, dcChrom, acLum, acChrom⟩

/-- Chroma tables from optional counts, or the standard ones (src/jpeg/huffman.rs:176-185). -/
def chromSpec (counts : Option (List Nat)) (bits vals : List Nat) : R (List Nat × List Nat) :=
  match counts with
  | none => .ok (bits, vals)
  | some counts => do
    match ← buildBitsVals counts with
    | none => return (bits, vals)
    | some spec => return spec

/-- `HuffmanTables::optimized_from_counts` (src/jpeg/huffman.rs:167-205). -/
def HuffTables.optimizedFromCounts (dcLum : List Nat) (dcChrom : Option (List Nat))
    (acLum : List Nat) (acChrom : Option (List Nat)) : R (Option HuffTables) := do
  match ← buildBitsVals dcLum with
  | none => return none
  | some dcLumSpec =>
    match ← buildBitsVals acLum with
    | none => return none
    | some acLumSpec =>
      let dcChromSpec ← chromSpec dcChrom dcChromBits dcChromVals
      let acChromSpec ← chromSpec acChrom acChromBits acChromVals
      HuffTables.fromSpecs dcLumSpec dcChromSpec acLumSpec acChromSpec

/-- `category` (src/jpeg/huffman.rs:394-401; `category_i16`, src/jpeg/mod.rs:863-870; and
src/jpeg/progressive.rs:383-390): the number of bits of the absolute value. -/
def category (v : Int) : Nat := if v = 0 then 0 else v.natAbs.log2 + 1

/-- `encode_value` (src/jpeg/huffman.rs:404-418; `encode_dc_value`, src/jpeg/mod.rs:1311-1324; and
src/jpeg/progressive.rs:393-407). For `i16::MIN` the subtraction overflows. -/
def encodeValue (v : Int) : R (Nat × Nat) :=
  let cat := category v
  if cat = 0 then .ok (0, 0)
  else if v < 0 then do
    let b ← subI16 v 1
    return ((b % 2 ^ 16).toNat &&& ((1 <<< cat) - 1), cat)
  else .ok (v.toNat &&& ((1 <<< cat) - 1), cat)

/-- Write a code or the bits of a value. -/
def writeCode (w : BitWriterMsb) (code : Nat × Nat) : BitWriterMsb := w.writeBits code.1 code.2

/-- The `while zero_run >= 16` loop (src/jpeg/huffman.rs:454-458): `n` rounds. -/
def writeZrl (t : HuffTables) (lum : Bool) : Nat → BitWriterMsb → R BitWriterMsb
  | 0, w => .ok w
  | n + 1, w => do
    let c ← t.acCode 0xF0 lum
    writeZrl t lum n (writeCode w c)

/-- The AC loop and the end of block (src/jpeg/huffman.rs:449-479). -/
def encodeAc (t : HuffTables) (lum : Bool) : List Int → Nat → BitWriterMsb → R BitWriterMsb
  | [], zeroRun, w =>
    if zeroRun > 0 then do
      let c ← t.acCode 0 lum
      return writeCode w c
    else .ok w
  | ac :: acs, zeroRun, w =>
    if ac = 0 then encodeAc t lum acs (zeroRun + 1) w
    else do
      let w ← writeZrl t lum (zeroRun / 16) w
      let zeroRun := zeroRun % 16
      let rs := ((zeroRun <<< 4) % 2 ^ 8) ||| category ac
      let c ← t.acCode rs lum
      let w := writeCode w c
      let v ← encodeValue ac
      encodeAc t lum acs 0 (writeCode w v)

/-- `encode_block` (src/jpeg/huffman.rs:421-481). -/
def encodeBlock (t : HuffTables) (w : BitWriterMsb) (block : List Int) (prevDc : Int) (lum : Bool) :
    R (BitWriterMsb × Int) := do
  let zz := zigzagReorder block
  let dc := zz.headD 0
  let diff ← subI16 dc prevDc
  let cat := category diff
  let c ← t.dcCode cat lum
  let w := writeCode w c
  let v ← encodeValue diff
  let w := if cat > 0 then writeCode w v else w
  let w ← encodeAc t lum (zz.drop 1) 0 w
  return (w, dc)

end Pixo.Jpeg
