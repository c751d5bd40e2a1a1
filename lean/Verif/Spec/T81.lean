import Verif.Spec.Bits
/-
The parts of ITU-T T.81 (JPEG) the encoder's files are judged by. Nothing here refers to the crate.
-/
namespace Spec.T81

/-! ### Zigzag order (A.3.6) -/

/-- Rows of the cells of anti-diagonal `d` of an 8×8 block in the order of figure A.6: upwards on even
diagonals, downwards on odd ones. -/
def diagonal (d : Nat) : List Nat :=
  let rows := (List.range 8).filter (fun r => r ≤ d ∧ d - r < 8)
  if d % 2 = 0 then rows.reverse else rows

/-- The natural-order (row by row) index of each zigzag position. -/
def zigzag : List Nat := (List.range 15).flatMap (fun d => (diagonal d).map (fun r => 8 * r + (d - r)))

/-- A block in zigzag order, given in natural order. -/
def toZigzag (block : List Int) : List Int := zigzag.map (fun i => block.getD i 0)

/-! ### Huffman codes (annex C) -/

/-- The sizes of the codes of a table specification, in order (figure C.1): `bits` holds the number of
codes of each length 1, 2, … -/
def sizes (bits : List Nat) : List Nat :=
  bits.zipIdx.flatMap (fun (n, i) => List.replicate n (i + 1))

/-- The codes for a list of sizes (figure C.2): the first code is zero, each next one is the
successor, extended with zeros to its size. -/
def codesFrom (code size : Nat) : List Nat → List (Nat × Nat)
  | [] => []
  | s :: rest => (code * 2 ^ (s - size), s) :: codesFrom (code * 2 ^ (s - size) + 1) s rest

/-- All codes of a table as (number, size) pairs. -/
def codes (bits : List Nat) : List (Nat × Nat) := codesFrom 0 0 (sizes bits)

/-- A table specification of a DHT segment: BITS and HUFFVAL (B.2.4.2). -/
structure Table where
  bits : List Nat
  vals : List Nat

/-- `word` is the code word of `symbol`. -/
def Table.HasCode (t : Table) (symbol : Nat) (word : List Bool) : Prop :=
  ∃ k code size : Nat, t.vals[k]? = some symbol ∧ (codes t.bits)[k]? = some (code, size) ∧
    word = bitsMSB code size

/-- The table is a legal one: sixteen counts of at most 255, as many values as codes, all different
and below 256, and the codes fit their sizes leaving the all-ones words unused (C.2). -/
structure Table.Legal (t : Table) : Prop where
  bits_length : t.bits.length = 16
  bits_le : ∀ b ∈ t.bits, b ≤ 255
  vals_length : t.vals.length = t.bits.sum
  vals_nodup : t.vals.Nodup
  vals_lt : ∀ v ∈ t.vals, v < 256
  fits : ∀ c ∈ codes t.bits, c.1 + 1 < 2 ^ c.2

/-! ### Entropy coding of a block (F.2) -/

/-- EXTEND (figure F.12). -/
def extend (v n : Nat) : Int := if v < 2 ^ (n - 1) then (v : Int) - 2 ^ n + 1 else v

/-- A DC difference (F.2.2.1): a code for the number of bits, then the bits. Baseline allows eleven
bits (table F.1). -/
inductive Dc (t : Table) : Int → List Bool → Prop where
  | zero {word} : t.HasCode 0 word → Dc t 0 word
  | bits {n v word} : 1 ≤ n → n ≤ 11 → v < 2 ^ n → t.HasCode n word →
      Dc t (extend v n) (word ++ bitsMSB v n)

/-- The AC coefficients from some position to the end of the block (F.2.2.2); `0x00` is end of block,
`0xF0` a run of sixteen zeros. Baseline allows ten bits (table F.2). -/
inductive Ac (t : Table) : List Int → List Bool → Prop where
  | done : Ac t [] []
  | eob {n word} : 0 < n → t.HasCode 0x00 word → Ac t (List.replicate n 0) word
  | zrl {rest word bits} : t.HasCode 0xF0 word → Ac t rest bits →
      Ac t (List.replicate 16 0 ++ rest) (word ++ bits)
  | coef {r s v rest word bits} : r < 16 → 1 ≤ s → s ≤ 10 → v < 2 ^ s → t.HasCode (16 * r + s) word →
      Ac t rest bits →
      Ac t (List.replicate r 0 ++ extend v s :: rest) (word ++ bitsMSB v s ++ bits)

/-- A block of 64 coefficients in zigzag order, with the DC prediction. -/
inductive Block (dc ac : Table) (pred : Int) : List Int → List Bool → Prop where
  | mk {d acs dbits abits} : acs.length = 63 → Dc dc d dbits → Ac ac acs abits →
      Block dc ac pred ((pred + d) :: acs) (dbits ++ abits)

/-! ### Scans (F.1, F.2, B.2) -/

/-- The tables a component's blocks are coded with. -/
structure Tables where
  dc : Nat → Table
  ac : Nat → Table

/-- Blocks, each with its component, from predictions `pred` to predictions `pred'`. -/
inductive Blocks (ts : Tables) : (Nat → Int) → List (Nat × List Int) → List Bool → Prop where
  | nil {pred} : Blocks ts pred [] []
  | cons {pred comp block blocks b bs} : Block (ts.dc comp) (ts.ac comp) (pred comp) block b →
      Blocks ts (fun c => if c = comp then block.headD 0 else pred c) blocks bs →
      Blocks ts pred ((comp, block) :: blocks) (b ++ bs)

/-- An entropy-coded segment: predictions start at zero; the bits are padded with ones to a byte and
`0xFF` bytes are stuffed. -/
def Segment (ts : Tables) (blocks : List (Nat × List Int)) (bytes : List UInt8) : Prop :=
  ∃ raw bits, bytes = stuff raw ∧ bytesMSB raw = bits ++ List.replicate (padLen bits.length) true ∧
    Blocks ts (fun _ => 0) blocks bits

/-- Segments of MCUs separated by restart markers RST`m`, counting modulo eight; every segment but
the last has `ri` MCUs and the last at most as many and at least one. -/
inductive Restarts (ts : Tables) (ri : Nat) : Nat → List (List (Nat × List Int)) → List UInt8 → Prop where
  | last {m mcus bytes} : mcus.length ≤ ri → mcus ≠ [] → Segment ts mcus.flatten bytes →
      Restarts ts ri m mcus bytes
  | more {m mcus rest bytes more} : mcus.length = ri → Segment ts mcus.flatten bytes →
      Restarts ts ri (m + 1) rest more →
      Restarts ts ri m (mcus ++ rest) (bytes ++ [0xFF, UInt8.ofNat (0xD0 + m % 8)] ++ more)

/-- The entropy-coded data of a scan, with (`some ri`) or without restart intervals. -/
def Scan (ts : Tables) (interval : Option Nat) (mcus : List (List (Nat × List Int)))
    (bytes : List UInt8) : Prop :=
  match interval with
  | none => Segment ts mcus.flatten bytes
  | some ri => Restarts ts ri 0 mcus bytes

/-! ### Marker segments (B.1.1.4) -/

/-- A two byte big-endian number. -/
def be16 (v : Nat) : List UInt8 := [UInt8.ofNat (v / 256), UInt8.ofNat (v % 256)]

/-- A marker segment: the marker, the length of the rest (counting itself), the parameters. -/
def segment (marker : UInt8) (params : List UInt8) : List UInt8 :=
  [0xFF, marker] ++ be16 (params.length + 2) ++ params

/-- Walk over marker segments by their lengths up to and including the one with marker `stop`:
the segments and what follows. -/
def walk (stop : UInt8) : Nat → List UInt8 → Option (List (UInt8 × List UInt8) × List UInt8)
  | 0, _ => none
  | fuel + 1, 0xFF :: marker :: hi :: lo :: rest =>
    let len := 256 * hi.toNat + lo.toNat
    if len < 2 ∨ rest.length < len - 2 then none
    else if marker = stop then some ([(marker, rest.take (len - 2))], rest.drop (len - 2))
    else (walk stop fuel (rest.drop (len - 2))).map
      (fun p => ((marker, rest.take (len - 2)) :: p.1, p.2))
  | _, _ => none

/-! ### Reading a baseline file -/

/-- A component of a frame header (B.2.2): identifier, sampling factors, quantization table. -/
structure Component where
  id : Nat
  h : Nat
  v : Nat
  tq : Nat
  deriving DecidableEq, Repr

/-- A frame header (B.2.2). -/
structure Frame where
  height : Nat
  width : Nat
  comps : List Component
  deriving DecidableEq, Repr

/-- The components of a frame header. -/
def components : List UInt8 → Option (List Component)
  | [] => some []
  | id :: hv :: tq :: rest =>
    (components rest).map (⟨id.toNat, hv.toNat / 16, hv.toNat % 16, tq.toNat⟩ :: ·)
  | _ => none

/-- The parameters of a baseline frame header with samples of eight bits. -/
def frame : List UInt8 → Option Frame
  | 8 :: yh :: yl :: xh :: xl :: n :: rest =>
    (components rest).bind (fun cs =>
      if cs.length = n.toNat then some ⟨256 * yh.toNat + yl.toNat, 256 * xh.toNat + xl.toNat, cs⟩ else none)
  | _ => none

/-- The frame header among marker segments. -/
def frameOf (segs : List (UInt8 × List UInt8)) : Option Frame :=
  segs.findSome? (fun s => if s.1 = 0xC0 then frame s.2 else none)

/-- Quantization table `id` (B.2.4.1), eight bits per entry, in zigzag order. (Segments holding
several tables are not read.) -/
def quantOf (id : Nat) (segs : List (UInt8 × List UInt8)) : Option (List Nat) :=
  segs.findSome? (fun s => if s.1 = 0xDB ∧ s.2.head? = some (UInt8.ofNat id) ∧ s.2.length = 65 then
    some ((s.2.drop 1).map UInt8.toNat) else none)

/-- Huffman table `id` of a class, 0 for DC and 1 for AC (B.2.4.2). (Segments holding several tables
are not read.) -/
def huffOf (cls id : Nat) (segs : List (UInt8 × List UInt8)) : Option Table :=
  segs.findSome? (fun s =>
    let t : Table := ⟨((s.2.drop 1).take 16).map UInt8.toNat, (s.2.drop 17).map UInt8.toNat⟩
    if s.1 = 0xC4 ∧ s.2.head? = some (UInt8.ofNat (16 * cls + id)) ∧ t.bits.length = 16 ∧
      t.vals.length = t.bits.sum then some t else none)

/-- The restart interval (B.2.4.4); none is defined if there is no segment or it says zero. -/
def intervalOf (segs : List (UInt8 × List UInt8)) : Option Nat :=
  (segs.findSome? (fun s => match s with
    | (0xDD, [hi, lo]) => some (256 * hi.toNat + lo.toNat)
    | _ => none)).bind (fun n => if n = 0 then none else some n)

/-- The components of a scan header: identifier, DC table and AC table. -/
def selectors : List UInt8 → Option (List (Nat × Nat × Nat))
  | [0, 63, 0] => some []
  | id :: t :: rest => (selectors rest).map ((id.toNat, t.toNat / 16, t.toNat % 16) :: ·)
  | _ => none

/-- The parameters of a scan header of a sequential scan (B.2.3). -/
def scanHeader : List UInt8 → Option (List (Nat × Nat × Nat))
  | [] => none
  | n :: rest => (selectors rest).bind (fun l => if l.length = n.toNat then some l else none)

/-- The scan header among marker segments. -/
def scanOf (segs : List (UInt8 × List UInt8)) : Option (List (Nat × Nat × Nat)) :=
  segs.findSome? (fun s => if s.1 = 0xDA then scanHeader s.2 else none)

/-- Quotient rounded up. -/
def ceilDiv (a b : Nat) : Nat := (a + b - 1) / b

/-- Number of MCUs of a frame coded in one scan (A.2.3, A.2.4): with one component an MCU is a block,
else it has the samples of `hmax` by `vmax` blocks. -/
def mcuCount (f : Frame) : Nat :=
  match f.comps with
  | [_] => ceilDiv f.width 8 * ceilDiv f.height 8
  | cs => ceilDiv f.width (8 * (cs.map (·.h)).foldr max 0) * ceilDiv f.height (8 * (cs.map (·.v)).foldr max 0)

/-- MCUs in a row of a frame. -/
def mcusPerRow (f : Frame) : Nat :=
  match f.comps with
  | [_] => ceilDiv f.width 8
  | cs => ceilDiv f.width (8 * (cs.map (·.h)).foldr max 0)

/-- The blocks of MCU `k` of an interleaved scan, or a scan of a component with factors 1 (A.2.3):
component, and the position of the first sample in the component. -/
def blocksAt (f : Frame) (k : Nat) : List (Nat × Nat × Nat) :=
  f.comps.zipIdx.flatMap (fun (c, i) => (List.range (c.h * c.v)).map (fun b =>
    (i, 8 * (k % mcusPerRow f * c.h + b % c.h), 8 * (k / mcusPerRow f * c.v + b / c.h))))

/-- The components of the blocks of an MCU. -/
def mcuShape (f : Frame) : List Nat :=
  match f.comps with
  | [_] => [0]
  | cs => cs.zipIdx.flatMap (fun (c, i) => List.replicate (c.h * c.v) i)

/-- `file` is a baseline file: start of image, marker segments, one scan with all the components of
the frame, end of image. `quant` are the quantization tables of the components, `mcus` the blocks of
quantized coefficients in zigzag order. -/
def Reads (file : List UInt8) (f : Frame) (quant : List (List Nat)) (mcus : List (List (Nat × List Int))) :
    Prop :=
  ∃ body segs data scan sel ts,
    file = [0xFF, 0xD8] ++ body ∧ walk 0xDA file.length body = some (segs, data) ∧
    frameOf segs = some f ∧ f.comps.mapM (fun c => quantOf c.tq segs) = some quant ∧
    scanOf segs = some sel ∧ sel.map (·.1) = f.comps.map (·.id) ∧
    (∀ i s, sel[i]? = some s → huffOf 0 s.2.1 segs = some (ts.dc i) ∧ huffOf 1 s.2.2 segs = some (ts.ac i)) ∧
    mcus.map (fun m => m.map (·.1)) = List.replicate (mcuCount f) (mcuShape f) ∧
    Scan ts (intervalOf segs) mcus scan ∧ data = scan ++ [0xFF, 0xD9]

/-- The markers in entropy-coded data: `0xFF` followed by something else than zero. -/
def markers : List UInt8 → List UInt8
  | 0xFF :: x :: rest => if x = 0 then markers rest else x :: markers rest
  | _ :: rest => markers rest
  | [] => []

end Spec.T81
