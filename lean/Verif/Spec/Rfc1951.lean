import Verif.Spec.Bits
/-
RFC 1951 (DEFLATE) as a grammar: which bit strings are encodings of which data.
Written from the RFC, independent of the crate.
-/
namespace Spec.Rfc1951

/-- Abstract compressed symbols: a literal byte or a back reference. -/
inductive Token where
  | lit (b : UInt8)
  | copy (len dist : Nat)
  deriving DecidableEq, Repr

/-- Copy `len` bytes from `dist` back, one byte at a time, so that source and
destination may overlap (RFC 1951 §3.2.3). -/
def copyBytes : Nat → Nat → List UInt8 → Option (List UInt8)
  | 0, _, out => some out
  | n + 1, dist, out =>
    if 1 ≤ dist ∧ dist ≤ out.length then
      match out[out.length - dist]? with
      | some b => copyBytes n dist (out ++ [b])
      | none => none
    else none

/-- Append the expansion of a token sequence to the output so far. -/
def expandFrom : List UInt8 → List Token → Option (List UInt8)
  | out, [] => some out
  | out, .lit b :: ts => expandFrom (out ++ [b]) ts
  | out, .copy len dist :: ts =>
    match copyBytes len dist out with
    | some out' => expandFrom out' ts
    | none => none

/-- The data denoted by a token sequence. -/
def expand (ts : List Token) : Option (List UInt8) := expandFrom [] ts

/-- Length of symbol `s` (0 when absent). -/
def len (lens : List Nat) (s : Nat) : Nat := lens.getD s 0

/-- Canonical code value of symbol `s` (§3.2.2): codes of one length are
consecutive in symbol order, shorter codes come first. In closed form, the value is
the total weight, in units of `2^-len s`, of all codes that come before it. -/
def codeValue (lens : List Nat) (s : Nat) : Nat :=
  ((List.range lens.length).map (fun t =>
    if len lens t ≠ 0 ∧ (len lens t < len lens s ∨ (len lens t = len lens s ∧ t < s))
    then 2 ^ (len lens s - len lens t) else 0)).sum

/-- The bits of symbol `s`; Huffman codes are packed most significant bit first (§3.1.1). -/
def codeword (lens : List Nat) (s : Nat) : List Bool :=
  bitsMSB (codeValue lens s) (len lens s)

/-- Kraft sum in units of `2^-15`. -/
def kraft (lens : List Nat) : Nat :=
  (lens.map (fun l => if l = 0 then 0 else 2 ^ (15 - l))).sum

/-- Not over-subscribed, lengths at most 15. -/
def CodeOK (lens : List Nat) : Prop := (∀ l ∈ lens, l ≤ 15) ∧ kraft lens ≤ 2 ^ 15

/-- Complete code: every infinite bit string starts with exactly one code word. -/
def Complete (lens : List Nat) : Prop := (∀ l ∈ lens, l ≤ 15) ∧ kraft lens = 2 ^ 15

/-- The only incomplete code strict decoders (zlib) accept: one code word, of one bit. -/
def SingleCode (lens : List Nat) : Prop := lens.filter (· ≠ 0) = [1]

/-- Literal/length and distance code acceptable to a decoder. `strict` is what zlib requires. -/
def dataCodeOK (strict : Bool) (lens : List Nat) : Prop :=
  if strict then Complete lens ∨ SingleCode lens else CodeOK lens

/-- Code length code acceptable to a decoder. -/
def clCodeOK (strict : Bool) (lens : List Nat) : Prop :=
  if strict then Complete lens ∧ ∀ l ∈ lens, l ≤ 7 else CodeOK lens

/-- §3.2.5, length codes 257..285: (base, extra bits). -/
def lengthTable : List (Nat × Nat) :=
  [(3,0),(4,0),(5,0),(6,0),(7,0),(8,0),(9,0),(10,0),(11,1),(13,1),(15,1),(17,1),
   (19,2),(23,2),(27,2),(31,2),(35,3),(43,3),(51,3),(59,3),(67,4),(83,4),(99,4),(115,4),
   (131,5),(163,5),(195,5),(227,5),(258,0)]

/-- §3.2.5, distance codes 0..29: (base, extra bits). -/
def distTable : List (Nat × Nat) :=
  [(1,0),(2,0),(3,0),(4,0),(5,1),(7,1),(9,2),(13,2),(17,3),(25,3),(33,4),(49,4),(65,5),(97,5),
   (129,6),(193,6),(257,7),(385,7),(513,8),(769,8),(1025,9),(1537,9),(2049,10),(3073,10),
   (4097,11),(6145,11),(8193,12),(12289,12),(16385,13),(24577,13)]

/-- §3.2.6 fixed literal/length code lengths. -/
def fixedLit : List Nat :=
  List.replicate 144 8 ++ List.replicate 112 9 ++ List.replicate 24 7 ++ List.replicate 8 8

/-- §3.2.6 fixed distance code lengths. -/
def fixedDist : List Nat := List.replicate 32 5

/-- §3.2.7 order in which code length code lengths are sent. -/
def clOrder : List Nat := [16, 17, 18, 0, 8, 7, 9, 6, 10, 5, 11, 4, 12, 3, 13, 2, 14, 1, 15]

/-- Compressed data of one block (after the header), up to and including end of block. -/
inductive Body (lit dist : List Nat) : List Bool → List Token → Prop
  | eob : len lit 256 ≠ 0 → Body lit dist (codeword lit 256) []
  | lit (b : UInt8) {bs ts} : len lit b.toNat ≠ 0 → Body lit dist bs ts →
      Body lit dist (codeword lit b.toNat ++ bs) (.lit b :: ts)
  | copy (i e j f : Nat) {lb lx db dx bs ts} :
      lengthTable[i]? = some (lb, lx) → e < 2 ^ lx → len lit (257 + i) ≠ 0 →
      distTable[j]? = some (db, dx) → f < 2 ^ dx → len dist j ≠ 0 →
      Body lit dist bs ts →
      Body lit dist
        (codeword lit (257 + i) ++ bitsLSB e lx ++ codeword dist j ++ bitsLSB f dx ++ bs)
        (.copy (lb + e) (db + f) :: ts)

/-- Run-length coded code lengths (§3.2.7): `ClSeq cl pre bits all` says that, after the
lengths `pre`, the bits continue the sequence to `all`. -/
inductive ClSeq (cl : List Nat) : List Nat → List Bool → List Nat → Prop
  | done (all : List Nat) : ClSeq cl all [] all
  | one (k : Nat) {pre bs all} : k ≤ 15 → len cl k ≠ 0 → ClSeq cl (pre ++ [k]) bs all →
      ClSeq cl pre (codeword cl k ++ bs) all
  | rep (e p : Nat) {pre bs all} : e < 4 → len cl 16 ≠ 0 → pre.getLast? = some p →
      ClSeq cl (pre ++ List.replicate (3 + e) p) bs all →
      ClSeq cl pre (codeword cl 16 ++ bitsLSB e 2 ++ bs) all
  | zeros3 (e : Nat) {pre bs all} : e < 8 → len cl 17 ≠ 0 →
      ClSeq cl (pre ++ List.replicate (3 + e) 0) bs all →
      ClSeq cl pre (codeword cl 17 ++ bitsLSB e 3 ++ bs) all
  | zeros11 (e : Nat) {pre bs all} : e < 128 → len cl 18 ≠ 0 →
      ClSeq cl (pre ++ List.replicate (11 + e) 0) bs all →
      ClSeq cl pre (codeword cl 18 ++ bitsLSB e 7 ++ bs) all

/-- Code length code lengths: the first `n` positions of `clOrder` are transmitted,
three bits each, the rest are zero. -/
def clHeader (cl : List Nat) (n : Nat) : List Bool :=
  (clOrder.take n).flatMap (fun s => bitsLSB (len cl s) 3)

/-- One block after its BFINAL bit. `pos` is the bit offset in the stream of the first
bit of `bits` (needed for the byte alignment of stored blocks). -/
inductive Block (strict : Bool) (pos : Nat) : List Bool → List Token → Prop
  | stored (pad : List Bool) (data : List UInt8) :
      pad.length < 8 → (pos + 2 + pad.length) % 8 = 0 → data.length < 65536 →
      Block strict pos
        ([false, false] ++ pad ++ bitsLSB data.length 16 ++ bitsLSB (65535 - data.length) 16
          ++ bytesLSB data)
        (data.map .lit)
  | fixed {bs ts} : Body fixedLit fixedDist bs ts → Block strict pos ([true, false] ++ bs) ts
  | dynamic (hlit hdist hclen : Nat) (cl lit dist : List Nat) {clbits bs ts} :
      hlit < 30 → (hdist < if strict then 30 else 32) → hclen < 16 →
      cl.length = 19 → clCodeOK strict cl → (∀ l ∈ cl, l ≤ 7) →
      (∀ s ∈ clOrder.drop (hclen + 4), len cl s = 0) →
      lit.length = hlit + 257 → dist.length = hdist + 1 →
      ClSeq cl [] clbits (lit ++ dist) →
      dataCodeOK strict lit → dataCodeOK strict dist →
      Body lit dist bs ts →
      Block strict pos
        ([false, true] ++ bitsLSB hlit 5 ++ bitsLSB hdist 5 ++ bitsLSB hclen 4
          ++ clHeader cl (hclen + 4) ++ clbits ++ bs)
        ts

/-- A sequence of blocks, the last one flagged, starting at bit offset `pos`. -/
inductive Stream (strict : Bool) : Nat → List Bool → List Token → Prop
  | last {pos bs ts} : Block strict (pos + 1) bs ts → Stream strict pos (true :: bs) ts
  | more {pos bs ts rest ts'} : Block strict (pos + 1) bs ts →
      Stream strict (pos + 1 + bs.length) rest ts' →
      Stream strict pos (false :: bs ++ rest) (ts ++ ts')

/-- `bytes` is a DEFLATE encoding of `data`, with fewer than eight padding bits at the end.
With `strict`, the Huffman codes are also complete, as zlib's decoder demands. -/
def Encodes (strict : Bool) (bytes data : List UInt8) : Prop :=
  ∃ bits pad ts, bytesLSB bytes = bits ++ pad ∧ pad.length < 8 ∧
    Stream strict 0 bits ts ∧ expand ts = some data

/-- `bytes` begins with a DEFLATE encoding of `data`; anything may follow. -/
def BeginsWith (strict : Bool) (bytes data : List UInt8) : Prop :=
  ∃ bits rest ts, bytesLSB bytes = bits ++ rest ∧
    Stream strict 0 bits ts ∧ expand ts = some data

end Spec.Rfc1951
