import Verif.Model.BitReader
import Verif.Model.Adler32
/-
Model of src/decode/inflate.rs.
-/
namespace Pixo.Inflate
open Pixo

/-- `LENGTH_BASE` (src/decode/inflate.rs:11-14). -/
def lengthBase : List Nat :=
  [3, 4, 5, 6, 7, 8, 9, 10, 11, 13, 15, 17, 19, 23, 27, 31, 35, 43, 51, 59, 67, 83, 99, 115, 131,
   163, 195, 227, 258]

/-- `LENGTH_EXTRA` (src/decode/inflate.rs:17-19). -/
def lengthExtra : List Nat :=
  [0, 0, 0, 0, 0, 0, 0, 0, 1, 1, 1, 1, 2, 2, 2, 2, 3, 3, 3, 3, 4, 4, 4, 4, 5, 5, 5, 5, 0]

/-- `DISTANCE_BASE` (src/decode/inflate.rs:22-25). -/
def distanceBase : List Nat :=
  [1, 2, 3, 4, 5, 7, 9, 13, 17, 25, 33, 49, 65, 97, 129, 193, 257, 385, 513, 769, 1025, 1537,
   2049, 3073, 4097, 6145, 8193, 12289, 16385, 24577]

/-- `DISTANCE_EXTRA` (src/decode/inflate.rs:28-31). -/
def distanceExtra : List Nat :=
  [0, 0, 0, 0, 1, 1, 2, 2, 3, 3, 4, 4, 5, 5, 6, 6, 7, 7, 8, 8, 9, 9, 10, 10, 11, 11, 12, 12, 13,
   13]

/-- `CODE_LENGTH_ORDER` (src/decode/inflate.rs:34-36). -/
def codeLengthOrder : List Nat :=
  [16, 17, 18, 0, 8, 7, 9, 6, 10, 5, 11, 4, 12, 3, 13, 2, 14, 1, 15]

/-- `LOOKUP_BITS` (src/decode/inflate.rs:43). -/
def lookupBits : Nat := 9

/-- `HuffmanTable` (src/decode/inflate.rs:46-55). -/
structure HuffmanTable where
  lookup : List Nat
  lengths : List Nat
  maxLen : Nat

/-- Counting codes per length (src/decode/inflate.rs:73-79, 196-201). `bl_count[0]` stays 0. -/
def blCount (lengths : List Nat) (bits : Nat) : Nat :=
  if bits = 0 then 0 else lengths.countP (· == bits)

/-- Starting code for each length (src/decode/inflate.rs:81-87, 203-208): value of `code`
after the rounds `1..=bits`. `u32`; lengths come from at most 320 symbols so nothing wraps
(`code ≤ 320 * 2^16`). -/
def nextCode (lengths : List Nat) : Nat → Nat
  | 0 => 0
  | bits + 1 => (nextCode lengths bits + blCount lengths bits) <<< 1

/-- Assignment of codes in symbol order (src/decode/inflate.rs:89-96): `next_code` is a
function updated as codes are handed out. Symbols of length 0 get code 0. -/
def assignCodes : List Nat → (Nat → Nat) → List Nat
  | [], _ => []
  | l :: ls, next =>
    if l > 0 then
      next l :: assignCodes ls (fun k => if k = l then next k + 1 else next k)
    else 0 :: assignCodes ls next

/-- `reverse_bits` (src/decode/inflate.rs:223-231), on a `u16`. -/
def reverseBits : Nat → Nat → Nat → Nat
  | 0, _, result => result
  | n + 1, v, result => reverseBits n (v >>> 1) (((result <<< 1) % 2 ^ 16) ||| (v &&& 1))

/-- Inner fill loop (src/decode/inflate.rs:110-116): `count` entries with step `2^len`. -/
def fillEntries (entry reversed len : Nat) : Nat → List Nat → R (List Nat)
  | 0, lookup => .ok lookup
  | i + 1, lookup => do
    let lookup ← fillEntries entry reversed len i lookup
    setChecked lookup (reversed ||| (i <<< len)) entry

/-- Lookup-table construction (src/decode/inflate.rs:98-117) for symbols `symbol..`, given
their lengths and codes. -/
def buildLookup : Nat → List Nat → List Nat → List Nat → R (List Nat)
  | symbol, len :: lens, code :: codes, lookup =>
    if len = 0 ∨ len > lookupBits then buildLookup (symbol + 1) lens codes lookup
    else do
      let lookup ←
        fillEntries ((symbol % 2 ^ 16) ||| (len <<< 12)) (reverseBits len (code % 2 ^ 16) 0) len
          (1 <<< (lookupBits - len)) lookup
      buildLookup (symbol + 1) lens codes lookup
  | _, _, _, lookup => .ok lookup

/-- `HuffmanTable::from_lengths` (src/decode/inflate.rs:59-127). -/
def HuffmanTable.fromLengths (lengths : List Nat) : R HuffmanTable :=
  let maxLen := lengths.foldl max 0
  if maxLen > 15 then .error .invalid
  else if maxLen = 0 then .ok ⟨List.replicate 512 0, lengths, 0⟩
  else do
    let codes := assignCodes lengths (nextCode lengths)
    let lookup ← buildLookup 0 lengths codes (List.replicate 512 0)
    return ⟨lookup, lengths, maxLen⟩

/-- `HuffmanTable::code_for_symbol` (src/decode/inflate.rs:189-219): the loop over symbols,
stopping at `symbol`. Only called for symbols of non-zero length. -/
def codeForLoop : List Nat → Nat → (Nat → Nat) → Nat → Nat
  | [], _, _, _ => 2 ^ 32 - 1
  | l :: ls, sym, next, symbol =>
    if l > 0 then
      if sym = symbol then next l
      else codeForLoop ls (sym + 1) (fun k => if k = l then next k + 1 else next k) symbol
    else codeForLoop ls (sym + 1) next symbol

def HuffmanTable.codeForSymbol (t : HuffmanTable) (symbol : Nat) : Nat :=
  if t.lengths.getD symbol 0 = 0 then 2 ^ 32 - 1
  else codeForLoop t.lengths 0 (nextCode t.lengths) symbol

/-- Inner search of `decode_slow` (src/decode/inflate.rs:175-183): first symbol of length
`len` whose code is `code`. -/
def HuffmanTable.findSymbol (t : HuffmanTable) (len code : Nat) : Option Nat :=
  (List.range t.lengths.length).find? (fun s => t.lengths.getD s 0 == len && code == t.codeForSymbol s)

/-- `HuffmanTable::decode_slow` (src/decode/inflate.rs:170-186): `rounds` lengths left,
starting with length `len`. -/
def HuffmanTable.decodeSlowLoop (t : HuffmanTable) : Nat → Nat → Nat → BitReader → R (Nat × BitReader)
  | 0, _, _, _ => .error .invalid
  | rounds + 1, len, code, r => do
    let (bit, r) ← r.readBits 1
    let code := (code <<< 1) ||| bit
    match t.findSymbol len code with
    | some s => return (s, r)
    | none => HuffmanTable.decodeSlowLoop t rounds (len + 1) code r

def HuffmanTable.decodeSlow (t : HuffmanTable) (r : BitReader) : R (Nat × BitReader) :=
  t.decodeSlowLoop t.maxLen 1 0 r

/-- `HuffmanTable::decode` (src/decode/inflate.rs:130-167). A lookup index outside the table
would be a panic. -/
def HuffmanTable.decode (t : HuffmanTable) (r : BitReader) : R (Nat × BitReader) :=
  if t.maxLen = 0 then .error .invalid
  else
    let (peek, available, r) := r.tryPeekBits lookupBits
    if available ≥ lookupBits then
      match t.lookup[peek]? with
      | none => .error .panic
      | some entry =>
        let len := entry >>> 12
        if len > 0 ∧ len ≤ lookupBits then do
          let r ← r.consume len
          return (entry &&& 0xFFF, r)
        else t.decodeSlow r
    else if available > 0 then
      match t.lookup[peek]? with
      | none => .error .panic
      | some entry =>
        let len := entry >>> 12
        if len > 0 ∧ len ≤ available then do
          let r ← r.consume len
          return (entry &&& 0xFFF, r)
        else t.decodeSlow r
    else t.decodeSlow r

/-- Lengths of `fixed_literal_table` (src/decode/inflate.rs:234-253). -/
def fixedLitLengths : List Nat :=
  List.replicate 144 8 ++ List.replicate 112 9 ++ List.replicate 24 7 ++ List.replicate 8 8

/-- Lengths of `fixed_distance_table` (src/decode/inflate.rs:255-259). -/
def fixedDistLengths : List Nat := List.replicate 32 5

/-- `inflate_stored` (src/decode/inflate.rs:355-376). -/
def inflateStored (r : BitReader) (output : List UInt8) : R (List UInt8 × BitReader) := do
  let r := r.alignToByte
  let (len, r) ← r.readBits 16
  let (nlen, r) ← r.readBits 16
  if len ≠ 65535 - nlen then .error .invalid
  else do
    let (bytes, r) ← r.readBytes len
    return (output ++ bytes, r)

/-- The copy loop (src/decode/inflate.rs:498-502): `i` from 0, reading
`output[start + i % distance]`. -/
def copyLoop (start distance : Nat) : Nat → Nat → List UInt8 → R (List UInt8)
  | 0, _, output => .ok output
  | n + 1, i, output =>
    if distance = 0 then .error .panic
    else
      match output[start + i % distance]? with
      | none => .error .panic
      | some b => copyLoop start distance n (i + 1) (output ++ [b])

/-- The length/distance arm of `inflate_block` (src/decode/inflate.rs:479-503). -/
def inflateMatch (r : BitReader) (output : List UInt8) (symbol : Nat) (dist : HuffmanTable) :
    R (List UInt8 × BitReader) := do
  let lb ← getChecked lengthBase (symbol - 257)
  let lx ← getChecked lengthExtra (symbol - 257)
  let (e, r) ← r.readBits lx
  let (distSymbol, r) ← dist.decode r
  if distSymbol ≥ 30 then .error .invalid
  else do
    let db ← getChecked distanceBase distSymbol
    let dx ← getChecked distanceExtra distSymbol
    let (f, r) ← r.readBits dx
    if db + f > output.length then .error .invalid
    else do
      let output ← copyLoop (output.length - (db + f)) (db + f) (lb + e) 0 output
      return (output, r)

/-- `inflate_block` (src/decode/inflate.rs:461-513). -/
def inflateBlock : Nat → BitReader → List UInt8 → HuffmanTable → HuffmanTable →
    R (List UInt8 × BitReader)
  | 0, _, _, _, _ => .error .hang
  | fuel + 1, r, output, lit, dist => do
    let (symbol, r) ← lit.decode r
    if symbol ≤ 255 then
      inflateBlock fuel r (output ++ [UInt8.ofNat symbol]) lit dist
    else if symbol = 256 then
      return (output, r)
    else if symbol ≤ 285 then do
      let (output, r) ← inflateMatch r output symbol dist
      inflateBlock fuel r output lit dist
    else .error .invalid

/-- Number of bits not yet consumed; fuel for the symbol loops, each of whose rounds
consumes at least one bit. Not part of the code. -/
def BitReader.left (r : BitReader) : Nat := r.bitsInBuf + 8 * (r.data.length - r.pos)

/-- `inflate_fixed` (src/decode/inflate.rs:379-383). -/
def inflateFixed (r : BitReader) (output : List UInt8) : R (List UInt8 × BitReader) := do
  let lit ← HuffmanTable.fromLengths fixedLitLengths
  let dist ← HuffmanTable.fromLengths fixedDistLengths
  inflateBlock (BitReader.left r + 1) r output lit dist

/-- Reading of the code length code lengths (src/decode/inflate.rs:393-396). -/
def readClLengths : List Nat → List Nat → BitReader → R (List Nat × BitReader)
  | [], cl, r => .ok (cl, r)
  | idx :: order, cl, r => do
    let (v, r) ← r.readBits 3
    if idx < cl.length then readClLengths order (cl.set idx v) r else .error .panic

/-- The repeat loops (src/decode/inflate.rs:419-425, 430-436, 441-447): write `v` at
positions `i, i+1, ...`, failing past the end. Lengths already read are kept as a list whose
length is the index `i`; `total` is `lengths.len()`. -/
def repeatLoop (total v : Nat) : Nat → List Nat → R (List Nat)
  | 0, ls => .ok ls
  | n + 1, ls => if ls.length ≥ total then .error .invalid else repeatLoop total v n (ls ++ [v])

/-- The `while i < lengths.len()` loop (src/decode/inflate.rs:402-451). -/
def readLengths (cl : HuffmanTable) (total : Nat) : Nat → List Nat → BitReader →
    R (List Nat × BitReader)
  | 0, _, _ => .error .hang
  | fuel + 1, ls, r =>
    if ls.length < total then do
      let (symbol, r) ← cl.decode r
      if symbol ≤ 15 then readLengths cl total fuel (ls ++ [symbol]) r
      else if symbol = 16 then
        match ls.getLast? with
        | none => .error .invalid
        | some prev => do
          let (n, r) ← r.readBits 2
          let ls ← repeatLoop total prev (n + 3) ls
          readLengths cl total fuel ls r
      else if symbol = 17 then do
        let (n, r) ← r.readBits 3
        let ls ← repeatLoop total 0 (n + 3) ls
        readLengths cl total fuel ls r
      else if symbol = 18 then do
        let (n, r) ← r.readBits 7
        let ls ← repeatLoop total 0 (n + 11) ls
        readLengths cl total fuel ls r
      else .error .invalid
    else .ok (ls, r)

/-- `inflate_dynamic` (src/decode/inflate.rs:386-458). -/
def inflateDynamic (r : BitReader) (output : List UInt8) : R (List UInt8 × BitReader) := do
  let (hlit, r) ← r.readBits 5
  let (hdist, r) ← r.readBits 5
  let (hclen, r) ← r.readBits 4
  let hlit := hlit + 257
  let hdist := hdist + 1
  let hclen := hclen + 4
  let (clLengths, r) ← readClLengths (codeLengthOrder.take hclen) (List.replicate 19 0) r
  let clTable ← HuffmanTable.fromLengths clLengths
  let (lengths, r) ← readLengths clTable (hlit + hdist) (hlit + hdist + 1) [] r
  let lit ← HuffmanTable.fromLengths (lengths.take hlit)
  let dist ← HuffmanTable.fromLengths (lengths.drop hlit)
  inflateBlock (BitReader.left r + 1) r output lit dist

/-- The `match btype` (src/decode/inflate.rs:273-279). -/
def inflateOne (btype : Nat) (r : BitReader) (output : List UInt8) : R (List UInt8 × BitReader) :=
  if btype = 0 then inflateStored r output
  else if btype = 1 then inflateFixed r output
  else if btype = 2 then inflateDynamic r output
  else .error .invalid

/-- The block loop of `inflate_with_size` (src/decode/inflate.rs:269-284). Pre-allocation
(src/decode/inflate.rs:267) is ignored. -/
def inflateLoop : Nat → BitReader → List UInt8 → R (List UInt8)
  | 0, _, _ => .error .hang
  | fuel + 1, r, output => do
    let (bfinal, r) ← r.readBits 1
    let (btype, r) ← r.readBits 2
    let (output, r) ← inflateOne btype r output
    if bfinal = 1 then return output else inflateLoop fuel r output

/-- `inflate_with_size` (src/decode/inflate.rs:265-287). -/
def inflate (data : List UInt8) : R (List UInt8) :=
  inflateLoop (8 * data.length + 1) ⟨data, 0, 0, 0⟩ []

/-- `inflate_zlib_with_size` (src/decode/inflate.rs:294-352). `adler` is the checksum
function in use (`crate::compress::adler32`, which depends on the CPU). -/
def inflateZlib (adler : List UInt8 → Nat) (data : List UInt8) (expected : Option Nat) :
    R (List UInt8) :=
  match data with
  | cmf :: flg :: rest =>
    if rest.length < 4 then .error .invalid
    else if cmf.toNat &&& 0x0F ≠ 8 then .error .invalid
    else if ((cmf.toNat <<< 8) ||| flg.toNat) % 31 ≠ 0 then .error .invalid
    else if flg.toNat &&& 0x20 ≠ 0 then .error .unsupported
    else do
      let n := rest.length - 4
      let output ← inflate (rest.take n)
      let stored := (rest.drop n).foldl (fun a b => a * 256 + b.toNat) 0
      if stored ≠ adler output then .error .invalid
      else
        match expected with
        | some e => if output.length ≠ e then .error .invalid else return output
        | none => return output
  | _ => .error .invalid

/-- The capacity `inflate_zlib_with_size` reserves for its output before it reads the compressed
data (src/decode/inflate.rs:267), if the checks of the zlib header (296-323) succeed. -/
def reserve (data : List UInt8) (expected : Option Nat) : Option Nat :=
  match data with
  | cmf :: flg :: rest =>
    if rest.length < 4 then none
    else if cmf.toNat &&& 0x0F ≠ 8 then none
    else if ((cmf.toNat <<< 8) ||| flg.toNat) % 31 ≠ 0 then none
    else if flg.toNat &&& 0x20 ≠ 0 then none
    else some (expected.getD ((rest.length - 4) * 4))
  | _ => none

end Pixo.Inflate
