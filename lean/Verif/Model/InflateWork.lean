import Verif.Model.Inflate
/-
How much work `inflate` does: the functions of Model/Inflate once more, each also giving the number of steps. A step is one round of a loop of
src/decode/inflate.rs (also of the loops hidden in `max`, `resize`, `read_bytes`, `to_vec` and `vec![0; n]`), or one attempt to decode a
symbol. Steps are counted up to the point where a function gives an error. Not counted are the loops which fill the buffer of the bit reader, of
at most eight rounds for each read, and the capacity reserved for the output (src/decode/inflate.rs:267), which is the subject of `reserve`.
-/
namespace Pixo.Inflate
open Pixo

/-- A computation with the number of steps it takes. -/
structure Counted (α : Type) where
  res : R α
  steps : Nat

instance : Monad Counted where
  pure a := ⟨.ok a, 0⟩
  bind x f :=
    match x.res with
    | .ok a => ⟨(f a).res, x.steps + (f a).steps⟩
    | .error e => ⟨.error e, x.steps⟩

/-- `n` steps. -/
def tick (n : Nat) : Counted Unit := ⟨.ok (), n⟩

/-- Not counted. -/
def free {α : Type} (x : R α) : Counted α := ⟨x, 0⟩

/-- An error. -/
def stop {α : Type} (e : Err) : Counted α := ⟨.error e, 0⟩

/-- The second loop of `code_for_symbol` (src/decode/inflate.rs:210-217) with its rounds. -/
def codeForLoopC : List Nat → Nat → (Nat → Nat) → Nat → Nat × Nat
  | [], _, _, _ => (2 ^ 32 - 1, 0)
  | l :: ls, sym, next, symbol =>
    if l > 0 then
      if sym = symbol then (next l, 1)
      else
        let p := codeForLoopC ls (sym + 1) (fun k => if k = l then next k + 1 else next k) symbol
        (p.1, 1 + p.2)
    else
      let p := codeForLoopC ls (sym + 1) next symbol
      (p.1, 1 + p.2)

/-- `HuffmanTable::code_for_symbol` (src/decode/inflate.rs:189-219): one round for each symbol to count the lengths (196-201), fifteen for the
first codes (203-208), and those of the second loop. -/
def HuffmanTable.codeForSymbolC (t : HuffmanTable) (symbol : Nat) : Nat × Nat :=
  if t.lengths.getD symbol 0 = 0 then (2 ^ 32 - 1, 0)
  else
    let p := codeForLoopC t.lengths 0 (nextCode t.lengths) symbol
    (p.1, t.lengths.length + 15 + p.2)

/-- The loop over symbols in `decode_slow` (src/decode/inflate.rs:175-183). -/
def HuffmanTable.findLoopC (t : HuffmanTable) (len code : Nat) : List Nat → Option Nat × Nat
  | [] => (none, 0)
  | s :: ss =>
    if t.lengths.getD s 0 == len then
      let c := t.codeForSymbolC s
      if code == c.1 then (some s, 1 + c.2)
      else
        let p := HuffmanTable.findLoopC t len code ss
        (p.1, 1 + c.2 + p.2)
    else
      let p := HuffmanTable.findLoopC t len code ss
      (p.1, 1 + p.2)

/-- `HuffmanTable::decode_slow` (src/decode/inflate.rs:170-186). -/
def HuffmanTable.decodeSlowLoopC (t : HuffmanTable) : Nat → Nat → Nat → BitReader → Counted (Nat × BitReader)
  | 0, _, _, _ => stop .invalid
  | rounds + 1, len, code, r => do
    let (bit, r) ← free (r.readBits 1)
    let code := (code <<< 1) ||| bit
    let p := t.findLoopC len code (List.range t.lengths.length)
    tick p.2
    match p.1 with
    | some s => return (s, r)
    | none => HuffmanTable.decodeSlowLoopC t rounds (len + 1) code r

def HuffmanTable.decodeSlowC (t : HuffmanTable) (r : BitReader) : Counted (Nat × BitReader) :=
  t.decodeSlowLoopC t.maxLen 1 0 r

/-- `HuffmanTable::decode` (src/decode/inflate.rs:130-167): one step, and those of `decode_slow`. -/
def HuffmanTable.decodeC (t : HuffmanTable) (r : BitReader) : Counted (Nat × BitReader) := do
  tick 1
  if t.maxLen = 0 then stop .invalid
  else
    let (peek, available, r) := r.tryPeekBits lookupBits
    if available ≥ lookupBits then
      match t.lookup[peek]? with
      | none => stop .panic
      | some entry =>
        let len := entry >>> 12
        if len > 0 ∧ len ≤ lookupBits then do
          let r ← free (r.consume len)
          return (entry &&& 0xFFF, r)
        else t.decodeSlowC r
    else if available > 0 then
      match t.lookup[peek]? with
      | none => stop .panic
      | some entry =>
        let len := entry >>> 12
        if len > 0 ∧ len ≤ available then do
          let r ← free (r.consume len)
          return (entry &&& 0xFFF, r)
        else t.decodeSlowC r
    else t.decodeSlowC r

/-- Lookup-table construction (src/decode/inflate.rs:101-117): one round for each symbol, `len` to reverse its code (223-231), and one for each
entry. -/
def buildLookupC : Nat → List Nat → List Nat → List Nat → Counted (List Nat)
  | symbol, len :: lens, code :: codes, lookup => do
    tick 1
    if len = 0 ∨ len > lookupBits then buildLookupC (symbol + 1) lens codes lookup
    else do
      tick len
      tick (1 <<< (lookupBits - len))
      let lookup ← free
        (fillEntries ((symbol % 2 ^ 16) ||| (len <<< 12)) (reverseBits len (code % 2 ^ 16) 0) len
          (1 <<< (lookupBits - len)) lookup)
      buildLookupC (symbol + 1) lens codes lookup
  | _, _, _, lookup => pure lookup

/-- `HuffmanTable::from_lengths` (src/decode/inflate.rs:59-127): a round for each symbol to find the greatest length (60); 512 entries and a
copy of the lengths in either case (66-70, 99, 122-126); to count lengths (74-79), to make and to fill the list of codes (90-96) a round
for each symbol, and fifteen for the first codes (84-87). -/
def HuffmanTable.fromLengthsC (lengths : List Nat) : Counted HuffmanTable := do
  tick lengths.length
  let maxLen := lengths.foldl max 0
  if maxLen > 15 then stop .invalid
  else do
    tick (512 + lengths.length)
    if maxLen = 0 then return ⟨List.replicate 512 0, lengths, 0⟩
    else do
      tick (3 * lengths.length + 15)
      let codes := assignCodes lengths (nextCode lengths)
      let lookup ← buildLookupC 0 lengths codes (List.replicate 512 0)
      return ⟨lookup, lengths, maxLen⟩

/-- `inflate_stored` (src/decode/inflate.rs:355-376): `len` bytes are written by `resize` (372), and again by `read_bytes` (373). -/
def inflateStoredC (r : BitReader) (output : List UInt8) : Counted (List UInt8 × BitReader) := do
  let r := r.alignToByte
  let (len, r) ← free (r.readBits 16)
  let (nlen, r) ← free (r.readBits 16)
  if len ≠ 65535 - nlen then stop .invalid
  else do
    tick len
    let (bytes, r) ← free (r.readBytes len)
    tick len
    return (output ++ bytes, r)

/-- The length/distance arm of `inflate_block` (src/decode/inflate.rs:479-503): one step for each byte copied (498-502). -/
def inflateMatchC (r : BitReader) (output : List UInt8) (symbol : Nat) (dist : HuffmanTable) :
    Counted (List UInt8 × BitReader) := do
  let lb ← free (getChecked lengthBase (symbol - 257))
  let lx ← free (getChecked lengthExtra (symbol - 257))
  let (e, r) ← free (r.readBits lx)
  let (distSymbol, r) ← dist.decodeC r
  if distSymbol ≥ 30 then stop .invalid
  else do
    let db ← free (getChecked distanceBase distSymbol)
    let dx ← free (getChecked distanceExtra distSymbol)
    let (f, r) ← free (r.readBits dx)
    if db + f > output.length then stop .invalid
    else do
      tick (lb + e)
      let output ← free (copyLoop (output.length - (db + f)) (db + f) (lb + e) 0 output)
      return (output, r)

/-- The round of the loop of `inflate_block` (src/decode/inflate.rs:471-510) after a symbol has been decoded; `again` are the next rounds. -/
def blockStepC (again : BitReader → List UInt8 → Counted (List UInt8 × BitReader)) (symbol : Nat) (r : BitReader) (output : List UInt8)
    (dist : HuffmanTable) : Counted (List UInt8 × BitReader) :=
  if symbol ≤ 255 then again r (output ++ [UInt8.ofNat symbol])
  else if symbol = 256 then pure (output, r)
  else if symbol ≤ 285 then do
    let (output, r) ← inflateMatchC r output symbol dist
    again r output
  else stop .invalid

/-- `inflate_block` (src/decode/inflate.rs:461-513). -/
def inflateBlockC : Nat → BitReader → List UInt8 → HuffmanTable → HuffmanTable → Counted (List UInt8 × BitReader)
  | 0, _, _, _, _ => stop .hang
  | fuel + 1, r, output, lit, dist => do
    let (symbol, r) ← lit.decodeC r
    blockStepC (fun r output => inflateBlockC fuel r output lit dist) symbol r output dist

/-- The tables of `inflate_fixed` and the block (src/decode/inflate.rs:379-383); `fixed_literal_table` writes its lengths twice, zeros first
(235-251), `fixed_distance_table` once (257). -/
def inflateWithC (litLengths distLengths : List Nat) (r : BitReader) (output : List UInt8) : Counted (List UInt8 × BitReader) := do
  tick (2 * litLengths.length)
  let lit ← HuffmanTable.fromLengthsC litLengths
  tick distLengths.length
  let dist ← HuffmanTable.fromLengthsC distLengths
  inflateBlockC (BitReader.left r + 1) r output lit dist

/-- `inflate_fixed` (src/decode/inflate.rs:379-383). -/
def inflateFixedC (r : BitReader) (output : List UInt8) : Counted (List UInt8 × BitReader) :=
  inflateWithC fixedLitLengths fixedDistLengths r output

/-- Reading of the code length code lengths (src/decode/inflate.rs:393-396). -/
def readClLengthsC : List Nat → List Nat → BitReader → Counted (List Nat × BitReader)
  | [], cl, r => pure (cl, r)
  | idx :: order, cl, r => do
    tick 1
    let (v, r) ← free (r.readBits 3)
    if idx < cl.length then readClLengthsC order (cl.set idx v) r else stop .panic

/-- The repeat loops (src/decode/inflate.rs:419-425, 430-436, 441-447). -/
def repeatLoopC (total v : Nat) : Nat → List Nat → Counted (List Nat)
  | 0, ls => pure ls
  | n + 1, ls => do
    tick 1
    if ls.length ≥ total then stop .invalid else repeatLoopC total v n (ls ++ [v])

/-- The `while i < lengths.len()` loop (src/decode/inflate.rs:402-451). -/
def readLengthsC (cl : HuffmanTable) (total : Nat) : Nat → List Nat → BitReader → Counted (List Nat × BitReader)
  | 0, _, _ => stop .hang
  | fuel + 1, ls, r =>
    if ls.length < total then do
      let (symbol, r) ← cl.decodeC r
      if symbol ≤ 15 then readLengthsC cl total fuel (ls ++ [symbol]) r
      else if symbol = 16 then
        match ls.getLast? with
        | none => stop .invalid
        | some prev => do
          let (n, r) ← free (r.readBits 2)
          let ls ← repeatLoopC total prev (n + 3) ls
          readLengthsC cl total fuel ls r
      else if symbol = 17 then do
        let (n, r) ← free (r.readBits 3)
        let ls ← repeatLoopC total 0 (n + 3) ls
        readLengthsC cl total fuel ls r
      else if symbol = 18 then do
        let (n, r) ← free (r.readBits 7)
        let ls ← repeatLoopC total 0 (n + 11) ls
        readLengthsC cl total fuel ls r
      else stop .invalid
    else pure (ls, r)

/-- `inflate_dynamic` (src/decode/inflate.rs:386-458), with the zeros of `vec![0; hlit + hdist]` (402). -/
def inflateDynamicC (r : BitReader) (output : List UInt8) : Counted (List UInt8 × BitReader) := do
  let (hlit, r) ← free (r.readBits 5)
  let (hdist, r) ← free (r.readBits 5)
  let (hclen, r) ← free (r.readBits 4)
  let hlit := hlit + 257
  let hdist := hdist + 1
  let hclen := hclen + 4
  let (clLengths, r) ← readClLengthsC (codeLengthOrder.take hclen) (List.replicate 19 0) r
  let clTable ← HuffmanTable.fromLengthsC clLengths
  tick (hlit + hdist)
  let (lengths, r) ← readLengthsC clTable (hlit + hdist) (hlit + hdist + 1) [] r
  let lit ← HuffmanTable.fromLengthsC (lengths.take hlit)
  let dist ← HuffmanTable.fromLengthsC (lengths.drop hlit)
  inflateBlockC (BitReader.left r + 1) r output lit dist

/-- The `match btype` (src/decode/inflate.rs:273-279). -/
def inflateOneC (btype : Nat) (r : BitReader) (output : List UInt8) : Counted (List UInt8 × BitReader) :=
  if btype = 0 then inflateStoredC r output
  else if btype = 1 then inflateFixedC r output
  else if btype = 2 then inflateDynamicC r output
  else stop .invalid

/-- The block loop of `inflate_with_size` (src/decode/inflate.rs:269-284). -/
def inflateLoopC : Nat → BitReader → List UInt8 → Counted (List UInt8)
  | 0, _, _ => stop .hang
  | fuel + 1, r, output => do
    tick 1
    let (bfinal, r) ← free (r.readBits 1)
    let (btype, r) ← free (r.readBits 2)
    let (output, r) ← inflateOneC btype r output
    if bfinal = 1 then return output else inflateLoopC fuel r output

/-- `inflate_with_size` (src/decode/inflate.rs:265-287). -/
def inflateC (data : List UInt8) : Counted (List UInt8) :=
  inflateLoopC (8 * data.length + 1) ⟨data, 0, 0, 0⟩ []

end Pixo.Inflate
