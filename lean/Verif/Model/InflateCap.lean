import Verif.Model.PngDecode
/-
The DEFLATE decoder of src/decode/inflate.rs in a memory that holds `limit` bytes of its output
and no more. The functions are those of `Verif/Model/Inflate.lean`, with a check wherever the code
makes `output` longer; a program that outgrows its memory is aborted, which is shown as `panic`.
Other allocations (Huffman tables, the input, the pixels made from the output) are not counted.
-/
namespace Pixo.Inflate
open Pixo

/-- Making `output` hold `n` bytes. -/
def hold (limit n : Nat) : R Unit := if n ≤ limit then .ok () else .error .panic

/-- `inflate_stored` (src/decode/inflate.rs:355-376). `output.resize(start + len, 0)` (372) comes
before the bytes are read (373). -/
def inflateStoredCap (limit : Nat) (r : BitReader) (output : List UInt8) : R (List UInt8 × BitReader) := do
  let r := r.alignToByte
  let (len, r) ← r.readBits 16
  let (nlen, r) ← r.readBits 16
  if len ≠ 65535 - nlen then .error .invalid
  else do
    hold limit (output.length + len)
    let (bytes, r) ← r.readBytes len
    return (output ++ bytes, r)

/-- The length/distance arm of `inflate_block` (src/decode/inflate.rs:479-503). The loop pushes one
byte at a time (498-502); it pushes all of them, so it outgrows the limit exactly if their sum does. -/
def inflateMatchCap (limit : Nat) (r : BitReader) (output : List UInt8) (symbol : Nat) (dist : HuffmanTable) :
    R (List UInt8 × BitReader) := do
  let lb ← getChecked lengthBase (symbol - 257)
  let lx ← getChecked lengthExtra (symbol - 257)
  let (e, r) ← r.readBits lx
  let (distSymbol, r) ← dist.decode r
  if distSymbol ≥ 30 then .error .invalid
  else do
    let db ← getChecked distanceBase distSymbol
    let dx ← getChecked distanceExtra distSymbol
    let (f, r) ← r.readBits dx
    if db + f > output.length then .error .invalid
    else do
      hold limit (output.length + (lb + e))
      let output ← copyLoop (output.length - (db + f)) (db + f) (lb + e) 0 output
      return (output, r)

/-- `inflate_block` (src/decode/inflate.rs:461-513). -/
def inflateBlockCap (limit : Nat) : Nat → BitReader → List UInt8 → HuffmanTable → HuffmanTable →
    R (List UInt8 × BitReader)
  | 0, _, _, _, _ => .error .hang
  | fuel + 1, r, output, lit, dist => do
    let (symbol, r) ← lit.decode r
    if symbol ≤ 255 then do
      hold limit (output.length + 1)
      inflateBlockCap limit fuel r (output ++ [UInt8.ofNat symbol]) lit dist
    else if symbol = 256 then
      return (output, r)
    else if symbol ≤ 285 then do
      let (output, r) ← inflateMatchCap limit r output symbol dist
      inflateBlockCap limit fuel r output lit dist
    else .error .invalid

/-- `inflate_fixed` (src/decode/inflate.rs:379-383). -/
def inflateFixedCap (limit : Nat) (r : BitReader) (output : List UInt8) : R (List UInt8 × BitReader) := do
  let lit ← HuffmanTable.fromLengths fixedLitLengths
  let dist ← HuffmanTable.fromLengths fixedDistLengths
  inflateBlockCap limit (BitReader.left r + 1) r output lit dist

/-- `inflate_dynamic` (src/decode/inflate.rs:386-458). -/
def inflateDynamicCap (limit : Nat) (r : BitReader) (output : List UInt8) : R (List UInt8 × BitReader) := do
  let (hlit, r) ← r.readBits 5
  let (hdist, r) ← r.readBits 5
  let (hclen, r) ← r.readBits 4
  let hlit := hlit + 257
  let hdist := hdist + 1
  let hclen := hclen + 4
  let (clLengths, r) ← readClLengths (codeLengthOrder.take hclen) (List.replicate 19 0) r
  let clTable ← HuffmanTable.fromLengths clLengths
  let (lengths, r) ← readLengths clTable (hlit + hdist) (hlit + hdist + 1) [] r
  let lit ← HuffmanTable.fromLengths (lengths.take hlit)
  let dist ← HuffmanTable.fromLengths (lengths.drop hlit)
  inflateBlockCap limit (BitReader.left r + 1) r output lit dist

/-- The `match btype` (src/decode/inflate.rs:273-279). -/
def inflateOneCap (limit btype : Nat) (r : BitReader) (output : List UInt8) : R (List UInt8 × BitReader) :=
  if btype = 0 then inflateStoredCap limit r output
  else if btype = 1 then inflateFixedCap limit r output
  else if btype = 2 then inflateDynamicCap limit r output
  else .error .invalid

/-- The block loop of `inflate_with_size` (src/decode/inflate.rs:269-284). -/
def inflateLoopCap (limit : Nat) : Nat → BitReader → List UInt8 → R (List UInt8)
  | 0, _, _ => .error .hang
  | fuel + 1, r, output => do
    let (bfinal, r) ← r.readBits 1
    let (btype, r) ← r.readBits 2
    let (output, r) ← inflateOneCap limit btype r output
    if bfinal = 1 then return output else inflateLoopCap limit fuel r output

/-- `inflate_with_size` (src/decode/inflate.rs:265-287). The capacity reserved at 267 is not
counted here; `reserve` gives it. -/
def inflateCap (limit : Nat) (data : List UInt8) : R (List UInt8) :=
  inflateLoopCap limit (8 * data.length + 1) ⟨data, 0, 0, 0⟩ []

/-- `inflate_zlib_with_size` (src/decode/inflate.rs:294-352): checksum and expected size are
compared after the whole output has been made (326, 338, 344-349). -/
def inflateZlibCap (limit : Nat) (adler : List UInt8 → Nat) (data : List UInt8) (expected : Option Nat) :
    R (List UInt8) :=
  match data with
  | cmf :: flg :: rest =>
    if rest.length < 4 then .error .invalid
    else if cmf.toNat &&& 0x0F ≠ 8 then .error .invalid
    else if ((cmf.toNat <<< 8) ||| flg.toNat) % 31 ≠ 0 then .error .invalid
    else if flg.toNat &&& 0x20 ≠ 0 then .error .unsupported
    else do
      let n := rest.length - 4
      let output ← inflateCap limit (rest.take n)
      let stored := (rest.drop n).foldl (fun a b => a * 256 + b.toNat) 0
      if stored ≠ adler output then .error .invalid
      else
        match expected with
        | some e => if output.length ≠ e then .error .invalid else return output
        | none => return output
  | _ => .error .invalid

end Pixo.Inflate

namespace Pixo.PngDecode
open Pixo

/-- The part of `decode_png` after the chunks (src/decode/png.rs:211-285). -/
def finishCap (limit : Nat) (adler : List UInt8 → Nat) (c : Chunks) : R PngImage :=
  match c.ihdr with
  | none => .error .invalid
  | some h => do
    validate h
    if c.idat = [] then .error .invalid
    else do
      let size ← expectedSize h
      let raw ← Inflate.inflateZlibCap limit adler c.idat (some size)
      let pixels ← reconstruct h raw c.palette c.trns
      return ⟨h.width, h.height, pixels, outputType h c.trns⟩

/-- `decode_png` (src/decode/png.rs:101-285). -/
def decodePngCap (limit : Nat) (adler : List UInt8 → Nat) (data : List UInt8) : R PngImage :=
  if data.length < 8 ∨ data.take 8 ≠ signature then .error .invalid
  else do
    let c ← chunkLoop data (data.length + 1) 8 ⟨none, [], none, none⟩
    finishCap limit adler c

end Pixo.PngDecode
