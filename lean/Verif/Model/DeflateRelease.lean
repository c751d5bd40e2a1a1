import Verif.Model.Deflate
/-
The token encoders of src/compress/deflate.rs in a release build, where the debug assertions are gone and
arithmetic wraps.
-/
namespace Pixo.Deflate
open Pixo Pixo.Lz77

/-- `length_code` (src/compress/deflate.rs:204-215) in a release build: `length - 3` and
`length - LENGTH_BASE[code_offset]` wrap, the bounds check of `LENGTH_LOOKUP` stays. -/
def lengthCodeRelease (length : Nat) : R (Nat × Nat × Nat) := do
  let (off, extra) ← getChecked LENGTH_LOOKUP ((length + 2 ^ 16 - 3) % 2 ^ 16)
  let base ← getChecked LENGTH_BASE off
  return (257 + off, extra, (length + 2 ^ 16 - base) % 2 ^ 16)

/-- `distance_code` (src/compress/deflate.rs:220-241) in a release build: `distance - DISTANCE_BASE[code_idx]`
wraps. -/
def distanceCodeRelease (distance : Nat) : R (Nat × Nat × Nat) := do
  let idx ← distanceIndex distance
  let extra ← getChecked DISTANCE_EXTRA idx
  let base ← getChecked DISTANCE_BASE idx
  return (idx, extra, (distance + 2 ^ 16 - base) % 2 ^ 16)

/-- One token (src/compress/deflate.rs:1162-1186) in a release build. -/
def writeTokenRelease (lit dist : List (Nat × Nat)) (w : BitWriter64) : Token → R BitWriter64
  | .lit b => writeCode lit b.toNat w
  | .mtch length distance => do
    let (ls, lx, lv) ← lengthCodeRelease length
    let w ← writeCode lit ls w
    let w ← writeExtra lv lx w
    let (ds, dx, dv) ← distanceCodeRelease distance
    let w ← writeCode dist ds w
    writeExtra dv dx w

/-- All tokens and the end of block symbol (src/compress/deflate.rs:1161-1191) in a release build. -/
def writeBodyRelease (lit dist : List (Nat × Nat)) : List Token → BitWriter64 → R BitWriter64
  | [], w => writeCode lit 256 w
  | t :: ts, w => do writeBodyRelease lit dist ts (← writeTokenRelease lit dist w t)

/-- `encode_fixed_huffman_with_capacity` (src/compress/deflate.rs:1151-1194) in a release build. -/
def encodeFixedRelease (tokens : List Token) : R (List UInt8) := do
  let lit ← fixedLitRev
  let dist ← fixedDistRev
  let w ← BitWriter64.writeBitsChecked {} 1 1
  let w ← w.writeBitsChecked 1 2
  return (← writeBodyRelease lit dist tokens w).finish

/-- The counting of one token (src/compress/deflate.rs:661-670, 1249-1258) in a release build. The counters are still
checked here: they would only wrap from 2^32 tokens on. -/
def countTokenRelease (f : List Nat × List Nat) : Token → R (List Nat × List Nat)
  | .lit b => do return (← bump f.1 b.toNat, f.2)
  | .mtch length distance => do
    let (ls, _, _) ← lengthCodeRelease length
    let lit ← bump f.1 ls
    let (ds, _, _) ← distanceCodeRelease distance
    let dist ← bump f.2 ds
    return (lit, dist)

/-- Counting of a list of tokens in a release build. -/
def countLoopRelease : List Token → List Nat × List Nat → R (List Nat × List Nat)
  | [], f => .ok f
  | t :: ts, f => do countLoopRelease ts (← countTokenRelease f t)

/-- The counting in the block writers (src/compress/deflate.rs:656-676, 1244-1266) in a release build. -/
def countSymbolsRelease (tokens : List Token) : R (List Nat × List Nat) := do
  let (lit, dist) ← countLoopRelease tokens (List.replicate 286 0, List.replicate 30 0)
  let lit ← bump lit 256
  if dist.all (· == 0) then do
    let dist ← setChecked dist 0 1
    return (lit, dist)
  else return (lit, dist)

/-- `write_dynamic_huffman_block` (src/compress/deflate.rs:655-752) in a release build; the code lengths are computed
from counts as in a debug build. -/
def writeDynamicBlockRelease (env : Env) (w : BitWriter64) (tokens : List Token) (isFinal : Bool) :
    R BitWriter64 := do
  let (litFreqs, distFreqs) ← countSymbolsRelease tokens
  let litCodes ← Huffman.buildCodes (env.tie litFreqs 15) litFreqs 15
  let distCodes ← Huffman.buildCodes (env.tie distFreqs 15) distFreqs 15
  let litRev ← reversedCodes litCodes
  let distRev ← reversedCodes distCodes
  let litLengths := litCodes.map Prod.snd
  let distLengths := distCodes.map Prod.snd
  let hlit := min (lastNonzero litLengths - 257) 29
  let hdist := min (lastNonzero distLengths - 1) 29
  let (rle, clFreqs) ← rleCodeLengths (litLengths.take (257 + hlit)) (distLengths.take (1 + hdist))
  let clCodes ← Huffman.buildCodes (env.tie clFreqs 7) clFreqs 7
  let clRev ← reversedCodes clCodes
  let hclen ← hclenLoop clCodes 19
  let w ← w.writeBitsChecked (if isFinal then 1 else 0) 1
  let w ← w.writeBitsChecked 2 2
  let w ← w.writeBitsChecked hlit 5
  let w ← w.writeBitsChecked hdist 5
  let w ← w.writeBitsChecked hclen 4
  let w ← writeClLengths clCodes (clOrder.take (hclen + 4)) w
  let w ← writeRle clRev rle w
  writeBodyRelease litRev distRev tokens w

/-- `encode_dynamic_huffman_with_capacity` (src/compress/deflate.rs:1243-1358) in a release build. -/
def encodeDynamicRelease (env : Env) (tokens : List Token) : R (List UInt8) := do
  return (← writeDynamicBlockRelease env {} tokens true).finish

end Pixo.Deflate
