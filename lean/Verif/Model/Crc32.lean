/-
Model of src/compress/crc32.rs. `u32` is `BitVec 32`.
-/
namespace Pixo.Crc

/-- Body of the table loop (src/compress/crc32.rs:12-18). -/
def shift1 (crc : BitVec 32) : BitVec 32 :=
  if crc &&& 1#32 ≠ 0#32 then (crc >>> 1) ^^^ 0xEDB88320#32 else crc >>> 1

/-- `tables[0][i]` (src/compress/crc32.rs:9-20): eight iterations. -/
def table0 (i : BitVec 32) : BitVec 32 := Nat.repeat shift1 8 i

/-- `tables[t][i]` (src/compress/crc32.rs:22-28). The lazily built array is modelled as the
function that computes its entries. -/
def table : Nat → BitVec 32 → BitVec 32
  | 0, i => table0 i
  | t + 1, i =>
    let prev := table t i
    (prev >>> 8) ^^^ table0 (prev &&& 0xFF#32)

/-- One byte (src/compress/crc32.rs:61-64 and 80-83). -/
def byteStep (crc : BitVec 32) (b : UInt8) : BitVec 32 :=
  (crc >>> 8) ^^^ table 0 ((crc ^^^ BitVec.ofNat 32 b.toNat) &&& 0xFF#32)

/-- `u32::from_le_bytes` (src/compress/crc32.rs:45-46). -/
def le32 (a b c d : UInt8) : BitVec 32 :=
  BitVec.ofNat 32 a.toNat ||| (BitVec.ofNat 32 b.toNat <<< 8) |||
    (BitVec.ofNat 32 c.toNat <<< 16) ||| (BitVec.ofNat 32 d.toNat <<< 24)

/-- One 8-byte chunk (src/compress/crc32.rs:45-58). -/
def chunkStep (crc low high : BitVec 32) : BitVec 32 :=
  let crc := crc ^^^ low
  table 7 (crc &&& 0xFF#32)
    ^^^ table 6 ((crc >>> 8) &&& 0xFF#32)
    ^^^ table 5 ((crc >>> 16) &&& 0xFF#32)
    ^^^ table 4 ((crc >>> 24) &&& 0xFF#32)
    ^^^ table 3 (high &&& 0xFF#32)
    ^^^ table 2 ((high >>> 8) &&& 0xFF#32)
    ^^^ table 1 ((high >>> 16) &&& 0xFF#32)
    ^^^ table 0 ((high >>> 24) &&& 0xFF#32)

/-- `chunks_exact(8)` followed by the remainder loop (src/compress/crc32.rs:43-64). -/
def run (crc : BitVec 32) : List UInt8 → BitVec 32
  | b0 :: b1 :: b2 :: b3 :: b4 :: b5 :: b6 :: b7 :: rest =>
    run (chunkStep crc (le32 b0 b1 b2 b3) (le32 b4 b5 b6 b7)) rest
  | rest => rest.foldl byteStep crc

/-- `crc32` (src/compress/crc32.rs:38-67). -/
def crc32 (data : List UInt8) : BitVec 32 := run 0xFFFFFFFF#32 data ^^^ 0xFFFFFFFF#32

/-- `Crc32::new` (src/compress/crc32.rs:75-77). -/
def new : BitVec 32 := 0xFFFFFFFF#32

/-- `Crc32::update` (src/compress/crc32.rs:79-85). -/
def update (crc : BitVec 32) (data : List UInt8) : BitVec 32 := data.foldl byteStep crc

/-- `Crc32::finalize` (src/compress/crc32.rs:87-91). -/
def finalize (crc : BitVec 32) : BitVec 32 := crc ^^^ 0xFFFFFFFF#32

end Pixo.Crc
