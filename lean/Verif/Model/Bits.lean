import Verif.Model.Basic
/-
Model of src/bits.rs.

Integer fields are `Nat`; where the Rust type can drop bits (`as u8`, `<<` on `u8`/`u64`)
the reduction is written out. `Vec::with_capacity` hints are ignored.
-/
namespace Pixo

/-- `BitWriter` (src/bits.rs:5-9). -/
structure BitWriter where
  buffer : List UInt8 := []
  currentByte : Nat := 0
  bitPosition : Nat := 0
  deriving DecidableEq, Repr

/-- The `while remaining > 0` loop of `BitWriter::write_bits` (src/bits.rs:37-58).
`fuel` bounds the number of iterations (at most `remaining` are needed). -/
def BitWriter.writeLoop : Nat → BitWriter → Nat → Nat → BitWriter
  | 0, w, _, _ => w
  | fuel + 1, w, value, remaining =>
    if remaining > 0 then
      let available := 8 - w.bitPosition
      let toWrite := min remaining available
      let mask := (1 <<< toWrite) - 1
      let bits := (value &&& mask) % 256
      let cur := w.currentByte ||| ((bits <<< w.bitPosition) % 256)
      let pos := w.bitPosition + toWrite
      let w' : BitWriter :=
        if pos = 8 then ⟨w.buffer ++ [UInt8.ofNat cur], 0, 0⟩ else ⟨w.buffer, cur, pos⟩
      BitWriter.writeLoop fuel w' (value >>> toWrite) (remaining - toWrite)
    else w

/-- `BitWriter::write_bits` (src/bits.rs:32-59). -/
def BitWriter.writeBits (w : BitWriter) (value numBits : Nat) : BitWriter :=
  BitWriter.writeLoop numBits w (value % 2 ^ 32) numBits

/-- `BitWriter::write_bit` (src/bits.rs:62-65). -/
def BitWriter.writeBit (w : BitWriter) (bit : Bool) : BitWriter := w.writeBits bit.toNat 1

/-- `BitWriter::write_byte` (src/bits.rs:68-74). -/
def BitWriter.writeByte (w : BitWriter) (byte : UInt8) : BitWriter :=
  if w.bitPosition = 0 then { w with buffer := w.buffer ++ [byte] }
  else w.writeBits byte.toNat 8

/-- `BitWriter::write_bytes` (src/bits.rs:76-84). -/
def BitWriter.writeBytes (w : BitWriter) (bytes : List UInt8) : BitWriter :=
  if w.bitPosition = 0 then { w with buffer := w.buffer ++ bytes }
  else bytes.foldl (fun w b => w.writeBits b.toNat 8) w

/-- `BitWriter::flush` (src/bits.rs:87-93). -/
def BitWriter.flush (w : BitWriter) : BitWriter :=
  if w.bitPosition > 0 then ⟨w.buffer ++ [UInt8.ofNat w.currentByte], 0, 0⟩ else w

/-- `BitWriter::finish` (src/bits.rs:96-99). -/
def BitWriter.finish (w : BitWriter) : List UInt8 := w.flush.buffer

/-- `BitWriter::len` (src/bits.rs:102-104). -/
def BitWriter.len (w : BitWriter) : Nat := w.buffer.length

/-- `BitWriter::is_empty` (src/bits.rs:106-108). -/
def BitWriter.isEmpty (w : BitWriter) : Bool := w.buffer.isEmpty && w.bitPosition == 0

/-- `BitWriter64` (src/bits.rs:123-127). -/
structure BitWriter64 where
  buffer : List UInt8 := []
  acc : Nat := 0
  bitsInAcc : Nat := 0
  deriving DecidableEq, Repr

/-- The flush loop of `BitWriter64::write_bits` (src/bits.rs:156-160); at most eight
iterations since the counter is below 64. -/
def BitWriter64.drain : Nat → BitWriter64 → BitWriter64
  | 0, w => w
  | fuel + 1, w =>
    if w.bitsInAcc ≥ 8 then
      BitWriter64.drain fuel
        ⟨w.buffer ++ [UInt8.ofNat (w.acc % 256)], w.acc >>> 8, w.bitsInAcc - 8⟩
    else w

/-- `BitWriter64::write_bits` (src/bits.rs:149-161). The mask is computed in `u32`:
`1u32 << 32` is a shift overflow (panic in a checked build), modelled by
`writeBitsChecked`; this total version is the arithmetic for `num_bits < 32`. -/
def BitWriter64.writeBits (w : BitWriter64) (value numBits : Nat) : BitWriter64 :=
  let val64 := (value % 2 ^ 32) &&& ((1 <<< numBits) - 1)
  let acc := w.acc ||| ((val64 <<< w.bitsInAcc) % 2 ^ 64)
  BitWriter64.drain 8 ⟨w.buffer, acc, w.bitsInAcc + numBits⟩

/-- `BitWriter64::write_bits` with its panics (src/bits.rs:150-152): the debug assertion
`num_bits <= 32` and the overflowing shift `1u32 << num_bits` for `num_bits = 32`. -/
def BitWriter64.writeBitsChecked (w : BitWriter64) (value numBits : Nat) : R BitWriter64 :=
  if numBits ≥ 32 ∨ w.bitsInAcc > 63 ∨ w.bitsInAcc + numBits ≥ 72 then .error .panic
  else .ok (w.writeBits value numBits)

/-- `BitWriter64::flush` (src/bits.rs:169-175). -/
def BitWriter64.flush (w : BitWriter64) : BitWriter64 :=
  if w.bitsInAcc > 0 then ⟨w.buffer ++ [UInt8.ofNat (w.acc % 256)], 0, 0⟩ else w

/-- `BitWriter64::finish` (src/bits.rs:178-181). -/
def BitWriter64.finish (w : BitWriter64) : List UInt8 := w.flush.buffer

/-- `BitWriter64::write_bit` (src/bits.rs:164-166). -/
def BitWriter64.writeBit (w : BitWriter64) (bit : Bool) : R BitWriter64 := w.writeBitsChecked bit.toNat 1

/-- `BitWriter64::len` (src/bits.rs:184-186). -/
def BitWriter64.len (w : BitWriter64) : Nat := w.buffer.length

/-- `BitWriter64::is_empty` (src/bits.rs:188-190). -/
def BitWriter64.isEmpty (w : BitWriter64) : Bool := w.buffer.isEmpty && w.bitsInAcc == 0

/-- `BitWriterMsb` (src/bits.rs:195-199). -/
structure BitWriterMsb where
  buffer : List UInt8 := []
  currentByte : Nat := 0
  bitPosition : Nat := 8
  deriving DecidableEq, Repr

/-- `BitWriterMsb::flush_byte_with_stuffing` (src/bits.rs:245-253). -/
def BitWriterMsb.flushByteWithStuffing (w : BitWriterMsb) : BitWriterMsb :=
  ⟨w.buffer ++ [UInt8.ofNat w.currentByte] ++ (if w.currentByte = 0xFF then [0] else []), 0, 8⟩

/-- The loop of `BitWriterMsb::write_bits` (src/bits.rs:222-240). -/
def BitWriterMsb.writeLoop : Nat → BitWriterMsb → Nat → Nat → BitWriterMsb
  | 0, w, _, _ => w
  | fuel + 1, w, val, remaining =>
    if remaining > 0 then
      let space := w.bitPosition
      let toWrite := min remaining space
      let shift := remaining - toWrite
      let mask := (1 <<< toWrite) - 1
      let bits := ((val >>> shift) &&& mask) % 256
      let pos := w.bitPosition - toWrite
      let cur := w.currentByte ||| ((bits <<< pos) % 256)
      let w' : BitWriterMsb := ⟨w.buffer, cur, pos⟩
      let w'' := if pos = 0 then w'.flushByteWithStuffing else w'
      BitWriterMsb.writeLoop fuel w'' val (remaining - toWrite)
    else w

/-- `BitWriterMsb::write_bits` (src/bits.rs:216-241). -/
def BitWriterMsb.writeBits (w : BitWriterMsb) (value numBits : Nat) : BitWriterMsb :=
  BitWriterMsb.writeLoop numBits w (value % 2 ^ 32) numBits

/-- `BitWriterMsb::flush` (src/bits.rs:261-272). -/
def BitWriterMsb.flush (w : BitWriterMsb) : BitWriterMsb :=
  if w.bitPosition < 8 then
    let cur := w.currentByte ||| ((1 <<< w.bitPosition) - 1)
    ⟨w.buffer ++ [UInt8.ofNat cur] ++ (if cur = 0xFF then [0] else []), 0, 8⟩
  else w

/-- `BitWriterMsb::finish` (src/bits.rs:275-278). -/
def BitWriterMsb.finish (w : BitWriterMsb) : List UInt8 := w.flush.buffer

/-- `BitWriterMsb::write_bytes` (src/bits.rs:281-284); callers are byte aligned. -/
def BitWriterMsb.writeBytes (w : BitWriterMsb) (bytes : List UInt8) : BitWriterMsb :=
  { w with buffer := w.buffer ++ bytes }

/-- `BitWriterMsb::write_bit` (src/bits.rs:256-258). -/
def BitWriterMsb.writeBit (w : BitWriterMsb) (bit : Bool) : BitWriterMsb := w.writeBits bit.toNat 1

/-- `BitWriterMsb::len` (src/bits.rs:286-288). -/
def BitWriterMsb.len (w : BitWriterMsb) : Nat := w.buffer.length

/-- `BitWriterMsb::is_empty` (src/bits.rs:290-292). -/
def BitWriterMsb.isEmpty (w : BitWriterMsb) : Bool := w.buffer.isEmpty && w.bitPosition == 8

end Pixo
