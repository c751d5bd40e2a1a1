import Verif.Model.Basic
/-
Model of src/decode/bit_reader.rs: LSB-first `BitReader` and MSB-first `MsbBitReader`.
-/
namespace Pixo

/-- `BitReader` (src/decode/bit_reader.rs:10-15). `bitBuf` is a `u64`. -/
structure BitReader where
  data : List UInt8
  pos : Nat := 0
  bitBuf : Nat := 0
  bitsInBuf : Nat := 0
  deriving DecidableEq, Repr

/-- The body of the refill loops (src/decode/bit_reader.rs:36-38 and 58-60):
`bit_buf |= (data[pos] as u64) << bits_in_buf; pos += 1; bits_in_buf += 8`. -/
def BitReader.load (r : BitReader) (byte : UInt8) : BitReader :=
  { r with
    bitBuf := r.bitBuf ||| ((byte.toNat <<< r.bitsInBuf) % 2 ^ 64)
    pos := r.pos + 1
    bitsInBuf := r.bitsInBuf + 8 }

/-- `BitReader::ensure` (src/decode/bit_reader.rs:30-41). Each round adds eight bits, so
`n` rounds are enough for `n` bits; `hang` would mean the loop has not ended by then. -/
def BitReader.ensureLoop : Nat → BitReader → Nat → R BitReader
  | 0, r, n => if r.bitsInBuf < n then .error .hang else .ok r
  | fuel + 1, r, n =>
    if r.bitsInBuf < n then
      match r.data[r.pos]? with
      | none => .error .invalid
      | some b => BitReader.ensureLoop fuel (r.load b) n
    else .ok r

def BitReader.ensure (r : BitReader) (n : Nat) : R BitReader := BitReader.ensureLoop n r n

/-- `BitReader::peek_bits` (src/decode/bit_reader.rs:44-49). -/
def BitReader.peekBits (r : BitReader) (n : Nat) : R (Nat × BitReader) := do
  let r ← r.ensure n
  return (r.bitBuf &&& ((1 <<< n) - 1), r)

/-- Refill loop of `try_peek_bits` (src/decode/bit_reader.rs:57-61). -/
def BitReader.fillLoop : Nat → BitReader → Nat → BitReader
  | 0, r, _ => r
  | fuel + 1, r, n =>
    if r.bitsInBuf < n then
      match r.data[r.pos]? with
      | none => r
      | some b => BitReader.fillLoop fuel (r.load b) n
    else r

/-- `BitReader::try_peek_bits` (src/decode/bit_reader.rs:54-64): bits, their count, new state. -/
def BitReader.tryPeekBits (r : BitReader) (n : Nat) : Nat × Nat × BitReader :=
  let r := BitReader.fillLoop n r n
  let actual := min r.bitsInBuf n
  (r.bitBuf &&& ((1 <<< actual) - 1), actual, r)

/-- `BitReader::consume` (src/decode/bit_reader.rs:67-72); underflow of the counter is a
panic in a checked build. -/
def BitReader.consume (r : BitReader) (n : Nat) : R BitReader :=
  if n ≤ r.bitsInBuf then
    .ok { r with bitBuf := r.bitBuf >>> n, bitsInBuf := r.bitsInBuf - n }
  else .error .panic

/-- `BitReader::read_bits` (src/decode/bit_reader.rs:75-80). -/
def BitReader.readBits (r : BitReader) (n : Nat) : R (Nat × BitReader) := do
  let (v, r) ← r.peekBits n
  let r ← r.consume n
  return (v, r)

/-- `BitReader::align_to_byte` (src/decode/bit_reader.rs:83-89). -/
def BitReader.alignToByte (r : BitReader) : BitReader :=
  let discard := r.bitsInBuf % 8
  if discard > 0 then
    { r with bitBuf := r.bitBuf >>> discard, bitsInBuf := r.bitsInBuf - discard }
  else r

/-- The loop draining buffered bytes in `read_bytes` (src/decode/bit_reader.rs:100-106). -/
def BitReader.drainBytes : Nat → BitReader → List UInt8 → List UInt8 × BitReader
  | 0, r, acc => (acc, r)
  | k + 1, r, acc =>
    BitReader.drainBytes k
      { r with bitBuf := r.bitBuf >>> 8, bitsInBuf := r.bitsInBuf - 8 }
      (acc ++ [UInt8.ofNat (r.bitBuf &&& 0xFF)])

/-- `BitReader::read_bytes` (src/decode/bit_reader.rs:98-117): fill a buffer of `n` bytes. -/
def BitReader.readBytes (r : BitReader) (n : Nat) : R (List UInt8 × BitReader) :=
  let bufferedBytes := r.bitsInBuf / 8
  let fromBuf := min bufferedBytes n
  let (front, r) := BitReader.drainBytes fromBuf r []
  let remaining := n - fromBuf
  if r.pos + remaining > r.data.length then .error .invalid
  else .ok (front ++ (r.data.drop r.pos).take remaining, { r with pos := r.pos + remaining })

/-- `BitReader::read_byte` (src/decode/bit_reader.rs:93-95). -/
def BitReader.readByte (r : BitReader) : R (UInt8 × BitReader) := do
  let (v, r) ← r.readBits 8
  return (UInt8.ofNat v, r)

/-- `BitReader::is_empty` (src/decode/bit_reader.rs:120-122). -/
def BitReader.isEmpty (r : BitReader) : Bool := decide (r.pos ≥ r.data.length) && r.bitsInBuf == 0

/-- `BitReader::position` (src/decode/bit_reader.rs:126-128). -/
def BitReader.position (r : BitReader) : Nat := r.pos

/-- `BitReader::remaining_bytes` (src/decode/bit_reader.rs:132-134); the subtraction may underflow. -/
def BitReader.remainingBytes (r : BitReader) : R Nat :=
  if r.pos ≤ r.data.length then .ok (r.data.length - r.pos + r.bitsInBuf / 8) else .error .panic

/-- `MsbBitReader` (src/decode/bit_reader.rs:141-146). `bitBuf` is a `u32`. -/
structure MsbBitReader where
  data : List UInt8
  pos : Nat := 0
  bitBuf : Nat := 0
  bitsInBuf : Nat := 0
  deriving DecidableEq, Repr

/-- `MsbBitReader::next_byte` (src/decode/bit_reader.rs:160-194). The recursion after a
restart marker moves the position by two, so `data.length` rounds are enough. -/
def MsbBitReader.nextByte : Nat → MsbBitReader → R (Nat × MsbBitReader)
  | 0, _ => .error .hang
  | fuel + 1, r =>
    match r.data[r.pos]? with
    | none => .error .invalid
    | some byte =>
      if byte = 0xFF then
        match r.data[r.pos + 1]? with
        | none => .error .invalid
        | some next =>
          if next = 0 then .ok (byte.toNat, { r with pos := r.pos + 2 })
          else if 0xD0 ≤ next ∧ next ≤ 0xD7 then
            MsbBitReader.nextByte fuel { r with pos := r.pos + 2, bitBuf := 0, bitsInBuf := 0 }
          else .error .invalid
      else .ok (byte.toNat, { r with pos := r.pos + 1 })

/-- `MsbBitReader::ensure` (src/decode/bit_reader.rs:198-206). Every round moves the
position, so `data.length + 1` rounds are enough. -/
def MsbBitReader.ensureLoop : Nat → MsbBitReader → Nat → R MsbBitReader
  | 0, _, _ => .error .hang
  | fuel + 1, r, n =>
    if r.bitsInBuf < n then do
      let (byte, r) ← MsbBitReader.nextByte (r.data.length + 1) r
      MsbBitReader.ensureLoop fuel
        { r with bitBuf := ((r.bitBuf <<< 8) % 2 ^ 32) ||| byte, bitsInBuf := r.bitsInBuf + 8 } n
    else .ok r

def MsbBitReader.ensure (r : MsbBitReader) (n : Nat) : R MsbBitReader :=
  MsbBitReader.ensureLoop (r.data.length + 2) r n

/-- `MsbBitReader::peek_bits` (src/decode/bit_reader.rs:210-215); the debug assertion
`n <= 25` is a panic in a checked build. -/
def MsbBitReader.peekBits (r : MsbBitReader) (n : Nat) : R (Nat × MsbBitReader) :=
  if n > 25 then .error .panic
  else do
    let r ← r.ensure n
    return ((r.bitBuf >>> (r.bitsInBuf - n)) &&& ((1 <<< n) - 1), r)

/-- `MsbBitReader::consume` (src/decode/bit_reader.rs:219-227). -/
def MsbBitReader.consume (r : MsbBitReader) (n : Nat) : R MsbBitReader :=
  if n ≤ r.bitsInBuf then
    let left := r.bitsInBuf - n
    .ok { r with bitsInBuf := left
                 bitBuf := if left < 32 then r.bitBuf &&& ((1 <<< left) - 1) else r.bitBuf }
  else .error .panic

/-- `MsbBitReader::read_bits` (src/decode/bit_reader.rs:231-235). -/
def MsbBitReader.readBits (r : MsbBitReader) (n : Nat) : R (Nat × MsbBitReader) := do
  let (v, r) ← r.peekBits n
  let r ← r.consume n
  return (v, r)

end Pixo
