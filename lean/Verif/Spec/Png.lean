import Verif.Spec.Rfc1950
/-
The parts of the PNG specification (RFC 2083 / ISO 15948) that the crate implements: chunk
layout, scanline filters, sample packing and the meaning of the colour types. Nothing here
refers to the crate.
-/
namespace Spec.Png

/-! ### Filters (RFC 2083 §6) -/

/-- Byte `i` of a scanline. -/
def byteAt (row : List UInt8) (i : Nat) : Nat := (row.getD i 0).toNat

/-- The byte `bpp` places to the left, zero before the start of the line. -/
def leftAt (row : List UInt8) (bpp i : Nat) : Nat := if i < bpp then 0 else byteAt row (i - bpp)

/-- RFC 2083 §6.6. -/
def paeth (a b c : Nat) : Nat :=
  let p : Int := a + b - c
  let pa := (p - a).natAbs
  let pb := (p - b).natAbs
  let pc := (p - c).natAbs
  if pa ≤ pb ∧ pa ≤ pc then a else if pb ≤ pc then b else c

/-- The prediction of filter type `ft` from the bytes to the left, above and above left. -/
def predict (ft a b c : Nat) : Nat :=
  match ft with
  | 0 => 0
  | 1 => a
  | 2 => b
  | 3 => (a + b) / 2
  | _ => paeth a b c

/-- `filt` is the line `raw` filtered with type `ft`, the line above being `prev`. -/
def Filtered (bpp : Nat) (prev raw : List UInt8) (ft : UInt8) (filt : List UInt8) : Prop :=
  ft.toNat ≤ 4 ∧ filt.length = raw.length ∧ ∀ i, i < raw.length →
    byteAt raw i = (byteAt filt i
      + predict ft.toNat (leftAt raw bpp i) (byteAt prev i) (leftAt prev bpp i)) % 256

/-- A sequence of filtered scanlines of `n` bytes, each preceded by its filter type; `prev` is
the line above the first one (all zero at the top of the image). -/
inductive Scanlines (bpp n : Nat) : List UInt8 → List (List UInt8) → List UInt8 → Prop
  | nil (prev) : Scanlines bpp n prev [] []
  | cons {prev raw ft filt rows bytes} : raw.length = n → Filtered bpp prev raw ft filt →
      Scanlines bpp n raw rows bytes → Scanlines bpp n prev (raw :: rows) (ft :: filt ++ bytes)

/-! ### Chunks (RFC 2083 §3) -/

/-- The eight signature bytes. -/
def signature : List UInt8 := [137, 80, 78, 71, 13, 10, 26, 10]

/-- Four bytes, most significant first. -/
def be32 (n : Nat) : List UInt8 :=
  [UInt8.ofNat (n / 2 ^ 24), UInt8.ofNat (n / 2 ^ 16), UInt8.ofNat (n / 2 ^ 8), UInt8.ofNat n]

structure Chunk where
  ty : List UInt8
  data : List UInt8
  deriving DecidableEq

/-- Length, type, data, and the CRC over type and data. -/
def Chunk.bytes (c : Chunk) : List UInt8 :=
  be32 c.data.length ++ c.ty ++ c.data ++ be32 (crc32 (c.ty ++ c.data)).toNat

def Chunk.Ok (c : Chunk) : Prop := c.ty.length = 4 ∧ c.data.length < 2 ^ 31

/-- Chunk types. -/
def IHDR : List UInt8 := [73, 72, 68, 82]
def PLTE : List UInt8 := [80, 76, 84, 69]
def IDAT : List UInt8 := [73, 68, 65, 84]
def IEND : List UInt8 := [73, 69, 78, 68]
def tRNS : List UInt8 := [116, 82, 78, 83]
def tEXt : List UInt8 := [116, 69, 88, 116]
def zTXt : List UInt8 := [122, 84, 88, 116]
def iTXt : List UInt8 := [105, 84, 88, 116]
def tIME : List UInt8 := [116, 73, 77, 69]

/-- A chunk stream. -/
def stream (cs : List Chunk) : List UInt8 := cs.flatMap Chunk.bytes

/-! ### Image header and samples (RFC 2083 §2, §4.1) -/

structure Header where
  width : Nat
  height : Nat
  depth : Nat
  colour : Nat
  deriving DecidableEq

/-- IHDR data: deflate, adaptive filtering, no interlacing. -/
def Header.bytes (h : Header) : List UInt8 :=
  be32 h.width ++ be32 h.height ++ [UInt8.ofNat h.depth, UInt8.ofNat h.colour, 0, 0, 0]

/-- The allowed combinations of colour type and bit depth. -/
def Header.Ok (h : Header) : Prop :=
  0 < h.width ∧ h.width < 2 ^ 31 ∧ 0 < h.height ∧ h.height < 2 ^ 31 ∧
  (h.colour = 0 ∧ h.depth ∈ [1, 2, 4, 8, 16] ∨ h.colour = 2 ∧ h.depth ∈ [8, 16] ∨
   h.colour = 3 ∧ h.depth ∈ [1, 2, 4, 8] ∨ h.colour = 4 ∧ h.depth ∈ [8, 16] ∨
   h.colour = 6 ∧ h.depth ∈ [8, 16])

/-- Samples per pixel. -/
def samples (colour : Nat) : Nat :=
  match colour with
  | 2 => 3
  | 4 => 2
  | 6 => 4
  | _ => 1

/-- Bytes per scanline: samples packed without gaps, padded to a byte. -/
def Header.rowBytes (h : Header) : Nat := (h.width * samples h.colour * h.depth + 7) / 8

/-- Bytes per complete pixel, rounded up to one. -/
def Header.bpp (h : Header) : Nat := (samples h.colour * h.depth + 7) / 8

/-- Sample `k` of a scanline: the bits `k * depth .. (k + 1) * depth`, counted from the most
significant bit of the first byte. -/
def sampleAt (depth : Nat) (row : List UInt8) (k : Nat) : Nat :=
  ofBitsMSB (((bytesMSB row).drop (k * depth)).take depth)

/-- A sample as an 8-bit value: linear scaling up from less than 8 bits, the high byte of 16. -/
def to8 (depth s : Nat) : Nat := if depth = 16 then s / 256 else s * 255 / (2 ^ depth - 1)

/-- A colour with alpha, 8 bits per channel. -/
structure Rgba where
  r : Nat
  g : Nat
  b : Nat
  a : Nat
  deriving DecidableEq

/-- Entry `i` of a palette with transparency table. -/
def paletteAt (plte trns : List UInt8) (i : Nat) : Rgba :=
  ⟨byteAt plte (3 * i), byteAt plte (3 * i + 1), byteAt plte (3 * i + 2),
    if i < trns.length then byteAt trns i else 255⟩

/-- The colour of pixel `x` of a scanline (no colour-key transparency). -/
def pixelAt (h : Header) (plte trns : List UInt8) (row : List UInt8) (x : Nat) : Rgba :=
  let s (j : Nat) := to8 h.depth (sampleAt h.depth row (x * samples h.colour + j))
  match h.colour with
  | 0 => ⟨s 0, s 0, s 0, 255⟩
  | 2 => ⟨s 0, s 1, s 2, 255⟩
  | 4 => ⟨s 0, s 0, s 0, s 1⟩
  | 6 => ⟨s 0, s 1, s 2, s 3⟩
  | _ => paletteAt plte trns (sampleAt h.depth row x)

/-- The 16-bit number at byte `i`. -/
def be16 (d : List UInt8) (i : Nat) : Nat := byteAt d i * 256 + byteAt d (i + 1)

/-- Whether pixel `x` has the colour that tRNS declares transparent (RFC 2083 §4.2.9); only gray
and RGB images have one. -/
def keyed (h : Header) (trns row : List UInt8) (x : Nat) : Bool :=
  match h.colour with
  | 0 => trns.length = 2 && sampleAt h.depth row x = be16 trns 0
  | 2 => trns.length = 6 && sampleAt h.depth row (3 * x) = be16 trns 0 &&
      sampleAt h.depth row (3 * x + 1) = be16 trns 2 && sampleAt h.depth row (3 * x + 2) = be16 trns 4
  | _ => false

/-- The colour of pixel `x` with colour-key transparency. -/
def pixelKeyed (h : Header) (plte trns row : List UInt8) (x : Nat) : Rgba :=
  if keyed h trns row x then { pixelAt h plte trns row x with a := 0 } else pixelAt h plte trns row x

/-! ### Decoded images -/

/-- Pixel `k` of a buffer of 8-bit samples with 1 (gray), 2 (gray, alpha), 3 (RGB) or 4 (RGBA)
channels. -/
def pixelOf (channels : Nat) (pixels : List UInt8) (k : Nat) : Rgba :=
  let b (j : Nat) := byteAt pixels (k * channels + j)
  match channels with
  | 1 => ⟨b 0, b 0, b 0, 255⟩
  | 2 => ⟨b 0, b 0, b 0, b 1⟩
  | 3 => ⟨b 0, b 1, b 2, 255⟩
  | _ => ⟨b 0, b 1, b 2, b 3⟩

/-- The data of the chunks of type `ty`, in order. -/
def dataOf (ty : List UInt8) (cs : List Chunk) : List (List UInt8) :=
  (cs.filter (fun c => c.ty = ty)).map Chunk.data

/-- The demands on palettes: whole entries (RFC 2083 §4.1.2), one where the colour type needs it,
no more transparency entries than colours (§4.2.9). -/
structure PaletteOk (h : Header) (plte trns : Option (List UInt8)) : Prop where
  whole : ∀ p, plte = some p → p.length % 3 = 0
  needed : h.colour = 3 → plte ≠ none
  trns : h.colour = 3 → (trns.getD []).length * 3 ≤ (plte.getD []).length

/-- `bytes` is a non-interlaced PNG file holding the scanlines `rows`: the signature, IHDR, any
chunks, IEND; at most one PLTE and one tRNS; the IDAT data together are a zlib stream (with check
value `sum`) of the filtered scanlines. -/
def File (sum : List UInt8 → Nat) (h : Header) (plte trns : Option (List UInt8))
    (rows : List (List UInt8)) (bytes : List UInt8) : Prop :=
  h.Ok ∧ PaletteOk h plte trns ∧ rows.length = h.height ∧
  ∃ (cs : List Chunk) (scan : List UInt8),
    (∀ c ∈ cs, c.Ok ∧ c.ty ≠ IHDR ∧ c.ty ≠ IEND) ∧
    bytes = signature ++ stream (⟨IHDR, h.bytes⟩ :: cs ++ [⟨IEND, []⟩]) ∧
    dataOf PLTE cs = plte.toList ∧ dataOf tRNS cs = trns.toList ∧
    Rfc1950.ZlibWith sum (dataOf IDAT cs).flatten scan ∧
    Scanlines h.bpp h.rowBytes (List.replicate h.rowBytes 0) rows scan

/-- The palette chunks of a file. -/
def paletteChunks (plte trns : Option (List UInt8)) : List Chunk :=
  plte.toList.map (Chunk.mk PLTE) ++ trns.toList.map (Chunk.mk tRNS)

/-- `bytes` is a file as `File` describes it that holds the critical chunks and tRNS only, in the
order of RFC 2083 §4.3: IHDR, PLTE (only for indexed images, with 1 to `2 ^ depth` entries), tRNS
(only after PLTE), one or more non-empty IDAT chunks, IEND. -/
def Tight (sum : List UInt8 → Nat) (h : Header) (plte trns : Option (List UInt8))
    (rows : List (List UInt8)) (bytes : List UInt8) : Prop :=
  h.Ok ∧ PaletteOk h plte trns ∧
  (∀ p, plte = some p → h.colour = 3 ∧ 3 ≤ p.length ∧ p.length ≤ 3 * 2 ^ h.depth) ∧
  (plte = none → trns = none) ∧ rows.length = h.height ∧
  ∃ (idat : List (List UInt8)) (scan : List UInt8),
    idat ≠ [] ∧ (∀ d ∈ idat, d ≠ [] ∧ d.length < 2 ^ 31) ∧
    bytes = signature ++ stream
      (⟨IHDR, h.bytes⟩ :: (paletteChunks plte trns ++ idat.map (Chunk.mk IDAT)) ++ [⟨IEND, []⟩]) ∧
    Rfc1950.ZlibWith sum idat.flatten scan ∧
    Scanlines h.bpp h.rowBytes (List.replicate h.rowBytes 0) rows scan

end Spec.Png
