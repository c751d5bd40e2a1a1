/-
The binary formats of Netpbm: PGM (`P5`, one sample per pixel) and PPM (`P6`, three samples), after the
pages pgm(5), ppm(5) and pbm(5) of Netpbm.

"1. A magic number. 2. Whitespace (blanks, TABs, CRs, LFs). 3. A width, formatted as ASCII characters in
decimal. 4. Whitespace. 5. A height, again in ASCII decimal. 6. Whitespace. 7. The maximum value
(Maxval), again in ASCII decimal. Must be less than 65536, and more than zero. 8. A single whitespace
character (usually a newline). 9. A raster of Height rows ... each sample is represented in pure binary
by either 1 or 2 bytes. If the Maxval is less than 256, it is 1 byte."

"Before the whitespace character that delimits the raster, any characters from a '#' through the next
carriage return or newline character, is a comment and is ignored. Note that this is rather
unconventional, because a comment can actually be in the middle of what you might consider a token."
-/
namespace Spec.Pnm

/-- Blank, TAB, LF or CR. -/
def IsSpace (b : UInt8) : Prop := b = 32 ∨ b = 9 ∨ b = 10 ∨ b = 13

/-- The characters `0` to `9`. -/
def IsDigit (b : UInt8) : Prop := 48 ≤ b.toNat ∧ b.toNat ≤ 57

/-- The number written by decimal digits, last digit least significant. -/
def value : List UInt8 → Nat
  | [] => 0
  | d :: ds => (d.toNat - 48) * 10 ^ ds.length + value ds

/-- How comments end: the bytes that may be in a comment, and those that end it. -/
structure Comments where
  inside : UInt8 → Prop
  ends : UInt8 → Prop

/-- As Netpbm says: a comment ends with the next CR or LF. -/
def netpbm : Comments := ⟨fun b => b ≠ 10 ∧ b ≠ 13, fun b => b = 10 ∨ b = 13⟩

/-- Comments that end with LF only. -/
def unix : Comments := ⟨fun b => b ≠ 10, fun b => b = 10⟩

/-- `Strips c l t`: the text `l` without its comments is `t`. -/
inductive Strips (c : Comments) : List UInt8 → List UInt8 → Prop
  | nil : Strips c [] []
  | byte {b : UInt8} {l t : List UInt8} (h : b ≠ 35) (r : Strips c l t) : Strips c (b :: l) (b :: t)
  | comment {inner : List UInt8} {e : UInt8} {l t : List UInt8} (hi : ∀ b ∈ inner, c.inside b) (he : c.ends e)
      (r : Strips c l t) : Strips c (35 :: (inner ++ e :: l)) t

/-- Whitespace: at least one space character. -/
def White (l : List UInt8) : Prop := l ≠ [] ∧ ∀ b ∈ l, IsSpace b

/-- A decimal number. -/
def Decimal (l : List UInt8) (n : Nat) : Prop := l ≠ [] ∧ (∀ b ∈ l, IsDigit b) ∧ value l = n

/-- The two kinds of image. -/
inductive Kind where
  | pgm | ppm
  deriving DecidableEq

/-- `P5` and `P6`. -/
def Kind.magic : Kind → List UInt8
  | .pgm => [80, 53]
  | .ppm => [80, 54]

/-- Samples per pixel. -/
def Kind.samples : Kind → Nat
  | .pgm => 1
  | .ppm => 3

/-- `file` is the magic number, the rest `text` of a header for an image of these dimensions, the raster,
and whatever follows (Netpbm allows more images). -/
structure WellFormed (c : Comments) (kind : Kind) (width height maxval : Nat) (text raster file : List UInt8) :
    Prop where
  parts : ∃ stripped delimiter more w1 d1 w2 d2 w3 d3,
    file = kind.magic ++ text ++ delimiter :: (raster ++ more) ∧ IsSpace delimiter ∧
    Strips c text stripped ∧ stripped = w1 ++ d1 ++ w2 ++ d2 ++ w3 ++ d3 ∧
    White w1 ∧ Decimal d1 width ∧ White w2 ∧ Decimal d2 height ∧ White w3 ∧ Decimal d3 maxval
  width_pos : 0 < width
  height_pos : 0 < height
  maxval_range : 0 < maxval ∧ maxval < 65536
  size : raster.length = width * height * kind.samples * (if maxval < 256 then 1 else 2)

end Spec.Pnm
