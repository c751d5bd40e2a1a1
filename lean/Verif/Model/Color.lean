import Verif.Model.Basic
/-
Model of src/color.rs.
-/
namespace Pixo

/-- `ColorType` (src/color.rs:7-18). -/
inductive ColorType where
  | gray | grayAlpha | rgb | rgba
  deriving DecidableEq, Repr

namespace ColorType

/-- `bytes_per_pixel` (src/color.rs:22-30). -/
def bytesPerPixel : ColorType → Nat
  | gray => 1
  | grayAlpha => 2
  | rgb => 3
  | rgba => 4

/-- `png_color_type` (src/color.rs:33-41). -/
def pngColorType : ColorType → UInt8
  | gray => 0
  | grayAlpha => 4
  | rgb => 2
  | rgba => 6

/-- `TryFrom<u8>` (src/color.rs:86-98); `none` is `Err(other)`. -/
def ofU8 (v : UInt8) : Option ColorType :=
  match v.toNat with
  | 0 => some gray
  | 1 => some grayAlpha
  | 2 => some rgb
  | 3 => some rgba
  | _ => none

/-- `From<ColorType> for u8` (src/color.rs:100-104), the discriminant. -/
def toU8 : ColorType → UInt8
  | gray => 0
  | grayAlpha => 1
  | rgb => 2
  | rgba => 3

end ColorType

/-- `x.clamp(0, 255) as u8`. -/
def clampU8 (x : Int) : UInt8 := if x < 0 then 0 else if x > 255 then 255 else UInt8.ofNat x.toNat

/-- `rgb_to_ycbcr` (src/color.rs:59-78). The i32 intermediates lie between -32640 and 65408, so
they do not overflow; `>>` on a negative i32 rounds down, as does `Int.fdiv` (`/` by a positive
number on `Int`). -/
def rgbToYcbcr (r g b : UInt8) : UInt8 × UInt8 × UInt8 :=
  let r : Int := r.toNat
  let g : Int := g.toNat
  let b : Int := b.toNat
  let y := (77 * r + 150 * g + 29 * b + 128) / 256
  let cb := (-43 * r - 85 * g + 128 * b + 128) / 256 + 128
  let cr := (128 * r - 107 * g - 21 * b + 128) / 256 + 128
  (clampU8 y, clampU8 cb, clampU8 cr)

end Pixo
