import Verif.Spec.Png
/-
Which PNG formats (colour type and bit depth) can hold an image, and what they cost. Nothing here
refers to the crate.
-/
namespace Spec.Png

/-- Bits per pixel. -/
def Header.bits (h : Header) : Nat := samples h.colour * h.depth

/-- Scanlines of the right number and length, with palette and transparency as the format demands. -/
structure Lines (h : Header) (plte trns : Option (List UInt8)) (rows : List (List UInt8)) : Prop where
  header : h.Ok
  palette : PaletteOk h plte trns
  count : rows.length = h.height
  length : ∀ row ∈ rows, row.length = h.rowBytes

/-- The image `p` can be stored under the header `h`, without colour-key transparency. -/
def Storable (h : Header) (p : Nat → Rgba) : Prop :=
  ∃ plte trns rows, Lines h plte trns rows ∧ ∀ y x, y < h.height → x < h.width →
    pixelAt h (plte.getD []) (trns.getD []) (rows.getD y []) x = p (y * h.width + x)

/-- The same with colour-key transparency. -/
def StorableKeyed (h : Header) (p : Nat → Rgba) : Prop :=
  ∃ plte trns rows, Lines h plte trns rows ∧ ∀ y x, y < h.height → x < h.width →
    pixelKeyed h (plte.getD []) (trns.getD []) (rows.getD y []) x = p (y * h.width + x)

/-- The first `n` pixels have at most `m` colours. -/
def Within (n m : Nat) (p : Nat → Rgba) : Prop := ∃ l : List Rgba, l.length ≤ m ∧ ∀ k, k < n → p k ∈ l

/-- The first `n` pixels are gray. -/
def AllGray (n : Nat) (p : Nat → Rgba) : Prop := ∀ k, k < n → (p k).r = (p k).g ∧ (p k).g = (p k).b

/-- The first `n` pixels are opaque. -/
def AllOpaque (n : Nat) (p : Nat → Rgba) : Prop := ∀ k, k < n → (p k).a = 255

/-- `d` is the least of the depths 1, 2, 4 and 8 that has the property. -/
structure LeastDepth (d : Nat) (P : Nat → Prop) : Prop where
  mem : d ∈ [1, 2, 4, 8]
  holds : P d
  least : ∀ d' ∈ [1, 2, 4, 8], P d' → d ≤ d'

end Spec.Png
