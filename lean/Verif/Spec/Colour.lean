import Verif.Spec.Png
/-
Colour difference for palette images: the "redmean" approximation named in the comment at
src/png/mod.rs:1392-1404 (weights 2 + r/256, 4 and 2 + (255 - r)/256 for the mean red r), in whole
numbers, with the square of the alpha difference added; and the rounding of a channel to six bits.
-/
namespace Spec.Colour
open Spec.Png (Rgba)

/-- The mean of the reds, rounded down. -/
def meanRed (a b : Rgba) : Nat := (a.r + b.r) / 2

/-- `(a - b)²`. -/
def sq (a b : Nat) : Nat := (a - b) * (a - b) + (b - a) * (b - a)

/-- The squared redmean difference, rounded down, plus the squared alpha difference. -/
def redmean (a b : Rgba) : Nat :=
  ((512 + meanRed a b) * sq a.r b.r + 1024 * sq a.g b.g + (767 - meanRed a b) * sq a.b b.b) / 256 + sq a.a b.a

/-- `i` is the first of the palette entries nearest to a colour. -/
def IsNearest (c : Rgba) (palette : List Rgba) (i : Nat) : Prop :=
  ∃ p, palette[i]? = some p ∧ (∀ q ∈ palette, redmean c p ≤ redmean c q) ∧
    ∀ j q, j < i → palette[j]? = some q → redmean c p < redmean c q

/-- The six upper bits of a channel, repeated to fill eight. -/
def six (v : Nat) : Nat := v / 4 * 4 + v / 64

/-- An opaque colour with six bits per channel. -/
def sixBits (c : Rgba) : Rgba := ⟨six c.r, six c.g, six c.b, c.a⟩

end Spec.Colour
