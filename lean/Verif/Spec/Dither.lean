import Verif.Spec.Png
/-
Floyd–Steinberg error diffusion (R. W. Floyd, L. Steinberg, "An Adaptive Algorithm for Spatial
Grey Scale", 1976), pixels in rows from the top, left to right: the error of a pixel is passed on
to its right (7/16), lower left (3/16), lower (5/16) and lower right (1/16) neighbours.
Coordinates are integers, so that neighbours outside the image need no special cases.
-/
namespace Spec.Dither

/-- Sixteen times what the pixel at column `x` of row `y` receives. -/
def received (e : Int → Int → Int) (x y : Int) : Int :=
  7 * e (x - 1) y + 3 * e (x + 1) (y - 1) + 5 * e x (y - 1) + e (x - 1) (y - 1)

/-- Whether a place is in an image of `w` columns and `h` rows. -/
def Inside (w h : Nat) (x y : Int) : Prop := 0 ≤ x ∧ x < w ∧ 0 ≤ y ∧ y < h

instance (w h : Nat) (x y : Int) : Decidable (Inside w h x y) := inferInstanceAs (Decidable (_ ∧ _))

/-- One channel of a diffusion on integers: the value to be shown at a place is the given one and
what it receives, rounded down and limited to 0..255; the error is what is wanted less what is
shown; nothing comes from outside. -/
structure Whole (w h : Nat) (given shown wanted error : Int → Int → Int) : Prop where
  nothing : ∀ x y, ¬ Inside w h x y → error x y = 0
  value : ∀ x y, Inside w h x y → wanted x y = max 0 (min 255 ((16 * given x y + received error x y) / 16))
  rest : ∀ x y, Inside w h x y → error x y = wanted x y - shown x y

/-- `f 0 + … + f (n - 1)`. -/
def sumTo : Nat → (Int → Int) → Int
  | 0, _ => 0
  | n + 1, f => sumTo n f + f n

/-- The sum over an image. -/
def total (w h : Nat) (f : Int → Int → Int) : Int := sumTo h fun y => sumTo w fun x => f x y

/-- Sixteen times the part of the error of a pixel that is passed to places outside the image. -/
def leaving (w h : Nat) (e : Int → Int → Int) (x y : Int) : Int :=
  ((if Inside w h (x + 1) y then 0 else 7) + (if Inside w h (x - 1) (y + 1) then 0 else 3) +
    (if Inside w h x (y + 1) then 0 else 5) + (if Inside w h (x + 1) (y + 1) then 0 else 1)) * e x y

end Spec.Dither
