import Verif.Spec.Png
/-
Choosing a filter for each scanline: the costs a choice may go by, and the rules. Nothing here refers
to the crate.
-/
namespace Spec.Png

/-- The magnitude of a byte taken as a signed number. -/
def magnitude (b : UInt8) : Nat := min b.toNat (256 - b.toNat)

/-- The sum of the magnitudes of the bytes of a line (the heuristic of RFC 2083 §9.6). -/
def absSum (line : List UInt8) : Nat := (line.map magnitude).sum

/-- The number of different elements of a list. -/
def distinct {α : Type} [DecidableEq α] : List α → Nat
  | [] => 0
  | x :: xs => (if x ∈ xs then 0 else 1) + distinct xs

/-- The number of different pairs of neighbouring bytes. -/
def bigrams (line : List UInt8) : Nat := distinct (line.zip (line.drop 1))

/-- A rule for one line: the line above, the line, the type and the filtered line. -/
abbrev Rule := List UInt8 → List UInt8 → UInt8 → List UInt8 → Prop

/-- The five filter types. -/
def allTypes : List UInt8 := [0, 1, 2, 3, 4]

/-- Of the given types, the first of those that cost least. -/
def Least (cost : List UInt8 → Nat) (types : List UInt8) (bpp : Nat) : Rule := fun prev raw ft filt =>
  Filtered bpp prev raw ft filt ∧ ft ∈ types ∧
  ∀ ft' ∈ types, ∀ filt', Filtered bpp prev raw ft' filt' →
    cost filt ≤ cost filt' ∧ (cost filt = cost filt' → ft ≤ ft')

/-- Of the given types, the first that costs at most `stop`; if there is none, the first of those that
cost least. -/
def FirstGood (stop : Nat → Nat) (cost : List UInt8 → Nat) (types : List UInt8) (bpp : Nat) : Rule :=
  fun prev raw ft filt =>
  Filtered bpp prev raw ft filt ∧ ft ∈ types ∧
  (cost filt ≤ stop raw.length ∧
      (∀ ft' ∈ types, ft' < ft → ∀ filt', Filtered bpp prev raw ft' filt' → stop raw.length < cost filt') ∨
    (∀ ft' ∈ types, ∀ filt', Filtered bpp prev raw ft' filt' → stop raw.length < cost filt') ∧
      Least cost types bpp prev raw ft filt)

/-- The type `k` in any case. -/
def Always (k : UInt8) (bpp : Nat) : Rule := fun prev raw ft filt => Filtered bpp prev raw ft filt ∧ ft = k

/-- A sequence of filtered scanlines of `n` bytes, each preceded by its filter type and chosen by the
rule; `prev` is the line above the first one. -/
inductive ScanlinesBy (rule : Rule) (n : Nat) : List UInt8 → List (List UInt8) → List UInt8 → Prop
  | nil (prev) : ScanlinesBy rule n prev [] []
  | cons {prev raw ft filt rows bytes} : raw.length = n → rule prev raw ft filt →
      ScanlinesBy rule n raw rows bytes → ScanlinesBy rule n prev (raw :: rows) (ft :: filt ++ bytes)

end Spec.Png
