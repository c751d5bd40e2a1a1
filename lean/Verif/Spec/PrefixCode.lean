/-
Prefix codes and what they cost. Textbook definitions, independent of the crate.
-/
namespace Spec.Prefix

/-- A symbol that occurs. -/
def Occurs (counts : List Nat) (s : Nat) : Prop := counts.getD s 0 ≠ 0

/-- Bits spent on all occurrences of all symbols, with `len s` bits for each occurrence of `s`. -/
def totalBits (counts : List Nat) (len : Nat → Nat) : Nat :=
  ((List.range counts.length).map (fun s => counts.getD s 0 * len s)).sum

/-- Code words by which occurring symbols can be told apart: none is empty, none is a prefix of
another. -/
def PrefixCode (counts : List Nat) (code : Nat → List Bool) : Prop :=
  (∀ s, Occurs counts s → code s ≠ []) ∧
  ∀ s t, Occurs counts s → Occurs counts t → code s <+: code t → s = t

/-- No prefix code whatever spends fewer bits. -/
def Optimal (counts : List Nat) (len : Nat → Nat) : Prop :=
  ∀ code, PrefixCode counts code → totalBits counts len ≤ totalBits counts (fun s => (code s).length)

/-- No prefix code with words of at most `limit` bits spends fewer bits. -/
def OptimalUpTo (limit : Nat) (counts : List Nat) (len : Nat → Nat) : Prop :=
  ∀ code, PrefixCode counts code → (∀ s, Occurs counts s → (code s).length ≤ limit) →
    totalBits counts len ≤ totalBits counts (fun s => (code s).length)

/-- T.81 Annex C: words of at most 16 bits, none of them made of ones only. -/
def T81Code (counts : List Nat) (code : Nat → List Bool) : Prop :=
  PrefixCode counts code ∧ (∀ s, Occurs counts s → (code s).length ≤ 16) ∧
  ∀ s, Occurs counts s → false ∈ code s

/-- Fibonacci numbers 0, 1, 1, 2, 3, 5, … -/
def fibonacci : Nat → Nat
  | 0 => 0
  | 1 => 1
  | n + 2 => fibonacci (n + 1) + fibonacci n

end Spec.Prefix
