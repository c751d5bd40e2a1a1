import Verif.Proof.Huffman
/-
C06: the Huffman code builder.

`tie` stands for the order in which the standard library's binary heap returns equal
elements; the theorems hold for every order.
-/
namespace Pixo.Props
open Spec Spec.Rfc1951 Pixo.Huffman

/-- Number of symbols with non-zero frequency. -/
def usedSymbols (freqs : List Nat) : Nat := (freqs.filter (· ≠ 0)).length

theorem used_eq (freqs : List Nat) : used freqs = usedSymbols freqs := by
  induction freqs with
  | nil => rfl
  | cons f fs ih =>
    rw [used_cons, ih]; unfold usedSymbols
    by_cases h : f = 0
    · subst h; simp
    · rw [if_neg h, List.filter_cons_of_pos (by simpa using h), List.length_cons]; omega

/-- For every frequency vector with at most `2^maxLen` used symbols and a total below `2^32`,
`build_codes` does not panic. Its lengths are at most `maxLen`, are non-zero exactly on the used
symbols, are a complete code if two or more symbols are used and a single one-bit code if one
is used. The codes are those RFC 1951 assigns to these lengths, and none is a prefix of
another. -/
theorem C06_build_codes (tie : Nat → Nat) (freqs : List Nat) (maxLen : Nat)
    (h1 : 1 ≤ maxLen) (h15 : maxLen ≤ 15) (hn : freqs.length ≤ 65536)
    (hu : usedSymbols freqs ≤ 2 ^ maxLen) (ht : freqs.sum < 2 ^ 32) :
    ∃ codes lens, buildCodes tie freqs maxLen = .ok codes ∧
      codes.map Prod.snd = lens ∧ lens.length = freqs.length ∧
      (∀ l ∈ lens, l ≤ maxLen) ∧
      (∀ s, len lens s = 0 ↔ freqs.getD s 0 = 0) ∧
      (2 ≤ usedSymbols freqs → Complete lens) ∧
      (usedSymbols freqs = 1 → SingleCode lens) ∧
      (∀ s, len lens s ≠ 0 → codes[s]? = some (codeValue lens s, len lens s)) ∧
      (∀ s t, len lens s ≠ 0 → len lens t ≠ 0 → codeword lens s <+: codeword lens t → s = t) := by
  rw [← used_eq] at hu
  obtain ⟨lens, codes, e, b⟩ := buildCodes_spec tie freqs maxLen h1 h15 hn hu ht
  refine ⟨codes, lens, e, b.canon.snd, b.use.1, b.le, b.use.2, ?_, ?_, ?_, ?_⟩
  · intro h; rw [← used_eq] at h
    exact ⟨fun l hl => Nat.le_trans (b.le l hl) h15, b.complete h⟩
  · intro h; rw [← used_eq] at h; exact b.single h
  · intro s hs
    have h := b.canon.code s hs
    have hl := Pixo.lt_length_of_len hs
    rw [← b.canon.length] at hl
    rw [List.getD_eq_getElem?_getD, List.getElem?_eq_getElem hl] at h
    rw [List.getElem?_eq_getElem hl]
    exact congrArg some h
  · intro s t hs ht hp
    exact codeword_prefix_free b.ok hs ht hp

/-- Frequencies that need the length limiter: Fibonacci weights with limit 3. -/
example : buildCodes (fun _ => 0) [1, 1, 2, 3, 5, 8, 0, 13] 3 =
    .ok [(2, 3), (3, 3), (4, 3), (5, 3), (6, 3), (7, 3), (0, 0), (0, 2)] := by decide +kernel

example : 1 ≤ 3 ∧ 3 ≤ 15 ∧ [1, 1, 2, 3, 5, 8, 0, 13].length ≤ 65536 ∧
    usedSymbols [1, 1, 2, 3, 5, 8, 0, 13] ≤ 2 ^ 3 ∧ [1, 1, 2, 3, 5, 8, 0, 13].sum < 2 ^ 32 := by decide

/-- The bound on the total is needed: with a total of `2^32` the `u32` addition of the two
weights overflows, a panic in a checked build. -/
theorem C06_total_overflow_violation :
    buildCodes (fun _ => 0) [2 ^ 31, 2 ^ 31] 15 = .error .panic := by decide +kernel

/-- The canonical code generator: for every code that is not over-subscribed it assigns
exactly the RFC 1951 codes, without panicking. -/
theorem C06_canonical (lens : List Nat) (h : CodeOK lens) :
    ∃ codes, generateCanonicalCodes lens = .ok codes ∧ codes.map Prod.snd = lens ∧
      ∀ s, len lens s ≠ 0 → codes[s]? = some (codeValue lens s, len lens s) := by
  obtain ⟨codes, e, c⟩ := generateCanonicalCodes_spec h
  refine ⟨codes, e, c.snd, fun s hs => ?_⟩
  have h := c.code s hs
  have hl := Pixo.lt_length_of_len hs
  rw [← c.length] at hl
  rw [List.getD_eq_getElem?_getD, List.getElem?_eq_getElem hl] at h
  rw [List.getElem?_eq_getElem hl]
  exact congrArg some h

/-- The example of RFC 1951 §3.2.2. -/
example : CodeOK [3, 3, 3, 3, 3, 2, 4, 4] ∧ generateCanonicalCodes [3, 3, 3, 3, 3, 2, 4, 4] =
    .ok [(2, 3), (3, 3), (4, 3), (5, 3), (6, 3), (0, 2), (14, 4), (15, 4)] :=
  ⟨⟨by decide, by decide⟩, by decide +kernel⟩

end Pixo.Props
