import Verif.Proof.JpegHuffOptimal
import Verif.Props.Jpeg
/-
C67: the DEFLATE codes spend the fewest bits. C68: the optimized JPEG tables do not.

`tie` stands for the order in which the standard library's binary heap returns equal elements; the
theorems hold for every order.
-/
namespace Pixo.Props
open Spec.Prefix
open Spec.T81 (toZigzag)

theorem fib_eq (n : Nat) : Huffman.fib n = fibonacci n := by
  induction n using fibonacci.induct with
  | case1 => rfl
  | case2 => rfl
  | case3 n ih1 ih2 => rw [Huffman.fib, fibonacci, ih1, ih2]

/-- Number of symbols that occur. -/
def occurring (counts : List Nat) : Nat := (counts.filter (· ≠ 0)).length

theorem occurring_eq (counts : List Nat) : Huffman.used counts = occurring counts := by
  induction counts with
  | nil => rfl
  | cons f fs ih =>
    rw [Huffman.used_cons, ih]; unfold occurring
    by_cases h : f = 0
    · subst h; simp
    · rw [if_neg h, List.filter_cons_of_pos (by simpa using h), List.length_cons]; omega

/-- The length a list of codes `(code, length)` has for a symbol. -/
def lengthIn (codes : List (Nat × Nat)) (s : Nat) : Nat := (codes.getD s (0, 0)).2

/-! ## C67 -/

/-- **C67**, full statement: whenever `build_codes` has codes of at most `maxLen` bits to offer, no
prefix code with words of at most `maxLen` bits spends fewer bits. It is false, see
`C67_limited_violated`. -/
def C67_full : Prop :=
  ∀ (tie : Nat → Nat) (freqs : List Nat) (maxLen : Nat) (codes : List (Nat × Nat)), 1 ≤ maxLen →
    maxLen ≤ 15 → freqs.length ≤ 65536 → occurring freqs ≤ 2 ^ maxLen → freqs.sum < 2 ^ 32 →
    Huffman.buildCodes tie freqs maxLen = .ok codes → OptimalUpTo maxLen freqs (lengthIn codes)

/-- **C67**, where it holds: if the total count is below a Fibonacci number (2584 for literals and
distances, 55 for the code length code) or few symbols occur (16, and 8), no prefix code whatever
spends fewer bits than `build_codes`. Beyond that the limiter may act. -/
theorem C67_optimal_partial (tie : Nat → Nat) (freqs : List Nat) (maxLen : Nat) (codes : List (Nat × Nat))
    (h1 : 1 ≤ maxLen) (h15 : maxLen ≤ 15) (hn : freqs.length ≤ 65536)
    (hu : occurring freqs ≤ 2 ^ maxLen) (ht : freqs.sum < 2 ^ 32)
    (hd : freqs.sum < fibonacci (maxLen + 3) ∨ occurring freqs ≤ maxLen + 1)
    (h : Huffman.buildCodes tie freqs maxLen = .ok codes) : Optimal freqs (lengthIn codes) := by
  rw [← occurring_eq] at hu hd
  rw [← fib_eq] at hd
  exact Huffman.buildCodes_optimal tie freqs maxLen h1 h15 hn hu ht hd codes h

example : fibonacci (15 + 3) = 2584 ∧ fibonacci (7 + 3) = 55 := by decide +kernel

/-- Counts that meet both conditions, and the codes for them. -/
example : Huffman.buildCodes (fun _ => 0) [5, 0, 9, 12, 13, 16, 45] 15 =
      .ok [(14, 4), (0, 0), (15, 4), (4, 3), (5, 3), (6, 3), (0, 1)] ∧
    occurring [5, 0, 9, 12, 13, 16, 45] ≤ 15 + 1 ∧ [5, 0, 9, 12, 13, 16, 45].sum < fibonacci (15 + 3) ∧
    totalBits [5, 0, 9, 12, 13, 16, 45]
      (lengthIn [(14, 4), (0, 0), (15, 4), (4, 3), (5, 3), (6, 3), (0, 1)]) = 224 := by decide +kernel

/-- The order of equal elements in the heap has no influence on the number of bits. -/
theorem C67_tie_partial (tie tie' : Nat → Nat) (freqs : List Nat) (maxLen : Nat) (codes codes' : List (Nat × Nat))
    (h1 : 1 ≤ maxLen) (h15 : maxLen ≤ 15) (hn : freqs.length ≤ 65536)
    (hu : occurring freqs ≤ 2 ^ maxLen) (ht : freqs.sum < 2 ^ 32)
    (hd : freqs.sum < fibonacci (maxLen + 3) ∨ occurring freqs ≤ maxLen + 1)
    (h : Huffman.buildCodes tie freqs maxLen = .ok codes)
    (h' : Huffman.buildCodes tie' freqs maxLen = .ok codes') :
    totalBits freqs (lengthIn codes) = totalBits freqs (lengthIn codes') := by
  have key : ∀ (t t' : Nat → Nat) (c c' : List (Nat × Nat)), Huffman.buildCodes t freqs maxLen = .ok c →
      Huffman.buildCodes t' freqs maxLen = .ok c' →
      totalBits freqs (lengthIn c) ≤ totalBits freqs (lengthIn c') := by
    intro t t' c c' e e'
    have ho := C67_optimal_partial t freqs maxLen c h1 h15 hn hu ht hd e
    rw [← occurring_eq] at hu
    obtain ⟨lens, codes'', e3, b⟩ := Huffman.buildCodes_spec t' freqs maxLen h1 h15 hn hu ht
    rw [e'] at e3
    injection e3 with e3
    subst e3
    have hl : ∀ s, Spec.Rfc1951.len lens s = lengthIn c' s := by
      intro s
      unfold lengthIn
      rw [Huffman.map_snd_getD, b.canon.snd]; rfl
    have hlen : (fun s => (Spec.Rfc1951.codeword lens s).length) = lengthIn c' := by
      funext s
      unfold Spec.Rfc1951.codeword
      rw [Spec.bitsMSB_length, hl]
    have huse : ∀ s, Occurs freqs s → Spec.Rfc1951.len lens s ≠ 0 := by
      intro s hs h0
      exact hs ((b.use.2 s).1 h0)
    have := ho (Spec.Rfc1951.codeword lens) ⟨?_, ?_⟩
    · rw [hlen] at this; exact this
    · intro s hs he
      have : (Spec.Rfc1951.codeword lens s).length = 0 := by rw [he]; rfl
      unfold Spec.Rfc1951.codeword at this
      rw [Spec.bitsMSB_length] at this
      exact huse s hs this
    · intro s u hs hu' hp
      exact codeword_prefix_free b.ok (huse s hs) (huse u hu') hp
  exact Nat.le_antisymm (key _ _ _ _ h h') (key _ _ _ _ h' h)

/-- Two orders that give different lengths to the same symbols. -/
example : Huffman.buildCodes (fun _ => 0) [1, 1, 2, 2, 2, 3] 15 =
      .ok [(4, 3), (5, 3), (0, 2), (6, 3), (7, 3), (1, 2)] ∧
    Huffman.buildCodes (fun _ => 1) [1, 1, 2, 2, 2, 3] 15 =
      .ok [(14, 4), (15, 4), (6, 3), (0, 2), (1, 2), (2, 2)] ∧
    occurring [1, 1, 2, 2, 2, 3] ≤ 15 + 1 := by decide +kernel

/-- Fibonacci counts: the least total for which a word of a Huffman code can need 16 bits. -/
def steepCounts : List Nat := [1, 1, 1, 2, 3, 5, 8, 13, 21, 34, 55, 89, 144, 233, 377, 610, 987]

/-- What `build_codes` makes of them with limit 15. -/
def steepCodes : List (Nat × Nat) :=
  [(22, 5), (23, 5), (24, 5), (25, 5), (26, 5), (27, 5), (58, 6), (59, 6), (60, 6), (61, 6), (62, 6),
   (63, 6), (28, 5), (10, 4), (4, 3), (0, 2), (1, 2)]

/-- A code of words of at most 15 bits: symbol 16 is `0`, 15 is `10`, 14 is `110`, …, and the four
rarest symbols share a word of thirteen ones, followed by two bits each. -/
def steepWord (s : Nat) : List Bool :=
  if s < 4 then List.replicate 13 true ++ [decide (2 ≤ s), decide (s % 2 = 1)]
  else List.replicate (16 - s) true ++ [false]

theorem steep_lt {s : Nat} (h : Occurs steepCounts s) : s < 17 := by
  apply Nat.lt_of_not_le
  intro hs
  apply h
  rw [List.getD_eq_getElem?_getD, List.getElem?_eq_none (by simpa [steepCounts] using hs)]
  rfl

theorem steep_prefix : PrefixCode steepCounts steepWord := by
  refine ⟨fun s hs => ?_, fun s t hs ht => ?_⟩
  · have : ∀ s < 17, steepWord s ≠ [] := by decide +kernel
    exact this s (steep_lt hs)
  · have : ∀ s < 17, ∀ t < 17, steepWord s <+: steepWord t → s = t := by decide +kernel
    exact this s (steep_lt hs) t (steep_lt ht)

/-- **C67 fails** where lengths have to be limited: for the Fibonacci counts, with the limit of 15
bits, `build_codes` spends 7362 bits, while 6762 suffice. (The limiter makes the shortest code longer, which is
that of the most frequent symbol, and then hands out the room won to the rarest symbols in turn.) Their
total is 2584 and 17 symbols occur, so neither bound of `C67_optimal_partial` can be raised. -/
theorem C67_limited_violated :
    Huffman.buildCodes (fun _ => 0) steepCounts 15 = .ok steepCodes ∧
    steepCounts.sum = fibonacci (15 + 3) ∧ occurring steepCounts = 15 + 2 ∧
    totalBits steepCounts (lengthIn steepCodes) = 7362 ∧
    PrefixCode steepCounts steepWord ∧ (∀ s, Occurs steepCounts s → (steepWord s).length ≤ 15) ∧
    totalBits steepCounts (fun s => (steepWord s).length) = 6762 ∧ ¬ C67_full := by
  have e : Huffman.buildCodes (fun _ => 0) steepCounts 15 = .ok steepCodes := by decide +kernel
  have a : totalBits steepCounts (lengthIn steepCodes) = 7362 := by decide +kernel
  have b : totalBits steepCounts (fun s => (steepWord s).length) = 6762 := by decide +kernel
  have c : ∀ s, Occurs steepCounts s → (steepWord s).length ≤ 15 := by
    intro s hs
    have : ∀ s < 17, (steepWord s).length ≤ 15 := by decide +kernel
    exact this s (steep_lt hs)
  refine ⟨e, by decide +kernel, by decide +kernel, a, steep_prefix, c, b, fun h => ?_⟩
  have := h (fun _ => 0) steepCounts 15 steepCodes (by omega) (by omega) (by decide) (by decide +kernel)
    (by decide) e steepWord steep_prefix c
  omega

/-- The same counts also show that a more frequent symbol may get the longer word: the one counted
once gets 5 bits, the one counted 55 times 6. -/
theorem C67_monotone_violated :
    steepCounts.getD 0 0 < steepCounts.getD 10 0 ∧ lengthIn steepCodes 0 < lengthIn steepCodes 10 := by
  decide +kernel

/-- So it is with the limit of 7 bits of the code length code, from a total of 55 on. -/
theorem C67_limited7_violated :
    ∃ codes, Huffman.buildCodes (fun _ => 0) [1, 1, 1, 2, 3, 5, 8, 13, 21] 7 = .ok codes ∧
      [1, 1, 1, 2, 3, 5, 8, 13, 21].sum = fibonacci (7 + 3) ∧
      ¬ OptimalUpTo 7 [1, 1, 1, 2, 3, 5, 8, 13, 21] (lengthIn codes) := by
  refine ⟨[(10, 4), (11, 4), (12, 4), (13, 4), (14, 4), (15, 4), (4, 3), (0, 2), (1, 2)], by decide +kernel,
    by decide +kernel, fun h => ?_⟩
  let word : Nat → List Bool := fun s =>
    if s < 4 then List.replicate 5 true ++ [decide (2 ≤ s), decide (s % 2 = 1)]
    else List.replicate (8 - s) true ++ [false]
  have hlt : ∀ s, Occurs [1, 1, 1, 2, 3, 5, 8, 13, 21] s → s < 9 := by
    intro s hs
    apply Nat.lt_of_not_le
    intro h9
    apply hs
    rw [List.getD_eq_getElem?_getD, List.getElem?_eq_none (by simpa using h9)]
    rfl
  have p1 : ∀ s < 9, word s ≠ [] ∧ (word s).length ≤ 7 := by decide +kernel
  have p2 : ∀ s < 9, ∀ t < 9, word s <+: word t → s = t := by decide +kernel
  have := h word ⟨fun s hs => (p1 s (hlt s hs)).1, fun s t hs ht => p2 s (hlt s hs) t (hlt t ht)⟩
    (fun s hs => (p1 s (hlt s hs)).2)
  revert this
  decide +kernel

/-! ## C68 -/

/-- A Huffman table as a DHT segment describes it. -/
def tableOf (bits vals : List Nat) : Spec.T81.Table := ⟨bits, vals⟩

/-- **C68**, full statement: the words of an optimized table spend no more bits on the symbols they
were optimized for than any other words T.81 allows. It is false, see `C68_always_beaten_violated`. -/
def C68_full : Prop :=
  ∀ (counts bits vals : List Nat) (len : Nat → Nat), counts.length ≤ 256 → occurring counts ≤ 255 →
    counts.sum < 2 ^ 64 → Jpeg.buildBitsVals counts = .ok (some (bits, vals)) →
    (∀ s w, (tableOf bits vals).HasCode s w → w.length = len s) →
    ∀ code, T81Code counts code → totalBits counts len ≤ totalBits counts (fun s => (code s).length)

/-- What is wrong with `OneMore` tables. -/
structure Wasteful (counts bits vals : List Nat) : Prop where
  /-- There are lengths of which no prefix code spends fewer bits, and every word is one bit longer. -/
  longer : ∃ best, Optimal counts best ∧ ∀ s w, (tableOf bits vals).HasCode s w → w.length = best s + 1
  /-- Words that T.81 allows spend fewer bits. -/
  beaten : ∃ code, T81Code counts code ∧ ∀ len, (∀ s w, (tableOf bits vals).HasCode s w → w.length = len s) →
    totalBits counts (fun s => (code s).length) < totalBits counts len

theorem totalBits_congr {counts : List Nat} {f g : Nat → Nat} (h : ∀ s, Occurs counts s → f s = g s) :
    totalBits counts f = totalBits counts g := by
  unfold totalBits
  congr 1
  apply List.map_congr_left
  intro s _
  by_cases hs : counts.getD s 0 = 0
  · rw [hs, Nat.zero_mul, Nat.zero_mul]
  · rw [h s hs]

/-- **C68 fails for all statistics** with two or more symbols: every word of the optimized table is
exactly one bit longer than the word of a Huffman code, so that the bits wasted are as many as the
symbols coded, and words that T.81 allows would always spend fewer bits. (`build_code_lengths` adds one to the
depth of a leaf, though the root is at depth zero and has no leaf.) -/
theorem C68_always_beaten_violated (counts bits vals : List Nat) (hlen : counts.length ≤ 256)
    (hu2 : 2 ≤ occurring counts) (hu : occurring counts ≤ 255) (hsum : counts.sum < 2 ^ 64)
    (h : Jpeg.buildBitsVals counts = .ok (some (bits, vals))) : Wasteful counts bits vals := by
  rw [← occurring_eq] at hu hu2
  obtain ⟨lens, e, hw, hex⟩ := Jpeg.buildBitsVals_lengths counts hlen hu hsum (bits, vals) h
  obtain ⟨ge, least, code, hcode, hlt⟩ := Jpeg.buildCodeLengths_oneMore counts lens (by omega) hu2 hu hsum e
  refine ⟨⟨_, least, fun s w hc => ?_⟩, code, hcode, fun len hl => ?_⟩
  · have hocc : Occurs counts s := by
      rcases Jpeg.buildBitsVals_spec counts hlen hu hsum with ⟨e', _⟩ | ⟨spec', e', b⟩
      · rw [h] at e'; cases e'
      · rw [h] at e'
        injection e' with e'
        injection e' with e'
        subst e'
        obtain ⟨k, _, _, hk, _⟩ := hc
        exact (b.mem s).1 (List.mem_of_getElem? hk)
    rw [hw s w hc]
    have := ge s hocc
    omega
  · rw [totalBits_congr (f := len) (g := fun s => lens.getD s 0)]
    · exact hlt
    · intro s hs
      obtain ⟨w, hc⟩ := hex s hs
      rw [← hl s w hc, hw s w hc]

/-- The result of the sort is the sorted list of the values. -/
theorem sortedVals_eq (lens vals : List Nat) (hlen : lens.length ≤ 256)
    (hp : vals.Perm ((List.range lens.length).filter (fun i => lens.getD i 0 > 0)))
    (hs : vals.Pairwise (fun a b => lens.getD a 0 < lens.getD b 0 ∨ (lens.getD a 0 = lens.getD b 0 ∧ a ≤ b))) :
    Jpeg.sortedVals lens = vals := by
  refine List.Perm.eq_of_pairwise (fun a b _ _ h1 h2 => ?_) ?_ hs ((Jpeg.sortedVals_perm lens hlen).trans hp.symm)
  · omega
  · unfold Jpeg.sortedVals
    refine (List.pairwise_mergeSort ?_ ?_ _).imp ?_
    · intro a b c
      simp only [Bool.or_eq_true, Bool.and_eq_true, decide_eq_true_eq, beq_iff_eq]; omega
    · intro a b
      simp only [Bool.or_eq_true, Bool.and_eq_true, decide_eq_true_eq, beq_iff_eq]; omega
    · intro a b
      simp only [Bool.or_eq_true, Bool.and_eq_true, decide_eq_true_eq, beq_iff_eq]; omega

/-- `build_bits_vals`, given the lengths and the sorted values. -/
theorem buildBitsVals_eq {counts lens bits : List Nat} (vals : List Nat) (hlen : lens.length ≤ 256)
    (e1 : Jpeg.buildCodeLengths counts = .ok (some lens))
    (e2 : Jpeg.countLengths lens (List.replicate 16 0) = .ok (some bits))
    (hp : vals.isPerm ((List.range lens.length).filter (fun i => lens.getD i 0 > 0)) = true)
    (hs : vals.Pairwise (fun a b => lens.getD a 0 < lens.getD b 0 ∨ (lens.getD a 0 = lens.getD b 0 ∧ a ≤ b))) :
    Jpeg.buildBitsVals counts = .ok (some (bits, vals)) := by
  unfold Jpeg.buildBitsVals
  rw [e1, ok_bind]
  simp only []
  rw [e2, ok_bind, ← sortedVals_eq lens vals hlen (List.isPerm_iff.1 hp) hs]
  rfl

/-- So the full statement is false; three symbols counted 21 times each show it. -/
theorem C68_full_violated : ¬ C68_full := by
  intro h
  have e : Jpeg.buildBitsVals [0, 21, 21, 21] =
      .ok (some ([0, 1, 2, 0, 0, 0, 0, 0, 0, 0, 0, 0, 0, 0, 0, 0], [3, 1, 2])) :=
    buildBitsVals_eq (lens := [0, 3, 3, 2]) [3, 1, 2] (by decide) (by decide +kernel) (by decide +kernel)
      (by decide +kernel) (by decide +kernel)
  obtain ⟨⟨best, _, hb⟩, code, hc, hlt⟩ := C68_always_beaten_violated _ _ _ (by decide) (by decide) (by decide)
    (by decide) e
  have h1 := h _ _ _ (fun s => best s + 1) (by decide) (by decide) (by decide) e hb code hc
  have h2 := hlt _ hb
  omega

/-- The exact waste: a Huffman code spends as many bits fewer as there are symbols coded. -/
theorem C68_waste (counts bits vals : List Nat) (len : Nat → Nat) (hlen : counts.length ≤ 256)
    (hu2 : 2 ≤ occurring counts) (hu : occurring counts ≤ 255) (hsum : counts.sum < 2 ^ 64)
    (h : Jpeg.buildBitsVals counts = .ok (some (bits, vals)))
    (hl : ∀ s w, (tableOf bits vals).HasCode s w → w.length = len s) :
    ∃ best, Optimal counts best ∧ totalBits counts len = totalBits counts best + counts.sum := by
  obtain ⟨⟨best, ho, hb⟩, _⟩ := C68_always_beaten_violated counts bits vals hlen hu2 hu hsum h
  rw [← occurring_eq] at hu hu2
  obtain ⟨_, _, _, hex⟩ := Jpeg.buildBitsVals_lengths counts hlen hu hsum (bits, vals) h
  refine ⟨best, ho, ?_⟩
  rw [totalBits_congr (f := len) (g := fun s => best s + 1) (fun s hs => by
    obtain ⟨w, hc⟩ := hex s hs
    rw [← hl s w hc, hb s w hc])]
  unfold totalBits
  have hr : ∀ (cs : List Nat) (f : Nat → Nat), ((List.range cs.length).map (fun s => cs.getD s 0 * (f s + 1))).sum =
      ((List.range cs.length).map (fun s => cs.getD s 0 * f s)).sum + cs.sum := by
    intro cs
    induction cs with
    | nil => intro f; rfl
    | cons c cs ih =>
      intro f
      rw [List.length_cons, Huffman.sum_range_cons, Huffman.sum_range_cons]
      simp only [List.getD_cons_zero, List.getD_cons_succ]
      rw [ih (fun k => f (k + 1)), List.sum_cons, Nat.mul_succ]
      omega
  exact hr counts best

/-- **C68**, where it holds: a single symbol gets one bit, and no word that T.81 allows is shorter. -/
theorem C68_single_partial (counts bits vals : List Nat) (len : Nat → Nat) (hlen : counts.length ≤ 256)
    (hu : occurring counts = 1) (hsum : counts.sum < 2 ^ 64)
    (h : Jpeg.buildBitsVals counts = .ok (some (bits, vals)))
    (hl : ∀ s w, (tableOf bits vals).HasCode s w → w.length = len s) (code : Nat → List Bool)
    (hc : T81Code counts code) : totalBits counts len ≤ totalBits counts (fun s => (code s).length) := by
  rw [← occurring_eq] at hu
  obtain ⟨lens, e, hw, hex⟩ := Jpeg.buildBitsVals_lengths counts hlen (by omega) hsum (bits, vals) h
  rw [totalBits_congr (f := len) (g := fun s => lens.getD s 0) (fun s hs => by
    obtain ⟨w, hc⟩ := hex s hs
    rw [← hl s w hc, hw s w hc])]
  have hone : ∀ s, lens.getD s 0 ≤ 1 := by
    unfold Jpeg.buildCodeLengths at e
    obtain ⟨_, _, _, h4, _, h6⟩ := Jpeg.leaves_spec counts 0 0
    match hh : Jpeg.leaves counts 0 0, h4 with
    | [], h4 => simp at h4; omega
    | _ :: _ :: _, h4 => simp at h4; omega
    | [⟨f, i, n⟩], _ =>
      rw [hh] at e h6
      obtain ⟨k, hk⟩ := h6 ⟨f, i, n⟩ (by simp)
      simp only at hk
      subst hk
      simp only [] at e
      rw [setChecked] at e
      by_cases hkl : k < (List.replicate counts.length 0).length
      · rw [if_pos hkl, ok_bind] at e
        injection e with e
        injection e with e
        intro s
        rw [← e, Huffman.getD_set _ _ _ _ hkl, Jpeg.getD_zeros]
        split <;> omega
      · rw [if_neg hkl] at e; cases e
  unfold totalBits
  have hle : ∀ (l : List Nat) (f g : Nat → Nat), (∀ x, f x ≤ g x) → (l.map f).sum ≤ (l.map g).sum := by
    intro l f g hfg
    induction l with
    | nil => simp
    | cons a l ih => have := hfg a; simp only [List.map_cons, List.sum_cons]; omega
  apply hle
  intro s
  by_cases hs : counts.getD s 0 = 0
  · rw [hs, Nat.zero_mul, Nat.zero_mul]; exact Nat.le_refl _
  · refine Nat.mul_le_mul_left _ ?_
    have h1 := hone s
    have h2 : 1 ≤ (code s).length := List.length_pos_iff.2 (hc.1.1 s hs)
    exact Nat.le_trans h1 h2

/-- One symbol: a table with the single word `0`, which T.81 allows. -/
example : Jpeg.buildBitsVals [0, 0, 7] =
      .ok (some ([1, 0, 0, 0, 0, 0, 0, 0, 0, 0, 0, 0, 0, 0, 0, 0], [2])) ∧ occurring [0, 0, 7] = 1 := by
  decide +kernel

/-- **C68 fails for every image**: whatever the blocks, of the luminance tables
`build_optimized_huffman_tables` makes, each that codes two or more different symbols is wasteful for
exactly the symbols counted. -/
theorem C68_image_violated (gray : Bool) (mcus : List (List (Nat × List Int))) (interval : Option Nat) (total : Nat)
    (hm : ∀ m ∈ mcus, m.length ≤ 6 ∧ ∀ p ∈ m, p.1 < 3 ∧ (-1024 ≤ (toZigzag p.2).headD 0 ∧ (toZigzag p.2).headD 0 ≤ 1023) ∧
      ∀ v ∈ (toZigzag p.2).drop 1, v.natAbs < 1024) (hn : mcus.length < 2 ^ 32)
    (t : Jpeg.HuffTables) (h : Jpeg.buildOptimized gray mcus interval total = .ok (some t)) :
    ∃ k, Jpeg.countMcus interval total mcus 0 Jpeg.Counts.zero [0, 0, 0] = .ok k ∧
      (2 ≤ occurring k.dcLum → Wasteful k.dcLum t.dcLum.bits t.dcLum.vals) ∧
      (2 ≤ occurring k.acLum → Wasteful k.acLum t.acLum.bits t.acLum.vals) := by
  have h6 : ∀ m ∈ mcus, m.length ≤ 6 := fun m h => (hm m h).1
  replace hm : ∀ m ∈ mcus, Jpeg.McuRange m := fun m h p hp => by
    obtain ⟨a, b, c⟩ := (hm m h).2 p hp
    rw [← toZigzag_eq] at b c
    exact ⟨a, b, c⟩
  obtain ⟨k, e, hc⟩ := Jpeg.countMcus_spec interval total mcus 0 Jpeg.Counts.zero [0, 0, 0] hm Jpeg.prevOk_zero (by omega)
    (Jpeg.zero_room (Jpeg.scanSyms_bound h6 hn))
  have hok := Jpeg.scanSyms_ok interval total mcus 0 [0, 0, 0] hm Jpeg.prevOk_zero
  refine ⟨k, e, ?_⟩
  obtain ⟨a1, a2, a3, _⟩ := Jpeg.counts_facts hc hok (Jpeg.scanSyms_bound h6 hn) true true
  obtain ⟨c1, c2, c3, _⟩ := Jpeg.counts_facts hc hok (Jpeg.scanSyms_bound h6 hn) false true
  have a1 : k.dcLum.length = 12 := a1
  have c1 : k.acLum.length = 256 := c1
  have a2 : Huffman.used k.dcLum ≤ 255 := a2
  have c2 : Huffman.used k.acLum ≤ 255 := c2
  have a3 : k.dcLum.sum < 2 ^ 64 := a3
  have c3 : k.acLum.sum < 2 ^ 64 := c3
  rw [occurring_eq] at a2 c2
  have ht : Jpeg.buildBitsVals k.dcLum = .ok (some (t.dcLum.bits, t.dcLum.vals)) ∧
      Jpeg.buildBitsVals k.acLum = .ok (some (t.acLum.bits, t.acLum.vals)) := by
    unfold Jpeg.buildOptimized at h
    rw [e, ok_bind] at h
    cases gray
    · exact Jpeg.optimizedFromCounts_eq h
    · exact Jpeg.optimizedFromCounts_eq h
  exact ⟨fun h2 => C68_always_beaten_violated _ _ _ (by omega) h2 a2 a3 ht.1,
    fun h2 => C68_always_beaten_violated _ _ _ (by omega) h2 c2 c3 ht.2⟩

/-- A block of AC coefficients 1, 3 and 7 in turn. -/
def busyBlock : List Int := 0 :: (List.range 63).map (fun i => ([1, 3, 7] : List Int).getD (i % 3) 0)

deriving instance DecidableEq for Jpeg.Counts

/-- What is counted in it: one DC symbol 0, and 21 each of the AC symbols 1, 2 and 3. -/
def busyCounts : Jpeg.Counts :=
  ⟨1 :: List.replicate 11 0, List.replicate 12 0, [0, 21, 21, 21] ++ List.replicate 252 0, List.replicate 256 0⟩

/-- The tables optimized for it. -/
def busyTables : R (Option Jpeg.HuffTables) :=
  Jpeg.HuffTables.fromSpecs ([1, 0, 0, 0, 0, 0, 0, 0, 0, 0, 0, 0, 0, 0, 0, 0], [0]) (Jpeg.dcChromBits, Jpeg.dcChromVals)
    ([0, 1, 2, 0, 0, 0, 0, 0, 0, 0, 0, 0, 0, 0, 0, 0], [3, 1, 2]) (Jpeg.acChromBits, Jpeg.acChromVals)

theorem busy_optimized : Jpeg.buildOptimized true [[(0, busyBlock)]] none 1 = busyTables := by
  have ek : Jpeg.countMcus none 1 [[(0, busyBlock)]] 0 Jpeg.Counts.zero [0, 0, 0] = .ok busyCounts := by
    decide +kernel
  have e1 : Jpeg.buildBitsVals busyCounts.dcLum =
      .ok (some ([1, 0, 0, 0, 0, 0, 0, 0, 0, 0, 0, 0, 0, 0, 0, 0], [0])) :=
    buildBitsVals_eq (lens := 1 :: List.replicate 11 0) [0] (by decide) (by decide +kernel) (by decide +kernel)
      (by decide +kernel) (by decide +kernel)
  have e2 : Jpeg.buildBitsVals busyCounts.acLum =
      .ok (some ([0, 1, 2, 0, 0, 0, 0, 0, 0, 0, 0, 0, 0, 0, 0, 0], [3, 1, 2])) :=
    buildBitsVals_eq (lens := [0, 3, 3, 2] ++ List.replicate 252 0) [3, 1, 2] (by rw [List.length_append, List.length_replicate]; decide) (by decide +kernel)
      (by decide +kernel) (by decide +kernel) (by decide +kernel)
  unfold Jpeg.buildOptimized
  rw [ek, ok_bind]
  simp only [if_true]
  unfold Jpeg.HuffTables.optimizedFromCounts
  rw [e1, ok_bind]
  simp only []
  rw [e2, ok_bind]
  simp only [Jpeg.chromSpec, ok_bind]
  rfl

/-- The number of bytes of the scan with given tables. -/
def scanLength (t : R (Option Jpeg.HuffTables)) (mcus : List (List (Nat × List Int))) : R (Option Nat) := do
  match ← t with
  | none => return none
  | some t => return some (← Jpeg.encodeScan t mcus none mcus.length).length

/-- **Optimizing can make the scan longer** than the standard tables do: for this block of a grayscale
image the scan has 36 bytes with the standard tables and 37 with those optimized for it. -/
theorem C68_longer_than_standard_violated :
    scanLength (some <$> Jpeg.HuffTables.std) [[(0, busyBlock)]] = .ok (some 36) ∧
    scanLength (Jpeg.buildOptimized true [[(0, busyBlock)]] none 1) [[(0, busyBlock)]] = .ok (some 37) := by
  rw [busy_optimized]
  decide +kernel

/-- The block meets the conditions of `C68_image_violated`, and three symbols occur in it. -/
example : (∀ m ∈ [[(0, busyBlock)]], m.length ≤ 6 ∧ ∀ p ∈ m, p.1 < 3 ∧
      (-1024 ≤ (toZigzag p.2).headD 0 ∧ (toZigzag p.2).headD 0 ≤ 1023) ∧
      ∀ v ∈ (toZigzag p.2).drop 1, v.natAbs < 1024) ∧
    Jpeg.buildOptimized true [[(0, busyBlock)]] none 1 = busyTables ∧ (busyTables.toOption.bind id).isSome ∧
    Jpeg.countMcus none 1 [[(0, busyBlock)]] 0 Jpeg.Counts.zero [0, 0, 0] = .ok busyCounts ∧
    2 ≤ occurring busyCounts.acLum :=
  ⟨by decide +kernel, busy_optimized, by decide +kernel, by decide +kernel, by decide +kernel⟩

end Pixo.Props
