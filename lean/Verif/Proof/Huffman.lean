import Verif.Proof.HuffmanCanon
import Verif.Proof.HuffmanLimit
/-
`build_codes` as a whole.
-/
namespace Pixo.Huffman
open Spec Spec.Rfc1951

theorem nonZero_mem (fs : List Nat) (i : Nat) (h : i + fs.length ≤ 2 ^ 16) (s : Nat) :
    s ∈ (nonZero fs i).map Prod.fst ↔ i ≤ s ∧ fs.getD (s - i) 0 ≠ 0 := by
  induction fs generalizing i with
  | nil => simp [nonZero]
  | cons f fs ih =>
    rw [List.length_cons] at h
    have ih := ih (i + 1) (by omega)
    have key : (i + 1 ≤ s ∧ fs.getD (s - (i + 1)) 0 ≠ 0) ↔ (i < s ∧ (f :: fs).getD (s - i) 0 ≠ 0) := by
      by_cases hs : i < s
      · rw [show s - i = (s - (i + 1)) + 1 by omega, List.getD_cons_succ]
        exact ⟨fun a => ⟨hs, a.2⟩, fun a => ⟨hs, a.2⟩⟩
      · constructor <;> intro a <;> omega
    rw [nonZero]
    by_cases hf : f > 0
    · rw [if_pos hf, List.map_cons, List.mem_cons, ih, key, Nat.mod_eq_of_lt (by omega)]
      constructor
      · rintro (rfl | ⟨h1, h2⟩)
        · exact ⟨Nat.le_refl _, by rw [Nat.sub_self, List.getD_cons_zero]; omega⟩
        · exact ⟨by omega, h2⟩
      · rintro ⟨h1, h2⟩
        rcases Nat.eq_or_lt_of_le h1 with h3 | h3
        · exact Or.inl h3.symm
        · exact Or.inr ⟨h3, h2⟩
    · rw [if_neg hf, ih, key]
      constructor
      · rintro ⟨h1, h2⟩; exact ⟨by omega, h2⟩
      · rintro ⟨h1, h2⟩
        refine ⟨?_, h2⟩
        rcases Nat.eq_or_lt_of_le h1 with h3 | h3
        · subst h3; rw [Nat.sub_self, List.getD_cons_zero] at h2; omega
        · exact h3

theorem nonZero_nodup (fs : List Nat) (i : Nat) (h : i + fs.length ≤ 2 ^ 16) :
    ((nonZero fs i).map Prod.fst).Nodup := by
  induction fs generalizing i with
  | nil => exact List.Pairwise.nil
  | cons f fs ih =>
    rw [List.length_cons] at h
    have ih := ih (i + 1) (by omega)
    rw [nonZero]
    split
    · rw [List.map_cons, List.nodup_cons]
      refine ⟨?_, ih⟩
      rw [nonZero_mem _ _ (by omega), Nat.mod_eq_of_lt (by omega)]
      omega
    · exact ih

theorem nonZero_sum (fs : List Nat) (i : Nat) : ((nonZero fs i).map Prod.snd).sum = fs.sum := by
  induction fs generalizing i with
  | nil => rfl
  | cons f fs ih =>
    rw [nonZero]
    split
    · rw [List.map_cons, List.sum_cons, ih, List.sum_cons]
    · rw [ih, List.sum_cons]; omega

theorem nonZero_length (fs : List Nat) (i : Nat) : (nonZero fs i).length = used fs := by
  induction fs generalizing i with
  | nil => rfl
  | cons f fs ih =>
    rw [nonZero, used_cons]
    by_cases hf : f > 0
    · rw [if_pos hf, List.length_cons, ih, if_neg (by omega)]; omega
    · rw [if_neg hf, ih, if_pos (by omega)]; omega

theorem nonZero_pos (fs : List Nat) (i : Nat) : ∀ p ∈ nonZero fs i, 0 < p.2 := by
  induction fs generalizing i with
  | nil => simp [nonZero]
  | cons f fs ih =>
    rw [nonZero]
    split
    · intro p hp
      rcases List.mem_cons.1 hp with rfl | hp
      · assumption
      · exact ih _ p hp
    · exact ih _

theorem fib_ge (k : Nat) : 2 ^ k ≤ fib (2 * k + 1) := by
  induction k with
  | zero => decide
  | succ k ih =>
    rw [show 2 * (k + 1) + 1 = (2 * k + 1) + 2 by omega, fib]
    have := fib_mono_succ (2 * k + 1)
    rw [Nat.pow_succ]; omega

theorem height_lt {t : Tree} (h : fib (t.height + 2) ≤ t.freq) (hf : t.freq < 2 ^ 32) : t.height < 63 := by
  apply Nat.lt_of_not_le
  intro hh
  have h1 := fib_mono (show 2 * 32 + 1 ≤ t.height + 2 by omega)
  have h2 := fib_ge 32
  omega

/-- What `build_codes` promises about its result. -/
structure Built (freqs : List Nat) (M : Nat) (lens : List Nat) (codes : List (Nat × Nat)) : Prop where
  canon : IsCanon codes lens
  use : SameUse freqs lens
  le : ∀ l ∈ lens, l ≤ M
  complete : 2 ≤ used freqs → kraft lens = 2 ^ 15
  single : used freqs = 1 → SingleCode lens
  ok : CodeOK lens

theorem kraft_ksum (lens : List Nat) : kraft lens = ksum 15 lens := by
  unfold kraft ksum
  congr 1
  apply List.map_congr_left
  intro l _
  by_cases h : l = 0
  · subst h; rfl
  · rw [if_neg h, weight_pos (by omega)]

theorem kraft_of_ksum {M : Nat} {lens : List Nat} (hM : M ≤ 15) (hall : ∀ l ∈ lens, l ≤ M)
    (h : ksum M lens = 2 ^ M) : kraft lens = 2 ^ 15 := by
  rw [kraft_ksum, ksum_scale hM lens hall, h, ← Nat.pow_add]; congr 1; omega

theorem replicate_zero_getD (n s : Nat) : (List.replicate n 0).getD s 0 = 0 := by
  rw [List.getD_eq_getElem?_getD, List.getElem?_replicate]; split <;> rfl

theorem ksum_replicate_zero (M n : Nat) : ksum M (List.replicate n 0) = 0 := by
  unfold ksum; rw [List.map_replicate, weight_zero]
  induction n with
  | zero => rfl
  | succ n ih => rw [List.replicate_succ, List.sum_cons, ih]

theorem isCanon_zero (n : Nat) : IsCanon (List.replicate n (0, 0)) (List.replicate n 0) := by
  refine ⟨by simp, by simp, ?_⟩
  intro s hs
  exact absurd (replicate_zero_getD n s) hs

theorem single_eq (n s : Nat) (hs : s < n) : (List.replicate n 0).set s 1 =
    List.replicate s 0 ++ 1 :: List.replicate (n - (s + 1)) 0 := by
  rw [List.set_eq_take_append_cons_drop, if_pos (by simpa using hs), List.take_replicate, List.drop_replicate,
    Nat.min_eq_left (by omega)]

theorem singleCode_single (n s : Nat) (hs : s < n) : SingleCode ((List.replicate n 0).set s 1) := by
  unfold SingleCode
  rw [single_eq n s hs, List.filter_append, List.filter_cons]
  simp

theorem kraft_single (n s : Nat) (hs : s < n) : kraft ((List.replicate n 0).set s 1) = 2 ^ 14 := by
  rw [kraft_ksum]
  have := sum_set (weight 15) (List.replicate n 0) s 1 (by simpa using hs)
  have h0 := ksum_replicate_zero 15 n
  unfold ksum at h0 ⊢
  rw [replicate_zero_getD, h0] at this
  rw [weight_zero] at this
  have hw : weight 15 1 = 2 ^ 14 := by decide
  omega

theorem isCanon_single (n s : Nat) (hs : s < n) :
    IsCanon ((List.replicate n (0, 0)).set s (0, 1)) ((List.replicate n 0).set s 1) := by
  have hlen : ∀ t, len ((List.replicate n 0).set s 1) t = if t = s then 1 else 0 := by
    intro t
    unfold len
    rw [getD_set _ _ _ _ (by simpa using hs), replicate_zero_getD]
  refine ⟨by simp, by simp [List.map_set], ?_⟩
  intro t ht
  have hts : t = s := by
    rw [hlen] at ht
    apply Classical.byContradiction
    intro h; rw [if_neg h] at ht; exact ht rfl
  subst hts
  rw [List.getD_eq_getElem?_getD, List.getElem?_set, if_pos rfl, if_pos (by simpa using hs), hlen, if_pos rfl]
  have : codeValue ((List.replicate n 0).set t 1) t = 0 := by
    rw [codeValue_eq]
    apply sumTo_eq_zero
    intro i _
    rw [if_neg]
    rintro ⟨h0, h1⟩
    have a := hlen i
    by_cases hi : i = t
    · subst hi; omega
    · rw [if_neg hi] at a; exact h0 a
  rw [this]; rfl

/-- Specification of `build_codes`. -/
theorem buildCodes_spec (tie : Nat → Nat) (freqs : List Nat) (M : Nat) (hM0 : 1 ≤ M) (hM : M ≤ 15)
    (hlen : freqs.length ≤ 2 ^ 16) (hu : used freqs ≤ 2 ^ M) (hsum : freqs.sum < 2 ^ 32) :
    ∃ lens codes, buildCodes tie freqs M = .ok codes ∧ Built freqs M lens codes := by
  have hmem := nonZero_mem freqs 0 (by omega)
  have hnd := nonZero_nodup freqs 0 (by omega)
  have hnl := nonZero_length freqs 0
  have hns := nonZero_sum freqs 0
  have hnp := nonZero_pos freqs 0
  unfold buildCodes
  generalize nonZero freqs 0 = nz at *
  have hltlen : ∀ s, freqs.getD s 0 ≠ 0 → s < freqs.length := fun s hs => lt_length_of_len hs
  match nz with
  | [] =>
    have hz : ∀ s, freqs.getD s 0 = 0 := by
      intro s
      apply Classical.byContradiction
      intro h
      have := (hmem s).2 ⟨Nat.zero_le _, by simpa using h⟩
      simp at this
    refine ⟨List.replicate freqs.length 0, _, rfl, isCanon_zero _,
      ⟨by simp, fun s => by rw [replicate_zero_getD, hz s]⟩, ?_, ?_, ?_, ?_, ?_⟩
    · intro l hl; rw [List.mem_replicate] at hl; omega
    · intro h; simp at hnl; omega
    · intro h; simp at hnl; omega
    · intro l hl; rw [List.mem_replicate] at hl; omega
    · rw [kraft_ksum, ksum_replicate_zero]; exact Nat.zero_le _
  | [(s, f)] =>
    have hs0 : freqs.getD s 0 ≠ 0 := by
      have := ((hmem s).1 (by simp)).2; simpa using this
    have hs := hltlen s hs0
    simp only []
    rw [setChecked, if_pos (by simpa using hs)]
    have hall : ∀ l ∈ (List.replicate freqs.length 0).set s 1, l ≤ 1 := by
      intro l hl
      rcases List.mem_or_eq_of_mem_set hl with hl | rfl
      · rw [List.mem_replicate] at hl; omega
      · exact Nat.le_refl _
    refine ⟨(List.replicate freqs.length 0).set s 1, _, rfl, isCanon_single _ _ hs, ⟨by simp, ?_⟩, ?_, ?_, ?_, ?_, ?_⟩
    · intro t
      rw [getD_set _ _ _ _ (by simpa using hs), replicate_zero_getD]
      by_cases ht : t = s
      · subst ht; rw [if_pos rfl]; exact ⟨fun h => by simp at h, fun h => absurd h hs0⟩
      · rw [if_neg ht]
        refine ⟨fun _ => ?_, fun _ => rfl⟩
        apply Classical.byContradiction
        intro h
        have := (hmem t).2 ⟨Nat.zero_le _, by simpa using h⟩
        simp at this; exact ht this
    · intro l hl; exact Nat.le_trans (hall l hl) hM0
    · intro h; simp at hnl; omega
    · intro _; exact singleCode_single _ _ hs
    · intro l hl; have := hall l hl; omega
    · rw [kraft_single _ _ hs]; decide
  | p :: q :: nz =>
    simp only []
    generalize hN : p :: q :: nz = N at *
    have hN2 : 2 ≤ N.length := by rw [← hN]; simp
    generalize hheap : N.map (fun p => Tree.leaf p.2 p.1) = heap
    have hleaves : heapLeaves heap = N.map Prod.fst := by
      rw [← hheap]; clear hheap hN hN2 hnl hns hnd hmem hnp
      induction N with
      | nil => rfl
      | cons a N ih => simp only [heapLeaves, List.map_cons, List.flatMap_cons, Tree.leaves] at ih ⊢; rw [ih]; rfl
    have hfreq : heapFreq heap = freqs.sum := by
      rw [← hns, ← hheap]
      unfold heapFreq
      rw [List.map_map]; rfl
    have hinv : Inv heap 0 := by
      refine ⟨?_, ?_, ?_⟩ <;> intro t ht <;> rw [← hheap, List.mem_map] at ht <;>
        obtain ⟨a, ha, rfl⟩ := ht <;> have := hnp a ha <;> simp only [Tree.freq, Tree.height]
      · omega
      · exact this
      · decide
    have hhl : heap.length = N.length := by rw [← hheap]; simp
    obtain ⟨root, hr, hperm, hfib, hrf, hnode⟩ := buildTree_spec tie N.length heap 0
      (by intro h; rw [h] at hhl; simp at hhl; omega) (by omega) (by omega) hinv
    rw [hr, ok_bind]
    have hh := height_lt hfib (by omega)
    have hlm : ∀ s, s ∈ root.leaves ↔ freqs.getD s 0 ≠ 0 := by
      intro s
      rw [hperm.mem_iff, hleaves, hmem]; simp
    have hnd' : root.leaves.Nodup := by
      rw [hperm.nodup_iff, hleaves]; exact hnd
    obtain ⟨lens, e1, n1, u1, p1, k1⟩ := extractLengths_spec root 0 (List.replicate freqs.length 0) 63
      (Or.inr (hnode (by omega))) (by omega) (by decide) hnd'
      (fun s hs => by rw [List.length_replicate]; exact hltlen s ((hlm s).1 hs))
      (fun s _ => replicate_zero_getD _ s)
    rw [e1, ok_bind]
    rw [ksum_replicate_zero, Nat.zero_add, Nat.sub_zero] at k1
    have hsu : SameUse freqs lens := by
      refine ⟨by rw [n1]; simp, fun s => ?_⟩
      by_cases hs : s ∈ root.leaves
      · have h1 := (p1 s hs).1
        have h2 := (hlm s).1 hs
        exact ⟨fun h => by omega, fun h => absurd h h2⟩
      · have h2 : freqs.getD s 0 = 0 := by
          apply Classical.byContradiction
          intro h; exact hs ((hlm s).2 h)
        rw [u1 s hs, replicate_zero_getD, h2]
    obtain ⟨lens', e2, su, a2, k2⟩ := limitCodeLengths_spec lens M 63 hM (by omega) k1
      (by rw [hsu.used_eq]; omega) (by rw [hsu.used_eq]; exact hu)
    rw [e2, ok_bind]
    have hk := kraft_of_ksum hM a2 k2
    have hok : CodeOK lens' := ⟨fun l hl => Nat.le_trans (a2 l hl) hM, by omega⟩
    obtain ⟨codes, e3, hc⟩ := generateCanonicalCodes_spec hok
    exact ⟨lens', codes, e3, hc, hsu.trans su, a2, fun _ => hk, fun h => by omega, hok⟩

end Pixo.Huffman
