import Verif.Proof.JpegCount
/-
Optimized Huffman tables (src/jpeg/huffman.rs:167-391) are legal tables for exactly the symbols
counted.
-/
namespace Pixo.Jpeg
open Pixo Spec.T81

/-! ### The heap -/

theorem foldl_mem {α} (f : α → α → α) (hf : ∀ a b, f a b = a ∨ f a b = b) (l : List α) (e : α) :
    l.foldl f e ∈ e :: l := by
  induction l generalizing e with
  | nil => simp
  | cons a l ih =>
    rw [List.foldl_cons]
    have := ih (f e a)
    rcases List.mem_cons.mp this with h | h
    · rw [h]; rcases hf e a with h | h <;> rw [h] <;> simp
    · simp [h]

theorem popMin_spec (heap : List Entry) (hne : heap ≠ []) :
    ∃ m rest, popMin heap = some (m, rest) ∧ heap.Perm (m :: rest) := by
  cases heap with
  | nil => exact absurd rfl hne
  | cons e es =>
    refine ⟨_, _, rfl, List.perm_cons_erase ?_⟩
    exact foldl_mem _ (fun a b => by by_cases h : b.before a = true <;> simp [h]) es e

def Node.leaves : Node → List Nat
  | .leaf s => [s]
  | .node l r => l.leaves ++ r.leaves

theorem Node.leaves_pos (n : Node) : 1 ≤ n.leaves.length := by
  induction n with
  | leaf s => simp [Node.leaves]
  | node l r ih1 ih2 => rw [Node.leaves, List.length_append]; omega

def heapSyms (heap : List Entry) : List Nat := heap.flatMap (fun e => e.node.leaves)
def heapSum (heap : List Entry) : Nat := (heap.map Entry.freq).sum

theorem heapSyms_perm {a b : List Entry} (h : a.Perm b) : (heapSyms a).Perm (heapSyms b) :=
  h.flatMap_right _

theorem heapSum_perm {a b : List Entry} (h : a.Perm b) : heapSum a = heapSum b := (h.map _).sum_nat

theorem buildTree_spec (fuel : Nat) (heap : List Entry) (next : Nat) (hne : heap ≠ [])
    (hf : heap.length ≤ fuel) (hsum : heapSum heap < 2 ^ 64) :
    ∃ root, buildTree fuel heap next = .ok root ∧ root.leaves.Perm (heapSyms heap) := by
  induction fuel generalizing heap next with
  | zero => cases heap with
    | nil => exact absurd rfl hne
    | cons a t => simp at hf
  | succ fuel ih =>
    rw [buildTree]
    obtain ⟨l, h', e1, p1⟩ := popMin_spec heap hne
    have hlen' : h'.length + 1 = heap.length := by simpa using p1.length_eq.symm
    by_cases h1 : heap.length > 1
    · rw [if_pos h1]
      have hne' : h' ≠ [] := by rintro rfl; simp at hlen'; omega
      obtain ⟨r, h'', e2, p2⟩ := popMin_spec h' hne'
      have hlen'' : h''.length + 1 = h'.length := by simpa using p2.length_eq.symm
      rw [e1]; simp only []; rw [e2]; simp only []
      have p : heap.Perm (l :: r :: h'') := p1.trans (p2.cons l)
      have hs : heapSum heap = l.freq + (r.freq + heapSum h'') := by
        rw [heapSum_perm p]; simp [heapSum]
      rw [addU64, if_pos (by omega), ok_bind]
      obtain ⟨root, hr, hp⟩ := ih (⟨l.freq + r.freq, next, .node l.node r.node⟩ :: h'') (next + 1) (by simp)
        (by simp only [List.length_cons]; omega)
        (by
          have : heapSum (⟨l.freq + r.freq, next, .node l.node r.node⟩ :: h'') = l.freq + r.freq + heapSum h'' := by
            simp [heapSum]
          omega)
      refine ⟨root, hr, ?_⟩
      refine hp.trans (List.Perm.trans ?_ (heapSyms_perm p).symm)
      simp only [heapSyms, List.flatMap_cons, Node.leaves, List.append_assoc]
      exact List.Perm.refl _
    · rw [if_neg h1, e1]
      have : h' = [] := by rw [← List.length_eq_zero_iff]; omega
      subst this
      refine ⟨l.node, rfl, ?_⟩
      have := List.perm_singleton.1 p1
      subst this
      simp [heapSyms]

/-! ### Leaves -/

theorem leaves_spec (fs : List Nat) (sym idx : Nat) :
    (∀ s, s ∈ heapSyms (leaves fs sym idx) ↔ sym ≤ s ∧ fs.getD (s - sym) 0 ≠ 0) ∧
    (heapSyms (leaves fs sym idx)).Nodup ∧ heapSum (leaves fs sym idx) = fs.sum ∧
    (leaves fs sym idx).length = Huffman.used fs ∧
    (heapSyms (leaves fs sym idx)).length = Huffman.used fs ∧
    ∀ e ∈ leaves fs sym idx, ∃ s, e.node = .leaf s := by
  induction fs generalizing sym idx with
  | nil =>
    refine ⟨fun s => ?_, by simp [leaves, heapSyms], rfl, rfl, rfl, by simp [leaves]⟩
    simp [leaves, heapSyms]
  | cons f fs ih =>
    by_cases h0 : f = 0
    · rw [leaves, if_pos h0]
      obtain ⟨h1, h2, h3, h4, h5, h6⟩ := ih (sym + 1) idx
      refine ⟨fun s => ?_, h2, by simp [h3, h0], by rw [h4, Huffman.used_cons, if_pos h0]; omega,
        by rw [h5, Huffman.used_cons, if_pos h0]; omega, h6⟩
      rw [h1]
      constructor
      · rintro ⟨a, b⟩
        refine ⟨by omega, ?_⟩
        rw [show s - sym = (s - (sym + 1)) + 1 by omega, List.getD_cons_succ]; exact b
      · rintro ⟨a, b⟩
        by_cases hs : s = sym
        · subst hs; simp [h0] at b
        · refine ⟨by omega, ?_⟩
          rw [show s - sym = (s - (sym + 1)) + 1 by omega, List.getD_cons_succ] at b; exact b
    · rw [leaves, if_neg h0]
      obtain ⟨h1, h2, h3, h4, h5, h6⟩ := ih (sym + 1) (idx + 1)
      have hcons : heapSyms (⟨f, idx, .leaf sym⟩ :: leaves fs (sym + 1) (idx + 1)) =
          sym :: heapSyms (leaves fs (sym + 1) (idx + 1)) := by simp [heapSyms, Node.leaves]
      rw [hcons]
      refine ⟨fun s => ?_, ?_, ?_, ?_, ?_, ?_⟩
      · rw [List.mem_cons, h1]
        constructor
        · rintro (rfl | ⟨a, b⟩)
          · simpa using h0
          · refine ⟨by omega, ?_⟩
            rw [show s - sym = (s - (sym + 1)) + 1 by omega, List.getD_cons_succ]; exact b
        · rintro ⟨a, b⟩
          by_cases hs : s = sym
          · exact Or.inl hs
          · refine Or.inr ⟨by omega, ?_⟩
            rw [show s - sym = (s - (sym + 1)) + 1 by omega, List.getD_cons_succ] at b; exact b
      · rw [List.nodup_cons]
        refine ⟨fun hm => ?_, h2⟩
        have := (h1 sym).1 hm
        omega
      · have : heapSum (⟨f, idx, .leaf sym⟩ :: leaves fs (sym + 1) (idx + 1)) =
          f + heapSum (leaves fs (sym + 1) (idx + 1)) := by simp [heapSum]
        rw [this, h3, List.sum_cons]
      · rw [List.length_cons, h4, Huffman.used_cons, if_neg h0]; omega
      · rw [List.length_cons, h5, Huffman.used_cons, if_neg h0]; omega
      · intro e he
        rcases List.mem_cons.mp he with rfl | he
        · exact ⟨sym, rfl⟩
        · exact h6 e he

/-! ### Code lengths -/

theorem walk_spec (t : Node) (d : Nat) (lens : List Nat) (hd : d + t.leaves.length ≤ 255)
    (hnd : t.leaves.Nodup) (hlt : ∀ s ∈ t.leaves, s < lens.length)
    (hz : ∀ s ∈ t.leaves, lens.getD s 0 = 0) :
    (walk t d lens = .ok none ∧ 16 < d + t.leaves.length) ∨ ∃ lens', walk t d lens = .ok (some lens') ∧ lens'.length = lens.length ∧
      (∀ s, s ∉ t.leaves → lens'.getD s 0 = lens.getD s 0) ∧
      (∀ s ∈ t.leaves, d < lens'.getD s 0 ∧ lens'.getD s 0 ≤ 16) ∧
      Huffman.ksum 16 lens' = Huffman.ksum 16 lens + 2 ^ (15 - d) ∧ d ≤ 15 := by
  induction t generalizing d lens with
  | leaf s =>
    simp only [Node.leaves, List.length_singleton] at hd
    rw [walk, addU8, if_pos (by omega), ok_bind]
    by_cases h16 : d + 1 > 16
    · left; rw [if_pos h16]; exact ⟨rfl, by simpa [Node.leaves] using h16⟩
    · right
      have hs := hlt s (by simp [Node.leaves])
      have hz := hz s (by simp [Node.leaves])
      rw [if_neg h16, setChecked, if_pos hs]
      refine ⟨_, rfl, by simp, ?_, ?_, ?_, by omega⟩
      · intro k hk
        rw [Huffman.getD_set _ _ _ _ hs, if_neg (by simpa [Node.leaves] using hk)]
      · intro k hk
        have : k = s := by simpa [Node.leaves] using hk
        subst this
        rw [Huffman.getD_set _ _ _ _ hs, if_pos rfl]; omega
      · have := Huffman.sum_set (Huffman.weight 16) lens s (d + 1) hs
        rw [hz, Huffman.weight_zero, Huffman.weight_pos (by omega), show 16 - (d + 1) = 15 - d by omega] at this
        simpa [Huffman.ksum] using this
  | node l r ihl ihr =>
    simp only [Node.leaves] at hnd hlt hz hd
    rw [List.nodup_append] at hnd
    rw [List.length_append] at hd
    have hl1 := l.leaves_pos
    have hr1 := r.leaves_pos
    rw [walk, addU8, if_pos (by omega), ok_bind]
    rcases ihr (d + 1) lens (by omega) hnd.2.1
      (fun s hs => hlt s (by simp [hs])) (fun s hs => hz s (by simp [hs])) with ⟨e, hlong⟩ | ⟨l1, e1, n1, u1, p1, k1, _⟩
    · left; rw [e]; exact ⟨rfl, by simp only [Node.leaves, List.length_append]; omega⟩
    · rw [e1, ok_bind]
      simp only []
      have hdis : ∀ s ∈ l.leaves, s ∉ r.leaves := fun s hs hl => hnd.2.2 s hs s hl rfl
      rcases ihl (d + 1) l1 (by omega) hnd.1
        (fun s hs => by rw [n1]; exact hlt s (by simp [hs]))
        (fun s hs => by rw [u1 s (hdis s hs)]; exact hz s (by simp [hs])) with ⟨e, hlong⟩ | ⟨l2, e2, n2, u2, p2, k2, _⟩
      · left; exact ⟨e, by simp only [Node.leaves, List.length_append]; omega⟩
      · right
        refine ⟨l2, e2, by omega, ?_, ?_, ?_, by omega⟩
        · intro s hs
          simp only [Node.leaves, List.mem_append, not_or] at hs
          rw [u2 s hs.1, u1 s hs.2]
        · intro s hs
          by_cases hl : s ∈ l.leaves
          · have := p2 s hl; omega
          · have hr : s ∈ r.leaves := by
              simp only [Node.leaves, List.mem_append] at hs
              exact hs.resolve_left hl
            rw [u2 s hl]; have := p1 s hr; omega
        · rw [k2, k1]
          have : 2 ^ (15 - d) = 2 ^ (15 - (d + 1)) + 2 ^ (15 - (d + 1)) := by
            rw [show 15 - d = (15 - (d + 1)) + 1 by omega, Nat.pow_succ]; omega
          omega

theorem getD_zeros (n s : Nat) : (List.replicate n 0).getD s 0 = 0 := by
  rw [List.getD_eq_getElem?_getD, List.getElem?_replicate]; split <;> rfl

theorem ksum_zeros (M n : Nat) : Huffman.ksum M (List.replicate n 0) = 0 := by
  simp [Huffman.ksum, Huffman.weight_zero, List.sum_replicate_nat]

theorem mem_le_of_getD {l : List Nat} {M : Nat} (h : ∀ s, l.getD s 0 ≤ M) : ∀ v ∈ l, v ≤ M := by
  intro v hv
  obtain ⟨i, _, e⟩ := Huffman.mem_getD hv
  rw [← e]; exact h i

/-- No code lengths up to 16 are found: either there are no symbols or more than 16. -/
def Overlong (counts : List Nat) : Prop :=
  (∀ s, counts.getD s 0 = 0) ∨ ∀ l : List Nat, (∀ s, counts.getD s 0 ≠ 0 → s ∈ l) → 16 < l.length

theorem buildCodeLengths_spec (counts : List Nat) (hu : Huffman.used counts ≤ 255)
    (hsum : counts.sum < 2 ^ 64) :
    (buildCodeLengths counts = .ok none ∧ Overlong counts) ∨ ∃ lens, buildCodeLengths counts = .ok (some lens) ∧
      Huffman.SameUse counts lens ∧ (∀ l ∈ lens, l ≤ 16) ∧ Huffman.ksum 16 lens = 2 ^ 15 := by
  obtain ⟨h1, h2, h3, h4, h5, h6⟩ := leaves_spec counts 0 0
  have hmem : ∀ s, s ∈ heapSyms (leaves counts 0 0) ↔ counts.getD s 0 ≠ 0 := by
    intro s; rw [h1]; simp
  have hlt : ∀ s, counts.getD s 0 ≠ 0 → s < counts.length := by
    intro s hs
    rcases Nat.lt_or_ge s counts.length with h | h
    · exact h
    · rw [List.getD_eq_getElem?_getD, List.getElem?_eq_none h] at hs; exact absurd rfl hs
  unfold buildCodeLengths
  generalize leaves counts 0 0 = heap at *
  have hbig : heap ≠ [] →
      ((do let root ← buildTree heap.length heap heap.length
           walk root 0 (List.replicate counts.length 0)) = (.ok none : R (Option (List Nat))) ∧ Overlong counts) ∨
      ∃ lens, (do let root ← buildTree heap.length heap heap.length
                  walk root 0 (List.replicate counts.length 0)) = (.ok (some lens) : R (Option (List Nat))) ∧
        Huffman.SameUse counts lens ∧ (∀ l ∈ lens, l ≤ 16) ∧ Huffman.ksum 16 lens = 2 ^ 15 := by
    intro hne
    obtain ⟨root, e, hp⟩ := buildTree_spec heap.length heap heap.length hne (Nat.le_refl _) (by omega)
    rw [e, ok_bind]
    have hin : ∀ s, s ∈ root.leaves ↔ counts.getD s 0 ≠ 0 := fun s => by rw [hp.mem_iff, hmem]
    rcases walk_spec root 0 (List.replicate counts.length 0) (by rw [hp.length_eq]; omega)
      (hp.nodup_iff.2 h2) (fun s hs => by rw [List.length_replicate]; exact hlt s ((hin s).1 hs))
      (fun s _ => getD_zeros _ _) with ⟨e, hlong⟩ | ⟨lens, e, n, u, p, k, _⟩
    · refine Or.inl ⟨e, Or.inr fun l hl => ?_⟩
      have := List.Nodup.length_le_of_subset (hp.nodup_iff.2 h2) (fun s hs => hl s ((hin s).1 hs))
      omega
    · refine Or.inr ⟨lens, e, ⟨by rw [n, List.length_replicate], fun s => ?_⟩, ?_, ?_⟩
      · by_cases hs : s ∈ root.leaves
        · have := p s hs
          have := (hin s).1 hs
          omega
        · rw [u s hs, getD_zeros]
          have : counts.getD s 0 = 0 := Decidable.byContradiction fun c => hs ((hin s).2 c)
          simp only [this]
      · apply mem_le_of_getD
        intro s
        by_cases hs : s ∈ root.leaves
        · exact (p s hs).2
        · rw [u s hs, getD_zeros]; omega
      · rw [k, ksum_zeros]
  split
  · left
    refine ⟨rfl, Or.inl fun s => Decidable.byContradiction fun hc => ?_⟩
    have := (hmem s).2 hc
    simp [heapSyms] at this
  · rename_i f i sym
    right
    have hsy : ∀ s, s = sym ↔ counts.getD s 0 ≠ 0 := by
      intro s; rw [← hmem]; simp [heapSyms, Node.leaves]
    have hl := hlt sym ((hsy sym).1 rfl)
    rw [setChecked, if_pos (by rwa [List.length_replicate]), ok_bind]
    have hl' : sym < (List.replicate counts.length 0).length := by rwa [List.length_replicate]
    refine ⟨_, rfl, ⟨by simp, fun s => ?_⟩, ?_, ?_⟩
    · rw [Huffman.getD_set _ _ _ _ hl']
      by_cases hs : s = sym
      · rw [if_pos hs]
        have := (hsy s).1 hs
        omega
      · rw [if_neg hs, getD_zeros]
        have : counts.getD s 0 = 0 := Decidable.byContradiction fun c => hs ((hsy s).2 c)
        simp only [this]
    · apply Huffman.all_set
      · intro l hl; rw [List.mem_replicate] at hl; omega
      · omega
    · have := Huffman.sum_set (Huffman.weight 16) (List.replicate counts.length 0) sym 1 hl'
      rw [getD_zeros, Huffman.weight_zero, Huffman.weight_pos (by omega)] at this
      have hk := ksum_zeros 16 counts.length
      unfold Huffman.ksum at hk ⊢
      omega
  · rename_i hne _
    exact hbig (fun h => hne h)

/-! ### Counting lengths -/

/-- Kraft sum of counts per length, the first being for length `i + 1`. -/
def kbits : Nat → List Nat → Nat
  | _, [] => 0
  | i, b :: bs => b * 2 ^ (15 - i) + kbits (i + 1) bs

theorem kbits_sizes (i : Nat) (bits : List Nat) :
    ((sizesAt i bits).map (fun s => 2 ^ (16 - s))).sum = kbits i bits := by
  induction bits generalizing i with
  | nil => rfl
  | cons b bits ih =>
    rw [sizesAt_cons, List.map_append, List.sum_append, ih, List.map_replicate, List.sum_replicate_nat, kbits,
      show 16 - (i + 1) = 15 - i by omega]

theorem kbits_set (i : Nat) (bits : List Nat) (j : Nat) (h : j < bits.length) :
    kbits i (bits.set j (bits.getD j 0 + 1)) = kbits i bits + 2 ^ (15 - (i + j)) := by
  induction bits generalizing i j with
  | nil => simp at h
  | cons b bits ih =>
    cases j with
    | zero =>
      simp only [List.set_cons_zero, List.getD_cons_zero, kbits, Nat.add_mul, Nat.one_mul, Nat.add_zero]; omega
    | succ j =>
      simp only [List.set_cons_succ, List.getD_cons_succ, kbits]
      rw [ih (i + 1) j (by simpa using h), show i + 1 + j = i + (j + 1) by omega]; omega

theorem countLengths_spec (lens bits : List Nat) (hall : ∀ l ∈ lens, l ≤ 16) (hb : bits.length = 16)
    (hsum : bits.sum + Huffman.used lens ≤ 255) :
    ∃ bits', countLengths lens bits = .ok (some bits') ∧ bits'.length = 16 ∧
      bits'.sum = bits.sum + Huffman.used lens ∧
      kbits 0 bits' = kbits 0 bits + Huffman.ksum 16 lens ∧
      ∀ j < 16, bits'.getD j 0 = bits.getD j 0 + lens.count (j + 1) := by
  induction lens generalizing bits with
  | nil => exact ⟨bits, rfl, hb, rfl, rfl, fun _ _ => rfl⟩
  | cons l lens ih =>
    have hl16 := hall l (by simp)
    have hall' : ∀ x ∈ lens, x ≤ 16 := fun x hx => hall x (by simp [hx])
    rw [Huffman.used_cons] at hsum
    rw [countLengths]
    by_cases h0 : l = 0
    · rw [if_pos h0] at hsum ⊢
      obtain ⟨b', e, g1, g2, g3, g4⟩ := ih bits hall' hb (by omega)
      refine ⟨b', e, g1, by rw [Huffman.used_cons, if_pos h0, g2]; omega, ?_, ?_⟩
      · rw [g3, Huffman.ksum_cons, h0, Huffman.weight_zero]; omega
      · intro j hj; rw [g4 j hj, List.count_cons, h0]; simp
    · rw [if_neg h0] at hsum ⊢
      have hidx : l - 1 < bits.length := by omega
      have hle := getD_le_sum bits (l - 1)
      rw [if_neg (by omega), Huffman.getChecked_getD hidx, ok_bind, addU8, if_pos (by omega), ok_bind]
      have hset := Huffman.sum_set id bits (l - 1) (bits.getD (l - 1) 0 + 1) hidx
      simp only [List.map_id, id] at hset
      obtain ⟨b', e, g1, g2, g3, g4⟩ := ih (bits.set (l - 1) (bits.getD (l - 1) 0 + 1)) hall'
        (by simpa using hb) (by omega)
      refine ⟨b', e, g1, by rw [Huffman.used_cons, if_neg h0, g2]; omega, ?_, ?_⟩
      · rw [g3, kbits_set 0 bits (l - 1) hidx, Huffman.ksum_cons, Huffman.weight_pos (by omega),
          show 15 - (0 + (l - 1)) = 16 - l by omega]; omega
      · intro j hj
        rw [g4 j hj, Huffman.getD_set _ _ _ _ hidx, List.count_cons]
        by_cases h : j = l - 1
        · rw [if_pos h, h, show l - 1 + 1 = l by omega]; simp; omega
        · rw [if_neg h]
          have : ¬ l = j + 1 := by omega
          simp [this]

theorem codesFrom_fit (c L B : Nat) (l : List Nat) (hL : L ≤ 16) (hl : ∀ s ∈ l, L ≤ s ∧ s ≤ 16)
    (hs : l.Pairwise (· ≤ ·)) (hB : c * 2 ^ (16 - L) + (l.map (fun s => 2 ^ (16 - s))).sum ≤ B) :
    ∀ p ∈ codesFrom c L l, (p.1 + 1) * 2 ^ (16 - p.2) ≤ B := by
  induction l generalizing c L with
  | nil => intro p hp; simp [codesFrom] at hp
  | cons s l ih =>
    obtain ⟨h1, h2⟩ := hl s (by simp)
    rw [List.pairwise_cons] at hs
    have hmul : c * 2 ^ (s - L) * 2 ^ (16 - s) = c * 2 ^ (16 - L) := by
      rw [Nat.mul_assoc, ← Nat.pow_add, show s - L + (16 - s) = 16 - L by omega]
    rw [List.map_cons, List.sum_cons] at hB
    intro p hp
    rw [codesFrom] at hp
    rcases List.mem_cons.mp hp with rfl | hp
    · simp only [Nat.add_mul, Nat.one_mul]; rw [hmul]; omega
    · refine ih (c * 2 ^ (s - L) + 1) s h2 (fun x hx => ⟨hs.1 x hx, (hl x (by simp [hx])).2⟩) hs.2 ?_ p hp
      simp only [Nat.add_mul, Nat.one_mul]; rw [hmul]; omega

theorem used_eq_filter (lens : List Nat) :
    ((List.range lens.length).filter (fun i => lens.getD i 0 > 0)).length = Huffman.used lens := by
  induction lens with
  | nil => rfl
  | cons l lens ih =>
    rw [List.length_cons, List.range_succ_eq_map, List.filter_cons, Huffman.used_cons, ← ih, List.filter_map,
      List.getD_cons_zero]
    simp only [Function.comp_def, List.getD_cons_succ]
    by_cases h : l = 0
    · rw [if_pos h, if_neg (by simp [h]), List.length_map]; omega
    · rw [if_neg h, if_pos (by simp; omega), List.length_cons, List.length_map]; omega

theorem sortedVals_perm (lens : List Nat) (h : lens.length ≤ 256) :
    (sortedVals lens).Perm ((List.range lens.length).filter (fun i => lens.getD i 0 > 0)) := by
  unfold sortedVals
  refine (List.mergeSort_perm _ _).trans ?_
  rw [List.map_congr_left (g := id) (fun a ha => ?_), List.map_id]
  have := List.mem_range.1 (List.mem_filter.1 ha).1
  exact Nat.mod_eq_of_lt (by omega)

/-- A table built from statistics. -/
structure BuiltFrom (counts : List Nat) (spec : List Nat × List Nat) : Prop where
  legal : (⟨spec.1, spec.2⟩ : Spec.T81.Table).Legal
  lt : ∀ v ∈ spec.2, v < counts.length
  mem : ∀ s, s ∈ spec.2 ↔ counts.getD s 0 ≠ 0

theorem buildBitsVals_spec (counts : List Nat) (hlen : counts.length ≤ 256) (hu : Huffman.used counts ≤ 255)
    (hsum : counts.sum < 2 ^ 64) :
    (buildBitsVals counts = .ok none ∧ Overlong counts) ∨ ∃ spec, buildBitsVals counts = .ok (some spec) ∧ BuiltFrom counts spec := by
  unfold buildBitsVals
  rcases buildCodeLengths_spec counts hu hsum with ⟨e, hlong⟩ | ⟨lens, e, hs, hall, hk⟩
  · left; rw [e]; exact ⟨rfl, hlong⟩
  · right
    rw [e, ok_bind]
    simp only
    have husd := hs.used_eq
    obtain ⟨bits, e2, g1, g2, g3, g4⟩ := countLengths_spec lens (List.replicate 16 0) hall
      List.length_replicate (by rw [List.sum_replicate_nat]; omega)
    rw [List.sum_replicate_nat] at g2
    rw [e2, ok_bind]
    have hp := sortedVals_perm lens (by rw [hs.1]; exact hlen)
    have hmem : ∀ s, s ∈ sortedVals lens ↔ counts.getD s 0 ≠ 0 := by
      intro s
      rw [hp.mem_iff, List.mem_filter, List.mem_range]
      have := hs.2 s
      constructor
      · rintro ⟨_, h⟩; simp only [decide_eq_true_eq] at h; omega
      · intro h
        refine ⟨?_, by simp only [decide_eq_true_eq]; omega⟩
        rcases Nat.lt_or_ge s lens.length with g | g
        · exact g
        · have : lens.getD s 0 = 0 := by
            rw [List.getD_eq_getElem?_getD, List.getElem?_eq_none g]; rfl
          omega
    have hlt : ∀ v ∈ sortedVals lens, v < counts.length := by
      intro v hv
      have := List.mem_range.1 (List.mem_filter.1 (hp.mem_iff.1 hv)).1
      rw [hs.1] at this; exact this
    have hkz : kbits 0 (List.replicate 16 0) = 0 := by decide
    refine ⟨_, rfl, ⟨g1, ?_, ?_, ?_, ?_, ?_⟩, hlt, hmem⟩
    · intro b hb
      have := Huffman.le_sum_map id hb
      simp only [List.map_id, id] at this
      omega
    · show (sortedVals lens).length = bits.sum
      rw [hp.length_eq, used_eq_filter]; omega
    · rw [hp.nodup_iff]; exact List.nodup_range.filter _
    · intro v hv; have := hlt v hv; omega
    · intro c hc
      have hc' := hc
      simp only [codes, sizes_eq] at hc
      have hfit := codesFrom_fit 0 0 (2 ^ 15) (sizesAt 0 bits) (by omega)
        (fun s hs => ⟨by omega, by have := sizesAt_le 0 bits s hs; omega⟩) (sizesAt_sorted 0 bits)
        (by rw [kbits_sizes]; omega) c hc
      have hsz := codes_size hc'
      rw [show (⟨bits, sortedVals lens⟩ : Spec.T81.Table).bits = bits from rfl, g1] at hsz
      have h16 : (2 : Nat) ^ 15 = 2 ^ (c.2 - 1) * 2 ^ (16 - c.2) := by
        rw [← Nat.pow_add, show c.2 - 1 + (16 - c.2) = 15 by omega]
      rw [h16] at hfit
      have := Nat.le_of_mul_le_mul_right hfit (Nat.two_pow_pos _)
      have h2 : (2 : Nat) ^ c.2 = 2 ^ (c.2 - 1) * 2 := by
        rw [← Nat.pow_succ, show (c.2 - 1).succ = c.2 by omega]
      have := Nat.two_pow_pos (c.2 - 1)
      omega

theorem specTable_spec (n : Nat) (spec : List Nat × List Nat) (h : (⟨spec.1, spec.2⟩ : Spec.T81.Table).Legal)
    (hlt : ∀ v ∈ spec.2, v < n) :
    ∃ t, specTable n spec = .ok (some t) ∧ TableOk n t ∧ t.bits = spec.1 ∧ t.vals = spec.2 := by
  refine ⟨_, ?_, tableOk_assign n spec.1 spec.2 h hlt, rfl, rfl⟩
  rw [specTable, (build_spec n spec.1 spec.2 h hlt).2]; rfl

theorem used_le (counts : List Nat) : Huffman.used counts ≤ counts.length := by
  have := Huffman.sum_map_le (fun l => if l = 0 then 0 else 1) (fun _ => 1) (l := counts)
    (fun v _ => by split <;> omega)
  rw [Huffman.sum_map_const] at this
  unfold Huffman.used; omega

theorem used_lt (counts : List Nat) (i : Nat) (hi : i < counts.length) (h : counts.getD i 0 = 0) :
    Huffman.used counts < counts.length := by
  have h1 := Huffman.sum_set (fun l => if l = 0 then 0 else 1) counts i 1 hi
  have h2 := used_le (counts.set i 1)
  rw [h] at h1
  rw [List.length_set] at h2
  unfold Huffman.used at h2 ⊢
  simp only [if_true, Nat.one_ne_zero, if_false] at h1
  omega

/-- The four arrays of statistics of a scan's symbols. -/
theorem counts_facts {k : Counts} {syms : List (Bool × Bool × Nat)} (h : Counted Counts.zero syms k)
    (hok : ∀ s ∈ syms, symOk s) (hlen : syms.length < 2 ^ 64) (dc lum : Bool) :
    (k.get dc lum).length = (if dc then 12 else 256) ∧ Huffman.used (k.get dc lum) ≤ 255 ∧
    (k.get dc lum).sum < 2 ^ 64 ∧ ∀ s, (k.get dc lum).getD s 0 ≠ 0 ↔ (dc, lum, s) ∈ syms := by
  have hz : Counts.zero.get dc lum = List.replicate (if dc then 12 else 256) 0 := by
    cases dc <;> cases lum <;> rfl
  obtain ⟨h1, h2, h3⟩ := h dc lum
  rw [hz] at h1 h2 h3
  rw [List.length_replicate] at h1
  rw [List.sum_replicate_nat] at h2
  have hget : ∀ s, (k.get dc lum).getD s 0 ≠ 0 ↔ (dc, lum, s) ∈ syms := by
    intro s
    rw [h3 s, getD_zeros, ← mem_ofClass, ← List.count_pos_iff]; omega
  refine ⟨h1, ?_, ?_, hget⟩
  · cases dc with
    | true => have := used_le (k.get true lum); simp only [if_true] at h1; omega
    | false =>
      simp only [Bool.false_eq_true, if_false] at h1
      have : (k.get false lum).getD 15 0 = 0 := by
        apply Decidable.byContradiction
        intro c
        have := hok _ ((hget 15).1 c)
        simp [symOk, acSymbol] at this
      have := used_lt _ 15 (by omega) this
      omega
  · have := ofClass_length_le dc lum syms; omega

theorem chromSpec_spec (counts : List Nat) (n : Nat) (bits vals : List Nat) (hn : counts.length = n)
    (hn2 : n ≤ 256) (hu : Huffman.used counts ≤ 255) (hsum : counts.sum < 2 ^ 64)
    (hstd : (⟨bits, vals⟩ : Spec.T81.Table).Legal) (hstdn : ∀ v ∈ vals, v < n)
    (hin : ∀ s, counts.getD s 0 ≠ 0 → s ∈ vals) (o : Option (List Nat)) (ho : o = none ∨ o = some counts) :
    ∃ spec, chromSpec o bits vals = .ok spec ∧ (⟨spec.1, spec.2⟩ : Spec.T81.Table).Legal ∧
      (∀ v ∈ spec.2, v < n) ∧ ∀ s, counts.getD s 0 ≠ 0 → s ∈ spec.2 := by
  rcases ho with rfl | rfl
  · exact ⟨_, rfl, hstd, hstdn, hin⟩
  · rw [chromSpec]
    rcases buildBitsVals_spec counts (by omega) hu hsum with ⟨e, _⟩ | ⟨spec, e, b⟩
    · rw [e]; exact ⟨_, rfl, hstd, hstdn, hin⟩
    · rw [e]; exact ⟨spec, rfl, b.legal, fun v hv => by have := b.lt v hv; omega, fun s hs => (b.mem s).2 hs⟩

/-- Luminance symbols for which no optimized tables are made: some class has none, or there are more than 16
AC symbols. -/
def Unfit (syms : List (Bool × Bool × Nat)) : Prop :=
  (∀ v, (true, true, v) ∉ syms) ∨ (∀ v, (false, true, v) ∉ syms) ∨
    ∀ l : List Nat, (∀ v, (false, true, v) ∈ syms → v ∈ l) → 16 < l.length

theorem optimizedFromCounts_spec {k : Counts} {syms : List (Bool × Bool × Nat)}
    (h : Counted Counts.zero syms k) (hok : ∀ s ∈ syms, symOk s) (hlen : syms.length < 2 ^ 64)
    (o1 o2 : Option (List Nat)) (h1 : o1 = none ∨ o1 = some k.dcChrom) (h2 : o2 = none ∨ o2 = some k.acChrom) :
    (HuffTables.optimizedFromCounts k.dcLum o1 k.acLum o2 = .ok none ∧ Unfit syms) ∨
    ∃ t, HuffTables.optimizedFromCounts k.dcLum o1 k.acLum o2 = .ok (some t) ∧ TablesOk t ∧ Covers t syms ∧
      (∀ v, v ∈ t.dcLum.vals ↔ (true, true, v) ∈ syms) ∧ (∀ v, v ∈ t.acLum.vals ↔ (false, true, v) ∈ syms) := by
  obtain ⟨a1, a2, a3, a4⟩ := counts_facts h hok hlen true true
  obtain ⟨b1, b2, b3, b4⟩ := counts_facts h hok hlen true false
  obtain ⟨c1, c2, c3, c4⟩ := counts_facts h hok hlen false true
  obtain ⟨d1, d2, d3, d4⟩ := counts_facts h hok hlen false false
  unfold HuffTables.optimizedFromCounts
  rcases buildBitsVals_spec k.dcLum (by rw [show k.dcLum.length = 12 from a1]; omega) a2 a3 with ⟨e, hlong⟩ | ⟨s1, e1, f1⟩
  · left; rw [e]
    refine ⟨rfl, Or.inl ?_⟩
    rcases hlong with h | h
    · exact fun v hv => (a4 v).2 hv (h v)
    · have := h (List.range 12) (fun s hs => by
        have := hok _ ((a4 s).1 hs)
        simp only [symOk, if_true] at this
        rw [List.mem_range]; omega)
      simp at this
  rcases buildBitsVals_spec k.acLum (by rw [show k.acLum.length = 256 from c1]; omega) c2 c3 with ⟨e, hlong⟩ | ⟨s2, e2, f2⟩
  · left; rw [e1, ok_bind]; simp only; rw [e]
    refine ⟨rfl, Or.inr ?_⟩
    rcases hlong with h | h
    · exact Or.inl fun v hv => (c4 v).2 hv (h v)
    · exact Or.inr fun l hl => h l (fun s hs => hl s ((c4 s).1 hs))
  right
  obtain ⟨s3, e3, f3, g3, i3⟩ := chromSpec_spec k.dcChrom 12 dcChromBits dcChromVals b1 (by omega) b2 b3
    legal_dcChrom (by decide +kernel) (fun s hs => by
      have := hok _ ((b4 s).1 hs)
      simp only [symOk, if_true] at this
      exact (std_dc s this).2) o1 h1
  obtain ⟨s4, e4, f4, g4, i4⟩ := chromSpec_spec k.acChrom 256 acChromBits acChromVals d1 (by omega) d2 d3
    legal_acChrom (by decide +kernel) (fun s hs => by
      have := hok _ ((d4 s).1 hs)
      simp only [symOk, Bool.false_eq_true, if_false] at this
      exact (std_ac s this).2) o2 h2
  obtain ⟨t1, u1, v1, _, x1⟩ := specTable_spec 12 s1 f1.legal
    (fun v hv => by have := f1.lt v hv; rw [show k.dcLum.length = 12 from a1] at this; exact this)
  obtain ⟨t2, u2, v2, _, x2⟩ := specTable_spec 256 s2 f2.legal
    (fun v hv => by have := f2.lt v hv; rw [show k.acLum.length = 256 from c1] at this; exact this)
  obtain ⟨t3, u3, v3, _, x3⟩ := specTable_spec 12 s3 f3 g3
  obtain ⟨t4, u4, v4, _, x4⟩ := specTable_spec 256 s4 f4 g4
  refine ⟨⟨t1, t3, t2, t4⟩, ?_, ⟨v1, v3, v2, v4⟩, ?_, ?_, ?_⟩
  · rw [e1, ok_bind]
    simp only
    rw [e2, ok_bind]
    simp only
    rw [e3, ok_bind, e4, ok_bind, HuffTables.fromSpecs, u1, ok_bind]
    simp only
    rw [u3, ok_bind]
    simp only
    rw [u2, ok_bind]
    simp only
    rw [u4, ok_bind]
    rfl
  · rintro ⟨dc, lum, s⟩ hs
    cases dc <;> cases lum
    · show s ∈ t4.vals
      rw [x4]; exact i4 s ((d4 s).2 hs)
    · show s ∈ t2.vals
      rw [x2, f2.mem]; exact (c4 s).2 hs
    · show s ∈ t3.vals
      rw [x3]; exact i3 s ((b4 s).2 hs)
    · show s ∈ t1.vals
      rw [x1, f1.mem]; exact (a4 s).2 hs
  · intro v
    show v ∈ t1.vals ↔ _
    rw [x1, f1.mem]; exact a4 v
  · intro v
    show v ∈ t2.vals ↔ _
    rw [x2, f2.mem]; exact c4 v

theorem std_covers {t : HuffTables} (ht : HuffTables.std = .ok t) {syms : List (Bool × Bool × Nat)}
    (hok : ∀ s ∈ syms, symOk s) : TablesOk t ∧ Covers t syms := by
  obtain ⟨t', e, h, _, v1, _, v2, _, v3, _, v4⟩ := std_spec
  rw [ht] at e
  injection e with e
  subst e
  refine ⟨h, ?_⟩
  rintro ⟨dc, lum, s⟩ hs
  have := hok _ hs
  cases dc <;> cases lum <;> simp only [symOk, if_true, Bool.false_eq_true, if_false] at this
  · show s ∈ t.acChrom.vals
    rw [v4]; exact (std_ac s this).2
  · show s ∈ t.acLum.vals
    rw [v3]; exact (std_ac s this).1
  · show s ∈ t.dcChrom.vals
    rw [v2]; exact (std_dc s this).2
  · show s ∈ t.dcLum.vals
    rw [v1]; exact (std_dc s this).1

theorem zero_room {n : Nat} (h : n < 2 ^ 64) : Room Counts.zero n := by
  have hz : ∀ dc lum, Counts.zero.get dc lum = List.replicate (if dc then 12 else 256) 0 := by
    intro dc lum; cases dc <;> cases lum <;> rfl
  refine ⟨fun dc lum => by rw [hz, List.length_replicate], fun dc lum => ?_⟩
  rw [hz, List.sum_replicate_nat]; omega

/-- An MCU has at most six blocks (four luma and two chroma blocks). -/
def McuSize (mcus : List Mcu) : Prop := ∀ m ∈ mcus, m.length ≤ 6

theorem scanSyms_bound {interval total} {mcus : List Mcu} {count prev} (h6 : McuSize mcus)
    (hn : mcus.length < 2 ^ 32) : (scanSyms interval total mcus count prev).length < 2 ^ 64 := by
  have := scanSyms_length interval total mcus count prev 6 h6
  omega

theorem buildOptimized_spec (gray : Bool) (mcus : List Mcu) (interval : Option Nat) (total : Nat)
    (hm : ∀ m ∈ mcus, McuRange m) (h6 : McuSize mcus) (hn : mcus.length < 2 ^ 32) :
    (buildOptimized gray mcus interval total = .ok none ∧ Unfit (scanSyms interval total mcus 0 [0, 0, 0])) ∨
    ∃ t, buildOptimized gray mcus interval total = .ok (some t) ∧ TablesOk t ∧
      Covers t (scanSyms interval total mcus 0 [0, 0, 0]) ∧
      (∀ v, v ∈ t.dcLum.vals ↔ (true, true, v) ∈ scanSyms interval total mcus 0 [0, 0, 0]) ∧
      (∀ v, v ∈ t.acLum.vals ↔ (false, true, v) ∈ scanSyms interval total mcus 0 [0, 0, 0]) := by
  obtain ⟨k, e, hc⟩ := countMcus_spec interval total mcus 0 Counts.zero [0, 0, 0] hm prevOk_zero (by omega)
    (zero_room (scanSyms_bound h6 hn))
  have hok := scanSyms_ok interval total mcus 0 [0, 0, 0] hm prevOk_zero
  unfold buildOptimized
  rw [e, ok_bind]
  cases gray
  · exact optimizedFromCounts_spec hc hok (scanSyms_bound h6 hn) _ _ (Or.inr rfl) (Or.inr rfl)
  · exact optimizedFromCounts_spec hc hok (scanSyms_bound h6 hn) _ _ (Or.inl rfl) (Or.inl rfl)

end Pixo.Jpeg
