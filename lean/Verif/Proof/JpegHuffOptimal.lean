import Verif.Proof.HuffmanOptimal
import Verif.Proof.JpegOpt
/-
The optimized Huffman tables of the JPEG encoder give every symbol one bit more than a Huffman code.
-/
namespace Pixo.Jpeg
open Pixo Spec.Prefix
open Pixo.Huffman (Merges dot)

/-! ### The tree -/

theorem foldl_least (l : List Entry) (e : Entry) :
    ∀ x ∈ e :: l, (l.foldl (fun m x => if x.before m then x else m) e).freq ≤ x.freq := by
  have hb : ∀ a b : Entry, a.before b = true → a.freq ≤ b.freq := by
    intro a b h
    simp only [Entry.before, Bool.or_eq_true, Bool.and_eq_true, decide_eq_true_eq, beq_iff_eq] at h
    omega
  have hn : ∀ a b : Entry, ¬ a.before b = true → b.freq ≤ a.freq := by
    intro a b h
    simp only [Entry.before, Bool.or_eq_true, Bool.and_eq_true, decide_eq_true_eq, beq_iff_eq] at h
    omega
  induction l generalizing e with
  | nil => intro x hx; simp at hx; subst hx; exact Nat.le_refl _
  | cons a l ih =>
    intro x hx
    rw [List.foldl_cons]
    have hm := ih (if a.before e then a else e) _ (List.mem_cons_self ..)
    rcases List.mem_cons.1 hx with rfl | hx
    · refine Nat.le_trans hm ?_
      split
      · rename_i h; exact hb _ _ h
      · exact Nat.le_refl _
    · rcases List.mem_cons.1 hx with rfl | hx
      · refine Nat.le_trans hm ?_
        split
        · exact Nat.le_refl _
        · rename_i h; exact hn _ _ h
      · exact ih _ x (List.mem_cons_of_mem _ hx)

theorem popMin_least (heap : List Entry) (hne : heap ≠ []) :
    ∃ m rest, popMin heap = some (m, rest) ∧ heap.Perm (m :: rest) ∧ ∀ x ∈ heap, m.freq ≤ x.freq := by
  cases heap with
  | nil => exact absurd rfl hne
  | cons e es =>
    refine ⟨_, _, rfl, List.perm_cons_erase ?_, foldl_least es e⟩
    exact foldl_mem _ (fun a b => by by_cases h : b.before a = true <;> simp [h]) es e

/-- Weight of the symbols below a node. -/
def Node.weight (f : Nat → Nat) : Node → Nat
  | .leaf s => f s
  | .node l r => l.weight f + r.weight f

/-- Total weight of the inner nodes. -/
def Node.cost (f : Nat → Nat) : Node → Nat
  | .leaf _ => 0
  | .node l r => l.weight f + r.weight f + l.cost f + r.cost f

/-- `len` is one more than the depth of each leaf, the root being at depth `d`. -/
def Node.At (len : Nat → Nat) : Node → Nat → Prop
  | .leaf s, d => len s = d + 1
  | .node l r, d => l.At len (d + 1) ∧ r.At len (d + 1)

/-- Total of weight times length. -/
def symBits (f len : Nat → Nat) (syms : List Nat) : Nat := (syms.map (fun s => f s * len s)).sum

theorem Node.symBits_eq (f len : Nat → Nat) (t : Node) (d : Nat) (h : t.At len d) :
    symBits f len t.leaves = t.weight f * (d + 1) + t.cost f := by
  induction t generalizing d with
  | leaf s =>
    have h : len s = d + 1 := h
    simp [symBits, Node.leaves, Node.weight, Node.cost, h]
  | node l r ih1 ih2 =>
    have e1 := ih1 _ h.1
    have e2 := ih2 _ h.2
    unfold symBits at e1 e2 ⊢
    rw [Node.leaves, List.map_append, List.sum_append, e1, e2, Node.weight, Node.cost,
      Nat.mul_succ, Nat.mul_succ (r.weight f), Nat.add_mul]
    omega

theorem Node.weight_leaves (f : Nat → Nat) (t : Node) : t.weight f = (t.leaves.map f).sum := by
  induction t with
  | leaf s => simp [Node.weight, Node.leaves]
  | node l r ih1 ih2 => rw [Node.weight, Node.leaves, List.map_append, List.sum_append, ih1, ih2]

def heapCost (f : Nat → Nat) (h : List Entry) : Nat := (h.map (fun e => e.node.cost f)).sum

theorem heapCost_perm (f : Nat → Nat) {a b : List Entry} (h : a.Perm b) : heapCost f a = heapCost f b :=
  (h.map _).sum_nat

theorem buildTree_merges (f : Nat → Nat) (fuel : Nat) (heap : List Entry) (next : Nat) (root : Node)
    (hne : heap ≠ []) (hw : ∀ e ∈ heap, e.freq = e.node.weight f)
    (h : buildTree fuel heap next = .ok root) :
    ∃ c, Merges (heap.map Entry.freq) c ∧ root.cost f = heapCost f heap + c := by
  induction fuel generalizing heap next with
  | zero => cases h
  | succ fuel ih =>
    rw [buildTree] at h
    obtain ⟨l, h', e1, p1, m1⟩ := popMin_least heap hne
    have hlen' : h'.length + 1 = heap.length := by simpa using p1.length_eq.symm
    by_cases h1 : heap.length > 1
    · rw [if_pos h1] at h
      have hne' : h' ≠ [] := by rintro rfl; simp at hlen'; omega
      obtain ⟨r, h'', e2, p2, m2⟩ := popMin_least h' hne'
      rw [e1] at h; simp only [] at h; rw [e2] at h; simp only [] at h
      have p : heap.Perm (l :: r :: h'') := p1.trans (p2.cons l)
      have hmem : ∀ t, t = l ∨ t = r ∨ t ∈ h'' → t.freq = t.node.weight f :=
        fun t ht => hw t (p.mem_iff.2 (by simpa using ht))
      have hl := hmem l (by simp)
      have hr := hmem r (by simp)
      rw [addU64] at h
      by_cases ho : l.freq + r.freq < 2 ^ 64
      · rw [if_pos ho, ok_bind] at h
        obtain ⟨c, hc, hcost⟩ := ih (⟨l.freq + r.freq, next, .node l.node r.node⟩ :: h'') (next + 1) (by simp) (by
          intro t ht
          rcases List.mem_cons.1 ht with rfl | ht
          · show l.freq + r.freq = l.node.weight f + r.node.weight f
            omega
          · exact hmem t (by simp [ht])) h
        refine ⟨l.freq + r.freq + c, ?_, ?_⟩
        · refine .step (p.map Entry.freq) (m1 r (p.mem_iff.2 (by simp))) ?_ hc
          intro x hx
          obtain ⟨t, ht, rfl⟩ := List.mem_map.1 hx
          exact m2 t (p2.mem_iff.2 (by simp [ht]))
        · rw [hcost, heapCost_perm f p]
          simp only [heapCost, List.map_cons, List.sum_cons, Node.cost]
          omega
      · rw [if_neg ho] at h; cases h
    · rw [if_neg h1, e1] at h
      have : h' = [] := by rw [← List.length_eq_zero_iff]; omega
      subst this
      injection h with h
      subst h
      have := List.perm_singleton.1 p1
      subst this
      exact ⟨0, .one _, by simp [heapCost]⟩

theorem walk_other (t : Node) (d : Nat) (lens lens' : List Nat) (h : walk t d lens = .ok (some lens')) :
    ∀ s, s ∉ t.leaves → lens'.getD s 0 = lens.getD s 0 := by
  induction t generalizing d lens lens' with
  | leaf s =>
    intro k hk
    rw [walk, addU8] at h
    by_cases hd : d + 1 < 2 ^ 8
    · rw [if_pos hd, ok_bind] at h
      by_cases h16 : d + 1 > 16
      · rw [if_pos h16] at h; cases h
      · rw [if_neg h16, setChecked] at h
        by_cases hs : s < lens.length
        · rw [if_pos hs, ok_bind] at h
          injection h with h
          injection h with h
          rw [← h, Huffman.getD_set _ _ _ _ hs, if_neg (by simpa [Node.leaves] using hk)]
        · rw [if_neg hs] at h; cases h
    · rw [if_neg hd] at h; cases h
  | node l r ih1 ih2 =>
    intro k hk
    simp only [Node.leaves, List.mem_append, not_or] at hk
    rw [walk, addU8] at h
    by_cases hd : d + 1 < 2 ^ 8
    · rw [if_pos hd, ok_bind] at h
      cases e : walk r (d + 1) lens with
      | error x => rw [e] at h; cases h
      | ok o =>
        rw [e, ok_bind] at h
        cases o with
        | none => cases h
        | some l1 =>
          simp only [] at h
          rw [ih1 _ _ _ h k hk.1, ih2 _ _ _ e k hk.2]
    · rw [if_neg hd] at h; cases h

theorem Node.At.congr {len len' : Nat → Nat} {t : Node} {d : Nat} (h : t.At len d)
    (e : ∀ s ∈ t.leaves, len' s = len s) : t.At len' d := by
  induction t generalizing d with
  | leaf s => exact (e s (by simp [Node.leaves])).trans h
  | node l r ih1 ih2 =>
    exact ⟨ih1 h.1 (fun s hs => e s (by simp [Node.leaves, hs])),
      ih2 h.2 (fun s hs => e s (by simp [Node.leaves, hs]))⟩

theorem walk_at (t : Node) (d : Nat) (lens lens' : List Nat) (hnd : t.leaves.Nodup)
    (h : walk t d lens = .ok (some lens')) : t.At (fun s => lens'.getD s 0) d := by
  induction t generalizing d lens lens' with
  | leaf s =>
    rw [walk, addU8] at h
    by_cases hd : d + 1 < 2 ^ 8
    · rw [if_pos hd, ok_bind] at h
      by_cases h16 : d + 1 > 16
      · rw [if_pos h16] at h; cases h
      · rw [if_neg h16, setChecked] at h
        by_cases hs : s < lens.length
        · rw [if_pos hs, ok_bind] at h
          injection h with h
          injection h with h
          show lens'.getD s 0 = d + 1
          rw [← h, Huffman.getD_set _ _ _ _ hs, if_pos rfl]
        · rw [if_neg hs] at h; cases h
    · rw [if_neg hd] at h; cases h
  | node l r ih1 ih2 =>
    simp only [Node.leaves] at hnd
    rw [List.nodup_append] at hnd
    rw [walk, addU8] at h
    by_cases hd : d + 1 < 2 ^ 8
    · rw [if_pos hd, ok_bind] at h
      cases e : walk r (d + 1) lens with
      | error x => rw [e] at h; cases h
      | ok o =>
        rw [e, ok_bind] at h
        cases o with
        | none => cases h
        | some l1 =>
          simp only [] at h
          refine ⟨ih1 _ _ _ hnd.1 h, (ih2 _ _ _ hnd.2.1 e).congr (fun s hs => ?_)⟩
          exact walk_other l _ _ _ h s (fun hl => hnd.2.2 s hl s hs rfl)
    · rw [if_neg hd] at h; cases h

/-! ### A better code from the same tree -/

/-- The way from the root to a leaf. -/
def Node.path : Node → Nat → List Bool
  | .leaf _, _ => []
  | .node l r, s => if s ∈ l.leaves then false :: l.path s else true :: r.path s

/-- The rightmost leaf. -/
def Node.last : Node → Nat
  | .leaf s => s
  | .node _ r => r.last

theorem Node.last_mem (t : Node) : t.last ∈ t.leaves := by
  induction t with
  | leaf s => simp [Node.last, Node.leaves]
  | node l r _ ih => simp [Node.last, Node.leaves, ih]

theorem Node.path_length {len : Nat → Nat} {t : Node} {d : Nat} (h : t.At len d) :
    ∀ s ∈ t.leaves, d + (t.path s).length + 1 = len s := by
  induction t generalizing d with
  | leaf s =>
    intro k hk
    have : k = s := by simpa [Node.leaves] using hk
    subst this
    have h : len k = d + 1 := h
    simp [Node.path, h]
  | node l r ih1 ih2 =>
    intro s hs
    rw [Node.path]
    by_cases hl : s ∈ l.leaves
    · rw [if_pos hl, List.length_cons]
      have := ih1 h.1 s hl; omega
    · rw [if_neg hl, List.length_cons]
      have := ih2 h.2 s (by simpa [Node.leaves, hl] using hs); omega

theorem Node.path_prefix (t : Node) : ∀ a ∈ t.leaves, ∀ b ∈ t.leaves, t.path a <+: t.path b → a = b := by
  induction t with
  | leaf s =>
    intro a ha b hb _
    simp only [Node.leaves, List.mem_singleton] at ha hb
    rw [ha, hb]
  | node l r ih1 ih2 =>
    intro a ha b hb h
    rw [Node.path, Node.path] at h
    by_cases h1 : a ∈ l.leaves <;> by_cases h2 : b ∈ l.leaves
    · rw [if_pos h1, if_pos h2, List.cons_prefix_cons] at h
      exact ih1 a h1 b h2 h.2
    · rw [if_pos h1, if_neg h2, List.cons_prefix_cons] at h
      exact absurd h.1 (by simp)
    · rw [if_neg h1, if_pos h2, List.cons_prefix_cons] at h
      exact absurd h.1 (by simp)
    · rw [if_neg h1, if_neg h2, List.cons_prefix_cons] at h
      exact ih2 a (by simpa [Node.leaves, h1] using ha) b (by simpa [Node.leaves, h2] using hb) h.2

theorem Node.path_zero (t : Node) : ∀ s ∈ t.leaves, s ≠ t.last → false ∈ t.path s := by
  induction t with
  | leaf k =>
    intro s hs hne
    exact absurd (by simpa [Node.leaves, Node.last] using hs) hne
  | node l r _ ih =>
    intro s hs hne
    rw [Node.path]
    by_cases h1 : s ∈ l.leaves
    · rw [if_pos h1]; simp
    · rw [if_neg h1]
      exact List.mem_cons_of_mem _ (ih s (by simpa [Node.leaves, h1] using hs) hne)

/-- The path, the one made of ones only extended by a zero. -/
def Node.code (t : Node) (s : Nat) : List Bool := if s = t.last then t.path s ++ [false] else t.path s

theorem Node.code_prefix (t : Node) : ∀ a ∈ t.leaves, ∀ b ∈ t.leaves, t.code a <+: t.code b → a = b := by
  intro a ha b hb h
  unfold Node.code at h
  by_cases h1 : a = t.last <;> by_cases h2 : b = t.last
  · rw [h1, h2]
  · rw [if_pos h1, if_neg h2] at h
    exact t.path_prefix a ha b hb ((List.prefix_append _ _).trans h)
  · rw [if_neg h1, if_pos h2, List.prefix_concat_iff] at h
    rcases h with h | h
    · exact (t.path_prefix b hb a ha (h ▸ List.prefix_append _ _)).symm
    · exact t.path_prefix a ha b hb h
  · rw [if_neg h1, if_neg h2] at h
    exact t.path_prefix a ha b hb h

/-! ### Code lengths -/

theorem leaves_facts (fs : List Nat) (i idx : Nat) (h : i + fs.length ≤ 2 ^ 16) :
    (leaves fs i idx).map Entry.freq = (Huffman.nonZero fs i).map Prod.snd ∧
    heapSyms (leaves fs i idx) = (Huffman.nonZero fs i).map Prod.fst ∧
    ∀ e ∈ leaves fs i idx, ∃ s, e.node = .leaf s ∧ i ≤ s ∧ e.freq = fs.getD (s - i) 0 := by
  induction fs generalizing i idx with
  | nil => exact ⟨rfl, rfl, by simp [leaves]⟩
  | cons f fs ih =>
    rw [List.length_cons] at h
    by_cases hf : f = 0
    · obtain ⟨h1, h2, h3⟩ := ih (i + 1) idx (by omega)
      rw [leaves, if_pos hf, Huffman.nonZero, if_neg (by omega)]
      refine ⟨h1, h2, fun e he => ?_⟩
      obtain ⟨s, a, b, c⟩ := h3 e he
      refine ⟨s, a, by omega, ?_⟩
      rw [c, show s - i = (s - (i + 1)) + 1 by omega, List.getD_cons_succ]
    · obtain ⟨h1, h2, h3⟩ := ih (i + 1) (idx + 1) (by omega)
      rw [leaves, if_neg hf, Huffman.nonZero, if_pos (by omega), Nat.mod_eq_of_lt (by omega)]
      refine ⟨by simp [h1], ?_, fun e he => ?_⟩
      · rw [List.map_cons, ← h2]; simp [heapSyms, Node.leaves]
      · rcases List.mem_cons.1 he with rfl | he
        · exact ⟨i, rfl, Nat.le_refl _, by simp⟩
        · obtain ⟨s, a, b, c⟩ := h3 e he
          refine ⟨s, a, by omega, ?_⟩
          rw [c, show s - i = (s - (i + 1)) + 1 by omega, List.getD_cons_succ]

theorem sum_lt (f g : Nat → Nat) (l : List Nat) (h : ∀ x ∈ l, f x ≤ g x) (y : Nat) (hy : y ∈ l) (hlt : f y < g y) :
    (l.map f).sum < (l.map g).sum := by
  have hle : ∀ l : List Nat, (∀ x ∈ l, f x ≤ g x) → (l.map f).sum ≤ (l.map g).sum := by
    intro l h
    induction l with
    | nil => simp
    | cons a l ih =>
      have := h a (by simp)
      have := ih (fun x hx => h x (by simp [hx]))
      simp only [List.map_cons, List.sum_cons]; omega
  induction l with
  | nil => simp at hy
  | cons a l ih =>
    have h1 := h a (by simp)
    simp only [List.map_cons, List.sum_cons]
    rcases List.mem_cons.1 hy with rfl | hy
    · have := hle l (fun x hx => h x (by simp [hx])); omega
    · have := ih (fun x hx => h x (by simp [hx])) hy; omega

/-- What is known of the lengths of two or more symbols. -/
structure OneMore (counts lens : List Nat) : Prop where
  ge : ∀ s, Occurs counts s → 2 ≤ lens.getD s 0
  least : Optimal counts (fun s => lens.getD s 0 - 1)
  better : ∃ code, T81Code counts code ∧
    totalBits counts (fun s => (code s).length) < totalBits counts (fun s => lens.getD s 0)

theorem buildCodeLengths_oneMore (counts lens : List Nat) (hlen : counts.length ≤ 2 ^ 16)
    (hu : 2 ≤ Huffman.used counts) (hu2 : Huffman.used counts ≤ 255) (hsum : counts.sum < 2 ^ 64)
    (h : buildCodeLengths counts = .ok (some lens)) : OneMore counts lens := by
  obtain ⟨h1, h2, h3, h4, h5, h6⟩ := leaves_spec counts 0 0
  have hmem : ∀ s, s ∈ heapSyms (leaves counts 0 0) ↔ Occurs counts s := by
    intro s; rw [h1]; simp [Occurs]
  have hlt : ∀ s, Occurs counts s → s < counts.length := by
    intro s hs
    rcases Nat.lt_or_ge s counts.length with h | h
    · exact h
    · unfold Occurs at hs
      rw [List.getD_eq_getElem?_getD, List.getElem?_eq_none h] at hs; exact absurd rfl hs
  obtain ⟨g1, g2, g3⟩ := leaves_facts counts 0 0 (by omega)
  have htb := Huffman.totalBits_eq counts hlen
  have hmer := fun c h code => Merges.le_totalBits (counts := counts) (c := c) hlen h code
  unfold buildCodeLengths at h
  generalize leaves counts 0 0 = heap at *
  have key : (do
      let root ← buildTree heap.length heap heap.length
      walk root 0 (List.replicate counts.length 0)) = (.ok (some lens) : R (Option (List Nat))) := by
    match heap, h4, h with
    | [], h4, _ => simp at h4; omega
    | [e], h4, _ => simp at h4; omega
    | a :: b :: r, h4, h =>
      cases a with
      | mk f i n => cases n <;> exact h
  clear h
  have hne : heap ≠ [] := by rintro rfl; simp at h4; omega
  obtain ⟨root, e, hp⟩ := buildTree_spec heap.length heap heap.length hne (Nat.le_refl _) (by omega)
  rw [e, ok_bind] at key
  have hin : ∀ s, s ∈ root.leaves ↔ Occurs counts s := fun s => by rw [hp.mem_iff, hmem]
  have hnd := hp.nodup_iff.2 h2
  have hat := walk_at root 0 _ lens hnd key
  let f : Nat → Nat := fun s => counts.getD s 0
  obtain ⟨c, hc, hcost⟩ := buildTree_merges f heap.length heap heap.length root hne (by
    intro t ht
    obtain ⟨s, a, _, b⟩ := g3 t ht
    rw [a, b]; rfl) e
  have hcost0 : heapCost f heap = 0 := by
    unfold heapCost
    have : ∀ e ∈ heap, e.node.cost f = 0 := by
      intro e he
      obtain ⟨s, a, _⟩ := g3 e he
      rw [a]; rfl
    clear hcost hc hne h2 h3 h4 h5 h6 g1 g2 g3 hmem h1 hp e key
    induction heap with
    | nil => rfl
    | cons a l ih => simp [this a (by simp), ih (fun e he => this e (by simp [he]))]
  -- totals over occurring symbols
  have hnz : ∀ p ∈ Huffman.nonZero counts 0, p.2 = f p.1 := by
    have : ∀ (fs : List Nat) (i : Nat), i + fs.length ≤ 2 ^ 16 → ∀ p ∈ Huffman.nonZero fs i,
        i ≤ p.1 ∧ p.2 = fs.getD (p.1 - i) 0 := by
      intro fs
      induction fs with
      | nil => intro i _ p hp; simp [Huffman.nonZero] at hp
      | cons a fs ih =>
        intro i hi p hp
        rw [List.length_cons] at hi
        rw [Huffman.nonZero] at hp
        have tl : p ∈ Huffman.nonZero fs (i + 1) → i ≤ p.1 ∧ p.2 = (a :: fs).getD (p.1 - i) 0 := by
          intro hp
          obtain ⟨x, y⟩ := ih (i + 1) (by omega) p hp
          refine ⟨by omega, ?_⟩
          rw [y, show p.1 - i = (p.1 - (i + 1)) + 1 by omega, List.getD_cons_succ]
        by_cases ha : a > 0
        · rw [if_pos ha] at hp
          rcases List.mem_cons.1 hp with rfl | hp
          · rw [Nat.mod_eq_of_lt (by omega)]; simp
          · exact tl hp
        · rw [if_neg ha] at hp; exact tl hp
    intro p hp
    exact (this counts 0 (by omega) p hp).2
  have htot : ∀ len : Nat → Nat, totalBits counts len = symBits f len root.leaves := by
    intro len
    rw [htb]
    have e1 : symBits f len root.leaves = symBits f len ((Huffman.nonZero counts 0).map Prod.fst) := by
      rw [← g2]; exact (hp.map _).sum_nat
    rw [e1]
    unfold dot symBits
    rw [List.map_map, List.map_map]
    congr 1
    apply List.map_congr_left
    intro p hp
    show p.2 * len p.1 = f p.1 * len p.1
    rw [hnz p hp]
  have hplen := Node.path_length hat
  have hnode : ∃ l r, root = .node l r := by
    cases root with
    | leaf s =>
      have := hp.length_eq
      rw [h5] at this; simp [Node.leaves] at this; omega
    | node l r => exact ⟨l, r, rfl⟩
  have hpos : ∀ s ∈ root.leaves, 1 ≤ (root.path s).length := by
    obtain ⟨l, r, rfl⟩ := hnode
    intro s _
    rw [Node.path]; split <;> simp
  have hle16 : ∀ s ∈ root.leaves, lens.getD s 0 ≤ 16 := by
    rcases walk_spec root 0 (List.replicate counts.length 0) (by rw [hp.length_eq]; omega)
      hnd (fun s hs => by rw [List.length_replicate]; exact hlt s ((hin s).1 hs))
      (fun s _ => getD_zeros _ _) with ⟨e, _⟩ | ⟨lens', e, _, _, p, _⟩
    · rw [key] at e; cases e
    · rw [key] at e
      injection e with e
      injection e with e
      subst e
      exact fun s hs => (p s hs).2
  refine ⟨?_, ?_, root.code, ⟨⟨?_, ?_⟩, ?_, ?_⟩, ?_⟩
  · intro s hs
    have h1 := hplen s ((hin s).2 hs)
    have h2 := hpos s ((hin s).2 hs)
    omega
  · intro code hcode
    rw [g1] at hc
    have h7 := hmer c hc code hcode.2
    have h8 : totalBits counts (fun s => lens.getD s 0 - 1) + root.weight f = symBits f (fun s => lens.getD s 0) root.leaves := by
      rw [htot, Node.weight_leaves]
      unfold symBits
      have hge : ∀ s ∈ root.leaves, 1 ≤ lens.getD s 0 := by
        intro s hs
        have := hplen s hs
        omega
      clear hcost hc hat hp hnd hin hplen hpos htot hnode e hle16 key
      generalize root.leaves = L at hge
      induction L with
      | nil => rfl
      | cons a L ih =>
        have ih := ih (fun s hs => hge s (by simp [hs]))
        have h1 := hge a (by simp)
        simp only [List.map_cons, List.sum_cons] at ih ⊢
        obtain ⟨k, hk⟩ : ∃ k, lens.getD a 0 = k + 1 := ⟨lens.getD a 0 - 1, by omega⟩
        rw [hk, Nat.add_sub_cancel, Nat.mul_succ]
        omega
    rw [root.symBits_eq f _ 0 hat, hcost, hcost0] at h8
    omega
  · intro s hs
    unfold Node.code
    have := hpos s ((hin s).2 hs)
    split
    · simp
    · intro he; rw [he] at this; simp at this
  · exact fun s t hs ht => root.code_prefix s ((hin s).2 hs) t ((hin t).2 ht)
  · intro s hs
    have h1 := hplen s ((hin s).2 hs)
    have h2 := hle16 s ((hin s).2 hs)
    unfold Node.code
    split
    · rw [List.length_append, List.length_singleton]; omega
    · omega
  · intro s hs
    unfold Node.code
    split
    · simp
    · rename_i hne
      exact root.path_zero s ((hin s).2 hs) hne
  · rw [htot, htot]
    -- a symbol other than the last
    obtain ⟨y, hy, hyl⟩ : ∃ y ∈ root.leaves, y ≠ root.last := by
      apply Classical.byContradiction
      intro hno
      have hall : ∀ y ∈ root.leaves, y = root.last := fun y hy =>
        Classical.byContradiction fun c => hno ⟨y, hy, c⟩
      have hl := hp.length_eq
      rw [h5] at hl
      match hL : root.leaves, hl with
      | [], hl => simp at hl; omega
      | [_], hl => simp at hl; omega
      | a :: b :: r, _ =>
        rw [hL] at hall hnd
        have := hall a (by simp)
        have := hall b (by simp)
        simp only [List.nodup_cons, List.mem_cons, not_or] at hnd
        exact hnd.1.1 (by omega)
    have hfy : 0 < f y := Nat.pos_of_ne_zero ((hin y).1 hy)
    refine sum_lt _ _ _ ?_ y hy ?_
    · intro s hs
      refine Nat.mul_le_mul_left _ ?_
      have h1 := hplen s hs
      show (root.code s).length ≤ lens.getD s 0
      unfold Node.code
      split
      · rw [List.length_append, List.length_singleton]; omega
      · omega
    · refine Nat.mul_lt_mul_of_pos_left ?_ hfy
      have h1 := hplen y hy
      show (root.code y).length < lens.getD y 0
      unfold Node.code
      rw [if_neg hyl]; omega

/-! ### The table -/

theorem sizesAt_count (i : Nat) (bits : List Nat) (l : Nat) :
    (sizesAt i bits).count l = if i < l ∧ l ≤ i + bits.length then bits.getD (l - 1 - i) 0 else 0 := by
  induction bits generalizing i with
  | nil =>
    rw [if_neg (by simp only [List.length_nil]; omega)]; rfl
  | cons b bits ih =>
    rw [sizesAt_cons, List.count_append, ih, List.count_replicate, List.length_cons]
    by_cases h : l = i + 1
    · subst h
      have h2 : ¬ (i + 1 < i + 1 ∧ i + 1 ≤ i + 1 + bits.length) := by omega
      have h3 : i < i + 1 ∧ i + 1 ≤ i + (bits.length + 1) := by omega
      rw [if_neg h2, if_pos h3, show i + 1 - 1 - i = 0 by omega]; simp
    · have h' : ¬ (i + 1 == l) = true := by simp; omega
      rw [if_neg h']
      by_cases h2 : i + 1 < l ∧ l ≤ i + 1 + bits.length
      · rw [if_pos h2, if_pos (by omega), show l - 1 - i = (l - 1 - (i + 1)) + 1 by omega, List.getD_cons_succ]; omega
      · rw [if_neg h2, if_neg (by omega)]

theorem filter_getD (lens : List Nat) :
    ((List.range lens.length).filter (fun i => lens.getD i 0 > 0)).map (fun i => lens.getD i 0) =
      lens.filter (· > 0) := by
  induction lens with
  | nil => rfl
  | cons l lens ih =>
    rw [List.length_cons, List.range_succ_eq_map, List.filter_cons, List.filter_map, List.getD_cons_zero,
      List.filter_cons]
    simp only [Function.comp_def, List.getD_cons_succ]
    by_cases h : l > 0
    · rw [if_pos (by simpa using h), if_pos (by simpa using h), List.map_cons, List.map_map, List.getD_cons_zero, ← ih]
      rfl
    · rw [if_neg (by simpa using h), if_neg (by simpa using h), List.map_map, ← ih]
      rfl

/-- The sizes of the codes are the lengths of the values. -/
theorem sizes_sortedVals (lens bits : List Nat) (hlen : lens.length ≤ 256) (hall : ∀ l ∈ lens, l ≤ 16)
    (hb : bits.length = 16) (hc : ∀ j < 16, bits.getD j 0 = lens.count (j + 1)) :
    (sortedVals lens).map (fun s => lens.getD s 0) = Spec.T81.sizes bits := by
  have hp := sortedVals_perm lens hlen
  rw [sizes_eq]
  refine List.Perm.eq_of_pairwise (le := (· ≤ ·)) (fun a b _ _ h1 h2 => Nat.le_antisymm h1 h2) ?_
    (sizesAt_sorted 0 bits) ?_
  · unfold sortedVals
    rw [List.pairwise_map]
    refine (List.pairwise_mergeSort ?_ ?_ _).imp ?_
    · intro a b c
      simp only [Bool.or_eq_true, Bool.and_eq_true, decide_eq_true_eq, beq_iff_eq]; omega
    · intro a b
      simp only [Bool.or_eq_true, Bool.and_eq_true, decide_eq_true_eq, beq_iff_eq]; omega
    · intro a b
      simp only [Bool.or_eq_true, Bool.and_eq_true, decide_eq_true_eq, beq_iff_eq]; omega
  · refine (hp.map _).trans ?_
    rw [filter_getD, List.perm_iff_count]
    intro l
    rw [sizesAt_count, hb]
    by_cases h0 : l = 0
    · rw [if_neg (by omega), List.count_eq_zero, List.mem_filter]
      rintro ⟨_, h⟩; simp [h0] at h
    · rw [List.count_filter (by simp; omega)]
      by_cases h16 : l ≤ 16
      · rw [if_pos (by omega), hc _ (by omega), show l - 1 - 0 + 1 = l by omega]
      · rw [if_neg (by omega), List.count_eq_zero]
        intro h; exact h16 (hall l h)

theorem hasCode_length {t : Spec.T81.Table} {s : Nat} {w : List Bool} (h : t.HasCode s w) :
    ∃ k : Nat, t.vals[k]? = some s ∧ (Spec.T81.sizes t.bits)[k]? = some w.length := by
  obtain ⟨k, code, size, h1, h2, rfl⟩ := h
  refine ⟨k, h1, ?_⟩
  rw [Spec.bitsMSB_length]
  have := codesFrom_snd 0 0 (Spec.T81.sizes t.bits)
  rw [← this, List.getElem?_map]
  rw [show Spec.T81.codesFrom 0 0 (Spec.T81.sizes t.bits) = Spec.T81.codes t.bits from rfl, h2]
  rfl

/-- The words of an optimized table have the lengths `build_code_lengths` computed. -/
theorem buildBitsVals_lengths (counts : List Nat) (hlen : counts.length ≤ 256) (hu : Huffman.used counts ≤ 255)
    (hsum : counts.sum < 2 ^ 64) (spec : List Nat × List Nat) (h : buildBitsVals counts = .ok (some spec)) :
    ∃ lens, buildCodeLengths counts = .ok (some lens) ∧
      (∀ s w, (⟨spec.1, spec.2⟩ : Spec.T81.Table).HasCode s w → w.length = lens.getD s 0) ∧
      ∀ s, Occurs counts s → ∃ w, (⟨spec.1, spec.2⟩ : Spec.T81.Table).HasCode s w := by
  rcases buildBitsVals_spec counts hlen hu hsum with ⟨e, _⟩ | ⟨spec', e, b⟩
  · rw [h] at e; cases e
  rw [h] at e
  injection e with e
  injection e with e
  subst e
  unfold buildBitsVals at h
  rcases buildCodeLengths_spec counts hu hsum with ⟨e, hlong⟩ | ⟨lens, e, hs, hall, hk⟩
  · rw [e] at h; cases h
  · rw [e, ok_bind] at h
    simp only at h
    have husd := hs.used_eq
    obtain ⟨bits, e2, g1, g2, g3, g4⟩ := countLengths_spec lens (List.replicate 16 0) hall
      List.length_replicate (by rw [List.sum_replicate_nat]; omega)
    rw [e2, ok_bind] at h
    injection h with h
    injection h with h
    subst h
    have hsz := sizes_sortedVals lens bits (by rw [hs.1]; exact hlen) hall g1 (by
      intro j hj
      rw [g4 j hj, getD_zeros]; omega)
    refine ⟨lens, e, ?_, ?_⟩
    · intro s w hw
      obtain ⟨k, h1, h2⟩ := hasCode_length hw
      rw [← hsz, List.getElem?_map] at h2
      simp only at h1
      rw [h1] at h2
      simpa using h2.symm
    · intro s hs
      obtain ⟨k, hk, hks⟩ := List.getElem_of_mem ((b.mem s).2 hs)
      have hl : k < (Spec.T81.codes bits).length := by
        rw [codes_length]
        have := b.legal.vals_length
        simp only at this hk; omega
      refine ⟨_, k, (Spec.T81.codes bits)[k].1, (Spec.T81.codes bits)[k].2, ?_, ?_, rfl⟩
      · rw [List.getElem?_eq_getElem hk, hks]
      · rw [List.getElem?_eq_getElem hl]

theorem specTable_eq {n : Nat} {spec : List Nat × List Nat} {t : Table}
    (h : specTable n spec = .ok (some t)) : t.bits = spec.1 ∧ t.vals = spec.2 := by
  unfold specTable at h
  cases e : buildCodeTable n spec.1 spec.2 with
  | error x => rw [e] at h; cases h
  | ok o =>
    rw [e, ok_bind] at h
    cases o with
    | none => cases h
    | some c =>
      injection h with h
      injection h with h
      subst h
      exact ⟨rfl, rfl⟩

theorem fromSpecs_eq {s1 s2 s3 s4 : List Nat × List Nat} {t : HuffTables}
    (h : HuffTables.fromSpecs s1 s2 s3 s4 = .ok (some t)) :
    t.dcLum.bits = s1.1 ∧ t.dcLum.vals = s1.2 ∧ t.acLum.bits = s3.1 ∧ t.acLum.vals = s3.2 := by
  unfold HuffTables.fromSpecs at h
  cases e1 : specTable 12 s1 with
  | error x => rw [e1] at h; cases h
  | ok o1 =>
    rw [e1, ok_bind] at h
    cases o1 with
    | none => cases h
    | some t1 =>
      simp only [] at h
      cases e2 : specTable 12 s2 with
      | error x => rw [e2] at h; cases h
      | ok o2 =>
        rw [e2, ok_bind] at h
        cases o2 with
        | none => cases h
        | some t2 =>
          simp only [] at h
          cases e3 : specTable 256 s3 with
          | error x => rw [e3] at h; cases h
          | ok o3 =>
            rw [e3, ok_bind] at h
            cases o3 with
            | none => cases h
            | some t3 =>
              simp only [] at h
              cases e4 : specTable 256 s4 with
              | error x => rw [e4] at h; cases h
              | ok o4 =>
                rw [e4, ok_bind] at h
                cases o4 with
                | none => cases h
                | some t4 =>
                  injection h with h
                  injection h with h
                  subst h
                  have a := specTable_eq e1
                  have b := specTable_eq e3
                  exact ⟨a.1, a.2, b.1, b.2⟩

theorem optimizedFromCounts_eq {c1 c3 : List Nat} {o1 o2 : Option (List Nat)} {t : HuffTables}
    (h : HuffTables.optimizedFromCounts c1 o1 c3 o2 = .ok (some t)) :
    buildBitsVals c1 = .ok (some (t.dcLum.bits, t.dcLum.vals)) ∧
    buildBitsVals c3 = .ok (some (t.acLum.bits, t.acLum.vals)) := by
  unfold HuffTables.optimizedFromCounts at h
  cases e1 : buildBitsVals c1 with
  | error x => rw [e1] at h; cases h
  | ok p1 =>
    rw [e1, ok_bind] at h
    cases p1 with
    | none => cases h
    | some s1 =>
      simp only [] at h
      cases e2 : buildBitsVals c3 with
      | error x => rw [e2] at h; cases h
      | ok p2 =>
        rw [e2, ok_bind] at h
        cases p2 with
        | none => cases h
        | some s3 =>
          simp only [] at h
          cases e3 : chromSpec o1 dcChromBits dcChromVals with
          | error x => rw [e3] at h; cases h
          | ok s2 =>
            rw [e3, ok_bind] at h
            cases e4 : chromSpec o2 acChromBits acChromVals with
            | error x => rw [e4] at h; cases h
            | ok s4 =>
              rw [e4, ok_bind] at h
              obtain ⟨a, b, c, d⟩ := fromSpecs_eq h
              rw [a, b, c, d]
              exact ⟨rfl, rfl⟩

end Pixo.Jpeg
