import Verif.Model.Huffman
import Verif.Proof.Safe
/-
The tree loop of `build_codes` and `extract_lengths`.
-/
namespace Pixo.Huffman
open Pixo

/-! ### The heap -/

theorem le_refl (a : Tree) : a.le a = true := by simp [Tree.le]

theorem le_total (a b : Tree) : a.le b = true ∨ b.le a = true := by
  simp only [Tree.le, Bool.or_eq_true, Bool.and_eq_true, decide_eq_true_eq, beq_iff_eq]; omega

theorem le_trans {a b c : Tree} (h : a.le b = true) (g : b.le c = true) : a.le c = true := by
  simp only [Tree.le, Bool.or_eq_true, Bool.and_eq_true, decide_eq_true_eq, beq_iff_eq] at *; omega

theorem le_freq {a b : Tree} (h : a.le b = true) : a.freq ≤ b.freq := by
  simp only [Tree.le, Bool.or_eq_true, Bool.and_eq_true, decide_eq_true_eq, beq_iff_eq] at *; omega

theorem exists_min (h : List Tree) (hne : h ≠ []) : ∃ t ∈ h, ∀ x ∈ h, t.le x = true := by
  induction h with
  | nil => exact absurd rfl hne
  | cons a h ih =>
    by_cases hh : h = []
    · subst hh; exact ⟨a, by simp, by intro x hx; simp at hx; subst hx; exact le_refl _⟩
    · obtain ⟨t, ht, hm⟩ := ih hh
      rcases le_total a t with hl | hl
      · refine ⟨a, by simp, fun x hx => ?_⟩
        rcases List.mem_cons.1 hx with rfl | hx
        · exact le_refl _
        · exact le_trans hl (hm x hx)
      · refine ⟨t, by simp [ht], fun x hx => ?_⟩
        rcases List.mem_cons.1 hx with rfl | hx
        · exact hl
        · exact hm x hx

theorem perm_eraseIdx (l : List Tree) (i : Nat) (h : i < l.length) : l.Perm (l[i] :: l.eraseIdx i) := by
  induction l generalizing i with
  | nil => simp at h
  | cons a l ih =>
    cases i with
    | zero => exact List.Perm.refl _
    | succ i =>
      have := ih i (by simpa using h)
      simp only [List.getElem_cons_succ, List.eraseIdx_cons_succ]
      exact ((this.cons a)).trans (List.Perm.swap _ _ _)

theorem popMin_spec (c : Nat) (h : List Tree) (hne : h ≠ []) :
    ∃ t rest, popMin c h = some (t, rest) ∧ h.Perm (t :: rest) ∧ ∀ x ∈ h, t.le x = true := by
  obtain ⟨t, ht, hm⟩ := exists_min h hne
  obtain ⟨i, hi, hit⟩ := List.getElem_of_mem ht
  unfold popMin
  simp only
  generalize hc : (List.range h.length).filter (fun i =>
    match h[i]? with
    | some t => h.all (t.le ·)
    | none => false) = cand
  have hmem : i ∈ cand := by
    rw [← hc, List.mem_filter]
    refine ⟨by simpa using hi, ?_⟩
    rw [List.getElem?_eq_getElem hi, hit]
    simpa using hm
  have hlen : 0 < cand.length := List.length_pos_of_mem hmem
  have hlt : c % cand.length < cand.length := Nat.mod_lt _ hlen
  rw [List.getElem?_eq_getElem hlt]
  have hj : cand[c % cand.length] ∈ cand := List.getElem_mem hlt
  generalize cand[c % cand.length] = j at hj
  rw [← hc, List.mem_filter] at hj
  have hjl : j < h.length := by simpa using hj.1
  have hj2 := hj.2
  rw [List.getElem?_eq_getElem hjl] at hj2
  simp only []
  rw [List.getElem?_eq_getElem hjl]
  exact ⟨h[j], h.eraseIdx j, rfl, perm_eraseIdx h j hjl, by simpa using hj2⟩

/-! ### Trees -/

/-- Symbols at the leaves, left to right. -/
def Tree.leaves : Tree → List Nat
  | .leaf _ s => [s]
  | .node _ l r => l.leaves ++ r.leaves

def Tree.height : Tree → Nat
  | .leaf _ _ => 0
  | .node _ l r => max l.height r.height + 1

def fib : Nat → Nat
  | 0 => 0
  | 1 => 1
  | n + 2 => fib (n + 1) + fib n

theorem fib_pos (n : Nat) : 0 < fib (n + 1) := by
  induction n using fib.induct with
  | case1 => decide
  | case2 => decide
  | case3 n ih1 ih2 => rw [fib]; omega

theorem fib_mono_succ (n : Nat) : fib n ≤ fib (n + 1) := by
  cases n with
  | zero => decide
  | succ n => rw [fib]; omega

theorem fib_mono {a b : Nat} (h : a ≤ b) : fib a ≤ fib b := by
  induction h with
  | refl => exact Nat.le_refl _
  | step _ ih => exact Nat.le_trans ih (fib_mono_succ _)

def heapLeaves (h : List Tree) : List Nat := h.flatMap Tree.leaves
def heapFreq (h : List Tree) : Nat := (h.map Tree.freq).sum

theorem heapLeaves_perm {a b : List Tree} (h : a.Perm b) : (heapLeaves a).Perm (heapLeaves b) :=
  h.flatMap_right _

theorem heapFreq_perm {a b : List Tree} (h : a.Perm b) : heapFreq a = heapFreq b :=
  (h.map _).sum_nat

/-- Loop invariant: `m` is the largest weight taken from the heap so far. -/
structure Inv (heap : List Tree) (m : Nat) : Prop where
  low : ∀ t ∈ heap, max m 1 ≤ t.freq
  fib2 : ∀ t ∈ heap, fib (t.height + 2) ≤ t.freq
  fib1 : ∀ t ∈ heap, fib (t.height + 1) ≤ max m 1

theorem Inv.perm {a b : List Tree} {m : Nat} (h : Inv a m) (p : a.Perm b) : Inv b m :=
  ⟨fun t ht => h.low t (p.mem_iff.2 ht), fun t ht => h.fib2 t (p.mem_iff.2 ht),
   fun t ht => h.fib1 t (p.mem_iff.2 ht)⟩

theorem Inv.step {l r : Tree} {rest : List Tree} {m : Nat} (h : Inv (l :: r :: rest) m)
    (h1 : l.freq ≤ r.freq) (h2 : ∀ t ∈ rest, r.freq ≤ t.freq) :
    Inv (.node (l.freq + r.freq) l r :: rest) r.freq := by
  have ll := h.low l (by simp)
  have lr := h.low r (by simp)
  have l2 := h.fib2 l (by simp)
  have r2 := h.fib2 r (by simp)
  have l1 := h.fib1 l (by simp)
  have r1 := h.fib1 r (by simp)
  refine ⟨?_, ?_, ?_⟩
  · intro t ht
    rcases List.mem_cons.1 ht with rfl | ht
    · simp only [Tree.freq] at *; omega
    · have := h2 t ht; omega
  · intro t ht
    rcases List.mem_cons.1 ht with rfl | ht
    · simp only [Tree.height]
      show fib (max l.height r.height + 1 + 2) ≤ l.freq + r.freq
      rw [show max l.height r.height + 1 + 2 = (max l.height r.height + 1) + 2 from rfl, fib,
        show max l.height r.height + 1 + 1 = max l.height r.height + 2 from rfl]
      rcases Nat.le_total l.height r.height with hl | hl
      · rw [Nat.max_eq_right hl]; omega
      · rw [Nat.max_eq_left hl]; omega
    · exact h.fib2 t (by simp [ht])
  · intro t ht
    rcases List.mem_cons.1 ht with rfl | ht
    · simp only [Tree.height]
      rw [show max l.height r.height + 1 + 1 = max l.height r.height + 2 from rfl]
      rcases Nat.le_total l.height r.height with hl | hl
      · rw [Nat.max_eq_right hl]; omega
      · rw [Nat.max_eq_left hl]; omega
    · have := h.fib1 t (by simp [ht]); omega

theorem buildTree_spec (tie : Nat → Nat) (fuel : Nat) (heap : List Tree) (m : Nat)
    (hne : heap ≠ []) (hf : heap.length ≤ fuel) (hsum : heapFreq heap < 2 ^ 32) (hi : Inv heap m) :
    ∃ root, buildTree tie fuel heap = .ok root ∧ root.leaves.Perm (heapLeaves heap) ∧
      fib (root.height + 2) ≤ root.freq ∧ root.freq = heapFreq heap ∧
      (2 ≤ heap.length → ∃ f l r, root = .node f l r) := by
  induction fuel generalizing heap m with
  | zero => cases heap with
    | nil => exact absurd rfl hne
    | cons a t => simp at hf
  | succ fuel ih =>
    rw [buildTree]
    by_cases h1 : heap.length > 1
    · rw [if_pos h1]
      obtain ⟨l, h', e1, p1, m1⟩ := popMin_spec (tie (2 * fuel + 1)) heap hne
      have hlen' : h'.length + 1 = heap.length := by simpa using p1.length_eq.symm
      have hne' : h' ≠ [] := by rintro rfl; simp at hlen'; omega
      obtain ⟨r, h'', e2, p2, m2⟩ := popMin_spec (tie (2 * fuel)) h' hne'
      have hlen'' : h''.length + 1 = h'.length := by simpa using p2.length_eq.symm
      rw [e1]; simp only []; rw [e2]; simp only []
      have p : heap.Perm (l :: r :: h'') := p1.trans (p2.cons l)
      have hs : heapFreq heap = l.freq + (r.freq + heapFreq h'') := by
        rw [heapFreq_perm p]; simp [heapFreq]
      rw [addU32, if_pos (by omega), ok_bind]
      have hstep := (hi.perm p).step (le_freq (m1 r (p.mem_iff.2 (by simp))))
        (fun t ht => le_freq (m2 t (p2.mem_iff.2 (by simp [ht]))))
      have hs2 : heapFreq (Tree.node (l.freq + r.freq) l r :: h'') = heapFreq heap := by
        rw [hs]; simp only [heapFreq, List.map_cons, List.sum_cons, Tree.freq]; omega
      obtain ⟨root, hr, hp, hfib, hfr, hnode⟩ := ih (Tree.node (l.freq + r.freq) l r :: h'') r.freq (by simp)
        (by simp only [List.length_cons]; omega) (by omega) hstep
      refine ⟨root, hr, ?_, hfib, by omega, ?_⟩
      · refine hp.trans ?_
        refine List.Perm.trans ?_ (heapLeaves_perm p).symm
        simp only [heapLeaves, List.flatMap_cons, Tree.leaves, List.append_assoc]
        exact List.Perm.refl _
      · intro _
        by_cases hh : h'' = []
        · subst hh
          cases fuel with
          | zero => simp [buildTree] at hr
          | succ fuel =>
            rw [buildTree, if_neg (by simp)] at hr
            have : popMin 0 [Tree.node (l.freq + r.freq) l r] = some (Tree.node (l.freq + r.freq) l r, []) := by
              obtain ⟨t, rest, e, q, _⟩ := popMin_spec 0 [Tree.node (l.freq + r.freq) l r] (by simp)
              have hq := List.singleton_perm.1 q
              injection hq with h3 h4
              rw [e, h3, h4]
            rw [this] at hr
            injection hr with hr
            exact ⟨_, _, _, hr.symm⟩
        · apply hnode
          have : h''.length ≠ 0 := by simpa using hh
          simp only [List.length_cons]; omega
    · rw [if_neg h1]
      obtain ⟨t, rest, e, q, _⟩ := popMin_spec 0 heap hne
      have hl : heap.length = rest.length + 1 := by simpa using q.length_eq
      have hrest : rest = [] := by
        rw [← List.length_eq_zero_iff]; omega
      subst hrest
      rw [e]
      have hh : heap = [t] := List.perm_singleton.1 q
      subst hh
      exact ⟨t, rfl, by simp [heapLeaves], hi.fib2 t (by simp), by simp [heapFreq], by simp⟩

/-! ### Extracting the lengths -/

theorem weight_zero (M : Nat) : weight M 0 = 0 := rfl
theorem weight_pos {M l : Nat} (h : 0 < l) : weight M l = 2 ^ (M - l) := by
  rw [weight, if_pos h, Nat.one_shiftLeft]

def ksum (M : Nat) (lens : List Nat) : Nat := (lens.map (weight M)).sum

theorem sum_set (w : Nat → Nat) (l : List Nat) (i v : Nat) (h : i < l.length) :
    ((l.set i v).map w).sum + w (l.getD i 0) = (l.map w).sum + w v := by
  induction l generalizing i with
  | nil => simp at h
  | cons a l ih =>
    cases i with
    | zero => simp; omega
    | succ i =>
      have := ih i (by simpa using h)
      simp only [List.set_cons_succ, List.map_cons, List.sum_cons, List.getD_cons_succ]
      omega

theorem getD_set (l : List Nat) (i v s : Nat) (h : i < l.length) :
    (l.set i v).getD s 0 = if s = i then v else l.getD s 0 := by
  rw [List.getD_eq_getElem?_getD, List.getElem?_set, List.getD_eq_getElem?_getD]
  by_cases hs : i = s
  · subst hs; simp [h]
  · rw [if_neg hs, if_neg (fun x => hs x.symm)]

theorem extractLengths_spec (t : Tree) (d : Nat) (lens : List Nat) (H : Nat)
    (hd : 0 < d ∨ ∃ f l r, t = .node f l r)
    (hH : d + t.height ≤ H) (hH2 : H < 256) (hnd : t.leaves.Nodup)
    (hlt : ∀ s ∈ t.leaves, s < lens.length) (hz : ∀ s ∈ t.leaves, lens.getD s 0 = 0) :
    ∃ lens', extractLengths t d lens = .ok lens' ∧ lens'.length = lens.length ∧
      (∀ s, s ∉ t.leaves → lens'.getD s 0 = lens.getD s 0) ∧
      (∀ s ∈ t.leaves, 0 < lens'.getD s 0 ∧ lens'.getD s 0 ≤ H) ∧
      ksum H lens' = ksum H lens + 2 ^ (H - d) := by
  induction t generalizing d lens with
  | leaf f s =>
    have hd : 0 < d := hd.resolve_right (by rintro ⟨_, _, _, h⟩; cases h)
    have hs := hlt s (by simp [Tree.leaves])
    have hz := hz s (by simp [Tree.leaves])
    rw [extractLengths, setChecked, if_pos hs]
    have hmax : max d 1 = d := by omega
    rw [hmax]
    refine ⟨_, rfl, by simp, ?_, ?_, ?_⟩
    · intro k hk
      rw [getD_set _ _ _ _ hs, if_neg (by simpa [Tree.leaves] using hk)]
    · intro k hk
      have : k = s := by simpa [Tree.leaves] using hk
      subst this
      rw [getD_set _ _ _ _ hs, if_pos rfl]
      simp only [Tree.height] at hH; omega
    · have := sum_set (weight H) lens s d hs
      rw [hz, weight_zero, weight_pos hd] at this
      simpa [ksum] using this
  | node f l r ihl ihr =>
    simp only [Tree.height] at hH
    simp only [Tree.leaves] at hnd hlt hz
    rw [List.nodup_append] at hnd
    rw [extractLengths, if_pos (by omega)]
    obtain ⟨l1, e1, n1, u1, p1, k1⟩ := ihl (d + 1) lens (Or.inl (by omega)) (by omega) hnd.1
      (fun s hs => hlt s (by simp [hs])) (fun s hs => hz s (by simp [hs]))
    rw [e1, ok_bind]
    have hdis : ∀ s ∈ r.leaves, s ∉ l.leaves := fun s hs hl => hnd.2.2 s hl s hs rfl
    obtain ⟨l2, e2, n2, u2, p2, k2⟩ := ihr (d + 1) l1 (Or.inl (by omega)) (by omega) hnd.2.1
      (fun s hs => by rw [n1]; exact hlt s (by simp [hs]))
      (fun s hs => by rw [u1 s (hdis s hs)]; exact hz s (by simp [hs]))
    refine ⟨l2, e2, by omega, ?_, ?_, ?_⟩
    · intro s hs
      simp only [Tree.leaves, List.mem_append, not_or] at hs
      rw [u2 s hs.2, u1 s hs.1]
    · intro s hs
      by_cases hr : s ∈ r.leaves
      · exact p2 s hr
      · have hl : s ∈ l.leaves := by
          simp only [Tree.leaves, List.mem_append] at hs
          exact hs.resolve_right hr
        rw [u2 s hr]; exact p1 s hl
    · rw [k2, k1]
      have : 2 ^ (H - d) = 2 ^ (H - (d + 1)) + 2 ^ (H - (d + 1)) := by
        rw [show H - d = (H - (d + 1)) + 1 by omega, Nat.pow_succ]; omega
      omega

end Pixo.Huffman
