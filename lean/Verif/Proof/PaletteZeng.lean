import Verif.Proof.PaletteMatrix
/-
The reindexing loop returns a permutation of the colours.
-/
namespace Pixo.Palette

variable {indexed : List UInt8} {n w h : Nat} {m : List (List Nat)}

/-- The adjacency of colour `c` to the placed colours. -/
def total (m : List (List Nat)) (R : List Nat) (c : Nat) : Nat := (R.map fun p => cell m c p).sum

theorem total_le (g : Good n K m) {R : List Nat} (hn : R.Nodup) (hlt : ∀ p ∈ R, p < n) {c : Nat} (hc : c < n) :
    total m R c ≤ K := by
  refine Nat.le_trans ?_ (g.sums c)
  exact places_le R (m.getD c []) hn (fun p hp => by rw [g.cols c hc]; exact hlt p hp)

theorem total_perm {R R' : List Nat} (hp : R.Perm R') (c : Nat) : total m R c = total m R' c :=
  (hp.map _).sum_nat

theorem total_cons (p : Nat) (R : List Nat) (c : Nat) : total m (p :: R) c = cell m c p + total m R c := rfl

theorem total_pos {R : List Nat} {p c : Nat} (hp : p ∈ R) (hpos : 0 < cell m c p) : 0 < total m R c := by
  induction R with
  | nil => cases hp
  | cons q R ih =>
    rw [total_cons]
    rcases List.mem_cons.mp hp with rfl | hp
    · omega
    · have := ih hp; omega

theorem entry_ok (g : Good n K m) {a b : Nat} (ha : a < n) (hb : b < n) : entry m a b = .ok (cell m a b) := by
  unfold entry cell
  rw [getChecked_ok [] (by rw [g.rows]; exact ha), ok_bind, getChecked_ok 0 (by rw [g.cols a ha]; exact hb)]

/-- The recorded best is one of the sums, or all of them are zero. -/
def BestOk (s : Sums) : Prop :=
  (s.best.2 = 0 ∧ ∀ p ∈ s.sums, p.2 = 0) ∨ (s.sums[s.pos]? = some s.best ∧ 0 < s.best.2)

theorem consider_ok {s : Sums} (hs : BestOk s) (c v : Nat) :
    BestOk { s.consider s.sums.length c v with sums := s.sums ++ [(c, v)] } := by
  unfold Sums.consider
  by_cases hv : v > s.best.2
  · rw [if_pos hv]
    right
    refine ⟨?_, ?_⟩
    · simp
    · show 0 < v; omega
  · rw [if_neg hv]
    rcases hs with ⟨h1, h2⟩ | ⟨h1, h2⟩
    · left
      refine ⟨h1, fun p hp => ?_⟩
      rcases List.mem_append.mp hp with hp | hp
      · exact h2 p hp
      · rw [List.mem_singleton] at hp; subst hp; show v = 0; omega
    · right
      refine ⟨?_, h2⟩
      show (s.sums ++ [(c, v)])[s.pos]? = _
      have : s.pos < s.sums.length := by
        rcases Nat.lt_or_ge s.pos s.sums.length with hlt | hge
        · exact hlt
        · rw [List.getElem?_eq_none hge] at h1; cases h1
      rw [List.getElem?_append_left this]; exact h1

theorem initSums_ok (g : Good n K m) (hK : K < 2 ^ 32) {r0 r1 : Nat} (h0 : r0 < n) (h1 : r1 < n) (hne : r0 ≠ r1) :
    ∀ (rows : List (List Nat)) (i : Nat) (s : Sums), rows = m.drop i → BestOk s →
    (∀ p ∈ s.sums, p.2 = total m [r0, r1] p.1) →
    Oks (initSums r0 r1 rows i s) fun t => BestOk t ∧ (∀ p ∈ t.sums, p.2 = total m [r0, r1] p.1) ∧
      t.sums.map Prod.fst = s.sums.map Prod.fst ++ (List.range' i (n - i)).filter fun c => ¬ (c = r0 ∨ c = r1)
  | [], i, s, hr, hb, ht => by
    have : n ≤ i := by
      have := congrArg List.length hr
      rw [List.length_drop, g.rows] at this
      simp at this; omega
    refine Oks.ok ⟨hb, ht, ?_⟩
    rw [Nat.sub_eq_zero_of_le this]; simp
  | row :: rows, i, s, hr, hb, ht => by
    have hi : i < n := by
      have := congrArg List.length hr
      rw [List.length_drop, g.rows] at this
      simp at this; omega
    rw [List.drop_eq_getElem_cons (by rw [g.rows]; exact hi)] at hr
    injection hr with hrow hrows
    have hlen := g.cols i hi
    rw [getD_lt (by rw [g.rows]; exact hi), ← hrow] at hlen
    have er : List.range' i (n - i) = i :: List.range' (i + 1) (n - (i + 1)) := by
      rw [show n - i = (n - (i + 1)) + 1 by omega, List.range'_succ]
    rw [initSums, er]
    by_cases hc : i = r0 ∨ i = r1
    · rw [if_pos hc]
      rw [List.filter_cons_of_neg (by simp; omega)]
      exact initSums_ok g hK h0 h1 hne rows (i + 1) s hrows hb ht
    · rw [if_neg hc]
      rw [List.filter_cons_of_pos (by simpa using hc)]
      have ec : ∀ r, row.getD r 0 = cell m i r := by
        intro r; unfold cell; rw [getD_lt (l := m) (by rw [g.rows]; exact hi), ← hrow]
      have hb2 : total m [r0, r1] i ≤ K :=
        total_le g (by simpa using hne) (by simp [h0, h1]) hi
      have e2 : total m [r0, r1] i = cell m i r0 + cell m i r1 := by simp [total]
      rw [getChecked_ok 0 (by omega), ok_bind, getChecked_ok 0 (by omega), ok_bind, ec, ec]
      unfold addU32
      rw [if_pos (by omega), ok_bind]
      refine (initSums_ok g hK h0 h1 hne rows (i + 1) _ hrows (consider_ok hb i _) ?_).mono fun t ht => ⟨ht.1, ht.2.1, ?_⟩
      · intro p hp
        rcases List.mem_append.mp hp with hp | hp
        · exact ht p hp
        · rw [List.mem_singleton] at hp; subst hp; exact e2.symm
      · rw [ht.2.2]; simp

theorem deltaLoop_ok (g : Good n K m) (k : Int) {best : Nat} (hb : best < n) : ∀ (R : List Nat) (i : Nat) (d : Int),
    (∀ p ∈ R, p < n) → Oks (deltaLoop m k best i R d) fun _ => True
  | [], _, _, _ => Oks.ok trivial
  | p :: R, i, d, h => by
    rw [deltaLoop, entry_ok g hb (h p List.mem_cons_self), ok_bind]
    exact deltaLoop_ok g k hb R _ _ fun q hq => h q (List.mem_cons_of_mem _ hq)

theorem swapRemove_ok {α : Type} {l : List α} {i : Nat} {x : α} (hx : l[i]? = some x) :
    Oks (swapRemove l i) fun r => (x :: r).Perm l := by
  have hi : i < l.length := by
    rcases Nat.lt_or_ge i l.length with hlt | hge
    · exact hlt
    · rw [List.getElem?_eq_none hge] at hx; cases hx
  have hne : l ≠ [] := by intro e; subst e; simp at hi
  unfold swapRemove
  rw [if_pos hi, List.getLast?_eq_some_getLast hne]
  refine Oks.ok ?_
  have el : l.dropLast ++ [l.getLast hne] = l := List.dropLast_concat_getLast hne
  generalize l.getLast hne = z at el
  generalize l.dropLast = a at el
  subst el
  by_cases e : i = a.length
  · subst e
    have : x = z := by simpa using hx.symm
    subst this
    rw [List.set_append_right _ _ (Nat.le_refl _)]
    simp only [Nat.sub_self, List.set_cons_zero, List.dropLast_concat]
    exact (List.perm_append_singleton x a).symm
  · have hia : i < a.length := by rw [List.length_append] at hi; simp at hi; omega
    rw [List.getElem?_append_left hia] at hx
    rw [List.set_append_left _ _ hia, List.dropLast_concat]
    obtain ⟨_, hx⟩ := List.getElem?_eq_some_iff.mp hx
    have ea : a = a.take i ++ x :: a.drop (i + 1) := by
      rw [← hx, List.getElem_cons_drop, List.take_append_drop]
    have es : a.set i z = a.take i ++ z :: a.drop (i + 1) := by
      rw [List.set_eq_take_append_cons_drop, if_pos hia]
    rw [es]
    have e1 : (x :: (a.take i ++ z :: a.drop (i + 1))).Perm (x :: z :: (a.take i ++ a.drop (i + 1))) :=
      List.perm_middle.cons x
    have e2 : (a.take i ++ x :: a.drop (i + 1)).Perm (x :: (a.take i ++ a.drop (i + 1))) := List.perm_middle
    have e3 : (a ++ [z]).Perm (z :: a) := List.perm_append_singleton z a
    refine e1.trans ((List.Perm.swap _ _ _).trans ?_)
    refine ((e2.symm.cons z).trans ?_)
    rw [← ea]; exact e3.symm

theorem updateSums_ok (g : Good n K m) (hs : Symm m) (hK : K < 2 ^ 32) {R : List Nat} {best : Nat}
    (hn : (best :: R).Nodup) (hlt : ∀ p ∈ best :: R, p < n) :
    ∀ (l : List (Nat × Nat)) (s : Sums), (∀ p ∈ l, p.1 < n ∧ p.2 = total m R p.1) → BestOk s →
    (∀ p ∈ s.sums, p.2 = total m (best :: R) p.1) →
    Oks (updateSums m best l s) fun t => BestOk t ∧ (∀ p ∈ t.sums, p.2 = total m (best :: R) p.1) ∧
      t.sums.map Prod.fst = s.sums.map Prod.fst ++ l.map Prod.fst
  | [], s, _, hb, ht => Oks.ok ⟨hb, ht, by simp⟩
  | (c, v) :: l, s, hl, hb, ht => by
    have hc := hl (c, v) List.mem_cons_self
    have hbound := total_le g hn hlt hc.1
    have hv : v = total m R c := hc.2
    rw [total_cons] at hbound
    have hc1 : c < n := hc.1
    rw [updateSums, entry_ok g (hlt best List.mem_cons_self) hc1, ok_bind, hs best c]
    unfold addU32
    dsimp only at hbound
    rw [if_pos (by omega), ok_bind]
    refine (updateSums_ok g hs hK hn hlt l _ (fun p hp => hl p (List.mem_cons_of_mem _ hp)) (consider_ok hb c _)
      ?_).mono fun t ht => ⟨ht.1, ht.2.1, ?_⟩
    · intro p hp
      rcases List.mem_append.mp hp with hp | hp
      · exact ht p hp
      · rw [List.mem_singleton] at hp; subst hp
        show v + cell m c best = total m (best :: R) c
        rw [total_cons]; omega
    · rw [ht.2.2]; simp

/-- Every colour occurs. -/
def Occurs (indexed : List UInt8) (n w h : Nat) : Prop :=
  ∀ c, c < n → ∃ y x, x < w ∧ y < h ∧ px indexed w y x = c

theorem place_perm (R : List Nat) (b : Nat) (d : Int) : (place R b d).Perm (b :: R) := by
  unfold place
  split
  · exact .refl _
  · exact List.perm_append_singleton b R

theorem zengLoop_ok (hm : Matrix indexed n w h m) (hi : Image indexed n w h) (ho : Occurs indexed n w h)
    (hK : 4 * (w * h) < 2 ^ 32) :
    ∀ (fuel : Nat) (R : List Nat) (s : Sums), s.sums.length < fuel → R ≠ [] →
    (R ++ s.sums.map Prod.fst).Perm (List.range n) →
    (s.sums ≠ [] → BestOk s ∧ ∀ p ∈ s.sums, p.2 = total m R p.1) →
    Oks (zengLoop m n fuel R s) fun r => r.Perm (List.range n)
  | 0, _, _, hf, _, _, _ => by omega
  | fuel + 1, R, s, hf, hR, hp, hs => by
    rw [zengLoop]
    by_cases he : s.sums = []
    · rw [if_pos (by rw [he]; rfl)]
      refine Oks.ok ?_
      rw [he] at hp; simpa using hp
    · rw [if_neg (by simpa using he)]
      obtain ⟨hb, ht⟩ := hs he
      have hlen := hp.length_eq
      rw [List.length_append, List.length_map, List.length_range] at hlen
      have hmem : ∀ c, c ∈ R ++ s.sums.map Prod.fst ↔ c < n := fun c => by rw [hp.mem_iff, List.mem_range]
      have hRlt : ∀ p ∈ R, p < n := fun p hpR => (hmem p).mp (List.mem_append_left _ hpR)
      have hnd : (R ++ s.sums.map Prod.fst).Nodup := hp.nodup_iff.mpr List.nodup_range
      -- the best is real
      have hbest : s.sums[s.pos]? = some s.best := by
        rcases hb with ⟨h0, hz⟩ | ⟨h1, _⟩
        · exfalso
          obtain ⟨p0, hp0⟩ := List.exists_mem_of_ne_nil R hR
          obtain ⟨q, hq⟩ := List.exists_mem_of_ne_nil _ he
          have hq1 : q.1 ∈ s.sums.map Prod.fst := List.mem_map_of_mem hq
          obtain ⟨y1, x1, hx1, hy1, e1⟩ := ho p0 (hRlt p0 hp0)
          obtain ⟨y2, x2, hx2, hy2, e2⟩ := ho q.1 ((hmem q.1).mp (List.mem_append_right _ hq1))
          have hqn : q.1 ∉ R := fun hqR => (List.nodup_append.mp hnd).2.2 _ hqR _ hq1 rfl
          obtain ⟨y, x, y', x', hx, hy, hx', hy', hS, hnS, hpos⟩ := crossing hm (fun c => c ∈ R) hx1 hy1 hx2 hy2
            (by rw [e1]; exact hp0) (by rw [e2]; exact hqn)
          have hin : px indexed w y' x' ∈ s.sums.map Prod.fst := by
            rcases List.mem_append.mp ((hmem _).mpr (hi.px_lt hx' hy')) with h1 | h1
            · exact absurd h1 hnS
            · exact h1
          obtain ⟨p, hp1, hp2⟩ := List.mem_map.mp hin
          have hz1 := hz p hp1
          rw [ht p hp1, hp2] at hz1
          have := total_pos hS hpos
          omega
        · exact h1
      have hbm : s.best ∈ s.sums := List.mem_of_getElem? hbest
      have hbl : s.best.1 < n := (hmem _).mp (List.mem_append_right _ (List.mem_map_of_mem hbm))
      unfold Lz77.subUsize
      rw [if_pos (by omega), ok_bind]
      refine Oks.bind (deltaLoop_ok hm.good _ hbl R 0 0 hRlt) fun d _ => ?_
      refine Oks.bind (swapRemove_ok hbest) fun rest hrest => ?_
      have hp' : (s.best.1 :: R ++ rest.map Prod.fst).Perm (List.range n) := by
        refine List.Perm.trans ?_ hp
        have h1 : (s.best.1 :: rest.map Prod.fst).Perm (s.sums.map Prod.fst) := hrest.map Prod.fst
        exact List.perm_middle.symm.trans (h1.append_left R)
      have hpl := place_perm R s.best.1 d
      have hp2 : (place R s.best.1 d ++ rest.map Prod.fst).Perm (List.range n) :=
        (hpl.append_right _).trans hp'
      have hne : place R s.best.1 d ≠ [] := by
        intro e; rw [e] at hpl; have := hpl.length_eq; simp at this
      have hl : rest.length < fuel := by
        have := hrest.length_eq; simp at this; omega
      by_cases hr : rest = []
      · subst hr
        rw [if_pos List.isEmpty_nil]
        exact zengLoop_ok hm hi ho hK fuel _ _ (by exact hl) hne hp2 (fun h => absurd rfl h)
      · rw [if_neg (by simpa using hr)]
        have hnd' : (s.best.1 :: R ++ rest.map Prod.fst).Nodup := hp'.nodup_iff.mpr List.nodup_range
        have hmem' : ∀ c ∈ s.best.1 :: R ++ rest.map Prod.fst, c < n := fun c hc => by
          rw [hp'.mem_iff, List.mem_range] at hc; exact hc
        refine Oks.bind (updateSums_ok hm.good hm.symm hK (R := R) (best := s.best.1)
          (List.nodup_append.mp hnd').1 (fun p hp => hmem' p (List.mem_append_left _ hp)) rest ⟨[], 0, (0, 0)⟩
          (fun p hp => ⟨hmem' _ (List.mem_append_right _ (List.mem_map_of_mem hp)), ht p ?_⟩)
          (.inl ⟨rfl, fun p hp => by cases hp⟩) (fun p hp => by cases hp)) fun t h1 => ?_
        · exact hrest.mem_iff.mp (List.mem_cons_of_mem _ hp)
        · have e3 : t.sums.map Prod.fst = rest.map Prod.fst := by rw [h1.2.2]; rfl
          have e4 : t.sums.length = rest.length := by simpa using congrArg List.length e3
          refine zengLoop_ok hm hi ho hK fuel _ t (by omega) hne (by rw [e3]; exact hp2) fun _ => ⟨h1.1, fun p hp => ?_⟩
          rw [h1.2.1 p hp]
          exact (total_perm hpl _).symm

theorem weightedEdges_lt {a b : Nat} (he : (a, b) ∈ weightedEdges m) : a < b ∧ b < m.length := by
  unfold weightedEdges at he
  obtain ⟨e, he, heq⟩ := List.mem_map.mp he
  have he := (sortBy_perm _ _).mem_iff.mp he
  obtain ⟨p, hp, he⟩ := List.mem_flatMap.mp he
  unfold rowEdges at he
  obtain ⟨q, hq, rfl⟩ := List.mem_map.mp he
  have hq := (List.mem_filter.mp hq).1
  injection heq with h1 h2
  obtain ⟨k, hk, hq⟩ := List.mem_iff_getElem.mp hq
  obtain ⟨k2, hk2, hp⟩ := List.mem_iff_getElem.mp hp
  rw [List.getElem_take, List.getElem_zipIdx] at hq
  rw [List.getElem_zipIdx] at hp
  rw [List.length_take] at hk
  rw [List.length_zipIdx] at hk2
  have e1 := congrArg Prod.snd hq
  have e2 := congrArg Prod.snd hp
  dsimp only at e1 e2 h1 h2
  omega

theorem zengReindex_ok (hm : Matrix indexed n w h m) (hi : Image indexed n w h) (ho : Occurs indexed n w h)
    (hK : 4 * (w * h) < 2 ^ 32) : Oks (zengReindex n (weightedEdges m) m) fun r => r.Perm (List.range n) := by
  unfold zengReindex
  have hl := @weightedEdges_lt m
  rw [hm.good.rows] at hl
  revert hl
  cases weightedEdges m with
  | nil => intro _; exact Oks.ok (.refl _)
  | cons e es =>
    obtain ⟨a, b⟩ := e
    intro hl
    obtain ⟨hab, hb⟩ := hl List.mem_cons_self
    dsimp only
    rw [if_neg (by omega)]
    refine Oks.bind (initSums_ok hm.good hK (r0 := a) (r1 := b) (by omega) hb (by omega) m 0 ⟨[], 0, (0, 0)⟩ rfl
      (.inl ⟨rfl, fun p hp => by cases hp⟩) (fun p hp => by cases hp)) fun s hs => ?_
    have ef : s.sums.map Prod.fst = (List.range n).filter fun c => ¬ (c = a ∨ c = b) := by
      rw [hs.2.2, List.range_eq_range']; rfl
    refine zengLoop_ok hm hi ho hK (n + 1) [a, b] s ?_ (by simp) ?_ (fun _ => ⟨hs.1, hs.2.1⟩)
    · have := congrArg List.length ef
      rw [List.length_map] at this
      have h2 := List.length_filter_le (fun c => decide (¬ (c = a ∨ c = b))) (List.range n)
      rw [List.length_range] at h2
      omega
    · rw [ef]
      refine (List.perm_ext_iff_of_nodup ?_ List.nodup_range).mpr fun c => ?_
      · refine List.nodup_append.mpr ⟨by simp; omega, List.nodup_range.filter _, ?_⟩
        intro x hx y hy
        have := (List.mem_filter.mp hy).2
        simp at this hx
        omega
      · simp only [List.mem_append, List.mem_cons, List.mem_filter, List.mem_range, List.not_mem_nil, or_false,
          decide_eq_true_eq]
        omega

end Pixo.Palette
