import Verif.Proof.DeflateStream
import Verif.Spec.BlockCost
/-
The counters of `count_symbols` hold the numbers of occurrences.
-/
namespace Pixo.Deflate
open Spec Spec.BlockCost
open Spec.Rfc1951 (lengthTable distTable)
open Pixo.Lz77 (Token TokOk)

theorem lengthCode_row {l : Nat} (h1 : 3 ≤ l) (h2 : l ≤ 258) :
    ∃ e, lengthCode l = .ok (257 + row lengthTable l, (lengthTable.getD (row lengthTable l) (0, 0)).2, e) ∧
      row lengthTable l < 29 := by
  have h : ∀ i : Fin 256, ∃ e ≤ 31, lengthCode (i.val + 3) =
      .ok (257 + row lengthTable (i.val + 3), (lengthTable.getD (row lengthTable (i.val + 3)) (0, 0)).2, e) ∧
      row lengthTable (i.val + 3) < 29 := by decide +kernel
  obtain ⟨e, _, h⟩ := h ⟨l - 3, by omega⟩
  simp only [Nat.sub_add_cancel h1] at h
  exact ⟨e, h⟩

theorem distTable_sorted : ∀ k : Fin 30,
    (∀ r ∈ distTable.take (k.val + 1), r.1 ≤ (distTable.getD k.val (0, 0)).1) ∧
    (∀ r ∈ distTable.drop (k.val + 1), (distTable.getD k.val (0, 0)).1 + 2 ^ (distTable.getD k.val (0, 0)).2 ≤ r.1) := by
  decide +kernel

theorem row_dist {k b x d : Nat} (hk : distTable[k]? = some (b, x)) (h1 : b ≤ d) (h2 : d < b + 2 ^ x) :
    row distTable d = k := by
  have hl : k < 30 := (List.getElem?_eq_some_iff.mp hk).1
  obtain ⟨s1, s2⟩ := distTable_sorted ⟨k, hl⟩
  have hg : distTable.getD k (0, 0) = (b, x) := by rw [List.getD_eq_getElem?_getD, hk]; rfl
  simp only [hg] at s1 s2
  unfold row
  rw [← List.take_append_drop (k + 1) distTable, List.filter_append, List.length_append,
    List.filter_eq_self.2 (fun r hr => decide_eq_true (Nat.le_trans (s1 r hr) h1)),
    List.filter_eq_nil_iff.2 (fun r hr => by have := s2 r hr; simp only [decide_eq_true_eq]; omega),
    List.length_take]
  simp only [List.length_nil]
  have : distTable.length = 30 := rfl
  omega

theorem distanceCode_row {d : Nat} (h1 : 1 ≤ d) (h2 : d ≤ 32768) :
    ∃ e, distanceCode d = .ok (row distTable d, (distTable.getD (row distTable d) (0, 0)).2, e) ∧
      row distTable d < 30 := by
  obtain ⟨k, b, x, e, j1, j2, j3, j4, j5, _⟩ := distanceCode_spec h1 h2
  have hr : row distTable d = k := row_dist j1 (by omega) (by omega)
  refine ⟨e, ?_, by omega⟩
  rw [hr, j2, List.getD_eq_getElem?_getD, j1]
  rfl

/-! ### The counters -/

theorem bump_eq {f : List Nat} {s : Nat} (hs : s < f.length) (hf : f.sum + 1 < 2 ^ 32) :
    bump f s = .ok (f.set s (f.getD s 0 + 1)) := by
  unfold bump
  have hg : getChecked f s = .ok (f.getD s 0) := by
    unfold getChecked
    rw [List.getElem?_eq_getElem hs, List.getD_eq_getElem?_getD, List.getElem?_eq_getElem hs]; rfl
  have hle := getD_le_sum f s
  rw [hg, ok_bind, if_pos (by omega)]
  unfold setChecked
  rw [if_pos hs]

/-- The counters after some tokens. -/
structure Tally (ts : List Rfc1951.Token) (f f' : List Nat × List Nat) : Prop where
  lenLit : f'.1.length = f.1.length
  lenDist : f'.2.length = f.2.length
  lit : ∀ s, f'.1.getD s 0 = f.1.getD s 0 + (ts.map litSymbol).count s
  dist : ∀ s, f'.2.getD s 0 = f.2.getD s 0 + distCount ts s

theorem set_getD (f : List Nat) {s : Nat} (hs : s < f.length) (v t : Nat) :
    (f.set s v).getD t 0 = if s = t then v else f.getD t 0 := by
  split
  · rename_i h; subst h; exact getD_set_self' _ _ _ hs
  · rename_i h; exact getD_set_ne' _ _ _ _ h

theorem countToken_tally {f : List Nat × List Nat} (h1 : f.1.length = 286) (h2 : f.2.length = 30)
    (s1 : f.1.sum + 1 < 2 ^ 32) (s2 : f.2.sum + 1 < 2 ^ 32) {t : Token} (ht : TokOk t) :
    Oks (countToken f t) (fun f' => Tally [t.spec] f f' ∧ f'.1.sum = f.1.sum + 1 ∧ f'.2.sum ≤ f.2.sum + 1) := by
  cases t with
  | lit b =>
    have hb := b.toNat_lt
    change Oks (do let x ← bump f.1 b.toNat; pure (x, f.2) : R (List Nat × List Nat)) _
    rw [bump_eq (by omega) s1, ok_bind]
    have hsum := sum_set_nat f.1 b.toNat (f.1.getD b.toNat 0 + 1) (by omega)
    refine .pure ⟨⟨by simp, rfl, fun s => ?_, fun s => ?_⟩, by simp only; omega, by simp⟩
    · simp only [set_getD f.1 (show b.toNat < f.1.length by omega)]
      simp only [Lz77.Token.spec, List.map_cons, List.map_nil, litSymbol, List.count_singleton, beq_iff_eq]
      split <;> rename_i h
      · subst h; rfl
      · rfl
    · simp [distCount, Lz77.Token.spec, distSymbol]
  | mtch l d =>
    obtain ⟨a1, a2, a3, a4⟩ := ht
    obtain ⟨e, k1, k2⟩ := lengthCode_row a1 a2
    obtain ⟨e', j1, j2⟩ := distanceCode_row a3 a4
    rw [countToken_mtch, k1, ok_bind]
    simp only [j1]
    rw [bump_eq (by omega) s1, ok_bind, ok_bind]
    simp only []
    rw [bump_eq (by omega) s2, ok_bind]
    have hsum := sum_set_nat f.1 (257 + row lengthTable l) (f.1.getD (257 + row lengthTable l) 0 + 1) (by omega)
    have hsum2 := sum_set_nat f.2 (row distTable d) (f.2.getD (row distTable d) 0 + 1) (by omega)
    refine .pure ⟨⟨by simp, by simp, fun s => ?_, fun s => ?_⟩, by simp only; omega, by simp only; omega⟩
    · simp only [set_getD f.1 (show 257 + row lengthTable l < f.1.length by omega)]
      simp only [Lz77.Token.spec, List.map_cons, List.map_nil, litSymbol, List.count_singleton, beq_iff_eq]
      split <;> rename_i h
      · subst h; rfl
      · rfl
    · simp only [set_getD f.2 (show row distTable d < f.2.length by omega)]
      simp only [distCount, Lz77.Token.spec, List.map_cons, List.map_nil, distSymbol, List.count_singleton, beq_iff_eq,
        Option.some.injEq]
      split <;> rename_i h
      · subst h; rfl
      · rfl

theorem Tally.trans {ts us : List Rfc1951.Token} {f g h : List Nat × List Nat} (a : Tally ts f g) (b : Tally us g h) :
    Tally (ts ++ us) f h := by
  refine ⟨by rw [b.lenLit, a.lenLit], by rw [b.lenDist, a.lenDist], fun s => ?_, fun s => ?_⟩
  · rw [b.lit, a.lit, List.map_append, List.count_append, Nat.add_assoc]
  · have h1 := a.dist s
    have h2 := b.dist s
    unfold distCount at *
    rw [List.map_append, List.count_append]; omega

theorem countLoop_tally (ts : List Token) (hts : ∀ t ∈ ts, TokOk t) (f : List Nat × List Nat)
    (h1 : f.1.length = 286) (h2 : f.2.length = 30)
    (s1 : f.1.sum + ts.length + 1 < 2 ^ 32) (s2 : f.2.sum + ts.length + 1 < 2 ^ 32) :
    Oks (countLoop ts f) (fun f' => Tally (ts.map Token.spec) f f' ∧
      f'.1.sum = f.1.sum + ts.length ∧ f'.2.sum ≤ f.2.sum + ts.length) := by
  induction ts generalizing f with
  | nil => exact .ok ⟨⟨rfl, rfl, by simp, by simp [distCount]⟩, by simp, by simp⟩
  | cons t ts ih =>
    unfold countLoop
    rw [List.length_cons] at s1 s2
    refine Oks.bind (countToken_tally h1 h2 (by omega) (by omega) (hts t (by simp))) fun g hg => ?_
    obtain ⟨g1, g2, g3⟩ := hg
    refine Oks.mono (ih (fun x hx => hts x (by simp [hx])) g (by rw [g1.lenLit, h1])
      (by rw [g1.lenDist, h2]) (by omega) (by omega)) ?_
    rintro g' ⟨k1, k2, k3⟩
    refine ⟨g1.trans k1, ?_, ?_⟩
    · rw [List.length_cons]; omega
    · rw [List.length_cons]; omega

theorem eq_range_map {l : List Nat} {n : Nat} (h : l.length = n) {g : Nat → Nat} (hg : ∀ s, s < n → l.getD s 0 = g s) :
    l = (List.range n).map g := by
  refine List.ext_getElem (by simp [h]) fun i h1 h2 => ?_
  have := hg i (by omega)
  rw [List.getD_eq_getElem?_getD, List.getElem?_eq_getElem h1, Option.getD_some] at this
  rw [this, List.getElem_map, List.getElem_range]

theorem count_map_none (ts : List Rfc1951.Token) :
    (∀ s, distCount ts s = 0) ↔ ts.all (fun t => distSymbol t = none) = true := by
  simp only [distCount, List.count_eq_zero, List.mem_map, not_exists, not_and, List.all_eq_true, decide_eq_true_eq]
  constructor
  · intro h t ht
    cases e : distSymbol t with
    | none => rfl
    | some s => exact absurd e (h s t ht)
  · intro h s t ht e
    rw [h t ht] at e; cases e

theorem distSymbol_lt {t : Token} (h : TokOk t) {s : Nat} (e : distSymbol t.spec = some s) : s < 30 := by
  cases t with
  | lit b => cases e
  | mtch l d =>
    obtain ⟨a1, a2, a3, a4⟩ := h
    obtain ⟨_, _, j2⟩ := distanceCode_row a3 a4
    cases e; exact j2

theorem countSymbols_eq (ts : List Token) (hts : ∀ t ∈ ts, TokOk t) (hn : ts.length + 2 < 2 ^ 32) :
    countSymbols ts = .ok (litCounts (ts.map Token.spec), distCounts (ts.map Token.spec)) := by
  obtain ⟨f, e, ht, q1, q2⟩ := (countLoop_tally ts hts (List.replicate 286 0, List.replicate 30 0)
    (by simp only [List.length_replicate]) (by simp only [List.length_replicate])
    (by simp only [sum_replicate_zero]; omega) (by simp only [sum_replicate_zero]; omega)).out
  simp only [sum_replicate_zero] at q1 q2
  have l1 : f.1.length = 286 := by rw [ht.lenLit]; exact List.length_replicate
  have l2 : f.2.length = 30 := by rw [ht.lenDist]; exact List.length_replicate
  have hz : ∀ n s, (List.replicate n 0).getD s 0 = 0 := by
    intro n s
    rw [List.getD_eq_getElem?_getD, List.getElem?_replicate]; split <;> rfl
  have hlit : f.1.set 256 (f.1.getD 256 0 + 1) = litCounts (ts.map Token.spec) := by
    unfold litCounts
    refine eq_range_map (by rw [List.length_set, l1]) fun s hs => ?_
    rw [set_getD f.1 (by omega), litCount, List.count_append, List.count_singleton]
    have h0 := ht.lit s
    simp only [hz, Nat.zero_add] at h0
    split <;> rename_i h
    · subst h; simp only [beq_self_eq_true, if_true]; omega
    · rw [h0]; simp [h]
  have hdist : ∀ s, f.2.getD s 0 = distCount (ts.map Token.spec) s := fun s => by
    have := ht.dist s
    simp only [hz, Nat.zero_add] at this
    exact this
  unfold countSymbols
  obtain ⟨lit, dist⟩ := f
  rw [e, ok_bind]
  simp only at *
  rw [bump_eq (by omega) (by omega), ok_bind, hlit]
  unfold distCounts
  by_cases h : dist.all (· == 0) = true
  · have hall : ∀ s, dist.getD s 0 = 0 := fun s => by
      rw [List.getD_eq_getElem?_getD]
      cases hx : dist[s]? with
      | none => rfl
      | some v =>
        have := List.all_eq_true.1 h v (List.mem_of_getElem? hx)
        simpa using this
    rw [if_pos h, if_pos ((count_map_none _).1 fun s => by rw [← hdist, hall])]
    have hd : dist = List.replicate 30 0 := by
      rw [eq_range_map l2 (g := fun _ => 0) fun s _ => hall s]; rfl
    rw [hd]; rfl
  · rw [if_neg h, if_neg]
    · have : dist = (List.range 30).map (distCount (ts.map Token.spec)) := eq_range_map l2 fun s _ => hdist s
      rw [← this]; rfl
    · intro hc
      refine h (List.all_eq_true.2 fun v hv => ?_)
      obtain ⟨s, hs, rfl⟩ := List.getElem_of_mem hv
      have := (count_map_none _).2 hc s
      rw [← hdist, List.getD_eq_getElem?_getD, List.getElem?_eq_getElem hs, Option.getD_some] at this
      simp [this]

end Pixo.Deflate
