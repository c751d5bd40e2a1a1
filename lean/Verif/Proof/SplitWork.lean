import Verif.Model.SplitWork
import Verif.Proof.BlockSplitLoop
/-
The number of tokens looked at.
-/
namespace Pixo.Deflate
open Pixo Pixo.Lz77 Spec.BlockCost

variable (env : Env) (tokens : List Token)

theorem estimateW_of {start stop : Nat} {c : Int} (h : estimateBlockCost env tokens start stop = .ok c) :
    estimateW env tokens start stop = .ok (c, stop - start) := by
  unfold estimateW; rw [h]; rfl

theorem splitCostW_of {start i stop : Nat} {c : Int} (h1 : start ≤ i) (h2 : i ≤ stop) (h : splitCost env tokens start i stop = .ok c) :
    splitCostW env tokens start i stop = .ok (c, stop - start) := by
  unfold splitCost at h
  unfold splitCostW
  cases e1 : estimateBlockCost env tokens start i with
  | error x => rw [e1] at h; cases h
  | ok l =>
    rw [e1, ok_bind] at h
    cases e2 : estimateBlockCost env tokens i stop with
    | error x => rw [e2] at h; cases h
    | ok r =>
      rw [e2, ok_bind] at h
      rw [estimateW_of env tokens e1, ok_bind]
      simp only
      rw [estimateW_of env tokens e2, ok_bind]
      cases h
      show Except.ok (_, i - start + (stop - i)) = _
      rw [show i - start + (stop - i) = stop - start by omega]

theorem candidatesW_of {start stop step : Nat} (fuel i : Nat) (hi : start ≤ i) {cs : List (Nat × Int)}
    (h : candidates env tokens start stop step fuel i = .ok cs) :
    candidatesW env tokens start stop step fuel i = .ok (cs, cs.length * (stop - start)) := by
  induction fuel generalizing i cs with
  | zero => cases h
  | succ fuel ih =>
    unfold candidates candidates.MIN_BLOCK at h
    unfold candidatesW
    by_cases hc : i < stop - 10
    · rw [if_pos hc] at h ⊢
      cases e1 : splitCost env tokens start i stop with
      | error x => rw [e1] at h; cases h
      | ok t =>
        rw [e1, ok_bind] at h
        cases e2 : candidates env tokens start stop step fuel (i + step) with
        | error x => rw [e2] at h; cases h
        | ok r =>
          rw [e2, ok_bind] at h
          cases h
          rw [splitCostW_of env tokens hi (by omega) e1, ok_bind]
          simp only
          rw [ih (i + step) (by omega) e2, ok_bind]
          simp only [List.length_cons]
          rw [Nat.add_mul, Nat.one_mul, Nat.add_comm]
          rfl
    · rw [if_neg hc] at h ⊢
      cases h
      simp

theorem candidates_count {start stop step : Nat} (hs : 1 ≤ step) (fuel i : Nat) {cs : List (Nat × Int)}
    (h : candidates env tokens start stop step fuel i = .ok cs) : cs.length * step < stop - 10 - i + step ∧
      ∀ c ∈ cs, i ≤ c.1 ∧ c.1 < stop - 10 := by
  induction fuel generalizing i cs with
  | zero => cases h
  | succ fuel ih =>
    unfold candidates candidates.MIN_BLOCK at h
    by_cases hc : i < stop - 10
    · rw [if_pos hc] at h
      cases e1 : splitCost env tokens start i stop with
      | error x => rw [e1] at h; cases h
      | ok t =>
        rw [e1, ok_bind] at h
        cases e2 : candidates env tokens start stop step fuel (i + step) with
        | error x => rw [e2] at h; cases h
        | ok r =>
          rw [e2, ok_bind] at h
          cases h
          obtain ⟨k1, k2⟩ := ih (i + step) e2
          constructor
          · simp only [List.length_cons]
            rw [Nat.add_mul, Nat.one_mul]
            by_cases hr : r = []
            · subst hr; simp; omega
            · obtain ⟨c, hcm⟩ := List.exists_mem_of_ne_nil r hr
              have := k2 c hcm
              omega
          · intro c hcm
            rcases List.mem_cons.1 hcm with rfl | hcm
            · exact ⟨Nat.le_refl _, hc⟩
            · have := k2 c hcm
              omega
    · rw [if_neg hc] at h
      cases h
      constructor
      · simp; omega
      · simp

theorem fineSearchW_of {start stop : Nat} (n i : Nat) (hi : start ≤ i) (hin : n = 0 ∨ i + n ≤ stop + 1) (best : Nat × Int) {r : Nat × Int}
    (h : fineSearch env tokens start stop n i best = .ok r) :
    fineSearchW env tokens start stop n i best = .ok (r, n * (stop - start)) := by
  induction n generalizing i best with
  | zero => unfold fineSearch at h; cases h; unfold fineSearchW; simp
  | succ n ih =>
    unfold fineSearch at h
    unfold fineSearchW
    cases e1 : splitCost env tokens start i stop with
    | error x => rw [e1] at h; cases h
    | ok t =>
      rw [e1, ok_bind] at h
      rw [splitCostW_of env tokens hi (by omega) e1, ok_bind]
      simp only
      rw [ih (i + 1) (by omega) (by omega) _ h, ok_bind]
      simp only
      rw [Nat.add_mul, Nat.one_mul, Nat.add_comm]
      rfl

/-- Nothing is written here but the number of positions: `k` of them besides the whole. -/
theorem findBestSplitW_of {start stop : Nat} (h20 : start + 20 ≤ stop) {r : Option Nat} (h : findBestSplit env tokens start stop = .ok r) :
    ∃ k, findBestSplitW env tokens start stop = .ok (r, (stop - start) * k) ∧ 9 * k ≤ 2 * (stop - start) + 108 ∧
      (r ≠ none → min (stop - start) (9 * (stop - start - 20)) ≤ 9 * k) := by
  unfold findBestSplit subUsize at h
  unfold findBestSplitW subUsize
  rw [if_pos (by omega), ok_bind] at h ⊢
  rw [if_neg (by omega)] at h ⊢
  cases e1 : estimateBlockCost env tokens start stop with
  | error x => rw [e1] at h; cases h
  | ok orig =>
    rw [e1, ok_bind] at h
    rw [estimateW_of env tokens e1, ok_bind]
    simp only at h ⊢
    generalize hst : max ((stop - start) / 9) 1 = step at h ⊢
    have hst1 : 1 ≤ step := by omega
    cases e2 : candidates env tokens start stop step (stop - start + 1) (start + 10) with
    | error x => rw [e2] at h; cases h
    | ok cs =>
      rw [e2, ok_bind] at h
      rw [candidatesW_of env tokens _ _ (by omega) e2, ok_bind]
      obtain ⟨k1, k2⟩ := candidates_count env tokens hst1 _ _ e2
      have hcs : cs.length ≤ 10 := by
        rcases Nat.lt_or_ge 10 cs.length with hgt | hle
        · have : 11 * step ≤ cs.length * step := Nat.mul_le_mul_right _ hgt
          omega
        · exact hle
      simp only
      have ew : ∀ m, stop - start + cs.length * (stop - start) + m * (stop - start) = (stop - start) * (1 + cs.length + m) := by
        intro m
        rw [Nat.mul_add, Nat.mul_add, Nat.mul_one, Nat.mul_comm _ cs.length, Nat.mul_comm _ m]
      have ew0 := ew 0
      rw [Nat.zero_mul, Nat.add_zero] at ew0
      cases hm : minBy cs with
      | none =>
        rw [hm] at h
        cases h
        exact ⟨_, by rw [ew0], by omega, fun h => absurd rfl h⟩
      | some c =>
        obtain ⟨bi, cost⟩ := c
        rw [hm] at h
        simp only at h ⊢
        obtain ⟨b1, b2⟩ := k2 _ (minBy_mem cs _ hm)
        simp only at b1 b2
        by_cases hc : cost < orig
        · rw [if_pos hc] at h ⊢
          generalize hn : min (bi + step) (stop - 10) + 1 - max (bi - step) (start + 10) = n at h ⊢
          cases e3 : fineSearch env tokens start stop n (max (bi - step) (start + 10)) (bi, cost) with
          | error x => rw [e3] at h; cases h
          | ok s =>
            rw [e3, ok_bind] at h
            rw [fineSearchW_of env tokens n _ (by omega) (by omega) _ e3, ok_bind]
            simp only at h ⊢
            refine ⟨1 + cs.length + n, ?_, by omega, fun _ => by omega⟩
            by_cases hb : s.2 < F64.sub orig (F64.ofInt 10)
            · rw [if_pos hb] at h ⊢
              cases h
              rw [ew]
            · rw [if_neg hb] at h ⊢
              cases h
              rw [ew]
        · rw [if_neg hc] at h ⊢
          cases h
          exact ⟨_, by rw [ew0], by omega, fun h => absurd rfl h⟩

/-- Blocks no split of which was found. -/
def marked (done : List Bool) (l : List Nat) : Nat := (pairs l).countP (fun p => done[p.1]? == some true)

theorem pairs_length (a : Nat) (l : List Nat) : (pairs (a :: l)).length = l.length := by
  induction l generalizing a with
  | nil => rfl
  | cons b l ih => rw [pairs, List.length_cons, ih b, List.length_cons]

theorem countP_set_lt {done : List Bool} {a : Nat} (ha : done[a]? = some false) (l : List (Nat × Nat)) (hm : ∃ b, (a, b) ∈ l) :
    l.countP (fun p => done[p.1]? == some true) + 1 ≤ l.countP (fun p => (done.set a true)[p.1]? == some true) := by
  have hmono : ∀ (l : List (Nat × Nat)), l.countP (fun p => done[p.1]? == some true) ≤
      l.countP (fun p => (done.set a true)[p.1]? == some true) := by
    intro l
    refine List.countP_mono_left fun p _ hp => ?_
    by_cases hpa : a = p.1
    · rw [← hpa, ha] at hp; cases hp
    · rw [List.getElem?_set_ne hpa]; exact hp
  have hlt : a < done.length := by
    rcases Nat.lt_or_ge a done.length with h | h
    · exact h
    · rw [List.getElem?_eq_none h] at ha; cases ha
  induction l with
  | nil => obtain ⟨b, hb⟩ := hm; cases hb
  | cons q l ih =>
    rw [List.countP_cons, List.countP_cons]
    by_cases hq : q.1 = a
    · have e1 : (done[q.1]? == some true) = false := by rw [hq, ha]; rfl
      have e2 : ((done.set a true)[q.1]? == some true) = true := by
        rw [hq, List.getElem?_set_self hlt]; rfl
      rw [e1, e2]
      have := hmono l
      simp
      omega
    · have e2 : (done.set a true)[q.1]? = done[q.1]? := List.getElem?_set_ne (by omega)
      rw [e2]
      have := ih (by
        obtain ⟨b, hb⟩ := hm
        rcases List.mem_cons.1 hb with rfl | hb
        · exact absurd rfl hq
        · exact ⟨b, hb⟩)
      omega

variable {tokens} (ht : ∀ t ∈ tokens, TokOk t) (hn : tokens.length + 2 < 2 ^ 32)
include ht hn

theorem splitLoopW_of (maxBlocks fuel : Nat) (splits : List Nat) (done : List Bool) (num : Nat)
    (hs : (boundaries splits tokens.length).Pairwise (· < ·)) (hnum : num = splits.length + 1) (hmost : num ≤ maxBlocks)
    (hlen : done.length = tokens.length) {r : List Nat} (h : splitLoop env tokens maxBlocks fuel splits done num = .ok r) :
    ∃ k, splitLoopW env tokens maxBlocks fuel splits done num = .ok (r, k) ∧
      9 * k ≤ ((maxBlocks - num) + (maxBlocks - marked done (boundaries splits tokens.length))) *
        (tokens.length * (2 * tokens.length + 108)) := by
  induction fuel generalizing splits done num with
  | zero => cases h
  | succ fuel ih =>
    unfold splitLoop at h
    unfold splitLoopW
    by_cases hge : num ≥ maxBlocks
    · rw [if_pos hge] at h ⊢
      cases h
      exact ⟨0, rfl, by omega⟩
    rw [if_neg hge] at h ⊢
    have hpl : ∀ p ∈ pairs (boundaries splits tokens.length), p.2 ≤ tokens.length := by
      intro p hp
      have hm := (pairs_mem hp).2
      have hsorted := hs
      unfold boundaries at hm hsorted
      rw [← List.cons_append] at hm hsorted
      rcases List.mem_append.1 hm with h | h
      · have := (List.pairwise_append.1 hsorted).2.2 p.2 h tokens.length (by simp); omega
      · simp only [List.mem_singleton] at h; omega
    obtain ⟨b, eb, hb⟩ := (largestBlock_mem hlen (boundaries splits tokens.length) (fun p hp => by
      have := pairs_lt hs hp
      have := hpl p hp
      omega) none).out
    rw [eb, ok_bind] at h ⊢
    cases b with
    | none =>
      simp only at h ⊢
      cases h
      exact ⟨0, rfl, by omega⟩
    | some t =>
      obtain ⟨start, stop, size⟩ := t
      simp only at hb h ⊢
      rcases hb with hb | ⟨hr1, hr2, hr3⟩
      · cases hb
      have hstop := hpl _ hr1
      simp only at hstop
      obtain ⟨f, ef, hf⟩ := (findBestSplit_ok env ht hn hr3 hstop).out
      rw [ef, ok_bind] at h
      obtain ⟨k, ek, hk, -⟩ := findBestSplitW_of env tokens hr3 ef
      rw [ek, ok_bind]
      have hk9 : 9 * ((stop - start) * k) ≤ tokens.length * (2 * tokens.length + 108) := by
        rw [Nat.mul_left_comm]
        exact Nat.mul_le_mul (by omega) (by omega)
      generalize tokens.length * (2 * tokens.length + 108) = C at *
      cases f with
      | some s =>
        simp only at h ⊢
        obtain ⟨s1, s2⟩ := hf s rfl
        have hs' := hs
        have hr1' := hr1
        unfold boundaries at hs' hr1'
        obtain ⟨g1, g2, g3, pre, post, g4, g5⟩ := pairs_insert (s := s) splits 0 hs' (by omega) hr1' s1 s2
        obtain ⟨k', ek', hk'⟩ := ih (insertSplit splits s) done (num + 1) g1 (by omega) (by omega) hlen h
        refine ⟨(stop - start) * k + k', by rw [ek', ok_bind]; rfl, ?_⟩
        have hM : marked done (boundaries splits tokens.length) ≤ marked done (boundaries (insertSplit splits s) tokens.length) := by
          unfold marked boundaries
          rw [g4, g5, List.countP_append, List.countP_append, List.countP_cons, List.countP_cons, List.countP_cons]
          dsimp only
          omega
        have : ((maxBlocks - (num + 1)) + (maxBlocks - marked done (boundaries (insertSplit splits s) tokens.length)) + 1) * C ≤
            ((maxBlocks - num) + (maxBlocks - marked done (boundaries splits tokens.length))) * C :=
          Nat.mul_le_mul_right _ (by omega)
        rw [Nat.add_mul, Nat.one_mul] at this
        omega
      | none =>
        simp only at h ⊢
        unfold setChecked at h ⊢
        rw [if_pos (by rw [hlen]; omega), ok_bind] at h ⊢
        obtain ⟨k', ek', hk'⟩ := ih splits (done.set start true) num hs hnum hmost (by rw [List.length_set, hlen]) h
        refine ⟨(stop - start) * k + k', by rw [ek', ok_bind]; rfl, ?_⟩
        have hM : marked done (boundaries splits tokens.length) + 1 ≤ marked (done.set start true) (boundaries splits tokens.length) :=
          countP_set_lt hr2 _ ⟨stop, hr1⟩
        have hle : marked (done.set start true) (boundaries splits tokens.length) ≤ num := by
          unfold marked
          refine Nat.le_trans List.countP_le_length ?_
          unfold boundaries
          rw [pairs_length]
          simp
          omega
        have : ((maxBlocks - num) + (maxBlocks - marked (done.set start true) (boundaries splits tokens.length)) + 1) * C ≤
            ((maxBlocks - num) + (maxBlocks - marked done (boundaries splits tokens.length))) * C :=
          Nat.mul_le_mul_right _ (by omega)
        rw [Nat.add_mul, Nat.one_mul] at this
        omega

theorem findBlockSplitsW_of (maxBlocks : Nat) {r : List Nat} (h : findBlockSplits env tokens maxBlocks = .ok r) :
    ∃ k, findBlockSplitsW env tokens maxBlocks = .ok (r, k) ∧
      9 * k ≤ (2 * maxBlocks - 1) * (tokens.length * (2 * tokens.length + 108)) := by
  unfold findBlockSplits at h
  unfold findBlockSplitsW
  by_cases hc : tokens.length < 20 ∨ maxBlocks ≤ 1
  · rw [if_pos hc] at h ⊢
    cases h
    exact ⟨0, rfl, by omega⟩
  · rw [if_neg hc] at h ⊢
    obtain ⟨k, e, hk⟩ := splitLoopW_of env ht hn maxBlocks _ [] _ 1 (by simp [boundaries]; omega) rfl (by omega) List.length_replicate h
    refine ⟨k, e, Nat.le_trans hk (Nat.mul_le_mul_right _ ?_)⟩
    omega

/-- If a split is found then by the first search, whose fine part looks at all tokens for each of `step` positions. -/
theorem findBlockSplitsW_ge (maxBlocks : Nat) {r : List Nat} {k : Nat} (hne : r ≠ [])
    (h : findBlockSplitsW env tokens maxBlocks = .ok (r, k)) :
    tokens.length * min tokens.length (9 * (tokens.length - 20)) ≤ 9 * k := by
  unfold findBlockSplitsW at h
  by_cases hc : tokens.length < 20 ∨ maxBlocks ≤ 1
  · rw [if_pos hc] at h
    cases h
    exact absurd rfl hne
  rw [if_neg hc] at h
  have hbig : ∀ (d : List Bool) (b : Bool), d.length = tokens.length → d[0]? = some b →
      largestBlock d (boundaries [] tokens.length) none = .ok (if b then none else some (0, tokens.length, tokens.length)) := by
    intro d b hd h0
    unfold boundaries
    rw [List.nil_append, largestBlock, subUsize, if_pos (by omega), ok_bind, getChecked, h0]
    simp only [ok_bind]
    rw [largestBlock]
    · cases b
      · simp [beats]; omega
      · simp
    · simp
  unfold splitLoopW at h
  rw [if_neg (by omega), hbig _ false List.length_replicate (by rw [List.getElem?_replicate, if_pos (by omega)]), ok_bind] at h
  simp only [Bool.false_eq_true, if_false] at h
  obtain ⟨f, ef, hf⟩ := (findBestSplit_ok env ht hn (show 0 + 20 ≤ tokens.length by omega) (Nat.le_refl _)).out
  obtain ⟨q, eq, hq, hq2⟩ := findBestSplitW_of env tokens (by omega) ef
  rw [eq, ok_bind] at h
  cases f with
  | some s =>
    simp only at h
    cases e : splitLoopW env tokens maxBlocks (maxBlocks + tokens.length) (insertSplit [] s) (List.replicate tokens.length false) (1 + 1) with
    | error x => rw [e] at h; cases h
    | ok v =>
      rw [e, ok_bind] at h
      cases h
      have h3 := hq2 (by simp)
      rw [Nat.sub_zero] at h3 ⊢
      have h4 := Nat.mul_le_mul_left tokens.length h3
      rw [Nat.mul_left_comm] at h4
      omega
  | none =>
    simp only at h
    unfold setChecked at h
    rw [if_pos (by rw [List.length_replicate]; omega), ok_bind] at h
    obtain ⟨m, hm⟩ : ∃ m, maxBlocks + tokens.length = m + 1 := ⟨maxBlocks + tokens.length - 1, by omega⟩
    rw [hm] at h
    unfold splitLoopW at h
    rw [if_neg (by omega), hbig _ true (by simp) (by rw [List.getElem?_set_self (by rw [List.length_replicate]; omega)]), ok_bind] at h
    simp only [if_true, ok_bind] at h
    cases h
    exact absurd rfl hne

end Pixo.Deflate
