import Verif.Proof.BlockSplit
/-
The loop of `find_block_splits`: what is split, and when it stops.
-/
namespace Pixo.Deflate
open Spec Spec.BlockCost
open Pixo.Lz77 (Token TokOk subUsize)

variable (env : Env) (hlog : Log64Ok env.log64) {tokens : List Token} (ht : ∀ t ∈ tokens, TokOk t)
  (hn : tokens.length + 2 < 2 ^ 32)

/-- The estimate as a function. -/
def costOf (tokens : List Token) (a b : Nat) : Int :=
  match estimateBlockCost env tokens a b with
  | .ok c => c
  | .error _ => 0

include hlog ht hn

theorem cost_ok {a b : Nat} (h2 : b ≤ tokens.length) :
    estimateBlockCost env tokens a b = .ok (costOf env tokens a b) := by
  obtain ⟨c, e, _⟩ := (estimateBlockCost_ok env ht hn (start := a) h2).out
  unfold costOf
  rw [e]

theorem cost_bound {a b : Nat} (h1 : a < b) (h2 : b ≤ tokens.length) :
    (-(((82 * (b - a) + 364) * F64.one : Nat) : Int) ≤ costOf env tokens a b ∧
      costOf env tokens a b ≤ (((82 * (b - a) + 364) * F64.one : Nat) : Int)) ∧
      -(((b - a + 632 : Nat) : Int) * eps) ≤ costOf env tokens a b - estimate env.log64 F64.one (blockOf tokens a b) ∧
      costOf env tokens a b - estimate env.log64 F64.one (blockOf tokens a b) ≤ ((b - a + 632 : Nat) : Int) * eps := by
  obtain ⟨c, e, hc⟩ := (estimate_spec env hlog ht hn h1 h2).out
  have := cost_ok env hlog ht hn (a := a) h2
  rw [e] at this
  cases this
  exact hc

/-- The sum of two costs, as the code computes it. -/
theorem split_ok {a i b : Nat} (h0 : a < i) (h1 : i < b) (h2 : b ≤ tokens.length) :
    ∃ t, splitCost env tokens a i b = .ok t ∧ -eps ≤ t - (costOf env tokens a i + costOf env tokens i b) ∧
      t - (costOf env tokens a i + costOf env tokens i b) ≤ eps := by
  obtain ⟨c1, _⟩ := cost_bound env hlog ht hn h0 (by omega)
  obtain ⟨c2, _⟩ := cost_bound env hlog ht hn h1 h2
  unfold splitCost
  rw [cost_ok env hlog ht hn (by omega), ok_bind, cost_ok env hlog ht hn h2, ok_bind]
  refine ⟨_, rfl, ?_⟩
  unfold F64.add
  apply rnd_eps
  have e : (82 * (i - a) + 364) * F64.one + (82 * (b - i) + 364) * F64.one ≤ 2 ^ 40 * F64.one := by
    rw [← Nat.add_mul]; exact Nat.mul_le_mul_right _ (by omega)
  generalize (82 * (i - a) + 364) * F64.one = u at *
  generalize (82 * (b - i) + 364) * F64.one = v at *
  omega

/-- `orig_cost - 10.0`. -/
theorem limit_ok {a b : Nat} (h1 : a < b) (h2 : b ≤ tokens.length) :
    -eps ≤ F64.sub (costOf env tokens a b) (F64.ofInt 10) - (costOf env tokens a b - 10 * (F64.one : Int)) ∧
    F64.sub (costOf env tokens a b) (F64.ofInt 10) - (costOf env tokens a b - 10 * (F64.one : Int)) ≤ eps := by
  obtain ⟨c1, _⟩ := cost_bound env hlog ht hn h1 h2
  have h10 : F64.ofInt 10 = ((10 * F64.one : Nat) : Int) := by
    have h : F64.ofInt (10 : Nat) = ((10 * F64.one : Nat) : Int) := F64.ofInt_exact (by omega)
    rw [← h]; rfl
  rw [h10]
  have e10 : ((10 * F64.one : Nat) : Int) = 10 * (F64.one : Int) := by rw [Int.natCast_mul]; rfl
  rw [← e10]
  unfold F64.sub
  apply rnd_eps
  have e : (82 * (b - a) + 364) * F64.one + 10 * F64.one ≤ 2 ^ 40 * F64.one := by
    rw [← Nat.add_mul]; exact Nat.mul_le_mul_right _ (by omega)
  generalize (82 * (b - a) + 364) * F64.one = u at *
  generalize 10 * F64.one = v at *
  omega

/-- A position and the computed cost of splitting there. -/
def Tried (start stop : Nat) (c : Nat × Int) : Prop :=
  start + 10 ≤ c.1 ∧ c.1 + 10 ≤ stop ∧ splitCost env tokens start c.1 stop = .ok c.2

theorem candidates_spec {start stop step : Nat} (h2 : stop ≤ tokens.length) (hs : 1 ≤ step) (fuel i : Nat)
    (hf : stop - 10 < i + fuel) (hf0 : 0 < fuel) (hi : start + 10 ≤ i) :
    Oks (candidates env tokens start stop step fuel i) (fun cs => (∀ c ∈ cs, Tried env (tokens := tokens) start stop c) ∧
      ∀ k, i + k * step < stop - 10 → ∃ t, (i + k * step, t) ∈ cs) := by
  induction fuel generalizing i with
  | zero => omega
  | succ fuel ih =>
    unfold candidates
    have e : candidates.MIN_BLOCK = 10 := rfl
    by_cases h : i < stop - candidates.MIN_BLOCK
    · rw [if_pos h]
      rw [e] at h
      obtain ⟨t, et, _⟩ := split_ok env hlog ht hn (a := start) (i := i) (b := stop) (by omega) (by omega) h2
      rw [et, ok_bind]
      refine Oks.bind (ih (i + step) (by omega) (by omega) (by omega)) fun rest hr => ?_
      refine .pure ⟨fun c hc => ?_, fun k hk => ?_⟩
      · rcases List.mem_cons.mp hc with rfl | hc
        · exact ⟨hi, by simp only; omega, et⟩
        · exact hr.1 c hc
      · cases k with
        | zero => exact ⟨t, by simp⟩
        | succ k =>
          have e2 : i + (k + 1) * step = i + step + k * step := by rw [Nat.add_mul, Nat.one_mul]; omega
          rw [e2] at hk ⊢
          obtain ⟨t', h'⟩ := hr.2 k hk
          exact ⟨t', List.mem_cons_of_mem _ h'⟩
    · rw [if_neg h]
      rw [e] at h
      exact .ok ⟨by simp, fun k hk => by omega⟩

omit hlog ht hn in
theorem minBy_le (cs : List (Nat × Int)) : ∀ c, minBy cs = some c → ∀ d ∈ cs, c.2 ≤ d.2 := by
  induction cs with
  | nil => simp [minBy]
  | cons a cs ih =>
    intro c hc d hd
    unfold minBy at hc
    cases hm : minBy cs with
    | none =>
      have : cs = [] := by
        cases cs with
        | nil => rfl
        | cons x xs =>
          unfold minBy at hm
          split at hm
          · cases hm
          · split at hm <;> cases hm
      subst this
      rw [hm] at hc
      simp only [Option.some.injEq] at hc
      simp only [List.mem_singleton] at hd
      subst hc; subst hd; exact Int.le_refl _
    | some b =>
      rw [hm] at hc
      simp only at hc
      split at hc
      · cases hc
        rcases List.mem_cons.mp hd with rfl | hd
        · omega
        · exact ih _ hm d hd
      · cases hc
        rcases List.mem_cons.mp hd with rfl | hd
        · exact Int.le_refl _
        · have := ih _ hm d hd; omega

omit hlog ht hn in
theorem minBy_none (cs : List (Nat × Int)) (h : minBy cs = none) : cs = [] := by
  cases cs with
  | nil => rfl
  | cons x xs =>
    unfold minBy at h
    split at h
    · cases h
    · split at h <;> cases h

theorem fineSearch_spec {start stop : Nat} (h2 : stop ≤ tokens.length) (n i : Nat) (hi : start + 10 ≤ i)
    (hin : n = 0 ∨ i + n + 9 ≤ stop) (best : Nat × Int) (hb : Tried env (tokens := tokens) start stop best) :
    Oks (fineSearch env tokens start stop n i best) (fun r => Tried env (tokens := tokens) start stop r ∧ r.2 ≤ best.2) := by
  induction n generalizing i best with
  | zero => exact .ok ⟨hb, Int.le_refl _⟩
  | succ n ih =>
    unfold fineSearch
    obtain ⟨t, et, _⟩ := split_ok env hlog ht hn (a := start) (i := i) (b := stop) (by omega) (by omega) h2
    rw [et, ok_bind]
    by_cases hlt : t < best.2
    · rw [if_pos hlt]
      refine Oks.mono (ih (i + 1) (by omega) (by omega) (i, t) ⟨hi, by simp only; omega, et⟩) fun r hr => ⟨hr.1, ?_⟩
      have := hr.2
      simp only at this
      omega
    · rw [if_neg hlt]
      exact ih (i + 1) (by omega) (by omega) best hb

/-- What splitting a block at `s` gains. -/
def Gains (start s stop : Nat) : Prop :=
  start + 10 ≤ s ∧ s + 10 ≤ stop ∧
    costOf env tokens start s + costOf env tokens s stop + 10 * (F64.one : Int) ≤ costOf env tokens start stop + 2 * eps

/-- None of the nine or ten positions tried first gains ten bits. -/
def Dead (start stop : Nat) : Prop :=
  ∀ k, start + 10 + k * max ((stop - start) / 9) 1 < stop - 10 →
    costOf env tokens start stop ≤ costOf env tokens start (start + 10 + k * max ((stop - start) / 9) 1) +
      costOf env tokens (start + 10 + k * max ((stop - start) / 9) 1) stop + 10 * (F64.one : Int) + 2 * eps

theorem findBestSplit_spec {start stop : Nat} (h1 : start + 20 ≤ stop) (h2 : stop ≤ tokens.length) :
    Oks (findBestSplit env tokens start stop) (fun r =>
      match r with
      | some s => Gains env (tokens := tokens) start s stop
      | none => Dead env (tokens := tokens) start stop) := by
  unfold findBestSplit subUsize
  rw [if_pos (by omega), ok_bind, if_neg (by omega), cost_ok env hlog ht hn h2, ok_bind]
  simp only
  have hlim := limit_ok env hlog ht hn (show start < stop by omega) h2
  have hp := eps_pos
  have hone : (0 : Int) ≤ F64.one := by omega
  unfold Dead
  generalize hst : max ((stop - start) / 9) 1 = step
  have hst1 : 1 ≤ step := by omega
  refine Oks.bind (candidates_spec env hlog ht hn h2 hst1 (stop - start + 1) (start + 10) (by omega) (by omega) (by omega)) fun cs hcs => ?_
  have far : ∀ (lim : Int), (∀ c ∈ cs, lim ≤ c.2) → costOf env tokens start stop ≤ lim + 10 * (F64.one : Int) + eps →
      ∀ k, start + 10 + k * step < stop - 10 →
      costOf env tokens start stop ≤ costOf env tokens start (start + 10 + k * step) +
        costOf env tokens (start + 10 + k * step) stop + 10 * (F64.one : Int) + 2 * eps := by
    intro lim hl hlim k hk
    obtain ⟨t, hm⟩ := hcs.2 k hk
    have h4 := hl _ hm
    obtain ⟨_, _, h5⟩ := hcs.1 _ hm
    obtain ⟨t', et, e1, _⟩ := split_ok env hlog ht hn (a := start) (i := start + 10 + k * step) (b := stop) (by omega) (by omega) h2
    simp only at h5 h4
    rw [et] at h5
    cases h5
    omega
  cases hm : minBy cs with
  | none =>
    have := minBy_none cs hm
    subst this
    refine .ok ?_
    intro k hk
    obtain ⟨t, h⟩ := hcs.2 k hk
    simp at h
  | some c =>
    obtain ⟨bi, cost⟩ := c
    have hb := hcs.1 _ (minBy_mem cs _ hm)
    have hmin := minBy_le cs _ hm
    simp only at hmin
    simp only
    split
    · rename_i hc
      obtain ⟨b1, b2, b3⟩ := hb
      simp only at b1 b2
      refine Oks.bind (fineSearch_spec env hlog ht hn h2 _ _ (by omega) (by omega) (bi, cost) ⟨b1, b2, b3⟩) ?_
      rintro ⟨split, best⟩ ⟨hr, hr2⟩
      simp only at hr2
      simp only
      split
      · rename_i hlt
        refine .ok ?_
        obtain ⟨r1, r2, r3⟩ := hr
        simp only at r1 r2 r3
        obtain ⟨t', et, _, e2⟩ := split_ok env hlog ht hn (a := start) (i := split) (b := stop) (by omega) (by omega) h2
        rw [et] at r3
        cases r3
        refine ⟨r1, r2, ?_⟩
        omega
      · rename_i hlt
        refine .ok ?_
        refine far best (fun c hc => ?_) (by omega)
        have := hmin c hc
        omega
    · rename_i hc
      refine .ok ?_
      exact far cost (fun c hc => hmin c hc) (by omega)

omit hlog ht hn

/-! ### Neighbouring positions -/

theorem pairs_mem {l : List Nat} {p : Nat × Nat} (h : p ∈ pairs l) : p.1 ∈ l ∧ p.2 ∈ l := by
  induction l with
  | nil => simp [pairs] at h
  | cons a l ih =>
    cases l with
    | nil => simp [pairs] at h
    | cons b l =>
      rw [pairs] at h
      rcases List.mem_cons.1 h with rfl | h
      · simp
      · have := ih h
        exact ⟨List.mem_cons_of_mem _ this.1, List.mem_cons_of_mem _ this.2⟩

theorem pairs_unique {l : List Nat} (hl : l.Pairwise (· < ·)) {a b b' : Nat} (h : (a, b) ∈ pairs l) (h' : (a, b') ∈ pairs l) :
    b = b' := by
  induction l with
  | nil => simp [pairs] at h
  | cons x l ih =>
    cases l with
    | nil => simp [pairs] at h
    | cons y l =>
      rw [pairs] at h h'
      have hp := List.pairwise_cons.1 hl
      rcases List.mem_cons.1 h with h1 | h1 <;> rcases List.mem_cons.1 h' with h2 | h2
      · cases h1; cases h2; rfl
      · cases h1
        have := hp.1 a (pairs_mem h2).1; omega
      · cases h2
        have := hp.1 a (pairs_mem h1).1; omega
      · exact ih hp.2 h1 h2

theorem pairs_lt {l : List Nat} (hl : l.Pairwise (· < ·)) {p : Nat × Nat} (h : p ∈ pairs l) : p.1 < p.2 := by
  induction l with
  | nil => simp [pairs] at h
  | cons x l ih =>
    cases l with
    | nil => simp [pairs] at h
    | cons y l =>
      rw [pairs] at h
      have hp := List.pairwise_cons.1 hl
      rcases List.mem_cons.1 h with rfl | h
      · exact hp.1 y (by simp)
      · exact ih hp.2 h

/-- A split cuts one pair in two and leaves the others. -/
theorem pairs_insert {n s : Nat} (xs : List Nat) (x0 : Nat) (hl : (x0 :: (xs ++ [n])).Pairwise (· < ·)) (h0 : x0 < s)
    {a b : Nat} (h : (a, b) ∈ pairs (x0 :: (xs ++ [n]))) (ha : a < s) (hb : s < b) :
    (x0 :: (insertSplit xs s ++ [n])).Pairwise (· < ·) ∧
    (∀ x, x ∈ insertSplit xs s ↔ x = s ∨ x ∈ xs) ∧ (insertSplit xs s).length = xs.length + 1 ∧
    ∃ pre post, pairs (x0 :: (xs ++ [n])) = pre ++ (a, b) :: post ∧
      pairs (x0 :: (insertSplit xs s ++ [n])) = pre ++ (a, s) :: (s, b) :: post := by
  induction xs generalizing x0 with
  | nil =>
    simp only [List.nil_append, pairs, List.mem_singleton, Prod.mk.injEq] at h
    obtain ⟨rfl, rfl⟩ := h
    refine ⟨?_, by simp [insertSplit], by simp [insertSplit], [], [], by simp [pairs], by simp [insertSplit, pairs]⟩
    have := List.pairwise_cons.1 hl
    simp [insertSplit]
    omega
  | cons x xs ih =>
    have hp := List.pairwise_cons.1 hl
    rw [List.cons_append] at h hp hl
    rw [pairs] at h
    rw [insertSplit_cons]
    by_cases hx : x > s
    · rw [if_pos hx]
      have hab : a = x0 ∧ b = x := by
        rcases List.mem_cons.1 h with h | h
        · cases h; exact ⟨rfl, rfl⟩
        · exfalso
          have hm := (pairs_mem h).1
          simp only at hm
          rcases List.mem_cons.1 hm with rfl | hm
          · omega
          · have := (List.pairwise_cons.1 hp.2).1 a hm
            omega
      obtain ⟨rfl, rfl⟩ := hab
      refine ⟨?_, by simp, by simp, [], pairs (b :: (xs ++ [n])), by simp [pairs], by simp [pairs]⟩
      rw [List.cons_append, List.cons_append]
      refine List.pairwise_cons.2 ⟨fun y hy => ?_, List.pairwise_cons.2 ⟨fun y hy => ?_, hp.2⟩⟩
      · rcases List.mem_cons.1 hy with rfl | hy
        · exact h0
        · exact hp.1 y hy
      · rcases List.mem_cons.1 hy with rfl | hy
        · exact hx
        · have := (List.pairwise_cons.1 hp.2).1 y hy; omega
    · rw [if_neg hx]
      have h' : (a, b) ∈ pairs (x :: (xs ++ [n])) := by
        rcases List.mem_cons.1 h with h | h
        · cases h; omega
        · exact h
      have hxs : x < s := by
        rcases Nat.lt_or_ge x s with h1 | h1
        · exact h1
        · have hm := (pairs_mem h').1
          simp only at hm
          rcases List.mem_cons.1 hm with rfl | hm
          · exact ha
          · have := (List.pairwise_cons.1 hp.2).1 a hm
            omega
      obtain ⟨g1, g2, g3, pre, post, g4, g5⟩ := ih x hp.2 hxs h'
      rw [List.cons_append]
      refine ⟨?_, ?_, by simp [g3], (x0, x) :: pre, post, ?_, ?_⟩
      · refine List.pairwise_cons.2 ⟨fun y hy => ?_, g1⟩
        have hx0 := hp.1 x (by simp)
        rcases List.mem_cons.1 hy with rfl | hy
        · exact hx0
        · have := (List.pairwise_cons.1 g1).1 y hy; omega
      · intro y
        simp only [List.mem_cons, g2]
        constructor
        · rintro (h | h | h) <;> simp [h]
        · rintro (h | h | h) <;> simp [h]
      · rw [List.cons_append, pairs, g4, List.cons_append]
      · rw [pairs, g5, List.cons_append]

theorem largestBlock_mem {n : Nat} {done : List Bool} (hd : done.length = n) (l : List Nat)
    (hl : ∀ p ∈ pairs l, p.1 ≤ p.2 ∧ p.1 < n) (best : Option (Nat × Nat × Nat)) :
    Oks (largestBlock done l best) (fun r =>
      match r with
      | some (a, b, c) => best = some (a, b, c) ∨ (a, b) ∈ pairs l ∧ done[a]? = some false ∧ a + 20 ≤ b
      | none => best = none ∧ ∀ p ∈ pairs l, p.1 + 20 ≤ p.2 → done[p.1]? = some true) := by
  induction l generalizing best with
  | nil =>
    refine .ok ?_
    cases best with
    | none => exact ⟨rfl, by simp [pairs]⟩
    | some b => exact .inl rfl
  | cons x l ih =>
    cases l with
    | nil =>
      refine .ok ?_
      cases best with
      | none => exact ⟨rfl, by simp [pairs]⟩
      | some b => exact .inl rfl
    | cons y l =>
      rw [pairs] at hl
      have hxy := hl (x, y) (by simp)
      simp only at hxy
      unfold largestBlock subUsize
      rw [if_pos hxy.1, ok_bind]
      obtain ⟨d, hg, hd'⟩ : ∃ d, getChecked done x = .ok d ∧ done[x]? = some d := by
        unfold getChecked
        rw [List.getElem?_eq_getElem (by omega)]
        exact ⟨_, rfl, rfl⟩
      rw [hg, ok_bind]
      refine Oks.mono (ih (fun p hp => hl p (List.mem_cons_of_mem _ hp)) _) fun r hr => ?_
      rw [pairs]
      cases r with
      | some t =>
        obtain ⟨a, b, c⟩ := t
        simp only at hr ⊢
        rcases hr with hr | hr
        · split at hr
          · rename_i hc
            cases hr
            simp only [Bool.and_eq_true, Bool.not_eq_true', decide_eq_true_eq] at hc
            exact .inr ⟨by simp, by rw [hd', hc.1.1], by omega⟩
          · exact .inl hr
        · exact .inr ⟨List.mem_cons_of_mem _ hr.1, hr.2⟩
      | none =>
        simp only at hr ⊢
        obtain ⟨hr1, hr2⟩ := hr
        split at hr1
        · cases hr1
        · rename_i hc
          refine ⟨hr1, fun p hp h20 => ?_⟩
          rcases List.mem_cons.1 hp with rfl | hp
          · subst hr1
            simp only at h20 ⊢
            rw [hd']
            cases d
            · exfalso
              apply hc
              simp [beats]
              omega
            · rfl
          · exact hr2 p hp h20

/-- The state of the loop. -/
structure Splitting (tokens : List Token) (maxBlocks : Nat) (splits : List Nat) (done : List Bool) (num : Nat) : Prop where
  sorted : (boundaries splits tokens.length).Pairwise (· < ·)
  gap : ∀ p ∈ pairs (boundaries splits tokens.length), p.1 + 10 ≤ p.2
  number : num = splits.length + 1
  most : num ≤ maxBlocks
  gain : ((pairs (boundaries splits tokens.length)).map (fun p => costOf env tokens p.1 p.2)).sum +
    splits.length * (10 * (F64.one : Int) - 2 * eps) ≤ costOf env tokens 0 tokens.length
  len : done.length = tokens.length
  dead : ∀ x, done[x]? = some true → ∃ b, (x, b) ∈ pairs (boundaries splits tokens.length) ∧ Dead env (tokens := tokens) x b

/-- The result. -/
structure SplitDone (tokens : List Token) (maxBlocks : Nat) (splits : List Nat) : Prop where
  sorted : (boundaries splits tokens.length).Pairwise (· < ·)
  gap : ∀ p ∈ pairs (boundaries splits tokens.length), p.1 + 10 ≤ p.2
  most : splits.length + 1 ≤ maxBlocks
  gain : ((pairs (boundaries splits tokens.length)).map (fun p => costOf env tokens p.1 p.2)).sum +
    splits.length * (10 * (F64.one : Int) - 2 * eps) ≤ costOf env tokens 0 tokens.length
  dead : splits.length + 1 < maxBlocks → ∀ p ∈ pairs (boundaries splits tokens.length), p.1 + 20 ≤ p.2 →
    Dead env (tokens := tokens) p.1 p.2

include hlog ht hn

theorem splitLoop_done (maxBlocks fuel : Nat) (splits : List Nat) (done : List Bool) (num : Nat)
    (hs : Splitting env tokens maxBlocks splits done num)
    (hf : (maxBlocks - num) + done.count false < fuel) :
    Oks (splitLoop env tokens maxBlocks fuel splits done num) (SplitDone env tokens maxBlocks) := by
  induction fuel generalizing splits done num with
  | zero => omega
  | succ fuel ih =>
    unfold splitLoop
    have hnum := hs.number
    have hmost := hs.most
    split
    · exact .ok ⟨hs.sorted, hs.gap, by omega, hs.gain, fun h => by omega⟩
    · rename_i hlt
      have hpl : ∀ p ∈ pairs (boundaries splits tokens.length), p.2 ≤ tokens.length := by
        intro p hp
        have hm := (pairs_mem hp).2
        have hsorted := hs.sorted
        unfold boundaries at hm hsorted
        rw [← List.cons_append] at hm hsorted
        rcases List.mem_append.1 hm with h | h
        · have := (List.pairwise_append.1 hsorted).2.2 p.2 h tokens.length (by simp); omega
        · simp only [List.mem_singleton] at h; omega
      refine Oks.bind (largestBlock_mem hs.len _ (fun p hp => ?_) none) fun r hr => ?_
      · have := pairs_lt hs.sorted hp
        have := hpl p hp
        omega
      cases r with
      | none =>
        simp only at hr ⊢
        refine .ok ⟨hs.sorted, hs.gap, by omega, hs.gain, fun _ p hp h20 => ?_⟩
        obtain ⟨b, hb, hdead⟩ := hs.dead p.1 (hr.2 p hp h20)
        have : b = p.2 := pairs_unique hs.sorted hb hp
        rw [← this]; exact hdead
      | some t =>
        obtain ⟨start, stop, size⟩ := t
        simp only at hr ⊢
        rcases hr with hr | ⟨hr1, hr2, hr3⟩
        · cases hr
        have hstop := hpl _ hr1
        simp only at hstop
        refine Oks.bind (findBestSplit_spec env hlog ht hn hr3 hstop) fun r hr => ?_
        cases r with
        | some s =>
          simp only at hr ⊢
          obtain ⟨q1, q2, q3⟩ := hr
          have hsorted := hs.sorted
          unfold boundaries at hsorted
          have hr1' := hr1
          unfold boundaries at hr1'
          obtain ⟨g1, g2, g3, pre, post, g4, g5⟩ := pairs_insert (s := s) splits 0 hsorted (by omega) hr1' (by omega) (by omega)
          refine ih _ _ _ ⟨g1, ?_, by omega, by omega, ?_, hs.len, ?_⟩ (by omega)
          · intro p hp
            have hgap := hs.gap p
            unfold boundaries at hp hgap
            rw [g4] at hgap
            rw [g5] at hp
            rcases List.mem_append.1 hp with h | h
            · exact hgap (List.mem_append_left _ h)
            · rcases List.mem_cons.1 h with rfl | h
              · exact q1
              · rcases List.mem_cons.1 h with rfl | h
                · exact q2
                · exact hgap (List.mem_append_right _ (List.mem_cons_of_mem _ h))
          · have hgain := hs.gain
            unfold boundaries at hgain ⊢
            rw [g4] at hgain
            rw [g5, g3, Int.natCast_add, Int.natCast_one, Int.add_mul, Int.one_mul]
            simp only [List.map_append, List.map_cons, List.sum_append, List.sum_cons] at hgain ⊢
            generalize (splits.length : Int) * (10 * (F64.one : Int) - 2 * eps) = G at *
            omega
          · intro x hx
            obtain ⟨b, hb, hdead⟩ := hs.dead x hx
            refine ⟨b, ?_, hdead⟩
            unfold boundaries at hb ⊢
            rw [g4] at hb
            rw [g5]
            rcases List.mem_append.1 hb with h | h
            · exact List.mem_append_left _ h
            · rcases List.mem_cons.1 h with h | h
              · cases h
                rw [hr2] at hx; cases hx
              · exact List.mem_append_right _ (List.mem_cons_of_mem _ (List.mem_cons_of_mem _ h))
        | none =>
          simp only at hr ⊢
          have hcount := count_set_true done start hr2
          unfold setChecked
          rw [if_pos (by rw [hs.len]; omega), ok_bind]
          refine ih _ _ _ ⟨hs.sorted, hs.gap, hs.number, hs.most, hs.gain, by rw [List.length_set, hs.len], ?_⟩ (by omega)
          intro x hx
          by_cases hxs : start = x
          · subst hxs
            exact ⟨stop, hr1, hr⟩
          · rw [List.getElem?_set_ne hxs] at hx
            exact hs.dead x hx

theorem findBlockSplits_done {maxBlocks : Nat} (h20 : 20 ≤ tokens.length) (hm : 2 ≤ maxBlocks) :
    Oks (findBlockSplits env tokens maxBlocks) (SplitDone env tokens maxBlocks) := by
  unfold findBlockSplits
  rw [if_neg (by omega)]
  refine splitLoop_done env hlog ht hn maxBlocks _ [] _ 1 ⟨?_, ?_, rfl, by omega, ?_, List.length_replicate, ?_⟩ ?_
  · simp [boundaries]; omega
  · simp [boundaries, pairs]; omega
  · simp [boundaries, pairs]
  · intro x hx
    rw [List.getElem?_replicate] at hx
    split at hx <;> cases hx
  · rw [List.count_replicate_self]; omega

end Pixo.Deflate
