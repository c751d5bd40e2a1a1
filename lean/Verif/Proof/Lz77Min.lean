import Verif.Proof.Lz77Optimal
/-
The optimal parser finds a cheapest path among the literals and the matches on offer.
-/
namespace Pixo.Lz77
open Pixo Pixo.MatchLength

/-! ### Addition of `f32` is monotone -/

theorem roundNat_between {x e q : Nat} (hlo : q * 2 ^ e ≤ x) (hhi : x < (q + 1) * 2 ^ e) (he : e = x.log2 - 23) :
    q * 2 ^ e ≤ roundNat x ∧ roundNat x ≤ (q + 1) * 2 ^ e := by
  have hq : x / 2 ^ e = q := Nat.div_eq_of_lt_le hlo (by rw [Nat.succ_mul]; rw [Nat.add_mul] at hhi; omega)
  unfold roundNat
  simp only []
  rw [← he, Nat.shiftRight_eq_div_pow, Nat.shiftLeft_eq, hq]
  split
  · exact ⟨Nat.mul_le_mul_right _ (Nat.le_succ _), Nat.le_refl _⟩
  · exact ⟨Nat.le_refl _, Nat.mul_le_mul_right _ (Nat.le_succ _)⟩

theorem roundNat_mono {x y : Nat} (h : x ≤ y) : roundNat x ≤ roundNat y := by
  by_cases hx0 : x = 0
  · subst hx0
    rw [show roundNat 0 = 0 by decide]
    exact Nat.zero_le _
  have hy0 : y ≠ 0 := by omega
  have hxlo := Nat.log2_self_le hx0
  have hxhi : x < 2 ^ (x.log2 + 1) := Nat.lt_log2_self
  have hylo := Nat.log2_self_le hy0
  have hyhi : y < 2 ^ (y.log2 + 1) := Nat.lt_log2_self
  have hlog : x.log2 ≤ y.log2 := by
    rcases Nat.lt_or_ge y.log2 x.log2 with hlt | hge
    · have : 2 ^ (y.log2 + 1) ≤ 2 ^ x.log2 := Nat.pow_le_pow_right (by decide) hlt
      omega
    · exact hge
  have qx := Nat.div_add_mod x (2 ^ (x.log2 - 23))
  have mx := Nat.mod_lt x (Nat.two_pow_pos (x.log2 - 23))
  have qy := Nat.div_add_mod y (2 ^ (y.log2 - 23))
  have my := Nat.mod_lt y (Nat.two_pow_pos (y.log2 - 23))
  have bx := roundNat_between (q := x / 2 ^ (x.log2 - 23)) (by rw [Nat.mul_comm]; exact Nat.mul_div_le _ _)
    (by rw [Nat.mul_comm]; exact Nat.lt_mul_div_succ _ (Nat.two_pow_pos _)) rfl
  have by' := roundNat_between (q := y / 2 ^ (y.log2 - 23)) (by rw [Nat.mul_comm]; exact Nat.mul_div_le _ _)
    (by rw [Nat.mul_comm]; exact Nat.lt_mul_div_succ _ (Nat.two_pow_pos _)) rfl
  by_cases heq : x.log2 = y.log2
  · rw [← heq] at by' qy my
    have hdiv : x / 2 ^ (x.log2 - 23) ≤ y / 2 ^ (x.log2 - 23) := Nat.div_le_div_right h
    rcases Nat.lt_or_ge (x / 2 ^ (x.log2 - 23)) (y / 2 ^ (x.log2 - 23)) with hlt | hge
    · exact Nat.le_trans bx.2 (Nat.le_trans (Nat.mul_le_mul_right _ hlt) by'.1)
    · have hqq : x / 2 ^ (x.log2 - 23) = y / 2 ^ (x.log2 - 23) := by omega
      have hr : x % 2 ^ (x.log2 - 23) ≤ y % 2 ^ (x.log2 - 23) := by
        rw [hqq] at qx
        omega
      unfold roundNat
      simp only []
      rw [← heq, Nat.shiftRight_eq_div_pow, Nat.shiftRight_eq_div_pow, ← hqq, Nat.shiftLeft_eq, Nat.shiftLeft_eq]
      apply Nat.mul_le_mul_right
      generalize x % 2 ^ (x.log2 - 23) = r at *
      generalize y % 2 ^ (x.log2 - 23) = s at *
      generalize x / 2 ^ (x.log2 - 23) = q at *
      generalize 2 ^ (x.log2 - 23) = u at *
      split
      · rename_i h1
        rw [if_pos (by omega)]
        exact Nat.le_refl _
      · split <;> omega
  · have hlt : x.log2 + 1 ≤ y.log2 := by omega
    -- both sides of a power of two
    have h1 : roundNat x ≤ 2 ^ (x.log2 + 1) := by
      by_cases hs : 23 ≤ x.log2
      · refine Nat.le_trans bx.2 ?_
        have hdq : x / 2 ^ (x.log2 - 23) < 2 ^ 24 := by
          rw [Nat.div_lt_iff_lt_mul (Nat.two_pow_pos _), ← Nat.pow_add, show 24 + (x.log2 - 23) = x.log2 + 1 by omega]
          exact hxhi
        refine Nat.le_trans (Nat.mul_le_mul_right _ hdq) ?_
        rw [← Nat.pow_add]
        exact Nat.pow_le_pow_right (by decide) (by omega)
      · have he : x.log2 - 23 = 0 := by omega
        unfold roundNat
        simp only []
        rw [he]
        simp only [Nat.pow_zero, Nat.mod_one, Nat.shiftRight_zero, Nat.shiftLeft_zero]
        rw [if_neg (by omega)]
        omega
    have h2 : 2 ^ y.log2 ≤ roundNat y := by
      by_cases hs : 23 ≤ y.log2
      · refine Nat.le_trans ?_ by'.1
        have e1 : 2 ^ y.log2 = 2 ^ 23 * 2 ^ (y.log2 - 23) := by rw [← Nat.pow_add]; congr 1; omega
        have : 2 ^ 23 ≤ y / 2 ^ (y.log2 - 23) := by
          rw [Nat.le_div_iff_mul_le (Nat.two_pow_pos _), ← e1]
          exact hylo
        rw [e1]
        exact Nat.mul_le_mul_right _ this
      · have he : y.log2 - 23 = 0 := by omega
        refine Nat.le_trans ?_ by'.1
        rw [he]
        simpa using hylo
    exact Nat.le_trans h1 (Nat.le_trans (Nat.pow_le_pow_right (by decide) hlt) h2)

theorem addF_mono {a b : Int} (h : a ≤ b) (c : Int) : addF a c ≤ addF b c := by
  unfold addF
  simp only []
  split
  · rw [if_pos (by omega)]
    have := roundNat_mono (show (a + c).toNat ≤ (b + c).toNat by omega)
    omega
  · split
    · have h1 : (0 : Int) ≤ (roundNat (-(a + c)).toNat : Int) := Int.natCast_nonneg _
      have h2 : (0 : Int) ≤ (roundNat (b + c).toNat : Int) := Int.natCast_nonneg _
      omega
    · have := roundNat_mono (show (-(b + c)).toNat ≤ (-(a + c)).toNat by omega)
      omega

/-! ### What is on offer at each position -/

/-- The tables of the compressor after the positions before `i` were entered. -/
def tablesAt (st : State) (data : List UInt8) : Nat → R State
  | 0 => .ok st.resetChains
  | i + 1 => do
    let s ← tablesAt st data i
    updateHash s data i

theorem tablesAt_ok {st : State} (hs : Sized st) (data : List UInt8) (i : Nat) :
    Oks (tablesAt st data i) (fun s => CWF st.config s i) := by
  induction i with
  | zero => exact .ok (cwf_resetChains hs)
  | succ i ih =>
    rw [tablesAt]
    refine Oks.bind ih fun s hw => ?_
    exact updateHashC_spec (hw.mono (Nat.le_succ _)) (Nat.le_succ _)

/-- `tbl` lists, for each position, what the match search reports there. -/
def Reports (lv : Simd.Level) (st : State) (data : List UInt8) (tbl : Nat → List Nat × Nat) : Prop :=
  ∀ i, i < data.length → ∃ s, tablesAt st data i = .ok s ∧ findSublen lv s data i = .ok (tbl i)

theorem reports_exist (lv : Simd.Level) {st : State} (hs : Sized st) (data : List UInt8) :
    ∃ tbl, Reports lv st data tbl := by
  refine ⟨fun i => match (do let s ← tablesAt st data i; findSublen lv s data i) with
    | .ok m => m
    | .error _ => ([], 0), fun i _ => ?_⟩
  obtain ⟨s, e, hw⟩ := (tablesAt_ok hs data i).out
  obtain ⟨m, e', _⟩ := (findSublen_spec (data := data) lv hw).out
  refine ⟨s, e, ?_⟩
  simp only [e, ok_bind, e']

theorem Reports.ok {lv : Simd.Level} {st : State} (hs : Sized st) {data : List UInt8} {tbl : Nat → List Nat × Nat}
    (h : Reports lv st data tbl) {i : Nat} (hi : i < data.length) : SubOk data i (tbl i) := by
  obtain ⟨s, e, hf⟩ := h i hi
  obtain ⟨s', e', hw⟩ := (tablesAt_ok hs data i).out
  rw [e] at e'; cases e'
  obtain ⟨m, e1, hm⟩ := (findSublen_spec lv hw).out
  rw [hf] at e1; cases e1
  exact hm

/-- A step of a parse: from position `i`, `l` bytes, at price `c`; `d` is the distance, 0 for a
literal. -/
def Edge (cm : CostModel) (data : List UInt8) (tbl : Nat → List Nat × Nat) (i l d : Nat) (c : Int) : Prop :=
  (l = 1 ∧ d = 0 ∧ ∃ b, data[i]? = some b ∧ cm.litLen[b.toNat]? = some c) ∨
  (3 ≤ l ∧ l ≤ (tbl i).2 ∧ (tbl i).1[l]? = some d ∧ d ≠ 0 ∧ i < data.length ∧ cm.matchCost l d = .ok c)

/-- A sequence of steps, with the running total. -/
inductive Path (cm : CostModel) (data : List UInt8) (tbl : Nat → List Nat × Nat) :
    Nat → Int → List (Nat × Nat) → Nat → Int → Prop
  | nil (p : Nat) (x : Int) : Path cm data tbl p x [] p x
  | cons {p l d c x rest q y} : Edge cm data tbl p l d c → Path cm data tbl (p + l) (addF x c) rest q y →
      Path cm data tbl p x ((l, d) :: rest) q y

variable {cm : CostModel} {data : List UInt8} {tbl : Nat → List Nat × Nat}

/-- Every entry comes from an entry at most at `i`, by a step. -/
def Back (cm : CostModel) (data : List UInt8) (tbl : Nat → List Nat × Nat) (dp : Dp) (i : Nat) : Prop :=
  dp.costs[0]? = some 0 ∧
  ∀ j l d : Nat, dp.lengths[j]? = some l → dp.dists[j]? = some d → l ≠ 0 →
    l ≤ j ∧ j - l ≤ i ∧ ∃ c b, Edge cm data tbl (j - l) l d c ∧ dp.costs[j - l]? = some b ∧
      dp.costs[j]? = some (addF b c)

/-- What a round at position `i` does to the costs. -/
def Round (dp dp' : Dp) (i : Nat) : Prop :=
  Down dp dp' ∧ ∀ j, j ≤ i → dp'.costs[j]? = dp.costs[j]?

theorem Round.refl (dp : Dp) (i : Nat) : Round dp dp i := ⟨Down.refl _, fun _ _ => rfl⟩

theorem Round.trans {a b c : Dp} {i : Nat} (h1 : Round a b i) (h2 : Round b c i) : Round a c i :=
  ⟨h1.1.trans h2.1, fun j hj => (h2.2 j hj).trans (h1.2 j hj)⟩

theorem relax_min {dp : Dp} (h : DpOk data dp) {i : Nat} (hb : Back cm data tbl dp i) {base : Int}
    (hbase : dp.costs[i]? = some base) {l d : Nat} {c : Int} (hl : 1 ≤ l) (hp : i + l ≤ data.length)
    (hv : (l = 1 ∧ d = 0) ∨ Valid data i l d)
    (he : Edge cm data tbl i l d c) :
    Oks (dp.relax (i + l) (addF base c) l d) (fun dp' => DpOk data dp' ∧ Round dp dp' i ∧ Back cm data tbl dp' i ∧
      ∃ x, dp'.costs[i + l]? = some x ∧ x ≤ addF base c) := by
  have s1 := h.sCosts
  have s2 := h.sLengths
  have s3 := h.sDists
  have hv' : (l = 1 ∧ d = 0 ∧ 1 ≤ i + l) ∨ (l ≤ i + l ∧ Valid data (i + l - l) l d) := by
    rcases hv with hv | hv
    · exact Or.inl ⟨hv.1, hv.2, by omega⟩
    · exact Or.inr ⟨by omega, by rwa [show i + l - l = i by omega]⟩
  obtain ⟨dp', e, h1, h2, x, h3, h4⟩ := (relax_spec (cost := addF base c) h hp hv').out
  refine Oks.intro ⟨dp', e, h1, ⟨h2, ?_⟩, ?_, x, h3, h4⟩
  all_goals
    unfold Dp.relax at e
    obtain ⟨old, eo, hold⟩ := (get_ok (l := dp.costs) (i := i + l) (by omega)).out
    rw [eo, ok_bind] at e
  · intro j hj
    split at e
    · unfold setChecked at e
      rw [if_pos (by omega), ok_bind, if_pos (by omega), ok_bind, if_pos (by omega), ok_bind] at e
      cases e
      simp only [List.getElem?_set]
      rw [if_neg (by omega)]
    · cases e; rfl
  · split at e
    · unfold setChecked at e
      rw [if_pos (by omega), ok_bind, if_pos (by omega), ok_bind, if_pos (by omega), ok_bind] at e
      cases e
      refine ⟨?_, ?_⟩
      · simp only [List.getElem?_set]
        rw [if_neg (by omega)]
        exact hb.1
      · intro j l' d' hl' hd' h0
        simp only [List.getElem?_set] at hl' hd' ⊢
        by_cases hj : i + l = j
        · subst hj
          rw [if_pos rfl, if_pos (by omega)] at hl' hd'
          cases hl'; cases hd'
          rw [if_neg (by omega), if_pos rfl, if_pos (by omega), show i + l - l = i by omega]
          exact ⟨by omega, Nat.le_refl _, c, base, he, hbase, rfl⟩
        · rw [if_neg hj] at hl' hd'
          obtain ⟨g1, g2, c', b', g3, g4, g5⟩ := hb.2 j l' d' hl' hd' h0
          refine ⟨g1, g2, c', b', g3, ?_, ?_⟩
          · rw [if_neg (by omega)]; exact g4
          · rw [if_neg hj]; exact g5
    · cases e; exact hb

theorem tryMatches_min (hc : CostOk cm) {i : Nat} {base : Int} {dp : Dp} {sub : List Nat} {mx : Nat}
    (hi : i < data.length) (ht : tbl i = (sub, mx)) (hs : SubOk data i (sub, mx)) (count len : Nat) (hl : 3 ≤ len)
    (hn : len + count = mx + 1 ∨ count = 0) (h : DpOk data dp) (hb : Back cm data tbl dp i)
    (hbase : dp.costs[i]? = some base) :
    Oks (tryMatches cm data.length i base sub count len dp) (fun dp' => DpOk data dp' ∧ Round dp dp' i ∧
      Back cm data tbl dp' i ∧ ∀ l d c, len ≤ l → l < len + count → sub[l]? = some d → d ≠ 0 →
        cm.matchCost l d = .ok c → ∃ x, dp'.costs[i + l]? = some x ∧ x ≤ addF base c) := by
  induction count generalizing len dp with
  | zero => exact .ok ⟨h, Round.refl _ _, hb, fun l d c h1 h2 => by omega⟩
  | succ count ih =>
    have hsz := hs.size
    have hmx := hs.max
    simp only [] at hsz hmx
    rw [tryMatches]
    refine Oks.bind (get_ok (by omega)) fun d hd => ?_
    split
    · rename_i hd0
      refine Oks.mono (ih (len + 1) (by omega) (by omega) h hb hbase) ?_
      rintro dp' ⟨h1, h2, h3, h4⟩
      refine ⟨h1, h2, h3, ?_⟩
      intro l d' c g1 g2 g3 g4 g5
      by_cases hll : l = len
      · subst hll
        rw [hd] at g3; cases g3
        exact absurd hd0 g4
      · exact h4 l d' c (by omega) (by omega) g3 g4 g5
    · rename_i hd0
      have hv := hs.valid len d hl hd hd0
      rw [asU16_len hv]
      obtain ⟨c, ec, _⟩ := (matchCost_ok hc hv).out
      rw [ec, ok_bind, if_pos hv.fits]
      refine Oks.bind (relax_min (c := c) h hb hbase (by omega) hv.fits (Or.inr hv)
        (Or.inr ⟨hl, by rw [ht]; show len ≤ mx; omega, by rw [ht]; exact hd, hd0, hi, ec⟩)) ?_
      rintro dp1 ⟨h1, h2, h3, x, h4, h5⟩
      refine Oks.mono (ih (len + 1) (by omega) (by omega) h1 h3 ((h2.2 i (Nat.le_refl _)).trans hbase)) ?_
      rintro dp2 ⟨k1, k2, k3, k4⟩
      refine ⟨k1, h2.trans k2, k3, ?_⟩
      intro l d' c' g1 g2 g3 g4 g5
      by_cases hll : l = len
      · subst hll
        rw [hd] at g3; cases g3
        rw [ec] at g5; cases g5
        obtain ⟨y, hy, hxy⟩ := k2.1 _ _ h4
        exact ⟨y, hy, Int.le_trans hxy h5⟩
      · exact k4 l d' c' (by omega) (by omega) g3 g4 g5

/-- All steps from the positions before `i` have been tried. -/
def Tried (cm : CostModel) (data : List UInt8) (tbl : Nat → List Nat × Nat) (dp : Dp) (i : Nat) : Prop :=
  ∀ p l d c b, p < i → Edge cm data tbl p l d c → dp.costs[p]? = some b →
    ∃ x, dp.costs[p + l]? = some x ∧ x ≤ addF b c

theorem tryAt_min {α : Type} (hc : CostOk cm) {i : Nat} {base : Int} {dp : Dp} (hi : i < data.length)
    (h : DpOk data dp) (hr : Reached dp i) (hb : Back cm data tbl dp i) (ht : Tried cm data tbl dp i)
    (hbase : dp.costs[i]? = some base) (hs : SubOk data i (tbl i))
    {m : R ((List Nat × Nat) × α)} {a : α} (hm : m = .ok (tbl i, a)) :
    Oks (tryAt cm data i base dp m) (fun r => (DpOk data r.1 ∧ Reached r.1 (i + 1) ∧ Back cm data tbl r.1 i ∧
      Tried cm data tbl r.1 (i + 1)) ∧ r.2 = a) := by
  have hble : base ≤ 2 ^ 189 := by
    obtain ⟨c, hc, hle⟩ := hr i (Nat.le_refl _)
    rw [hbase] at hc; cases hc; exact hle
  obtain ⟨r, er, hr1, hr2, _⟩ := (tryAt_spec (Q := fun _ => True) hc h hi hr hble (m := m)
    (by rw [hm]; exact .ok ⟨hs, trivial⟩)).out
  refine Oks.intro ⟨r, er, ⟨hr1, hr2, ?_⟩, ?_⟩
  all_goals
    unfold tryAt at er
    obtain ⟨b, e1, hbyte⟩ := (get_ok hi).out
    rw [e1, ok_bind] at er
    unfold CostModel.literalCost at er
    have hb8 := b.toNat_lt
    obtain ⟨lc, e2, hlc⟩ := (get_ok (l := cm.litLen) (i := b.toNat) (by rw [hc.lit]; omega)).out
    rw [e2, ok_bind] at er
    have hedge : Edge cm data tbl i 1 0 lc := Or.inl ⟨rfl, rfl, b, hbyte, hlc⟩
    obtain ⟨dp1, e3, h1, h2, h3, x, h4, h5⟩ := (relax_min h hb hbase (Nat.le_refl 1) hi (Or.inl ⟨rfl, rfl⟩) hedge).out
    rw [e3, ok_bind, hm, ok_bind] at er
    simp only [] at er
    have hmx := hs.max
    obtain ⟨dp2, e4, k1, k2, k3, k4⟩ := (tryMatches_min (tbl := tbl) hc (mx := (tbl i).2) (sub := (tbl i).1) hi rfl hs
      ((tbl i).2 + 1 - MIN_MATCH_LENGTH) MIN_MATCH_LENGTH (Nat.le_refl 3) (by unfold MIN_MATCH_LENGTH; omega) h1 h3
      ((h2.2 i (Nat.le_refl _)).trans hbase)).out
    rw [e4, ok_bind] at er
    cases er
  · refine ⟨k3, ?_⟩
    intro p l d c b' hp he hcb
    have hround := h2.trans k2
    simp only [] at hcb ⊢
    rw [hround.2 p (by omega)] at hcb
    by_cases hpi : p < i
    · obtain ⟨y, hy, hle⟩ := ht p l d c b' hpi he hcb
      obtain ⟨z, hz, hzy⟩ := hround.1 _ _ hy
      exact ⟨z, hz, Int.le_trans hzy hle⟩
    · obtain rfl : p = i := by omega
      rw [hbase] at hcb; cases hcb
      rcases he with ⟨rfl, rfl, b2, g1, g2⟩ | ⟨g1, g2, g3, g4, _, g5⟩
      · rw [hbyte] at g1; cases g1
        rw [hlc] at g2; cases g2
        obtain ⟨z, hz, hzx⟩ := k2.1 _ _ h4
        exact ⟨z, hz, Int.le_trans hzx h5⟩
      · exact k4 l d c g1 (by unfold MIN_MATCH_LENGTH; omega) g3 g4 g5
  · rfl

theorem Back.mono {dp : Dp} {i j : Nat} (h : Back cm data tbl dp i) (hij : i ≤ j) : Back cm data tbl dp j :=
  ⟨h.1, fun k l d g1 g2 g3 => by
    obtain ⟨a1, a2, a3⟩ := h.2 k l d g1 g2 g3
    exact ⟨a1, Nat.le_trans a2 hij, a3⟩⟩

theorem forward_min (lv : Simd.Level) (hc : CostOk cm) {st0 : State} (hs : Sized st0) (hrep : Reports lv st0 data tbl)
    (count i : Nat) (hn : i + count = data.length) (st : State) (hst : tablesAt st0 data i = .ok st) (dp : Dp)
    (h : DpOk data dp) (hr : Reached dp i) (hb : Back cm data tbl dp i) (ht : Tried cm data tbl dp i) :
    Oks (forward lv cm data count i st dp) (fun r => DpOk data r.1 ∧ Reached r.1 data.length ∧
      Back cm data tbl r.1 data.length ∧ Tried cm data tbl r.1 data.length) := by
  induction count generalizing i st dp with
  | zero =>
    rw [Nat.add_zero] at hn
    subst hn
    exact .ok ⟨h, hr, hb, ht⟩
  | succ count ih =>
    have s1 := h.sCosts
    rw [forward]
    refine Oks.bind (get_ok (by omega)) fun base hbase => ?_
    have hble : base ≤ 2 ^ 189 := by
      obtain ⟨c, hc, hle⟩ := hr i (Nat.le_refl _)
      rw [hbase] at hc; cases hc; exact hle
    rw [if_neg (base_lt hble)]
    obtain ⟨s, es, ef⟩ := hrep i (by omega)
    rw [hst] at es; cases es
    refine Oks.bind (tryAt_min (tbl := tbl) (a := ()) hc (by omega) h hr hb ht hbase (hrep.ok hs (by omega)) (by rw [ef]; rfl)) ?_
    rintro ⟨dp1, _⟩ ⟨⟨h1, hr1, hb1, ht1⟩, _⟩
    simp only [] at h1 hr1 hb1 ht1 ⊢
    obtain ⟨s2, e2, _⟩ := (tablesAt_ok hs data (i + 1)).out
    have e3 : updateHash st data i = .ok s2 := by
      rw [tablesAt, hst, ok_bind] at e2; exact e2
    rw [e3, ok_bind]
    exact ih (i + 1) (by omega) s2 e2 dp1 h1 hr1 (hb1.mono (Nat.le_succ _)) ht1

theorem back_new (n : Nat) : Back cm data tbl (Dp.new n) 0 := by
  refine ⟨rfl, ?_⟩
  intro j l d h1 _ h0
  simp only [Dp.new, List.getElem?_replicate] at h1
  split at h1
  · cases h1; exact absurd rfl h0
  · cases h1

/-! ### The result -/

theorem Path.append {p q r : Nat} {x y z : Int} {a b : List (Nat × Nat)} (h1 : Path cm data tbl p x a q y)
    (h2 : Path cm data tbl q y b r z) : Path cm data tbl p x (a ++ b) r z := by
  induction h1 with
  | nil => exact h2
  | cons he _ ih => exact .cons he (ih h2)

/-- No path is cheaper than the table says. -/
theorem Tried.least {dp : Dp} (hb : Tried cm data tbl dp data.length) {p q : Nat} {x y : Int}
    {pairs : List (Nat × Nat)} (hp : Path cm data tbl p x pairs q y) :
    ∀ b, dp.costs[p]? = some b → b ≤ x → p ≤ data.length → (∀ i l d c, Edge cm data tbl i l d c → i < data.length ∧ i + l ≤ data.length) →
      ∃ v, dp.costs[q]? = some v ∧ v ≤ y := by
  induction hp with
  | nil p x => intro b h1 h2 _ _; exact ⟨b, h1, h2⟩
  | cons he _ ih =>
    intro b h1 h2 h3 hfit
    obtain ⟨g1, g2⟩ := hfit _ _ _ _ he
    obtain ⟨v, hv, hle⟩ := hb _ _ _ _ b g1 he h1
    exact ih v hv (Int.le_trans hle (addF_mono h2 _)) g2 hfit

theorem Edge.fits (hs : ∀ i, i < data.length → SubOk data i (tbl i)) {i l d : Nat} {c : Int}
    (h : Edge cm data tbl i l d c) : i < data.length ∧ i + l ≤ data.length := by
  rcases h with ⟨rfl, _, b, hb, _⟩ | ⟨g1, _, g3, g4, g5, _⟩
  · have := (List.getElem?_eq_some_iff.1 hb).1
    omega
  · exact ⟨g5, ((hs i g5).valid l d g1 g3 g4).fits⟩

theorem collect_min {dp : Dp} (h : DpOk data dp) (hr : Reached dp data.length)
    (hb : Back cm data tbl dp data.length) {v : Int} (fuel p : Nat)
    (hf : p < fuel) (hp : p ≤ data.length) (acc : List (Nat × Nat)) {x : Int} (hx : dp.costs[p]? = some x)
    (ha : Path cm data tbl p x acc data.length v) :
    Oks (collect dp fuel p acc) (fun r => Path cm data tbl 0 0 r data.length v) := by
  induction fuel generalizing p acc x with
  | zero => omega
  | succ fuel ih =>
    have s2 := h.sLengths
    have s3 := h.sDists
    rw [collect]
    split
    · rename_i hpos
      refine Oks.bind (get_ok (by omega)) fun l hl => ?_
      refine Oks.bind (get_ok (by omega)) fun d hd => ?_
      have hl0 : l ≠ 0 := by
        rintro rfl
        obtain ⟨c, hc, hle⟩ := hr p hp
        exact h.set p c hpos hc (by have : (2 : Int) ^ 189 < f32Max := by decide
                                    omega) hl
      rw [if_neg hl0]
      obtain ⟨g1, _, c, b, g3, g4, g5⟩ := hb.2 p l d hl hd hl0
      refine Oks.bind (subUsize_spec g1) ?_
      rintro _ rfl
      refine ih (p - l) (by omega) (by omega) _ g4 (.cons g3 ?_)
      rw [show p - l + l = p by omega]
      rw [g5] at hx; cases hx
      exact ha
    · obtain rfl : p = 0 := by omega
      rw [hb.1] at hx; cases hx
      exact .ok ha

/-- A cheapest path. -/
theorem forward_path (lv : Simd.Level) (hc : CostOk cm) {st : State} (hs : Sized st) (hrep : Reports lv st data tbl) :
    Oks (forward lv cm data data.length 0 st.resetChains (Dp.new data.length)) (fun r => ∃ pairs v,
      collect r.1 (data.length + 1) data.length [] = .ok pairs ∧ Path cm data tbl 0 0 pairs data.length v ∧
      ∀ pairs' v', Path cm data tbl 0 0 pairs' data.length v' → v ≤ v') := by
  refine Oks.mono (forward_min lv hc hs hrep data.length 0 (Nat.zero_add _) _ rfl _ (dpOk_new data) (reached_new _)
    (back_new _) (fun p l d c b hp => by omega)) ?_
  rintro r ⟨h1, h2, h3, h4⟩
  obtain ⟨v, hv, _⟩ := h2 data.length (Nat.le_refl _)
  obtain ⟨pairs, e, hp⟩ := (collect_min h1 h2 h3 (data.length + 1) data.length (Nat.lt_succ_self _) (Nat.le_refl _) []
    hv (.nil _ _)).out
  refine ⟨pairs, v, e, hp, ?_⟩
  intro pairs' v' hp'
  obtain ⟨w, hw, hle⟩ := h4.least hp' 0 h3.1 (Int.le_refl _) (Nat.zero_le _) (fun i l d c he => he.fits (fun i hi => hrep.ok hs hi))
  rw [hv] at hw; cases hw
  exact hle

end Pixo.Lz77
