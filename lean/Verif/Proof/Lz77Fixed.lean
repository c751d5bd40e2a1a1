import Verif.Proof.Lz77Cheapest
import Verif.Proof.Canonical
/-
Prices under the fixed cost model are numbers of bits of the fixed code, without rounding.
-/
namespace Pixo.Lz77
open Pixo Pixo.MatchLength
open Spec
open Spec.Rfc1951 (lengthTable distTable fixedLit fixedDist Body codeword)

variable {data : List UInt8}

theorem roundNat_dvd {x : Nat} (h : 2 ^ (x.log2 - 23) ∣ x) : roundNat x = x := by
  unfold roundNat
  simp only []
  generalize x.log2 - 23 = e at *
  rw [Nat.mod_eq_zero_of_dvd h]
  have hp := Nat.two_pow_pos e
  rw [if_neg (by omega), Nat.shiftRight_eq_div_pow, Nat.shiftLeft_eq]
  exact Nat.div_mul_cancel h

theorem log2_shift_le {m n : Nat} (h0 : m ≠ 0) (h : m ≤ 2 ^ 24) :
    2 ^ ((m * 2 ^ n).log2 - 23) ∣ m * 2 ^ n := by
  have hx0 : m * 2 ^ n ≠ 0 := Nat.mul_ne_zero h0 (Nat.pos_iff_ne_zero.1 (Nat.two_pow_pos _))
  have hlo := Nat.log2_self_le hx0
  by_cases hm : m = 2 ^ 24
  · subst hm
    rw [← Nat.pow_add] at hlo ⊢
    apply Nat.pow_dvd_pow
    rw [Nat.log2_two_pow]
    omega
  · have hlt : m * 2 ^ n < 2 ^ (24 + n) := by
      rw [Nat.pow_add]
      exact Nat.mul_lt_mul_of_pos_right (by omega) (Nat.two_pow_pos _)
    have hlog : (m * 2 ^ n).log2 < 24 + n := by
      rcases Nat.lt_or_ge (m * 2 ^ n).log2 (24 + n) with g | g
      · exact g
      · have := Nat.pow_le_pow_right (show 0 < 2 by decide) g
        omega
    exact Nat.dvd_trans (Nat.pow_dvd_pow 2 (show (m * 2 ^ n).log2 - 23 ≤ n by omega)) (Nat.dvd_mul_left _ _)

theorem roundNat_exact {m : Nat} (n : Nat) (h : m ≤ 2 ^ 24) : roundNat (m * 2 ^ n) = m * 2 ^ n := by
  by_cases h0 : m = 0
  · subst h0; rw [Nat.zero_mul]; decide
  · exact roundNat_dvd (log2_shift_le h0 h)

theorem addF_exact {a b : Nat} (h : a + b ≤ 2 ^ 24) : addF (ofNatF a) (ofNatF b) = ofNatF (a + b) := by
  unfold addF ofNatF
  simp only []
  have e : (a : Int) * 2 ^ 149 + (b : Int) * 2 ^ 149 = (((a + b) * 2 ^ 149 : Nat) : Int) := by
    rw [← Int.add_mul, Int.natCast_mul, Int.natCast_add, Int.natCast_pow]; rfl
  rw [e, if_pos (Int.natCast_nonneg _), Int.toNat_natCast, roundNat_exact 149 h, Int.natCast_mul, Int.natCast_add,
    Int.natCast_pow]
  rfl

theorem ofNatF_le {a b : Nat} : ofNatF a ≤ ofNatF b ↔ a ≤ b := by
  unfold ofNatF
  have hp : (0 : Int) < 2 ^ 149 := by decide
  constructor
  · intro h
    have := Int.le_of_mul_le_mul_right h hp
    omega
  · intro h
    exact Int.mul_le_mul_of_nonneg_right (by omega) (Int.le_of_lt hp)

theorem ofNatF_inj {a b : Nat} (h : ofNatF a = ofNatF b) : a = b :=
  Nat.le_antisymm (ofNatF_le.1 (Int.le_of_eq h)) (ofNatF_le.1 (Int.le_of_eq h.symm))

/-! ### The fixed model -/

theorem fixed_lit : CostModel.fixed.litLen = (fixedLit.take 286).map ofNatF := by decide +kernel

theorem fixed_dist : CostModel.fixed.dist = (fixedDist.take 30).map ofNatF := by decide +kernel

theorem fixed_lit_get {s : Nat} (h : s < 286) : CostModel.fixed.litLen[s]? = some (ofNatF (Rfc1951.len fixedLit s)) := by
  have hl : s < fixedLit.length := by
    simp only [fixedLit, List.length_append, List.length_replicate]; omega
  rw [fixed_lit, List.getElem?_map, List.getElem?_take, if_pos h, List.getElem?_eq_getElem hl, Rfc1951.len,
    List.getD_eq_getElem?_getD, List.getElem?_eq_getElem hl]
  rfl

theorem fixed_dist_get {s : Nat} (h : s < 30) : CostModel.fixed.dist[s]? = some (ofNatF 5) ∧ Rfc1951.len fixedDist s = 5 := by
  have hl : s < fixedDist.length := by simp only [fixedDist, List.length_replicate]; omega
  have e : fixedDist[s] = 5 := by simp only [fixedDist, List.getElem_replicate]
  rw [fixed_dist, List.getElem?_map, List.getElem?_take, if_pos h, List.getElem?_eq_getElem hl, Rfc1951.len,
    List.getD_eq_getElem?_getD, List.getElem?_eq_getElem hl, e]
  exact ⟨rfl, rfl⟩

theorem fixed_len_all : ∀ s < 286, 7 ≤ Rfc1951.len fixedLit s ∧ Rfc1951.len fixedLit s ≤ 9 := by decide +kernel

theorem length_extra_all : ∀ i < 29, (lengthTable.getD i (0, 0)).2 ≤ 5 ∧ 3 ≤ (lengthTable.getD i (0, 0)).1 := by decide +kernel

theorem dist_extra_all : ∀ i < 30, (distTable.getD i (0, 0)).2 ≤ 13 ∧ 1 ≤ (distTable.getD i (0, 0)).1 ∧
    (distTable.getD i (0, 0)).1 + 2 ^ (distTable.getD i (0, 0)).2 ≤ 32769 := by decide +kernel

theorem dist_extra_mono : ∀ i < 30, ∀ j < 30, i ≤ j → (distTable.getD i (0, 0)).2 ≤ (distTable.getD j (0, 0)).2 := by
  decide +kernel

/-- A model under which longer distances do not cost less: the price of the distance symbol with its extra bits
does not fall. -/
theorem farther_of {cm : CostModel} (h : ∀ (i j b x b' x' : Nat) (c c' : Int), i ≤ j → distTable[i]? = some (b, x) →
    distTable[j]? = some (b', x') → cm.dist[i]? = some c → cm.dist[j]? = some c' →
    addF c (ofNatF x) ≤ addF c' (ofNatF x')) : Farther cm := by
  intro l d d' c c' hd h1 h2
  generalize hl : l = l' at h2
  generalize hd1 : d = e at h1
  generalize hd2 : d' = e' at h2
  generalize hl1 : l = l1 at h1
  cases h1 with
  | copy i e j f a1 a2 a3 a4 a5 a6 a7 =>
    cases h2 with
    | copy i' e' j' f' b1 b2 b3 b4 b5 b6 b7 =>
      have hi : i = i' := lengthTable_unique a1 b1 a2 b2 (by omega) a3 b3
      subst hi
      rw [a1] at b1; cases b1
      rw [a6] at b6; cases b6
      have hj : j ≤ j' := distTable_le (e := f) a4 b4 b5 (by omega)
      exact addF_mono2 (Int.le_refl _) (h j j' _ _ _ _ _ _ hj a4 b4 a7 b7)

theorem farther_fixed : Farther CostModel.fixed := by
  refine farther_of ?_
  intro i j b x b' x' c c' hij h1 h2 h3 h4
  obtain ⟨hi, ei⟩ := distTable_lt h1
  obtain ⟨hj, ej⟩ := distTable_lt h2
  have := dist_extra_mono i hi j hj hij
  rw [ei, ej] at this
  simp only [] at this
  rw [(fixed_dist_get hi).1] at h3; cases h3
  rw [(fixed_dist_get hj).1] at h4; cases h4
  exact addF_mono2 (Int.le_refl _) (ofNatF_le.2 this)

/-- The number of bits of a copy. -/
theorem fixed_copy_price {i j lx dx : Nat} (hi : i < 29) (hj : j < 30) (hl : lx ≤ 5) (hd : dx ≤ 13) {lc dc : Int}
    (h1 : CostModel.fixed.litLen[257 + i]? = some lc) (h2 : CostModel.fixed.dist[j]? = some dc) :
    addF (addF lc (ofNatF lx)) (addF dc (ofNatF dx)) =
      ofNatF (Rfc1951.len fixedLit (257 + i) + lx + (Rfc1951.len fixedDist j + dx)) := by
  have hlen := fixed_len_all (257 + i) (by omega)
  rw [fixed_lit_get (by omega)] at h1; cases h1
  rw [(fixed_dist_get hj).1] at h2; cases h2
  rw [(fixed_dist_get hj).2, addF_exact (by omega), addF_exact (by omega), addF_exact (by omega)]

/-- The bits of a priced sequence. -/
theorem fixed_body {ts : List Rfc1951.Token} {x y : Int} (h : TotalPrice CostModel.fixed x ts y) :
    ∀ X : Nat, x = ofNatF X → X + 32 * ts.length ≤ 2 ^ 24 →
      ∃ bits n, Body fixedLit fixedDist bits ts ∧ bits.length = n + 7 ∧ y = ofNatF (X + n) ∧ n ≤ 32 * ts.length := by
  induction h with
  | nil x =>
    intro X hx _
    refine ⟨codeword fixedLit 256, 0, .eob (by decide), ?_, hx, Nat.zero_le _⟩
    rw [codeword_length]; decide
  | cons hp _ ih =>
    intro X hx hX
    subst hx
    rw [List.length_cons] at hX
    cases hp with
    | lit b hc =>
      have hb := b.toNat_lt
      have hlen := fixed_len_all b.toNat (by omega)
      rw [fixed_lit_get (by omega)] at hc; cases hc
      rw [addF_exact (by omega)] at ih
      obtain ⟨bits, n, h1, h2, h3, h4⟩ := ih _ rfl (by omega)
      refine ⟨_, Rfc1951.len fixedLit b.toNat + n, .lit b (by omega) h1, ?_, ?_, ?_⟩
      · rw [List.length_append, codeword_length]; omega
      · rw [h3]; congr 1; omega
      · rw [List.length_cons]; omega
    | copy i e j f a1 a2 a3 a4 a5 a6 a7 =>
      obtain ⟨hi, ei⟩ := lengthTable_lt a1
      obtain ⟨hj, ej⟩ := distTable_lt a4
      have hlx := length_extra_all i hi
      have hdx := dist_extra_all j hj
      rw [ei] at hlx
      rw [ej] at hdx
      simp only [] at hlx hdx
      have hlen := fixed_len_all (257 + i) (by omega)
      have hdl := (fixed_dist_get hj).2
      rw [fixed_copy_price hi hj hlx.1 hdx.1 a6 a7, addF_exact (by omega)] at ih
      obtain ⟨bits, n, h1, h2, h3, h4⟩ := ih _ rfl (by omega)
      rename_i lb lx db dx _ _ _
      refine ⟨_, Rfc1951.len fixedLit (257 + i) + lx + (Rfc1951.len fixedDist j + dx) + n,
        .copy i e j f a1 a2 (by omega) a4 a5 (by omega) h1, ?_, ?_, ?_⟩
      · simp only [List.length_append, codeword_length, bitsLSB_length]; omega
      · rw [h3]; congr 1; omega
      · rw [List.length_cons]; omega

/-- Every encoding of a sequence with the fixed code has at least as many bits as its price. -/
theorem fixed_price {bits : List Bool} {ts : List Rfc1951.Token} (h : Body fixedLit fixedDist bits ts) :
    ∀ X : Nat, X + bits.length ≤ 2 ^ 24 →
      (∀ l d, Rfc1951.Token.copy l d ∈ ts → 3 ≤ l ∧ l ≤ 258 ∧ 1 ≤ d ∧ d ≤ 32768) ∧
      ∃ y n, TotalPrice CostModel.fixed (ofNatF X) ts y ∧ n + 7 ≤ bits.length ∧ y ≤ ofNatF (X + n) := by
  induction h with
  | eob _ =>
    intro X _
    refine ⟨by simp, ofNatF X, 0, .nil _, ?_, Int.le_refl _⟩
    rw [codeword_length]; decide
  | lit b hb0 _ ih =>
    intro X hX
    rw [List.length_append, codeword_length] at hX ⊢
    have hb := b.toNat_lt
    obtain ⟨h0, y, n, h1, h2, h3⟩ := ih (X + Rfc1951.len fixedLit b.toNat) (by omega)
    refine ⟨?_, y, Rfc1951.len fixedLit b.toNat + n, .cons (.lit b (fixed_lit_get (by omega))) ?_, by omega, ?_⟩
    · intro l d hm
      rcases List.mem_cons.1 hm with hm | hm
      · cases hm
      · exact h0 l d hm
    · rw [addF_exact (by omega)]; exact h1
    · rw [← Nat.add_assoc]; exact h3
  | copy i e j f a1 a2 a3 a4 a5 a6 _ ih =>
    rename_i lb lx db dx bs ts _
    intro X hX
    simp only [List.length_append, codeword_length, bitsLSB_length] at hX ⊢
    obtain ⟨hi, ei⟩ := lengthTable_lt a1
    obtain ⟨hj, ej⟩ := distTable_lt a4
    have hlx := length_extra_all i hi
    have hdx := dist_extra_all j hj
    have hll := lengthTable_last i hi
    rw [ei] at hlx hll
    rw [ej] at hdx
    simp only [] at hlx hdx hll
    have hlen := fixed_len_all (257 + i) (by omega)
    have hdl := (fixed_dist_get hj).2
    have hlim : 3 ≤ lb + e ∧ lb + e ≤ 258 ∧ 1 ≤ db + f ∧ db + f ≤ 32768 := ⟨by omega, by omega, by omega, by omega⟩
    -- length 258 may be written as symbol 284; symbol 285 is shorter
    have key : ∃ i' e' lb' lx', lengthTable[i']? = some (lb', lx') ∧ e' < 2 ^ lx' ∧ lb' + e' = lb + e ∧
        (lb' + e' = 258 → i' = 28) ∧ Rfc1951.len fixedLit (257 + i') + lx' ≤ Rfc1951.len fixedLit (257 + i) + lx ∧ lx' ≤ 5 ∧ i' < 29 := by
      by_cases h258 : lb + e = 258
      · refine ⟨28, 0, 258, 0, rfl, by decide, by omega, fun _ => rfl, ?_, by omega, by omega⟩
        rw [show Rfc1951.len fixedLit (257 + 28) + 0 = 8 by decide]
        by_cases hi28 : i = 28
        · subst hi28
          rw [show Rfc1951.len fixedLit (257 + 28) = 8 by decide]; omega
        · have : 1 ≤ lx := by
            have hz : ∀ i < 28, (lengthTable.getD i (0, 0)).1 + 2 ^ (lengthTable.getD i (0, 0)).2 = 259 →
                1 ≤ (lengthTable.getD i (0, 0)).2 := by decide +kernel
            have := hz i (by omega)
            rw [ei] at this
            simp only [] at this
            exact this (by omega)
          omega
      · exact ⟨i, e, lb, lx, a1, a2, rfl, fun h => absurd h h258, Nat.le_refl _, hlx.1, hi⟩
    obtain ⟨i', e', lb', lx', b1, b2, b3, b4, b5, b6, b7⟩ := key
    have hlen' := fixed_len_all (257 + i') (by omega)
    obtain ⟨h0, y, n, h1, h2, h3⟩ := ih (X + (Rfc1951.len fixedLit (257 + i') + lx' + (Rfc1951.len fixedDist j + dx))) (by omega)
    refine ⟨?_, y, Rfc1951.len fixedLit (257 + i') + lx' + (Rfc1951.len fixedDist j + dx) + n, ?_, by omega, ?_⟩
    · intro l d hm
      rcases List.mem_cons.1 hm with hm | hm
      · cases hm; exact hlim
      · exact h0 l d hm
    · rw [← b3]
      refine .cons (.copy i' e' j f b1 b2 b4 a4 a5 (fixed_lit_get (by omega)) (fixed_dist_get hj).1) ?_
      rw [fixed_copy_price b7 hj b6 hdx.1 (fixed_lit_get (by omega)) (fixed_dist_get hj).1, addF_exact (by omega)]
      exact h1
    · rw [← Nat.add_assoc]; exact h3

/-- The tokens of a sequence of the grammar. -/
def unspec : Rfc1951.Token → Token
  | .lit b => .lit b
  | .copy l d => .mtch l d

theorem unspec_spec (ts : List Rfc1951.Token) : (ts.map unspec).map Token.spec = ts := by
  rw [List.map_map]
  conv => rhs; rw [← List.map_id ts]
  apply List.map_congr_left
  intro t _
  cases t <;> rfl

end Pixo.Lz77
