import Verif.Proof.F32
/-
Rounding respects order: it does not pass a number that can be represented.
-/
namespace Pixo.F32

/-- Parts of a rounding: `n = q * g + r` with `g = d * 2 ^ e`, and the result is `q` or `q + 1` times `2 ^ e`. -/
theorem rnd_parts (n d : Nat) (hd : 0 < d) :
    ∃ e q r, n = q * (d * 2 ^ e) + r ∧ r < d * 2 ^ e ∧ q < 2 ^ 24 ∧ (0 < e → 2 ^ 23 ≤ q) ∧
      ((rnd n d = q * 2 ^ e ∧ (2 * r < d * 2 ^ e ∨ (2 * r = d * 2 ^ e ∧ q % 2 = 0))) ∨
       (rnd n d = (q + 1) * 2 ^ e ∧ (d * 2 ^ e < 2 * r ∨ (2 * r = d * 2 ^ e ∧ q % 2 = 1)))) := by
  refine ⟨(n / d).log2 - 23, n / (d * 2 ^ ((n / d).log2 - 23)), n % (d * 2 ^ ((n / d).log2 - 23)), ?_, ?_, ?_, ?_, ?_⟩
  · rw [Nat.mul_comm]; exact (Nat.div_add_mod _ _).symm
  · exact Nat.mod_lt _ (Nat.mul_pos hd (Nat.two_pow_pos _))
  · rw [← Nat.div_div_eq_div_mul, Nat.div_lt_iff_lt_mul (Nat.two_pow_pos _), ← Nat.pow_add]
    by_cases h0 : n / d = 0
    · rw [h0]; exact Nat.two_pow_pos _
    · refine (Nat.log2_lt h0).1 ?_
      omega
  · intro he
    rw [← Nat.div_div_eq_div_mul, Nat.le_div_iff_mul_le (Nat.two_pow_pos _), ← Nat.pow_add]
    have h0 : n / d ≠ 0 := by intro h; rw [h] at he; simp at he
    have := Nat.log2_self_le h0
    rwa [show 23 + ((n / d).log2 - 23) = (n / d).log2 by omega]
  · unfold rnd
    simp only
    generalize (n / d).log2 - 23 = e
    by_cases hc : 2 * (n % (d * 2 ^ e)) > d * 2 ^ e ∨ (2 * (n % (d * 2 ^ e)) = d * 2 ^ e ∧ n / (d * 2 ^ e) % 2 = 1)
    · rw [if_pos hc]
      right
      refine ⟨rfl, ?_⟩
      rcases hc with hc | hc
      · exact Or.inl hc
      · exact Or.inr hc
    · rw [if_neg hc]
      left
      refine ⟨rfl, ?_⟩
      omega

/-- Not above a representable number. -/
theorem rnd_le {n d m e : Nat} (hd : 0 < d) (hm : m ≤ 2 ^ 24) (h : n ≤ m * 2 ^ e * d) : rnd n d ≤ m * 2 ^ e := by
  obtain ⟨x, q, r, h1, h2, h3, h4, h5⟩ := rnd_parts n d hd
  by_cases hx : x ≤ e
  · have e1 : m * 2 ^ e = m * 2 ^ (e - x) * 2 ^ x := by rw [Nat.mul_assoc, ← Nat.pow_add, Nat.sub_add_cancel hx]
    rw [e1] at h ⊢
    have hg : m * 2 ^ (e - x) * 2 ^ x * d = m * 2 ^ (e - x) * (d * 2 ^ x) := by
      rw [Nat.mul_assoc, Nat.mul_comm (2 ^ x) d]
    rw [hg, h1] at h
    generalize m * 2 ^ (e - x) = M at *
    have hpos : 0 < d * 2 ^ x := Nat.mul_pos hd (Nat.two_pow_pos x)
    rcases h5 with ⟨h5, _⟩ | ⟨h5, h6⟩
    · rw [h5]
      refine Nat.mul_le_mul_right _ ?_
      exact Nat.le_of_mul_le_mul_right (Nat.le_trans (Nat.le_add_right _ _) h) hpos
    · rw [h5]
      refine Nat.mul_le_mul_right _ ?_
      have : q * (d * 2 ^ x) < M * (d * 2 ^ x) := by omega
      exact Nat.lt_of_mul_lt_mul_right this
  · have hx : e < x := by omega
    have hq := h4 (by omega)
    have e1 : 2 ^ 23 * 2 ^ x = 2 ^ 24 * 2 ^ e * 2 ^ (x - e - 1) := by
      rw [← Nat.pow_add, ← Nat.pow_add, ← Nat.pow_add]; congr 1; omega
    have h7 : 2 ^ 24 * 2 ^ e ≤ 2 ^ 23 * 2 ^ x := by
      rw [e1]; exact Nat.le_mul_of_pos_right _ (Nat.two_pow_pos _)
    have h8 : m * 2 ^ e ≤ 2 ^ 24 * 2 ^ e := Nat.mul_le_mul_right _ hm
    have h9 : 2 ^ 23 * 2 ^ x ≤ q * 2 ^ x := Nat.mul_le_mul_right _ hq
    have h10 : q * (d * 2 ^ x) = q * 2 ^ x * d := by rw [Nat.mul_comm d, Nat.mul_assoc]
    rw [h1, h10] at h
    have h11 : q * 2 ^ x ≤ m * 2 ^ e := Nat.le_of_mul_le_mul_right (Nat.le_trans (Nat.le_add_right _ _) h) hd
    have h12 : q * 2 ^ x = m * 2 ^ e := by omega
    rw [h12] at h
    rcases h5 with ⟨h5, _⟩ | ⟨h5, h6⟩
    · rw [h5]; exact h11
    · have hr : r = 0 := by omega
      subst hr
      have := Nat.mul_pos hd (Nat.two_pow_pos x)
      omega

/-- Not below a representable number. -/
theorem le_rnd {n d m e : Nat} (hd : 0 < d) (hm : m ≤ 2 ^ 24) (h : m * 2 ^ e * d ≤ n) : m * 2 ^ e ≤ rnd n d := by
  obtain ⟨x, q, r, h1, h2, h3, h4, h5⟩ := rnd_parts n d hd
  have hge : q * 2 ^ x ≤ rnd n d := by
    rcases h5 with ⟨h5, _⟩ | ⟨h5, _⟩ <;> rw [h5]
    · exact Nat.le_refl _
    · exact Nat.mul_le_mul_right _ (Nat.le_succ q)
  refine Nat.le_trans ?_ hge
  by_cases hx : x ≤ e
  · have e1 : m * 2 ^ e = m * 2 ^ (e - x) * 2 ^ x := by rw [Nat.mul_assoc, ← Nat.pow_add, Nat.sub_add_cancel hx]
    rw [e1] at h ⊢
    have hg : m * 2 ^ (e - x) * 2 ^ x * d = m * 2 ^ (e - x) * (d * 2 ^ x) := by
      rw [Nat.mul_assoc, Nat.mul_comm (2 ^ x) d]
    rw [hg, h1] at h
    generalize m * 2 ^ (e - x) = M at *
    refine Nat.mul_le_mul_right _ ?_
    have hlt : M * (d * 2 ^ x) < (q + 1) * (d * 2 ^ x) := by rw [Nat.succ_mul]; omega
    exact Nat.le_of_lt_succ (Nat.lt_of_mul_lt_mul_right hlt)
  · have hq := h4 (by omega)
    have e1 : 2 ^ 23 * 2 ^ x = 2 ^ 24 * 2 ^ e * 2 ^ (x - e - 1) := by
      rw [← Nat.pow_add, ← Nat.pow_add, ← Nat.pow_add]; congr 1; omega
    have h7 : 2 ^ 24 * 2 ^ e ≤ 2 ^ 23 * 2 ^ x := by
      rw [e1]; exact Nat.le_mul_of_pos_right _ (Nat.two_pow_pos _)
    have h8 : m * 2 ^ e ≤ 2 ^ 24 * 2 ^ e := Nat.mul_le_mul_right _ hm
    have h9 : 2 ^ 23 * 2 ^ x ≤ q * 2 ^ x := Nat.mul_le_mul_right _ hq
    omega

/-- The error is at most a `2^24`th of the number, or half a unit. -/
theorem rnd_rel (n d : Nat) (hd : 0 < d) :
    2 ^ 24 * (rnd n d * d) ≤ 2 ^ 24 * n + n + 2 ^ 23 * d ∧ 2 ^ 24 * n ≤ 2 ^ 24 * (rnd n d * d) + n + 2 ^ 23 * d := by
  obtain ⟨x, q, r, h1, h2, h3, h4, h5⟩ := rnd_parts n d hd
  have e1 : q * 2 ^ x * d = q * (d * 2 ^ x) := by rw [Nat.mul_assoc, Nat.mul_comm (2 ^ x)]
  have e2 : (q + 1) * 2 ^ x * d = q * (d * 2 ^ x) + d * 2 ^ x := by
    rw [Nat.mul_assoc, Nat.mul_comm (2 ^ x), Nat.succ_mul]
  have hg : 2 ^ 23 * (d * 2 ^ x) ≤ q * (d * 2 ^ x) + 2 ^ 23 * d := by
    by_cases hx : x = 0
    · subst hx; simp
    · have := Nat.mul_le_mul_right (d * 2 ^ x) (h4 (by omega))
      omega
  generalize q * (d * 2 ^ x) = Q at *
  generalize d * 2 ^ x = g at *
  rcases h5 with ⟨h5, h6⟩ | ⟨h5, h6⟩
  · rw [h5, e1]; omega
  · rw [h5, e2]; omega

/-- What is rounded has 24 bits. -/
theorem rnd_form (n d : Nat) (hd : 0 < d) : ∃ m e, rnd n d = m * 2 ^ e ∧ m ≤ 2 ^ 24 := by
  obtain ⟨x, q, r, h1, h2, h3, h4, h5⟩ := rnd_parts n d hd
  rcases h5 with ⟨h5, _⟩ | ⟨h5, _⟩
  · exact ⟨q, x, h5, by omega⟩
  · exact ⟨q + 1, x, h5, by omega⟩

theorem rnd_exact' {m e d : Nat} (hm : m ≤ 2 ^ 24) (hd : 0 < d) : rnd (m * 2 ^ e * d) d = m * 2 ^ e :=
  Nat.le_antisymm (rnd_le hd hm (Nat.le_refl _)) (le_rnd hd hm (Nat.le_refl _))

end Pixo.F32

namespace Pixo.F32

theorem one_eq : one = 2 ^ 149 := rfl

theorem one_pos : 0 < one := Nat.two_pow_pos 149

/-- The numbers of 24 bits. -/
def Rep (r : Int) : Prop := ∃ m e, m ≤ 2 ^ 24 ∧ r.natAbs = m * 2 ^ e

theorem rndI_rep (n : Int) (d : Nat) (hd : 0 < d) : Rep (rndI n d) := by
  unfold rndI
  split
  · obtain ⟨m, e, h1, h2⟩ := rnd_form n.toNat d hd
    exact ⟨m, e, h2, by rw [Int.natAbs_natCast]; exact h1⟩
  · obtain ⟨m, e, h1, h2⟩ := rnd_form (-n).toNat d hd
    exact ⟨m, e, h2, by rw [Int.natAbs_neg, Int.natAbs_natCast]; exact h1⟩

theorem Rep.neg {r : Int} (h : Rep r) : Rep (-r) := by
  obtain ⟨m, e, h1, h2⟩ := h
  exact ⟨m, e, h1, by rw [Int.natAbs_neg]; exact h2⟩

theorem rep_nat {m : Nat} (e : Nat) (h : m ≤ 2 ^ 24) : Rep ((m * 2 ^ e : Nat) : Int) := ⟨m, e, h, rfl⟩

theorem rep_one {m : Nat} (h : m ≤ 2 ^ 24) : Rep ((m * one : Nat) : Int) := rep_nat 149 h

theorem rep_zero : Rep 0 := ⟨0, 0, by omega, rfl⟩

theorem rndI_nonneg {n : Int} (d : Nat) (h : 0 ≤ n) : 0 ≤ rndI n d := by
  unfold rndI; rw [if_pos h]; exact Int.natCast_nonneg _

theorem rndI_nonpos {n : Int} (d : Nat) (hd : 0 < d) (h : n ≤ 0) : rndI n d ≤ 0 := by
  unfold rndI
  split
  · have e : n.toNat = 0 := by omega
    have := rnd_le (n := 0) (d := d) (m := 0) (e := 0) hd (by omega) (by simp)
    rw [e]; omega
  · omega

/-- Rounding does not pass a number that can be represented, from below. -/
theorem rndI_le {n r : Int} {d : Nat} (hd : 0 < d) (hr : Rep r) (h : n ≤ r * d) : rndI n d ≤ r := by
  obtain ⟨m, e, h1, h2⟩ := hr
  by_cases hn : 0 ≤ n
  · have hr0 : 0 ≤ r := by
      refine Int.not_lt.1 fun hlt => ?_
      have : r * d < 0 := Int.mul_neg_of_neg_of_pos hlt (by omega)
      omega
    have e1 : r = ((m * 2 ^ e : Nat) : Int) := by omega
    unfold rndI
    rw [if_pos hn, e1]
    rw [e1, ← Int.natCast_mul] at h
    have := rnd_le (n := n.toNat) (e := e) hd h1 (by omega)
    exact_mod_cast this
  · have hp := rndI_nonpos d hd (show n ≤ 0 by omega)
    by_cases hr0 : 0 ≤ r
    · omega
    · have e1 : r = -((m * 2 ^ e : Nat) : Int) := by omega
      unfold rndI
      rw [if_neg hn, e1]
      rw [e1, Int.neg_mul, ← Int.natCast_mul] at h
      have := le_rnd (n := (-n).toNat) (e := e) hd h1 (by omega)
      omega

/-- … and from above. -/
theorem le_rndI {n r : Int} {d : Nat} (hd : 0 < d) (hr : Rep r) (h : r * d ≤ n) : r ≤ rndI n d := by
  obtain ⟨m, e, h1, h2⟩ := hr
  by_cases hn : 0 ≤ n
  · have hp := rndI_nonneg d hn
    by_cases hr0 : 0 ≤ r
    · have e1 : r = ((m * 2 ^ e : Nat) : Int) := by omega
      unfold rndI
      rw [if_pos hn, e1]
      rw [e1, ← Int.natCast_mul] at h
      have := le_rnd (n := n.toNat) (e := e) hd h1 (by omega)
      exact_mod_cast this
    · omega
  · have hr0 : r < 0 := by
      refine Int.not_le.1 fun hle => ?_
      have := Int.mul_nonneg hle (Int.natCast_nonneg d)
      omega
    have e1 : r = -((m * 2 ^ e : Nat) : Int) := by omega
    unfold rndI
    rw [if_neg hn, e1]
    rw [e1, Int.neg_mul, ← Int.natCast_mul] at h
    have := rnd_le (n := (-n).toNat) (e := e) hd h1 (by omega)
    omega

/-- What can be represented is not changed. -/
theorem rndI_exact {r : Int} {d : Nat} (hd : 0 < d) (hr : Rep r) : rndI (r * d) d = r :=
  Int.le_antisymm (rndI_le hd hr (Int.le_refl _)) (le_rndI hd hr (Int.le_refl _))

theorem ofInt_exact {n : Nat} (h : n ≤ 2 ^ 24) : ofInt n = ((n * one : Nat) : Int) := by
  unfold ofInt
  have := rndI_exact (d := 1) (by omega) (rep_one h)
  rw [← this]
  congr 1
  rw [Int.natCast_mul]; simp

theorem add_exact {a b : Int} (h : Rep (a + b)) : add a b = a + b := by
  have := rndI_exact (d := 1) (by omega) h
  rw [Int.natCast_one, Int.mul_one] at this
  exact this

theorem sub_exact {a b : Int} (h : Rep (a - b)) : sub a b = a - b := by
  have := rndI_exact (d := 1) (by omega) h
  rw [Int.natCast_one, Int.mul_one] at this
  exact this

theorem mul_one_right {a : Int} (h : Rep a) : mul a one = a := rndI_exact one_pos h

theorem mul_zero (a : Int) : mul a 0 = 0 := by
  unfold mul
  rw [Int.mul_zero]; decide

theorem add_zero {a : Int} (h : Rep a) : add a 0 = a := by
  rw [add_exact (by rw [Int.add_zero]; exact h), Int.add_zero]

theorem lit_one : lit 1 1 = (one : Int) := by
  unfold lit
  have := rnd_exact' (m := 1) (e := 149) (d := 1) (by omega) (by omega)
  exact_mod_cast this

theorem lit_half : lit 1 2 = ((2 ^ 148 : Nat) : Int) := by
  unfold lit
  have := rnd_exact' (m := 1) (e := 148) (d := 2) (by omega) (by omega)
  rw [show 1 * one = 1 * 2 ^ 148 * 2 by rfl, this, Nat.one_mul]

theorem lit_three : lit 3 1 = ((3 * one : Nat) : Int) := by
  unfold lit
  have := rnd_exact' (m := 3) (e := 149) (d := 1) (by omega) (by omega)
  rw [show 3 * one = 3 * 2 ^ 149 * 1 by rfl, this]

end Pixo.F32
