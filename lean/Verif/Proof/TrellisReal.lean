import Verif.Proof.TrellisSearch
import Verif.Proof.ResizeReal
import Verif.Spec.TrellisReal
/-
The cost the trellis quantizer works with is the one in real numbers, up to rounding.
-/
namespace Pixo.Jpeg
open Pixo Spec.Trellis
open Pixo.Resize (val val_add val_sub val_mul)

/-! ### The rate of a value -/

/-- Ten times the bits of a code. -/
def codeTenths (run size : Nat) : Nat :=
  match run, size with
  | 0, 1 => 20
  | 0, 2 => 25
  | 0, 3 => 30
  | 0, 4 => 40
  | 1, 1 => 30
  | 1, 2 => 40
  | 2, 1 => 40
  | run, size => 30 + 5 * run + 3 * size

theorem codeTenths_real (run size : Nat) : (codeTenths run size : ℝ) = 10 * codeBits run size := by
  unfold codeTenths codeBits
  split <;> push_cast <;> ring

theorem rate_tenths : ∀ run < 16, ∀ size < 16,
    (10 * F32.add (symbolBits run size) (F32.ofInt (size : Nat)) -
      ((codeTenths run size + 10 * size : Nat) : Int) * 2 ^ 149).natAbs ≤ 2 ^ 133 := by decide +kernel

theorem codeBits_ge (run size : Nat) : 2 ≤ codeBits run size := by
  unfold codeBits
  split <;> norm_num
  have h : (0 : ℝ) ≤ (run : ℝ) / 2 + 3 * size / 10 := by positivity
  linarith

theorem rate_real {run size : Nat} (hr : run < 16) (hs : size < 16) :
    |val (F32.add (symbolBits run size) (F32.ofInt (size : Nat))) - (codeBits run size + size)| ≤
      16 / 2 ^ 24 * (codeBits run size + size) := by
  have h := rate_tenths run hr size hs
  have h0 := codeBits_ge run size
  have hp : (0 : ℝ) ≤ size := Nat.cast_nonneg _
  generalize F32.add (symbolBits run size) (F32.ofInt (size : Nat)) = x at *
  have h1 : (|10 * x - ((codeTenths run size + 10 * size : Nat) : Int) * 2 ^ 149| : Int) ≤ 2 ^ 133 := by
    rw [Int.abs_eq_natAbs]; exact_mod_cast h
  have h2 : |10 * (x : ℝ) - ((codeTenths run size + 10 * size : Nat) : ℝ) * 2 ^ 149| ≤ 2 ^ 133 := by exact_mod_cast h1
  rw [Nat.cast_add, codeTenths_real] at h2
  push_cast at h2
  unfold val
  rw [show (x : ℝ) / 2 ^ 149 - (codeBits run size + size) =
    (10 * (x : ℝ) - (10 * codeBits run size + 10 * size) * 2 ^ 149) / (10 * 2 ^ 149) by field_simp, abs_div,
    abs_of_pos (show (0 : ℝ) < 10 * 2 ^ 149 by positivity), div_le_iff₀ (by positivity)]
  refine h2.trans ?_
  have : (2 : ℝ) ^ 133 ≤ 16 / 2 ^ 24 * 2 * (10 * 2 ^ 149) := by norm_num
  refine this.trans ?_
  gcongr
  linarith

/-! ### Sums -/

/-- Adding to a sum that is off by a share and a little. -/
theorem add_step {C T : Int} {S t η δ δ' : ℝ} (hS : 0 ≤ S) (ht : 0 ≤ t) (hη : η ≤ 1 / 4)
    (hδ : δ + δ' ≤ 1 / 2 ^ 100) (hC : |val C - S| ≤ η * S + δ) (hT : |val T - t| ≤ η * t + δ') :
    |val (F32.add C T) - (S + t)| ≤ (η + 2 / 2 ^ 24) * (S + t) + (δ + δ' + 1 / 2 ^ 120) := by
  have h := val_add C T
  have h1 : |val C + val T - (S + t)| ≤ η * (S + t) + (δ + δ') := by
    rw [show val C + val T - (S + t) = (val C - S) + (val T - t) by ring]
    exact (abs_add_le _ _).trans (by linarith)
  have h2 : |val C + val T| ≤ 5 / 4 * (S + t) + 1 / 2 ^ 100 := by
    have := abs_sub_abs_le_abs_sub (val C + val T) (S + t)
    rw [abs_of_nonneg (add_nonneg hS ht)] at this
    nlinarith
  have h3 : |val C + val T| / 2 ^ 24 ≤ (5 / 4 * (S + t) + 1 / 2 ^ 100) / 2 ^ 24 := by gcongr
  calc _ = |(val (F32.add C T) - (val C + val T)) + (val C + val T - (S + t))| := by ring_nf
    _ ≤ _ := abs_add_le _ _
    _ ≤ _ := by
      have : (1 : ℝ) / 2 ^ 100 / 2 ^ 24 + 1 / 2 ^ 150 ≤ 1 / 2 ^ 120 := by norm_num
      have : (0 : ℝ) ≤ (S + t) / 2 ^ 24 := by positivity
      linarith

/-! ### The error of a value -/

theorem val_ofInt_mul {v : Int} {q : Nat} (h : v.natAbs * q ≤ 2 ^ 24) (hq : 1 ≤ q) :
    val (F32.mul (F32.ofInt v) (F32.ofInt (q : Nat))) = v * q := by
  have hv : v.natAbs ≤ 2 ^ 24 := Nat.le_trans (Nat.le_mul_of_pos_right _ hq) h
  have e1 : F32.ofInt v = v * F32.one := by
    unfold F32.ofInt
    have : F32.Rep (v * F32.one) := ⟨v.natAbs, 149, hv, by rw [Int.natAbs_mul]; rfl⟩
    have := F32.rndI_exact (d := 1) (by decide) this
    simpa using this
  have e3 : F32.mul (F32.ofInt v) (F32.ofInt (q : Nat)) = v * q * F32.one := by
    by_cases h0 : v = 0
    · subst h0
      rw [e1]
      unfold F32.mul F32.rndI F32.rnd
      simp
    · have hq' : q ≤ 2 ^ 24 := Nat.le_trans (Nat.le_mul_of_pos_left _ (by omega)) h
      have e2 : F32.ofInt (q : Nat) = q * F32.one := by rw [F32.ofInt_exact hq']; push_cast; rfl
      rw [e1, e2]
      unfold F32.mul
      rw [show v * (F32.one : Int) * (q * F32.one) = (v * q * F32.one) * F32.one by ring]
      refine F32.rndI_exact F32.one_pos ⟨v.natAbs * q, 149, h, ?_⟩
      rw [Int.natAbs_mul, Int.natAbs_mul, Int.natAbs_natCast]
      rfl
  rw [e3]
  unfold val
  rw [F32.one_eq]
  push_cast
  field_simp
  norm_num

theorem sq_real {m x : Int} {M : ℝ} (hM : |M| ≤ 2 ^ 13) (h : |val m - M| ≤ |M| / 2 ^ 24 + 1 / 2 ^ 150)
    (hx : x = F32.mul m m) : |val x - M ^ 2| ≤ 4 / 2 ^ 24 * M ^ 2 + 1 / 2 ^ 130 := by
  subst hx
  have h1 := val_mul m m
  generalize val (F32.mul m m) = y at *
  generalize val m = z at *
  have hMp := abs_nonneg M
  have hM2 : |M| * |M| = M ^ 2 := by rw [← sq, sq_abs]
  have hz : |z| ≤ |M| + (|M| / 2 ^ 24 + 1 / 2 ^ 150) := by
    have := abs_sub_abs_le_abs_sub z M
    linarith
  have h2 : |z * z - M ^ 2| ≤ (|M| / 2 ^ 24 + 1 / 2 ^ 150) * (2 * |M| + (|M| / 2 ^ 24 + 1 / 2 ^ 150)) := by
    rw [show z * z - M ^ 2 = (z - M) * (z + M) by ring, abs_mul]
    have : |z + M| ≤ 2 * |M| + (|M| / 2 ^ 24 + 1 / 2 ^ 150) := (abs_add_le _ _).trans (by linarith)
    gcongr
  have h3 : |z * z| ≤ (|M| + (|M| / 2 ^ 24 + 1 / 2 ^ 150)) * (|M| + (|M| / 2 ^ 24 + 1 / 2 ^ 150)) := by
    rw [abs_mul]; gcongr
  have h4 : |y - M ^ 2| ≤ |y - z * z| + |z * z - M ^ 2| := abs_sub_le _ _ _
  have e1 : (|M| / 2 ^ 24 + 1 / 2 ^ 150) * (2 * |M| + (|M| / 2 ^ 24 + 1 / 2 ^ 150)) =
      (2 / 2 ^ 24 + 1 / 2 ^ 48) * M ^ 2 + (2 + 2 / 2 ^ 24) / 2 ^ 150 * |M| + 1 / 2 ^ 150 / 2 ^ 150 := by rw [← hM2]; ring
  have e2 : (|M| + (|M| / 2 ^ 24 + 1 / 2 ^ 150)) * (|M| + (|M| / 2 ^ 24 + 1 / 2 ^ 150)) =
      (1 + 2 / 2 ^ 24 + 1 / 2 ^ 48) * M ^ 2 + (2 + 2 / 2 ^ 24) / 2 ^ 150 * |M| + 1 / 2 ^ 150 / 2 ^ 150 := by rw [← hM2]; ring
  rw [e1] at h2
  rw [e2] at h3
  have hsq : 0 ≤ M ^ 2 := sq_nonneg M
  have h5 : (2 + 2 / 2 ^ 24) / 2 ^ 150 * |M| ≤ 1 / 2 ^ 133 := by
    calc _ ≤ (2 + 2 / 2 ^ 24) / 2 ^ 150 * (2 : ℝ) ^ 13 := by gcongr
      _ ≤ _ := by norm_num
  have h6 : |z * z| / 2 ^ 24 ≤ ((1 + 2 / 2 ^ 24 + 1 / 2 ^ 48) * M ^ 2 + 1 / 2 ^ 133 + 1 / 2 ^ 150 / 2 ^ 150) / 2 ^ 24 := by
    gcongr
    linarith
  have n1 : (1 + 2 / 2 ^ 24 + 1 / 2 ^ 48) / 2 ^ 24 + (2 / 2 ^ 24 + 1 / 2 ^ 48) ≤ (4 : ℝ) / 2 ^ 24 := by norm_num
  have n2 : (1 / 2 ^ 133 + 1 / 2 ^ 150 / 2 ^ 150) / 2 ^ 24 + 1 / 2 ^ 150 + 1 / 2 ^ 133 + 1 / 2 ^ 150 / 2 ^ 150 ≤ (1 : ℝ) / 2 ^ 130 := by norm_num
  have n3 := mul_le_mul_of_nonneg_right n1 hsq
  linarith

/-- The weighted error of a value. -/
theorem error_real {lambda c v : Int} {q : Nat} (hl : 0 ≤ val lambda) (hl' : val lambda ≤ 1024)
    (hc : |val c| ≤ 1025) (hq : 1 ≤ q) (hv : v.natAbs * q ≤ 4096) :
    |val (F32.mul lambda (distortion (c, F32.ofInt (q : Nat)) v)) - val lambda * (val c - v * q) ^ 2| ≤
      16 / 2 ^ 24 * (val lambda * (val c - v * q) ^ 2) + 1 / 2 ^ 110 := by
  have e := val_ofInt_mul (v := v) (q := q) (by omega) hq
  have h1 := val_sub c (F32.mul (F32.ofInt v) (F32.ofInt (q : Nat)))
  rw [e] at h1
  have hb : |(v : ℝ) * q| ≤ 4096 := by
    rw [abs_mul, Nat.abs_cast, ← Int.cast_abs, Int.abs_eq_natAbs]
    exact_mod_cast hv
  have hM : |val c - v * q| ≤ 2 ^ 13 := by
    have := abs_sub (val c) (v * q)
    norm_num
    linarith
  have h2 := sq_real (x := distortion (c, F32.ofInt (q : Nat)) v) hM h1 rfl
  have h3 := val_mul lambda (distortion (c, F32.ofInt (q : Nat)) v)
  generalize val (F32.mul lambda (distortion (c, F32.ofInt (q : Nat)) v)) = y at *
  generalize val (distortion (c, F32.ofInt (q : Nat)) v) = d at *
  generalize val lambda = l at *
  have hM2 : 0 ≤ (val c - v * q) ^ 2 := sq_nonneg _
  generalize (val c - (v : ℝ) * q) ^ 2 = M2 at *
  have h4 : |l * d - l * M2| ≤ l * (4 / 2 ^ 24 * M2 + 1 / 2 ^ 130) := by
    rw [← mul_sub, abs_mul, abs_of_nonneg hl]; gcongr
  have h5 : |l * d| ≤ l * M2 + l * (4 / 2 ^ 24 * M2 + 1 / 2 ^ 130) := by
    have := abs_sub_abs_le_abs_sub (l * d) (l * M2)
    rw [abs_of_nonneg (mul_nonneg hl hM2)] at this
    linarith
  have h6 : |l * d| / 2 ^ 24 ≤ (l * M2 + l * (4 / 2 ^ 24 * M2 + 1 / 2 ^ 130)) / 2 ^ 24 := by gcongr
  have h7 := abs_sub_le y (l * d) (l * M2)
  have hp : 0 ≤ l * M2 := mul_nonneg hl hM2
  have n1 : l / 2 ^ 130 / 2 ^ 24 + l / 2 ^ 130 + 1 / 2 ^ 150 ≤ 1 / 2 ^ 110 := by
    calc _ ≤ (1024 : ℝ) / 2 ^ 130 / 2 ^ 24 + 1024 / 2 ^ 130 + 1 / 2 ^ 150 := by gcongr
      _ ≤ _ := by norm_num
  nlinarith

/-- Values considered times their steps are not much larger than coefficients. -/
theorem allowed_bound {c v : Int} {q : Nat} (hc : |val c| ≤ 1025) (h1 : 1 ≤ q) (h2 : q ≤ 255)
    (h : Allowed (F32.div c (F32.ofInt (q : Nat))) v) : v.natAbs * q ≤ 4096 := by
  have hc' : -(1025 * 2 ^ 149) ≤ c ∧ c ≤ 1025 * 2 ^ 149 := by
    unfold val at hc
    rw [abs_div, abs_of_pos (show (0 : ℝ) < 2 ^ 149 by positivity), div_le_iff₀ (by positivity)] at hc
    have : |c| ≤ 1025 * 2 ^ 149 := by exact_mod_cast hc
    exact abs_le.1 this
  have hn := div_near (x := c) h1 h2 (by constructor <;> omega)
  generalize F32.div c (F32.ofInt (q : Nat)) = D at *
  by_cases h0 : v = 0
  · subst h0; simp
  have hv : (v * F32.one - D).natAbs < 2 * F32.one := by
    unfold Allowed at h
    omega
  have e : F32.one = 2 ^ 149 := rfl
  rw [e] at hv
  have a1 : v * 2 ^ 149 ≤ D + 2 * 2 ^ 149 := by omega
  have a2 : D - 2 * 2 ^ 149 ≤ v * 2 ^ 149 := by omega
  have hq : (0 : Int) ≤ q := by omega
  have b1 := Int.mul_le_mul_of_nonneg_right a1 hq
  have b2 := Int.mul_le_mul_of_nonneg_right a2 hq
  rw [Int.add_mul] at b1
  rw [Int.sub_mul] at b2
  have e1 : v * 2 ^ 149 * (q : Int) = v * q * 2 ^ 149 := by ring
  rw [e1] at b1 b2
  have hb : (v * q).natAbs ≤ 4096 := by
    generalize v * (q : Int) = w at *
    generalize D * (q : Int) = z at *
    omega
  rwa [Int.natAbs_mul, Int.natAbs_natCast] at hb

/-! ### The whole cost -/

theorem bits_nonneg (run : Nat) (values : List Int) : 0 ≤ bits run values := by
  induction values generalizing run with
  | nil => unfold bits; split <;> norm_num
  | cons v vs ih =>
    unfold bits
    split
    · split
      · have := ih 0; linarith
      · exact ih _
    · have := ih 0
      have := codeBits_ge run (size v)
      have : (0 : ℝ) ≤ size v := Nat.cast_nonneg _
      linarith

theorem squares_nonneg (coefs : List (Int × Int)) (values : List Int) : 0 ≤ squares coefs values := by
  induction coefs generalizing values with
  | nil => simp [squares]
  | cons c cs ih =>
    cases values with
    | nil => unfold squares; simp
    | cons v vs => unfold squares; have := ih vs; positivity

/-- Coefficients of samples, with integer steps. -/
def Fine (c : Int × Int) : Prop := |val c.1| ≤ 1025 ∧ ∃ q : Nat, 1 ≤ q ∧ q ≤ 255 ∧ c.2 = F32.ofInt (q : Nat)

theorem val_lit_ten : val (F32.lit 10 1) = 10 := by
  have : F32.lit 10 1 = 10 * 2 ^ 149 := by decide +kernel
  rw [this]; unfold val; push_cast; norm_num

theorem val_lit_four : val (F32.lit 4 1) = 4 := by
  have : F32.lit 4 1 = 4 * 2 ^ 149 := by decide +kernel
  rw [this]; unfold val; push_cast; norm_num

theorem ofInt_val {q : Nat} (h : q ≤ 255) : ((F32.ofInt (q : Nat) : Int) : ℝ) / 2 ^ 149 = q := by
  rw [F32.ofInt_exact (by omega), F32.one_eq]
  push_cast
  rw [mul_div_assoc]
  norm_num

/-- The cost with that of zeros at the end. -/
def finish (s : Nat × Int) : Int := if 0 < s.1 then F32.add s.2 (F32.lit 4 1) else s.2

/-- The error of a value, squared. -/
noncomputable def errR (c : Int × Int) (v : Int) : ℝ := ((c.1 : ℝ) / 2 ^ 149 - v * (c.2 / 2 ^ 149)) ^ 2

/-- `Spec.Trellis.step` in real numbers. -/
noncomputable def stepR (weight : ℝ) (c : Int × Int) (s : Nat × ℝ) (v : Int) : Nat × ℝ :=
  if v = 0 then
    if s.1 = 15 then (0, s.2 + 10 + weight * errR c v) else (s.1 + 1, s.2 + 0 + weight * errR c v)
  else (0, s.2 + (codeBits s.1 (size v) + size v) + weight * errR c v)

theorem stepR_run {weight : ℝ} {c : Int × Int} {s : Nat × ℝ} {v : Int} (hr : s.1 < 16) : (stepR weight c s v).1 < 16 := by
  unfold stepR
  split
  · split
    · simp
    · simp only; omega
  · simp

theorem stepR_nonneg {weight : ℝ} {c : Int × Int} {s : Nat × ℝ} {v : Int} (hw : 0 ≤ weight) (h : 0 ≤ s.2) :
    0 ≤ (stepR weight c s v).2 := by
  have h1 : 0 ≤ errR c v := by unfold errR; positivity
  have h2 := codeBits_ge s.1 (size v)
  have h3 : (0 : ℝ) ≤ size v := Nat.cast_nonneg _
  have h4 := mul_nonneg hw h1
  unfold stepR
  split
  · split <;> simp only <;> linarith
  · simp only; linarith

/-- One more value: the cost is off by a little more. -/
theorem step_real {lambda : Int} (hl : 0 ≤ val lambda) (hl' : val lambda ≤ 1024) {c : Int × Int} (hf : Fine c) {v : Int}
    (hav : Allowed (F32.div c.1 c.2) v) {run : Nat} (hr : run < 16) {C : Int} {S : ℝ} (hS : 0 ≤ S) {k : Nat} (hk : k ≤ 62)
    (hC : |val C - S| ≤ (16 + 4 * k) / 2 ^ 24 * S + k * (1 / 2 ^ 109)) :
    (step lambda c (run, C) v).1 = (stepR (val lambda) c (run, S) v).1 ∧
    |val (step lambda c (run, C) v).2 - (stepR (val lambda) c (run, S) v).2| ≤
      (16 + 4 * ((k + 1 : Nat) : ℝ)) / 2 ^ 24 * (stepR (val lambda) c (run, S) v).2 + ((k + 1 : Nat) : ℝ) * (1 / 2 ^ 109) := by
  obtain ⟨hc, q, q1, q2, hq⟩ := hf
  obtain ⟨c1, c2⟩ := c
  simp only at hc hq
  subst hq
  simp only at hav
  have hb := allowed_bound hc q1 q2 hav
  have he := error_real hl hl' hc q1 hb
  have hk' : (k : ℝ) ≤ 62 := by exact_mod_cast hk
  have hk0 : (0 : ℝ) ≤ k := Nat.cast_nonneg k
  have hη : (16 + 4 * (k : ℝ)) / 2 ^ 24 ≤ 1 / 4 := by rw [div_le_iff₀ (by positivity)]; linarith
  have h16 : (16 : ℝ) / 2 ^ 24 ≤ (16 + 4 * (k : ℝ)) / 2 ^ 24 := by gcongr <;> linarith
  have hT : 0 ≤ val lambda * (val c1 - v * q) ^ 2 := by positivity
  have hkd : (k : ℝ) * (1 / 2 ^ 109) ≤ 62 * (1 / 2 ^ 109) := by gcongr
  -- one more value, whose rate is `r`
  have key : ∀ (A : Int) (r : ℝ), 0 ≤ r →
      |val A - (S + r)| ≤ (16 + 4 * (k : ℝ) + 2) / 2 ^ 24 * (S + r) + (k * (1 / 2 ^ 109) + 1 / 2 ^ 120) →
      |val (F32.add A (F32.mul lambda (distortion (c1, F32.ofInt (q : Nat)) v))) -
        (S + r + val lambda * (val c1 - v * q) ^ 2)| ≤
        (16 + 4 * ((k + 1 : Nat) : ℝ)) / 2 ^ 24 * (S + r + val lambda * (val c1 - v * q) ^ 2) +
          ((k + 1 : Nat) : ℝ) * (1 / 2 ^ 109) := by
    intro A r hr0 hA
    have h := add_step (δ' := 1 / 2 ^ 110) (add_nonneg hS hr0) hT
      (by rw [div_le_iff₀ (by positivity)]; linarith) (by
        have : (62 : ℝ) * (1 / 2 ^ 109) + 1 / 2 ^ 120 + 1 / 2 ^ 110 ≤ 1 / 2 ^ 100 := by norm_num
        linarith) hA
      (he.trans (by
        have : (16 : ℝ) / 2 ^ 24 ≤ (16 + 4 * (k : ℝ) + 2) / 2 ^ 24 := by gcongr <;> linarith
        gcongr))
    refine h.trans ?_
    have e1 : (16 + 4 * (k : ℝ) + 2) / 2 ^ 24 + 2 / 2 ^ 24 = (16 + 4 * ((k + 1 : Nat) : ℝ)) / 2 ^ 24 := by
      push_cast; ring
    rw [e1]
    have n : (1 : ℝ) / 2 ^ 120 + 1 / 2 ^ 110 + 1 / 2 ^ 120 ≤ 1 / 2 ^ 109 := by norm_num
    have e2 : ((k + 1 : Nat) : ℝ) * (1 / 2 ^ 109) = k * (1 / 2 ^ 109) + 1 / 2 ^ 109 := by push_cast; ring
    rw [e2]
    linarith
  -- the two ways to get there
  have plain : |val C - (S + 0)| ≤ (16 + 4 * (k : ℝ) + 2) / 2 ^ 24 * (S + 0) + (k * (1 / 2 ^ 109) + 1 / 2 ^ 120) := by
    rw [add_zero]
    refine hC.trans ?_
    have n1 : (16 + 4 * (k : ℝ)) / 2 ^ 24 ≤ (16 + 4 * (k : ℝ) + 2) / 2 ^ 24 :=
      div_le_div_of_nonneg_right (by linarith) (by positivity)
    have n2 : (0 : ℝ) ≤ 1 / 2 ^ 120 := by positivity
    have := mul_le_mul_of_nonneg_right n1 hS
    linarith
  have rated : ∀ (R : Int) (r : ℝ), 0 ≤ r → |val R - r| ≤ 16 / 2 ^ 24 * r →
      |val (F32.add C R) - (S + r)| ≤ (16 + 4 * (k : ℝ) + 2) / 2 ^ 24 * (S + r) + (k * (1 / 2 ^ 109) + 1 / 2 ^ 120) := by
    intro R r hr0 hR
    have h := add_step (δ' := 0) hS hr0 hη (by
        have : (62 : ℝ) * (1 / 2 ^ 109) + 0 ≤ 1 / 2 ^ 100 := by norm_num
        linarith) hC (hR.trans (by
          have := mul_le_mul_of_nonneg_right h16 hr0
          linarith))
    refine h.trans (le_of_eq ?_)
    ring
  have her : errR (c1, F32.ofInt (q : Nat)) v = (val c1 - v * q) ^ 2 := by
    rw [errR, ofInt_val q2]
    rfl
  by_cases h0 : v = 0
  · by_cases h15 : run = 15
    · simp only [step, stepR, if_pos h0, if_pos h15, her, true_and]
      exact key _ 10 (by norm_num) (rated (F32.lit 10 1) 10 (by norm_num) (by rw [val_lit_ten]; norm_num))
    · simp only [step, stepR, if_pos h0, if_neg h15, her, true_and]
      exact key _ 0 (le_refl _) plain
  · have hs : size v < 16 := by
      have hv : v.natAbs < 2 ^ 15 := by
        have : v.natAbs ≤ v.natAbs * q := Nat.le_mul_of_pos_right _ q1
        omega
      have hcat : category v = size v := rfl
      have := category_le (n := 15) hv
      omega
    have hr0 : 0 ≤ codeBits run (size v) + size v := by
      have := codeBits_ge run (size v)
      have : (0 : ℝ) ≤ size v := Nat.cast_nonneg _
      linarith
    simp only [step, stepR, if_neg h0, her, true_and]
    exact key _ _ hr0 (rated _ _ hr0 (rate_real hr hs))

/-- The bits and the error still to come, after one more value. -/
theorem stepR_rest (weight : ℝ) (c : Int × Int) (cs : List (Int × Int)) (run : Nat) (S : ℝ) (v : Int) (vs : List Int) :
    (stepR weight c (run, S) v).2 + bits (stepR weight c (run, S) v).1 vs + weight * squares cs vs =
      S + bits run (v :: vs) + weight * squares (c :: cs) (v :: vs) := by
  have hsq : squares (c :: cs) (v :: vs) = errR c v + squares cs vs := rfl
  rw [hsq, bits]
  unfold stepR
  split
  · split <;> simp only <;> ring
  · simp only; ring

theorem fold_real {lambda : Int} (hl : 0 ≤ val lambda) (hl' : val lambda ≤ 1024) (coefs : List (Int × Int))
    (values : List Int) (hf : ∀ c ∈ coefs, Fine c) (ha : AllowedSeq coefs values) (run : Nat) (hr : run < 16) (C : Int)
    (S : ℝ) (hS : 0 ≤ S) (k : Nat) (hk : k + coefs.length ≤ 63)
    (hC : |val C - S| ≤ (16 + 4 * k) / 2 ^ 24 * S + k * (1 / 2 ^ 109)) :
    |val (finish ((coefs.zip values).foldl (fun s p => step lambda p.1 s p.2) (run, C))) - (S + bits run values + val lambda * squares coefs values)| ≤
      1 / 2 ^ 15 * (S + bits run values + val lambda * squares coefs values) + 1 / 2 ^ 100 := by
  induction coefs generalizing values run C S k with
  | nil =>
    have hv : values = [] := List.length_eq_zero_iff.mp ha.1
    subst hv
    have hk' : (k : ℝ) ≤ 63 := by exact_mod_cast (by simpa using hk : k ≤ 63)
    have hk0 : (0 : ℝ) ≤ k := Nat.cast_nonneg k
    simp only [List.zip_nil_left, List.foldl_nil, squares, bits, mul_zero, add_zero]
    by_cases h0 : 0 < run
    · have ef : finish (run, C) = F32.add C (F32.lit 4 1) := by unfold finish; rw [if_pos h0]
      rw [ef, if_pos h0]
      have h := add_step (T := F32.lit 4 1) (t := 4) (δ' := 0) hS (by norm_num) (η := (16 + 4 * k) / 2 ^ 24)
        (δ := k * (1 / 2 ^ 109)) (by rw [div_le_iff₀ (by positivity)]; linarith)
        (by calc _ ≤ (63 : ℝ) * (1 / 2 ^ 109) + 0 := by gcongr
              _ ≤ _ := by norm_num) hC
        (by rw [val_lit_four, sub_self, abs_zero]; positivity)
      refine h.trans ?_
      have n1 : (16 + 4 * (k : ℝ)) / 2 ^ 24 + 2 / 2 ^ 24 ≤ 1 / 2 ^ 15 := by
        rw [← add_div, div_le_div_iff₀ (by positivity) (by positivity)]; linarith
      have n2 : (k : ℝ) * (1 / 2 ^ 109) + 0 + 1 / 2 ^ 120 ≤ 1 / 2 ^ 100 := by
        calc _ ≤ (63 : ℝ) * (1 / 2 ^ 109) + 0 + 1 / 2 ^ 120 := by gcongr
          _ ≤ _ := by norm_num
      have : 0 ≤ S + 4 := by linarith
      gcongr
    · have ef : finish (run, C) = C := by unfold finish; rw [if_neg h0]
      rw [ef, if_neg h0, add_zero]
      refine hC.trans ?_
      have n1 : (16 + 4 * (k : ℝ)) / 2 ^ 24 ≤ 1 / 2 ^ 15 := by
        rw [div_le_div_iff₀ (by positivity) (by positivity)]; linarith
      have n2 : (k : ℝ) * (1 / 2 ^ 109) ≤ 1 / 2 ^ 100 := by
        calc _ ≤ (63 : ℝ) * (1 / 2 ^ 109) := by gcongr
          _ ≤ _ := by norm_num
      gcongr
  | cons c cs ih =>
    cases values with
    | nil => have := ha.1; simp at this
    | cons v vs =>
      have hav := ha.2 (c, v) (by simp)
      have ha' : AllowedSeq cs vs := ⟨by simpa using ha.1, fun p hp => ha.2 p (by simp [hp])⟩
      have hk1 : k + 1 + cs.length ≤ 63 := by rw [List.length_cons] at hk; omega
      obtain ⟨h1, h2⟩ := step_real hl hl' (hf c List.mem_cons_self) hav hr hS (by omega) hC
      have h := ih vs (fun d hd => hf d (List.mem_cons_of_mem _ hd)) ha' (stepR (val lambda) c (run, S) v).1 (stepR_run hr)
        (step lambda c (run, C) v).2 (stepR (val lambda) c (run, S) v).2 (stepR_nonneg hl hS) (k + 1) hk1 h2
      rw [stepR_rest] at h
      rw [← h1] at h
      simpa only [List.zip_cons_cons, List.foldl_cons] using h

/-- The cost the search compares is the real one, up to a share of `2^-15`. -/
theorem price_real {lambda : Int} (hl : 0 ≤ val lambda) (hl' : val lambda ≤ 1024) {coefs : List (Int × Int)}
    {values : List Int} (hf : ∀ c ∈ coefs, Fine c) (ha : AllowedSeq coefs values) (hk : coefs.length ≤ 63) :
    |val (price lambda coefs values) - total (val lambda) coefs values| ≤
      1 / 2 ^ 15 * total (val lambda) coefs values + 1 / 2 ^ 100 := by
  have h := fold_real hl hl' coefs values hf ha 0 (by omega) 0 0 (le_refl _) 0 (by omega) (by simp [val])
  simp only [zero_add] at h
  unfold total
  exact h

end Pixo.Jpeg
