import Verif.Spec.T81Real
import Verif.Proof.JpegDct
import Mathlib.Tactic.IntervalCases
import Mathlib.Algebra.BigOperators.Field
/-
The transform of the code against the real DCT.
-/
namespace Pixo.Jpeg
open Real Spec.T81

/-! ### Cosines of the multiples of π/16 -/

theorem le_of_sq {l x : ℝ} (hl : 0 ≤ l) (hx : 0 ≤ x) (h : l ^ 2 ≤ x ^ 2) : l ≤ x := by
  exact (pow_le_pow_iff_left₀ hl hx (by norm_num)).1 h

/-- Half angles: from bounds of `cos (2 a)` to bounds of `cos a`. -/
theorem half_bounds {a l h p q : ℝ} (ha : 0 ≤ cos a) (hp : 0 ≤ p) (hq : 0 ≤ q) (h2 : l ≤ cos (2 * a)) (h3 : cos (2 * a) ≤ h)
    (hpl : p ^ 2 ≤ (1 + l) / 2) (hqh : (1 + h) / 2 ≤ q ^ 2) : p ≤ cos a ∧ cos a ≤ q := by
  have e : cos a ^ 2 = (1 + cos (2 * a)) / 2 := by rw [cos_two_mul]; ring
  constructor
  · apply le_of_sq hp ha; rw [e]; linarith
  · apply le_of_sq ha hq; rw [e]; linarith

/-- `cos (n π / 16)` times `10^9`, rounded. -/
def cosTable : List Int := [1000000000, 980785280, 923879533, 831469612, 707106781, 555570233, 382683432, 195090322,
  0, -195090322, -382683432, -555570233, -707106781, -831469612, -923879533, -980785280,
  -1000000000, -980785280, -923879533, -831469612, -707106781, -555570233, -382683432, -195090322,
  0, 195090322, 382683432, 555570233, 707106781, 831469612, 923879533, 980785280]

theorem cos_small : ∀ n : Nat, n ≤ 8 → |cos (n * π / 16) * 10 ^ 9 - (cosTable.getD n 0 : Int)| ≤ 1 := by
  have hpos : ∀ a : ℝ, 0 ≤ a → a ≤ π / 2 → 0 ≤ cos a := fun a h1 h2 =>
    cos_nonneg_of_neg_pi_div_two_le_of_le (by linarith [pi_pos]) h2
  have hpi := pi_pos
  have c8 : cos (2 * (π / 4)) = 0 := by rw [show 2 * (π / 4) = π / 2 by ring]; exact cos_pi_div_two
  have c4 := half_bounds (a := π / 4) (l := 0) (h := 0) (p := 0.707106781186547) (q := 0.707106781186548)
    (hpos _ (by linarith) (by linarith)) (by norm_num) (by norm_num) c8.ge c8.le (by norm_num) (by norm_num)
  have e2 : cos (2 * (π / 8)) = cos (π / 4) := by congr 1; ring
  have c2 := half_bounds (a := π / 8) (l := 0.707106781186547) (h := 0.707106781186548) (p := 0.92387953251128)
    (q := 0.92387953251129) (hpos _ (by linarith) (by linarith)) (by norm_num) (by norm_num) (by rw [e2]; exact c4.1)
    (by rw [e2]; exact c4.2) (by norm_num) (by norm_num)
  have e6 : cos (2 * (3 * π / 8)) = -cos (π / 4) := by rw [← cos_pi_sub]; congr 1; ring
  have c6 := half_bounds (a := 3 * π / 8) (l := -0.707106781186548) (h := -0.707106781186547) (p := 0.3826834323650)
    (q := 0.3826834323652) (hpos _ (by linarith) (by linarith)) (by norm_num) (by norm_num) (by rw [e6]; linarith)
    (by rw [e6]; linarith) (by norm_num) (by norm_num)
  have e1 : cos (2 * (π / 16)) = cos (π / 8) := by congr 1; ring
  have c1 := half_bounds (a := π / 16) (l := 0.92387953251128) (h := 0.92387953251129) (p := 0.98078528040)
    (q := 0.98078528041) (hpos _ (by linarith) (by linarith)) (by norm_num) (by norm_num) (by rw [e1]; exact c2.1)
    (by rw [e1]; exact c2.2) (by norm_num) (by norm_num)
  have e3 : cos (2 * (3 * π / 16)) = cos (3 * π / 8) := by congr 1; ring
  have c3 := half_bounds (a := 3 * π / 16) (l := 0.3826834323650) (h := 0.3826834323652) (p := 0.83146961230)
    (q := 0.83146961231) (hpos _ (by linarith) (by linarith)) (by norm_num) (by norm_num) (by rw [e3]; exact c6.1)
    (by rw [e3]; exact c6.2) (by norm_num) (by norm_num)
  have e5 : cos (2 * (5 * π / 16)) = -cos (3 * π / 8) := by rw [← cos_pi_sub]; congr 1; ring
  have c5 := half_bounds (a := 5 * π / 16) (l := -0.3826834323652) (h := -0.3826834323650) (p := 0.55557023301)
    (q := 0.55557023302) (hpos _ (by linarith) (by linarith)) (by norm_num) (by norm_num) (by rw [e5]; linarith)
    (by rw [e5]; linarith) (by norm_num) (by norm_num)
  have e7 : cos (2 * (7 * π / 16)) = -cos (π / 8) := by rw [← cos_pi_sub]; congr 1; ring
  have c7 := half_bounds (a := 7 * π / 16) (l := -0.92387953251129) (h := -0.92387953251128) (p := 0.19509032200)
    (q := 0.19509032204) (hpos _ (by linarith) (by linarith)) (by norm_num) (by norm_num) (by rw [e7]; linarith)
    (by rw [e7]; linarith) (by norm_num) (by norm_num)
  intro n hn
  rw [abs_le]
  interval_cases n <;> simp only [cosTable, List.getD_cons_zero, List.getD_cons_succ] <;> push_cast
  · rw [show (0 : ℝ) * π / 16 = 0 by ring, cos_zero]; norm_num
  · rw [show (1 : ℝ) * π / 16 = π / 16 by ring]; constructor <;> linarith [c1.1, c1.2]
  · rw [show (2 : ℝ) * π / 16 = π / 8 by ring]; constructor <;> linarith [c2.1, c2.2]
  · constructor <;> linarith [c3.1, c3.2]
  · rw [show (4 : ℝ) * π / 16 = π / 4 by ring]; constructor <;> linarith [c4.1, c4.2]
  · constructor <;> linarith [c5.1, c5.2]
  · rw [show (6 : ℝ) * π / 16 = 3 * π / 8 by ring]; constructor <;> linarith [c6.1, c6.2]
  · constructor <;> linarith [c7.1, c7.2]
  · rw [show (8 : ℝ) * π / 16 = π / 2 by ring, cos_pi_div_two]; norm_num

theorem cosTable_sym (n : Nat) (h : n ≤ 8) : cosTable.getD (16 - n) 0 = -cosTable.getD n 0 := by
  have : ∀ n ∈ List.range 9, cosTable.getD (16 - n) 0 = -cosTable.getD n 0 := by decide
  exact this n (by simp; omega)

theorem cosTable_half (n : Nat) (h : n < 16) : cosTable.getD (n + 16) 0 = -cosTable.getD n 0 := by
  have : ∀ n ∈ List.range 16, cosTable.getD (n + 16) 0 = -cosTable.getD n 0 := by decide
  exact this n (by simp; omega)

theorem cos_16 (n : Nat) (h : n < 16) : |cos (n * π / 16) * 10 ^ 9 - (cosTable.getD n 0 : Int)| ≤ 1 := by
  by_cases h8 : n ≤ 8
  · exact cos_small n h8
  · have := cos_small (16 - n) (by omega)
    have hs := cosTable_sym (16 - n) (by omega)
    rw [show 16 - (16 - n) = n by omega] at hs
    rw [hs]
    have e : cos (n * π / 16) = -cos (((16 - n : Nat) : ℝ) * π / 16) := by
      rw [← cos_pi_sub, Nat.cast_sub (by omega)]; congr 1; push_cast; ring
    rw [e]
    push_cast
    rw [show -cos (((16 - n : Nat) : ℝ) * π / 16) * 10 ^ 9 - -((cosTable.getD (16 - n) 0 : Int) : ℝ) =
      -(cos (((16 - n : Nat) : ℝ) * π / 16) * 10 ^ 9 - ((cosTable.getD (16 - n) 0 : Int) : ℝ)) by ring, abs_neg]
    exact this

theorem cos_32 (n : Nat) (h : n < 32) : |cos (n * π / 16) * 10 ^ 9 - (cosTable.getD n 0 : Int)| ≤ 1 := by
  by_cases h8 : n < 16
  · exact cos_16 n h8
  · obtain ⟨m, rfl⟩ : ∃ m, n = m + 16 := ⟨n - 16, by omega⟩
    rw [cosTable_half m (by omega)]
    have e : cos (((m + 16 : Nat) : ℝ) * π / 16) = -cos (m * π / 16) := by
      rw [← cos_add_pi]; congr 1; push_cast; ring
    rw [e]
    push_cast
    rw [show -cos (m * π / 16) * 10 ^ 9 - -((cosTable.getD m 0 : Int) : ℝ) =
      -(cos (m * π / 16) * 10 ^ 9 - ((cosTable.getD m 0 : Int) : ℝ)) by ring, abs_neg]
    exact cos_16 m (by omega)

theorem cos_all (n : Nat) : |cos (n * π / 16) * 10 ^ 9 - (cosTable.getD (n % 32) 0 : Int)| ≤ 1 := by
  have e : cos (n * π / 16) = cos (((n % 32 : Nat) : ℝ) * π / 16) := by
    rw [← cos_add_nat_mul_two_pi (((n % 32 : Nat) : ℝ) * π / 16) (n / 32)]
    congr 1
    have : ((n % 32 : Nat) : ℝ) + 32 * ((n / 32 : Nat) : ℝ) = n := by exact_mod_cast Nat.mod_add_div n 32
    rw [← this]; ring
  rw [e]
  exact cos_32 _ (Nat.mod_lt _ (by decide))

/-! ### The linear form -/

/-- Entry of the one dimensional transform. -/
noncomputable def kern (u x : Nat) : ℝ := 1 / 2 * dctC u * cos ((2 * x + 1) * u * π / 16)

/-- `kern u x = cos (kernAngle u x π / 16) / 2`. -/
def kernAngle (u x : Nat) : Nat := if u = 0 then 4 else (2 * x + 1) * u

theorem kern_eq (u x : Nat) : kern u x = cos (kernAngle u x * π / 16) / 2 := by
  unfold kern kernAngle dctC
  by_cases h : u = 0
  · subst h
    simp only [if_true]
    rw [show ((2 * (x : ℝ) + 1) * ((0 : Nat) : ℝ) * π / 16) = 0 by push_cast; ring, cos_zero,
      show ((4 : Nat) : ℝ) * π / 16 = π / 4 by push_cast; ring, cos_pi_div_four]
    have h2 : √2 * √2 = (2 : ℝ) := mul_self_sqrt (by norm_num)
    have h0 : √2 ≠ (0 : ℝ) := by positivity
    field_simp
    nlinarith
  · simp only [if_neg h]
    push_cast
    ring

/-- Entry of the linear form of the code. -/
def linT (u x : Nat) : Int := (linTable.getD u []).getD x 0

theorem linT_check : ∀ u ∈ List.range 8, ∀ x ∈ List.range 8,
    (linT u x * (2 * 10 ^ 9) - cosTable.getD (kernAngle u x % 32) 0 * 2 ^ 50).natAbs ≤ 239 * 2 ^ 50 := by
  decide +kernel

theorem linT_kern (u x : Nat) (hu : u < 8) (hx : x < 8) :
    |(linT u x : ℝ) / 2 ^ 50 - kern u x| ≤ 12 / 10 ^ 8 := by
  have h := linT_check u (by simpa using hu) x (by simpa using hx)
  have hc := cos_all (kernAngle u x)
  rw [kern_eq]
  generalize cos _ = c at *
  generalize cosTable.getD _ 0 = t at *
  generalize linT u x = L at *
  have h2 : |((L * (2 * 10 ^ 9) - t * 2 ^ 50 : Int) : ℝ)| ≤ 239 * 2 ^ 50 := by
    rw [← Int.cast_abs, Int.abs_eq_natAbs]
    exact_mod_cast h
  push_cast at h2
  rw [abs_le] at *
  constructor <;> linarith [h2.1, h2.2, hc.1, hc.2]

theorem kern_abs (u x : Nat) : |kern u x| ≤ 1 / 2 := by
  rw [kern_eq, abs_div, abs_two]
  have := abs_cos_le_one (kernAngle u x * π / 16)
  linarith

/-- The transform separates. -/
theorem fdct_eq (s : Nat → Nat → ℝ) (v u : Nat) :
    fdct s v u = ∑ y ∈ Finset.range 8, kern v y * ∑ x ∈ Finset.range 8, kern u x * s y x := by
  unfold fdct kern
  rw [Finset.sum_comm, Finset.mul_sum]
  apply Finset.sum_congr rfl
  intro y _
  rw [Finset.mul_sum, Finset.mul_sum]
  apply Finset.sum_congr rfl
  intro x _
  ring

theorem lin_sum (k : Nat) (f : Nat → Int) : lin k f = ∑ i ∈ Finset.range 8, linT k i * f i := by
  simp only [Finset.sum_range_succ, Finset.sum_range_zero, lin, linT]
  ring

/-- One pass of the code, in reals. -/
theorem pass_real (f : Nat → Int) (M : ℝ) (hM : M ≤ 364) (h : ∀ i < 8, |(f i : ℝ) / 2 ^ 149| ≤ M) (k : Nat) (hk : k < 8) :
    |((aanOf f).getD k 0 : ℝ) / 2 ^ 149 - ∑ i ∈ Finset.range 8, kern k i * ((f i : ℝ) / 2 ^ 149)| ≤
      1 / 128 + 1 / 10 ^ 6 * M := by
  have hb : ∀ i < 8, -inMax ≤ f i ∧ f i ≤ inMax := by
    intro i hi
    have := (h i hi).trans hM
    rw [abs_div, abs_of_pos (show (0 : ℝ) < 2 ^ 149 by positivity), div_le_iff₀ (by positivity), abs_le] at this
    unfold inMax
    constructor
    · have h1 := this.1
      have : ((-(364 * 2 ^ 149) : Int) : ℝ) ≤ (f i : ℝ) := by push_cast; linarith
      exact_mod_cast this
    · have h1 := this.2
      have : (f i : ℝ) ≤ ((364 * 2 ^ 149 : Int) : ℝ) := by push_cast; linarith
      exact_mod_cast this
  obtain ⟨_, hl⟩ := aan_linear f hb
  have hl := hl k hk
  rw [lin_sum] at hl
  generalize (aanOf f).getD k 0 = X at *
  have h1 : |((X * 2 ^ 50 - ∑ i ∈ Finset.range 8, linT k i * f i : Int) : ℝ)| ≤ 2 ^ 192 := by
    rw [← Int.cast_abs]
    have : |X * 2 ^ 50 - ∑ i ∈ Finset.range 8, linT k i * f i| ≤ passErr := abs_le.2 hl
    have h2 : (passErr : Int) = 2 ^ 192 := by decide +kernel
    rw [h2] at this
    exact_mod_cast this
  push_cast at h1
  have h2 : |(X : ℝ) / 2 ^ 149 - ∑ i ∈ Finset.range 8, (linT k i : ℝ) / 2 ^ 50 * ((f i : ℝ) / 2 ^ 149)| ≤ 1 / 128 := by
    have e : (X : ℝ) / 2 ^ 149 - ∑ i ∈ Finset.range 8, (linT k i : ℝ) / 2 ^ 50 * ((f i : ℝ) / 2 ^ 149) =
        (X * 2 ^ 50 - ∑ i ∈ Finset.range 8, (linT k i : ℝ) * f i) / 2 ^ 199 := by
      rw [sub_div, Finset.sum_div]
      congr 1
      · rw [div_eq_div_iff (by positivity) (by positivity)]; ring
      · apply Finset.sum_congr rfl
        intro i _
        rw [div_mul_div_comm, ← pow_add]
    rw [e, abs_div, abs_of_pos (show (0 : ℝ) < 2 ^ 199 by positivity), div_le_iff₀ (by positivity)]
    norm_num at h1 ⊢
    exact h1
  have h3 : |∑ i ∈ Finset.range 8, (linT k i : ℝ) / 2 ^ 50 * ((f i : ℝ) / 2 ^ 149) -
      ∑ i ∈ Finset.range 8, kern k i * ((f i : ℝ) / 2 ^ 149)| ≤ 8 * (12 / 10 ^ 8 * M) := by
    rw [← Finset.sum_sub_distrib]
    calc _ ≤ ∑ i ∈ Finset.range 8, |(linT k i : ℝ) / 2 ^ 50 * ((f i : ℝ) / 2 ^ 149) - kern k i * ((f i : ℝ) / 2 ^ 149)| :=
          Finset.abs_sum_le_sum_abs _ _
      _ ≤ ∑ i ∈ Finset.range 8, 12 / 10 ^ 8 * M := by
          apply Finset.sum_le_sum
          intro i hi
          rw [Finset.mem_range] at hi
          rw [← sub_mul, abs_mul]
          exact mul_le_mul (linT_kern k i hk hi) (h i hi) (abs_nonneg _) (by norm_num)
      _ = _ := by rw [Finset.sum_const, Finset.card_range, nsmul_eq_mul]; norm_num
  have h0 : 0 ≤ M := (abs_nonneg _).trans (h 0 (by decide))
  have := abs_sub_le ((X : ℝ) / 2 ^ 149) (∑ i ∈ Finset.range 8, (linT k i : ℝ) / 2 ^ 50 * ((f i : ℝ) / 2 ^ 149))
    (∑ i ∈ Finset.range 8, kern k i * ((f i : ℝ) / 2 ^ 149))
  linarith

/-- The samples of a block as reals. -/
noncomputable def realBlock (b : List Int) (y x : Nat) : ℝ := ((b.getD (y * 8 + x) 0 : Int) : ℝ) / 2 ^ 149

theorem row_range (b : List Int) (hb : ∀ i < 64, smLo ≤ b.getD i 0 ∧ b.getD i 0 ≤ smHi) (row u : Nat) (hr : row < 8)
    (hu : u < 8) : -inMax ≤ (aanOf (fun k => b.getD (row * 8 + k) 0)).getD u 0 ∧
      (aanOf (fun k => b.getD (row * 8 + k) 0)).getD u 0 ≤ inMax := by
  have hp : Pass smLo smHi (128 * 2 ^ 149 + 2 ^ 139) (aanOf (fun k => b.getD (row * 8 + k) 0)) :=
    aanOf_pass _ _ _ _ (by decide +kernel) (by decide +kernel) (by decide +kernel) (fun k hk => hb _ (by omega))
  generalize aanOf _ = X at hp
  have e0 := hp.dc
  have e4 := hp.mid
  have er := hp.rest u hu
  simp only [smLo, smHi, passErr, err, inMax] at *
  by_cases hv0 : u = 0
  · subst hv0; omega
  · by_cases hv4 : u = 4
    · subst hv4; omega
    · have := er hv0 hv4; omega

/-- The transform of the code is within a twentieth of the real one. -/
theorem dct2d_fdct (b : List Int) (hb : ∀ i < 64, smLo ≤ b.getD i 0 ∧ b.getD i 0 ≤ smHi) (v u : Nat) (hv : v < 8)
    (hu : u < 8) : |(((dct2d b).getD (v * 8 + u) 0 : Int) : ℝ) / 2 ^ 149 - fdct (realBlock b) v u| ≤ 1 / 20 := by
  rw [dct2d_getD b _ (by omega), show (v * 8 + u) % 8 = u by omega, show (v * 8 + u) / 8 = v by omega, fdct_eq]
  have toR : ∀ {x M : Int}, -M ≤ x → x ≤ M → |(x : ℝ) / 2 ^ 149| ≤ (M : ℝ) / 2 ^ 149 := by
    intro x M h1 h2
    rw [abs_div, abs_of_pos (show (0 : ℝ) < 2 ^ 149 by positivity)]
    apply div_le_div_of_nonneg_right _ (by positivity)
    rw [← Int.cast_abs]
    exact_mod_cast abs_le.2 ⟨h1, h2⟩
  have e364 : ((inMax : Int) : ℝ) / 2 ^ 149 = 364 := by unfold inMax; push_cast; norm_num
  have hcol := pass_real (fun row => (aanOf (fun k => b.getD (row * 8 + k) 0)).getD u 0) 364 le_rfl (by
    intro i hi
    obtain ⟨h1, h2⟩ := row_range b hb i u hi hu
    rw [← e364]
    exact toR h1 h2) v hv
  have hrow : ∀ y < 8, |((aanOf (fun k => b.getD (y * 8 + k) 0)).getD u 0 : ℝ) / 2 ^ 149 -
      ∑ x ∈ Finset.range 8, kern u x * realBlock b y x| ≤ 1 / 128 + 1 / 10 ^ 6 * 129 := by
    intro y hy
    refine pass_real (fun k => b.getD (y * 8 + k) 0) 129 (by norm_num) ?_ u hu
    intro i hi
    have := hb (y * 8 + i) (by omega)
    refine (toR (M := 129 * 2 ^ 149) ?_ ?_).trans ?_
    · simp only [smLo, smHi] at this; omega
    · simp only [smLo, smHi] at this; omega
    · push_cast; norm_num
  have hsum : |∑ y ∈ Finset.range 8, kern v y * (((aanOf (fun k => b.getD (y * 8 + k) 0)).getD u 0 : ℝ) / 2 ^ 149) -
      ∑ y ∈ Finset.range 8, kern v y * ∑ x ∈ Finset.range 8, kern u x * realBlock b y x| ≤
      8 * (1 / 2 * (1 / 128 + 1 / 10 ^ 6 * 129)) := by
    rw [← Finset.sum_sub_distrib]
    calc _ ≤ ∑ y ∈ Finset.range 8, |kern v y * (((aanOf (fun k => b.getD (y * 8 + k) 0)).getD u 0 : ℝ) / 2 ^ 149) -
          kern v y * ∑ x ∈ Finset.range 8, kern u x * realBlock b y x| := Finset.abs_sum_le_sum_abs _ _
      _ ≤ ∑ y ∈ Finset.range 8, 1 / 2 * (1 / 128 + 1 / 10 ^ 6 * 129) := by
          apply Finset.sum_le_sum
          intro i hi
          rw [Finset.mem_range] at hi
          rw [← mul_sub, abs_mul]
          exact mul_le_mul (kern_abs v i) (hrow i hi) (abs_nonneg _) (by norm_num)
      _ = _ := by rw [Finset.sum_const, Finset.card_range, nsmul_eq_mul]; norm_num
  refine (abs_sub_le _ _ _).trans ((add_le_add hcol hsum).trans ?_)
  norm_num

end Pixo.Jpeg
