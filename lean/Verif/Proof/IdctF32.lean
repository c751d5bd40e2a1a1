import Verif.Model.IdctF32
import Verif.Proof.IdctReal
import Verif.Proof.F32Order
/-
The floating-point inverse transform against the real inverse DCT.
-/
namespace Pixo.IdctF32
open Real Spec.T81 Pixo.Jpeg

/-! ### The table -/

/-- The table of cosines, in units of `2^-28`. -/
def cosI : List (List Int) :=
  [[268435456, 263277552, 248002016, 223195920, 189812528, 149134816, 102726176, 52370884],
   [268435456, 223195920, 102726176, -52347708, -189438336, -259872080, -246279728, -148976944],
   [268435456, 149134816, -102664608, -259872080, -189438336, 52370884, 248002016, 223195904],
   [268435456, 52370884, -246279728, -148976944, 189812576, 223195904, -102664688, -259872096],
   [268435456, -52347708, -246279728, 149134848, 189812576, -222368720, -102664560, 263277568],
   [268435456, -148976992, -102664560, 263277552, -189438432, -52347764, 248002016, -222368720],
   [268435456, -222368720, 102726176, 52370884, -189438336, 263277568, -246279776, 149134848],
   [268435456, -259872080, 248002016, -222368720, 189812464, -148977184, 102726056, -52347644]]

def cosAt (n k : Nat) : Int := (cosI.getD n []).getD k 0

/-- The factors `ALPHA`, in units of `2^-25`. -/
def alphaI (k : Nat) : Int := if k = 0 then 23726566 else 2 ^ 25

/-- The table as the code has it. -/
def cosT : List (List Int) := cosI.map fun r => r.map (· * 2 ^ 121)

theorem cosTable_eq : cosTable = .ok cosT := by
  have h : cosTable.toOption = some cosT := by decide +kernel
  cases hc : cosTable with
  | ok a => rw [hc] at h; exact congrArg Except.ok (Option.some.inj h)
  | error e => rw [hc] at h; cases h

theorem cosT_getD (n k : Nat) (hn : n < 8) (hk : k < 8) :
    (cosT.getD n []).getD k 0 = cosAt n k * 2 ^ 121 := by
  have : ∀ n ∈ List.range 8, ∀ k ∈ List.range 8,
      (cosT.getD n []).getD k 0 = cosAt n k * 2 ^ 121 := by decide +kernel
  exact this n (by simpa using hn) k (by simpa using hk)

theorem alpha_getD (k : Nat) (hk : k < 8) : alpha.getD k 0 = alphaI k * 2 ^ 124 := by
  have : ∀ k ∈ List.range 8, alpha.getD k 0 = alphaI k * 2 ^ 124 := by decide +kernel
  exact this k (by simpa using hk)

/-! ### Operations in reals -/

/-- The value of an `f32`. -/
noncomputable def val (x : Int) : ℝ := (x : ℝ) / 2 ^ 149

theorem rnd_val {n : Int} {d k : Nat} (hd : 0 < d) (h : |(n : ℝ) / d| < 2 ^ (24 + k)) :
    |(F32.rndI n d : ℝ) - (n : ℝ) / d| ≤ 2 ^ k / 2 := by
  have hd' : (0 : ℝ) < d := by exact_mod_cast hd
  rw [abs_div, abs_of_pos hd', div_lt_iff₀ hd', abs_lt] at h
  have h1 : -((d * 2 ^ (24 + k) : Nat) : Int) < n := by
    have : ((-((d * 2 ^ (24 + k) : Nat) : Int) : Int) : ℝ) < (n : ℝ) := by push_cast; linarith [h.1]
    exact_mod_cast this
  have h2 : n < ((d * 2 ^ (24 + k) : Nat) : Int) := by
    have : (n : ℝ) < (((d * 2 ^ (24 + k) : Nat) : Int) : ℝ) := by push_cast; linarith [h.2]
    exact_mod_cast this
  obtain ⟨h3, h4⟩ := F32.rndI_err n d k hd ⟨h1, h2⟩
  generalize F32.rndI n d = r at *
  have h3' : 2 * ((r : ℝ) * d) ≤ 2 * n + d * 2 ^ k := by exact_mod_cast h3
  have h4' : 2 * (n : ℝ) ≤ 2 * ((r : ℝ) * d) + d * 2 ^ k := by exact_mod_cast h4
  have e : (r : ℝ) - n / d = (r * d - n) / d := by field_simp
  rw [e, abs_div, abs_of_pos hd', div_le_iff₀ hd', abs_le]
  constructor <;> linarith

theorem pow_split (k : Nat) : (2 : ℝ) ^ (149 + k) = 2 ^ 149 * 2 ^ k := pow_add _ _ _

theorem val_of {r : Int} {t e : ℝ} {k : Nat} (h : |(r : ℝ) - t| ≤ 2 ^ k / 2) (he : (2 : ℝ) ^ k / 2 = e * 2 ^ 149) :
    |val r - t / 2 ^ 149| ≤ e := by
  unfold val
  rw [← sub_div, abs_div, abs_of_pos (show (0 : ℝ) < 2 ^ 149 by positivity), div_le_iff₀ (by positivity), ← he]
  exact h

theorem add_val {x y : Int} (h : |val x + val y| < 2 ^ 15) : |val (F32.add x y) - (val x + val y)| ≤ 1 / 2 ^ 10 := by
  have e : val x + val y = ((x + y : Int) : ℝ) / 2 ^ 149 := by unfold val; push_cast; ring
  rw [e] at h ⊢
  unfold F32.add
  have h1 : |((x + y : Int) : ℝ) / (1 : Nat)| < 2 ^ (24 + 140) := by
    rw [abs_div, abs_of_pos (show (0 : ℝ) < 2 ^ 149 by positivity), div_lt_iff₀ (by positivity)] at h
    rw [Nat.cast_one, div_one]
    refine h.trans_eq ?_
    norm_num
  have h2 := rnd_val (d := 1) (by norm_num) h1
  rw [Nat.cast_one, div_one] at h2
  exact val_of h2 (by norm_num)

theorem mul_val {x y : Int} (j : Nat) (hj : j ≤ 15) (h : |val x * val y| < 2 ^ j) :
    |val (F32.mul x y) - val x * val y| ≤ 2 ^ j / 2 ^ 25 := by
  have e : val x * val y = ((x * y : Int) : ℝ) / 2 ^ 149 / 2 ^ 149 := by unfold val; push_cast; ring
  rw [e] at h ⊢
  unfold F32.mul
  have e2 : ((F32.one : Nat) : ℝ) = 2 ^ 149 := by rw [F32.one_eq]; norm_num
  have h1 : |((x * y : Int) : ℝ) / (F32.one : Nat)| < 2 ^ (24 + (125 + j)) := by
    rw [e2]
    rw [abs_div _ ((2 : ℝ) ^ 149), abs_of_pos (show (0 : ℝ) < 2 ^ 149 by positivity), div_lt_iff₀ (by positivity)] at h
    refine h.trans_eq ?_
    rw [← add_assoc, pow_add _ (24 + 125) j, mul_comm]
  have h2 := rnd_val F32.one_pos h1
  rw [e2] at h2
  refine val_of h2 ?_
  rw [pow_add]
  ring

/-! ### One pass -/

/-- The factors the code uses. -/
noncomputable def fac (n k : Nat) : ℝ := 1 / 2 * ((alphaI k : ℝ) / 2 ^ 25) * ((cosAt n k : ℝ) / 2 ^ 28)

theorem alpha_abs (k : Nat) : |(alphaI k : ℝ) / 2 ^ 25| ≤ 1 := by
  unfold alphaI
  split <;> norm_num [abs_of_pos]

theorem cosAt_abs (n k : Nat) (hn : n < 8) (hk : k < 8) : |(cosAt n k : ℝ) / 2 ^ 28| ≤ 1 := by
  have h : ∀ n ∈ List.range 8, ∀ k ∈ List.range 8, (cosAt n k).natAbs ≤ 2 ^ 28 := by decide +kernel
  have := h n (by simpa using hn) k (by simpa using hk)
  rw [abs_div, abs_of_pos (show (0 : ℝ) < 2 ^ 28 by positivity), div_le_one (by positivity), ← Int.cast_abs,
    Int.abs_eq_natAbs]
  exact_mod_cast this

theorem val_scale (a : Int) (j : Nat) (hj : j ≤ 149) : val (a * 2 ^ (149 - j)) = (a : ℝ) / 2 ^ j := by
  unfold val
  push_cast
  have : (2 : ℝ) ^ 149 = 2 ^ (149 - j) * 2 ^ j := by rw [← pow_add]; congr 1; omega
  rw [this]
  field_simp

theorem term_val {x : Int} {M : ℝ} (hM : M ≤ 4000) (hx : |val x| ≤ M) (n k : Nat) (hn : n < 8) (hk : k < 8) :
    |val (F32.mul (F32.mul (alphaI k * 2 ^ 124) x) (cosAt n k * 2 ^ 121)) - 2 * fac n k * val x| ≤ 1 / 2 ^ 12 := by
  have ha := alpha_abs k
  have hc := cosAt_abs n k hn hk
  have h1 := mul_val (x := alphaI k * 2 ^ 124) (y := x) 12 (by omega) (by
    rw [show (124 : Nat) = 149 - 25 from rfl, val_scale _ 25 (by omega), abs_mul]
    have := mul_le_mul ha hx (abs_nonneg _) zero_le_one
    norm_num at this ⊢
    linarith)
  rw [show (124 : Nat) = 149 - 25 from rfl, val_scale _ 25 (by omega)] at h1
  rw [show (124 : Nat) = 149 - 25 from rfl]
  generalize F32.mul (alphaI k * 2 ^ (149 - 25)) x = t at *
  have ht : |val t| ≤ 4001 := by
    have h2 : |(alphaI k : ℝ) / 2 ^ 25 * val x| ≤ 1 * M := by
      rw [abs_mul]; exact mul_le_mul ha hx (abs_nonneg _) zero_le_one
    have := abs_sub_abs_le_abs_sub (val t) ((alphaI k : ℝ) / 2 ^ 25 * val x)
    norm_num at h1 this h2
    linarith
  have h3 := mul_val (x := t) (y := cosAt n k * 2 ^ 121) 12 (by omega) (by
    rw [show (121 : Nat) = 149 - 28 from rfl, val_scale _ 28 (by omega), abs_mul]
    have := mul_le_mul ht hc (abs_nonneg _) (by norm_num)
    norm_num at this ⊢
    linarith)
  rw [show (121 : Nat) = 149 - 28 from rfl, val_scale _ 28 (by omega)] at h3
  rw [show (121 : Nat) = 149 - 28 from rfl]
  have h4 : |val t * ((cosAt n k : ℝ) / 2 ^ 28) - 2 * fac n k * val x| ≤ 2 ^ 12 / 2 ^ 25 := by
    have e : val t * ((cosAt n k : ℝ) / 2 ^ 28) - 2 * fac n k * val x =
        (val t - (alphaI k : ℝ) / 2 ^ 25 * val x) * ((cosAt n k : ℝ) / 2 ^ 28) := by unfold fac; ring
    rw [e, abs_mul]
    have := mul_le_mul h1 hc (abs_nonneg _) (by positivity)
    linarith
  refine (abs_sub_le _ _ _).trans ((add_le_add h3 h4).trans ?_)
  norm_num

theorem fac_abs (n k : Nat) (hn : n < 8) (hk : k < 8) : |fac n k| ≤ 1 / 2 := by
  unfold fac
  rw [abs_mul, abs_mul, abs_of_pos (show (0 : ℝ) < 1 / 2 by norm_num)]
  have := mul_le_mul (alpha_abs k) (cosAt_abs n k hn hk) (abs_nonneg _) zero_le_one
  rw [mul_assoc]
  linarith

theorem sum_val (f : Nat → Int) (M : ℝ) (hM : M ≤ 4000) (hf : ∀ i < 8, |val (f i)| ≤ M) (n : Nat) (hn : n < 8) :
    ∀ j ≤ 8, |val (sumLoop (cosT.getD n []) f j) -
        2 * ∑ k ∈ Finset.range j, fac n k * val (f k)| ≤ j * (5 / 2 ^ 12) ∧
      |2 * ∑ k ∈ Finset.range j, fac n k * val (f k)| ≤ j * M := by
  intro j
  induction j with
  | zero => intro _; simp [sumLoop, val]
  | succ j ih =>
    intro hj
    obtain ⟨h1, h2⟩ := ih (by omega)
    have hfj := hf j (by omega)
    have ht := term_val hM hfj n j hn (by omega)
    have hterm : |2 * fac n j * val (f j)| ≤ M := by
      rw [abs_mul, abs_mul, abs_two]
      have := mul_le_mul (fac_abs n j hn (by omega)) hfj (abs_nonneg _) (by norm_num)
      linarith
    have hj8 : (j : ℝ) ≤ 7 := by exact_mod_cast (by omega : j ≤ 7)
    have hM0 : 0 ≤ M := (abs_nonneg _).trans hfj
    have hjM : (j : ℝ) * M ≤ 7 * 4000 := mul_le_mul hj8 hM hM0 (by norm_num)
    rw [sumLoop, alpha_getD j (by omega), cosT_getD n j hn (by omega), Finset.sum_range_succ, mul_add]
    generalize sumLoop _ f j = S at *
    generalize F32.mul _ (cosAt n j * 2 ^ 121) = T at *
    generalize ∑ k ∈ Finset.range j, fac n k * val (f k) = s at *
    rw [← mul_assoc 2 (fac n j)]
    generalize 2 * fac n j * val (f j) = t at *
    rw [abs_le] at h1 h2 ht hterm
    have ha := add_val (x := S) (y := T) (by
      rw [abs_lt]
      norm_num at h1 h2 ht hterm ⊢
      constructor <;> linarith [h1.1, h1.2, h2.1, h2.2, ht.1, ht.2, hterm.1, hterm.2])
    rw [abs_le] at ha ⊢
    rw [abs_le]
    push_cast
    norm_num at h1 h2 ht hterm ha ⊢
    refine ⟨⟨?_, ?_⟩, ?_, ?_⟩ <;> linarith [h1.1, h1.2, h2.1, h2.2, ht.1, ht.2, hterm.1, hterm.2, ha.1, ha.2]

/-- One pass of the code, in reals. -/
theorem pass_val (f : Nat → Int) (M : ℝ) (hM : M ≤ 4000) (hf : ∀ i < 8, |val (f i)| ≤ M) (n : Nat) (hn : n < 8) :
    |val ((idct1d cosT f).getD n 0) - ∑ k ∈ Finset.range 8, fac n k * val (f k)| ≤
      3 / 500 := by
  unfold idct1d
  rw [getD_map_range 8 _ n 0 hn]
  obtain ⟨h1, h2⟩ := sum_val f M hM hf n hn 8 le_rfl
  have hM0 : 0 ≤ M := (abs_nonneg _).trans (hf 0 (by norm_num))
  generalize sumLoop _ f 8 = S at *
  generalize ∑ k ∈ Finset.range 8, fac n k * val (f k) = s at *
  have hh : val (F32.lit 1 2) = 1 / 2 := by
    rw [F32.lit_half]
    unfold val
    push_cast
    norm_num
  rw [abs_le] at h1 h2
  have h3 := mul_val (x := F32.lit 1 2) (y := S) 15 le_rfl (by
    rw [hh, abs_lt]
    norm_num at h1 h2 ⊢
    constructor <;> linarith [h1.1, h1.2, h2.1, h2.2])
  rw [hh, abs_le] at h3
  rw [abs_le]
  norm_num at h1 h2 h3 ⊢
  constructor <;> linarith [h1.1, h1.2, h2.1, h2.2, h3.1, h3.2]

/-! ### The factors against the cosines -/

/-- The table's entry for `kern k n` (times two). -/
def angI (k n : Nat) : Int := Jpeg.cosTable.getD (kernAngle k n % 32) 0

/-- `fac n k - kern k n` in units of `1 / (2 10^9 2^53)`. -/
def diffI (n k : Nat) : Int := alphaI k * cosAt n k * 10 ^ 9 - angI k n * 2 ^ 53

theorem kern_near (k n : Nat) : |kern k n - (angI k n : ℝ) / (2 * 10 ^ 9)| ≤ 1 / (2 * 10 ^ 9) := by
  have h := cos_all (kernAngle k n)
  rw [kern_eq]
  unfold angI
  generalize cos _ = c at *
  generalize Jpeg.cosTable.getD _ 0 = t at *
  rw [abs_le] at *
  norm_num at *
  constructor <;> linarith [h.1, h.2]

theorem diff_near (n k : Nat) : |fac n k - kern k n - (diffI n k : ℝ) / (2 * 10 ^ 9 * 2 ^ 53)| ≤ 1 / (2 * 10 ^ 9) := by
  have h := kern_near k n
  have e : fac n k - kern k n - (diffI n k : ℝ) / (2 * 10 ^ 9 * 2 ^ 53) = -(kern k n - (angI k n : ℝ) / (2 * 10 ^ 9)) := by
    unfold fac diffI
    push_cast
    ring
  rw [e, abs_neg]
  exact h

/-- How far the factors for sample `n` are from the exact ones, altogether, in units of `10^-6`. -/
def tolI (n : Nat) : Nat := [5, 10584, 7158, 9963, 4904, 2686, 5451, 8219].getD n 0

theorem diff_check : ∀ n ∈ List.range 8,
    (List.range 8).foldl (fun s k => s + (diffI n k).natAbs) 0 * 10 ^ 6 ≤ (tolI n * 2 * 10 ^ 9 - 8000000) * 2 ^ 53 := by
  decide +kernel

theorem foldl_sum (g : Nat → Nat) : (List.range 8).foldl (fun s k => s + g k) 0 = ∑ k ∈ Finset.range 8, g k := by
  simp only [Finset.sum_range_succ, Finset.sum_range_zero]
  rfl

theorem natAbs_cast (z : Int) : ((z.natAbs : Nat) : ℝ) = |(z : ℝ)| := by
  rw [← Int.cast_abs, Int.abs_eq_natAbs]; rfl

/-- The factors are near the exact ones. -/
theorem fac_kern (n : Nat) (hn : n < 8) : ∑ k ∈ Finset.range 8, |fac n k - kern k n| ≤ (tolI n : ℝ) / 10 ^ 6 := by
  have h := diff_check n (by simpa using hn)
  rw [foldl_sum] at h
  have h8 : 8000000 ≤ tolI n * 2 * 10 ^ 9 := by
    have : ∀ n ∈ List.range 8, 8000000 ≤ tolI n * 2 * 10 ^ 9 := by decide +kernel
    exact this n (by simpa using hn)
  have h' : (∑ k ∈ Finset.range 8, |(diffI n k : ℝ)|) * 10 ^ 6 ≤ ((tolI n : ℝ) * 2 * 10 ^ 9 - 8000000) * 2 ^ 53 := by
    have := (Nat.cast_le (α := ℝ)).2 h
    rw [Nat.cast_mul, Nat.cast_mul, Nat.cast_sub h8] at this
    push_cast [natAbs_cast] at this
    norm_num at this ⊢
    exact this
  calc ∑ k ∈ Finset.range 8, |fac n k - kern k n|
      ≤ ∑ k ∈ Finset.range 8, (|(diffI n k : ℝ)| / (2 * 10 ^ 9 * 2 ^ 53) + 1 / (2 * 10 ^ 9)) := by
        apply Finset.sum_le_sum
        intro k _
        have h1 := diff_near n k
        have h2 := abs_sub_abs_le_abs_sub (fac n k - kern k n) ((diffI n k : ℝ) / (2 * 10 ^ 9 * 2 ^ 53))
        rw [abs_div (diffI n k : ℝ), abs_of_pos (show (0 : ℝ) < 2 * 10 ^ 9 * 2 ^ 53 by positivity)] at h2
        linarith
    _ = (∑ k ∈ Finset.range 8, |(diffI n k : ℝ)|) / (2 * 10 ^ 9 * 2 ^ 53) + 8 * (1 / (2 * 10 ^ 9)) := by
        rw [Finset.sum_add_distrib, Finset.sum_div, Finset.sum_const, Finset.card_range, nsmul_eq_mul]; norm_num
    _ ≤ _ := by
        generalize ∑ k ∈ Finset.range 8, |(diffI n k : ℝ)| = s at *
        norm_num at h' ⊢
        linarith

/-- The largest gain of the exact transform. -/
theorem kern_gain (n : Nat) (hn : n < 8) : ∑ k ∈ Finset.range 8, |kern k n| ≤ 2.642 := by
  have hc : ∀ n ∈ List.range 8, (List.range 8).foldl (fun s k => s + (angI k n).natAbs) 0 ≤ 5283700000 := by decide +kernel
  have h := hc n (by simpa using hn)
  rw [foldl_sum] at h
  have h' : ∑ k ∈ Finset.range 8, |(angI k n : ℝ)| ≤ 5283700000 := by
    have := (Nat.cast_le (α := ℝ)).2 h
    push_cast [natAbs_cast] at this
    exact this
  calc ∑ k ∈ Finset.range 8, |kern k n|
      ≤ ∑ k ∈ Finset.range 8, (|(angI k n : ℝ)| / (2 * 10 ^ 9) + 1 / (2 * 10 ^ 9)) := by
        apply Finset.sum_le_sum
        intro k _
        have h1 := kern_near k n
        have h2 := abs_sub_abs_le_abs_sub (kern k n) ((angI k n : ℝ) / (2 * 10 ^ 9))
        rw [abs_div (angI k n : ℝ), abs_of_pos (show (0 : ℝ) < 2 * 10 ^ 9 by positivity)] at h2
        linarith
    _ = (∑ k ∈ Finset.range 8, |(angI k n : ℝ)|) / (2 * 10 ^ 9) + 8 * (1 / (2 * 10 ^ 9)) := by
        rw [Finset.sum_add_distrib, Finset.sum_div, Finset.sum_const, Finset.card_range, nsmul_eq_mul]; norm_num
    _ ≤ _ := by
        generalize ∑ k ∈ Finset.range 8, |(angI k n : ℝ)| = s at *
        norm_num
        linarith

/-- The same for the factors of the code. -/
theorem fac_gain (n : Nat) (hn : n < 8) : ∑ k ∈ Finset.range 8, |fac n k| ≤ 2.653 := by
  have h1 := fac_kern n hn
  have h2 := kern_gain n hn
  have h3 : (tolI n : ℝ) ≤ 10584 := by
    have : ∀ n ∈ List.range 8, tolI n ≤ 10584 := by decide +kernel
    exact_mod_cast this n (by simpa using hn)
  have h4 : ∑ k ∈ Finset.range 8, |fac n k| ≤ ∑ k ∈ Finset.range 8, (|fac n k - kern k n| + |kern k n|) := by
    apply Finset.sum_le_sum
    intro k _
    have := abs_add_le (fac n k - kern k n) (kern k n)
    rwa [sub_add_cancel] at this
  rw [Finset.sum_add_distrib] at h4
  norm_num at h1 h2 ⊢
  linarith

/-- A weighted sum of bounded values. -/
theorem sum_bound (w d : Nat → ℝ) (b : ℝ) (h : ∀ k < 8, |d k| ≤ b) :
    |∑ k ∈ Finset.range 8, w k * d k| ≤ (∑ k ∈ Finset.range 8, |w k|) * b := by
  refine (Finset.abs_sum_le_sum_abs _ _).trans ?_
  rw [Finset.sum_mul]
  apply Finset.sum_le_sum
  intro k hk
  rw [abs_mul]
  exact mul_le_mul_of_nonneg_left (h k (Finset.mem_range.1 hk)) (abs_nonneg _)

/-! ### Both passes -/

theorem idct2d_eq (block : List Int) : ∃ out, idct2d block = .ok out ∧ out.length = 64 ∧
    ∀ y < 8, ∀ x < 8, out.getD (y * 8 + x) 0 =
      (idct1d cosT (fun col =>
        (idct1d cosT (fun row => block.getD (row * 8 + col) 0)).getD y 0)).getD x 0 := by
  unfold idct2d
  rw [cosTable_eq]
  refine ⟨_, rfl, by simp, fun y hy x hx => ?_⟩
  rw [getD_map_range 64 _ _ 0 (by omega), getD_map_range 8 _ _ [] (by omega), show (y * 8 + x) % 8 = x by omega,
    show (y * 8 + x) / 8 = y by omega]
  congr 1

/-- The intermediate values, for coefficients up to `b`. -/
theorem col_val (block : List Int) (b : ℝ) (hb : b ≤ 1500) (h : ∀ i < 64, |val (block.getD i 0)| ≤ b) (col y : Nat)
    (hc : col < 8) (hy : y < 8) :
    |val ((idct1d cosT (fun row => block.getD (row * 8 + col) 0)).getD y 0) -
      ∑ v ∈ Finset.range 8, fac y v * val (block.getD (v * 8 + col) 0)| ≤ 3 / 500 ∧
    |∑ v ∈ Finset.range 8, fac y v * val (block.getD (v * 8 + col) 0)| ≤ 2.653 * b := by
  have hb0 : 0 ≤ b := (abs_nonneg _).trans (h 0 (by norm_num))
  refine ⟨pass_val _ b (by linarith) (fun i hi => h _ (by omega)) y hy, ?_⟩
  refine (sum_bound _ _ b fun k hk => h _ (by omega)).trans ?_
  exact mul_le_mul_of_nonneg_right (fac_gain y hy) hb0

/-- The result is that of the transform with the code's factors, up to rounding. -/
theorem idct2d_fac (block : List Int) (b : ℝ) (hb : b ≤ 1500) (h : ∀ i < 64, |val (block.getD i 0)| ≤ b) :
    ∃ out, idct2d block = .ok out ∧ out.length = 64 ∧ ∀ y < 8, ∀ x < 8,
      |val (out.getD (y * 8 + x) 0) - ∑ u ∈ Finset.range 8, fac x u *
        ∑ v ∈ Finset.range 8, fac y v * val (block.getD (v * 8 + u) 0)| ≤ 11 / 500 := by
  obtain ⟨out, h1, h2, h3⟩ := idct2d_eq block
  refine ⟨out, h1, h2, fun y hy x hx => ?_⟩
  rw [h3 y hy x hx]
  have hb0 : 0 ≤ b := (abs_nonneg _).trans (h 0 (by norm_num))
  have hp := pass_val (fun col => (idct1d cosT (fun row => block.getD (row * 8 + col) 0)).getD y 0)
    4000 le_rfl (fun col hc => by
      obtain ⟨k1, k2⟩ := col_val block b hb h col y hc hy
      have := abs_sub_abs_le_abs_sub (val ((idct1d cosT (fun row => block.getD (row * 8 + col) 0)).getD y 0))
        (∑ v ∈ Finset.range 8, fac y v * val (block.getD (v * 8 + col) 0))
      generalize ∑ v ∈ Finset.range 8, fac y v * val (block.getD (v * 8 + col) 0) = s at *
      generalize val ((idct1d cosT (fun row => block.getD (row * 8 + col) 0)).getD y 0) = t at *
      norm_num at k1 k2
      linarith) x hx
  have hd := sum_bound (fac x) (fun col => val ((idct1d cosT
      (fun row => block.getD (row * 8 + col) 0)).getD y 0) -
        ∑ v ∈ Finset.range 8, fac y v * val (block.getD (v * 8 + col) 0)) (3 / 500)
    (fun col hc => (col_val block b hb h col y hc hy).1)
  have hg := fac_gain x hx
  simp only [mul_sub, Finset.sum_sub_distrib] at hd
  refine (abs_sub_le _ _ _).trans ((add_le_add hp hd).trans ?_)
  norm_num at hg ⊢
  linarith

/-- The coefficients of a block as reals. -/
noncomputable def realCoef (block : List Int) (v u : Nat) : ℝ := val (block.getD (v * 8 + u) 0)

/-- The transform with the code's factors against the real one. -/
theorem fac_idct (c : Nat → Nat → ℝ) (b : ℝ) (h : ∀ v < 8, ∀ u < 8, |c v u| ≤ b) (y x : Nat) (hy : y < 8) (hx : x < 8) :
    |∑ u ∈ Finset.range 8, fac x u * ∑ v ∈ Finset.range 8, fac y v * c v u - Spec.T81.idct c y x| ≤
      2.653 * b * ((tolI y + tolI x) / 10 ^ 6) := by
  rw [Idct.idct_sep]
  have hb0 : 0 ≤ b := (abs_nonneg _).trans (h 0 (by norm_num) 0 (by norm_num))
  have h1 : ∀ u < 8, |∑ v ∈ Finset.range 8, fac y v * c v u - ∑ v ∈ Finset.range 8, kern v y * c v u| ≤ tolI y / 10 ^ 6 * b := by
    intro u hu
    rw [← Finset.sum_sub_distrib, Finset.sum_congr rfl (fun v _ => (sub_mul (fac y v) (kern v y) (c v u)).symm)]
    exact (sum_bound _ _ b fun v hv => h v hv u hu).trans (mul_le_mul_of_nonneg_right (fac_kern y hy) hb0)
  have h2 := sum_bound (fun u => kern u x) (fun u => ∑ v ∈ Finset.range 8, fac y v * c v u - ∑ v ∈ Finset.range 8, kern v y * c v u)
    _ h1
  have h3 := sum_bound (fun u => fac x u - kern u x) (fun u => ∑ v ∈ Finset.range 8, fac y v * c v u) (2.653 * b) (fun u hu =>
    (sum_bound _ _ b fun v hv => h v hv u hu).trans (mul_le_mul_of_nonneg_right (fac_gain y hy) hb0))
  have h2' := h2.trans (mul_le_mul_of_nonneg_right (kern_gain x hx) (by positivity))
  have h3' := h3.trans (mul_le_mul_of_nonneg_right (fac_kern x hx) (by positivity))
  simp only [mul_sub, sub_mul, Finset.sum_sub_distrib] at h2' h3'
  rw [abs_sub_comm] at h3'
  rw [abs_sub_comm]
  have h4 := abs_add_le (∑ u ∈ Finset.range 8, kern u x * ∑ v ∈ Finset.range 8, fac y v * c v u -
      ∑ u ∈ Finset.range 8, fac x u * ∑ v ∈ Finset.range 8, fac y v * c v u)
    (-(∑ u ∈ Finset.range 8, kern u x * ∑ v ∈ Finset.range 8, fac y v * c v u -
      ∑ u ∈ Finset.range 8, kern u x * ∑ v ∈ Finset.range 8, kern v y * c v u))
  rw [abs_neg] at h4
  refine (le_of_eq (congrArg _ (by ring))).trans (h4.trans ((add_le_add h3' h2').trans ?_))
  have : 0 ≤ (tolI y : ℝ) * b := by positivity
  norm_num
  nlinarith

/-! ### Forward and back -/

/-- What one dimension, forward and back, makes of a row: how far it is from the row, in units of `10^-6`. -/
def lossI (n : Nat) : Nat := [9, 17442, 16259, 17958, 8616, 4135, 8384, 15027].getD n 0

/-- The product of the two one-dimensional transforms less the identity, in units of `1 / (4 10^18 2^53)`. -/
def prodI (n m : Nat) : Int := (List.range 8).foldl (fun t k => t + diffI n k * angI k m) 0

theorem loss_check : ∀ n ∈ List.range 8, (List.range 8).foldl (fun s m => s + (prodI n m).natAbs) 0 * 10 ^ 6 ≤
    (lossI n * 4 * 10 ^ 18 - 4 * 10 ^ 17) * 2 ^ 53 := by
  decide +kernel

theorem gain_check : ∀ n ∈ List.range 8,
    (List.range 8).foldl (fun s m => s + ((if n = m then 4 * 10 ^ 18 * 2 ^ 53 else 0) + prodI n m).natAbs) 0 * 10 ^ 4 ≤
      10096 * 4 * 10 ^ 18 * 2 ^ 53 - 10 ^ 16 * 2 ^ 53 := by
  decide +kernel

theorem diffI_abs (n k : Nat) (hn : n < 8) (hk : k < 8) : |(diffI n k : ℝ) / (2 * 10 ^ 9 * 2 ^ 53)| ≤ 1 := by
  have h : ∀ n ∈ List.range 8, ∀ k ∈ List.range 8, (diffI n k).natAbs ≤ 2 * 10 ^ 9 * 2 ^ 53 := by decide +kernel
  have := h n (by simpa using hn) k (by simpa using hk)
  rw [abs_div, abs_of_pos (show (0 : ℝ) < 2 * 10 ^ 9 * 2 ^ 53 by positivity), div_le_one (by positivity), ← natAbs_cast]
  exact_mod_cast this

theorem prodI_sum (n m : Nat) : prodI n m = ∑ k ∈ Finset.range 8, diffI n k * angI k m := by
  simp only [Finset.sum_range_succ, Finset.sum_range_zero]
  rfl

/-- The product of the two one-dimensional transforms. -/
noncomputable def prod (n m : Nat) : ℝ := ∑ k ∈ Finset.range 8, fac n k * kern k m

theorem prod_near (n m : Nat) (hn : n < 8) (hm : m < 8) :
    |prod n m - ((if n = m then 1 else 0) + (prodI n m : ℝ) / (4 * 10 ^ 18 * 2 ^ 53))| ≤ 1 / 10 ^ 8 := by
  have e1 : prod n m - (if n = m then 1 else 0) = ∑ k ∈ Finset.range 8, (fac n k - kern k n) * kern k m := by
    rw [← Idct.kern_orth' n m hn hm]
    unfold prod
    rw [← Finset.sum_sub_distrib]
    exact Finset.sum_congr rfl fun k _ => (sub_mul _ _ _).symm
  have e2 : (prodI n m : ℝ) / (4 * 10 ^ 18 * 2 ^ 53) =
      ∑ k ∈ Finset.range 8, (diffI n k : ℝ) / (2 * 10 ^ 9 * 2 ^ 53) * ((angI k m : ℝ) / (2 * 10 ^ 9)) := by
    rw [prodI_sum]
    push_cast
    rw [Finset.sum_div]
    refine Finset.sum_congr rfl fun k _ => ?_
    ring
  rw [← sub_sub, e1, e2, ← Finset.sum_sub_distrib]
  refine (Finset.abs_sum_le_sum_abs _ _).trans ?_
  refine (Finset.sum_le_sum (g := fun _ => 1 / 10 ^ 9) fun k hk => ?_).trans (by
    rw [Finset.sum_const, Finset.card_range, nsmul_eq_mul]; norm_num)
  have hk := Finset.mem_range.1 hk
  have h1 := diff_near n k
  have h2 := kern_near k m
  have h3 := kern_abs k m
  have h4 := diffI_abs n k hn hk
  generalize fac n k - kern k n = G at *
  generalize (diffI n k : ℝ) / (2 * 10 ^ 9 * 2 ^ 53) = g at *
  generalize (angI k m : ℝ) / (2 * 10 ^ 9) = c at *
  generalize kern k m = K at *
  have e3 : G * K - g * c = (G - g) * K + g * (K - c) := by ring
  rw [e3]
  refine (abs_add_le _ _).trans ?_
  rw [abs_mul, abs_mul]
  have h5 := mul_le_mul h1 h3 (abs_nonneg _) (by norm_num)
  have h6 := mul_le_mul h4 h2 (abs_nonneg _) (by norm_num)
  norm_num at h5 h6 ⊢
  linarith

theorem prod_loss (n : Nat) (hn : n < 8) :
    ∑ m ∈ Finset.range 8, |prod n m - if n = m then 1 else 0| ≤ (lossI n : ℝ) / 10 ^ 6 := by
  have h := loss_check n (by simpa using hn)
  rw [foldl_sum] at h
  have h8 : 4 * 10 ^ 17 ≤ lossI n * 4 * 10 ^ 18 := by
    have : ∀ n ∈ List.range 8, 4 * 10 ^ 17 ≤ lossI n * 4 * 10 ^ 18 := by decide +kernel
    exact this n (by simpa using hn)
  have h' : (∑ m ∈ Finset.range 8, |(prodI n m : ℝ)|) * 10 ^ 6 ≤ ((lossI n : ℝ) * 4 * 10 ^ 18 - 4 * 10 ^ 17) * 2 ^ 53 := by
    have := (Nat.cast_le (α := ℝ)).2 h
    rw [Nat.cast_mul, Nat.cast_mul, Nat.cast_sub h8] at this
    push_cast [natAbs_cast] at this
    norm_num at this ⊢
    exact this
  calc ∑ m ∈ Finset.range 8, |prod n m - if n = m then 1 else 0|
      ≤ ∑ m ∈ Finset.range 8, (|(prodI n m : ℝ)| / (4 * 10 ^ 18 * 2 ^ 53) + 1 / 10 ^ 8) := by
        apply Finset.sum_le_sum
        intro m hm
        have h1 := prod_near n m hn (Finset.mem_range.1 hm)
        rw [← sub_sub] at h1
        have h2 := abs_sub_abs_le_abs_sub (prod n m - if n = m then 1 else 0) ((prodI n m : ℝ) / (4 * 10 ^ 18 * 2 ^ 53))
        rw [abs_div (prodI n m : ℝ), abs_of_pos (show (0 : ℝ) < 4 * 10 ^ 18 * 2 ^ 53 by positivity)] at h2
        linarith
    _ = (∑ m ∈ Finset.range 8, |(prodI n m : ℝ)|) / (4 * 10 ^ 18 * 2 ^ 53) + 8 * (1 / 10 ^ 8) := by
        rw [Finset.sum_add_distrib, Finset.sum_div, Finset.sum_const, Finset.card_range, nsmul_eq_mul]; norm_num
    _ ≤ _ := by
        generalize ∑ m ∈ Finset.range 8, |(prodI n m : ℝ)| = s at *
        norm_num at h' ⊢
        linarith

theorem prod_gain (n : Nat) (hn : n < 8) : ∑ m ∈ Finset.range 8, |prod n m| ≤ 1.0096 := by
  have h := gain_check n (by simpa using hn)
  rw [foldl_sum] at h
  have h' : (∑ m ∈ Finset.range 8, |((((if n = m then 4 * 10 ^ 18 * 2 ^ 53 else 0) + prodI n m : Int)) : ℝ)|) * 10 ^ 4 ≤
      10096 * 4 * 10 ^ 18 * 2 ^ 53 - 10 ^ 16 * 2 ^ 53 := by
    have := (Nat.cast_le (α := ℝ)).2 h
    rw [Nat.cast_mul, Nat.cast_sum] at this
    simp only [natAbs_cast] at this
    norm_num at this ⊢
    exact this
  calc ∑ m ∈ Finset.range 8, |prod n m|
      ≤ ∑ m ∈ Finset.range 8, (|((((if n = m then 4 * 10 ^ 18 * 2 ^ 53 else 0) + prodI n m : Int)) : ℝ)| /
          (4 * 10 ^ 18 * 2 ^ 53) + 1 / 10 ^ 8) := by
        apply Finset.sum_le_sum
        intro m hm
        have h1 := prod_near n m hn (Finset.mem_range.1 hm)
        have e : ((((if n = m then 4 * 10 ^ 18 * 2 ^ 53 else 0) + prodI n m : Int)) : ℝ) / (4 * 10 ^ 18 * 2 ^ 53) =
            (if n = m then 1 else 0) + (prodI n m : ℝ) / (4 * 10 ^ 18 * 2 ^ 53) := by
          split
          · push_cast; rw [add_div]; norm_num
          · push_cast; rw [add_div]; norm_num
        have e' : |((((if n = m then 4 * 10 ^ 18 * 2 ^ 53 else 0) + prodI n m : Int)) : ℝ)| / (4 * 10 ^ 18 * 2 ^ 53) =
            |(if n = m then 1 else 0) + (prodI n m : ℝ) / (4 * 10 ^ 18 * 2 ^ 53)| := by
          rw [← e, abs_div, abs_of_pos (show (0 : ℝ) < 4 * 10 ^ 18 * 2 ^ 53 by positivity)]
        rw [e']
        have h2 := abs_sub_abs_le_abs_sub (prod n m) ((if n = m then 1 else 0) + (prodI n m : ℝ) / (4 * 10 ^ 18 * 2 ^ 53))
        linarith
    _ = (∑ m ∈ Finset.range 8, |((((if n = m then 4 * 10 ^ 18 * 2 ^ 53 else 0) + prodI n m : Int)) : ℝ)|) /
          (4 * 10 ^ 18 * 2 ^ 53) + 8 * (1 / 10 ^ 8) := by
        rw [Finset.sum_add_distrib, Finset.sum_div, Finset.sum_const, Finset.card_range, nsmul_eq_mul]; norm_num
    _ ≤ _ := by
        generalize ∑ m ∈ Finset.range 8, |((((if n = m then 4 * 10 ^ 18 * 2 ^ 53 else 0) + prodI n m : Int)) : ℝ)| = s at *
        norm_num at h' ⊢
        linarith

/-- One dimension forward (exact) and back (with the code's factors). -/
theorem back_sum (n : Nat) (g : Nat → ℝ) : ∑ k ∈ Finset.range 8, fac n k * ∑ m ∈ Finset.range 8, kern k m * g m =
    ∑ m ∈ Finset.range 8, prod n m * g m := by
  unfold prod
  simp only [Finset.mul_sum, Finset.sum_mul]
  rw [Finset.sum_comm]
  exact Finset.sum_congr rfl fun m _ => Finset.sum_congr rfl fun k _ => by ring

theorem prod_sum (n : Nat) (hn : n < 8) (g : Nat → ℝ) (b : ℝ) (h : ∀ m < 8, |g m| ≤ b) :
    |∑ m ∈ Finset.range 8, prod n m * g m - g n| ≤ lossI n / 10 ^ 6 * b ∧
      |∑ m ∈ Finset.range 8, prod n m * g m| ≤ 1.0096 * b := by
  have hb0 : 0 ≤ b := (abs_nonneg _).trans (h 0 (by norm_num))
  constructor
  · have e : ∑ m ∈ Finset.range 8, prod n m * g m - g n = ∑ m ∈ Finset.range 8, (prod n m - if n = m then 1 else 0) * g m := by
      simp only [sub_mul, Finset.sum_sub_distrib, ite_mul, one_mul, zero_mul]
      rw [Finset.sum_ite_eq, if_pos (Finset.mem_range.2 hn)]
    rw [e]
    exact (sum_bound _ _ b h).trans (mul_le_mul_of_nonneg_right (prod_loss n hn) hb0)
  · exact (sum_bound _ _ b h).trans (mul_le_mul_of_nonneg_right (prod_gain n hn) hb0)

theorem fac_fdct (s : Nat → Nat → ℝ) (b : ℝ) (h : ∀ y < 8, ∀ x < 8, |s y x| ≤ b) (y x : Nat) (hy : y < 8) (hx : x < 8) :
    |∑ u ∈ Finset.range 8, fac x u * ∑ v ∈ Finset.range 8, fac y v * fdct s v u - s y x| ≤
      (lossI y + 1.0096 * lossI x) / 10 ^ 6 * b := by
  have e : ∀ u, ∑ v ∈ Finset.range 8, fac y v * fdct s v u =
      ∑ z ∈ Finset.range 8, kern u z * ∑ w ∈ Finset.range 8, prod y w * s w z := by
    intro u
    simp only [Idct.fdct_eq', ← back_sum]
    rw [Finset.sum_congr rfl (fun v _ => Finset.mul_sum _ _ _), Finset.sum_comm]
    refine Finset.sum_congr rfl fun z _ => ?_
    rw [Finset.mul_sum]
    exact Finset.sum_congr rfl fun v _ => by ring
  simp only [e]
  rw [back_sum]
  have h1 := fun z hz => prod_sum y hy (fun w => s w z) b (fun m hm => h m hm z hz)
  have h2 := prod_sum x hx (fun z => ∑ w ∈ Finset.range 8, prod y w * s w z) (1.0096 * b) (fun z hz => (h1 z hz).2)
  refine (abs_sub_le _ _ _).trans ((add_le_add h2.1 (h1 x hx).1).trans (le_of_eq ?_))
  ring

/-- Forward with `dct_2d` and back with `idct_2d`: within five of the samples. -/
theorem round_trip (block : List Int) (hb : ∀ i < 64, smLo ≤ block.getD i 0 ∧ block.getD i 0 ≤ smHi) :
    ∃ out, idct2d (dct2d block) = .ok out ∧ out.length = 64 ∧ ∀ y < 8, ∀ x < 8,
      |val (out.getD (y * 8 + x) 0) - val (block.getD (y * 8 + x) 0)| ≤
        3 / 8 + 128.01 * (lossI y + 1.0096 * lossI x) / 10 ^ 6 := by
  obtain ⟨out, h1, h2, h3⟩ := idct2d_fac (dct2d block) 1025 (by norm_num) (by
    intro i hi
    obtain ⟨k1, k2⟩ := dct2d_range block hb i hi
    have k3 : -(1025 * 2 ^ 149) ≤ (dct2d block).getD i 0 ∧ (dct2d block).getD i 0 ≤ 1025 * 2 ^ 149 := by
      by_cases h0 : i = 0
      · have := k2 h0; omega
      · have := k1 h0; omega
    unfold val
    rw [abs_div, abs_of_pos (show (0 : ℝ) < 2 ^ 149 by positivity), div_le_iff₀ (by positivity), abs_le]
    exact ⟨by exact_mod_cast k3.1, by exact_mod_cast k3.2⟩)
  refine ⟨out, h1, h2, fun y hy x hx => ?_⟩
  have h4 := h3 y hy x hx
  have h5 := fac_fdct (realBlock block) 128.01 (by
    intro y hy x hx
    have := hb (y * 8 + x) (by omega)
    unfold realBlock
    rw [abs_div, abs_of_pos (show (0 : ℝ) < 2 ^ 149 by positivity), div_le_iff₀ (by positivity), abs_le]
    simp only [smLo, smHi] at this
    generalize block.getD (y * 8 + x) 0 = t at *
    have t1 : ((-(128 * 2 ^ 149) - 2 ^ 139 : Int) : ℝ) ≤ t := by exact_mod_cast this.1
    have t2 : (t : ℝ) ≤ ((127 * 2 ^ 149 + 2 ^ 139 : Int) : ℝ) := by exact_mod_cast this.2
    push_cast at t1 t2
    norm_num at t1 t2 ⊢
    constructor <;> linarith) y x hy hx
  have h6 : |∑ u ∈ Finset.range 8, fac x u * ∑ v ∈ Finset.range 8, fac y v * val ((dct2d block).getD (v * 8 + u) 0) -
      ∑ u ∈ Finset.range 8, fac x u * ∑ v ∈ Finset.range 8, fac y v * fdct (realBlock block) v u| ≤
      2.653 * (2.653 * (1 / 20)) := by
    rw [← Finset.sum_sub_distrib, Finset.sum_congr rfl (fun u _ => (mul_sub _ _ _).symm)]
    refine (sum_bound _ _ (2.653 * (1 / 20)) fun u hu => ?_).trans
      (mul_le_mul_of_nonneg_right (fac_gain x hx) (by norm_num))
    rw [← Finset.sum_sub_distrib, Finset.sum_congr rfl (fun v _ => (mul_sub _ _ _).symm)]
    exact (sum_bound _ _ (1 / 20) fun v hv => dct2d_fdct block hb v u hv hu).trans
      (mul_le_mul_of_nonneg_right (fac_gain y hy) (by norm_num))
  refine (abs_sub_le _ _ _).trans ((add_le_add h4 ((abs_sub_le _ _ _).trans (add_le_add h6 h5))).trans ?_)
  norm_num
  linarith

end Pixo.IdctF32
