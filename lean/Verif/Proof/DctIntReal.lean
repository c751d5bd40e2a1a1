import Verif.Proof.DctInt
import Verif.Proof.IdctReal
import Verif.Proof.PngPixels
/-
The integer DCT of the code against the real one.
-/
namespace Pixo.DctInt
open Real Spec.T81 Pixo.Jpeg Pixo.Idct

/-- A weight of a pass. -/
def wt (k n : Nat) : Int := weights.getD (8 * k + n) 0

/-- How far the weights may be off, in thousandths. -/
def wtTol (k : Nat) : Nat := if k = 0 ∨ k = 4 then 1 else 1200

theorem wt_check : ∀ k ∈ List.range 8, ∀ n ∈ List.range 8,
    (wt k n * (2 * 10 ^ 18) - 8192 * 2828427125 * cosTable.getD (kernAngle k n % 32) 0).natAbs * 1000 + 10 ^ 17 ≤
      wtTol k * (2 * 10 ^ 18) := by
  decide +kernel

theorem wt_kern (k n : Nat) (hk : k < 8) (hn : n < 8) : |(wt k n : ℝ) - 8192 * √8 * kern k n| ≤ wtTol k / 1000 := by
  have h := wt_check k (by simpa using hk) n (by simpa using hn)
  have hc := cos_all (kernAngle k n)
  have ht := cosTable_abs (kernAngle k n % 32)
  have hs := sqrt8
  rw [kern_eq]
  generalize √8 = s at *
  generalize cos _ = c at *
  generalize cosTable.getD _ 0 = t at *
  generalize wt k n = M at *
  generalize wtTol k = e at *
  have h2 : |((M * (2 * 10 ^ 18) - 8192 * 2828427125 * t : Int) : ℝ)| * 1000 + 10 ^ 17 ≤ e * (2 * 10 ^ 18) := by
    rw [← Int.cast_abs, Int.abs_eq_natAbs]
    exact_mod_cast h
  push_cast at h2
  rw [show (M : ℝ) * 2000000000000000000 - 23170475008000 * t = M * (2 * 10 ^ 18) - 8192 * 2828427125 * t by ring] at h2
  have h3 : |s * c * 10 ^ 18 - 2828427125 * t| ≤ 4 * 10 ^ 9 := by
    have e1 : s * c * 10 ^ 18 - 2828427125 * (t : ℝ) = s * 10 ^ 9 * (c * 10 ^ 9 - t) + t * (s * 10 ^ 9 - 2828427125) := by ring
    rw [e1]
    refine (abs_add_le _ _).trans ?_
    rw [abs_mul (s * 10 ^ 9), abs_mul (t : ℝ)]
    have a1 : |s * 10 ^ 9| ≤ 2828427125 := by rw [abs_le]; constructor <;> linarith [hs.1, hs.2]
    have a2 : |s * 10 ^ 9 - 2828427125| ≤ 1 := by rw [abs_le]; constructor <;> linarith [hs.1, hs.2]
    have b1 := mul_le_mul a1 hc (abs_nonneg _) (by norm_num)
    have b2 := mul_le_mul ht a2 (abs_nonneg _) (by norm_num)
    linarith
  have h4 : |(M : ℝ) * (2 * 10 ^ 18) - 8192 * (s * c * 10 ^ 18)| ≤ (e : ℝ) * (2 * 10 ^ 15) := by
    have e1 : (M : ℝ) * (2 * 10 ^ 18) - 8192 * (s * c * 10 ^ 18) =
      (M * (2 * 10 ^ 18) - 8192 * 2828427125 * t) - 8192 * (s * c * 10 ^ 18 - 2828427125 * t) := by ring
    rw [e1]
    refine (abs_sub _ _).trans ?_
    rw [abs_mul, abs_of_pos (show (0 : ℝ) < 8192 by norm_num)]
    linarith
  rw [abs_le] at h4 ⊢
  constructor <;> linarith [h4.1, h4.2]

/-- A one dimensional transform. -/
noncomputable def one (d : Nat → ℝ) (k : Nat) : ℝ := ∑ n ∈ Finset.range 8, kern k n * d n

theorem lin_sum (d : Nat → Int) (k : Nat) : lin d k = ∑ n ∈ Finset.range 8, wt k n * d n := by
  simp only [Finset.sum_range_succ, Finset.sum_range_zero, lin, wt]
  ring

theorem passI_one {d : Nat → Int} {b : ℝ} (h : ∀ i < 8, |(d i : ℝ)| ≤ b) (k : Nat) (hk : k < 8) :
    |(passI d k : ℝ) - √8 * one (fun i => d i) k| ≤ ((slack k : ℝ) + wtTol k / 125 * b) / 8192 := by
  have hb : 0 ≤ b := (abs_nonneg _).trans (h 0 (by norm_num))
  have h1 : |(lin d k : ℝ) - 8192 * √8 * one (fun i => d i) k| ≤ wtTol k / 125 * b := by
    rw [lin_sum]
    unfold one
    push_cast
    rw [Finset.mul_sum, ← Finset.sum_sub_distrib]
    have key : ∀ n < 8, |(wt k n : ℝ) * d n - 8192 * √8 * (kern k n * d n)| ≤ wtTol k / 1000 * b := by
      intro n hn
      rw [← mul_assoc, ← sub_mul, abs_mul]
      exact mul_le_mul (wt_kern k n hk hn) (h _ hn) (abs_nonneg _) (by positivity)
    refine (Finset.abs_sum_le_sum_abs _ _).trans ?_
    refine (Finset.sum_le_sum fun n hn => key n (Finset.mem_range.1 hn)).trans ?_
    rw [Finset.sum_const, Finset.card_range, nsmul_eq_mul]
    push_cast
    linarith
  have h2 : |8192 * (passI d k : ℝ) - lin d k| ≤ slack k := by
    have := passI_lin d k hk
    rw [abs_le]
    constructor
    · exact_mod_cast this.1
    · exact_mod_cast this.2
  generalize one _ _ = o at *
  generalize (passI d k : ℝ) = p at *
  generalize (lin d k : ℝ) = l at *
  generalize √8 = s at *
  generalize (wtTol k / 125 * b : ℝ) = t at *
  rw [abs_le] at *
  constructor <;> linarith [h1.1, h1.2, h2.1, h2.2]

theorem wt_abs (k : Nat) (hk : k < 8) : ∑ n ∈ Finset.range 8, |(wt k n : ℝ)| ≤ 65536 := by
  have : ∀ k ∈ List.range 8, (wt k 0).natAbs + (wt k 1).natAbs + (wt k 2).natAbs + (wt k 3).natAbs + (wt k 4).natAbs +
      (wt k 5).natAbs + (wt k 6).natAbs + (wt k 7).natAbs ≤ 65536 := by
    decide +kernel
  have := this k (by simpa using hk)
  simp only [Finset.sum_range_succ, Finset.sum_range_zero]
  simp only [← Int.cast_abs, Int.abs_eq_natAbs]
  rw [zero_add]
  exact_mod_cast this

/-- The transform is Lipschitz. -/
theorem one_lip {d e : Nat → ℝ} {b : ℝ} (h : ∀ i < 8, |d i - e i| ≤ b) (k : Nat) (hk : k < 8) :
    |√8 * one d k - √8 * one e k| ≤ 8.002 * b := by
  have hb : 0 ≤ b := (abs_nonneg _).trans (h 0 (by norm_num))
  have h1 : |8192 * √8 * one d k - 8192 * √8 * one e k| ≤ 65546 * b := by
    unfold one
    rw [Finset.mul_sum, Finset.mul_sum, ← Finset.sum_sub_distrib]
    have key : ∀ n < 8, |8192 * √8 * (kern k n * d n) - 8192 * √8 * (kern k n * e n)| ≤
        (|(wt k n : ℝ)| + wtTol k / 1000) * b := by
      intro n hn
      rw [← mul_sub, ← mul_sub, ← mul_assoc, abs_mul]
      have h1 := wt_kern k n hk hn
      have h2 : |8192 * √8 * kern k n| ≤ |(wt k n : ℝ)| + wtTol k / 1000 := by
        have e1 : 8192 * √8 * kern k n = wt k n - (wt k n - 8192 * √8 * kern k n) := by ring
        rw [e1]
        exact (abs_sub _ _).trans (by linarith)
      exact mul_le_mul h2 (h _ hn) (abs_nonneg _) (by positivity)
    refine (Finset.abs_sum_le_sum_abs _ _).trans ?_
    refine (Finset.sum_le_sum fun n hn => key n (Finset.mem_range.1 hn)).trans ?_
    rw [← Finset.sum_mul, Finset.sum_add_distrib]
    have := wt_abs k hk
    refine mul_le_mul_of_nonneg_right ?_ hb
    have e2 : (wtTol k : ℝ) ≤ 1200 := by
      have : wtTol k ≤ 1200 := by unfold wtTol; split <;> omega
      exact_mod_cast this
    rw [Finset.sum_const, Finset.card_range, nsmul_eq_mul]
    push_cast
    linarith
  rw [abs_le] at *
  constructor <;> linarith [h1.1, h1.2]

/-- The samples of a block as a function of row and column. -/
def smp (block : List Int) (y x : Nat) : ℝ := (block.getD (8 * y + x) 0 : Int)

theorem fdct_one (s : Nat → Nat → ℝ) (v u : Nat) : fdct s v u = one (fun y => one (s y) u) v := by
  rw [fdct_eq]; rfl

theorem one_smul (a : ℝ) (d : Nat → ℝ) (k : Nat) : one (fun i => a * d i) k = a * one d k := by
  unfold one
  rw [Finset.mul_sum]
  exact Finset.sum_congr rfl fun n _ => by ring

/-- How much the first pass scales a frequency. -/
noncomputable def gain (u : Nat) : ℝ := if u = 0 ∨ u = 4 then 4 else 1

theorem work_one {block : List Int} {b : ℝ} (h : ∀ i < 64, |(block.getD i 0 : ℝ)| ≤ b) {r u : Nat} (hr : r < 8) (hu : u < 8) :
    |(work block r u : ℝ) - gain u * √8 * one (smp block r) u| ≤ gain u * (((slack u : ℝ) + wtTol u / 125 * b) / 8192) := by
  have h1 := passI_one (d := fun i => block.getD (8 * r + i) 0) (fun i hi => h (8 * r + i) (by omega)) u hu
  have e : (work block r u : ℝ) - gain u * √8 * one (smp block r) u =
      gain u * ((passI (fun i => block.getD (8 * r + i) 0) u : ℝ) - √8 * one (smp block r) u) := by
    unfold work gain
    push_cast
    split <;> ring
  rw [e, abs_mul]
  have hg : 0 ≤ gain u := by unfold gain; split <;> norm_num
  rw [abs_of_nonneg hg]
  exact mul_le_mul_of_nonneg_left h1 hg

theorem work_abs {block : List Int} {b : Nat} (h : ∀ i < 64, (block.getD i 0).natAbs ≤ b) {r u : Nat} (hr : r < 8) (hu : u < 8) :
    |(work block r u : ℝ)| ≤ gain u * (8 * b + 4) := by
  have h1 := passI_bound (d := fun i => block.getD (8 * r + i) 0) (b := b)
    (fun i hi => by have := h (8 * r + i) (by omega); omega) u hu
  have h2 : |(passI (fun i => block.getD (8 * r + i) 0) u : ℝ)| ≤ 8 * b + 4 := by
    rw [abs_le]
    constructor
    · exact_mod_cast h1.1
    · exact_mod_cast h1.2
  have e : (work block r u : ℝ) = gain u * (passI (fun i => block.getD (8 * r + i) 0) u : ℝ) := by
    unfold work gain
    push_cast
    split <;> ring
  have hg : 0 ≤ gain u := by unfold gain; split <;> norm_num
  rw [e, abs_mul, abs_of_nonneg hg]
  exact mul_le_mul_of_nonneg_left h2 hg

theorem total_real {block : List Int} {b : Nat} (h : ∀ i < 64, (block.getD i 0).natAbs ≤ b) {v u : Nat} (hv : v < 8)
    (hu : u < 8) : |(total block v u : ℝ) - gain u * 8 * fdct (smp block) v u| ≤
      ((slack v : ℝ) + wtTol v / 125 * (gain u * (8 * b + 4))) / 8192 +
        8.002 * (gain u * (((slack u : ℝ) + wtTol u / 125 * b) / 8192)) := by
  have hb : ∀ i < 64, |(block.getD i 0 : ℝ)| ≤ b := fun i hi => by
    rw [← Int.cast_abs, Int.abs_eq_natAbs]; exact_mod_cast h i hi
  have h1 := passI_one (d := fun r => work block r u) (fun r hr => work_abs h hr hu) v hv
  have h2 := one_lip (d := fun r => (work block r u : ℝ)) (e := fun r => gain u * √8 * one (smp block r) u)
    (fun r hr => work_one hb hr hu) v hv
  have e : √8 * one (fun r => gain u * √8 * one (smp block r) u) v = gain u * 8 * fdct (smp block) v u := by
    rw [one_smul, fdct_one]
    have e3 : √8 * √8 = (8 : ℝ) := mul_self_sqrt (by norm_num)
    linear_combination (gain u * one (fun y => one (smp block y) u) v) * e3
  rw [e] at h2
  unfold total
  have e2 := abs_add_le ((passI (fun r => work block r u) v : ℝ) - √8 * one (fun i => (work block i u : ℝ)) v)
    (√8 * one (fun i => (work block i u : ℝ)) v - gain u * 8 * fdct (smp block) v u)
  rw [sub_add_sub_cancel] at e2
  linarith

theorem result_get (block : List Int) (v u : Nat) (hv : v < 8) (hu : u < 8) :
    (result block).getD (8 * v + u) 0 = (total block v u + 16) / 32 := by
  have := PngDecode.flatMap_get (f := fun k => (List.range 8).map (fun c => (total block k c + 16) / 32)) (m := 8) (List.range 8)
    (fun a _ => by simp) v u hu
  rw [List.getD_eq_getElem?_getD]
  unfold result
  rw [Nat.mul_comm, this]
  simp [hv, hu]

theorem result_real {block : List Int} {b : Nat} (h : ∀ i < 64, (block.getD i 0).natAbs ≤ b) {v u : Nat} (hv : v < 8)
    (hu : u < 8) : |((result block).getD (8 * v + u) 0 : ℝ) - gain u / 4 * fdct (smp block) v u| ≤
      1 / 2 + (((slack v : ℝ) + wtTol v / 125 * (gain u * (8 * b + 4))) / 8192 +
        8.002 * (gain u * (((slack u : ℝ) + wtTol u / 125 * b) / 8192))) / 32 := by
  rw [result_get block v u hv hu]
  have h1 := total_real h hv hu
  have h2 := descale_real (total block v u) 4
  rw [show 4 + 1 = 5 from rfl] at h2
  rw [show ((2 : Int) ^ 4) = 16 by norm_num, show ((2 : Int) ^ 5) = 32 by norm_num, show ((2 : ℝ) ^ 5) = 32 by norm_num] at h2
  generalize (((slack v : ℝ) + wtTol v / 125 * (gain u * (8 * b + 4))) / 8192 +
        8.002 * (gain u * (((slack u : ℝ) + wtTol u / 125 * b) / 8192))) = E at *
  generalize (((total block v u + 16) / 32 : Int) : ℝ) = q at *
  generalize (total block v u : ℝ) = t at *
  have e : gain u * 8 * fdct (smp block) v u = 32 * (gain u / 4 * fdct (smp block) v u) := by ring
  rw [e] at h1
  generalize gain u / 4 * fdct (smp block) v u = f at *
  rw [abs_le] at *
  constructor <;> linarith [h1.1, h1.2, h2.1, h2.2]

theorem slack_le (k : Nat) : (slack k : ℝ) ≤ 32764 := by
  have : slack k ≤ 32764 := by unfold slack; split <;> omega
  exact_mod_cast this

theorem wtTol_le (k : Nat) : (wtTol k : ℝ) ≤ 1200 := by
  have : wtTol k ≤ 1200 := by unfold wtTol; split <;> omega
  exact_mod_cast this

/-- The frequencies the first pass scales. -/
theorem result_scaled {block : List Int} {b : Nat} (h : ∀ i < 64, (block.getD i 0).natAbs ≤ b) {v u : Nat} (hv : v < 8)
    (hu : u = 0 ∨ u = 4) : |((result block).getD (8 * v + u) 0 : ℝ) - fdct (smp block) v u| ≤ 16 / 25 + b / 800 := by
  have h1 := result_real h hv (u := u) (by omega)
  have e1 : gain u = 4 := by unfold gain; rw [if_pos hu]
  have e2 : slack u = 0 := by unfold slack; rw [if_pos hu]
  have e3 : wtTol u = 1 := by unfold wtTol; rw [if_pos hu]
  rw [e1, e2, e3] at h1
  have h2 := slack_le v
  have h3 : (wtTol v : ℝ) / 125 * (4 * (8 * b + 4)) ≤ 1200 / 125 * (4 * (8 * b + 4)) :=
    mul_le_mul_of_nonneg_right (by linarith [wtTol_le v]) (by positivity)
  generalize (wtTol v : ℝ) / 125 * (4 * (8 * b + 4)) = w at *
  have : (0 : ℝ) ≤ b := by positivity
  push_cast at h1
  rw [show (4 : ℝ) / 4 * fdct (smp block) v u = fdct (smp block) v u by ring] at h1
  exact h1.trans (by linarith)

/-- The others. -/
theorem result_unscaled {block : List Int} {b : Nat} (h : ∀ i < 64, (block.getD i 0).natAbs ≤ b) {v u : Nat} (hv : v < 8)
    (hu : u < 8) (hu' : ¬(u = 0 ∨ u = 4)) :
    |((result block).getD (8 * v + u) 0 : ℝ) - fdct (smp block) v u / 4| ≤ 33 / 20 + b / 1600 := by
  have h1 := result_real h hv hu
  have e1 : gain u = 1 := by unfold gain; rw [if_neg hu']
  rw [e1] at h1
  have h2 := slack_le v
  have h2' := slack_le u
  have h3 : (wtTol v : ℝ) / 125 * (1 * (8 * b + 4)) ≤ 1200 / 125 * (1 * (8 * b + 4)) :=
    mul_le_mul_of_nonneg_right (by linarith [wtTol_le v]) (by positivity)
  have h4 : (wtTol u : ℝ) / 125 * b ≤ 1200 / 125 * b :=
    mul_le_mul_of_nonneg_right (by linarith [wtTol_le u]) (by positivity)
  generalize (wtTol v : ℝ) / 125 * (1 * (8 * b + 4)) = w at *
  generalize (wtTol u : ℝ) / 125 * b = w' at *
  have : (0 : ℝ) ≤ b := by positivity
  rw [show (1 : ℝ) / 4 * fdct (smp block) v u = fdct (smp block) v u / 4 by ring] at h1
  exact h1.trans (by linarith)

end Pixo.DctInt
