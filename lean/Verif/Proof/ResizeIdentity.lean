import Verif.Proof.ResizeLanczos
/-
Lanczos to the same size.
-/
namespace Pixo.Resize
open Pixo F32

theorem rep_int {k : Int} (h : k.natAbs ≤ 2 ^ 24) : Rep (k * one) :=
  ⟨k.natAbs, 149, h, by rw [Int.natAbs_mul, Int.natAbs_natCast, one_eq]⟩

theorem div_one' {a : Int} (h : Rep a) : F32.div a one = a := by
  unfold F32.div
  rw [Int.toNat_natCast]
  exact rndI_exact F32.one_pos h

theorem val_int (k : Int) : val (k * one) = k := by
  unfold val; rw [one_eq]; push_cast; norm_num

/-- The kernel at the integers. -/
theorem kernel_int {sin : Int → Int} (hsin : GoodSine sin) {k : Int} (hk : k ≠ 0) :
    |val (kernel sin (k * one))| ≤ 1 / 2 ^ 15 := by
  by_cases h3 : k.natAbs < 3
  · have h1 : epsilon ≤ ((k * one).natAbs : Int) := by
      unfold epsilon
      rw [Int.natAbs_mul, Int.natAbs_natCast, one_eq]
      omega
    have h2 : ((k * one).natAbs : Int) < F32.lit 3 1 := by
      rw [Int.natAbs_mul, Int.natAbs_natCast, lit_three]
      have := Nat.mul_lt_mul_of_pos_right h3 F32.one_pos
      exact_mod_cast this
    have h := kernel_real hsin h1 h2
    have e : Spec.Resample.lanczos (val (k * one)) = 0 := by
      rw [val_int]
      unfold Spec.Resample.lanczos
      rw [if_neg (by exact_mod_cast hk)]
      split
      · rfl
      · rw [mul_comm Real.pi, Real.sin_int_mul_pi, zero_div, zero_mul]
    rw [e] at h
    simpa using h
  · unfold kernel
    have h1 : ¬ (((k * one).natAbs : Int) < epsilon) := by
      unfold epsilon
      rw [Int.natAbs_mul, Int.natAbs_natCast, one_eq]
      omega
    have h2 : ((k * one).natAbs : Int) ≥ F32.lit 3 1 := by
      rw [Int.natAbs_mul, Int.natAbs_natCast, lit_three]
      have := Nat.mul_le_mul_right one (show 3 ≤ k.natAbs by omega)
      exact_mod_cast this
    rw [if_neg h1, if_pos h2]
    unfold val
    norm_num

/-- Adding small numbers. -/
theorem foldl_small : ∀ (l : List Int) (s : Int), (∀ w ∈ l, |val w| ≤ 1 / 2 ^ 15) → |val s| + l.length / 2 ^ 14 ≤ 2 →
    |val (l.foldl F32.add s) - val s| ≤ l.length / 2 ^ 14 := by
  intro l
  induction l with
  | nil => intro s _ _; simp
  | cons w l ih =>
    intro s h hs
    have hw := h w (by simp)
    have ha := val_add s w
    have h0 : (0 : ℝ) ≤ l.length := by positivity
    rw [List.length_cons] at hs ⊢
    push_cast at hs ⊢
    have h1 : |val s + val w| ≤ 4 := by
      refine (abs_add_le _ _).trans ?_
      have := abs_nonneg (val s)
      linarith
    have h2 : |val (F32.add s w) - val s| ≤ 1 / 2 ^ 14 := by
      have e : val (F32.add s w) - val s = (val (F32.add s w) - (val s + val w)) + val w := by ring
      rw [e]
      refine (abs_add_le _ _).trans ?_
      linarith
    have h3 : |val (F32.add s w)| ≤ |val s| + 1 / 2 ^ 14 := by
      have := abs_sub_abs_le_abs_sub (val (F32.add s w)) (val s)
      linarith
    have := ih (F32.add s w) (fun x hx => h x (by simp [hx])) (by linarith)
    rw [List.foldl_cons]
    have t := abs_sub_le (val (l.foldl F32.add (F32.add s w))) (val (F32.add s w)) (val s)
    linarith

theorem weightedSum_append (bytes : List UInt8) (base stride : Nat) (a b : List Int) : ∀ (i : Nat) (s : Int),
    weightedSum bytes base stride (a ++ b) i s
      = weightedSum bytes base stride b (i + a.length) (weightedSum bytes base stride a i s) := by
  induction a with
  | nil => intro i s; simp [weightedSum]
  | cons w a ih =>
    intro i s
    rw [List.cons_append, weightedSum, weightedSum, ih, List.length_cons]
    congr 1
    omega

/-- Small weights change little. -/
theorem weightedSum_small (bytes : List UInt8) (base stride : Nat) : ∀ (l : List Int) (i : Nat) (s : Int),
    (∀ w ∈ l, |val w| ≤ 1 / 2 ^ 14) → |val s| + l.length / 2 ^ 5 ≤ 300 →
    |val (weightedSum bytes base stride l i s) - val s| ≤ l.length / 2 ^ 5 := by
  intro l
  induction l with
  | nil => intro i s _ _; simp [weightedSum]
  | cons w l ih =>
    intro i s h hs
    have hw := h w (by simp)
    rw [weightedSum]
    generalize bytes.getD (base + i * stride) 0 = p
    have hp : |val (F32.ofInt p.toNat)| ≤ 255 := by
      rw [val_ofInt (by have := p.toNat_lt; omega), abs_of_nonneg (by positivity)]
      exact_mod_cast (show p.toNat ≤ 255 by have := p.toNat_lt; omega)
    have hm := val_mul (F32.ofInt p.toNat) w
    have ha := val_add s (F32.mul (F32.ofInt p.toNat) w)
    have h0 : (0 : ℝ) ≤ l.length := by positivity
    rw [List.length_cons] at hs ⊢
    push_cast at hs ⊢
    have h1 : |val (F32.ofInt p.toNat) * val w| ≤ 255 * (1 / 2 ^ 14) := by
      rw [abs_mul]; exact mul_le_mul hp hw (abs_nonneg _) (by norm_num)
    generalize F32.mul (F32.ofInt p.toNat) w = t at *
    have h2 : |val t| ≤ 1 / 2 ^ 6 := by
      have := abs_sub_abs_le_abs_sub (val t) (val (F32.ofInt p.toNat) * val w)
      linarith
    have h3 : |val s + val t| ≤ 301 := by
      refine (abs_add_le _ _).trans ?_
      linarith
    have h4 : |val (F32.add s t) - val s| ≤ 1 / 2 ^ 5 := by
      have e : val (F32.add s t) - val s = (val (F32.add s t) - (val s + val t)) + val t := by ring
      rw [e]
      refine (abs_add_le _ _).trans ?_
      linarith
    have h5 : |val (F32.add s t)| ≤ |val s| + 1 / 2 ^ 5 := by
      have := abs_sub_abs_le_abs_sub (val (F32.add s t)) (val s)
      linarith
    have := ih (i + 1) (F32.add s t) (fun x hx => h x (by simp [hx])) (by linarith)
    have t2 := abs_sub_le (val (weightedSum bytes base stride l (i + 1) (F32.add s t))) (val (F32.add s t)) (val s)
    linarith

/-- Close to a byte. -/
theorem toByte_near {v : Int} {p : UInt8} (h : |val v - p.toNat| < 1 / 2) : toByte v = p := by
  have hr := round_real v
  have h1 : |(F32.round v : ℝ) - p.toNat| < 1 := by
    have := abs_sub_le (F32.round v : ℝ) (val v) (p.toNat : ℝ)
    linarith
  have h2 : F32.round v = p.toNat := by
    have h3 : |F32.round v - (p.toNat : ℤ)| < 1 := by exact_mod_cast h1
    rw [Int.abs_lt_one_iff] at h3
    omega
  have := p.toNat_lt
  rw [toByte, h2, clampU8, if_neg (by omega), if_neg (by omega), Int.toNat_natCast]
  exact UInt8.ofNat_toNat

/-- Weights that keep a pixel: those of the others are small. -/
structure Keeps (k : Contribution) (n d : Nat) : Prop where
  low : k.start ≤ d
  high : d < n
  fits : k.start + k.weights.length ≤ n
  parts : ∃ a w b, k.weights = a ++ w :: b ∧ k.start + a.length = d ∧ a.length ≤ 3 ∧ b.length ≤ 3 ∧
    (∀ x ∈ a, |val x| ≤ 1 / 2 ^ 14) ∧ (∀ x ∈ b, |val x| ≤ 1 / 2 ^ 14) ∧ |val w - 1| ≤ 1 / 2 ^ 11

theorem keeps_byte {k : Contribution} {n d : Nat} (h : Keeps k n d) (bytes : List UInt8) (off stride : Nat) :
    toByte (weightedSum bytes (k.start * stride + off) stride k.weights 0 0) = bytes.getD (d * stride + off) 0 := by
  obtain ⟨a, w, b, e, hd, ha3, hb3, ha, hb, hw⟩ := h.parts
  refine toByte_near ?_
  rw [e, weightedSum_append, weightedSum]
  have ha3' : (a.length : ℝ) ≤ 3 := by exact_mod_cast ha3
  have hb3' : (b.length : ℝ) ≤ 3 := by exact_mod_cast hb3
  have e0 : val 0 = 0 := by unfold val; norm_num
  have h1 := weightedSum_small bytes (k.start * stride + off) stride a 0 0 ha (by rw [e0, abs_zero]; linarith)
  rw [e0, sub_zero] at h1
  have ei : k.start * stride + off + (0 + a.length) * stride = d * stride + off := by
    rw [← hd, Nat.zero_add, Nat.add_mul]; omega
  rw [ei]
  generalize weightedSum bytes (k.start * stride + off) stride a 0 0 = s at *
  generalize bytes.getD (d * stride + off) 0 = p
  have hp0 : (0 : ℝ) ≤ p.toNat := by positivity
  have hp1 : (p.toNat : ℝ) ≤ 255 := by exact_mod_cast (show p.toNat ≤ 255 by have := p.toNat_lt; omega)
  have hm := val_mul (F32.ofInt p.toNat) w
  have hs := val_add s (F32.mul (F32.ofInt p.toNat) w)
  rw [val_ofInt (by have := p.toNat_lt; omega)] at hm
  have h2 : |(p.toNat : ℝ) * val w - p.toNat| ≤ 255 * (1 / 2 ^ 11) := by
    have e3 : (p.toNat : ℝ) * val w - p.toNat = p.toNat * (val w - 1) := by ring
    rw [e3, abs_mul, abs_of_nonneg hp0]
    exact mul_le_mul hp1 hw (abs_nonneg _) (by norm_num)
  have h3 : |(p.toNat : ℝ) * val w| ≤ 256 := by
    have := abs_sub_abs_le_abs_sub ((p.toNat : ℝ) * val w) (p.toNat : ℝ)
    rw [abs_of_nonneg hp0] at this
    linarith
  generalize F32.mul (F32.ofInt p.toNat) w = t at *
  have h4 : |val t - p.toNat| ≤ 255 * (1 / 2 ^ 11) + 1 / 2 ^ 15 := by
    have := abs_sub_le (val t) (p.toNat * val w) (p.toNat : ℝ)
    linarith
  have h5 : |val t| ≤ 256 := by
    have := abs_sub_abs_le_abs_sub (val t) (p.toNat : ℝ)
    rw [abs_of_nonneg hp0] at this
    linarith
  have h6 : |val s + val t| ≤ 257 := by
    refine (abs_add_le _ _).trans ?_
    linarith
  have h7 : |val (F32.add s t) - p.toNat| ≤ 3 / 2 ^ 5 + 255 * (1 / 2 ^ 11) + 1 / 2 ^ 14 := by
    have e4 : val (F32.add s t) - p.toNat = (val (F32.add s t) - (val s + val t)) + val s + (val t - p.toNat) := by ring
    rw [e4]
    refine (abs_add_three _ _ _).trans ?_
    linarith
  have h8 : |val (F32.add s t)| ≤ 256 := by
    have := abs_sub_abs_le_abs_sub (val (F32.add s t)) (p.toNat : ℝ)
    rw [abs_of_nonneg hp0] at this
    linarith
  have h9 := weightedSum_small bytes (k.start * stride + off) stride b (0 + a.length + 1) (F32.add s t) hb (by linarith)
  have h10 := abs_sub_le (val (weightedSum bytes (k.start * stride + off) stride b (0 + a.length + 1) (F32.add s t)))
    (val (F32.add s t)) (p.toNat : ℝ)
  linarith

/-- The contributions of the same size. -/
theorem contribution_same {sin : Int → Int} (hsin : GoodSine sin) {n d : Nat} (hn : n ≤ 2 ^ 23) (hd : d < n) :
    ∃ k, contribution sin n n d = .ok k ∧ Keeps k n d := by
  have hscale : F32.div (F32.ofInt (n : Int)) (F32.ofInt (n : Int)) = (one : Int) := by
    rw [ofInt_exact (by omega), div_self (by omega)]
  have e2 : (((2 * d + 1) * 2 ^ 148 : Nat) : Int) - ((2 ^ 148 : Nat) : Int) = ((d * one : Nat) : Int) := by
    rw [one_eq]; omega
  have hcenter : F32.sub (F32.mul (F32.add (F32.ofInt d) (F32.lit 1 2)) one) (F32.lit 1 2) = ((d : Int)) * one := by
    rw [add_half (by omega), mul_one_right (rep_nat 148 (by omega)), lit_half,
      sub_exact (by rw [e2]; exact rep_one (by omega)), e2]
    push_cast; rfl
  have hsup : F32.mul (F32.lit 3 1) one = 3 * one := by
    rw [mul_one_right (by rw [lit_three]; exact rep_one (by omega)), lit_three]; push_cast; rfl
  have hlo : F32.sub ((d : Int) * one) (3 * one) = ((d : Int) - 3) * one := by
    rw [sub_exact (by rw [← Int.sub_mul]; exact rep_int (by omega)), Int.sub_mul]
  have hhi : F32.add ((d : Int) * one) (3 * one) = ((d : Int) + 3) * one := by
    rw [add_exact (by rw [← Int.add_mul]; exact rep_int (by omega)), Int.add_mul]
  have hfl : ∀ k : Int, F32.floor (k * one) = k := fun k => by
    unfold F32.floor; exact Int.mul_ediv_cancel _ (by have := F32.one_pos; omega)
  have hce : ∀ k : Int, F32.ceil (k * one) = k := fun k => by
    unfold F32.ceil
    rw [← Int.neg_mul, Int.mul_ediv_cancel _ (by have := F32.one_pos; omega), Int.neg_neg]
  have hker : ∀ i, d - 3 + i < n → kernel sin (F32.div (F32.sub (F32.ofInt ((d - 3 + i : Nat) : Int)) ((d : Int) * one)) one)
      = kernel sin ((((d - 3 + i : Nat) : Int) - d) * one) := by
    intro i hi
    have e3 : ((((d - 3 + i : Nat) * one : Nat) : Int)) - (d : Int) * one = (((d - 3 + i : Nat) : Int) - d) * one := by
      rw [Int.sub_mul]; push_cast; rfl
    rw [ofInt_exact (by omega), sub_exact (by rw [e3]; exact rep_int (by omega)), e3, div_one' (rep_int (by omega))]
  unfold contribution
  simp only
  rw [hscale, lit_one, max_self, hcenter, hsup, hlo, hhi, hfl, hce]
  have es : (((d : Int) - 3)).toNat = d - 3 := by omega
  have et : ((d : Int) + 3).toNat = d + 3 := by omega
  rw [es, et, if_neg (by omega)]
  have hmap : (List.range (min (d + 3 + 1) n - (d - 3))).map
      (fun i => kernel sin (F32.div (F32.sub (F32.ofInt ((d - 3 + i : Nat) : Int)) ((d : Int) * one)) one))
      = (List.range (min (d + 3 + 1) n - (d - 3))).map (fun i => kernel sin ((((d - 3 + i : Nat) : Int) - d) * one)) := by
    refine List.map_congr_left fun i hi => ?_
    have := List.mem_range.1 hi
    exact hker i (by omega)
  rw [hmap]
  have hsplit : List.range (min (d + 3 + 1) n - (d - 3)) = List.range (d - (d - 3)) ++ (d - (d - 3)) ::
      (List.range (min (d + 3 + 1) n - d - 1)).map (fun j => d - (d - 3) + 1 + j) := by
    rw [show min (d + 3 + 1) n - (d - 3) = (d - (d - 3)) + (1 + (min (d + 3 + 1) n - d - 1)) by omega,
      List.range_add, List.range_add]
    simp [Nat.add_assoc]
  rw [hsplit, List.map_append, List.map_cons]
  have hz : kernel sin ((((d - 3 + (d - (d - 3)) : Nat) : Int) - d) * one) = (one : Int) := by
    have e6 : ((((d - 3 + (d - (d - 3)) : Nat) : Int) - d) * one) = 0 := by
      rw [show (((d - 3 + (d - (d - 3)) : Nat) : Int) - d) = 0 by omega, zero_mul]
    rw [e6]
    unfold kernel
    rw [if_pos (by decide +kernel), lit_one]
  rw [hz, List.map_map]
  generalize hA : (List.range (d - (d - 3))).map (fun i => kernel sin ((((d - 3 + i : Nat) : Int) - d) * one)) = A
  generalize hB : (List.range (min (d + 3 + 1) n - d - 1)).map
    ((fun i => kernel sin ((((d - 3 + i : Nat) : Int) - d) * one)) ∘ fun j => d - (d - 3) + 1 + j) = B
  have hAs : ∀ x ∈ A, |val x| ≤ 1 / 2 ^ 15 := by
    intro x hx
    rw [← hA] at hx
    obtain ⟨i, hi, rfl⟩ := List.mem_map.1 hx
    have := List.mem_range.1 hi
    exact kernel_int hsin (by omega)
  have hBs : ∀ x ∈ B, |val x| ≤ 1 / 2 ^ 15 := by
    intro x hx
    rw [← hB] at hx
    obtain ⟨i, hi, rfl⟩ := List.mem_map.1 hx
    have hk := kernel_int (k := (((d - 3 + (d - (d - 3) + 1 + i) : Nat) : Int) - d)) hsin (by omega)
    rw [Function.comp_apply]
    exact hk
  have hAl : A.length = d - (d - 3) := by rw [← hA]; simp
  have hBl : B.length = min (d + 3 + 1) n - d - 1 := by rw [← hB]; simp
  have hAl' : (A.length : ℝ) ≤ 3 := by exact_mod_cast (show A.length ≤ 3 by omega)
  have hBl' : (B.length : ℝ) ≤ 3 := by exact_mod_cast (show B.length ≤ 3 by omega)
  rw [List.foldl_append, List.foldl_cons]
  have e0 : val 0 = 0 := by unfold val; norm_num
  have e1 : val ((one : Nat) : Int) = 1 := by rw [← lit_one]; exact val_one
  have f1 := foldl_small A 0 hAs (by rw [e0, abs_zero]; linarith)
  rw [e0, sub_zero] at f1
  generalize A.foldl F32.add 0 = s1 at *
  have f2 := val_add s1 one
  rw [e1] at f2
  have f3 : |val (F32.add s1 one) - 1| ≤ 3 / 2 ^ 14 + 1 / 2 ^ 20 := by
    have h1 : |val s1 + 1| ≤ 2 := by
      refine (abs_add_le _ _).trans ?_
      rw [abs_one]; linarith
    have e4 : val (F32.add s1 one) - 1 = (val (F32.add s1 one) - (val s1 + 1)) + val s1 := by ring
    rw [e4]
    refine (abs_add_le _ _).trans ?_
    linarith
  have f4 : |val (F32.add s1 one)| ≤ 1 + (3 / 2 ^ 14 + 1 / 2 ^ 20) := by
    have := abs_sub_abs_le_abs_sub (val (F32.add s1 one)) 1
    rw [abs_one] at this
    linarith
  have f5 := foldl_small B (F32.add s1 one) hBs (by linarith)
  generalize B.foldl F32.add (F32.add s1 one) = S at *
  have f6 : |val S - 1| ≤ 1 / 2 ^ 11 - 1 / 2 ^ 13 + 1 / 2 ^ 16 := by
    have := abs_sub_le (val S) (val (F32.add s1 one)) 1
    linarith
  have hSge : 0.99 ≤ val S := by
    rw [abs_le] at f6; linarith [f6.1]
  have hSe : (S.natAbs : Int) > epsilon := by
    have : (2 : ℝ) ^ 126 < S := by
      have h3 : (S : ℝ) = val S * 2 ^ 149 := by unfold val; field_simp
      rw [h3]; linarith
    have h4 : (2 : ℤ) ^ 126 < S := by exact_mod_cast this
    unfold epsilon
    omega
  have hSne : S ≠ 0 := by intro h; rw [h, e0] at hSge; norm_num at hSge
  rw [if_pos hSe]
  have hsm : ∀ x : Int, |val x| ≤ 1 / 2 ^ 15 → |val (divS x S)| ≤ 1 / 2 ^ 14 := by
    intro x hx
    have h1 := val_divS x S hSne
    have h2 : |val x / val S| ≤ 1 / 2 ^ 15 * 1.1 := by
      rw [abs_div, abs_of_pos (show 0 < val S by linarith), div_le_iff₀ (by linarith)]
      linarith
    have := abs_sub_abs_le_abs_sub (val (divS x S)) (val x / val S)
    linarith
  refine ⟨_, rfl, ?_⟩
  refine ⟨by simp only; omega, hd, ?_, ?_⟩
  · simp only [List.length_map, List.length_append, List.length_cons]
    omega
  · refine ⟨A.map (fun w => divS w S), divS one S, B.map (fun w => divS w S), ?_, ?_, ?_, ?_, ?_, ?_, ?_⟩
    · rw [List.map_append, List.map_cons]
    · rw [List.length_map, hAl]; simp only; omega
    · rw [List.length_map]; omega
    · rw [List.length_map]; omega
    · intro x hx
      obtain ⟨y, hy, rfl⟩ := List.mem_map.1 hx
      exact hsm y (hAs y hy)
    · intro x hx
      obtain ⟨y, hy, rfl⟩ := List.mem_map.1 hx
      exact hsm y (hBs y hy)
    · have h1 := val_divS one S hSne
      rw [e1] at h1
      have hS0 : 0 < val S := by linarith
      have h2 : |1 / val S - 1| ≤ 1 / 2 ^ 11 - 1 / 2 ^ 14 := by
        have e5 : 1 / val S - 1 = (1 - val S) / val S := by field_simp
        rw [e5, abs_div, abs_of_pos hS0, abs_sub_comm, div_le_iff₀ hS0]
        linarith
      have h3 : |1 / val S| ≤ 2 := by
        have := abs_sub_abs_le_abs_sub (1 / val S) 1
        rw [abs_one] at this
        linarith
      have := abs_sub_le (val (divS one S)) (1 / val S) 1
      linarith

theorem contributions_same {sin : Int → Int} (hsin : GoodSine sin) {n : Nat} (hn : n ≤ 2 ^ 23) :
    ∃ cs, contributions sin n n = .ok cs ∧ cs.length = n ∧ ∀ d, d < n → Keeps (cs.getD d ⟨0, []⟩) n d := by
  unfold contributions
  have key : ∀ m, m ≤ n → ∃ cs, (List.range m).mapM (contribution sin n n) = .ok cs ∧ cs.length = m ∧
      ∀ d, d < m → Keeps (cs.getD d ⟨0, []⟩) n d := by
    intro m
    induction m with
    | zero => intro _; exact ⟨[], rfl, rfl, fun d hd => by omega⟩
    | succ m ih =>
      intro hm
      obtain ⟨cs, h1, h2, h3⟩ := ih (by omega)
      obtain ⟨k, hk, hkk⟩ := contribution_same hsin hn (show m < n by omega)
      refine ⟨cs ++ [k], ?_, by simp [h2], ?_⟩
      · rw [List.range_succ, List.mapM_append, h1, ok_bind, List.mapM_cons, List.mapM_nil, hk]
        rfl
      · intro d hd
        by_cases hdm : d < m
        · have := h3 d hdm
          rwa [List.getD_eq_getElem?_getD, List.getElem?_append_left (by omega), ← List.getD_eq_getElem?_getD]
        · have : d = m := by omega
          subst this
          rw [List.getD_eq_getElem?_getD, List.getElem?_append_right (by omega), h2, Nat.sub_self]
          exact hkk
  exact key n (Nat.le_refl n)

theorem keeps_mem {cs : List Contribution} {n : Nat} (hl : cs.length = n)
    (h : ∀ d, d < n → Keeps (cs.getD d ⟨0, []⟩) n d) : ∀ k ∈ cs, k.start + k.weights.length ≤ n := by
  intro k hk
  obtain ⟨i, hi, rfl⟩ := List.getElem_of_mem hk
  have := (h i (by omega)).fits
  rw [List.getD_eq_getElem?_getD, List.getElem?_eq_getElem hi] at this
  exact this

/-- A row resampled to its own width. -/
theorem rowOf_same {cs : List Contribution} {row : List UInt8} {n bpp : Nat} (hr : row.length = n * bpp) (hl : cs.length = n)
    (h : ∀ d, d < n → Keeps (cs.getD d ⟨0, []⟩) n d) : rowOf row cs bpp = row := by
  have e : rowOf row cs bpp = ((List.range n).map (fun d => (List.range bpp).map (fun c =>
      row.getD (d * bpp + c) 0))).flatten := by
    unfold rowOf
    congr 1
    refine List.ext_getElem? fun i => ?_
    rw [List.getElem?_map, List.getElem?_map]
    by_cases hi : i < n
    · rw [List.getElem?_range hi, List.getElem?_eq_getElem (by omega)]
      simp only [Option.map_some]
      have hk := h i hi
      rw [List.getD_eq_getElem?_getD, List.getElem?_eq_getElem (by omega)] at hk
      congr 1
      exact List.map_congr_left fun c _ => keeps_byte hk row c bpp
    · rw [List.getElem?_eq_none (by omega), List.getElem?_eq_none (by rw [List.length_range]; omega)]
      rfl
  rw [e]
  refine List.ext_getElem? fun i => ?_
  by_cases hi : i < n * bpp
  · have hb : 0 < bpp := Nat.pos_of_ne_zero fun h0 => by subst h0; simp at hi
    have hq : i / bpp < n := (Nat.div_lt_iff_lt_mul hb).2 hi
    have hm := Nat.mod_lt i hb
    have ei : i / bpp * bpp + i % bpp = i := Nat.div_add_mod' i bpp
    have := flatten_get n bpp (fun d => (List.range bpp).map (fun c => row.getD (d * bpp + c) 0))
      (fun d _ => by simp) hq hm
    rw [ei, List.getElem?_map, List.getElem?_range hm, Option.map_some, ei, List.getD_eq_getElem?_getD,
      List.getElem?_eq_getElem (l := row) (by omega)] at this
    rw [this, List.getElem?_eq_getElem (by omega)]
    rfl
  · rw [List.getElem?_eq_none (by rw [flatten_length n bpp _ (fun d _ => by simp)]; omega),
      List.getElem?_eq_none (by omega)]

/-- One row of the vertical pass to the same height. -/
theorem columnOf_same {k : Contribution} {temp : List UInt8} {n d w bpp : Nat} (hl : temp.length = n * (w * bpp))
    (h : Keeps k n d) : columnOf temp k w bpp = (temp.drop (d * (w * bpp))).take (w * bpp) := by
  have hfit : d * (w * bpp) + w * bpp ≤ temp.length := by
    have := Nat.mul_le_mul_right (w * bpp) (show d + 1 ≤ n from h.high)
    rw [Nat.succ_mul] at this
    omega
  have e : columnOf temp k w bpp = ((List.range w).map (fun x => (List.range bpp).map (fun c =>
      temp.getD (d * (w * bpp) + (x * bpp + c)) 0))).flatten := by
    unfold columnOf
    congr 1
    refine List.map_congr_left fun x _ => List.map_congr_left fun c _ => ?_
    have := keeps_byte h temp (x * bpp + c) (w * bpp)
    rw [← Nat.add_assoc] at this
    exact this
  rw [e]
  refine List.ext_getElem? fun i => ?_
  by_cases hi : i < w * bpp
  · have hb : 0 < bpp := Nat.pos_of_ne_zero fun h0 => by subst h0; simp at hi
    have hq : i / bpp < w := (Nat.div_lt_iff_lt_mul hb).2 hi
    have hm := Nat.mod_lt i hb
    have ei : i / bpp * bpp + i % bpp = i := Nat.div_add_mod' i bpp
    have := flatten_get w bpp (fun x => (List.range bpp).map (fun c => temp.getD (d * (w * bpp) + (x * bpp + c)) 0))
      (fun x _ => by simp) hq hm
    rw [ei, List.getElem?_map, List.getElem?_range hm, Option.map_some, ei, List.getD_eq_getElem?_getD,
      List.getElem?_eq_getElem (l := temp) (by omega)] at this
    rw [this, List.getElem?_take, if_pos hi, List.getElem?_drop, List.getElem?_eq_getElem (by omega)]
    rfl
  · rw [List.getElem?_eq_none (by rw [flatten_length w bpp _ (fun d _ => by simp)]; omega),
      List.getElem?_eq_none (by rw [List.length_take]; omega)]

/-- The rows of an image. -/
theorem rows_flatten {data : List UInt8} {h s : Nat} (hl : data.length = h * s) :
    ((List.range h).map (fun y => (data.drop (y * s)).take s)).flatten = data := by
  induction h generalizing data with
  | zero => rw [Nat.zero_mul] at hl; rw [List.length_eq_zero_iff.1 hl]; rfl
  | succ h ih =>
    rw [Nat.succ_mul] at hl
    rw [List.range_succ_eq_map, List.map_cons, List.flatten_cons, List.map_map, Nat.zero_mul, List.drop_zero]
    have := ih (data := data.drop s) (by rw [List.length_drop]; omega)
    have e : ((fun y => (data.drop (y * s)).take s) ∘ Nat.succ) = fun y => ((data.drop s).drop (y * s)).take s := by
      funext y
      rw [Function.comp_apply, List.drop_drop, Nat.succ_mul, Nat.add_comm]
    rw [e, this, List.take_append_drop]

/-- Lanczos to the same size. -/
theorem lanczos3_same {env : Env} (hsin : GoodSine env.sin) {data : List UInt8} {w h bpp : Nat} (hw : w ≤ 2 ^ 23)
    (hh : h ≤ 2 ^ 23) (hl : data.length = w * h * bpp)
    (h1 : Parallel.Fair env.horizontal h) (h2 : Parallel.Fair env.vertical h) :
    lanczos3 env data w h w h bpp = .ok data := by
  obtain ⟨hc, e1, l1, k1⟩ := contributions_same hsin hw
  obtain ⟨vc, e2, l2, k2⟩ := contributions_same hsin hh
  have hl' : data.length = h * (w * bpp) := by rw [hl, ← Nat.mul_assoc, Nat.mul_comm h]
  rw [lanczos3_eq hl h1 h2 e1 l1 (keeps_mem l1 k1) e2 l2 (keeps_mem l2 k2)]
  congr 1
  unfold lanczosOf
  have hrows : (List.range h).map (fun y => rowOf ((data.drop (y * (w * bpp))).take (w * bpp)) hc bpp)
      = (List.range h).map (fun y => (data.drop (y * (w * bpp))).take (w * bpp)) := by
    refine List.map_congr_left fun y hy => rowOf_same ?_ l1 k1
    have hy' := List.mem_range.1 hy
    have := Nat.mul_le_mul_right (w * bpp) (show y + 1 ≤ h from hy')
    rw [Nat.succ_mul] at this
    rw [List.length_take, List.length_drop]
    omega
  rw [hrows, rows_flatten hl']
  have hcols : (List.range h).map (fun y => columnOf data (vc.getD y ⟨0, []⟩) w bpp)
      = (List.range h).map (fun y => (data.drop (y * (w * bpp))).take (w * bpp)) :=
    List.map_congr_left fun y hy => columnOf_same hl' (k2 y (List.mem_range.1 hy))
  rw [hcols, rows_flatten hl']

end Pixo.Resize
