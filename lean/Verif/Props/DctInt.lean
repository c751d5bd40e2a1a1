import Verif.Proof.DctIntReal
/-
The integer DCT of src/jpeg/dct.rs and its vector versions.
-/
namespace Pixo.Props
open Pixo Spec.T81 Real

/-- C61: on every block of `i16` the scalar, the AVX2 and the NEON version give the same coefficients, as
does the version that chooses among them on any machine, in builds with and without overflow checks.
None panics. -/
theorem C61_same (ck ck' : Bool) (cpu : DctInt.Cpu) (block : List Int) (hl : block.length = 64)
    (h : ∀ i < 64, -2 ^ 15 ≤ block.getD i 0 ∧ block.getD i 0 < 2 ^ 15) :
    ∃ out, DctInt.dct ck block = .ok out ∧ out.length = 64 ∧ DctInt.dctAvx2 ck' block = .ok out ∧
      DctInt.dctNeon ck' block = .ok out ∧ DctInt.dctFast cpu ck' block = .ok out := by
  have hs : DctInt.Small block := fun i hi => by have := h i hi; omega
  exact ⟨_, DctInt.dct_eq hs, by simp [DctInt.result, List.length_flatMap], DctInt.dctAvx2_eq hs, DctInt.dctNeon_eq hl hs,
    DctInt.dctFast_eq hl hs⟩

example : (List.replicate 63 (32767 : Int) ++ [-32768]).length = 64 ∧
    (∀ i < 64, -2 ^ 15 ≤ (List.replicate 63 (32767 : Int) ++ [-32768]).getD i 0 ∧
      (List.replicate 63 (32767 : Int) ++ [-32768]).getD i 0 < 2 ^ 15) ∧
    (DctInt.dct true (List.replicate 63 (32767 : Int) ++ [-32768])).toOption.map (·.take 2) = some [253944, 2841] := by
  decide +kernel

/-- C60 for the frequencies the first pass scales: for every block whose samples are at most `b` in
absolute value, the coefficients of horizontal frequency 0 and 4 are within `16/25 + b/800` of the exact
transform; the others are within `33/20 + b/1600` of a quarter of it.

Missing for C60: that the others are near the exact transform itself, which is false (`C60_violated`). -/
theorem C60_partial (ck : Bool) (block : List Int) (b : Nat) (hb : b < 2 ^ 15) (h : ∀ i < 64, (block.getD i 0).natAbs ≤ b) :
    ∃ out, DctInt.dct ck block = .ok out ∧ out.length = 64 ∧ ∀ v < 8, ∀ u < 8,
      (u = 0 ∨ u = 4 →
        |(out.getD (8 * v + u) 0 : ℝ) - fdct (fun y x => (block.getD (8 * y + x) 0 : ℝ)) v u| ≤ 16 / 25 + b / 800) ∧
      (¬(u = 0 ∨ u = 4) →
        |(out.getD (8 * v + u) 0 : ℝ) - fdct (fun y x => (block.getD (8 * y + x) 0 : ℝ)) v u / 4| ≤ 33 / 20 + b / 1600) :=
  ⟨_, DctInt.dct_eq (fun i hi => by have := h i hi; omega), by simp [DctInt.result, List.length_flatMap],
    fun _ hv _ hu => ⟨fun hu' => DctInt.result_scaled h hv hu', fun hu' => DctInt.result_unscaled h hv hu hu'⟩⟩

/-- A vertical edge. -/
def edge : List Int := (List.range 64).map (fun i => if i % 8 < 4 then 127 else -128)

example : ∀ i < 64, (edge.getD i 0).natAbs ≤ 128 := by decide +kernel

/-- C60 fails: there is a block of samples in `-128 .. 127` for which a coefficient is off by more than
600 (it is 231 and should be 924). -/
theorem C60_violated (ck : Bool) : ∃ out, DctInt.dct ck edge = .ok out ∧
    600 < |(out.getD 1 0 : ℝ) - fdct (fun y x => (edge.getD (8 * y + x) 0 : ℝ)) 0 1| := by
  obtain ⟨out, h1, -, h2⟩ := C60_partial ck edge 128 (by omega) (by decide +kernel)
  refine ⟨out, h1, ?_⟩
  have h3 := (h2 0 (by omega) 1 (by omega)).2 (by omega)
  have e : out.getD 1 0 = 231 := by
    have : ∀ ck, (DctInt.dct ck edge).toOption.map (fun l => l.getD 1 0) = some 231 := by decide +kernel
    have := this ck
    rw [h1] at this
    exact Option.some.inj this
  rw [show 8 * 0 + 1 = 1 from rfl, e] at h3
  rw [e]
  generalize fdct _ 0 1 = f at *
  push_cast at *
  rw [abs_le] at h3
  rw [lt_abs]
  exact .inr (by linarith [h3.1, h3.2])

/-- `n` is `c / q` rounded to the nearest integer, halves away from zero. -/
def Nearest (c q n : Int) : Prop := 2 * (c - n * q).natAbs ≤ q ∧ (2 * (c - n * q).natAbs = q → c.natAbs ≤ (n * q).natAbs)

theorem nearest_div {c q : Int} (hq : 0 < q) : Nearest c q ((if 0 ≤ c then c + q / 2 else c - q / 2).tdiv q) := by
  have h2 : q = 2 * (q / 2) + q % 2 ∧ 0 ≤ q % 2 ∧ q % 2 ≤ 1 := by omega
  unfold Nearest
  generalize q / 2 = k at *
  generalize q % 2 = e at *
  split
  · rename_i hc
    rw [Int.tdiv_eq_ediv_of_nonneg (by omega)]
    have h1 := Int.emod_add_mul_ediv (c + k) q
    have h3 := Int.emod_nonneg (c + k) (b := q) (by omega)
    have h4 := Int.emod_lt_of_pos (c + k) hq
    rw [Int.mul_comm] at h1
    generalize hm : (c + k) / q * q = m at *
    generalize (c + k) % q = r at *
    have : 0 ≤ m := by
      rw [← hm]; exact Int.mul_nonneg (Int.ediv_nonneg (by omega) (by omega)) (by omega)
    omega
  · rename_i hc
    have e1 : c - k = -(k - c) := by omega
    rw [e1, Int.neg_tdiv, Int.tdiv_eq_ediv_of_nonneg (by omega)]
    have h1 := Int.emod_add_mul_ediv (k - c) q
    have h3 := Int.emod_nonneg (k - c) (b := q) (by omega)
    have h4 := Int.emod_lt_of_pos (k - c) hq
    rw [Int.mul_comm] at h1
    rw [Int.neg_mul]
    generalize hm : (k - c) / q * q = m at *
    generalize (k - c) % q = r at *
    have : 0 ≤ m := by
      rw [← hm]; exact Int.mul_nonneg (Int.ediv_nonneg (by omega) (by omega)) (by omega)
    omega

theorem nearest_abs {c q n : Int} (hq : 0 < q) (h : Nearest c q n) : n.natAbs ≤ c.natAbs := by
  by_cases hn : n = 0
  · subst hn; omega
  · have h1 : q ≤ (n * q).natAbs := by
      rw [Int.natAbs_mul]
      have : 1 ≤ n.natAbs := by omega
      have := Nat.mul_le_mul_right q.natAbs this
      omega
    have h2 : n.natAbs ≤ (n * q).natAbs - (q - 1).natAbs := by
      rw [Int.natAbs_mul]
      obtain ⟨a, ha⟩ : ∃ a, n.natAbs = a + 1 := ⟨n.natAbs - 1, by omega⟩
      obtain ⟨d, hd⟩ : ∃ d, q.natAbs = d + 1 := ⟨q.natAbs - 1, by omega⟩
      rw [ha, hd, show (q - 1).natAbs = d by omega]
      have : (a + 1) * (d + 1) = a * d + a + d + 1 := by ring
      have : 0 ≤ a * d := Nat.zero_le _
      omega
    unfold Nearest at h
    generalize n * q = m at *
    omega

/-- C62: for coefficients that fit 16 bits and table entries from 1 to 65535, `quantize_block_integer` in
any build gives 64 values, each the quotient rounded to the nearest integer, halves away from zero. -/
theorem C62_quantize (ck : Bool) (dct : List Int) (table : List Nat) (hd : ∀ i < 64, (dct.getD i 0).natAbs ≤ 32767)
    (ht : ∀ i < 64, 0 < table.getD i 0 ∧ table.getD i 0 < 2 ^ 16) :
    ∃ out, DctInt.quantize ck dct table = .ok out ∧ out.length = 64 ∧
      ∀ i < 64, Nearest (dct.getD i 0) (table.getD i 0) (out.getD i 0) := by
  refine ⟨(List.range 64).map (fun i => (if 0 ≤ dct.getD i 0 then dct.getD i 0 + (table.getD i 0 : Int) / 2
      else dct.getD i 0 - (table.getD i 0 : Int) / 2).tdiv (table.getD i 0)), ?_, by simp, fun i hi => ?_⟩
  · unfold DctInt.quantize
    refine Jpeg.mapM_pure _ _ _ (fun i hi => ?_)
    have hi := List.mem_range.mp hi
    have h1 := hd i hi
    have h2 := ht i hi
    have hn := nearest_abs (by omega) (nearest_div (c := dct.getD i 0) (q := (table.getD i 0 : Int)) (by omega))
    unfold DctInt.quantizeOne
    generalize dct.getD i 0 = c at *
    generalize table.getD i 0 = q at *
    rw [Idct.i32_fits (by split <;> omega), ok_bind, if_neg (by omega)]
    unfold Idct.wrap16
    generalize Int.tdiv _ _ = n at *
    have : (n + 2 ^ 15) % 2 ^ 16 - 2 ^ 15 = n := by omega
    rw [this]
    rfl
  · rw [Idct.range_getD _ _ _ hi]
    exact nearest_div (by have := ht i hi; omega)

/-- C62: a zero in the table panics. -/
theorem C62_zero (ck : Bool) (dct : List Int) (table : List Nat) (hd : ∀ i < 64, (dct.getD i 0).natAbs ≤ 32767)
    (ht : ∀ i < 64, table.getD i 0 < 2 ^ 16) (hz : ∃ i < 64, table.getD i 0 = 0) :
    DctInt.quantize ck dct table = .error .panic := by
  have one : ∀ i < 64, (table.getD i 0 = 0 → DctInt.quantizeOne ck (dct.getD i 0) (table.getD i 0) = .error .panic) ∧
      ∃ r, DctInt.quantizeOne ck (dct.getD i 0) (table.getD i 0) = r ∧ (r = .error .panic ∨ ∃ v, r = .ok v) := by
    intro i hi
    have h1 := hd i hi
    have h2 := ht i hi
    unfold DctInt.quantizeOne
    generalize dct.getD i 0 = c at *
    generalize table.getD i 0 = q at *
    rw [Idct.i32_fits (by split <;> omega), ok_bind]
    exact ⟨fun h => by rw [if_pos h], _, rfl, by split <;> [exact .inl rfl; exact .inr ⟨_, rfl⟩]⟩
  unfold DctInt.quantize
  obtain ⟨j, hj, hz⟩ := hz
  have key : ∀ l : List Nat, (∀ i ∈ l, i < 64) → j ∈ l →
      l.mapM (fun i => DctInt.quantizeOne ck (dct.getD i 0) (table.getD i 0)) = .error .panic := by
    intro l
    induction l with
    | nil => intro _ h; cases h
    | cons a l ih =>
      intro hl hm
      rw [List.mapM_cons]
      obtain ⟨h0, r, h1, h2⟩ := one a (hl a List.mem_cons_self)
      rcases h2 with rfl | ⟨v, rfl⟩
      · rw [h1]; rfl
      · rcases List.mem_cons.mp hm with rfl | hm
        · rw [h0 hz] at h1; cases h1
        · rw [h1, ok_bind, ih (fun i hi => hl i (List.mem_cons_of_mem _ hi)) hm]; rfl
  exact key _ (fun i hi => List.mem_range.mp hi) (List.mem_range.mpr hj)

/-- What the transform gives for samples of eight bits meets `C62_quantize`. -/
theorem C62_transform (ck : Bool) (block : List Int) (table : List Nat) (h : ∀ i < 64, (block.getD i 0).natAbs ≤ 128)
    (ht : ∀ i < 64, 0 < table.getD i 0 ∧ table.getD i 0 < 2 ^ 16) :
    ∃ dct out, DctInt.dct ck block = .ok dct ∧ DctInt.quantize ck dct table = .ok out ∧ out.length = 64 ∧
      ∀ i < 64, Nearest (dct.getD i 0) (table.getD i 0) (out.getD i 0) := by
  have hb : ∀ i < 64, ((DctInt.result block).getD i 0).natAbs ≤ 32767 := by
    intro i hi
    have e := DctInt.result_get block (i / 8) (i % 8) (by omega) (by omega)
    rw [show 8 * (i / 8) + i % 8 = i by omega] at e
    have h1 : ∀ r < 8, ∀ k < 8, -4112 ≤ DctInt.work block r k ∧ DctInt.work block r k ≤ 4112 := by
      intro r hr k hk
      have := DctInt.passI_bound (d := fun i => block.getD (8 * r + i) 0) (b := 128)
        (fun i hi => by have := h (8 * r + i) (by omega); omega) k hk
      unfold DctInt.work
      generalize DctInt.passI _ k = x at *
      split <;> omega
    have h2 := DctInt.passI_bound (d := fun r => DctInt.work block r (i % 8)) (b := 4112)
      (fun r hr => h1 r hr _ (by omega)) (i / 8) (by omega)
    rw [e]
    unfold DctInt.total
    generalize DctInt.passI _ _ = x at *
    omega
  obtain ⟨out, h1, h2, h3⟩ := C62_quantize ck _ table hb ht
  exact ⟨_, out, DctInt.dct_eq (fun i hi => by have := h i hi; omega), h1, h2, h3⟩

example : (∀ i < 64, 0 < (List.replicate 64 16).getD i 0 ∧ (List.replicate 64 16).getD i 0 < 2 ^ 16) ∧
    ((DctInt.dct true edge).bind (fun d => DctInt.quantize true d (List.replicate 64 16))).toOption.map (·.take 4) =
      some [0, 14, 0, -5] := by
  decide +kernel

/-- A zero table: the hypotheses of `C62_zero`. -/
example : (∀ i < 64, ((List.replicate 64 (5 : Int)).getD i 0).natAbs ≤ 32767) ∧ (∀ i < 64, ([1, 0] : List Nat).getD i 0 < 2 ^ 16) ∧
    ∃ i < 64, ([1, 0] : List Nat).getD i 0 = 0 := by
  exact ⟨by decide +kernel, by decide +kernel, 1, by decide, rfl⟩

end Pixo.Props
