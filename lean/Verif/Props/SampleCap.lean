import Verif.Proof.AutoQuantize
/-
C116: how many pixels are looked at for a palette.
-/
namespace Pixo.Props.SampleCap
open Pixo Pixo.Quantize
open Pixo.Palette (key)
open Pixo.MatchLength (slice_ok)

theorem sampleLoop_eq {data : List UInt8} {bpp n stride : Nat} (hb : bpp = 3 ∨ bpp = 4) (hl : data.length / bpp = n) (hs : 1 ≤ stride) :
    ∀ (fuel j : Nat), 0 < fuel → n < j + fuel → Oks (sampleLoop data bpp stride fuel (j * bpp)) fun keys =>
      keys = (List.range keys.length).map (fun t => key (pixelAt data bpp (j + t * stride))) ∧ n ≤ j + keys.length * stride ∧
        (0 < keys.length → j + (keys.length - 1) * stride < n) := by
  have hb0 : 0 < bpp := by omega
  have inside : ∀ j, j * bpp + bpp ≤ data.length ↔ j < n := by
    intro j
    rw [← hl, ← Nat.succ_mul, ← Nat.le_div_iff_mul_le hb0]
    exact Iff.rfl
  intro fuel
  induction fuel with
  | zero => intro j h; exact absurd h (by decide)
  | succ fuel ih =>
    intro j _ hf
    rw [sampleLoop]
    by_cases h : j < n
    · rw [if_pos ((inside j).mpr h), slice_ok ((inside j).mpr h), ok_bind]
      have hp : pixel ((data.drop (j * bpp)).take bpp) = .ok (pixelAt data bpp j) := by
        have e : (data.drop (j * bpp)).take bpp = (List.range bpp).map fun i => data.getD (j * bpp + i) 0 := by
          rw [Png.take_eq_range (by
            rw [List.length_drop]
            have := (inside j).mpr h
            omega)]
          exact List.map_congr_left fun i _ => Png.getD_drop ..
        rw [e]
        exact pixel_ok hb j
      rw [hp, ok_bind]
      have hj : j * bpp + stride * bpp = (j + stride) * bpp := by rw [Nat.add_mul]
      rw [hj]
      refine Oks.bind (ih (j + stride) (by omega) (by omega)) fun rest hr => Oks.pure ?_
      obtain ⟨h1, h2, h3⟩ := hr
      rw [List.length_cons]
      refine ⟨?_, by rw [Nat.succ_mul]; omega, fun _ => ?_⟩
      · rw [List.range_succ_eq_map, List.map_cons, List.map_map, Nat.zero_mul, Nat.add_zero]
        refine congrArg (key (pixelAt data bpp j) :: ·) (h1.trans (List.map_congr_left fun t _ => ?_))
        have e : j + stride + t * stride = j + (t + 1) * stride := by rw [Nat.succ_mul]; omega
        rw [e, Function.comp_apply]
      · rw [Nat.add_sub_cancel]
        cases hn : rest.length with
        | zero => omega
        | succ m =>
          rw [hn, Nat.add_sub_cancel] at h3
          have := h3 (by omega)
          rw [Nat.succ_mul]
          omega
    · rw [if_neg fun h' => h ((inside j).mp h')]
      exact Oks.ok ⟨rfl, by simp; omega, fun h' => absurd h' (by simp)⟩

/-- C116: with a cap of `cap` samples (50000 in `quantize_image`, 20000 in `should_quantize_auto`), the colours looked at are those of every
`stride`-th pixel, all pixels of an image of at most `cap`, and otherwise at least `cap` and less than twice as many. Partial: there
can be more than `cap`, see `C116_violated`. -/
theorem C116_partial {data : List UInt8} {bpp cap : Nat} (hb : bpp = 3 ∨ bpp = 4) (hc : 0 < cap) :
    ∃ keys, sampleLoop data bpp (max (data.length / bpp / cap) 1) (data.length / bpp + 1) 0 = .ok keys ∧
      keys = (List.range keys.length).map (fun t => key (pixelAt data bpp (t * max (data.length / bpp / cap) 1))) ∧
      (data.length / bpp ≤ cap → keys.length = data.length / bpp) ∧
      (cap ≤ data.length / bpp → cap ≤ keys.length ∧ keys.length < 2 * cap) := by
  have h := sampleLoop_eq (data := data) hb rfl (stride := max (data.length / bpp / cap) 1) (Nat.le_max_right _ _) (data.length / bpp + 1) 0 (Nat.succ_pos _)
    (by rw [Nat.zero_add]; exact Nat.lt_succ_self _)
  rw [Nat.zero_mul] at h
  unfold Oks at h
  obtain ⟨keys, hk, h1, h2, h3⟩ := h
  simp only [Nat.zero_add] at h1 h2 h3
  refine ⟨keys, hk, h1, ?_⟩
  have hd := Nat.div_add_mod (data.length / bpp) cap
  have hm := Nat.mod_lt (data.length / bpp) hc
  generalize data.length / bpp = n at *
  generalize keys.length = m at *
  rcases Nat.lt_or_ge n cap with hn | hn
  · have e : max (n / cap) 1 = 1 := by rw [Nat.div_eq_of_lt hn]; rfl
    rw [e] at h2 h3
    omega
  · have hq : 1 ≤ n / cap := (Nat.le_div_iff_mul_le hc).mpr (by omega)
    rw [show max (n / cap) 1 = n / cap by omega] at h2 h3
    generalize n / cap = q at *
    have low : cap ≤ m := by
      refine Nat.le_of_mul_le_mul_right (?_ : cap * q ≤ m * q) hq
      omega
    have high : m < 2 * cap := by
      refine Decidable.byContradiction fun hh => ?_
      have h4 := h3 (by omega)
      have h5 : (2 * cap - 1) * q ≤ (m - 1) * q := Nat.mul_le_mul_right _ (by omega)
      obtain ⟨c, rfl⟩ : ∃ c, cap = c + 1 := ⟨cap - 1, by omega⟩
      have h6 : c ≤ c * q := Nat.le_mul_of_pos_right _ hq
      rw [show 2 * (c + 1) - 1 = c + c + 1 by omega, Nat.add_mul, Nat.add_mul] at h5
      rw [Nat.add_mul] at hd
      omega
    refine ⟨fun hle => ?_, fun _ => ⟨low, high⟩⟩
    have hnc : n = cap := by omega
    subst hnc
    have hq1 : q = 1 := by
      refine Nat.le_antisymm ?_ hq
      refine Nat.le_of_mul_le_mul_left (?_ : n * q ≤ n * 1) hc
      omega
    subst hq1
    omega

/-- C116 is false: of an image with one pixel less than twice the cap, every pixel is looked at; so `max_samples` and `sample_cap` do not
hold for any image of 99999 or 39999 pixels. -/
theorem C116_violated {data : List UInt8} {bpp cap : Nat} (hb : bpp = 3 ∨ bpp = 4) (hc : 0 < cap) (hl : data.length / bpp = 2 * cap - 1) :
    ∃ keys, sampleLoop data bpp (max (data.length / bpp / cap) 1) (data.length / bpp + 1) 0 = .ok keys ∧ keys.length = 2 * cap - 1 := by
  have h := sampleLoop_eq (data := data) hb rfl (stride := max (data.length / bpp / cap) 1) (Nat.le_max_right _ _) (data.length / bpp + 1) 0 (Nat.succ_pos _)
    (by rw [Nat.zero_add]; exact Nat.lt_succ_self _)
  rw [Nat.zero_mul] at h
  unfold Oks at h
  obtain ⟨keys, hk, -, h2, h3⟩ := h
  refine ⟨keys, hk, ?_⟩
  have e : (2 * cap - 1) / cap = 1 := by
    refine Nat.le_antisymm (Nat.le_of_lt_succ ((Nat.div_lt_iff_lt_mul hc).mpr (by omega))) ((Nat.le_div_iff_mul_le hc).mpr (by omega))
  rw [hl, e] at h2 h3
  generalize keys.length = m at *
  simp only [Nat.max_self, Nat.mul_one, Nat.zero_add] at h2 h3
  omega

/-- The samples of `quantize_image` are more than `max_samples`. -/
example : ∃ keys, sampleLoop (List.replicate 299997 7) 3 1 100000 0 = .ok keys ∧ 50000 < keys.length := by
  obtain ⟨keys, h, hl⟩ := C116_violated (data := List.replicate 299997 7) (bpp := 3) (cap := 50000) (.inl rfl) (by decide)
    (by rw [List.length_replicate])
  rw [List.length_replicate] at h
  exact ⟨keys, h, by omega⟩

/-- A million pixels: every 20th. -/
example (data : List UInt8) (h : data.length = 4000000) : ∃ keys, sampleLoop data 4 20 1000001 0 = .ok keys ∧ 50000 ≤ keys.length ∧ keys.length < 100000 := by
  obtain ⟨keys, hk, -, -, hl⟩ := C116_partial (data := data) (bpp := 4) (cap := 50000) (.inr rfl) (by decide)
  rw [h] at hk hl
  exact ⟨keys, hk, hl (by decide)⟩

example : sampleLoop [1, 2, 3, 4, 5, 6, 7, 8, 9, 10] 3 2 4 0 = .ok [0x010203FF, 0x070809FF] := by decide +kernel

end Pixo.Props.SampleCap
