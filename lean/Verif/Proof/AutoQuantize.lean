import Verif.Proof.PngEncode
/-
What `should_quantize_auto` decides (src/png/mod.rs:1708-1762), and that the encoder depends on the
quantization mode in no other way.
-/
namespace Pixo.Quantize
open Pixo.Palette (Rgba key key_inj sortKeys dedup mem_dedup palette_nodup mem_palette)
open Pixo.MatchLength (slice_ok)

/-- The keys of the sampled pixels are those of pixels `j`, `j + stride`, … -/
theorem sampleLoop_mem {data : List UInt8} {bpp n stride : Nat} (hb : bpp = 3 ∨ bpp = 4) (hl : data.length = n * bpp)
    (hs : 1 ≤ stride) : ∀ (fuel j : Nat), 0 < fuel → n < j + fuel →
    Oks (sampleLoop data bpp stride fuel (j * bpp)) fun keys => ∀ k, k ∈ keys ↔
      ∃ t, j + t * stride < n ∧ k = key (pixelAt data bpp (j + t * stride)) := by
  have hb0 : 0 < bpp := by omega
  intro fuel
  induction fuel with
  | zero => intro j h; exact absurd h (by decide)
  | succ fuel ih =>
    intro j _ hf
    rw [sampleLoop]
    by_cases h : j < n
    · rw [if_pos (by rw [hl]; exact (mul_lt hb0).mpr h), slice_ok (by rw [hl]; exact (mul_lt hb0).mpr h), ok_bind]
      have hp : pixel ((data.drop (j * bpp)).take bpp) = .ok (pixelAt data bpp j) := by
        have e : (data.drop (j * bpp)).take bpp = (List.range bpp).map fun i => data.getD (j * bpp + i) 0 := by
          rw [Png.take_eq_range (by
            rw [List.length_drop, hl]
            have := (mul_lt hb0).mpr h
            omega)]
          exact List.map_congr_left fun i _ => Png.getD_drop ..
        rw [e]
        exact pixel_ok hb j
      rw [hp, ok_bind]
      have hj : j * bpp + stride * bpp = (j + stride) * bpp := by rw [Nat.add_mul]
      rw [hj]
      refine Oks.bind (ih (j + stride) (by omega) (by omega)) fun rest hr => Oks.pure fun k => ?_
      rw [List.mem_cons, hr k]
      constructor
      · rintro (e | ⟨t, ht, e⟩)
        · exact ⟨0, by simpa using h, by simpa using e⟩
        · refine ⟨t + 1, ?_, ?_⟩
          · rw [Nat.succ_mul]; omega
          · rw [e, Nat.succ_mul]; congr 2; omega
      · rintro ⟨t, ht, e⟩
        cases t with
        | zero => exact .inl (by simpa using e)
        | succ t =>
          rw [Nat.succ_mul] at ht e
          exact .inr ⟨t, by omega, by rw [e]; congr 2; omega⟩
    · rw [if_neg (by rw [hl]; intro h'; exact h ((mul_lt hb0).mp h'))]
      refine Oks.ok fun k => ⟨fun h => (by cases h), ?_⟩
      rintro ⟨t, ht, -⟩
      exact absurd (Nat.le_add_right j (t * stride)) (by omega)

/-- The counting loop counts the runs, or finds that they are more than the threshold. -/
theorem uniqueLoop_eq (th : Nat) : ∀ (ks : List Nat) (prev c : Nat), 1 ≤ c →
    (∀ u, uniqueLoop th ks prev c = some u → u + 1 = c + (dedup (prev :: ks)).length) ∧
    (uniqueLoop th ks prev c = none → th + 1 < c + (dedup (prev :: ks)).length)
  | [], prev, c, hc => by
    refine ⟨fun u h => ?_, fun h => by cases h⟩
    simp only [uniqueLoop, Option.some.injEq] at h
    simp [dedup, h]
  | k :: ks, prev, c, hc => by
    rw [uniqueLoop, dedup]
    by_cases h : k = prev
    · subst h
      rw [if_neg (by simp), if_pos rfl]
      exact uniqueLoop_eq th ks k c hc
    · rw [if_pos h, if_neg (Ne.symm h), List.length_cons]
      have ih := uniqueLoop_eq th ks k (c + 1) (by omega)
      have h1 : 1 ≤ (dedup (k :: ks)).length := by
        have : k ∈ dedup (k :: ks) := (mem_dedup _).mpr List.mem_cons_self
        exact List.length_pos_of_mem this
      split
      · exact ⟨fun u h => (by cases h), fun _ => (by omega)⟩
      · exact ⟨fun u hu => by have := ih.1 u hu; omega, fun hu => by have := ih.2 hu; omega⟩

theorem unique_eq (th : Nat) (keys : List Nat) :
    (∀ u, unique th keys = some u → u = (dedup keys).length) ∧
    (unique th keys = none → th < (dedup keys).length) := by
  cases keys with
  | nil => exact ⟨fun u h => by simp only [unique, Option.some.injEq] at h; simp [dedup, ← h], fun h => by cases h⟩
  | cons k ks =>
    have := uniqueLoop_eq th ks k 1 (by omega)
    exact ⟨fun u h => by have := this.1 u h; omega, fun h => by have := this.2 h; omega⟩

/-- The decision: more than `m` and at most `32 m` distinct keys among the sampled pixels. -/
theorem shouldQuantizeAuto_eq {data : List UInt8} {bpp n : Nat} (hb : bpp = 3 ∨ bpp = 4) (hl : data.length = n * bpp)
    (hn : 0 < n) (m : Nat) : ∃ keys : List Nat, keys.Nodup ∧
      (∀ k, k ∈ keys ↔ ∃ t, t * max (n / 20000) 1 < n ∧ k = key (pixelAt data bpp (t * max (n / 20000) 1))) ∧
      shouldQuantizeAuto data bpp m = .ok (decide (m < keys.length ∧ keys.length ≤ m * 32)) := by
  have h0 := sampleLoop_mem hb hl (stride := max (n / 20000) 1) (by omega) (n + 1) 0 (by omega) (by omega)
  rw [Nat.zero_mul] at h0
  obtain ⟨keys, e, hk⟩ := h0.out
  refine ⟨dedup (sortKeys keys), palette_nodup keys, fun k => ?_, ?_⟩
  · rw [mem_palette, hk k]; simp only [Nat.zero_add]
  · have hd : data.length / bpp = n := by rw [hl]; exact Nat.mul_div_cancel _ (by omega)
    unfold shouldQuantizeAuto
    dsimp only
    rw [hd, if_neg (by omega), if_neg (by omega), e, ok_bind]
    have hu := unique_eq (m * 32) (sortKeys keys)
    cases h : unique (m * 32) (sortKeys keys) with
    | none =>
      have := hu.2 h
      dsimp only
      rw [decide_eq_false (by omega)]
      rfl
    | some u =>
      rw [hu.1 u h]
      dsimp only
      rw [Bool.decide_and]
      rfl

end Pixo.Quantize

namespace Pixo.Png

/-- The options with another quantization mode. -/
def Options.withMode (o : Options) (m : Mode) : Options := { o with quantization := { o.quantization with mode := m } }

theorem encodeWith_mode (env : Env) (pool : Deflate.Pool) (output data : List UInt8) (o : Options) (m m' : Mode)
    (h : shouldQuantize data (o.withMode m) = shouldQuantize data (o.withMode m')) :
    encodeWith env pool output data (o.withMode m) = encodeWith env pool output data (o.withMode m') := by
  unfold encodeWith
  rw [h]
  rfl

end Pixo.Png
