import Verif.Props.JpegImage
import Verif.Proof.JpegTrellis
/-
C51: what the trellis quantizer may do to a block.
-/
namespace Pixo.Props
open Spec.T81

/-- A value near a quotient, in reals. -/
theorem near_real {x v : Int} {q : Nat} (h1 : 1 ≤ q) (h2 : q ≤ 255) (hx : -(2 ^ 162) < x ∧ x < 2 ^ 162)
    (h : Jpeg.Near (F32.div x (F32.ofInt q)) v) :
    v = 0 ∨ |(v : ℝ) * ((q : Nat) : ℝ) - (x : ℝ) / 2 ^ 149| ≤ ((q : Nat) : ℝ) * (2 + 1 / 4096) := by
  have hn := Jpeg.div_near (x := x) h1 h2 hx
  generalize F32.div x (F32.ofInt q) = D at *
  by_cases h0 : v = 0
  · exact Or.inl h0
  right
  have hb : D - 2 * 2 ^ 149 ≤ v * 2 ^ 149 ∧ v * 2 ^ 149 ≤ D + 2 * 2 ^ 149 := by
    have hf : D - 2 ^ 149 ≤ F32.floor D * 2 ^ 149 ∧ F32.floor D * 2 ^ 149 ≤ D := by
      unfold F32.floor F32.one; omega
    have hc : D ≤ F32.ceil D * 2 ^ 149 ∧ F32.ceil D * 2 ^ 149 ≤ D + 2 ^ 149 := by
      unfold F32.ceil F32.one; omega
    have hr : D - 2 ^ 149 ≤ F32.round D * 2 ^ 149 ∧ F32.round D * 2 ^ 149 ≤ D + 2 ^ 149 := by
      unfold F32.round F32.one; split <;> omega
    rcases h with h | h | h | h | ⟨_, h⟩ | ⟨_, h⟩
    · exact absurd h h0
    all_goals (subst h; omega)
  have a1 : (D : ℝ) - 2 * 2 ^ 149 ≤ v * 2 ^ 149 := by exact_mod_cast hb.1
  have a2 : (v : ℝ) * 2 ^ 149 ≤ D + 2 * 2 ^ 149 := by exact_mod_cast hb.2
  have b1 : (2 : ℝ) * (D * q) ≤ 2 * x + q * 2 ^ 138 := by exact_mod_cast hn.1
  have b2 : (2 : ℝ) * x ≤ 2 * (D * q) + q * 2 ^ 138 := by exact_mod_cast hn.2
  have hq : (0 : ℝ) ≤ q := Nat.cast_nonneg q
  have a1' := mul_le_mul_of_nonneg_right a1 hq
  have a2' := mul_le_mul_of_nonneg_right a2 hq
  have e : (v : ℝ) * q - x / 2 ^ 149 = (v * q * 2 ^ 149 - x) / 2 ^ 149 := by
    rw [sub_div, mul_div_cancel_right₀ _ (by positivity)]
  rw [e, abs_div, abs_of_pos (show (0 : ℝ) < 2 ^ 149 by positivity), div_le_iff₀ (by positivity), abs_le]
  constructor <;> nlinarith

/-- **C51**. For every block of level shifted samples and every table of steps from 1 to 255 the trellis
quantizer returns a block (no `i16` overflows) whose DC value is that of plain quantization, and each of
whose AC values either is dropped or times its step is within two steps (and the errors of the arithmetic)
of the real DCT coefficient. -/
theorem C51_trellis (b : List Int) (table : List Nat) (hb : ∀ i < 64, -(128 * 2 ^ 149) ≤ b.getD i 0 ∧ b.getD i 0 ≤ 127 * 2 ^ 149)
    (ht : ∀ i < 64, 1 ≤ table.getD i 1 ∧ table.getD i 1 ≤ 255) :
    ∃ r, Jpeg.trellisQuantize (Jpeg.dct2d b) table = .ok r ∧ r.length = 64 ∧
      (∀ i < 64, -1024 ≤ r.getD i 0 ∧ r.getD i 0 ≤ 1023) ∧
      r.getD 0 0 = (Jpeg.quantizeBlock (Jpeg.dct2d b) table).getD 0 0 ∧
      |((r.getD 0 0 : Int) : ℝ) * ((table.getD 0 1 : Nat) : ℝ) -
        fdct (fun y x => ((b.getD (y * 8 + x) 0 : Int) : ℝ) / 2 ^ 149) 0 0| ≤
        ((table.getD 0 1 : Nat) : ℝ) * (1 / 2 + 1 / 4096) + 1 / 20 ∧
      ∀ i < 64, i ≠ 0 → r.getD i 0 = 0 ∨
        |((r.getD i 0 : Int) : ℝ) * ((table.getD i 1 : Nat) : ℝ) -
          fdct (fun y x => ((b.getD (y * 8 + x) 0 : Int) : ℝ) / 2 ^ 149) (i / 8) (i % 8)| ≤
        ((table.getD i 1 : Nat) : ℝ) * (2 + 1 / 4096) + 1 / 20 := by
  have hs : Jpeg.Samples b := fun i hi => by
    have := hb i hi
    unfold Jpeg.smLo Jpeg.smHi
    omega
  have hq := Jpeg.quotient_range ht hs
  obtain ⟨r, e, hl, hdc, hac⟩ := Jpeg.trellisQuantize_spec (Jpeg.dct2d b) table (fun n hn => (hq n hn).2.2)
  have hdc' : r.getD 0 0 = (Jpeg.quantizeBlock (Jpeg.dct2d b) table).getD 0 0 := by
    unfold Jpeg.quantizeBlock
    rw [hdc, Jpeg.getD_map_range 64 _ 0 0 (by decide), Jpeg.toI16_id]
    have := (hq 0 (by decide)).2.1 rfl
    omega
  refine ⟨r, e, hl, ?_, hdc', ?_, ?_⟩
  · intro i hi
    by_cases h0 : i = 0
    · subst h0
      rw [hdc]
      have := (hq 0 hi).2.1 rfl
      omega
    · have := Jpeg.near_bound (B := 1022) (by decide) ((hq i hi).1 h0).1 ((hq i hi).1 h0).2 (hac i hi h0)
      omega
  · have h1 := quantize_real b table ht hs 0 (by decide)
    have h2 := Jpeg.dct2d_fdct b hs 0 0 (by decide) (by decide)
    rw [hdc']
    exact (abs_sub_le _ _ _).trans (add_le_add h1 h2)
  · intro i hi h0
    have hx : -(2 ^ 162) < (Jpeg.dct2d b).getD i 0 ∧ (Jpeg.dct2d b).getD i 0 < 2 ^ 162 := by
      have := (Jpeg.dct2d_range b hs i hi).1 h0
      omega
    rcases near_real (ht i hi).1 (ht i hi).2 hx (hac i hi h0) with h | h
    · exact Or.inl h
    · right
      have h2 := Jpeg.dct2d_fdct b hs (i / 8) (i % 8) (by omega) (by omega)
      rw [show i / 8 * 8 + i % 8 = i by omega] at h2
      exact (abs_sub_le _ _ _).trans (add_le_add h h2)

/-- A ramp of samples with the steps of quality 50, quantized by the trellis: coefficients survive. -/
example : ∃ r, Jpeg.trellisQuantize (Jpeg.dct2d ((List.range 64).map (fun i => ((i : Nat) - 64 : Int) * 2 ^ 149)))
    Jpeg.stdLuminance = .ok r ∧ r.length = 64 :=
  let ⟨r, e, l, _⟩ := C51_trellis _ Jpeg.stdLuminance (by decide +kernel) (by decide +kernel)
  ⟨r, e, l⟩

end Pixo.Props
