import Verif.Props.TrellisLambda
/-
C102: whether the trellis quantizer counts the bits of what is written (src/jpeg/trellis.rs:5-15, 112-131,
174-179).
-/
namespace Pixo.Props
open Spec.Trellis
open Pixo.Resize (val)

theorem bits_written_run (run : Nat) (vs : List Int) :
    bits (run % 16) vs + 10 * (run / 16 : Nat) + (if 0 < zerosAtEnd run vs ∧ zerosAtEnd run vs % 16 = 0 then 4 else 0) =
      written run vs + 10 * (zerosAtEnd run vs / 16 : Nat) := by
  induction vs generalizing run with
  | nil =>
    unfold bits written zerosAtEnd
    by_cases h0 : 0 < run
    · by_cases h1 : run % 16 = 0
      · rw [if_neg (by omega), if_pos ⟨h0, h1⟩, if_pos h0]; ring
      · rw [if_pos (by omega), if_neg (by omega), if_pos h0]; ring
    · rw [if_neg (by omega), if_neg (by omega), if_neg h0]; ring
  | cons v vs ih =>
    by_cases hv : v = 0
    · have e1 : zerosAtEnd run (v :: vs) = zerosAtEnd (run + 1) vs := by rw [zerosAtEnd, if_pos hv]
      have e2 : written run (v :: vs) = written (run + 1) vs := by rw [written, if_pos hv]
      rw [e1, e2, ← ih (run + 1)]
      by_cases h15 : run % 16 = 15
      · have e3 : bits (run % 16) (v :: vs) = 10 + bits 0 vs := by rw [bits, if_pos hv, if_pos h15]
        rw [e3, show (run + 1) % 16 = 0 by omega, show (run + 1) / 16 = run / 16 + 1 by omega]
        push_cast
        ring
      · have e3 : bits (run % 16) (v :: vs) = bits (run % 16 + 1) vs := by rw [bits, if_pos hv, if_neg h15]
        rw [e3, show (run + 1) % 16 = run % 16 + 1 by omega, show (run + 1) / 16 = run / 16 by omega]
    · have e1 : zerosAtEnd run (v :: vs) = zerosAtEnd 0 vs := by rw [zerosAtEnd, if_neg hv]
      have e2 : written run (v :: vs) = 10 * (run / 16 : Nat) + codeBits (run % 16) (size v) + size v + written 0 vs := by
        rw [written, if_neg hv]
      have e3 : bits (run % 16) (v :: vs) = codeBits (run % 16) (size v) + size v + bits 0 vs := by rw [bits, if_neg hv]
      have h := ih 0
      simp only [Nat.zero_mod, Nat.zero_div, Nat.cast_zero, mul_zero, add_zero] at h
      rw [e1, e2, e3]
      linarith

/-- The full statement, which fails (`C102_violation`): among the values considered none cost less, in the bits of
what is written and the error, than those returned. -/
def C102_full : Prop := ∀ dct table r, TrellisInput dct table →
  ((acCoefs dct table).filter (fun c => c.1 ≠ 0)).length ≤ 5 → Jpeg.trellisQuantize dct table = .ok r →
  ∀ w, AllowedSeq (acCoefs dct table) w →
    written 0 (acValues r) + squares (acCoefs dct table) (acValues r) ≤ written 0 w + squares (acCoefs dct table) w

/-- **C102**, what is counted: the bits of what is written, and ten more for every sixteen zeros at the end, for
which nothing is written, less the end of block if the zeros at the end are a multiple of sixteen. So the count is
right if there are fewer than sixteen zeros at the end. -/
theorem C102_count_partial (values : List Int) :
    (bits 0 values = written 0 values + 10 * (zerosAtEnd 0 values / 16 : Nat) -
      (if 0 < zerosAtEnd 0 values ∧ zerosAtEnd 0 values % 16 = 0 then 4 else 0)) ∧
    (zerosAtEnd 0 values < 16 → bits 0 values = written 0 values) := by
  have h := bits_written_run 0 values
  simp only [Nat.zero_mod, Nat.zero_div, Nat.cast_zero, mul_zero, add_zero] at h
  refine ⟨by linarith, ?_⟩
  intro hz
  rw [if_neg (by omega), show zerosAtEnd 0 values / 16 = 0 by omega] at h
  simpa using h

/-- **C102**, what the search finds, for at most seven AC coefficients: nothing considered that has as many zeros at
the end costs less, in the bits of what is written and the error, up to rounding. -/
theorem C102_search_partial (dct : List Int) (table : List Nat) (h : TrellisInput dct table)
    (h7 : SevenCoefs dct table) :
    ∃ r, Jpeg.trellisQuantize dct table = .ok r ∧ ∀ w, AllowedSeq (acCoefs dct table) w →
      zerosAtEnd 0 w = zerosAtEnd 0 (acValues r) →
      written 0 (acValues r) + squares (acCoefs dct table) (acValues r) ≤
        written 0 w + squares (acCoefs dct table) w +
          (shareFor dct table * (total 1 (acCoefs dct table) (acValues r) + total 1 (acCoefs dct table) w) + 1 / 2 ^ 97) := by
  obtain ⟨r, e, _, _, m⟩ := C82_seven_partial (F32.lit 1 1) (by decide +kernel) (by decide +kernel) dct table h h7
  refine ⟨r, e, fun w hw hz => ?_⟩
  have v1 : val (F32.lit 1 1) = 1 := by
    rw [F32.lit_one, F32.one_eq]; unfold val; push_cast; norm_num
  have q := m w hw
  rw [v1] at q
  have c1 := (C102_count_partial (acValues r)).1
  have c2 := (C102_count_partial w).1
  rw [hz] at c2
  have t1 : total 1 (acCoefs dct table) (acValues r) = bits 0 (acValues r) + squares (acCoefs dct table) (acValues r) := by
    unfold total; ring
  have t2 : total 1 (acCoefs dct table) w = bits 0 w + squares (acCoefs dct table) w := by unfold total; ring
  linarith

/-! ### Where it fails -/

/-- A block with one AC coefficient, of 2, the sixteenth in zigzag order. -/
def sixteenth : List Int := (List.range 64).map fun n => if n = Spec.T81.zigzag.getD 16 0 then 2 * 2 ^ 149 else 0

/-- What the trellis quantizer makes of it. -/
def sixteenthKept : List Int := (List.range 64).map fun n => if n = Spec.T81.zigzag.getD 16 0 then 1 else 0

theorem sixteenth_kept : Jpeg.trellisQuantize sixteenth (List.replicate 64 2) = .ok sixteenthKept := by decide +kernel

/-- **C102**, violated: the coefficient is kept at a price of 15.8 bits, because without it the zeros at the end
would be taken for 34 bits; to drop it would take four bits and an error of 4. -/
theorem C102_violation : ∃ dct table r w, TrellisInput dct table ∧
    ((acCoefs dct table).filter (fun c => c.1 ≠ 0)).length = 1 ∧ Jpeg.trellisQuantize dct table = .ok r ∧
    AllowedSeq (acCoefs dct table) w ∧
    written 0 (acValues r) = 158 / 10 ∧ squares (acCoefs dct table) (acValues r) = 0 ∧
    written 0 w = 4 ∧ squares (acCoefs dct table) w = 4 := by
  refine ⟨sixteenth, List.replicate 64 2, sixteenthKept, List.replicate 63 0, by unfold TrellisInput; decide +kernel,
    by decide +kernel, sixteenth_kept, ⟨by decide +kernel, fun p hp => Or.inl ?_⟩, ?_, ?_, ?_, ?_⟩
  · exact (List.mem_replicate.1 (List.of_mem_zip hp).2).2
  · have h := (C102_count_partial (acValues sixteenthKept)).1
    rw [bits_tenths, show bitTenths 0 (acValues sixteenthKept) = 358 by decide +kernel,
      show zerosAtEnd 0 (acValues sixteenthKept) = 47 by decide +kernel] at h
    norm_num at h
    linarith
  · rw [squares_units, show squareUnits (acCoefs sixteenth (List.replicate 64 2)) (acValues sixteenthKept) = 0 by
      decide +kernel]; norm_num
  · have h := (C102_count_partial (List.replicate 63 0)).1
    rw [bits_tenths, show bitTenths 0 (List.replicate 63 0) = 340 by decide +kernel,
      show zerosAtEnd 0 (List.replicate 63 0) = 63 by decide +kernel] at h
    norm_num at h
    linarith
  · rw [squares_units, show squareUnits (acCoefs sixteenth (List.replicate 64 2)) (List.replicate 63 0) =
      4 * (2 ^ 149 * 2 ^ 149) by decide +kernel]; norm_num

theorem C102_full_fails : ¬ C102_full := by
  intro h
  obtain ⟨dct, table, r, w, h1, h2, h3, h4, h5, h6, h7, h8⟩ := C102_violation
  have := h dct table r h1 (by omega) h3 w h4
  rw [h5, h6, h7, h8] at this
  norm_num at this

/-! ### Examples -/

/-- A coefficient in the last place: the count is right. -/
example : zerosAtEnd 0 (List.replicate 62 0 ++ [1]) < 16 := by decide +kernel

/-- Two ways to quantize four coefficients, with as many zeros at the end. -/
example : zerosAtEnd 0 ([2, -1, 1] ++ List.replicate 60 0) = zerosAtEnd 0 ([3, 0, 1] ++ List.replicate 60 0) := by
  decide +kernel

end Pixo.Props
