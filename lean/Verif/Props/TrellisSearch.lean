import Verif.Proof.TrellisSearch
import Verif.Spec.T81
/-
C82: whether the trellis quantizer finds the values of least estimated cost, as it says
(src/jpeg/trellis.rs:1-20, 50-66).
-/
namespace Pixo.Props
open Spec.Trellis

/-- The AC coefficients of a block in zigzag order, each with its step. -/
def acCoefs (dct : List Int) (table : List Nat) : List (Int × Int) :=
  (Spec.T81.zigzag.drop 1).map fun n => (dct.getD n 0, F32.ofInt (table.getD n 1))

/-- The AC values of a block in zigzag order. -/
def acValues (block : List Int) : List Int := (Spec.T81.toZigzag block).drop 1

/-- Coefficients as large as those of samples, and steps from 1 to 255. -/
def TrellisInput (dct : List Int) (table : List Nat) : Prop :=
  (∀ n < 64, -(1025 * 2 ^ 149) ≤ dct.getD n 0 ∧ dct.getD n 0 ≤ 1025 * 2 ^ 149) ∧
    ∀ n < 64, 1 ≤ table.getD n 1 ∧ table.getD n 1 ≤ 255

theorem zigzag_tail : Spec.T81.zigzag.drop 1 = (List.range 63).map fun k => Jpeg.zigzag.getD (k + 1) 0 := by
  decide +kernel

theorem acCoefs_eq (dct : List Int) (table : List Nat) : acCoefs dct table = Jpeg.acCoefs dct table := by
  unfold acCoefs Jpeg.acCoefs
  rw [zigzag_tail, List.map_map]
  rfl

theorem acValues_eq (block : List Int) : acValues block = Jpeg.acValues block := by
  unfold acValues Jpeg.acValues Spec.T81.toZigzag
  rw [← List.map_drop, zigzag_tail, List.map_map]
  rfl

/-- The full statement, which fails (`C82_plain_fails`, `C82_values_fails`): no values cost less than those
returned. -/
def C82_full : Prop := ∀ dct table r, TrellisInput dct table → Jpeg.trellisQuantize dct table = .ok r →
  ∀ w : List Int, w.length = 63 → price (F32.lit 1 1) (acCoefs dct table) (acValues r) ≤ price (F32.lit 1 1) (acCoefs dct table) w

/-- **C82**, what the search guarantees, whatever the weight of the error (1 in the encoder). The values returned are among those considered, and anything
else considered costs at least as much, in the arithmetic of the code, unless somewhere on the way eight
other beginnings that all end differently cost no more than its own. (Missing from the full statement: values
not considered, and the excepted case.) -/
theorem C82_search_partial (lambda : Int) (dct : List Int) (table : List Nat) (h : TrellisInput dct table) :
    ∃ r, Jpeg.trellisQuantizeWith lambda dct table = .ok r ∧ r.length = 64 ∧
      AllowedSeq (acCoefs dct table) (acValues r) ∧
      ∀ w, AllowedSeq (acCoefs dct table) w →
        price lambda (acCoefs dct table) (acValues r) ≤ price lambda (acCoefs dct table) w ∨
        ∃ k ≤ 63, Outnumbered lambda (acCoefs dct table) w k := by
  have hs := Jpeg.small_of_range h.1 h.2
  obtain ⟨r, e, hl, _⟩ := Jpeg.trellisQuantizeWith_spec lambda dct table hs
  refine ⟨r, e, hl, ?_⟩
  rw [acCoefs_eq, acValues_eq]
  exact Jpeg.trellisQuantizeWith_search hs e

/-- At most five AC coefficients are not zero, or at most seven and none is larger than its step. -/
def FewCoefs (dct : List Int) (table : List Nat) : Prop :=
  ((acCoefs dct table).filter (fun c => c.1 ≠ 0)).length ≤ 5 ∨
    ((acCoefs dct table).filter (fun c => c.1 ≠ 0)).length ≤ 7 ∧ ∀ c ∈ acCoefs dct table, -c.2 ≤ c.1 ∧ c.1 ≤ c.2

instance (dct : List Int) (table : List Nat) : Decidable (FewCoefs dct table) :=
  inferInstanceAs (Decidable (_ ∨ _))

/-- **C82**, few coefficients: if at most five AC coefficients are not zero, or at most seven and none larger than
its step, nothing considered costs less than what is returned; in particular plain quantization does not. (Eight no
larger than their steps are too many: `C82_eight_fails`.) -/
theorem C82_few_partial (lambda : Int) (dct : List Int) (table : List Nat) (h : TrellisInput dct table)
    (hf : FewCoefs dct table) :
    ∃ r, Jpeg.trellisQuantizeWith lambda dct table = .ok r ∧
      (∀ w, AllowedSeq (acCoefs dct table) w →
        price lambda (acCoefs dct table) (acValues r) ≤ price lambda (acCoefs dct table) w) ∧
      price lambda (acCoefs dct table) (acValues r) ≤
        price lambda (acCoefs dct table) (acValues (Jpeg.quantizeBlock dct table)) := by
  obtain ⟨r, e, _, _, hw⟩ := C82_search_partial lambda dct table h
  have hlen : (acCoefs dct table).length = 63 := by rw [acCoefs_eq]; simp [Jpeg.acCoefs]
  have hfew : Jpeg.Few (acCoefs dct table) := by
    rcases hf with hf | ⟨hf, hs⟩
    · exact .inl hf
    · refine .inr ⟨hf, fun c hc => ?_⟩
      have hpos : 0 < c.2 := by
        unfold acCoefs at hc
        obtain ⟨n, hn, rfl⟩ := List.mem_map.1 hc
        have hn64 : n < 64 := (by decide : ∀ n ∈ Spec.T81.zigzag.drop 1, n < 64) n hn
        have := h.2 n hn64
        show 0 < F32.ofInt ((table.getD n 1 : Nat) : Int)
        rw [F32.ofInt_exact (by omega)]
        have := Nat.mul_pos this.1 F32.one_pos
        omega
      exact Jpeg.div_le_one hpos (hs c hc).1 (hs c hc).2
  have hall : ∀ w, AllowedSeq (acCoefs dct table) w →
      price lambda (acCoefs dct table) (acValues r) ≤ price lambda (acCoefs dct table) w := by
    intro w ha
    rcases hw w ha with h | ⟨k, hk, ho⟩
    · exact h
    · exact absurd ho (Jpeg.few_kept hfew ha (by omega))
  refine ⟨r, e, hall, hall _ ?_⟩
  rw [acCoefs_eq, acValues_eq]
  exact Jpeg.plain_allowed (Jpeg.small_of_range h.1 h.2)

/-! ### Where it fails -/

/-- A block of faint noise. -/
def noise : List Int :=
  ([-2, 3, -4, 0, -3, 0, 3, -3, -3, -1, -1, -1, 0, 3, -1, 1,
   1, -1, 1, 1, 0, -5, 0, -1, -1, 3, 3, 3, -1, 2, 0, 1,
   2, 0, -2, -2, 0, 0, 1, 1, -3, -1, 0, 0, 0, -1, 0, 2,
   -3, -1, 1, 3, 0, 2, 1, -1, -1, -2, 1, 3, 0, 0, 2, 0] : List Int).map (· * 2 ^ 149)

/-- Its transform. -/
def noiseDct : List Int :=
  [-16777213 * 2 ^ 122, -2550943 * 2 ^ 129, -7202745 * 2 ^ 127, -16747779 * 2 ^ 126, -13631489 * 2 ^ 126,
   13472235 * 2 ^ 126, -15597495 * 2 ^ 126, -16414429 * 2 ^ 126, -8592785 * 2 ^ 127, 6577395 * 2 ^ 127,
   4841601 * 2 ^ 128, 13840521 * 2 ^ 126, -12960699 * 2 ^ 126, -3334545 * 2 ^ 128, -16149479 * 2 ^ 126,
   -9689579 * 2 ^ 126, -7202745 * 2 ^ 127, -15961769 * 2 ^ 126, -8849293 * 2 ^ 127, 10371549 * 2 ^ 126,
   -14794951 * 2 ^ 126, 15616967 * 2 ^ 126, -3855381 * 2 ^ 128, -6625457 * 2 ^ 127, -16434637 * 2 ^ 126,
   -9244715 * 2 ^ 127, 15853773 * 2 ^ 126, 4800599 * 2 ^ 128, -14533441 * 2 ^ 126, -15444219 * 2 ^ 126,
   -14263837 * 2 ^ 126, -12535635 * 2 ^ 126, 7864321 * 2 ^ 127, 2651167 * 2 ^ 128, 4383753 * 2 ^ 128,
   1736569 * 2 ^ 129, -13631489 * 2 ^ 126, 16222441 * 2 ^ 125, -475251 * 2 ^ 131, -14003361 * 2 ^ 126,
   5948991 * 2 ^ 127, 9106425 * 2 ^ 127, -4425207 * 2 ^ 128, -8081923 * 2 ^ 127, -4733585 * 2 ^ 128,
   382965 * 2 ^ 131, -7661035 * 2 ^ 127, -15778035 * 2 ^ 126, -15597493 * 2 ^ 126, 14757891 * 2 ^ 126,
   13938613 * 2 ^ 126, -15496587 * 2 ^ 126, 16343005 * 2 ^ 126, 13678829 * 2 ^ 126, -1384207 * 2 ^ 130,
   5178699 * 2 ^ 128, -14261577 * 2 ^ 126, 14756617 * 2 ^ 126, 15705065 * 2 ^ 126, 9507697 * 2 ^ 127,
   3448533 * 2 ^ 128, 8275957 * 2 ^ 127, -256577 * 2 ^ 132, 9151245 * 2 ^ 127]

/-- What the trellis quantizer makes of it with steps of 2. -/
def noiseTrellis : List Int :=
  [0, -1, -1, -1, -1, 1, -1, -1, -1, 1, 1, 1, -1, 0, -1, 0,
   -1, -1, -1, 0, 0, 1, -1, 0, -1, -1, 1, 0, -1, -1, 0, 0,
   1, 0, 0, 1, -1, 0, -1, -1, 0, 0, -1, -1, 0, 0, -1, -1,
   0, 1, 1, 0, 1, 1, -1, 1, -1, 1, 0, 1, 1, 1, -1, 1]

/-- What plain quantization makes of it. -/
def noisePlain : List Int :=
  [0, -1, -1, -1, -1, 1, -1, -1, -1, 1, 1, 1, -1, -1, -1, -1,
   -1, -1, -1, 1, -1, 1, -1, -1, -1, -1, 1, 1, -1, -1, -1, -1,
   1, 1, 1, 1, -1, 0, -1, -1, 1, 1, -1, -1, -1, 1, -1, -1,
   -1, 1, 1, -1, 1, 1, -1, 1, -1, 1, 1, 1, 1, 1, -1, 1]

theorem noise_dct : Jpeg.dct2d noise = noiseDct := by decide +kernel

theorem noise_trellis : Jpeg.trellisQuantize noiseDct (List.replicate 64 2) = .ok noiseTrellis := by decide +kernel

theorem noise_plain : Jpeg.quantizeBlock noiseDct (List.replicate 64 2) = noisePlain := by decide +kernel

theorem noise_prices : price (F32.lit 1 1) (acCoefs noiseDct (List.replicate 64 2)) (acValues noisePlain) + 9 * 2 ^ 149 <
    price (F32.lit 1 1) (acCoefs noiseDct (List.replicate 64 2)) (acValues noiseTrellis) := by decide +kernel

/-- **C82**, the eight states are too few: for a block of samples between -5 and 3 and steps of 2 plain
quantization, which the search considers, is estimated to cost over nine less than what the search
returns. -/
theorem C82_plain_fails : ∃ b table r, (∀ n < 64, -(5 * 2 ^ 149) ≤ b.getD n 0 ∧ b.getD n 0 ≤ 3 * 2 ^ 149) ∧
    TrellisInput (Jpeg.dct2d b) table ∧ Jpeg.trellisQuantize (Jpeg.dct2d b) table = .ok r ∧
    AllowedSeq (acCoefs (Jpeg.dct2d b) table) (acValues (Jpeg.quantizeBlock (Jpeg.dct2d b) table)) ∧
    price (F32.lit 1 1) (acCoefs (Jpeg.dct2d b) table) (acValues (Jpeg.quantizeBlock (Jpeg.dct2d b) table)) + 9 * 2 ^ 149 <
      price (F32.lit 1 1) (acCoefs (Jpeg.dct2d b) table) (acValues r) := by
  have hr : TrellisInput noiseDct (List.replicate 64 2) := by unfold TrellisInput; decide +kernel
  refine ⟨noise, List.replicate 64 2, noiseTrellis, by decide +kernel, ?_⟩
  rw [noise_dct]
  refine ⟨hr, noise_trellis, ?_, ?_⟩
  · rw [acCoefs_eq, acValues_eq]
    exact Jpeg.plain_allowed (Jpeg.small_of_range hr.1 hr.2)
  · rw [noise_plain]
    exact noise_prices

/-- A block with one AC coefficient, of 8. -/
def eight : List Int := [0, 8 * 2 ^ 149]

theorem eight_trellis : Jpeg.trellisQuantize eight (List.replicate 64 1) = .ok (0 :: 8 :: List.replicate 62 0) := by
  decide +kernel

theorem eight_prices : price (F32.lit 1 1) (acCoefs eight (List.replicate 64 1)) (7 :: List.replicate 62 0) + 2 ^ 149 =
    price (F32.lit 1 1) (acCoefs eight (List.replicate 64 1)) (acValues (0 :: 8 :: List.replicate 62 0)) := by decide +kernel

/-- **C82**, the values considered are too few: for a single coefficient of 8 and steps of 1 the search, here
exhaustive, returns 8; 7 has a shorter code, and costs one less with its error. -/
theorem C82_values_fails : ∃ dct table r, TrellisInput dct table ∧
    ((acCoefs dct table).filter (fun c => c.1 ≠ 0)).length = 1 ∧ Jpeg.trellisQuantize dct table = .ok r ∧
    ∃ w : List Int, w.length = 63 ∧ price (F32.lit 1 1) (acCoefs dct table) w + 2 ^ 149 = price (F32.lit 1 1) (acCoefs dct table) (acValues r) :=
  ⟨eight, List.replicate 64 1, _, by unfold TrellisInput; decide +kernel, by decide +kernel, eight_trellis,
    7 :: List.replicate 62 0, by simp, eight_prices⟩

/-- A block with eight AC coefficients: 3, six of 1.75, and 1.375, in the places 56 to 63 of the zigzag order. -/
def throng : List Int := (List.range 64).map fun n =>
  let k := Spec.T81.zigzag.idxOf n
  if k = 56 then 3 * 2 ^ 149 else if 57 ≤ k ∧ k ≤ 62 then 7 * 2 ^ 147 else if k = 63 then 11 * 2 ^ 146 else 0

/-- Steps of 3 and 2 for it. -/
def throngTable : List Nat := (List.range 64).map fun n => if Spec.T81.zigzag.idxOf n = 56 then 3 else 2

/-- What the trellis quantizer makes of it: all but the first are dropped. -/
def throngTrellis : List Int := (List.range 64).map fun n => if Spec.T81.zigzag.idxOf n = 56 then 1 else 0

theorem throng_trellis : Jpeg.trellisQuantize throng throngTable = .ok throngTrellis := by decide +kernel

theorem throng_prices : price (F32.lit 1 1) (acCoefs throng throngTable) (acValues (Jpeg.quantizeBlock throng throngTable)) +
    24 * 2 ^ 149 / 10 < price (F32.lit 1 1) (acCoefs throng throngTable) (acValues throngTrellis) := by decide +kernel

/-- **C82**, eight coefficients no larger than their steps are enough to lose: plain quantization, which the search considers, costs over 2.4
less than what the search returns. -/
theorem C82_eight_fails : ∃ dct table r, TrellisInput dct table ∧
    ((acCoefs dct table).filter (fun c => c.1 ≠ 0)).length = 8 ∧ (∀ c ∈ acCoefs dct table, -c.2 ≤ c.1 ∧ c.1 ≤ c.2) ∧
    Jpeg.trellisQuantize dct table = .ok r ∧
    AllowedSeq (acCoefs dct table) (acValues (Jpeg.quantizeBlock dct table)) ∧
    price (F32.lit 1 1) (acCoefs dct table) (acValues (Jpeg.quantizeBlock dct table)) + 24 * 2 ^ 149 / 10 <
      price (F32.lit 1 1) (acCoefs dct table) (acValues r) := by
  have hr : TrellisInput throng throngTable := by unfold TrellisInput; decide +kernel
  refine ⟨throng, throngTable, throngTrellis, hr, by decide +kernel, by decide +kernel, throng_trellis, ?_, throng_prices⟩
  rw [acCoefs_eq, acValues_eq]
  exact Jpeg.plain_allowed (Jpeg.small_of_range hr.1 hr.2)

theorem C82_full_fails : ¬ C82_full := by
  intro h
  obtain ⟨dct, table, r, h1, _, h3, w, h4, h5⟩ := C82_values_fails
  have := h dct table r h1 h3 w h4
  omega

/-! ### Examples -/

/-- Four coefficients: the search is exhaustive, and returns less than plain quantization would. -/
example : ∃ r, Jpeg.trellisQuantize [0, 5 * 2 ^ 149, -3 * 2 ^ 148, 0, 7 * 2 ^ 148, 0, 0, 0, 2 ^ 149] (List.replicate 64 2) = .ok r ∧
    ∀ w, AllowedSeq (acCoefs [0, 5 * 2 ^ 149, -3 * 2 ^ 148, 0, 7 * 2 ^ 148, 0, 0, 0, 2 ^ 149] (List.replicate 64 2)) w →
      price (F32.lit 1 1) (acCoefs [0, 5 * 2 ^ 149, -3 * 2 ^ 148, 0, 7 * 2 ^ 148, 0, 0, 0, 2 ^ 149] (List.replicate 64 2)) (acValues r) ≤
        price (F32.lit 1 1) (acCoefs [0, 5 * 2 ^ 149, -3 * 2 ^ 148, 0, 7 * 2 ^ 148, 0, 0, 0, 2 ^ 149] (List.replicate 64 2)) w :=
  let ⟨r, e, h, _⟩ := C82_few_partial (F32.lit 1 1) _ _ (by unfold TrellisInput; decide +kernel) (by decide +kernel)
  ⟨r, e, h⟩

/-- The noise block is in range. -/
example : TrellisInput noiseDct (List.replicate 64 2) := by unfold TrellisInput; decide +kernel

end Pixo.Props
