import Verif.Props.TrellisSearch
import Verif.Proof.TrellisSeven
/-
C82 for up to seven coefficients, and C101: which way the weight of the trellis quantizer works. Its documentation says that a higher `lambda` makes
smaller files (src/jpeg/trellis.rs:20-22, 61), and `trellis_quantize_adaptive` takes a higher one for a lower
quality (src/jpeg/trellis.rs:309-318).
-/
namespace Pixo.Props
open Spec.Trellis
open Pixo.Resize (val)

/-- The weight for a quality in thousandths: 0.5 at 100, 1 at 80, about 2 at 50 and 4 at 0. -/
def thousandths (quality : Nat) : Nat :=
  if 80 ≤ quality then 500 + 25 * (100 - quality)
  else if 50 ≤ quality then 1000 + 33 * (80 - quality)
  else 2000 + 40 * (50 - quality)

theorem lambda_table : ∀ q : Fin 101, ∃ l, Jpeg.adaptiveLambda (UInt8.ofNat q) = .ok l ∧
    (1000 * l - (thousandths q : Nat) * 2 ^ 149).natAbs ≤ 2 ^ 140 := by
  have h : ∀ q : Fin 101, (match Jpeg.adaptiveLambda (UInt8.ofNat q) with
    | .ok l => decide ((1000 * l - (thousandths q : Nat) * 2 ^ 149).natAbs ≤ 2 ^ 140)
    | .error _ => false) = true := by decide +kernel
  intro q
  have hq := h q
  split at hq
  · exact ⟨_, by assumption, of_decide_eq_true hq⟩
  · cases hq

theorem lambda_panics : ∀ q : Fin 256, 100 < q.val → Jpeg.adaptiveLambda (UInt8.ofNat q) = .error .panic := by
  decide +kernel

theorem thousandths_anti {a b : Nat} (h : a < b) (hb : b ≤ 100) : thousandths b + 25 ≤ thousandths a := by
  unfold thousandths
  split <;> split <;> (try split) <;> (try split) <;> omega

/-- **C101**, the weight for a quality: as documented up to 100, and lower for a better quality; above, the
subtraction panics. -/
theorem C101_weight (quality : UInt8) :
    (quality.toNat ≤ 100 → ∃ l, Jpeg.adaptiveLambda quality = .ok l ∧
      |val l - thousandths quality.toNat / 1000| ≤ 1 / 2 ^ 18) ∧
    (100 < quality.toNat → Jpeg.adaptiveLambda quality = .error .panic) := by
  have e : UInt8.ofNat quality.toNat = quality := by simp
  constructor
  · intro h
    obtain ⟨l, h1, h2⟩ := lambda_table ⟨quality.toNat, by omega⟩
    simp only [e] at h1 h2
    refine ⟨l, h1, ?_⟩
    have h3 : (|1000 * l - (thousandths quality.toNat : Nat) * 2 ^ 149| : Int) ≤ 2 ^ 140 := by
      rw [Int.abs_eq_natAbs]; exact_mod_cast h2
    have h4 : |1000 * (l : ℝ) - (thousandths quality.toNat : Nat) * 2 ^ 149| ≤ 2 ^ 140 := by exact_mod_cast h3
    unfold val
    rw [show (l : ℝ) / 2 ^ 149 - thousandths quality.toNat / 1000 =
      (1000 * (l : ℝ) - (thousandths quality.toNat : Nat) * 2 ^ 149) / (1000 * 2 ^ 149) by field_simp, abs_div,
      abs_of_pos (show (0 : ℝ) < 1000 * 2 ^ 149 by positivity), div_le_iff₀ (by positivity)]
    refine h4.trans ?_
    norm_num
  · intro h
    have := lambda_panics ⟨quality.toNat, quality.toNat_lt⟩ h
    simpa only [e] using this

/-! ### What a greater weight does -/

theorem fine_coefs {dct : List Int} {table : List Nat} (h : TrellisInput dct table) :
    ∀ c ∈ acCoefs dct table, Jpeg.Fine c := by
  intro c hc
  unfold acCoefs at hc
  obtain ⟨n, hn, rfl⟩ := List.mem_map.mp hc
  have hn64 : n < 64 := by
    have : ∀ n ∈ Spec.T81.zigzag.drop 1, n < 64 := by decide +kernel
    exact this n hn
  refine ⟨?_, _, (h.2 n hn64).1, (h.2 n hn64).2, rfl⟩
  have hd := h.1 n hn64
  unfold val
  rw [abs_div, abs_of_pos (show (0 : ℝ) < 2 ^ 149 by positivity), div_le_iff₀ (by positivity)]
  have : |dct.getD n 0| ≤ 1025 * 2 ^ 149 := abs_le.2 hd
  exact_mod_cast this

/-- What rounding may make of a comparison of two results at two weights, with the share of the costs it may take. -/
noncomputable def roundingSlack (share w₁ w₂ : ℝ) (coefs : List (Int × Int)) (u v : List Int) : ℝ :=
  share * (total w₁ coefs u + total w₁ coefs v + total w₂ coefs u + total w₂ coefs v) + 1 / 2 ^ 96

theorem total_nonneg {w : ℝ} (hw : 0 ≤ w) (coefs : List (Int × Int)) (v : List Int) : 0 ≤ total w coefs v := by
  have := Jpeg.bits_nonneg 0 v
  have := Jpeg.squares_nonneg coefs v
  unfold total
  positivity

/-- Two results each of which is best at its weight, up to rounding. -/
theorem exchange {share w₁ w₂ : ℝ} (hs : 0 ≤ share) (v1 : 0 ≤ w₁) (v12 : w₁ < w₂) (C : List (Int × Int)) (u v : List Int)
    (f1 : total w₁ C u ≤ total w₁ C v + (share * (total w₁ C u + total w₁ C v) + 1 / 2 ^ 97))
    (f2 : total w₂ C v ≤ total w₂ C u + (share * (total w₂ C u + total w₂ C v) + 1 / 2 ^ 97)) :
    (w₂ - w₁) * (squares C v - squares C u) ≤ roundingSlack share w₁ w₂ C u v ∧
    (w₂ - w₁) * (bits 0 u - bits 0 v) ≤ w₂ * roundingSlack share w₁ w₂ C u v := by
  have w2 : 0 ≤ w₂ := v1.trans v12.le
  have n11 := total_nonneg v1 C u
  have n12 := total_nonneg v1 C v
  have n21 := total_nonneg w2 C u
  have n22 := total_nonneg w2 C v
  have hs98 : (1 : ℝ) / 2 ^ 97 + 1 / 2 ^ 97 = 1 / 2 ^ 96 := by norm_num
  unfold roundingSlack
  generalize hε1 : share * (total w₁ C u + total w₁ C v) + 1 / 2 ^ 97 = ε1 at f1
  generalize hε2 : share * (total w₂ C u + total w₂ C v) + 1 / 2 ^ 97 = ε2 at f2
  have hsum : share * (total w₁ C u + total w₁ C v + total w₂ C u + total w₂ C v) + 1 / 2 ^ 96 = ε1 + ε2 := by
    rw [← hε1, ← hε2, ← hs98]; ring
  have hε1p : 0 ≤ ε1 := by rw [← hε1]; positivity
  have hε2p : 0 ≤ ε2 := by rw [← hε2]; positivity
  rw [hsum]
  unfold total at f1 f2
  constructor
  · linarith
  · have g1 := mul_le_mul_of_nonneg_left f1 w2
    have g2 := mul_le_mul_of_nonneg_left f2 v1
    have g3 : w₁ * ε2 ≤ w₂ * ε2 := mul_le_mul_of_nonneg_right v12.le hε2p
    linarith

/-- The share of the costs that rounding may take: more where the search is not exhaustive. -/
noncomputable def shareFor (dct : List Int) (table : List Nat) : ℝ := if FewCoefs dct table then 1 / 2 ^ 15 else 1 / 2 ^ 11

theorem shareFor_nonneg (dct : List Int) (table : List Nat) : 0 ≤ shareFor dct table := by
  unfold shareFor; split <;> positivity

/-- At most seven AC coefficients are not zero. -/
def SevenCoefs (dct : List Int) (table : List Nat) : Prop :=
  ((acCoefs dct table).filter (fun c => c.1 ≠ 0)).length ≤ 7

instance (dct : List Int) (table : List Nat) : Decidable (SevenCoefs dct table) :=
  inferInstanceAs (Decidable (_ ≤ _))

/-- **C82**, up to seven coefficients: in real numbers nothing considered costs less than what is returned, in
particular not plain quantization, but for a share that rounding may take. (Eight are too many: `C82_eight_fails`.) -/
theorem C82_seven_partial (lambda : Int) (h0 : 0 ≤ lambda) (h1 : lambda ≤ 1024 * 2 ^ 149) (dct : List Int) (table : List Nat)
    (h : TrellisInput dct table) (h7 : SevenCoefs dct table) :
    ∃ r, Jpeg.trellisQuantizeWith lambda dct table = .ok r ∧ AllowedSeq (acCoefs dct table) (acValues r) ∧
      AllowedSeq (acCoefs dct table) (acValues (Jpeg.quantizeBlock dct table)) ∧
      ∀ w, AllowedSeq (acCoefs dct table) w →
        total (val lambda) (acCoefs dct table) (acValues r) ≤ total (val lambda) (acCoefs dct table) w +
          (shareFor dct table * (total (val lambda) (acCoefs dct table) (acValues r) +
            total (val lambda) (acCoefs dct table) w) + 1 / 2 ^ 97) := by
  obtain ⟨r, e, _, a, _⟩ := C82_search_partial lambda dct table h
  have hs := Jpeg.small_of_range h.1 h.2
  have hp : (0 : ℝ) < 2 ^ 149 := by positivity
  have v0 : 0 ≤ val lambda := by
    unfold val
    exact div_nonneg (by exact_mod_cast h0) hp.le
  have v1 : val lambda ≤ 1024 := by
    unfold val
    rw [div_le_iff₀ hp]
    exact_mod_cast h1
  have hfine := fine_coefs h
  have hlen : (acCoefs dct table).length ≤ 63 := by rw [acCoefs_eq]; simp [Jpeg.acCoefs]
  refine ⟨r, e, a, by rw [acCoefs_eq, acValues_eq]; exact Jpeg.plain_allowed hs, fun w hw => ?_⟩
  have nr := total_nonneg v0 (acCoefs dct table) (acValues r)
  have nw := total_nonneg v0 (acCoefs dct table) w
  unfold shareFor
  split
  · rename_i hf
    obtain ⟨r', e', m, _⟩ := C82_few_partial lambda dct table h hf
    rw [e] at e'
    cases e'
    have p1 := Jpeg.price_real v0 v1 hfine a hlen
    have p2 := Jpeg.price_real v0 v1 hfine hw hlen
    have q : val (price lambda (acCoefs dct table) (acValues r)) ≤ val (price lambda (acCoefs dct table) w) := by
      unfold val
      exact div_le_div_of_nonneg_right (by exact_mod_cast m w hw) hp.le
    rw [abs_le] at p1 p2
    have n : (1 : ℝ) / 2 ^ 100 + 1 / 2 ^ 100 ≤ 1 / 2 ^ 97 := by norm_num
    linarith
  · have hw' := hw
    rw [acCoefs_eq] at hfine hw'
    unfold SevenCoefs at h7
    rw [acCoefs_eq] at h7
    have := Jpeg.trellisQuantizeWith_seven v0 v1 hs hfine h7 e hw'
    rw [← acCoefs_eq, ← acValues_eq] at this
    have n : 0 ≤ 1 / 2 ^ 11 * total (val lambda) (acCoefs dct table) (acValues r) := by positivity
    linarith

/-- The full statement as documented, which fails (`C101_violation`): a higher weight takes no more bits. -/
def C101_full : Prop := ∀ l₁ l₂ dct table r₁ r₂, TrellisInput dct table → 0 ≤ l₁ → l₁ ≤ l₂ →
  Jpeg.trellisQuantizeWith l₁ dct table = .ok r₁ → Jpeg.trellisQuantizeWith l₂ dct table = .ok r₂ →
  bits 0 (acValues r₂) ≤ bits 0 (acValues r₁)

/-- **C101**, what a higher weight does, for blocks of at most seven AC coefficients: it makes the error no greater
and the estimated bits no fewer, up to rounding. (The documentation says the opposite. Missing from this: blocks
with more coefficients, for which the search may lose.) -/
theorem C101_trade_partial (l₁ l₂ : Int) (h1 : 0 ≤ l₁) (h12 : l₁ < l₂) (h2 : l₂ ≤ 1024 * 2 ^ 149) (dct : List Int)
    (table : List Nat) (h : TrellisInput dct table) (h7 : SevenCoefs dct table) :
    ∃ r₁ r₂, Jpeg.trellisQuantizeWith l₁ dct table = .ok r₁ ∧ Jpeg.trellisQuantizeWith l₂ dct table = .ok r₂ ∧
      (val l₂ - val l₁) * (squares (acCoefs dct table) (acValues r₂) - squares (acCoefs dct table) (acValues r₁)) ≤
        roundingSlack (shareFor dct table) (val l₁) (val l₂) (acCoefs dct table) (acValues r₁) (acValues r₂) ∧
      (val l₂ - val l₁) * (bits 0 (acValues r₁) - bits 0 (acValues r₂)) ≤
        val l₂ * roundingSlack (shareFor dct table) (val l₁) (val l₂) (acCoefs dct table) (acValues r₁) (acValues r₂) := by
  obtain ⟨r₁, e₁, a₁, _, m₁⟩ := C82_seven_partial l₁ h1 (by omega) dct table h h7
  obtain ⟨r₂, e₂, a₂, _, m₂⟩ := C82_seven_partial l₂ (by omega) h2 dct table h h7
  refine ⟨r₁, r₂, e₁, e₂, ?_⟩
  have hp : (0 : ℝ) < 2 ^ 149 := by positivity
  have v1 : 0 ≤ val l₁ := by
    unfold val
    exact div_nonneg (by exact_mod_cast h1) hp.le
  have v12 : val l₁ < val l₂ := by
    unfold val
    exact div_lt_div_of_pos_right (by exact_mod_cast h12) hp
  have f2 := m₂ _ a₁
  rw [add_comm (total (val l₂) _ (acValues r₂)) (total (val l₂) _ (acValues r₁))] at f2
  exact exchange (shareFor_nonneg dct table) v1 v12 _ _ _ (m₁ _ a₂) f2

/-- **C101**, what a lower quality does to blocks of at most seven AC coefficients: the quantization is no less
exact and takes no fewer bits, up to rounding. -/
theorem C101_quality_partial (q₁ q₂ : UInt8) (hq : q₁ < q₂) (h100 : q₂.toNat ≤ 100) (dct : List Int) (table : List Nat)
    (h : TrellisInput dct table) (h7 : SevenCoefs dct table) :
    ∃ w₁ w₂ r₁ r₂, w₁ - w₂ ≥ 1 / 50 ∧ Jpeg.trellisQuantizeAdaptive dct table q₁ = .ok r₁ ∧
      Jpeg.trellisQuantizeAdaptive dct table q₂ = .ok r₂ ∧
      (w₁ - w₂) * (squares (acCoefs dct table) (acValues r₁) - squares (acCoefs dct table) (acValues r₂)) ≤
        roundingSlack (shareFor dct table) w₂ w₁ (acCoefs dct table) (acValues r₂) (acValues r₁) ∧
      (w₁ - w₂) * (bits 0 (acValues r₂) - bits 0 (acValues r₁)) ≤
        w₁ * roundingSlack (shareFor dct table) w₂ w₁ (acCoefs dct table) (acValues r₂) (acValues r₁) := by
  have hq' : q₁.toNat < q₂.toNat := hq
  obtain ⟨l₁, e₁, b₁⟩ := (C101_weight q₁).1 (by omega)
  obtain ⟨l₂, e₂, b₂⟩ := (C101_weight q₂).1 h100
  have ha := thousandths_anti hq' h100
  have ha' : (thousandths q₂.toNat : ℝ) + 25 ≤ thousandths q₁.toNat := by exact_mod_cast ha
  have hub : (thousandths q₁.toNat : ℝ) ≤ 4000 := by
    have : thousandths q₁.toNat ≤ 4000 := by unfold thousandths; split <;> (try split) <;> omega
    exact_mod_cast this
  have hlb : (500 : ℝ) ≤ thousandths q₂.toNat := by
    have : 500 ≤ thousandths q₂.toNat := by unfold thousandths; split <;> (try split) <;> omega
    exact_mod_cast this
  rw [abs_le] at b₁ b₂
  have hp : (0 : ℝ) < 2 ^ 149 := by positivity
  have hgap : val l₁ - val l₂ ≥ 1 / 50 := by
    have : (1 : ℝ) / 2 ^ 18 + 1 / 2 ^ 18 ≤ 1 / 1000 := by norm_num
    linarith
  have h21 : l₂ < l₁ := by
    have h3 : val l₂ < val l₁ := by linarith
    unfold val at h3
    have := (div_lt_div_iff_of_pos_right hp).1 h3
    exact_mod_cast this
  have h0 : 0 ≤ l₂ := by
    have h3 : 0 ≤ val l₂ := by
      have : (1 : ℝ) / 2 ^ 18 ≤ 1 / 1000 := by norm_num
      linarith
    unfold val at h3
    have := (le_div_iff₀ hp).1 h3
    rw [zero_mul] at this
    exact_mod_cast this
  have h4 : l₁ ≤ 1024 * 2 ^ 149 := by
    have h3 : val l₁ ≤ 1024 := by
      have : (1 : ℝ) / 2 ^ 18 ≤ 1 / 1000 := by norm_num
      linarith
    unfold val at h3
    have := (div_le_iff₀ hp).1 h3
    exact_mod_cast this
  obtain ⟨r₂, r₁, f₂, f₁, g⟩ := C101_trade_partial l₂ l₁ h0 h21 h4 dct table h h7
  refine ⟨val l₁, val l₂, r₁, r₂, hgap, ?_, ?_, g⟩
  · unfold Jpeg.trellisQuantizeAdaptive; rw [e₁, ok_bind]; exact f₁
  · unfold Jpeg.trellisQuantizeAdaptive; rw [e₂, ok_bind]; exact f₂

/-! ### Where the documentation fails -/

/-- Ten times the bits of values. -/
def bitTenths : Nat → List Int → Nat
  | run, [] => if 0 < run then 40 else 0
  | run, v :: vs =>
    if v = 0 then (if run = 15 then 100 + bitTenths 0 vs else bitTenths (run + 1) vs)
    else Jpeg.codeTenths run (size v) + 10 * size v + bitTenths 0 vs

theorem bits_tenths (run : Nat) (vs : List Int) : bits run vs = bitTenths run vs / 10 := by
  induction vs generalizing run with
  | nil => unfold bits bitTenths; split <;> norm_num
  | cons v vs ih =>
    unfold bits bitTenths
    split
    · split
      · rw [ih]; push_cast; ring
      · exact ih _
    · rw [ih]; push_cast; rw [Jpeg.codeTenths_real]; ring

/-- The squared error in units of `2^-298`. -/
def squareUnits : List (Int × Int) → List Int → Int
  | c :: cs, v :: vs => (c.1 - v * c.2) ^ 2 + squareUnits cs vs
  | _, _ => 0

theorem squares_units (cs : List (Int × Int)) (vs : List Int) : squares cs vs = squareUnits cs vs / (2 ^ 149 * 2 ^ 149) := by
  induction cs generalizing vs with
  | nil => simp [squares, squareUnits]
  | cons c cs ih =>
    cases vs with
    | nil => simp [squares, squareUnits]
    | cons v vs =>
      rw [squares, squareUnits, ih]
      push_cast
      field_simp

/-- A block with one AC coefficient, of 2. -/
def two : List Int := [0, 2 * 2 ^ 149]

theorem two_low : Jpeg.trellisQuantizeAdaptive two (List.replicate 64 2) 10 = .ok (0 :: 1 :: List.replicate 62 0) := by
  decide +kernel

theorem two_high : Jpeg.trellisQuantizeAdaptive two (List.replicate 64 2) 95 = .ok (List.replicate 64 0) := by
  decide +kernel

/-- **C101**, violated: a coefficient of 2 with a step of 2 is kept at quality 10, where it takes three bits of 37
and makes no error, and dropped at quality 95, where 34 bits remain and the squared error is 4. -/
theorem C101_violation : ∃ dct table r₁₀ r₉₅, TrellisInput dct table ∧
    Jpeg.trellisQuantizeAdaptive dct table 10 = .ok r₁₀ ∧ Jpeg.trellisQuantizeAdaptive dct table 95 = .ok r₉₅ ∧
    bits 0 (acValues r₁₀) = 37 ∧ squares (acCoefs dct table) (acValues r₁₀) = 0 ∧
    bits 0 (acValues r₉₅) = 34 ∧ squares (acCoefs dct table) (acValues r₉₅) = 4 := by
  refine ⟨two, List.replicate 64 2, _, _, by unfold TrellisInput; decide +kernel, two_low, two_high, ?_, ?_, ?_, ?_⟩
  · rw [bits_tenths, show bitTenths 0 (acValues (0 :: 1 :: List.replicate 62 0)) = 370 by decide +kernel]; norm_num
  · rw [squares_units, show squareUnits (acCoefs two (List.replicate 64 2)) (acValues (0 :: 1 :: List.replicate 62 0)) = 0 by
      decide +kernel]; norm_num
  · rw [bits_tenths, show bitTenths 0 (acValues (List.replicate 64 0)) = 340 by decide +kernel]; norm_num
  · rw [squares_units, show squareUnits (acCoefs two (List.replicate 64 2)) (acValues (List.replicate 64 0)) =
      4 * (2 ^ 149 * 2 ^ 149) by decide +kernel]; norm_num

theorem C101_full_fails : ¬ C101_full := by
  intro h
  obtain ⟨dct, table, r₁₀, r₉₅, ht, e₁₀, e₉₅, b₁₀, _, b₉₅, _⟩ := C101_violation
  have w10 : ∃ l, Jpeg.adaptiveLambda 10 = .ok l ∧ l ≤ 4 * 2 ^ 149 ∧ 3 * 2 ^ 149 ≤ l :=
    ⟨_, rfl, by decide +kernel, by decide +kernel⟩
  have w95 : ∃ l, Jpeg.adaptiveLambda 95 = .ok l ∧ 0 ≤ l ∧ l ≤ 2 ^ 149 := ⟨_, rfl, by decide +kernel, by decide +kernel⟩
  obtain ⟨l₁₀, a₁, _, a₂⟩ := w10
  obtain ⟨l₉₅, c₁, c₂, c₃⟩ := w95
  unfold Jpeg.trellisQuantizeAdaptive at e₁₀ e₉₅
  rw [a₁, ok_bind] at e₁₀
  rw [c₁, ok_bind] at e₉₅
  have := h l₉₅ l₁₀ dct table r₉₅ r₁₀ ht c₂ (by omega) e₉₅ e₁₀
  rw [b₁₀, b₉₅] at this
  norm_num at this

/-! ### Examples -/

/-- Seven coefficients, most of them larger than their steps: not few. -/
def sevenLarge : List Int := [0, 5 * 2 ^ 149, -7 * 2 ^ 148, 0, 7 * 2 ^ 149, 9 * 2 ^ 148, 0, -3 * 2 ^ 149, 2 ^ 149, 0, 0, -11 * 2 ^ 147]

example : TrellisInput sevenLarge (List.replicate 64 2) ∧ SevenCoefs sevenLarge (List.replicate 64 2) ∧
    ¬ FewCoefs sevenLarge (List.replicate 64 2) := ⟨by unfold TrellisInput; decide +kernel, by decide +kernel, by decide +kernel⟩

/-- Four coefficients and qualities 30 and 75. -/
example : TrellisInput [0, 5 * 2 ^ 149, -3 * 2 ^ 148, 0, 7 * 2 ^ 148, 0, 0, 0, 2 ^ 149] (List.replicate 64 2) ∧
    ((acCoefs [0, 5 * 2 ^ 149, -3 * 2 ^ 148, 0, 7 * 2 ^ 148, 0, 0, 0, 2 ^ 149] (List.replicate 64 2)).filter
      (fun c => c.1 ≠ 0)).length ≤ 5 ∧ (30 : UInt8) < 75 ∧ (75 : UInt8).toNat ≤ 100 :=
  ⟨by unfold TrellisInput; decide +kernel, by decide +kernel, by decide, by decide⟩

end Pixo.Props
