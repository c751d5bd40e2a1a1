import Verif.Model.DctInt
import Verif.Proof.Idct
import Verif.Proof.JpegSamples
/-
The integer DCT without overflow, and its vector versions.
-/
namespace Pixo.DctInt
open Pixo Pixo.Idct

/-- The product of a fixed-point factor, rounded down. -/
def mulI (a b : Int) : Int := a * b / 2 ^ 13

/-- The sums of a pass in exact integers. -/
def passI (d : Nat → Int) (k : Nat) : Int :=
  let s0 := d 0 + d 7
  let s1 := d 1 + d 6
  let s2 := d 2 + d 5
  let s3 := d 3 + d 4
  let t0 := d 0 - d 7
  let t1 := d 1 - d 6
  let t2 := d 2 - d 5
  let t3 := d 3 - d 4
  let z1 := mulI (s0 - s3 + (s1 - s2)) 4433
  let z := mulI (t0 + t2 + (t1 + t3)) 9633
  let a := mulI (t0 + t2) (-3196) + z
  let b := mulI (t1 + t3) (-16069) + z
  [s0 + s3 + (s1 + s2), mulI t0 12299 + mulI (t0 + t3) (-7373) + a, z1 + mulI (s0 - s3) 6270,
    mulI t1 25172 + mulI (t1 + t2) (-20995) + b, s0 + s3 - (s1 + s2), mulI t2 16819 + mulI (t1 + t2) (-20995) + a,
    z1 - mulI (s1 - s2) 15137, mulI t3 2446 + mulI (t0 + t3) (-7373) + b].getD k 0

theorem fixMul_mulI {a b : Int} (h : -2 ^ 31 ≤ a * b / 2 ^ 13 ∧ a * b / 2 ^ 13 < 2 ^ 31) : fixMul a b = mulI a b :=
  fixMul_id h

def bnd : Int := 1100000

theorem mulI_bound {a b A B : Int} (hB : 0 ≤ B) (ha : -A ≤ a ∧ a ≤ A) (hb : b = B ∨ b = -B) :
    -(A * B / 2 ^ 13 + 1) ≤ mulI a b ∧ mulI a b ≤ A * B / 2 ^ 13 := by
  have h1 : -(A * B) ≤ a * b ∧ a * b ≤ A * B := by
    have e1 := Int.mul_le_mul_of_nonneg_right ha.1 hB
    have e2 := Int.mul_le_mul_of_nonneg_right ha.2 hB
    rw [Int.neg_mul] at e1
    rcases hb with rfl | rfl
    · exact ⟨e1, e2⟩
    · rw [Int.mul_neg]; omega
  unfold mulI
  generalize a * b = x at *
  generalize A * B = y at *
  omega

/-- The even half of a pass. -/
theorem even_part {ck : Bool} {a b c d : Int} (h0 : -4400000 ≤ a ∧ a ≤ 4400000) (h1 : -4400000 ≤ b ∧ b ≤ 4400000)
    (h2 : -4400000 ≤ c ∧ c ≤ 4400000) (h3 : -4400000 ≤ d ∧ d ≤ 4400000) {α : Type} (f : Int → Int → Int → Int → R α) :
    (do
      let out0 ← i32 ck (a + b)
      let out4 ← i32 ck (a - b)
      let s ← i32 ck (c + d)
      let out2 ← i32 ck (fixMul s 4433 + fixMul c 6270)
      let out6 ← i32 ck (fixMul s 4433 - fixMul d 15137)
      f out0 out4 out2 out6) =
    f (a + b) (a - b) (mulI (c + d) 4433 + mulI c 6270) (mulI (c + d) 4433 - mulI d 15137) := by
  iterate 3 rw [i32_fits (by omega), ok_bind]
  have b1 := mulI_bound (b := 4433) (B := 4433) (A := 8800000) (a := c + d) (by omega) (by omega) (.inl rfl)
  have b2 := mulI_bound (b := 6270) (B := 6270) (A := 4400000) (a := c) (by omega) (by omega) (.inl rfl)
  have b3 := mulI_bound (b := 15137) (B := 15137) (A := 4400000) (a := d) (by omega) (by omega) (.inl rfl)
  rw [fixMul_mulI (b := 4433) (by unfold mulI at b1; omega), fixMul_mulI (b := 6270) (by unfold mulI at b2; omega),
    fixMul_mulI (b := 15137) (by unfold mulI at b3; omega)]
  iterate 2 rw [i32_fits (by omega), ok_bind]

/-- The odd half of a pass. -/
theorem odd_part {ck : Bool} {t0 t1 t2 t3 : Int} (h0 : -2200000 ≤ t0 ∧ t0 ≤ 2200000) (h1 : -2200000 ≤ t1 ∧ t1 ≤ 2200000)
    (h2 : -2200000 ≤ t2 ∧ t2 ≤ 2200000) (h3 : -2200000 ≤ t3 ∧ t3 ≤ 2200000) {α : Type} (f : Int → Int → Int → Int → R α) :
    (do
      let tmp10 ← i32 ck (t0 + t3)
      let tmp11 ← i32 ck (t1 + t2)
      let tmp12 ← i32 ck (t0 + t2)
      let tmp13 ← i32 ck (t1 + t3)
      let s ← i32 ck (tmp12 + tmp13)
      let tmp12 ← i32 ck (fixMul tmp12 (-3196) + fixMul s 9633)
      let tmp13 ← i32 ck (fixMul tmp13 (-16069) + fixMul s 9633)
      let a ← i32 ck (fixMul t0 12299 + fixMul tmp10 (-7373))
      let out1 ← i32 ck (a + tmp12)
      let a ← i32 ck (fixMul t1 25172 + fixMul tmp11 (-20995))
      let out3 ← i32 ck (a + tmp13)
      let a ← i32 ck (fixMul t2 16819 + fixMul tmp11 (-20995))
      let out5 ← i32 ck (a + tmp12)
      let a ← i32 ck (fixMul t3 2446 + fixMul tmp10 (-7373))
      let out7 ← i32 ck (a + tmp13)
      f out1 out3 out5 out7) =
    f (mulI t0 12299 + mulI (t0 + t3) (-7373) + (mulI (t0 + t2) (-3196) + mulI (t0 + t2 + (t1 + t3)) 9633))
      (mulI t1 25172 + mulI (t1 + t2) (-20995) + (mulI (t1 + t3) (-16069) + mulI (t0 + t2 + (t1 + t3)) 9633))
      (mulI t2 16819 + mulI (t1 + t2) (-20995) + (mulI (t0 + t2) (-3196) + mulI (t0 + t2 + (t1 + t3)) 9633))
      (mulI t3 2446 + mulI (t0 + t3) (-7373) + (mulI (t1 + t3) (-16069) + mulI (t0 + t2 + (t1 + t3)) 9633)) := by
  iterate 5 rw [i32_fits (by omega), ok_bind]
  have b1 := mulI_bound (b := 9633) (B := 9633) (A := 8800000) (a := t0 + t2 + (t1 + t3)) (by omega) (by omega) (.inl rfl)
  have b2 := mulI_bound (b := -3196) (B := 3196) (A := 4400000) (a := t0 + t2) (by omega) (by omega) (.inr rfl)
  have b3 := mulI_bound (b := -16069) (B := 16069) (A := 4400000) (a := t1 + t3) (by omega) (by omega) (.inr rfl)
  have b4 := mulI_bound (b := -7373) (B := 7373) (A := 4400000) (a := t0 + t3) (by omega) (by omega) (.inr rfl)
  have b5 := mulI_bound (b := -20995) (B := 20995) (A := 4400000) (a := t1 + t2) (by omega) (by omega) (.inr rfl)
  have b6 := mulI_bound (b := 12299) (B := 12299) (A := 2200000) (a := t0) (by omega) (by omega) (.inl rfl)
  have b7 := mulI_bound (b := 25172) (B := 25172) (A := 2200000) (a := t1) (by omega) (by omega) (.inl rfl)
  have b8 := mulI_bound (b := 16819) (B := 16819) (A := 2200000) (a := t2) (by omega) (by omega) (.inl rfl)
  have b9 := mulI_bound (b := 2446) (B := 2446) (A := 2200000) (a := t3) (by omega) (by omega) (.inl rfl)
  have key : ∀ {a b A B : Int}, -(A * B / 2 ^ 13 + 1) ≤ mulI a b ∧ mulI a b ≤ A * B / 2 ^ 13 → A * B / 2 ^ 13 < 2 ^ 30 →
      fixMul a b = mulI a b := by
    intro a b A B h1 h2
    refine fixMul_mulI ?_
    unfold mulI at h1
    generalize a * b / 2 ^ 13 = x at *
    generalize A * B / 2 ^ 13 = y at *
    omega
  rw [key b1 (by decide), key b2 (by decide), key b3 (by decide), key b4 (by decide), key b5 (by decide), key b6 (by decide),
    key b7 (by decide), key b8 (by decide), key b9 (by decide)]
  clear key
  simp only [show (8800000 * 9633 / 2 ^ 13 : Int) = 10347949 by decide, show (4400000 * 3196 / 2 ^ 13 : Int) = 1716601 by decide,
    show (4400000 * 16069 / 2 ^ 13 : Int) = 8630810 by decide, show (4400000 * 7373 / 2 ^ 13 : Int) = 3960107 by decide,
    show (4400000 * 20995 / 2 ^ 13 : Int) = 11276611 by decide, show (2200000 * 12299 / 2 ^ 13 : Int) = 3302954 by decide,
    show (2200000 * 25172 / 2 ^ 13 : Int) = 6760058 by decide, show (2200000 * 16819 / 2 ^ 13 : Int) = 4516821 by decide,
    show (2200000 * 2446 / 2 ^ 13 : Int) = 656884 by decide] at *
  generalize mulI t0 12299 = m0 at *
  generalize mulI t1 25172 = m1 at *
  generalize mulI t2 16819 = m2 at *
  generalize mulI t3 2446 = m3 at *
  generalize mulI (t0 + t3) (-7373) = m10 at *
  generalize mulI (t1 + t2) (-20995) = m11 at *
  generalize mulI (t0 + t2) (-3196) = m12 at *
  generalize mulI (t1 + t3) (-16069) = m13 at *
  generalize mulI (t0 + t2 + (t1 + t3)) 9633 = z at *
  iterate 10 rw [i32_fits (by omega), ok_bind]

theorem pass_eq {ck : Bool} {l : List Int} {d : Nat → Int} (hl : ∀ i < 8, l.getD i 0 = d i)
    (h : ∀ i < 8, -bnd ≤ d i ∧ d i ≤ bnd) : pass ck l = .ok ((List.range 8).map (passI d)) := by
  have h0 := h 0 (by omega)
  have h1 := h 1 (by omega)
  have h2 := h 2 (by omega)
  have h3 := h 3 (by omega)
  have h4 := h 4 (by omega)
  have h5 := h 5 (by omega)
  have h6 := h 6 (by omega)
  have h7 := h 7 (by omega)
  unfold bnd at *
  unfold pass
  rw [hl 0 (by omega), hl 1 (by omega), hl 2 (by omega), hl 3 (by omega), hl 4 (by omega), hl 5 (by omega), hl 6 (by omega),
    hl 7 (by omega)]
  clear h hl
  have hr : List.range 8 = [0, 1, 2, 3, 4, 5, 6, 7] := rfl
  rw [hr]
  simp only [List.map_cons, List.map_nil, passI, List.getD_cons_zero, List.getD_cons_succ]
  generalize d 0 = x0 at *
  generalize d 1 = x1 at *
  generalize d 2 = x2 at *
  generalize d 3 = x3 at *
  generalize d 4 = x4 at *
  generalize d 5 = x5 at *
  generalize d 6 = x6 at *
  generalize d 7 = x7 at *
  iterate 4 rw [i32_fits (by omega), ok_bind]
  iterate 4 rw [i32_fits (by omega), ok_bind]
  iterate 4 rw [i32_fits (by omega), ok_bind]
  refine (even_part (by omega) (by omega) (by omega) (by omega) _).trans ?_
  refine (odd_part (by omega) (by omega) (by omega) (by omega) _).trans ?_
  rfl

/-- The weights of a pass, times 8192. -/
def weights : List Int :=
  [8192, 8192, 8192, 8192, 8192, 8192, 8192, 8192,
    11363, 9633, 6437, 2260, -2260, -6437, -9633, -11363,
    10703, 4433, -4433, -10703, -10703, -4433, 4433, 10703,
    9633, -2259, -11362, -6436, 6436, 11362, 2259, -9633,
    8192, -8192, -8192, 8192, 8192, -8192, -8192, 8192,
    6437, -11362, 2261, 9633, -9633, -2261, 11362, -6437,
    4433, -10704, 10704, -4433, -4433, 10704, -10704, 4433,
    2260, -6436, 9633, -11363, 11363, -9633, 6436, -2260]

/-- A pass without rounding, times 8192. -/
def lin (d : Nat → Int) (k : Nat) : Int :=
  weights.getD (8 * k) 0 * d 0 + weights.getD (8 * k + 1) 0 * d 1 + weights.getD (8 * k + 2) 0 * d 2 +
    weights.getD (8 * k + 3) 0 * d 3 + weights.getD (8 * k + 4) 0 * d 4 + weights.getD (8 * k + 5) 0 * d 5 +
    weights.getD (8 * k + 6) 0 * d 6 + weights.getD (8 * k + 7) 0 * d 7

theorem mulI_lin (a b : Int) : 8192 * mulI a b ≤ a * b ∧ a * b ≤ 8192 * mulI a b + 8191 := by
  unfold mulI
  generalize a * b = x
  omega

/-- How far a pass may be off by rounding, times 8192. -/
def slack (k : Nat) : Int := if k = 0 ∨ k = 4 then 0 else 32764

theorem passI_lin (d : Nat → Int) (k : Nat) (hk : k < 8) :
    -slack k ≤ 8192 * passI d k - lin d k ∧ 8192 * passI d k - lin d k ≤ slack k := by
  unfold passI lin weights
  generalize d 0 = x0
  generalize d 1 = x1
  generalize d 2 = x2
  generalize d 3 = x3
  generalize d 4 = x4
  generalize d 5 = x5
  generalize d 6 = x6
  generalize d 7 = x7
  match k, hk with
  | 0, _ | 4, _ =>
    simp only [List.getD_cons_zero, List.getD_cons_succ, Nat.reduceMul, Nat.reduceAdd]
    unfold slack
    omega
  | 2, _ | 6, _ =>
    simp only [show slack 2 = 32764 from rfl, show slack 6 = 32764 from rfl, List.getD_cons_zero, List.getD_cons_succ, Nat.reduceMul, Nat.reduceAdd]
    have h1 := mulI_lin (x0 + x7 - (x3 + x4) + (x1 + x6 - (x2 + x5))) 4433
    have h2 := mulI_lin (x0 + x7 - (x3 + x4)) 6270
    have h3 := mulI_lin (x1 + x6 - (x2 + x5)) 15137
    generalize mulI (x0 + x7 - (x3 + x4) + (x1 + x6 - (x2 + x5))) 4433 = m1 at *
    generalize mulI (x0 + x7 - (x3 + x4)) 6270 = m2 at *
    generalize mulI (x1 + x6 - (x2 + x5)) 15137 = m3 at *
    omega
  | 1, _ | 3, _ | 5, _ | 7, _ =>
    simp only [show slack 1 = 32764 from rfl, show slack 3 = 32764 from rfl, show slack 5 = 32764 from rfl,
      show slack 7 = 32764 from rfl, List.getD_cons_zero, List.getD_cons_succ, Nat.reduceMul, Nat.reduceAdd]
    generalize e0 : x0 - x7 = t0
    generalize e1 : x1 - x6 = t1
    generalize e2 : x2 - x5 = t2
    generalize e3 : x3 - x4 = t3
    have h0 := mulI_lin t0 12299
    have h1 := mulI_lin t1 25172
    have h2 := mulI_lin t2 16819
    have h3 := mulI_lin t3 2446
    have h4 := mulI_lin (t0 + t3) (-7373)
    have h5 := mulI_lin (t1 + t2) (-20995)
    have h6 := mulI_lin (t0 + t2) (-3196)
    have h7 := mulI_lin (t1 + t3) (-16069)
    have h8 := mulI_lin (t0 + t2 + (t1 + t3)) 9633
    generalize mulI t0 12299 = m0 at *
    generalize mulI t1 25172 = m1 at *
    generalize mulI t2 16819 = m2 at *
    generalize mulI t3 2446 = m3 at *
    generalize mulI (t0 + t3) (-7373) = m4 at *
    generalize mulI (t1 + t2) (-20995) = m5 at *
    generalize mulI (t0 + t2) (-3196) = m6 at *
    generalize mulI (t1 + t3) (-16069) = m7 at *
    generalize mulI (t0 + t2 + (t1 + t3)) 9633 = m8 at *
    subst e0 e1 e2 e3
    omega

theorem passI_bound {d : Nat → Int} {b : Int} (h : ∀ i < 8, -b ≤ d i ∧ d i ≤ b) (k : Nat) (hk : k < 8) :
    -(8 * b + 4) ≤ passI d k ∧ passI d k ≤ 8 * b + 4 := by
  have h0 := h 0 (by omega)
  have h1 := h 1 (by omega)
  have h2 := h 2 (by omega)
  have h3 := h 3 (by omega)
  have h4 := h 4 (by omega)
  have h5 := h 5 (by omega)
  have h6 := h 6 (by omega)
  have h7 := h 7 (by omega)
  have e := passI_lin d k hk
  have hs : slack k ≤ 32764 := by unfold slack; split <;> omega
  generalize slack k = sl at *
  generalize passI d k = p at *
  unfold lin weights at e
  clear h
  match k, hk with
  | 0, _ | 1, _ | 2, _ | 3, _ | 4, _ | 5, _ | 6, _ | 7, _ =>
    simp only [List.getD_cons_zero, List.getD_cons_succ, Nat.reduceMul, Nat.reduceAdd] at e
    omega

/-- The workspace after the first pass. -/
def work (block : List Int) (r k : Nat) : Int :=
  (if k = 0 ∨ k = 4 then 4 else 1) * passI (fun i => block.getD (8 * r + i) 0) k

/-- The sums of the second pass. -/
def total (block : List Int) (k c : Nat) : Int := passI (fun r => work block r c) k

/-- A block of `i16`. -/
def Small (block : List Int) : Prop := ∀ i < 64, -32768 ≤ block.getD i 0 ∧ block.getD i 0 ≤ 32767

theorem row_bound {block : List Int} (h : Small block) {r : Nat} (hr : r < 8) (k : Nat) (hk : k < 8) :
    -262148 ≤ passI (fun i => block.getD (8 * r + i) 0) k ∧ passI (fun i => block.getD (8 * r + i) 0) k ≤ 262148 :=
  passI_bound (b := 32768) (fun i hi => by have := h (8 * r + i) (by omega); omega) k hk

theorem work_bound {block : List Int} (h : Small block) {r : Nat} (hr : r < 8) (k : Nat) (hk : k < 8) :
    -bnd ≤ work block r k ∧ work block r k ≤ bnd := by
  have := row_bound h hr k hk
  unfold work bnd
  generalize passI (fun i => block.getD (8 * r + i) 0) k = x at *
  split <;> omega

theorem total_bound {block : List Int} (h : Small block) (k : Nat) (hk : k < 8) {c : Nat} (hc : c < 8) :
    -8800004 ≤ total block k c ∧ total block k c ≤ 8800004 :=
  passI_bound (b := bnd) (fun r hr => work_bound h hr c hc) k hk

theorem rowScale_eq {block : List Int} (h : Small block) {r : Nat} (hr : r < 8) :
    rowScale ((List.range 8).map (passI (fun i => block.getD (8 * r + i) 0))) = (List.range 8).map (work block r) := by
  have h0 := row_bound h hr 0 (by omega)
  have h4 := row_bound h hr 4 (by omega)
  have e : List.range 8 = [0, 1, 2, 3, 4, 5, 6, 7] := rfl
  unfold rowScale work
  rw [range_getD _ _ _ (by omega), range_getD _ _ _ (by omega), range_getD _ _ _ (by omega), range_getD _ _ _ (by omega),
    range_getD _ _ _ (by omega), range_getD _ _ _ (by omega), range_getD _ _ _ (by omega), range_getD _ _ _ (by omega), e]
  generalize passI (fun i => block.getD (8 * r + i) 0) = p at *
  rw [wrap32_id (by omega), wrap32_id (by omega)]
  simp [Int.mul_comm]

theorem row_eq {ck : Bool} {block : List Int} (h : Small block) {r : Nat} (hr : r < 8) :
    row ck block r = .ok ((List.range 8).map (work block r)) := by
  unfold row
  rw [pass_eq (d := fun i => block.getD (8 * r + i) 0) (fun i hi => range_getD _ _ _ hi _)
    (fun i hi => by have := h (8 * r + i) (by omega); unfold bnd; omega), ok_bind, rowScale_eq h hr]
  rfl

theorem descale_eq {ck : Bool} {v : Int} (h : -8800004 ≤ v ∧ v ≤ 8800004) : descale ck v = .ok ((v + 16) / 32) := by
  unfold descale
  rw [i32_fits (by omega), ok_bind]
  rfl

theorem descales {ck : Bool} {block : List Int} (h : Small block) {c : Nat} (hc : c < 8) :
    ((List.range 8).map (passI (fun r => work block r c))).mapM (descale ck) =
      .ok ((List.range 8).map (fun k => (total block k c + 16) / 32)) := by
  rw [Jpeg.mapM_pure _ (fun v => (v + 16) / 32)]
  · rw [List.map_map]; rfl
  · intro a ha
    obtain ⟨k, hk, rfl⟩ := List.mem_map.mp ha
    exact descale_eq (total_bound h k (List.mem_range.mp hk) hc)

theorem column_eq {ck : Bool} {block : List Int} (h : Small block) {c : Nat} (hc : c < 8) :
    column ck ((List.range 8).map (fun r => (List.range 8).map (work block r))) c =
      .ok ((List.range 8).map (fun k => (total block k c + 16) / 32)) := by
  unfold column
  rw [pass_eq (d := fun r => work block r c) (fun i hi => by
    rw [range_getD _ _ _ hi, range_getD _ _ _ hi, range_getD _ _ _ hc]) (fun r hr => work_bound h hr c hc), ok_bind]
  exact descales h hc

/-- The result of the transform in exact integers. -/
def result (block : List Int) : List Int :=
  (List.range 8).flatMap (fun k => (List.range 8).map (fun c => (total block k c + 16) / 32))

theorem ofColumns_eq (f : Nat → Nat → Int) :
    ofColumns ((List.range 8).map (fun c => (List.range 8).map (fun k => f k c))) =
      (List.range 8).flatMap (fun k => (List.range 8).map (fun c => f k c)) := rfl

theorem dct_eq {ck : Bool} {block : List Int} (h : Small block) : dct ck block = .ok (result block) := by
  unfold dct
  rw [Jpeg.mapM_pure _ (fun r => (List.range 8).map (work block r)) _ (fun r hr => row_eq h (List.mem_range.mp hr)), ok_bind,
    Jpeg.mapM_pure _ (fun c => (List.range 8).map (fun k => (total block k c + 16) / 32)) _
      (fun c hc => column_eq h (List.mem_range.mp hc)), ok_bind]
  exact congrArg Except.ok (ofColumns_eq (fun k c => (total block k c + 16) / 32))

/-! ### NEON -/

theorem passNeon_eq {ck : Bool} {d : Nat → Int} (h : ∀ i < 8, -bnd ≤ d i ∧ d i ≤ bnd) :
    passNeon ck [d 0, d 1, d 2, d 3] [d 4, d 5, d 6, d 7] = .ok ((List.range 8).map (passI d)) := by
  have h0 := h 0 (by omega)
  have h1 := h 1 (by omega)
  have h2 := h 2 (by omega)
  have h3 := h 3 (by omega)
  have h4 := h 4 (by omega)
  have h5 := h 5 (by omega)
  have h6 := h 6 (by omega)
  have h7 := h 7 (by omega)
  unfold bnd at *
  clear h
  unfold passNeon
  have hr : List.range 8 = [0, 1, 2, 3, 4, 5, 6, 7] := rfl
  rw [hr]
  simp only [List.map_cons, List.map_nil, passI, List.getD_cons_zero, List.getD_cons_succ, vrev64, vext2, vadd, vsub,
    List.zipWith_cons_cons, List.zipWith_nil_left]
  generalize d 0 = x0 at *
  generalize d 1 = x1 at *
  generalize d 2 = x2 at *
  generalize d 3 = x3 at *
  generalize d 4 = x4 at *
  generalize d 5 = x5 at *
  generalize d 6 = x6 at *
  generalize d 7 = x7 at *
  rw [wrap32_id (v := x0 + x7) (by omega), wrap32_id (v := x1 + x6) (by omega), wrap32_id (v := x2 + x5) (by omega),
    wrap32_id (v := x3 + x4) (by omega), wrap32_id (v := x0 - x7) (by omega), wrap32_id (v := x1 - x6) (by omega),
    wrap32_id (v := x2 - x5) (by omega), wrap32_id (v := x3 - x4) (by omega)]
  iterate 4 rw [i32_fits (by omega), ok_bind]
  refine (even_part (by omega) (by omega) (by omega) (by omega) _).trans ?_
  refine (odd_part (by omega) (by omega) (by omega) (by omega) _).trans ?_
  rfl

theorem transpose8_eq (f : Nat → Nat → Int) :
    transpose8 (((List.range 8).map (fun r => (List.range 8).map (f r))).map (fun r => (r.take 4, r.drop 4))) =
      (List.range 8).map (fun c => ([f 0 c, f 1 c, f 2 c, f 3 c], [f 4 c, f 5 c, f 6 c, f 7 c])) := rfl

theorem take_four {l : List Int} {n : Nat} (h : n + 4 ≤ l.length) :
    (l.drop n).take 4 = [l.getD n 0, l.getD (n + 1) 0, l.getD (n + 2) 0, l.getD (n + 3) 0] := by
  apply List.ext_getElem?
  intro i
  rw [List.getElem?_take]
  by_cases hi : i < 4
  · rw [if_pos hi, List.getElem?_drop]
    have e : ∀ k, k < 4 → l[n + k]? = some (l.getD (n + k) 0) := by
      intro k hk
      rw [List.getD_eq_getElem?_getD, List.getElem?_eq_getElem (by omega)]; rfl
    rw [e i hi]
    match i, hi with
    | 0, _ | 1, _ | 2, _ | 3, _ => rfl
  · rw [if_neg hi, List.getElem?_eq_none (by simp; omega)]

theorem dctNeon_eq {ck : Bool} {block : List Int} (hl : block.length = 64) (h : Small block) :
    dctNeon ck block = .ok (result block) := by
  have hrows : (List.range 8).mapM (fun r => do
      let p ← passNeon ck ((block.drop (8 * r)).take 4) ((block.drop (8 * r + 4)).take 4)
      return rowScale p) = .ok ((List.range 8).map (fun r => (List.range 8).map (work block r))) := by
    refine Jpeg.mapM_pure _ _ _ (fun r hr => ?_)
    have hr := List.mem_range.mp hr
    rw [take_four (by omega), take_four (by omega)]
    have e := passNeon_eq (ck := ck) (d := fun i => block.getD (8 * r + i) 0)
      (fun i hi => by have := h (8 * r + i) (by omega); unfold bnd; omega)
    refine (congrArg (fun x => x >>= fun p => pure (rowScale p)) e).trans ?_
    rw [ok_bind, rowScale_eq h hr]
    rfl
  have hcols : ((List.range 8).map (fun c => ([work block 0 c, work block 1 c, work block 2 c, work block 3 c],
        [work block 4 c, work block 5 c, work block 6 c, work block 7 c]))).mapM (fun c => do
      let p ← passNeon ck c.1 c.2
      p.mapM (descale ck)) =
      .ok ((List.range 8).map (fun c => (List.range 8).map (fun k => (total block k c + 16) / 32))) := by
    rw [List.mapM_map]
    refine Jpeg.mapM_pure _ _ _ (fun c hc => ?_)
    have hc := List.mem_range.mp hc
    have e := passNeon_eq (ck := ck) (d := fun r => work block r c) (fun r hr => work_bound h hr c hc)
    refine (congrArg (fun x => x >>= fun p => p.mapM (descale ck)) e).trans ?_
    rw [ok_bind]
    exact descales h hc
  unfold dctNeon
  rw [hrows, ok_bind, transpose8_eq]
  refine (congrArg (fun x => x >>= fun cols => pure (ofColumns cols)) hcols).trans ?_
  rw [ok_bind]
  exact congrArg Except.ok (ofColumns_eq (fun k c => (total block k c + 16) / 32))

/-! ### AVX2 -/

theorem i32_false (v : Int) : i32 false v = .ok (wrap32 v) := by
  unfold i32
  split
  · rename_i h; rw [wrap32_id h]
  · rfl

theorem vadd_map (g h : Nat → Int) : vadd ((List.range 8).map g) ((List.range 8).map h) =
    (List.range 8).map (fun i => wrap32 (g i + h i)) := rfl

theorem vsub_map (g h : Nat → Int) : vsub ((List.range 8).map g) ((List.range 8).map h) =
    (List.range 8).map (fun i => wrap32 (g i - h i)) := rfl

theorem vsra5_map (g : Nat → Int) : vsra5 ((List.range 8).map g) = (List.range 8).map (fun i => g i / 2 ^ 5) := rfl

theorem splat_map (v : Int) : splat v = (List.range 8).map (fun _ => v) := rfl

theorem fixMul8_map (g : Nat → Int) (v : Int) : fixMul8 ((List.range 8).map g) (splat v) =
    (List.range 8).map (fun i => fixMul (g i) v) := rfl

/-- A column of the AVX2 version. -/
def lane (d : Nat → Int) (k : Nat) : Int :=
  let add := fun a b => wrap32 (a + b)
  let sub := fun a b => wrap32 (a - b)
  let out := fun v => wrap32 (v + 2 ^ 4) / 2 ^ 5
  let tmp10 := add (add (d 0) (d 7)) (add (d 3) (d 4))
  let tmp12 := sub (add (d 0) (d 7)) (add (d 3) (d 4))
  let tmp11 := add (add (d 1) (d 6)) (add (d 2) (d 5))
  let tmp13 := sub (add (d 1) (d 6)) (add (d 2) (d 5))
  let t0 := sub (d 0) (d 7)
  let t1 := sub (d 1) (d 6)
  let t2 := sub (d 2) (d 5)
  let t3 := sub (d 3) (d 4)
  let z1 := fixMul (add tmp12 tmp13) 4433
  let z := fixMul (add (add t0 t2) (add t1 t3)) 9633
  let m10 := fixMul (add t0 t3) (-7373)
  let m11 := fixMul (add t1 t2) (-20995)
  let m12 := add (fixMul (add t0 t2) (-3196)) z
  let m13 := add (fixMul (add t1 t3) (-16069)) z
  [out (add tmp10 tmp11), out (add (add (fixMul t0 12299) m10) m12), out (add z1 (fixMul tmp12 6270)),
    out (add (add (fixMul t1 25172) m11) m13), out (sub tmp10 tmp11), out (add (add (fixMul t2 16819) m11) m12),
    out (sub z1 (fixMul tmp13 15137)), out (add (add (fixMul t3 2446) m10) m13)].getD k 0

theorem columnsAvx2_eq (f : Nat → Nat → Int) :
    columnsAvx2 ((List.range 8).map (fun r => (List.range 8).map (f r))) =
      (List.range 8).map (fun k => (List.range 8).map (fun c => lane (fun r => f r c) k)) := by
  have e : ∀ i, i < 8 → ((List.range 8).map (fun r => (List.range 8).map (f r))).getD i [] = (List.range 8).map (f i) :=
    fun i hi => range_getD _ _ _ hi _
  unfold columnsAvx2
  simp only [e 0 (by omega), e 1 (by omega), e 2 (by omega), e 3 (by omega), e 4 (by omega), e 5 (by omega), e 6 (by omega),
    e 7 (by omega), vadd_map, vsub_map, fixMul8_map]
  simp only [splat_map, vadd_map, vsra5_map]
  rfl

theorem pass_false (d : Nat → Int) : (do
      let p ← pass false ((List.range 8).map d)
      p.mapM (descale false)) = .ok ((List.range 8).map (lane d)) := by
  unfold pass
  simp only [range_getD d 8 0 (by omega), range_getD d 8 1 (by omega), range_getD d 8 2 (by omega), range_getD d 8 3 (by omega),
    range_getD d 8 4 (by omega), range_getD d 8 5 (by omega), range_getD d 8 6 (by omega), range_getD d 8 7 (by omega)]
  iterate 10 rw [i32_false, ok_bind]
  iterate 10 rw [i32_false, ok_bind]
  iterate 10 rw [i32_false, ok_bind]
  iterate 2 rw [i32_false, ok_bind]
  have hd : ∀ v, descale false v = .ok (wrap32 (v + 2 ^ 4) / 2 ^ 5) := by
    intro v
    unfold descale
    rw [i32_false, ok_bind]
    rfl
  show (List.mapM (descale false) _) = _
  rw [Jpeg.mapM_pure _ _ _ (fun v _ => hd v)]
  rfl

theorem lane_eq {d : Nat → Int} (h : ∀ i < 8, -bnd ≤ d i ∧ d i ≤ bnd) {k : Nat} (hk : k < 8) :
    lane d k = (passI d k + 16) / 32 := by
  have e := pass_false d
  rw [pass_eq (d := d) (fun i hi => range_getD _ _ _ hi _) h, ok_bind, Jpeg.mapM_pure _ (fun v => (v + 16) / 32) _ (by
    intro a ha
    obtain ⟨k, hk, rfl⟩ := List.mem_map.mp ha
    exact descale_eq (passI_bound h k (List.mem_range.mp hk)))] at e
  have e := congrArg (fun l => l.getD k 0) (Except.ok.inj e)
  simp only [List.map_map] at e
  rw [range_getD _ _ _ hk, range_getD _ _ _ hk] at e
  exact e.symm

theorem dctAvx2_eq {ck : Bool} {block : List Int} (h : Small block) : dctAvx2 ck block = .ok (result block) := by
  unfold dctAvx2
  rw [Jpeg.mapM_pure _ (fun r => (List.range 8).map (work block r)) _ (fun r hr => row_eq h (List.mem_range.mp hr)), ok_bind,
    columnsAvx2_eq]
  refine congrArg Except.ok ?_
  unfold result
  rw [List.flatMap_def]
  refine congrArg List.flatten (List.map_congr_left fun k hk => List.map_congr_left fun c hc => ?_)
  exact lane_eq (fun r hr => work_bound h hr c (List.mem_range.mp hc)) (List.mem_range.mp hk)

/-! ### The shortcut for constant blocks -/

theorem mulI_zero (b : Int) : mulI 0 b = 0 := by unfold mulI; rw [Int.zero_mul]; rfl

theorem passI_const (v : Int) (k : Nat) (hk : k < 8) : passI (fun _ => v) k = if k = 0 then 8 * v else 0 := by
  unfold passI
  match k, hk with
  | 0, _ | 1, _ | 2, _ | 3, _ | 4, _ | 5, _ | 6, _ | 7, _ =>
    simp only [List.getD_cons_zero, List.getD_cons_succ, Int.sub_self, Int.add_zero, mulI_zero]
    simp
    try omega

theorem passI_congr {d e : Nat → Int} (h : ∀ i < 8, d i = e i) (k : Nat) : passI d k = passI e k := by
  unfold passI
  rw [h 0 (by omega), h 1 (by omega), h 2 (by omega), h 3 (by omega), h 4 (by omega), h 5 (by omega), h 6 (by omega),
    h 7 (by omega)]

theorem total_const {block : List Int} {v : Int} (h : ∀ i < 64, block.getD i 0 = v) {k c : Nat} (hk : k < 8) (hc : c < 8) :
    total block k c = if k = 0 ∧ c = 0 then 256 * v else 0 := by
  have hw : ∀ r, r < 8 → work block r c = if c = 0 then 32 * v else 0 := by
    intro r hr
    unfold work
    rw [passI_congr (e := fun _ => v) (fun i hi => h (8 * r + i) (by omega)), passI_const v c hc]
    by_cases h0 : c = 0
    · rw [if_pos h0, if_pos h0, if_pos (.inl h0)]; omega
    · rw [if_neg h0, if_neg h0, Int.mul_zero]
  unfold total
  rw [passI_congr hw, passI_const _ k hk]
  by_cases h0 : k = 0 <;> by_cases h1 : c = 0 <;> simp [h0, h1]
  omega

theorem result_const {block : List Int} {v : Int} (h : ∀ i < 64, block.getD i 0 = v) :
    result block = (List.replicate 64 0).set 0 (v * 8) := by
  have e : result block = (List.range 8).flatMap (fun k => (List.range 8).map (fun c => if k = 0 ∧ c = 0 then v * 8 else 0)) := by
    unfold result
    rw [List.flatMap_def, List.flatMap_def]
    refine congrArg List.flatten (List.map_congr_left fun k hk => List.map_congr_left fun c hc => ?_)
    rw [total_const h (List.mem_range.mp hk) (List.mem_range.mp hc)]
    split <;> omega
  rw [e]
  rfl

theorem dctFast_eq {cpu : Cpu} {ck : Bool} {block : List Int} (hl : block.length = 64) (h : Small block) :
    dctFast cpu ck block = .ok (result block) := by
  unfold dctFast
  split
  · rename_i hc
    refine congrArg Except.ok (result_const (fun i hi => ?_)).symm
    rw [List.all_eq_true] at hc
    match i with
    | 0 => rfl
    | i + 1 =>
      have := hc (block.getD (i + 1) 0) (by
        rw [List.getD_eq_getElem?_getD, List.getElem?_eq_getElem (by omega), Option.getD_some]
        refine List.mem_iff_getElem?.mpr ⟨i, ?_⟩
        rw [List.getElem?_drop, Nat.add_comm, List.getElem?_eq_getElem])
      exact of_decide_eq_true this
  · match cpu with
    | .x86 true => exact dctAvx2_eq h
    | .x86 false => exact dct_eq h
    | .aarch64 => exact dctNeon_eq hl h
    | .other => exact dct_eq h

end Pixo.DctInt
