import Verif.Proof.JpegProgRuns
import Verif.Model.JpegRefine
import Verif.Spec.T81Approx
/-
Successive approximation: what the scans say.
-/
namespace Pixo.Jpeg
open Pixo Spec Spec.T81

/-! ### First scans -/

/-- Every coefficient shifted. -/
def shiftBlock (al : Nat) (b : List Int) : List Int := b.map fun v => v / 2 ^ al

theorem zigzag_shift (al : Nat) (b : List Int) : zigzagReorder (shiftBlock al b) = (zigzagReorder b).map fun v => v / 2 ^ al := by
  unfold zigzagReorder shiftBlock
  rw [List.map_map]
  apply List.map_congr_left
  intro i _
  simp only [Function.comp_apply, List.getD_eq_getElem?_getD, List.getElem?_map]
  cases b[(zigzag[i]?.getD 0)]? <;> simp

theorem encodeAcFirst_shift (t : HuffTables) (scan : ScanSpec) (lum : Bool) (w : BitWriterMsb) (b : List Int) (run : Nat) :
    encodeAcFirst t scan lum w b run = encodeAcFirst t { scan with al := 0 } lum w (shiftBlock scan.al b) run := by
  unfold encodeAcFirst
  simp only [zigzag_shift, List.map_take, List.map_drop, Int.pow_zero, Int.ediv_one, List.map_map, Function.comp_def]

theorem acScanBlocks_shift (t : HuffTables) (scan : ScanSpec) (lum : Bool) (bs : List (List Int)) (w : BitWriterMsb) (run : Nat) :
    acScanBlocks t scan lum bs w run = acScanBlocks t { scan with al := 0 } lum (bs.map (shiftBlock scan.al)) w run := by
  induction bs generalizing w run with
  | nil => rfl
  | cons b bs ih =>
    rw [List.map_cons, acScanBlocks, acScanBlocks, encodeAcFirst_shift]
    congr 1
    funext p
    exact ih _ _

theorem shift_range (al : Nat) {v lo hi : Int} (h : lo ≤ v ∧ v ≤ hi) (h1 : lo ≤ 0) (h2 : -1 ≤ hi) :
    lo ≤ v / 2 ^ al ∧ v / 2 ^ al ≤ max hi 0 := by
  have hp : (0 : Int) < 2 ^ al := Int.pow_pos (by decide)
  have hp1 : (1 : Int) ≤ 2 ^ al := by omega
  constructor
  · rw [Int.le_ediv_iff_mul_le hp]
    have := Int.mul_le_mul_of_nonpos_left h1 hp1
    omega
  · rcases Int.lt_or_le v 0 with hv | hv
    · have := Int.ediv_neg_of_neg_of_pos hv hp
      omega
    · have := Int.ediv_le_self (2 ^ al) hv
      omega

/-- Differences of shifted values where the code takes shifted differences: the DC coefficients a decoder gets. -/
def dcSums (al : Nat) : Int → Int → List Int → List Int
  | _, _, [] => []
  | acc, prev, d :: ds => (acc + (d - prev) / 2 ^ al) :: dcSums al (acc + (d - prev) / 2 ^ al) d ds

theorem dcScanBlocks_shift {t : HuffTables} (h : TablesOk t) {scan : ScanSpec} (lum : Bool)
    (blocks : List (List Int)) (hb : ∀ b ∈ blocks, BlockRange (zigzagReorder b)) (w : BitWriterMsb) (prev acc : Int)
    (hp : -1024 ≤ prev ∧ prev ≤ 1023) (hall : ∀ s ≤ 11, s ∈ (t.get true lum).vals) :
    ∃ w' bs, dcScanBlocks t scan lum blocks w prev = .ok w' ∧ Emits w w' bs ∧
      DcFirst (t.get true lum).spec acc (dcSums scan.al acc prev (blocks.map (fun b => b.headD 0))) bs := by
  induction blocks generalizing w prev acc with
  | nil => exact ⟨w, [], rfl, Emits.refl w, DcFirst.nil⟩
  | cons b bs ih =>
    have hz := headD_zigzag b
    have hb1 := (hb b (by simp)).dc
    rw [hz] at hb1
    rw [dcScanBlocks]
    simp only
    rw [subI16, if_pos (by omega), ok_bind]
    have hrange := shift_range scan.al (v := b.headD 0 - prev) (lo := -2047) (hi := 2047) (by omega) (by omega) (by omega)
    rw [List.map_cons, dcSums]
    generalize (b.headD 0 - prev) / 2 ^ scan.al = d at *
    have hr : -2047 ≤ d ∧ d ≤ 2047 := by omega
    obtain ⟨c, word, e, hem, hc, _⟩ := progDcCode_spec h (category d) lum w
    rw [e, ok_bind]
    have hcat : category d ≤ 11 := category_le (by omega)
    by_cases h0 : d = 0
    · subst h0
      obtain ⟨w', b2, e2, hem2, hdc⟩ := ih (fun x hx => hb x (List.mem_cons_of_mem _ hx)) (writeCode w c) (b.headD 0) (acc + 0) hb1
      rw [show encodeValue 0 = .ok (0, 0) from rfl, ok_bind, category_zero]
      simp only [Nat.lt_irrefl, if_false, gt_iff_lt]
      refine ⟨w', word ++ b2, e2, hem.trans hem2, DcFirst.cons (Dc.zero ?_) hdc⟩
      have := hc (hall _ hcat)
      rwa [category_zero] at this
    · obtain ⟨v, e3, hv, hext⟩ := encodeValue_spec h0 (by omega)
      have hcat1 := category_pos h0
      rw [e3, ok_bind, if_pos (by omega)]
      obtain ⟨w', b2, e2, hem2, hdc⟩ := ih (fun x hx => hb x (List.mem_cons_of_mem _ hx))
        (writeCode (writeCode w c) (v, category d)) (b.headD 0) (acc + d) hb1
      refine ⟨w', (word ++ bitsMSB v (category d)) ++ b2, e2,
        (hem.trans (emits_writeBits _ v _ (by omega))).trans hem2, DcFirst.cons ?_ hdc⟩
      have hdc1 := Dc.bits hcat1 hcat hv (hc (hall _ hcat))
      rwa [hext] at hdc1

theorem encodeDcFirst_spec {t : HuffTables} (h : TablesOk t) (lum : Bool) (w : BitWriterMsb) (diff : Int) (al : Nat)
    (code : Nat × Nat) (hd : -2047 ≤ diff ∧ diff ≤ 2047) (hc : progDcCode t (category (diff / 2 ^ al)) lum = .ok code)
    (hall : ∀ s ≤ 11, s ∈ (t.get true lum).vals) :
    ∃ w' bs, encodeDcFirst w diff al code = .ok w' ∧ Emits w w' bs ∧ Dc (t.get true lum).spec (diff / 2 ^ al) bs := by
  have hrange := shift_range al (v := diff) (lo := -2047) (hi := 2047) (by omega) (by omega) (by omega)
  unfold encodeDcFirst
  simp only
  generalize diff / 2 ^ al = d at *
  have hr : -2047 ≤ d ∧ d ≤ 2047 := by omega
  obtain ⟨c, word, e, hem, hcode, _⟩ := progDcCode_spec h (category d) lum w
  have hcat : category d ≤ 11 := category_le (by omega)
  rw [e] at hc
  cases hc
  by_cases h0 : d = 0
  · subst h0
    rw [if_neg (by simp)]
    have := hcode (hall _ hcat)
    rw [category_zero] at this
    exact ⟨_, word, rfl, hem, Dc.zero this⟩
  · obtain ⟨v, e3, hv, hext⟩ := encodeValue_spec h0 (by omega)
    rw [if_pos h0, e3, ok_bind]
    have hdc1 := Dc.bits (category_pos h0) hcat hv (hcode (hall _ hcat))
    rw [hext] at hdc1
    exact ⟨_, _, rfl, hem.trans (emits_writeBits _ v _ (by omega)), hdc1⟩

/-! ### Refinement of DC coefficients -/

theorem bit_emits (w : BitWriterMsb) (n : Nat) (hn : n < 2) : Emits w (w.writeBits n 1) [decide (n = 1)] := by
  have := emits_writeBits w n 1 (by decide)
  have e : bitsMSB n 1 = [decide (n = 1)] := by
    rcases (by omega : n = 0 ∨ n = 1) with rfl | rfl <;> rfl
  rwa [e] at this

theorem and_one_lt (n : Nat) : n &&& 1 < 2 := by rw [Nat.and_one_is_mod]; omega

/-- The bit `encode_dc_refine` writes. -/
def dcBit (al : Nat) (d : Int) : Bool := decide (d.natAbs / 2 ^ al % 2 = 1)

theorem encodeDcRefine_spec (w : BitWriterMsb) (d : Int) (al : Nat) : Emits w (encodeDcRefine w d al) [dcBit al d] := by
  have := bit_emits w ((d.natAbs >>> al) &&& 1) (and_one_lt _)
  rw [Nat.and_one_is_mod, Nat.shiftRight_eq_div_pow] at this
  unfold encodeDcRefine
  rw [Nat.and_one_is_mod, Nat.shiftRight_eq_div_pow]
  exact this

theorem dcRefineBlocks_spec (al : Nat) (blocks : List (List Int)) (hb : ∀ b ∈ blocks, BlockRange (zigzagReorder b))
    (w : BitWriterMsb) (prev : Int) (hp : -1024 ≤ prev ∧ prev ≤ 1023) :
    ∃ w', dcRefineBlocks al blocks w prev = .ok w' ∧ Emits w w' (blocks.map fun b => dcBit al (b.headD 0)) := by
  induction blocks generalizing w prev with
  | nil => exact ⟨w, rfl, Emits.refl w⟩
  | cons b bs ih =>
    have hb1 := (hb b (by simp)).dc
    rw [headD_zigzag] at hb1
    rw [dcRefineBlocks, subI16, if_pos (by omega), ok_bind]
    obtain ⟨w', e, hem⟩ := ih (fun x hx => hb x (List.mem_cons_of_mem _ hx)) (encodeDcRefine w (b.headD 0) al) (b.headD 0) hb1
    exact ⟨w', e, (encodeDcRefine_spec w (b.headD 0) al).trans hem⟩

/-! ### Refinement of AC coefficients -/

/-- The code takes the coefficient for what it is: those of magnitude just above `2^al` it does not. -/
def Judged (al : Nat) (x : Int) : Prop := x.natAbs ≤ 2 ^ al ∨ 2 ^ (al + 1) ≤ x.natAbs

instance (al : Nat) (x : Int) : Decidable (Judged al x) := by unfold Judged; infer_instance

theorem point_natAbs (al : Nat) (x : Int) : (acPoint al x).natAbs = x.natAbs / 2 ^ al := by
  unfold acPoint
  rw [Int.natAbs_tdiv, Int.natAbs_pow]
  rfl

theorem point_old {al : Nat} {x : Int} (h : x.natAbs > 1 <<< al) (hj : Judged al x) : 2 ≤ (acPoint al x).natAbs := by
  rw [Nat.one_shiftLeft] at h
  have hp : 0 < 2 ^ al := Nat.pow_pos (by decide)
  rw [point_natAbs, Nat.le_div_iff_mul_le hp]
  rcases hj with hj | hj
  · omega
  · rw [Nat.pow_succ] at hj; omega

theorem point_new {al : Nat} {x : Int} (h : ¬x.natAbs > 1 <<< al) (hb : (x.natAbs >>> al) &&& 1 ≠ 0) :
    (acPoint al x).natAbs = 1 ∧ (0 < acPoint al x ↔ ¬x < 0) := by
  rw [Nat.one_shiftLeft] at h
  rw [Nat.and_one_is_mod, Nat.shiftRight_eq_div_pow] at hb
  have hp : 0 < 2 ^ al := Nat.pow_pos (by decide)
  have h1 : x.natAbs / 2 ^ al ≤ 1 := by
    have := Nat.div_le_div_right (c := 2 ^ al) (by omega : x.natAbs ≤ 2 ^ al)
    rwa [Nat.div_self hp] at this
  have h2 : (acPoint al x).natAbs = 1 := by rw [point_natAbs]; generalize x.natAbs / 2 ^ al = q at *; omega
  refine ⟨h2, ?_⟩
  have hq : (0 : Int) < 2 ^ al := Int.pow_pos (by decide)
  constructor
  · intro h3 h4
    have : acPoint al x ≤ 0 := by
      unfold acPoint
      rw [show x = -(-x) by omega, Int.neg_tdiv]
      have := Int.tdiv_nonneg (a := -x) (b := 2 ^ al) (by omega) (by omega)
      omega
    omega
  · intro h3
    have : 0 ≤ acPoint al x := Int.tdiv_nonneg (by omega) (by omega)
    omega

theorem point_zero {al : Nat} {x : Int} (h : ¬x.natAbs > 1 <<< al) (hb : ¬(x.natAbs >>> al) &&& 1 ≠ 0) : acPoint al x = 0 := by
  rw [Nat.one_shiftLeft] at h
  rw [Nat.and_one_is_mod, Nat.shiftRight_eq_div_pow] at hb
  have hp : 0 < 2 ^ al := Nat.pow_pos (by decide)
  have h1 : x.natAbs / 2 ^ al ≤ 1 := by
    have := Nat.div_le_div_right (c := 2 ^ al) (by omega : x.natAbs ≤ 2 ^ al)
    rwa [Nat.div_self hp] at this
  have h2 : (acPoint al x).natAbs = 0 := by rw [point_natAbs]; generalize x.natAbs / 2 ^ al = q at *; omega
  omega

theorem pushBits_spec (w : BitWriterMsb) (bits : List Nat) (h : ∀ b ∈ bits, b < 2) :
    Emits w (pushBits w bits) (bits.map fun b => decide (b = 1)) := by
  induction bits generalizing w with
  | nil => exact Emits.refl w
  | cons b bits ih =>
    have := (bit_emits w b (h b (by simp))).trans (ih (w.writeBits b 1) fun x hx => h x (by simp [hx]))
    exact this

/-- The correction bits as numbers. -/
def corrNats (l : List Int) : List Nat := (l.filter fun v => decide (2 ≤ v.natAbs)).map fun v => v.natAbs % 2

theorem corrNats_bits (l : List Int) : (corrNats l).map (fun b => decide (b = 1)) = corrections l := by
  unfold corrNats corrections
  rw [List.map_map]
  rfl

theorem corrNats_lt (l : List Int) : ∀ b ∈ corrNats l, b < 2 := by
  intro b hb
  obtain ⟨v, _, rfl⟩ := List.mem_map.mp hb
  omega

theorem corrNats_append (a b : List Int) : corrNats (a ++ b) = corrNats a ++ corrNats b := by simp [corrNats]
theorem corrections_append (a b : List Int) : corrections (a ++ b) = corrections a ++ corrections b := by simp [corrections]
theorem corrNats_zeros {l : List Int} (h : ∀ v ∈ l, v = 0) : corrNats l = [] := by
  unfold corrNats
  rw [List.filter_eq_nil_iff.mpr (by intro v hv; simp [h v hv])]
  rfl

theorem pushCorr (w : BitWriterMsb) (l : List Int) : Emits w (pushBits w (corrNats l)) (corrections l) := by
  rw [← corrNats_bits]
  exact pushBits_spec w _ (corrNats_lt l)

/-- The codes for coefficients that stay zero or had a nonzero history, before a new one: with 16 zeros or more,
none with a nonzero history comes after the 16th. -/
def SegmentOk (pre : List Int) : Prop :=
  pre.count 0 < 16 ∨ ∃ a b, pre = a ++ 0 :: b ∧ a.count 0 = 15 ∧ ∀ v ∈ b, v = 0

/-- All segments of a band are so, and none with a nonzero history comes after the last new one; `pre` are the
coefficients since the last new one. -/
def BandOk : List Int → List Int → Prop
  | pre, [] => ∀ v ∈ pre, v = 0
  | pre, v :: vs => if v.natAbs = 1 then SegmentOk pre ∧ BandOk [] vs else BandOk (pre ++ [v]) vs

/-- The symbols of a band after `z` zeros. -/
def newSyms : List Int → Nat → List Nat
  | [], _ => []
  | v :: vs, z =>
    if v.natAbs = 1 then List.replicate (z / 16) 0xF0 ++ (16 * (z % 16) + 1) :: newSyms vs 0
    else if v = 0 then newSyms vs (z + 1) else newSyms vs z

theorem zeros_eq {l : List Int} (h : ∀ v ∈ l, v = 0) : l = List.replicate l.length 0 :=
  List.eq_replicate_iff.mpr ⟨rfl, h⟩

theorem refineZrl_zeros {t : HuffTables} (h : TablesOk t) (lum : Bool) (n : Nat) (w : BitWriterMsb) (len : Nat)
    (hs : 0 < n → 0xF0 ∈ (t.get false lum).vals) :
    ∃ w' bs, refineZrl t lum n [] w = .ok (w', []) ∧ Emits w w' bs ∧
      ∀ cur bands bits, AcRefine (t.get false lum).spec len cur bands bits →
        AcRefine (t.get false lum).spec len (List.replicate (16 * n) 0 ++ cur) bands (bs ++ bits) := by
  induction n generalizing w with
  | zero => exact ⟨w, [], rfl, Emits.refl w, fun cur bands bits hh => by simpa using hh⟩
  | succ n ih =>
    obtain ⟨c, word, e, hem, hc, _⟩ := progAcCode_spec h 0xF0 lum w
    obtain ⟨w', bs, e2, hem2, hac⟩ := ih (writeCode w c) (fun _ => hs (by omega))
    refine ⟨w', word ++ bs, by rw [refineZrl, e, ok_bind]; exact e2, hem.trans hem2, ?_⟩
    intro cur bands bits hh
    have := AcRefine.zrl (pre := List.replicate 15 0) (by intro v hv; rw [List.eq_of_mem_replicate hv]; exact Or.inl rfl)
      (by decide) (hc (hs (by omega))) (hac cur bands bits hh)
    rw [show corrections (List.replicate 15 0) = [] by decide, List.append_nil,
      show (0 : Int) :: (List.replicate (16 * n) 0 ++ cur) = List.replicate 1 0 ++ (List.replicate (16 * n) 0 ++ cur) from rfl,
      ← List.append_assoc, ← List.append_assoc, List.replicate_append_replicate, List.replicate_append_replicate,
      show 15 + 1 + 16 * n = 16 * (n + 1) by omega, ← List.append_assoc] at this
    exact this

/-- One segment and the new coefficient after it. -/
theorem refineSegment {t : HuffTables} (h : TablesOk t) (lum : Bool) (pre : List Int) (hp : ∀ v ∈ pre, Passed v)
    (hok : SegmentOk pre) (v : Int) (hv : v.natAbs = 1) (neg : Prop) [Decidable neg] (hneg : 0 < v ↔ ¬neg) (w : BitWriterMsb) (len : Nat)
    (hlen : pre.length < 64)
    (hs : ∀ s ∈ List.replicate (pre.count 0 / 16) 0xF0 ++ [16 * (pre.count 0 % 16) + 1], s ∈ (t.get false lum).vals) :
    ∃ w1 corr c bs, refineZrl t lum (pre.count 0 / 16) (corrNats pre) w = .ok (w1, corr) ∧
      progAcCode t ((((pre.count 0 % 16) <<< 4) % 2 ^ 8) ||| 1) lum = .ok c ∧
      Emits w (pushBits ((writeCode w1 c).writeBits (if neg then 0 else 1) 1) corr) bs ∧
      ∀ cur bands bits, AcRefine (t.get false lum).spec len cur bands bits →
        AcRefine (t.get false lum).spec len (pre ++ v :: cur) bands (bs ++ bits) := by
  have hsym : ((((pre.count 0 % 16) <<< 4) % 2 ^ 8) ||| 1) = 16 * (pre.count 0 % 16) + 1 := by
    have key : ∀ r < 16, (((r <<< 4) % 2 ^ 8) ||| 1) = 16 * r + 1 := by decide
    exact key _ (Nat.mod_lt _ (by decide))
  have hsign : ∀ w : BitWriterMsb, Emits w (w.writeBits (if neg then 0 else 1) 1) [decide (0 < v)] := by
    intro w
    have := bit_emits w (if neg then 0 else 1) (by split <;> omega)
    by_cases hn : neg
    · rw [if_pos hn] at this ⊢
      rw [show decide (0 < v) = false from decide_eq_false (fun h => hneg.mp h hn)]
      exact this
    · rw [if_neg hn] at this ⊢
      rw [show decide (0 < v) = true from decide_eq_true (hneg.mpr hn)]
      exact this
  rw [hsym]
  by_cases h16 : pre.count 0 < 16
  · have h0 : pre.count 0 / 16 = 0 := by omega
    have h1 : pre.count 0 % 16 = pre.count 0 := by omega
    rw [h0, h1] at hs ⊢
    obtain ⟨c, word, e, hem, hc, _⟩ := progAcCode_spec h (16 * pre.count 0 + 1) lum w
    refine ⟨w, corrNats pre, c, word ++ decide (0 < v) :: corrections pre, rfl, e, ?_, ?_⟩
    · have := (hem.trans (hsign _)).trans (pushCorr ((writeCode w c).writeBits (if neg then 0 else 1) 1) pre)
      simpa using this
    · intro cur bands bits hh
      exact AcRefine.coef hp h16 hv (hc (hs _ (by simp))) hh
  · rcases hok with hok | ⟨a, b, rfl, ha, hb⟩
    · exact absurd hok h16
    · have hbl := zeros_eq hb
      have hbc : b.count 0 = b.length := by rw [hbl]; simp
      have hcnt : (a ++ 0 :: b).count 0 = 16 + b.length := by
        rw [List.count_append, List.count_cons_self, ha, hbc]; omega
      have hcorr : corrNats (a ++ 0 :: b) = corrNats a := by
        rw [corrNats_append, corrNats_zeros (l := 0 :: b) (by simpa using hb), List.append_nil]
      rw [hcnt] at hs ⊢
      rw [hcorr]
      have hd : (16 + b.length) / 16 = b.length / 16 + 1 := by omega
      have hm : (16 + b.length) % 16 = b.length % 16 := by omega
      rw [hd, hm] at hs ⊢
      obtain ⟨c0, word0, e0, hem0, hc0, _⟩ := progAcCode_spec h 0xF0 lum w
      obtain ⟨w1, bs1, e1, hem1, hac1⟩ := refineZrl_zeros h lum (b.length / 16) (pushBits (writeCode w c0) (corrNats a)) len
        (fun _ => hs _ (List.mem_append_left _ (by simp)))
      obtain ⟨c, word, e, hem, hc, _⟩ := progAcCode_spec h (16 * (b.length % 16) + 1) lum w1
      refine ⟨w1, [], c, (word0 ++ corrections a) ++ bs1 ++ (word ++ [decide (0 < v)]), ?_, e, ?_, ?_⟩
      · rw [refineZrl, e0, ok_bind]
        exact e1
      · exact ((hem0.trans (pushCorr _ a)).trans hem1).trans (hem.trans (hsign _))
      · intro cur bands bits hh
        have hz : ∀ x ∈ List.replicate (b.length % 16) (0 : Int), Passed x := by
          intro x hx; rw [List.eq_of_mem_replicate hx]; exact Or.inl rfl
        have hco : corrections (List.replicate (b.length % 16) 0) = [] := by
          unfold corrections
          rw [List.filter_eq_nil_iff.mpr (by intro v hv; simp [List.eq_of_mem_replicate hv])]
          rfl
        have k1 := AcRefine.coef (len := len) (v := v) (cur := cur) (bands := bands) (bits := bits) hz
          (by rw [List.count_replicate_self]; omega) hv
          (by rw [List.count_replicate_self]; exact hc (hs _ (by simp))) hh
        rw [hco] at k1
        have k2 := hac1 _ _ _ k1
        have k3 := AcRefine.zrl (pre := a) (fun x hx => hp x (List.mem_append_left _ hx)) ha
          (hc0 (hs _ (List.mem_append_left _ (by simp)))) k2
        rw [← List.append_assoc (List.replicate _ _), List.replicate_append_replicate, Nat.div_add_mod, ← hbl] at k3
        rw [List.append_assoc, List.cons_append]
        simpa using k3

theorem corrNats_old {al : Nat} {x : Int} (h : 2 ≤ (acPoint al x).natAbs) :
    corrNats [acPoint al x] = [(x.natAbs >>> al) &&& 1] := by
  unfold corrNats
  rw [List.filter_cons_of_pos (by simpa using h), List.filter_nil, List.map_cons, List.map_nil, point_natAbs,
    Nat.and_one_is_mod, Nat.shiftRight_eq_div_pow]

theorem passed_ne {v : Int} (h : Passed v) : v.natAbs ≠ 1 := by
  rcases h with h | h <;> omega

/-- The coefficient loop from the last new coefficient on, with no end of band owed. -/
theorem refineCoefs_spec {t : HuffTables} (h : TablesOk t) (lum : Bool) (al : Nat) (len : Nat) (l : List Int)
    (pre : List Int) (w : BitWriterMsb) (hj : ∀ x ∈ l, Judged al x) (hp : ∀ v ∈ pre, Passed v)
    (hok : BandOk pre (l.map (acPoint al))) (hlen : pre.length + l.length < 64)
    (hs : ∀ s ∈ newSyms (l.map (acPoint al)) (pre.count 0), s ∈ (t.get false lum).vals) :
    ∃ w' n bs, refineCoefs t lum al l (pre.count 0) (corrNats pre) 0 w = .ok (w', n, [], 0) ∧ Emits w w' bs ∧
      (0 < n ↔ (pre ++ l.map (acPoint al)).getLast? = some 0) ∧
      ∀ bands bits, AcRefine (t.get false lum).spec len (List.replicate n 0) bands bits →
        AcRefine (t.get false lum).spec len (pre ++ l.map (acPoint al)) bands (bs ++ bits) := by
  induction l generalizing pre w with
  | nil =>
    have hz : ∀ v ∈ pre, v = 0 := hok
    have hpre := zeros_eq hz
    have hc : pre.count 0 = pre.length := by rw [hpre]; simp
    refine ⟨w, pre.length, [], ?_, Emits.refl w, ?_, ?_⟩
    · rw [refineCoefs, corrNats_zeros hz, hc]
    · rw [List.map_nil, List.append_nil]
      cases pre with
      | nil => simp
      | cons a l =>
        rw [List.getLast?_eq_some_getLast (by simp)]
        exact ⟨fun _ => by rw [hz _ (List.getLast_mem (by simp))], fun _ => by simp⟩
    · intro bands bits hh
      rw [List.map_nil, List.append_nil, List.nil_append, hpre]
      exact hh
  | cons x xs ih =>
    have hjx := hj x (by simp)
    have hjs : ∀ y ∈ xs, Judged al y := fun y hy => hj y (List.mem_cons_of_mem _ hy)
    rw [List.map_cons] at hok hs ⊢
    rw [List.length_cons] at hlen
    rw [refineCoefs]
    by_cases h1 : x.natAbs > 1 <<< al
    · rw [if_pos h1]
      have hold := point_old h1 hjx
      have hne : (acPoint al x).natAbs ≠ 1 := by omega
      have hn0 : acPoint al x ≠ 0 := by omega
      rw [BandOk, if_neg hne] at hok
      rw [newSyms, if_neg hne, if_neg hn0] at hs
      have hcnt : (pre ++ [acPoint al x]).count 0 = pre.count 0 := by
        rw [List.count_append, List.count_cons_of_ne hn0]; simp
      obtain ⟨w', n, bs, e, hem, hn, hac⟩ := ih (pre ++ [acPoint al x]) w hjs
        (by intro v hv; rcases List.mem_append.mp hv with hv | hv
            · exact hp v hv
            · rw [List.mem_singleton.mp hv]; exact Or.inr hold) hok (by simp; omega) (by rw [hcnt]; exact hs)
      rw [hcnt, corrNats_append, corrNats_old hold] at e
      rw [List.append_assoc] at hn hac
      exact ⟨w', n, bs, e, hem, hn, hac⟩
    · rw [if_neg h1]
      by_cases h2 : (x.natAbs >>> al) &&& 1 ≠ 0
      · rw [if_pos h2]
        obtain ⟨hv1, hsign⟩ := point_new h1 h2
        rw [BandOk, if_pos hv1] at hok
        rw [newSyms, if_pos hv1] at hs
        obtain ⟨w1, corr, c, bs1, e1, e2, hem1, hac1⟩ := refineSegment h lum pre hp hok.1 _ hv1 (x < 0) hsign w len (by omega)
          (fun s hs' => hs s (by
            rcases List.mem_append.mp hs' with hs' | hs'
            · exact List.mem_append_left _ hs'
            · rw [List.mem_singleton.mp hs']; simp))
        obtain ⟨w', n, bs, e, hem, hn, hac⟩ := ih [] (pushBits ((writeCode w1 c).writeBits (if x < 0 then 0 else 1) 1) corr) hjs
          (by simp) hok.2 (by simp; omega) (fun s hs' => hs s (List.mem_append_right _ (List.mem_cons_of_mem _ hs')))
        refine ⟨w', n, bs1 ++ bs, ?_, hem1.trans hem, ?_, ?_⟩
        · rw [if_neg (by omega), ok_bind]
          simp only
          rw [e1, ok_bind]
          simp only
          rw [e2, ok_bind]
          exact e
        · rw [hn, List.nil_append, List.getLast?_append]
          cases hxs : xs.map (acPoint al) with
          | nil =>
            have : acPoint al x ≠ 0 := by omega
            simp [this]
          | cons a l => simp [List.getLast?_cons_cons]
        · intro bands bits hh
          rw [List.append_assoc]
          exact hac1 _ _ _ (hac _ _ hh)
      · rw [if_neg h2]
        have hz := point_zero h1 h2
        rw [BandOk, if_neg (by omega)] at hok
        rw [newSyms, if_neg (by omega), if_pos hz] at hs
        have hcnt : (pre ++ [acPoint al x]).count 0 = pre.count 0 + 1 := by
          rw [hz, List.count_append]; simp
        obtain ⟨w', n, bs, e, hem, hn, hac⟩ := ih (pre ++ [acPoint al x]) w hjs
          (by intro v hv; rcases List.mem_append.mp hv with hv | hv
              · exact hp v hv
              · rw [List.mem_singleton.mp hv]; exact Or.inl hz) hok (by simp; omega) (by rw [hcnt]; exact hs)
        rw [hcnt, corrNats_append, corrNats_zeros (l := [acPoint al x]) (by simpa using hz), List.append_nil] at e
        rw [List.append_assoc] at hn hac
        exact ⟨w', n, bs, e, hem, hn, hac⟩

/-- A new coefficient makes the loop end the bands owed first. -/
theorem refineCoefs_flush (t : HuffTables) (lum : Bool) (al : Nat) (l : List Int) (z : Nat) (corr : List Nat)
    (run : Nat) (hr : 0 < run) (w : BitWriterMsb) (hn : ∃ x ∈ l, (acPoint al x).natAbs = 1) (hj : ∀ x ∈ l, Judged al x) :
    refineCoefs t lum al l z corr run w = flushEobRun t lum w run >>= fun w => refineCoefs t lum al l z corr 0 w := by
  induction l generalizing z corr with
  | nil => obtain ⟨x, hx, _⟩ := hn; simp at hx
  | cons x xs ih =>
    have hjs : ∀ y ∈ xs, Judged al y := fun y hy => hj y (List.mem_cons_of_mem _ hy)
    simp only [refineCoefs]
    by_cases h1 : x.natAbs > 1 <<< al
    · simp only [if_pos h1]
      apply ih _ _ _ hjs
      obtain ⟨y, hy, h2⟩ := hn
      rcases List.mem_cons.mp hy with rfl | hy
      · have := point_old h1 (hj y (by simp)); omega
      · exact ⟨y, hy, h2⟩
    · simp only [if_neg h1]
      by_cases h2 : (x.natAbs >>> al) &&& 1 ≠ 0
      · simp only [if_pos h2, if_pos hr, gt_iff_lt, Nat.lt_irrefl, if_false, ok_bind]
      · simp only [if_neg h2]
        apply ih _ _ _ hjs
        obtain ⟨y, hy, h3⟩ := hn
        rcases List.mem_cons.mp hy with rfl | hy
        · have := point_zero h1 h2; rw [this] at h3; simp at h3
        · exact ⟨y, hy, h3⟩

/-- Without a new coefficient the loop writes nothing. -/
theorem refineCoefs_none (t : HuffTables) (lum : Bool) (al : Nat) (l : List Int) (z : Nat) (corr : List Nat)
    (run : Nat) (w : BitWriterMsb) (hn : ∀ x ∈ l, (acPoint al x).natAbs ≠ 1) (hj : ∀ x ∈ l, Judged al x) :
    refineCoefs t lum al l z corr run w =
      .ok (w, z + (l.map (acPoint al)).count 0, corr ++ corrNats (l.map (acPoint al)), run) := by
  induction l generalizing z corr with
  | nil => simp [refineCoefs, corrNats]
  | cons x xs ih =>
    have hjs : ∀ y ∈ xs, Judged al y := fun y hy => hj y (List.mem_cons_of_mem _ hy)
    have hns : ∀ y ∈ xs, (acPoint al y).natAbs ≠ 1 := fun y hy => hn y (List.mem_cons_of_mem _ hy)
    rw [refineCoefs, List.map_cons, show acPoint al x :: xs.map (acPoint al) = [acPoint al x] ++ xs.map (acPoint al) from rfl,
      corrNats_append, List.count_append]
    by_cases h1 : x.natAbs > 1 <<< al
    · have hold := point_old h1 (hj x (by simp))
      have h0 : acPoint al x ≠ 0 := by omega
      rw [if_pos h1, ih _ _ hns hjs, corrNats_old hold, List.count_cons_of_ne h0]
      simp
    · rw [if_neg h1]
      by_cases h2 : (x.natAbs >>> al) &&& 1 ≠ 0
      · exact absurd (point_new h1 h2).1 (hn x (by simp))
      · have hz := point_zero h1 h2
        rw [if_neg h2, ih _ _ hns hjs, corrNats_zeros (l := [acPoint al x]) (by simpa using hz), hz]
        simp
        omega

theorem bandOk_none (l pre : List Int) (h : BandOk pre l) (hn : ∀ v ∈ l, v.natAbs ≠ 1) : ∀ v ∈ pre ++ l, v = 0 := by
  induction l generalizing pre with
  | nil => rw [List.append_nil]; exact h
  | cons v l ih =>
    rw [BandOk, if_neg (hn v (by simp))] at h
    have := ih _ h (fun x hx => hn x (List.mem_cons_of_mem _ hx))
    rwa [List.append_assoc] at this

theorem flushRefine {t : HuffTables} (h : TablesOk t) (lum : Bool) (w : BitWriterMsb) (run : Nat)
    (h0 : 0 < run) (hr : run < 2 ^ 15) (len : Nat) (hm : 16 * run.log2 ∈ (t.get false lum).vals) :
    ∃ w' bs, flushEobRun t lum w run = .ok w' ∧ Emits w w' bs ∧
      ∀ n bands bits, 0 < n → AcRefine (t.get false lum).spec len [] bands bits →
        AcRefine (t.get false lum).spec len (List.replicate n 0)
          (List.replicate (run - 1) (List.replicate len 0) ++ bands) (bs ++ bits) := by
  have hl := log2_lt h0 hr
  have h1 := Nat.log2_self_le (n := run) (by omega)
  have h2 := Nat.lt_log2_self (n := run)
  have hsym : (run.log2 <<< 4) % 2 ^ 8 = 16 * run.log2 := by
    rw [Nat.shiftLeft_eq, Nat.mod_eq_of_lt (by omega), Nat.mul_comm]
  obtain ⟨c, word, e, hem, hc, _⟩ := progAcCode_spec h (16 * run.log2) lum w
  have hpow : (2:Nat) ^ (run.log2 + 1) = 2 ^ run.log2 + 2 ^ run.log2 := by rw [Nat.pow_succ]; omega
  have hzero : ∀ k, corrections (List.replicate k 0) = [] := by
    intro k
    unfold corrections
    rw [List.filter_eq_nil_iff.mpr (by intro v hv; simp [List.eq_of_mem_replicate hv])]
    rfl
  have hpass : ∀ k, ∀ v ∈ List.replicate k (0 : Int), Passed v := by
    intro k v hv; rw [List.eq_of_mem_replicate hv]; exact Or.inl rfl
  have hflat : ((List.replicate (run - 1) (List.replicate len (0 : Int))).map corrections).flatten = [] := by
    rw [List.map_replicate, hzero]; simp
  have hrule : ∀ n bands bits, 0 < n → AcRefine (t.get false lum).spec len [] bands bits →
      AcRefine (t.get false lum).spec len (List.replicate n 0)
        (List.replicate (run - 1) (List.replicate len 0) ++ bands)
        (word ++ bitsMSB (run - 2 ^ run.log2) run.log2 ++ bits) := by
    intro n bands bits hn hb
    have := AcRefine.eob (len := len) (cur := List.replicate n 0) (skipped := List.replicate (run - 1) (List.replicate len 0))
      (v := run - 2 ^ run.log2) (by intro hh; simp at hh; omega) (hpass n) hl (by omega) (hc hm) (by rw [List.length_replicate]; omega)
      (by intro b hb'; rw [List.eq_of_mem_replicate hb']; exact ⟨by simp, hpass len⟩) hb
    rw [hzero, hflat, List.append_nil, List.append_nil] at this
    exact this
  unfold flushEobRun
  simp only
  rw [hsym, e, ok_bind]
  by_cases hz : run.log2 > 0
  · rw [if_pos hz]
    refine ⟨_, word ++ bitsMSB (run - 2 ^ run.log2) run.log2, rfl, ?_, hrule⟩
    rw [Nat.one_shiftLeft]
    exact hem.trans (emits_writeBits _ _ _ (by omega))
  · rw [if_neg hz]
    have e0 : run.log2 = 0 := by omega
    rw [e0] at hrule
    exact ⟨_, word, rfl, hem, by simpa [bitsMSB] using hrule⟩

/-- The symbols of a refinement scan with `run` bands to be ended first. -/
def refineSyms : List (List Int) → Nat → List Nat
  | [], run => if run > 0 then [16 * run.log2] else []
  | b :: bs, run =>
    if b.all (fun v => decide (v.natAbs ≠ 1)) then
      (if run + 1 = 0x7FFF then 16 * 14 :: refineSyms bs 0 else refineSyms bs (run + 1))
    else (if run > 0 then [16 * run.log2] else []) ++
      (newSyms b 0 ++ refineSyms bs (if b.getLast? = some 0 then 1 else 0))

/-- A refinement scan of AC coefficients. -/
structure RefineSpec (scan : ScanSpec) : Prop where
  al : scan.al < 15
  ss : 1 ≤ scan.ss
  le : scan.ss ≤ scan.se
  se : scan.se ≤ 63

theorem findEnd_ok (al : Nat) (l : List Int) (h : ∀ x ∈ l, x.natAbs < 1024) : findEnd al l = .ok () := by
  induction l with
  | nil => rfl
  | cons x l ih =>
    have hx := h x (by simp)
    rw [findEnd, if_neg (by omega)]
    split
    · rfl
    · split
      · rfl
      · exact ih (fun y hy => h y (List.mem_cons_of_mem _ hy))

theorem acRefineBlocks_spec {t : HuffTables} (h : TablesOk t) {scan : ScanSpec} (hs : RefineSpec scan) (lum : Bool)
    (blocks : List (List Int)) (hb : ∀ b ∈ blocks, BlockRange (zigzagReorder b))
    (hj : ∀ b ∈ blocks, ∀ x ∈ bandAt scan b, Judged scan.al x)
    (hok : ∀ b ∈ blocks, BandOk [] ((bandAt scan b).map (acPoint scan.al))) (w : BitWriterMsb) (run : Nat)
    (hrun : run < 0x7FFF)
    (hsym : ∀ s ∈ refineSyms (blocks.map fun b => (bandAt scan b).map (acPoint scan.al)) run, s ∈ (t.get false lum).vals) :
    ∃ w' bs, acRefineBlocks t scan lum blocks w run = .ok w' ∧ Emits w w' bs ∧
      (run = 0 → AcRefine (t.get false lum).spec (scan.se + 1 - scan.ss) []
        (blocks.map fun b => (bandAt scan b).map (acPoint scan.al)) bs) ∧
      (0 < run → ∀ n, 0 < n → AcRefine (t.get false lum).spec (scan.se + 1 - scan.ss) (List.replicate n 0)
        (List.replicate (run - 1) (List.replicate (scan.se + 1 - scan.ss) 0) ++
          blocks.map fun b => (bandAt scan b).map (acPoint scan.al)) bs) := by
  have hlen0 : 0 < scan.se + 1 - scan.ss := by have := hs.le; omega
  generalize hlen : scan.se + 1 - scan.ss = len at *
  induction blocks generalizing w run with
  | nil =>
    rw [acRefineBlocks]
    by_cases h0 : run > 0
    · rw [if_pos h0]
      obtain ⟨w', bs, e, hem, hm⟩ := flushRefine h lum w run h0 (by omega) len (hsym _ (by simp [refineSyms, h0]))
      refine ⟨w', bs, e, hem, fun hz => absurd hz (by omega), fun _ n hn => ?_⟩
      have := hm n [] [] hn AcRefine.done
      simpa using this
    · rw [if_neg h0]
      exact ⟨w, [], rfl, Emits.refl w, fun _ => AcRefine.done, fun hz => absurd hz h0⟩
  | cons b bs ih =>
    have hb1 := hb b (by simp)
    have hj1 := hj b (by simp)
    have hok1 := hok b (by simp)
    have ih := ih (fun x hx => hb x (List.mem_cons_of_mem _ hx)) (fun x hx => hj x (List.mem_cons_of_mem _ hx))
      (fun x hx => hok x (List.mem_cons_of_mem _ hx))
    have hbl : (bandAt scan b).length = len := by
      unfold bandAt bandOf
      have := hs.le
      have := hs.se
      rw [List.length_take, List.length_drop, zigzagReorder_length]
      omega
    have hbr : ∀ x ∈ bandAt scan b, x.natAbs < 1024 := by
      intro v hv
      apply hb1.ac
      unfold bandAt bandOf at hv
      have := List.mem_of_mem_take hv
      have hss := hs.ss
      rw [show scan.ss = 1 + (scan.ss - 1) by omega, ← List.drop_drop] at this
      exact List.mem_of_mem_drop this
    have hlen64 : len < 64 := by have := hs.se; have := hs.ss; omega
    rw [acRefineBlocks]
    unfold encodeAcRefine
    simp only
    rw [show ((zigzagReorder b).drop scan.ss).take (scan.se + 1 - scan.ss) = bandAt scan b from rfl]
    rw [findEnd_ok _ _ (fun x hx => hbr x (List.mem_of_mem_drop (List.mem_reverse.mp hx))), ok_bind]
    simp only [List.map_cons] at hsym ⊢
    generalize bandAt scan b = band at *
    rw [refineSyms] at hsym
    by_cases hnew : ∃ x ∈ band, (acPoint scan.al x).natAbs = 1
    · rw [if_neg (by
        intro hall
        obtain ⟨x, hx, h1⟩ := hnew
        have := List.all_eq_true.mp hall _ (List.mem_map_of_mem hx)
        simp [h1] at this)] at hsym
      have hstep : ∀ w1 : BitWriterMsb, ∃ w' bs', (do
          let (w, zeroRun, corr, run) ← refineCoefs t lum scan.al band 0 [] 0 w1
          let (w, run) ← (if zeroRun > 0 ∨ corr ≠ [] then do
            let run ← addU16 run 1
            if run = 0x7FFF then do
              let w ← flushEobRun t lum w run
              return (pushBits w corr, 0)
            else return (pushBits w corr, run)
          else return (w, run))
          acRefineBlocks t scan lum bs w run) = .ok w' ∧ Emits w1 w' bs' ∧
          AcRefine (t.get false lum).spec len [] (band.map (acPoint scan.al) :: bs.map fun b => (bandAt scan b).map (acPoint scan.al)) bs' := by
        intro w1
        obtain ⟨w2, n, bs1, e1, hem1, hn, hac1⟩ := refineCoefs_spec h lum scan.al len band [] w1 hj1 (by simp) hok1
          (by simp; omega) (fun s hs' => hsym s (List.mem_append_right _ (List.mem_append_left _ hs')))
        rw [List.nil_append] at hn
        have e1' : refineCoefs t lum scan.al band 0 [] 0 w1 = .ok (w2, n, [], 0) := e1
        rw [e1', ok_bind]
        by_cases hz : 0 < n
        · rw [if_pos (hn.mp hz)] at hsym
          obtain ⟨w', bs2, e2, hem2, _, hac2⟩ := ih w2 1 (by decide) (fun s hs' => hsym s (List.mem_append_right _ (List.mem_append_right _ hs')))
          refine ⟨w', bs1 ++ bs2, ?_, hem1.trans hem2, ?_⟩
          · simp only
            rw [if_pos (Or.inl hz), addU16_ok (by decide), ok_bind]
            exact e2
          · refine AcRefine.next (by simpa using hbl) (hac1 _ _ ?_)
            have := hac2 (by decide) n hz
            simpa using this
        · rw [if_neg (fun hh => hz (hn.mpr hh))] at hsym
          obtain ⟨w', bs2, e2, hem2, hac2, _⟩ := ih w2 0 (by decide) (fun s hs' => hsym s (List.mem_append_right _ (List.mem_append_right _ hs')))
          refine ⟨w', bs1 ++ bs2, ?_, hem1.trans hem2, ?_⟩
          · simp only
            rw [if_neg (by intro hh; rcases hh with hh | hh; exact hz hh; exact hh rfl)]
            exact e2
          · refine AcRefine.next (by simpa using hbl) (hac1 _ _ ?_)
            have : n = 0 := by omega
            subst this
            exact hac2 rfl
      by_cases h0 : 0 < run
      · obtain ⟨w1, bs1, e1, hem1, hm⟩ := flushRefine h lum w run h0 (by omega) len
          (hsym _ (List.mem_append_left _ (by simp [h0])))
        obtain ⟨w', bs2, e2, hem2, hac⟩ := hstep w1
        refine ⟨w', bs1 ++ bs2, ?_, hem1.trans hem2, fun hz => absurd hz (by omega), fun _ n hn => hm n _ _ hn hac⟩
        rw [refineCoefs_flush t lum scan.al band 0 [] run h0 w hnew hj1, e1, ok_bind]
        simpa only [bind_assoc] using e2
      · have : run = 0 := by omega
        subst this
        obtain ⟨w', bs2, e2, hem2, hac⟩ := hstep w
        refine ⟨w', bs2, ?_, hem2, fun _ => hac, fun hz => absurd hz (by omega)⟩
        simpa only [bind_assoc] using e2
    · have hnone : ∀ x ∈ band, (acPoint scan.al x).natAbs ≠ 1 := fun x hx h1 => hnew ⟨x, hx, h1⟩
      have hz := bandOk_none _ _ hok1 (by
        intro v hv
        obtain ⟨x, hx, rfl⟩ := List.mem_map.mp hv
        exact hnone x hx)
      rw [List.nil_append] at hz
      have hzero := zeros_eq hz
      rw [List.length_map, hbl] at hzero
      rw [if_pos (by
        rw [List.all_eq_true]
        intro v hv
        rw [hz v hv]
        decide)] at hsym
      rw [refineCoefs_none t lum scan.al band 0 [] run w hnone hj1, ok_bind]
      rw [hzero]
      rw [List.count_replicate_self, corrNats_zeros (l := List.replicate len 0) (fun v hv => List.eq_of_mem_replicate hv)]
      simp only [Nat.zero_add, List.append_nil]
      rw [if_pos (Or.inl hlen0), addU16_ok (by omega), ok_bind]
      have howe : ∀ X bits, (∀ n, 0 < n → AcRefine (t.get false lum).spec len (List.replicate n 0)
            (List.replicate run (List.replicate len 0) ++ X) bits) →
          (run = 0 → AcRefine (t.get false lum).spec len [] (List.replicate len 0 :: X) bits) ∧
          (0 < run → ∀ n, 0 < n → AcRefine (t.get false lum).spec len (List.replicate n 0)
            (List.replicate (run - 1) (List.replicate len 0) ++ List.replicate len 0 :: X) bits) := by
        intro X bits hh
        constructor
        · intro hr
          subst hr
          refine AcRefine.next (by simp) ?_
          have := hh len hlen0
          simpa using this
        · intro hr n hn
          have := hh n hn
          rw [show run = run - 1 + 1 by omega, List.replicate_succ', List.append_assoc] at this
          exact this
      by_cases hfull : run + 1 = 0x7FFF
      · rw [if_pos hfull] at hsym ⊢
        rw [hfull]
        obtain ⟨w1, bs1, e1, hem1, hm⟩ := flushRefine h lum w 0x7FFF (by decide) (by decide) len
          (by rw [show 16 * Nat.log2 0x7FFF = 16 * 14 by decide +kernel]; exact hsym _ (by simp))
        rw [e1, ok_bind]
        obtain ⟨w', bs2, e2, hem2, hac2, _⟩ := ih w1 0 (by decide) (fun s hs' => hsym s (List.mem_cons_of_mem _ hs'))
        refine ⟨w', bs1 ++ bs2, e2, hem1.trans hem2, howe _ _ ?_⟩
        intro n hn
        have := hm n _ _ hn (hac2 rfl)
        rwa [show 0x7FFF - 1 = run by omega] at this
      · rw [if_neg hfull] at hsym ⊢
        obtain ⟨w', bs2, e2, hem2, _, hac2⟩ := ih w (run + 1) (by omega) hsym
        refine ⟨w', bs2, e2, hem2, howe _ _ ?_⟩
        intro n hn
        have := hac2 (by omega) n hn
        rwa [Nat.add_sub_cancel] at this

/-! ### Symbols without runs -/

theorem newSyms_ac (l : List Int) (z : Nat) : ∀ s ∈ newSyms l z, acSymbol s := by
  induction l generalizing z with
  | nil => simp [newSyms]
  | cons v l ih =>
    intro s hs
    rw [newSyms] at hs
    split at hs
    · rcases List.mem_append.mp hs with hs | hs
      · rw [List.eq_of_mem_replicate hs]; exact Or.inr (Or.inl rfl)
      · rcases List.mem_cons.mp hs with rfl | hs
        · exact Or.inr (Or.inr (by omega))
        · exact ih _ s hs
    · split at hs
      · exact ih _ s hs
      · exact ih _ s hs

theorem refineSyms_ac (bands : List (List Int)) (run : Nat)
    (hr : run = 0 ∨ (run = 1 ∧ ∀ b l, bands = b :: l → trimZeros b ≠ []))
    (hn : NoRun bands) (hb : ∀ b ∈ bands, BandOk [] b ∧ b ≠ []) : ∀ s ∈ refineSyms bands run, acSymbol s := by
  induction bands generalizing run with
  | nil =>
    intro s hs
    rw [refineSyms] at hs
    rcases hr with rfl | ⟨rfl, _⟩
    · simp at hs
    · simp at hs
      exact Or.inl (by rw [hs]; decide)
  | cons b bs ih =>
    have hn2 : NoRun bs := by
      cases bs with
      | nil => trivial
      | cons c l => exact hn.2
    have hb2 : ∀ b ∈ bs, BandOk [] b ∧ b ≠ [] := fun x hx => hb x (List.mem_cons_of_mem _ hx)
    have hnext : b.getLast? = some 0 → ∀ c l, bs = c :: l → trimZeros c ≠ [] := by
      rintro h1 c l rfl h2
      exact hn.1 ⟨h1, h2⟩
    intro s hs
    rw [refineSyms] at hs
    by_cases hz : b.all (fun v => decide (v.natAbs ≠ 1)) = true
    · have hzero := bandOk_none b [] (hb b (by simp)).1 (fun v hv => by simpa using List.all_eq_true.mp hz v hv)
      rw [List.nil_append] at hzero
      have ht : trimZeros b = [] := by
        apply List.eq_nil_iff_forall_not_mem.mpr
        intro v hv
        have h1 := trimZeros_last b
        have h2 := List.getLast?_eq_some_getLast (List.ne_nil_of_mem hv)
        have h3 := hzero _ (mem_trimZeros (List.getLast_mem (List.ne_nil_of_mem hv)))
        rw [h3] at h2
        exact h1 h2
      have h0 : run = 0 := by
        rcases hr with h | ⟨_, h⟩
        · exact h
        · exact absurd ht (h b bs rfl)
      subst h0
      rw [if_pos hz, if_neg (by decide)] at hs
      exact ih 1 (Or.inr ⟨rfl, hnext (last_of_zero ht (hb b (by simp)).2)⟩) hn2 hb2 s hs
    · rw [if_neg hz] at hs
      rcases List.mem_append.mp hs with hs | hs
      · rcases hr with rfl | ⟨rfl, _⟩
        · simp at hs
        · simp at hs
          exact Or.inl (by rw [hs]; decide)
      · rcases List.mem_append.mp hs with hs | hs
        · exact newSyms_ac _ _ s hs
        · by_cases hlt : b.getLast? = some 0
          · rw [if_pos hlt] at hs
            exact ih 1 (Or.inr ⟨rfl, hnext hlt⟩) hn2 hb2 s hs
          · rw [if_neg hlt] at hs
            exact ih 0 (Or.inl rfl) hn2 hb2 s hs

/-! ### When the values are those of T.81 -/

theorem dcPoint_eq (al : Nat) (v : Int) : dcPoint al v = v / 2 ^ al := by
  unfold dcPoint
  rw [Int.fdiv_eq_ediv_of_nonneg _ (Int.le_of_lt (Int.pow_pos (by decide)))]

theorem dcSums_iff (al : Nat) (ds : List Int) (prev : Int) :
    dcSums al (prev / 2 ^ al) prev ds = ds.map (dcPoint al) ↔
      ((prev :: ds).map (fun d => d % 2 ^ al)).Pairwise (· ≤ ·) := by
  induction ds generalizing prev with
  | nil => simp [dcSums]
  | cons d ds ih =>
    have hp : (0 : Int) < 2 ^ al := Int.pow_pos (by decide)
    have hstep : prev / 2 ^ al + (d - prev) / 2 ^ al = d / 2 ^ al ↔ prev % 2 ^ al ≤ d % 2 ^ al := by
      generalize (2 : Int) ^ al = m at *
      have h1 := Int.mul_ediv_add_emod prev m
      have h2 := Int.mul_ediv_add_emod d m
      have h3 := Int.emod_nonneg prev (Int.ne_of_gt hp)
      have h4 := Int.emod_lt_of_pos prev hp
      have h5 := Int.emod_nonneg d (Int.ne_of_gt hp)
      have h6 := Int.emod_lt_of_pos d hp
      generalize prev / m = a at *
      generalize d / m = b at *
      generalize prev % m = x at *
      generalize d % m = y at *
      have e : d - prev = (y - x) + m * (b - a) := by rw [Int.mul_sub]; omega
      rw [e, Int.add_mul_ediv_left _ _ (Int.ne_of_gt hp)]
      constructor
      · intro h
        apply Int.not_lt.mp
        intro hlt
        have := Int.ediv_neg_of_neg_of_pos (a := y - x) (by omega) hp
        omega
      · intro h
        have := Int.ediv_eq_zero_of_lt (a := y - x) (b := m) (by omega) (by omega)
        omega
    rw [dcSums, List.map_cons, List.cons.injEq, dcPoint_eq, hstep]
    constructor
    · rintro ⟨h1, h2⟩
      rw [hstep.mpr h1] at h2
      have := (ih d).mp h2
      rw [List.map_cons, List.pairwise_cons]
      refine ⟨?_, this⟩
      intro x hx
      rw [List.map_cons] at hx
      rcases List.mem_cons.mp hx with rfl | hx
      · exact h1
      · exact Int.le_trans h1 ((List.pairwise_cons.mp this).1 x hx)
    · intro h
      rw [List.map_cons, List.pairwise_cons] at h
      have h1 := h.1 (d % 2 ^ al) (by simp)
      refine ⟨h1, ?_⟩
      rw [hstep.mpr h1]
      exact (ih d).mpr h.2

theorem dcBit_iff (al : Nat) (d : Int) : dcBit al d = decide (dcPoint al d % 2 = 1) ↔ 0 ≤ d ∨ (2 : Int) ^ al ∣ d := by
  unfold dcBit
  rw [dcPoint_eq, decide_eq_decide]
  have hp : (0 : Int) < 2 ^ al := Int.pow_pos (by decide)
  have hcast : ((2 ^ al : Nat) : Int) = 2 ^ al := by simp
  have hq : ((d.natAbs / 2 ^ al : Nat) : Int) = (d.natAbs : Int) / 2 ^ al := by rw [Int.natCast_ediv, hcast]
  generalize (2 : Int) ^ al = m at *
  generalize d.natAbs / 2 ^ al = q at *
  rcases Int.lt_or_le d 0 with hd | hd
  · have hn : (d.natAbs : Int) = -d := by omega
    rw [hn] at hq
    have h1 := Int.mul_ediv_add_emod d m
    have h3 := Int.emod_nonneg d (Int.ne_of_gt hp)
    have h4 := Int.emod_lt_of_pos d hp
    have hdvd : m ∣ d ↔ d % m = 0 := Int.dvd_iff_emod_eq_zero
    rw [hdvd]
    generalize d / m = b at *
    generalize d % m = y at *
    have e : -d = -y + m * (-b) := by rw [Int.mul_neg]; omega
    rw [e, Int.add_mul_ediv_left _ _ (Int.ne_of_gt hp)] at hq
    constructor
    · intro h
      apply Classical.byContradiction
      intro hne
      have : -y / m = -1 := by
        rw [Int.ediv_eq_iff_of_pos hp]
        omega
      omega
    · intro h
      have hy : y = 0 := by omega
      subst hy
      rw [show (-0 : Int) / m = 0 by simp] at hq
      omega
  · have hn : (d.natAbs : Int) = d := by omega
    rw [hn] at hq
    exact ⟨fun _ => Or.inl hd, fun _ => by omega⟩

theorem floor_iff (al : Nat) (v : Int) : v / 2 ^ al = acPoint al v ↔ 0 ≤ v ∨ (2 : Int) ^ al ∣ v := by
  unfold acPoint
  have hp : (0 : Int) < 2 ^ al := Int.pow_pos (by decide)
  generalize (2 : Int) ^ al = m at *
  rw [Int.tdiv_eq_ediv]
  split
  · rename_i h
    exact ⟨fun _ => h, fun _ => by omega⟩
  · rename_i h
    rw [Int.sign_eq_one_of_pos hp]
    exact ⟨fun h1 => by omega, fun h1 => absurd h1 h⟩

end Pixo.Jpeg
