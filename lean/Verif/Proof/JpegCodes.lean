import Verif.Spec.T81
import Verif.Model.JpegHuffman
import Verif.Proof.Safe
/-
The JPEG Huffman tables of the crate hold the codes of annex C.
-/
namespace Pixo.Jpeg
open Pixo Spec.T81

/-- The sizes of annex C for counts beginning with length `i + 1`. -/
def sizesAt (i : Nat) (bits : List Nat) : List Nat :=
  (bits.zipIdx i).flatMap (fun p => List.replicate p.1 (p.2 + 1))

theorem sizes_eq (bits : List Nat) : sizes bits = sizesAt 0 bits := rfl

theorem sizesAt_cons (i b : Nat) (bits : List Nat) :
    sizesAt i (b :: bits) = List.replicate b (i + 1) ++ sizesAt (i + 1) bits := by
  simp [sizesAt]

theorem sizesAt_ge (i : Nat) (bits : List Nat) : ∀ s ∈ sizesAt i bits, i + 1 ≤ s := by
  induction bits generalizing i with
  | nil => intro s hs; simp [sizesAt] at hs
  | cons b bits ih =>
    intro s hs
    rw [sizesAt_cons, List.mem_append] at hs
    rcases hs with hs | hs
    · rw [List.mem_replicate] at hs; omega
    · have := ih (i + 1) s hs; omega

theorem sizesAt_le (i : Nat) (bits : List Nat) : ∀ s ∈ sizesAt i bits, s ≤ i + bits.length := by
  induction bits generalizing i with
  | nil => intro s hs; simp [sizesAt] at hs
  | cons b bits ih =>
    intro s hs
    rw [sizesAt_cons, List.mem_append] at hs
    rw [List.length_cons]
    rcases hs with hs | hs
    · rw [List.mem_replicate] at hs; omega
    · have := ih (i + 1) s hs; omega

theorem sizesAt_sorted (i : Nat) (bits : List Nat) : (sizesAt i bits).Pairwise (· ≤ ·) := by
  induction bits generalizing i with
  | nil => simp [sizesAt]
  | cons b bits ih =>
    rw [sizesAt_cons, List.pairwise_append]
    refine ⟨?_, ih (i + 1), ?_⟩
    · rw [List.pairwise_replicate]; right; exact Nat.le_refl _
    · intro a ha c hc
      rw [List.mem_replicate] at ha
      have := sizesAt_ge (i + 1) bits c hc
      omega

theorem sizesAt_length (i : Nat) (bits : List Nat) : (sizesAt i bits).length = bits.sum := by
  induction bits generalizing i with
  | nil => rfl
  | cons b bits ih =>
    rw [sizesAt_cons, List.length_append, List.length_replicate, ih, List.sum_cons]

theorem codesFrom_length (c s : Nat) (l : List Nat) : (codesFrom c s l).length = l.length := by
  induction l generalizing c s with
  | nil => rfl
  | cons a l ih => simp only [codesFrom, List.length_cons, ih]

theorem codesFrom_replicate (n c L : Nat) (rest : List Nat) :
    codesFrom c L (List.replicate n L ++ rest) =
      (List.range n).map (fun i => (c + i, L)) ++ codesFrom (c + n) L rest := by
  induction n generalizing c with
  | zero => simp
  | succ n ih =>
    rw [List.replicate_succ, List.cons_append, codesFrom, Nat.sub_self, Nat.pow_zero, Nat.mul_one, ih,
      List.range_succ_eq_map, List.map_cons, List.map_map, List.cons_append]
    congr 1
    rw [show c + 1 + n = c + (n + 1) by omega]
    congr 1
    apply List.map_congr_left
    intro i _
    simp only [Function.comp_apply, Nat.succ_eq_add_one, Prod.mk.injEq, and_true]; omega

theorem codesFrom_shift (c L : Nat) (l : List Nat) (h : ∀ s ∈ l, L + 1 ≤ s) :
    codesFrom c L l = codesFrom (2 * c) (L + 1) l := by
  cases l with
  | nil => rfl
  | cons s l =>
    have hs := h s (by simp)
    have : c * 2 ^ (s - L) = 2 * c * 2 ^ (s - (L + 1)) := by
      rw [show s - L = s - (L + 1) + 1 by omega, Nat.pow_succ, Nat.mul_comm (2 ^ _) 2, ← Nat.mul_assoc,
        Nat.mul_comm c 2]
    rw [codesFrom, codesFrom, this]

theorem codes_eq (bits : List Nat) : codes bits = codesFrom 0 1 (sizesAt 0 bits) := by
  unfold codes
  rw [sizes_eq, codesFrom_shift 0 0 _ (sizesAt_ge 0 bits)]

theorem codesFrom_snd (c s : Nat) (l : List Nat) : (codesFrom c s l).map (·.2) = l := by
  induction l generalizing c s with
  | nil => rfl
  | cons a l ih => simp [codesFrom, ih]

theorem codes_length (bits : List Nat) : (codes bits).length = bits.sum := by
  rw [codes, codesFrom_length, sizes_eq, sizesAt_length]

theorem codes_size {bits : List Nat} {c : Nat × Nat} (h : c ∈ codes bits) :
    1 ≤ c.2 ∧ c.2 ≤ bits.length := by
  have : c.2 ∈ sizesAt 0 bits := by
    rw [← sizes_eq, ← codesFrom_snd 0 0 (sizes bits)]
    exact List.mem_map_of_mem h
  have h1 := sizesAt_ge 0 bits _ this
  have h2 := sizesAt_le 0 bits _ this
  omega

/-- Writing the codes into an array indexed by symbol. -/
def assign (tbl : List (Nat × Nat)) (pairs : List (Nat × (Nat × Nat))) : List (Nat × Nat) :=
  pairs.foldl (fun t p => t.set p.1 p.2) tbl

theorem assign_length (tbl : List (Nat × Nat)) (pairs) : (assign tbl pairs).length = tbl.length := by
  induction pairs generalizing tbl with
  | nil => rfl
  | cons p pairs ih =>
    show (assign (tbl.set p.1 p.2) pairs).length = _
    rw [ih, List.length_set]

theorem assign_not_mem (tbl : List (Nat × Nat)) (pairs : List (Nat × (Nat × Nat))) (k : Nat)
    (h : k ∉ pairs.map (·.1)) : (assign tbl pairs)[k]? = tbl[k]? := by
  induction pairs generalizing tbl with
  | nil => rfl
  | cons p pairs ih =>
    show (assign (tbl.set p.1 p.2) pairs)[k]? = _
    simp only [List.map_cons, List.mem_cons, not_or] at h
    rw [ih _ h.2, List.getElem?_set_ne (Ne.symm h.1)]

theorem assign_mem (tbl : List (Nat × Nat)) (pairs : List (Nat × (Nat × Nat)))
    (hn : (pairs.map (·.1)).Nodup) (p) (hp : p ∈ pairs) (hl : p.1 < tbl.length) :
    (assign tbl pairs)[p.1]? = some p.2 := by
  induction pairs generalizing tbl with
  | nil => cases hp
  | cons q pairs ih =>
    show (assign (tbl.set q.1 q.2) pairs)[p.1]? = _
    simp only [List.map_cons, List.nodup_cons] at hn
    rcases List.mem_cons.mp hp with rfl | hp
    · rw [assign_not_mem _ _ _ hn.1, List.getElem?_set_self hl]
    · exact ih _ hn.2 hp (by simpa using hl)

theorem addU16_ok {a b : Nat} (h : a + b < 2 ^ 16) : addU16 a b = .ok (a + b) := if_pos h

theorem drop_cons_of_get {α} {l : List α} {i : Nat} {a : α} (h : l[i]? = some a) :
    l.drop i = a :: l.drop (i + 1) := by
  obtain ⟨hi, rfl⟩ := List.getElem?_eq_some_iff.mp h
  exact List.drop_eq_getElem_cons hi

/-- The inner loops assign consecutive codes. -/
theorem fillCodes_spec (n : Nat) (vals : List Nat) (hlt : ∀ v ∈ vals, v < n) (L count : Nat)
    (s : CodeState) (hc : s.code + count < 2 ^ 16) (hv : s.valIdx + count ≤ vals.length) :
    fillCodes n vals L count s = .ok
      ⟨assign s.codes (((vals.drop s.valIdx).take count).zip
        ((List.range count).map (fun i => (s.code + i, L)))), s.code + count, s.valIdx + count⟩ ∧
    tableCodes n vals L count s = .ok (some
      ⟨assign s.codes (((vals.drop s.valIdx).take count).zip
        ((List.range count).map (fun i => (s.code + i, L)))), s.code + count, s.valIdx + count⟩) := by
  induction count generalizing s with
  | zero => simp [fillCodes, tableCodes, assign]
  | succ count ih =>
    have hi : s.valIdx < vals.length := by omega
    have hg : vals[s.valIdx]? = some vals[s.valIdx] := List.getElem?_eq_getElem hi
    have hsym : vals[s.valIdx] < n := hlt _ (List.getElem_mem hi)
    obtain ⟨e1, e2⟩ := ih ⟨s.codes.set vals[s.valIdx] (s.code, L), s.code + 1, s.valIdx + 1⟩
      (by simp only; omega) (by simp only; omega)
    have hfin : ∀ (a b : Nat) , assign (s.codes.set vals[s.valIdx] (s.code, L))
        (((vals.drop (s.valIdx + 1)).take count).zip
          ((List.range count).map (fun i => (s.code + 1 + i, L)))) =
        assign s.codes (((vals.drop s.valIdx).take (count + 1)).zip
          ((List.range (count + 1)).map (fun i => (s.code + i, L)))) := by
      intro _ _
      rw [drop_cons_of_get hg, List.take_succ_cons, List.range_succ_eq_map, List.map_cons, List.map_map,
        List.zip_cons_cons]
      show _ = assign (s.codes.set _ _) _
      congr 2
      apply List.map_congr_left
      intro i _
      simp only [Function.comp_apply, Nat.succ_eq_add_one, Prod.mk.injEq, and_true]; omega
    have hfin := hfin 0 0
    simp only at e1 e2
    rw [hfin] at e1 e2
    have ec : s.code + 1 + count = s.code + (count + 1) := by omega
    have ev : s.valIdx + 1 + count = s.valIdx + (count + 1) := by omega
    rw [ec, ev] at e1 e2
    constructor
    · rw [fillCodes, addU16_ok (by omega), ok_bind, hg]
      simp only [if_pos hsym]
      exact e1
    · rw [tableCodes, hg]
      simp only
      rw [if_neg (by omega), addU16_ok (by omega), ok_bind]
      exact e2

/-- The outer loops assign the codes of annex C. -/
theorem fillLengths_spec (n : Nat) (vals : List Nat) (hlt : ∀ v ∈ vals, v < n) (bits : List Nat) (i : Nat)
    (s : CodeState) (hi : i + bits.length = 16) (hcode : s.code < 2 ^ (i + 1))
    (hfit : ∀ c ∈ codesFrom s.code (i + 1) (sizesAt i bits), c.1 + 1 < 2 ^ c.2)
    (hv : s.valIdx + bits.sum = vals.length) :
    ∃ c v, fillLengths n vals bits (i + 1) s = .ok
      ⟨assign s.codes ((vals.drop s.valIdx).zip (codesFrom s.code (i + 1) (sizesAt i bits))), c, v⟩ ∧
    tableLengths n vals bits (i + 1) s = .ok (some
      ⟨assign s.codes ((vals.drop s.valIdx).zip (codesFrom s.code (i + 1) (sizesAt i bits))), c, v⟩) := by
  induction bits generalizing i s with
  | nil =>
    refine ⟨s.code, s.valIdx, ?_⟩
    simp [fillLengths, tableLengths, sizesAt, codesFrom, assign]
  | cons b bits ih =>
    rw [sizesAt_cons, codesFrom_replicate] at hfit
    rw [List.sum_cons] at hv
    have hpow : (2:Nat) ^ (i + 1) ≤ 2 ^ 16 := Nat.pow_le_pow_right (by decide) (by simp at hi; omega)
    have hb : s.code + b < 2 ^ (i + 1) := by
      cases b with
      | zero => simpa using hcode
      | succ b =>
        have := hfit (s.code + b, i + 1) (by
          rw [List.mem_append]; left
          exact List.mem_map.mpr ⟨b, by simp, rfl⟩)
        simp only at this; omega
    obtain ⟨e1, e2⟩ := fillCodes_spec n vals hlt (i + 1) b s (by omega) (by omega)
    have hshift := codesFrom_shift (s.code + b) (i + 1) (sizesAt (i + 1) bits) (sizesAt_ge _ _)
    have hcodes : (vals.drop s.valIdx).zip (codesFrom s.code (i + 1) (sizesAt i (b :: bits))) =
        ((vals.drop s.valIdx).take b).zip ((List.range b).map (fun j => (s.code + j, i + 1))) ++
        (vals.drop (s.valIdx + b)).zip (codesFrom (s.code + b) (i + 1) (sizesAt (i + 1) bits)) := by
      rw [sizesAt_cons, codesFrom_replicate]
      conv => lhs; rw [← List.take_append_drop b (vals.drop s.valIdx)]
      rw [List.zip_append (by simp; omega), List.drop_drop]
    have hlen : bits.length ≤ 15 := by simp at hi; omega
    rw [fillLengths, tableLengths, e1, e2]
    simp only [ok_bind]
    cases bits with
    | nil =>
      refine ⟨((s.code + b) <<< 1) % 2 ^ 16, s.valIdx + b, ?_⟩
      rw [hcodes]
      simp [fillLengths, tableLengths, sizesAt, codesFrom, assign]
    | cons b' bits' =>
      have hi2 : i + 1 + 1 ≤ 16 := by simp at hi; omega
      have hpow2 : (2:Nat) ^ (i + 1 + 1) ≤ 2 ^ 16 := Nat.pow_le_pow_right (by decide) hi2
      have hps : (2:Nat) ^ (i + 1 + 1) = 2 * 2 ^ (i + 1) := by rw [Nat.pow_succ]; omega
      have hsh : ((s.code + b) <<< 1) % 2 ^ 16 = 2 * (s.code + b) := by
        rw [Nat.shiftLeft_eq, Nat.pow_one, Nat.mul_comm, Nat.mod_eq_of_lt (by omega)]
      rw [hsh]
      obtain ⟨c, v, f1, f2⟩ := ih (i + 1)
        ⟨assign s.codes (((vals.drop s.valIdx).take b).zip
          ((List.range b).map (fun j => (s.code + j, i + 1)))), 2 * (s.code + b), s.valIdx + b⟩
        (by simp at hi ⊢; omega) (by simp only; omega)
        (by
          intro c hc
          apply hfit
          rw [List.mem_append]; right
          rw [hshift]; exact hc)
        (by simp only; omega)
      refine ⟨c, v, ?_⟩
      simp only at f1 f2
      rw [hcodes, hshift]
      constructor
      · rw [f1]; simp [assign]
      · rw [f2]; simp [assign]

/-- What the encoder needs of a table: it is legal and its codes, indexed by symbol, are those of
annex C. -/
structure TableOk (n : Nat) (t : Table) : Prop where
  legal : (⟨t.bits, t.vals⟩ : Spec.T81.Table).Legal
  len : t.codes.length = n
  lt : ∀ v ∈ t.vals, v < n
  code : ∀ (k v : Nat) (c : Nat × Nat), t.vals[k]? = some v → (codes t.bits)[k]? = some c → t.codes[v]? = some c

theorem tableOk_assign (n : Nat) (bits vals : List Nat)
    (h : (⟨bits, vals⟩ : Spec.T81.Table).Legal) (hlt : ∀ v ∈ vals, v < n) :
    TableOk n ⟨bits, vals, assign (List.replicate n (0, 0)) (vals.zip (codes bits))⟩ := by
  have hl : vals.length = (codes bits).length := by rw [codes_length]; exact h.vals_length
  refine ⟨h, by rw [assign_length]; simp, hlt, ?_⟩
  intro k v c hv hc
  have hm : (v, c) ∈ vals.zip (codes bits) := by
    apply List.mem_of_getElem? (i := k)
    rw [List.getElem?_zip_eq_some]
    exact ⟨hv, hc⟩
  refine assign_mem _ _ ?_ (v, c) hm ?_
  · rw [List.map_fst_zip (by omega)]; exact h.vals_nodup
  · simp only [List.length_replicate]; exact hlt _ (List.mem_of_getElem? hv)

theorem build_spec (n : Nat) (bits vals : List Nat) (h : (⟨bits, vals⟩ : Spec.T81.Table).Legal)
    (hlt : ∀ v ∈ vals, v < n) :
    buildCodes n bits vals = .ok (assign (List.replicate n (0, 0)) (vals.zip (codes bits))) ∧
    buildCodeTable n bits vals = .ok (some (assign (List.replicate n (0, 0)) (vals.zip (codes bits)))) := by
  obtain ⟨c, v, e1, e2⟩ := fillLengths_spec n vals hlt bits 0 ⟨List.replicate n (0, 0), 0, 0⟩
    (by have := h.bits_length; simp only at this; omega) (by simp)
    (by simp only [Nat.zero_add]; rw [← codes_eq]; exact h.fits)
    (by simpa using h.vals_length.symm)
  simp only [Nat.zero_add, List.drop_zero, ← codes_eq] at e1 e2
  constructor
  · rw [buildCodes, e1]; rfl
  · rw [buildCodeTable, e2]; rfl

theorem TableOk.lookup {n : Nat} {t : Table} (h : TableOk n t) {v : Nat} (hv : v ∈ t.vals) :
    ∃ code size, getChecked t.codes v = .ok (code, size) ∧ code + 1 < 2 ^ size ∧ 1 ≤ size ∧ size ≤ 16 ∧
      (⟨t.bits, t.vals⟩ : Spec.T81.Table).HasCode v (Spec.bitsMSB code size) := by
  obtain ⟨k, hk, rfl⟩ := List.getElem_of_mem hv
  have hl := h.legal.vals_length
  simp only at hl
  have hk2 : k < (codes t.bits).length := by rw [codes_length]; omega
  have hmem := List.getElem_mem hk2
  have hs := codes_size hmem
  have hb := h.legal.bits_length
  simp only at hb
  refine ⟨(codes t.bits)[k].1, (codes t.bits)[k].2, ?_, h.legal.fits _ hmem, hs.1, by omega, k, _, _,
    List.getElem?_eq_getElem hk, List.getElem?_eq_getElem hk2, rfl⟩
  rw [getChecked, h.code k _ _ (List.getElem?_eq_getElem hk) (List.getElem?_eq_getElem hk2)]

/-! ### The standard tables -/

/-- Legality as a computation. -/
def legalB (bits vals : List Nat) : Bool :=
  bits.length == 16 && bits.all (· ≤ 255) && vals.length == bits.sum && decide vals.Nodup &&
    vals.all (· < 256) && (codes bits).all (fun c => c.1 + 1 < 2 ^ c.2)

theorem legal_of_legalB {bits vals : List Nat} (h : legalB bits vals = true) :
    (⟨bits, vals⟩ : Spec.T81.Table).Legal := by
  simp only [legalB, Bool.and_eq_true, beq_iff_eq, List.all_eq_true, decide_eq_true_eq] at h
  obtain ⟨⟨⟨⟨⟨h1, h2⟩, h3⟩, h4⟩, h5⟩, h6⟩ := h
  exact ⟨h1, h2, h3, h4, h5, h6⟩

theorem legal_dcLum : (⟨dcLumBits, dcLumVals⟩ : Spec.T81.Table).Legal := legal_of_legalB (by decide +kernel)
theorem legal_dcChrom : (⟨dcChromBits, dcChromVals⟩ : Spec.T81.Table).Legal := legal_of_legalB (by decide +kernel)
theorem legal_acLum : (⟨acLumBits, acLumVals⟩ : Spec.T81.Table).Legal := legal_of_legalB (by decide +kernel)
theorem legal_acChrom : (⟨acChromBits, acChromVals⟩ : Spec.T81.Table).Legal := legal_of_legalB (by decide +kernel)

/-- All four tables of an encoder are right. -/
structure TablesOk (t : HuffTables) : Prop where
  dcLum : TableOk 12 t.dcLum
  dcChrom : TableOk 12 t.dcChrom
  acLum : TableOk 256 t.acLum
  acChrom : TableOk 256 t.acChrom

theorem stdTable_spec (n : Nat) (bits vals : List Nat) (h : (⟨bits, vals⟩ : Spec.T81.Table).Legal)
    (hlt : ∀ v ∈ vals, v < n) :
    ∃ t, stdTable n bits vals = .ok t ∧ TableOk n t ∧ t.bits = bits ∧ t.vals = vals := by
  refine ⟨_, ?_, tableOk_assign n bits vals h hlt, rfl, rfl⟩
  rw [stdTable, (build_spec n bits vals h hlt).1]; rfl

theorem std_spec : ∃ t, HuffTables.std = .ok t ∧ TablesOk t ∧
    t.dcLum.bits = dcLumBits ∧ t.dcLum.vals = dcLumVals ∧
    t.dcChrom.bits = dcChromBits ∧ t.dcChrom.vals = dcChromVals ∧
    t.acLum.bits = acLumBits ∧ t.acLum.vals = acLumVals ∧
    t.acChrom.bits = acChromBits ∧ t.acChrom.vals = acChromVals := by
  obtain ⟨t1, e1, h1, b1, v1⟩ := stdTable_spec 12 _ _ legal_dcLum (by decide +kernel)
  obtain ⟨t2, e2, h2, b2, v2⟩ := stdTable_spec 12 _ _ legal_dcChrom (by decide +kernel)
  obtain ⟨t3, e3, h3, b3, v3⟩ := stdTable_spec 256 _ _ legal_acLum (by decide +kernel)
  obtain ⟨t4, e4, h4, b4, v4⟩ := stdTable_spec 256 _ _ legal_acChrom (by decide +kernel)
  refine ⟨⟨t1, t2, t3, t4⟩, ?_, ⟨h1, h2, h3, h4⟩, b1, v1, b2, v2, b3, v3, b4, v4⟩
  rw [HuffTables.std, e1, ok_bind, e2, ok_bind, e3, ok_bind, e4]; rfl

/-- Every symbol of a baseline scan has a code in the standard tables. -/
theorem std_dc (s : Nat) (h : s ≤ 11) : s ∈ dcLumVals ∧ s ∈ dcChromVals := by
  have : ∀ s < 12, s ∈ dcLumVals ∧ s ∈ dcChromVals := by decide +kernel
  exact this s (by omega)

/-- The symbols of baseline AC coefficients. -/
def acSymbol (s : Nat) : Prop := s = 0 ∨ s = 0xF0 ∨ (s < 256 ∧ 1 ≤ s % 16 ∧ s % 16 ≤ 10)

theorem std_ac (s : Nat) (h : acSymbol s) : s ∈ acLumVals ∧ s ∈ acChromVals := by
  have : ∀ s < 256, s = 0 ∨ s = 0xF0 ∨ (s < 256 ∧ 1 ≤ s % 16 ∧ s % 16 ≤ 10) →
      s ∈ acLumVals ∧ s ∈ acChromVals := by decide +kernel
  exact this s (by unfold acSymbol at h; omega) h

end Pixo.Jpeg
