import Verif.Model.Huffman
import Verif.Proof.Canonical
import Verif.Proof.Safe
/-
`generate_canonical_codes` hands out the canonical codes of RFC 1951.
-/
namespace Pixo.Huffman
open Spec Spec.Rfc1951 Pixo.Inflate

theorem blCount_same (lens : List Nat) (b : Nat) : blCount lens b = Inflate.blCount lens b := rfl

theorem next_le {lens : List Nat} (h : CodeOK lens) (b : Nat) (hb : b ≤ 15) :
    nextCode lens b + Inflate.blCount lens b ≤ 2 ^ b := by
  have h1 : 2 ^ (15 - b) * (nextCode lens b + Inflate.blCount lens b) ≤ kraft lens := by
    rw [nextCode_eq, blCount_eq, ← sumTo_add, ← sumTo_mul, kraft_eq]
    apply sumTo_le
    intro t _
    by_cases h0 : len lens t = 0
    · simp [h0]
    · rw [if_neg h0]
      rcases Nat.lt_trichotomy (len lens t) b with hl | hl | hl
      · rw [if_pos ⟨h0, hl⟩, if_neg (by omega), Nat.add_zero, ← Nat.pow_add]
        exact Nat.pow_le_pow_right (by decide) (by omega)
      · rw [if_neg (by omega), if_pos ⟨hl, h0⟩, Nat.zero_add, Nat.mul_one, hl]; exact Nat.le_refl _
      · rw [if_neg (by omega), if_neg (by omega)]; simp
  have h2 := Nat.le_trans h1 h.2
  have h3 : (2:Nat) ^ 15 = 2 ^ (15 - b) * 2 ^ b := by rw [← Nat.pow_add]; congr 1; omega
  rw [h3] at h2
  exact Nat.le_of_mul_le_mul_left h2 (Nat.two_pow_pos _)

theorem pow_le_15 {b : Nat} (h : b ≤ 15) : 2 ^ b ≤ 2 ^ 15 := Nat.pow_le_pow_right (by decide) h

theorem startCodes_ok {lens : List Nat} (h : CodeOK lens) (k b : Nat) (hb : b + k ≤ 15) :
    startCodes lens k b (nextCode lens b) =
      .ok ((List.range k).map (fun i => nextCode lens (b + 1 + i))) := by
  induction k generalizing b with
  | zero => rfl
  | succ k ih =>
    have h1 := next_le h b (by omega)
    have h2 := pow_le_15 (show b ≤ 15 by omega)
    have hn : nextCode lens (b + 1) = (nextCode lens b + Inflate.blCount lens b) <<< 1 := rfl
    have h3 := next_le h (b + 1) (by omega)
    have h4 := pow_le_15 (show b + 1 ≤ 15 by omega)
    have hc : blCount lens b % 2 ^ 16 = Inflate.blCount lens b := by
      rw [blCount_same]; exact Nat.mod_eq_of_lt (by omega)
    rw [startCodes, hc, addU16, if_pos (by omega), ok_bind, ← hn,
      Nat.mod_eq_of_lt (show nextCode lens (b + 1) < 2 ^ 16 by omega), ih (b + 1) (by omega), ok_bind]
    show Except.ok _ = _
    congr 1
    rw [List.range_succ_eq_map, List.map_cons, List.map_map]
    congr 1
    apply List.map_congr_left
    intro i _
    simp only [Function.comp]
    congr 1; omega

theorem assign_ok (ls : List Nat) (nx : List Nat) (f : Nat → Nat) (hl : ∀ l ∈ ls, l ≤ 15)
    (hn : nx.length = 16) (hf : ∀ l, 0 < l → l ≤ 15 → nx.getD l 0 = f l)
    (hb : ∀ l, 0 < l → l ≤ 15 → f l + ls.countP (· == l) ≤ 2 ^ 15) :
    assign ls nx = .ok (List.zip (assignCodes ls f) ls) := by
  induction ls generalizing nx f with
  | nil => rfl
  | cons l ls ih =>
    have hl15 := hl l (by simp)
    rw [assign, assignCodes]
    by_cases h0 : l > 0
    · rw [if_pos h0, if_pos h0]
      have hbl := hb l h0 hl15
      rw [List.countP_cons] at hbl
      simp only [beq_self_eq_true, if_true] at hbl
      have hg : getChecked nx l = .ok (f l) := by
        have := hf l h0 hl15
        rw [List.getD_eq_getElem?_getD, List.getElem?_eq_getElem (by omega)] at this
        rw [getChecked, List.getElem?_eq_getElem (by omega)]
        simpa using this
      rw [hg, ok_bind, addU16, if_pos (by omega), ok_bind, setChecked, if_pos (by omega), ok_bind,
        ih _ (fun k => if k = l then f k + 1 else f k) (fun x hx => hl x (by simp [hx])) (by simpa using hn)]
      · rfl
      · intro k hk hk15
        rw [List.getD_eq_getElem?_getD, List.getElem?_set]
        by_cases he : l = k
        · subst he; rw [if_pos rfl, if_pos (by omega), if_pos rfl]; rfl
        · rw [if_neg he, if_neg (fun x => he x.symm), ← List.getD_eq_getElem?_getD]; exact hf k hk hk15
      · intro k hk hk15
        have := hb k hk hk15
        rw [List.countP_cons] at this
        by_cases he : k = l
        · subst he; simp at this ⊢; omega
        · rw [if_neg (by simpa using fun x => he x.symm)] at this
          rw [if_neg he]; omega
    · rw [if_neg h0, if_neg h0, ih nx f (fun x hx => hl x (by simp [hx])) hn hf, ok_bind]
      · obtain rfl : l = 0 := by omega
        rfl
      · intro k hk hk15
        have := hb k hk hk15
        rw [List.countP_cons] at this
        omega

/-- For a code that is not over-subscribed, no panic, and the canonical codes. -/
theorem generateCanonicalCodes_ok {lens : List Nat} (h : CodeOK lens) :
    generateCanonicalCodes lens = .ok (List.zip (assignCodes lens (nextCode lens)) lens) := by
  unfold generateCanonicalCodes
  have h1 : lens.any (· > 15) = false := by
    rw [List.any_eq_false]; intro l hl; have := h.1 l hl; simp; omega
  rw [if_neg (by simp [h1])]
  have h2 := startCodes_ok h 15 0 (by omega)
  rw [show nextCode lens 0 = 0 from rfl] at h2
  rw [h2, ok_bind]
  apply assign_ok _ _ _ h.1
  · simp
  · intro l hl0 hl
    obtain ⟨k, rfl⟩ : ∃ k, l = k + 1 := ⟨l - 1, by omega⟩
    rw [List.getD_cons_succ, List.getD_eq_getElem?_getD, List.getElem?_map, List.getElem?_range (by omega)]
    simp only [Option.map_some, Option.getD_some]
    congr 1; omega
  · intro l hl0 hl
    have := next_le h l hl
    have h4 := pow_le_15 hl
    unfold Inflate.blCount at this
    rw [if_neg (by omega)] at this
    omega

/-- A table of `(code, length)` pairs describes the canonical code with lengths `lens`. -/
structure IsCanon (codes : List (Nat × Nat)) (lens : List Nat) : Prop where
  length : codes.length = lens.length
  snd : codes.map Prod.snd = lens
  code : ∀ s, len lens s ≠ 0 → codes.getD s (0, 0) = (codeValue lens s, len lens s)

theorem isCanon_zip (lens : List Nat) : IsCanon (List.zip (assignCodes lens (nextCode lens)) lens) lens := by
  have hl := assignCodes_length lens (nextCode lens)
  refine ⟨by simp [hl], ?_, ?_⟩
  · rw [List.map_snd_zip (by omega)]
  · intro s hs
    have hlt := lt_length_of_len hs
    have h1 := assignCodes_spec lens s hs
    rw [List.getD_eq_getElem?_getD, List.getElem?_eq_getElem (by omega)] at h1
    rw [List.getD_eq_getElem?_getD, List.getElem?_eq_getElem (by simp; omega)]
    simp only [Option.getD_some, List.getElem_zip] at h1 ⊢
    rw [h1]
    congr 1
    unfold len
    rw [List.getD_eq_getElem?_getD, List.getElem?_eq_getElem hlt]; rfl

theorem generateCanonicalCodes_spec {lens : List Nat} (h : CodeOK lens) :
    ∃ codes, generateCanonicalCodes lens = .ok codes ∧ IsCanon codes lens :=
  ⟨_, generateCanonicalCodes_ok h, isCanon_zip lens⟩

end Pixo.Huffman
