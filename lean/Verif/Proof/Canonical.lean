import Verif.Spec.Rfc1951
import Verif.Proof.Bits
import Verif.Proof.Sum
import Verif.Model.Inflate
/-
Canonical Huffman codes: the closed form in the specification equals the RFC 1951 §3.2.2
counting algorithm, and code words are prefix free.
-/
namespace Pixo
open Spec Spec.Rfc1951

/-- `t` comes before `s` in canonical order. -/
abbrev Before (lens : List Nat) (t s : Nat) : Prop :=
  len lens t ≠ 0 ∧ (len lens t < len lens s ∨ (len lens t = len lens s ∧ t < s))

theorem codeValue_eq (lens : List Nat) (s : Nat) :
    codeValue lens s =
      sumTo lens.length (fun t => if Before lens t s then 2 ^ (len lens s - len lens t) else 0) := by
  rw [sumTo_eq_range]; rfl

theorem kraft_eq (lens : List Nat) :
    kraft lens = sumTo lens.length (fun t => if len lens t = 0 then 0 else 2 ^ (15 - len lens t)) := by
  unfold kraft; rw [list_sum_eq_sumTo]; rfl

theorem len_le_of_all {lens : List Nat} {m : Nat} (h : ∀ l ∈ lens, l ≤ m) (s : Nat) :
    len lens s ≤ m := by
  unfold len
  rw [List.getD_eq_getElem?_getD]
  rcases hs : lens[s]? with _ | v
  · simp
  · exact h v (List.mem_of_getElem? hs)

theorem lt_length_of_len {lens : List Nat} {s : Nat} (h : len lens s ≠ 0) : s < lens.length := by
  unfold len at h
  rw [List.getD_eq_getElem?_getD] at h
  by_cases hs : s < lens.length
  · exact hs
  · rw [List.getElem?_eq_none (by omega)] at h; simp at h

/-- Scaled inequality behind prefix-freeness and the range bound. -/
theorem codeValue_succ_mul_le (lens : List Nat) (s M : Nat) (f : Nat → Nat)
    (hs : len lens s ≠ 0) (hM : len lens s ≤ M)
    (hf : ∀ t, t < lens.length → (Before lens t s ∨ t = s) → 2 ^ (M - len lens t) ≤ f t) :
    2 ^ (M - len lens s) * (codeValue lens s + 1) ≤ sumTo lens.length f := by
  rw [Nat.mul_add, Nat.mul_one, codeValue_eq, ← sumTo_mul]
  have hlt := lt_length_of_len hs
  have h1 := sumTo_single lens.length s (2 ^ (M - len lens s)) hlt
  refine Nat.le_trans (Nat.add_le_add_left (Nat.le_of_eq h1.symm) _) ?_
  rw [← sumTo_add]
  apply sumTo_le
  intro t ht
  by_cases hb : Before lens t s
  · have hne : t ≠ s := by rintro rfl; rcases hb.2 with h | h <;> omega
    rw [if_pos hb, if_neg hne, Nat.add_zero, ← Nat.pow_add]
    have hle : len lens t ≤ len lens s := by rcases hb.2 with h | h <;> omega
    have := hf t ht (Or.inl hb)
    rwa [show M - len lens s + (len lens s - len lens t) = M - len lens t by omega]
  · rw [if_neg hb]
    by_cases he : t = s
    · subst he; simpa using hf t ht (Or.inr rfl)
    · rw [if_neg he]; simp

theorem codeValue_lt {lens : List Nat} (h : CodeOK lens) {s : Nat} (hs : len lens s ≠ 0) :
    codeValue lens s < 2 ^ len lens s := by
  have hl := len_le_of_all h.1 s
  have h1 := codeValue_succ_mul_le lens s 15
    (fun t => if len lens t = 0 then 0 else 2 ^ (15 - len lens t)) hs hl (by
      intro t _ ht
      have : len lens t ≠ 0 := by
        rcases ht with hb | rfl
        · exact hb.1
        · exact hs
      simp [this])
  rw [← kraft_eq] at h1
  have h2 := Nat.le_trans h1 h.2
  have h3 : (2:Nat) ^ 15 = 2 ^ (15 - len lens s) * 2 ^ len lens s := by
    rw [← Nat.pow_add]; congr 1; omega
  rw [h3] at h2
  exact Nat.le_of_mul_le_mul_left h2 (Nat.two_pow_pos _)

/-- A later code is at least the successor of an earlier one, at the earlier one's length. -/
theorem codeValue_before {lens : List Nat} {s t : Nat} (hb : Before lens s t) :
    codeValue lens s + 1 ≤ codeValue lens t / 2 ^ (len lens t - len lens s) := by
  have hle : len lens s ≤ len lens t := by rcases hb.2 with h | h <;> omega
  have h1 := codeValue_succ_mul_le lens s (len lens t)
    (fun u => if Before lens u t then 2 ^ (len lens t - len lens u) else 0) hb.1 hle (by
      intro u _ hu
      have : Before lens u t := by
        rcases hu with hu | rfl
        · refine ⟨hu.1, ?_⟩
          rcases hu.2 with h | h <;> rcases hb.2 with h' | h' <;> first | (left; omega) | (right; omega)
        · exact hb
      simp only [if_pos this]; exact Nat.le_refl _)
  rw [← codeValue_eq] at h1
  rw [Nat.le_div_iff_mul_le (Nat.two_pow_pos _), Nat.mul_comm]; exact h1

@[simp] theorem codeword_length (lens s) : (codeword lens s).length = len lens s := by
  simp [codeword]

theorem bitsMSB_take {v n k : Nat} (h : k ≤ n) :
    (bitsMSB v n).take k = bitsMSB (v / 2 ^ (n - k)) k := by
  have := bitsMSB_add v (n - k) k
  rw [Nat.sub_add_cancel h] at this
  rw [this, List.take_append_of_le_length (by simp), List.take_of_length_le (by simp)]

theorem codeword_prefix_of_before {lens : List Nat} (h : CodeOK lens) {s t : Nat}
    (hb : Before lens s t) (ht : len lens t ≠ 0) : ¬ codeword lens s <+: codeword lens t := by
  intro hp
  have hle : len lens s ≤ len lens t := by rcases hb.2 with h | h <;> omega
  have h1 : codeword lens s = (codeword lens t).take (len lens s) := by
    have := List.prefix_iff_eq_take.mp hp
    rwa [codeword_length] at this
  unfold codeword at h1
  rw [bitsMSB_take hle] at h1
  have hlt : codeValue lens t / 2 ^ (len lens t - len lens s) < 2 ^ len lens s := by
    rw [Nat.div_lt_iff_lt_mul (Nat.two_pow_pos _), ← Nat.pow_add,
      show len lens s + (len lens t - len lens s) = len lens t by omega]
    exact codeValue_lt h ht
  have := bitsMSB_inj (codeValue_lt h hb.1) hlt h1
  have := codeValue_before hb
  omega

/-- Code words of a code that is not over-subscribed are prefix free. -/
theorem codeword_prefix_free {lens : List Nat} (h : CodeOK lens) {s t : Nat}
    (hs : len lens s ≠ 0) (ht : len lens t ≠ 0) (hp : codeword lens s <+: codeword lens t) :
    s = t := by
  by_cases hst : s = t
  · exact hst
  · exfalso
    by_cases hb : Before lens s t
    · exact codeword_prefix_of_before h hb ht hp
    · have hb' : Before lens t s := by
        refine ⟨ht, ?_⟩
        unfold Before at hb
        omega
      -- then the lengths are equal, so the prefix is an equality
      have hl : len lens s ≤ len lens t := by simpa using hp.length_le
      have hl' : len lens t ≤ len lens s := by rcases hb'.2 with h | h <;> omega
      have heq : codeword lens s = codeword lens t := hp.eq_of_length (by simp; omega)
      exact codeword_prefix_of_before h hb' hs (heq ▸ List.prefix_refl _)

/-- Two code words that are prefixes of one bit string are the same. -/
theorem codeword_unique {lens : List Nat} (h : CodeOK lens) {s t : Nat} {bits : List Bool}
    (hs : len lens s ≠ 0) (ht : len lens t ≠ 0)
    (hps : codeword lens s <+: bits) (hpt : codeword lens t <+: bits) : s = t := by
  rcases List.prefix_or_prefix_of_prefix hps hpt with hp | hp
  · exact codeword_prefix_free h hs ht hp
  · exact (codeword_prefix_free h ht hs hp).symm

/-! ### The counting algorithm -/

namespace Inflate
open Pixo.Inflate

theorem blCount_eq (lens : List Nat) (L : Nat) :
    blCount lens L = sumTo lens.length (fun t => if len lens t = L ∧ len lens t ≠ 0 then 1 else 0) := by
  have key : ∀ l : List Nat, l.countP (· == L) =
      (l.map (fun x => if x = L then 1 else 0)).sum := by
    intro l
    induction l with
    | nil => rfl
    | cons a l ih =>
      rw [List.countP_cons, List.map_cons, List.sum_cons, ih]
      by_cases h : a = L <;> simp [h, Nat.add_comm]
  unfold blCount
  split
  · rename_i h0; subst h0
    exact (sumTo_eq_zero (fun i _ => by rw [if_neg (by omega)])).symm
  · rw [key, list_sum_eq_sumTo]
    apply sumTo_congr
    intro i _
    show (if len lens i = L then 1 else 0) = _
    by_cases h : len lens i = L
    · rw [if_pos h, if_pos ⟨h, by omega⟩]
    · rw [if_neg h, if_neg (by omega)]

theorem nextCode_eq (lens : List Nat) (L : Nat) :
    nextCode lens L = sumTo lens.length
      (fun t => if len lens t ≠ 0 ∧ len lens t < L then 2 ^ (L - len lens t) else 0) := by
  induction L with
  | zero =>
    exact (sumTo_eq_zero (fun i _ => by rw [if_neg (by omega)])).symm
  | succ L ih =>
    rw [show nextCode lens (L + 1) = (nextCode lens L + blCount lens L) <<< 1 from rfl,
      Nat.shiftLeft_eq, Nat.pow_one, Nat.mul_comm, ih, blCount_eq, ← sumTo_add, ← sumTo_mul]
    apply sumTo_congr
    intro t _
    by_cases h0 : len lens t = 0
    · simp [h0]
    · rcases Nat.lt_trichotomy (len lens t) L with h | h | h
      · rw [if_pos ⟨h0, h⟩, if_neg (by omega), if_pos ⟨h0, by omega⟩,
          show L + 1 - len lens t = (L - len lens t) + 1 by omega, Nat.pow_succ]
        omega
      · rw [if_neg (by omega), if_pos ⟨h, h0⟩, if_pos ⟨h0, by omega⟩]
        rw [h, show L + 1 - L = 1 by omega]
      · rw [if_neg (by omega), if_neg (by omega), if_neg (by omega)]

/-- Codes already handed out for length `L` before position `i`. -/
def countBefore (lens : List Nat) (i L : Nat) : Nat := (lens.take i).countP (· == L)

theorem countBefore_eq (lens : List Nat) (s : Nat) (hs : len lens s ≠ 0) :
    countBefore lens s (len lens s) =
      sumTo lens.length (fun t => if len lens t = len lens s ∧ t < s then 1 else 0) := by
  have hlt := lt_length_of_len hs
  have key : ∀ (l : List Nat) (L : Nat), l.countP (· == L) =
      sumTo l.length (fun i => if l.getD i 0 = L then 1 else 0) := by
    intro l L
    have : l.countP (· == L) = (l.map (fun x => if x = L then 1 else 0)).sum := by
      induction l with
      | nil => rfl
      | cons a l ih =>
        rw [List.countP_cons, List.map_cons, List.sum_cons, ih]
        by_cases h : a = L <;> simp [h, Nat.add_comm]
    rw [this, list_sum_eq_sumTo]
  unfold countBefore
  rw [key, List.length_take, Nat.min_eq_left (by omega)]
  obtain ⟨m, hm⟩ : ∃ m, lens.length = s + m := ⟨lens.length - s, by omega⟩
  rw [hm, sumTo_split]
  have hz : sumTo m (fun i => if len lens (s + i) = len lens s ∧ s + i < s then 1 else 0) = 0 :=
    sumTo_eq_zero (fun i _ => by rw [if_neg (by omega)])
  rw [hz, Nat.add_zero]
  apply sumTo_congr
  intro i hi
  have : (lens.take s).getD i 0 = len lens i := by
    unfold len; simp [List.getD_eq_getElem?_getD, hi]
  rw [this]
  by_cases h : len lens i = len lens s
  · rw [if_pos h, if_pos ⟨h, hi⟩]
  · rw [if_neg h, if_neg (fun x => h x.1)]

theorem codeValue_eq_next (lens : List Nat) (s : Nat) (hs : len lens s ≠ 0) :
    codeValue lens s = nextCode lens (len lens s) + countBefore lens s (len lens s) := by
  rw [codeValue_eq, nextCode_eq, countBefore_eq lens s hs, ← sumTo_add]
  apply sumTo_congr
  intro t _
  unfold Before
  by_cases h0 : len lens t = 0
  · rw [if_neg (by omega), if_neg (by omega), if_neg (by omega)]
  · rcases Nat.lt_trichotomy (len lens t) (len lens s) with h | h | h
    · rw [if_pos ⟨h0, Or.inl h⟩, if_pos ⟨h0, h⟩, if_neg (by omega)]; rfl
    · by_cases hts : t < s
      · rw [if_pos ⟨h0, Or.inr ⟨h, hts⟩⟩, if_neg (by omega), if_pos ⟨h, hts⟩]; simp [h]
      · rw [if_neg (by omega), if_neg (by omega), if_neg (by omega)]
    · rw [if_neg (by omega), if_neg (by omega), if_neg (by omega)]

theorem assignCodes_length (lens : List Nat) (next) : (assignCodes lens next).length = lens.length := by
  induction lens generalizing next with
  | nil => rfl
  | cons l ls ih => unfold assignCodes; split <;> simp [ih]

theorem assignCodes_getD (lens : List Nat) (next : Nat → Nat) (i : Nat) (h : len lens i ≠ 0) :
    (assignCodes lens next).getD i 0 = next (len lens i) + countBefore lens i (len lens i) := by
  induction lens generalizing next i with
  | nil => simp [len] at h
  | cons l ls ih =>
    unfold assignCodes
    cases i with
    | zero =>
      have hl : len (l :: ls) 0 = l := rfl
      rw [hl] at h ⊢
      rw [if_pos (by omega)]
      simp [countBefore]
    | succ i =>
      have hl : len (l :: ls) (i + 1) = len ls i := by simp [len]
      rw [hl] at h ⊢
      have hc : countBefore (l :: ls) (i + 1) (len ls i) =
          countBefore ls i (len ls i) + if l = len ls i then 1 else 0 := by
        simp [countBefore, List.countP_cons]
      rw [hc]
      split
      · rw [List.getD_cons_succ, ih _ i h]
        by_cases he : l = len ls i
        · rw [if_pos he.symm, if_pos he]; omega
        · rw [if_neg (fun x => he x.symm), if_neg he]; omega
      · rw [List.getD_cons_succ, ih _ i h, if_neg (by omega)]; omega

theorem codeForLoop_eq (lens : List Nat) (next : Nat → Nat) (sym i : Nat) (h : len lens i ≠ 0) :
    codeForLoop lens sym next (sym + i) = next (len lens i) + countBefore lens i (len lens i) := by
  induction lens generalizing next sym i with
  | nil => simp [len] at h
  | cons l ls ih =>
    unfold codeForLoop
    cases i with
    | zero =>
      have hl : len (l :: ls) 0 = l := rfl
      rw [hl] at h ⊢
      rw [if_pos (by omega)]
      simp [countBefore]
    | succ i =>
      have hl : len (l :: ls) (i + 1) = len ls i := by simp [len]
      rw [hl] at h ⊢
      have hc : countBefore (l :: ls) (i + 1) (len ls i) =
          countBefore ls i (len ls i) + if l = len ls i then 1 else 0 := by
        simp [countBefore, List.countP_cons]
      rw [hc, show sym + (i + 1) = (sym + 1) + i by omega]
      split
      · rw [if_neg (by omega), ih _ _ i h]
        by_cases he : l = len ls i
        · rw [if_pos he.symm, if_pos he]; omega
        · rw [if_neg (fun x => he x.symm), if_neg he]; omega
      · rw [ih _ _ i h, if_neg (by omega)]; omega

theorem assignCodes_spec (lens : List Nat) (s : Nat) (h : len lens s ≠ 0) :
    (assignCodes lens (nextCode lens)).getD s 0 = codeValue lens s := by
  rw [assignCodes_getD _ _ _ h, codeValue_eq_next _ _ h]

theorem codeForSymbol_spec (t : HuffmanTable) (s : Nat) (h : len t.lengths s ≠ 0) :
    t.codeForSymbol s = codeValue t.lengths s := by
  unfold HuffmanTable.codeForSymbol
  rw [if_neg (show ¬ t.lengths.getD s 0 = 0 from h), codeValue_eq_next _ _ h]
  have := codeForLoop_eq t.lengths (nextCode t.lengths) 0 s h
  rwa [Nat.zero_add] at this

end Inflate
end Pixo
