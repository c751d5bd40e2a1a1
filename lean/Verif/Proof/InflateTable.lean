import Verif.Proof.Canonical
import Verif.Proof.BitReader
import Verif.Proof.Safe
/-
Correctness of the Huffman lookup table and of symbol decoding.
-/
namespace Pixo.Inflate
open Spec Spec.Rfc1951

theorem reverseBits_spec (n v res m : Nat) (hm : res < 2 ^ m) (hnm : n + m ≤ 16) :
    reverseBits n v res < 2 ^ (n + m) ∧
    bitsLSB (reverseBits n v res) (n + m) = bitsMSB v n ++ bitsLSB res m := by
  induction n generalizing v res m with
  | zero => simp [reverseBits, hm, bitsMSB]
  | succ n ih =>
    unfold reverseBits
    have h1 : (res <<< 1) % 2 ^ 16 ||| (v &&& 1) = 2 * res + v % 2 := by
      have hp : (2:Nat) ^ (m + 1) ≤ 2 ^ 16 := Nat.pow_le_pow_right (by decide) (by omega)
      rw [Nat.pow_succ] at hp
      rw [Nat.shiftLeft_eq, Nat.pow_one, Nat.mod_eq_of_lt (by omega), Nat.and_one_is_mod, Nat.mul_comm]
      have h2 := or_shift (v % 2) res 1 (by omega)
      rw [Nat.or_comm, Nat.shiftLeft_eq, Nat.pow_one, Nat.mul_comm res 2] at h2
      rw [h2]; omega
    rw [h1]
    have hlt : 2 * res + v % 2 < 2 ^ (m + 1) := by rw [Nat.pow_succ]; omega
    obtain ⟨ha, hb⟩ := ih (v >>> 1) (2 * res + v % 2) (m + 1) hlt (by omega)
    rw [show n + 1 + m = n + (m + 1) by omega]
    refine ⟨ha, ?_⟩
    rw [hb, bitsLSB_succ]
    have h3 : bitsMSB v (n + 1) = bitsMSB (v >>> 1) n ++ [v % 2 == 1] := by
      unfold bitsMSB
      rw [bitsLSB_succ, List.reverse_cons, Nat.shiftRight_eq_div_pow]
    rw [h3, List.append_assoc]
    congr 1
    rw [show (2 * res + v % 2) % 2 = v % 2 by omega, show (2 * res + v % 2) / 2 = res by omega]
    rfl

theorem reverseBits_lt (n v : Nat) (hn : n ≤ 16) : reverseBits n v 0 < 2 ^ n := by
  have := (reverseBits_spec n v 0 0 (by decide) (by omega)).1
  simpa using this

theorem bitsLSB_reverseBits (n v : Nat) (hn : n ≤ 16) : bitsLSB (reverseBits n v 0) n = bitsMSB v n := by
  have := (reverseBits_spec n v 0 0 (by decide) (by omega)).2
  simpa using this

theorem fillEntries_spec (entry rev L : Nat) (hL : L ≤ 9) (hrev : rev < 2 ^ L) (c : Nat)
    (hc : c ≤ 2 ^ (9 - L)) (lk : List Nat) (hlk : lk.length = 512) :
    ∃ lk', fillEntries entry rev L c lk = .ok lk' ∧ lk'.length = 512 ∧
      ∀ idx, lk'.getD idx 0 =
        if idx % 2 ^ L = rev ∧ idx / 2 ^ L < c then entry else lk.getD idx 0 := by
  induction c with
  | zero => exact ⟨lk, rfl, hlk, fun idx => by rw [if_neg (fun h => Nat.not_lt_zero _ h.2)]⟩
  | succ c ih =>
    obtain ⟨lk', e, l', g⟩ := ih (by omega)
    have hidx : rev ||| (c <<< L) = rev + 2 ^ L * c := by
      rw [or_shift _ _ _ hrev, Nat.mul_comm]
    have hlt : rev + 2 ^ L * c < 512 := by
      have h1 : 2 ^ L * (c + 1) ≤ 2 ^ L * 2 ^ (9 - L) := Nat.mul_le_mul_left _ hc
      rw [← Nat.pow_add, show L + (9 - L) = 9 by omega, Nat.mul_add] at h1
      omega
    refine ⟨lk'.set (rev + 2 ^ L * c) entry, ?_, by simp [l'], ?_⟩
    · unfold fillEntries
      simp only [e, bind, Except.bind, hidx, setChecked, l', hlt, if_true]
    · intro idx
      by_cases hi : rev + 2 ^ L * c = idx
      · have h1 : idx % 2 ^ L = rev := by
          rw [← hi, Nat.add_mul_mod_self_left, Nat.mod_eq_of_lt hrev]
        have h2 : idx / 2 ^ L = c := by
          rw [← hi, Nat.add_mul_div_left _ _ (Nat.two_pow_pos L), Nat.div_eq_of_lt hrev]; simp
        rw [if_pos ⟨h1, by omega⟩]
        subst hi
        simp [List.getD_eq_getElem?_getD, l', hlt]
      · have hset : (lk'.set (rev + 2 ^ L * c) entry).getD idx 0 = lk'.getD idx 0 := by
          simp [List.getD_eq_getElem?_getD, List.getElem?_set_ne hi]
        rw [hset, g]
        by_cases hm : idx % 2 ^ L = rev
        · have hd : idx / 2 ^ L ≠ c := by
            intro hd
            have := Nat.mod_add_div idx (2 ^ L)
            rw [hm, hd] at this
            exact hi this
          by_cases h2 : idx / 2 ^ L < c
          · rw [if_pos ⟨hm, h2⟩, if_pos ⟨hm, by omega⟩]
          · rw [if_neg (by omega), if_neg (by omega)]
        · rw [if_neg (fun h => hm h.1), if_neg (fun h => hm h.1)]

/-- Index `idx` starts with the (reversed) code of the `i`-th symbol. -/
def Matches (lens codes : List Nat) (i idx : Nat) : Prop :=
  len lens i ≠ 0 ∧ len lens i ≤ 9 ∧
    idx % 2 ^ len lens i = reverseBits (len lens i) (codes.getD i 0 % 2 ^ 16) 0

theorem buildLookup_spec (sym : Nat) (lens codes : List Nat) (lk : List Nat)
    (hlk : lk.length = 512) (hlc : codes.length = lens.length) :
    ∃ lk', buildLookup sym lens codes lk = .ok lk' ∧ lk'.length = 512 ∧
      ∀ idx, idx < 512 →
        (lk'.getD idx 0 = lk.getD idx 0 ∧ ∀ i, ¬ Matches lens codes i idx) ∨
        ∃ i, Matches lens codes i idx ∧
          lk'.getD idx 0 = ((sym + i) % 2 ^ 16) ||| (len lens i <<< 12) := by
  induction lens generalizing sym codes lk with
  | nil =>
    refine ⟨lk, by simp [buildLookup], hlk, fun idx _ => Or.inl ⟨rfl, ?_⟩⟩
    intro i h; exact h.1 (by simp [len])
  | cons l ls ih =>
    cases codes with
    | nil => simp at hlc
    | cons c cs =>
      have hlc' : cs.length = ls.length := by simpa using hlc
      have hm : ∀ i idx, Matches (l :: ls) (c :: cs) (i + 1) idx ↔ Matches ls cs i idx := by
        intro i idx; simp [Matches, len]
      have hm0 : ∀ idx, Matches (l :: ls) (c :: cs) 0 idx ↔
          (l ≠ 0 ∧ l ≤ 9 ∧ idx % 2 ^ l = reverseBits l (c % 2 ^ 16) 0) := by
        intro idx; simp [Matches, len]
      unfold buildLookup
      by_cases hl : l = 0 ∨ l > lookupBits
      · rw [if_pos hl]
        obtain ⟨lk', e, l', g⟩ := ih (sym + 1) cs lk hlk hlc'
        refine ⟨lk', e, l', fun idx hidx => ?_⟩
        rcases g idx hidx with ⟨g1, g2⟩ | ⟨i, g1, g2⟩
        · refine Or.inl ⟨g1, fun i => ?_⟩
          cases i with
          | zero => rw [hm0]; intro h; unfold lookupBits at hl; omega
          | succ i => rw [hm]; exact g2 i
        · refine Or.inr ⟨i + 1, (hm i idx).2 g1, ?_⟩
          rw [g2, show sym + 1 + i = sym + (i + 1) by omega]
          simp [len]
      · rw [if_neg hl]
        have hl9 : l ≤ 9 := by unfold lookupBits at hl; omega
        have hl0 : l ≠ 0 := by omega
        have hc : 1 <<< (lookupBits - l) = 2 ^ (9 - l) := by
          rw [Nat.one_shiftLeft]; rfl
        obtain ⟨lk1, e1, l1, g1⟩ := fillEntries_spec ((sym % 2 ^ 16) ||| (l <<< 12))
          (reverseBits l (c % 2 ^ 16) 0) l hl9 (reverseBits_lt _ _ (by omega)) _
          (Nat.le_refl (2 ^ (9 - l))) lk hlk
        obtain ⟨lk', e, l', g⟩ := ih (sym + 1) cs lk1 l1 hlc'
        refine ⟨lk', ?_, l', fun idx hidx => ?_⟩
        · simp only [hc, e1, bind, Except.bind, e]
        · have hd : idx / 2 ^ l < 2 ^ (9 - l) := by
            rw [Nat.div_lt_iff_lt_mul (Nat.two_pow_pos _), ← Nat.pow_add,
              show 9 - l + l = 9 by omega]
            exact hidx
          rcases g idx hidx with ⟨g2, g3⟩ | ⟨i, g2, g3⟩
          · by_cases hmm : idx % 2 ^ l = reverseBits l (c % 2 ^ 16) 0
            · refine Or.inr ⟨0, (hm0 idx).2 ⟨hl0, hl9, hmm⟩, ?_⟩
              rw [g2, g1, if_pos ⟨hmm, hd⟩]; simp [len]
            · refine Or.inl ⟨?_, fun i => ?_⟩
              · rw [g2, g1, if_neg (fun h => hmm h.1)]
              · cases i with
                | zero => rw [hm0]; exact fun h => hmm h.2.2
                | succ i => rw [hm]; exact g3 i
          · refine Or.inr ⟨i + 1, (hm i idx).2 g2, ?_⟩
            rw [g3, show sym + 1 + i = sym + (i + 1) by omega]
            simp [len]

theorem getD_replicate_zero (n i : Nat) : (List.replicate n 0).getD i 0 = 0 := by
  rw [List.getD_eq_getElem?_getD, List.getElem?_replicate]
  split <;> rfl

theorem foldl_max_le (l : List Nat) (a : Nat) :
    a ≤ l.foldl max a ∧ ∀ x ∈ l, x ≤ l.foldl max a := by
  induction l generalizing a with
  | nil => simp
  | cons b l ih =>
    obtain ⟨h1, h2⟩ := ih (max a b)
    refine ⟨by simp only [List.foldl_cons]; omega, ?_⟩
    intro x hx
    simp only [List.foldl_cons]
    rcases List.mem_cons.mp hx with rfl | hx
    · omega
    · exact h2 x hx

theorem foldl_max_bound (l : List Nat) (a m : Nat) (ha : a ≤ m) (h : ∀ x ∈ l, x ≤ m) :
    l.foldl max a ≤ m := by
  induction l generalizing a with
  | nil => simpa
  | cons b l ih =>
    simp only [List.foldl_cons]
    exact ih _ (by have := h b (by simp); omega) (fun x hx => h x (by simp [hx]))

/-- What `from_lengths` guarantees about the table, for any lengths it accepts. -/
structure TableOf (t : HuffmanTable) (lens : List Nat) : Prop where
  lengths : t.lengths = lens
  le15 : ∀ l ∈ lens, l ≤ 15
  max : ∀ l ∈ lens, l ≤ t.maxLen
  max15 : t.maxLen ≤ 15
  size : t.lookup.length = 512
  entry : ∀ idx, idx < 512 →
    (t.lookup.getD idx 0 = 0 ∧
      (t.maxLen ≠ 0 → ∀ i, ¬ Matches lens (assignCodes lens (nextCode lens)) i idx)) ∨
    ∃ i, Matches lens (assignCodes lens (nextCode lens)) i idx ∧
      t.lookup.getD idx 0 = (i % 2 ^ 16) ||| (len lens i <<< 12)

theorem fromLengths_ok (lens : List Nat) (h : ∀ l ∈ lens, l ≤ 15) :
    ∃ t, HuffmanTable.fromLengths lens = .ok t ∧ TableOf t lens := by
  unfold HuffmanTable.fromLengths
  have hm := foldl_max_bound lens 0 15 (by decide) h
  have hle := (foldl_max_le lens 0).2
  simp only
  rw [if_neg (by omega)]
  split
  · rename_i h0
    refine ⟨_, rfl, rfl, h, ?_, Nat.zero_le _, List.length_replicate, fun idx hidx => Or.inl
      ⟨getD_replicate_zero _ _, fun h => absurd rfl h⟩⟩
    intro l hl; have := hle l hl; simp only; omega
  · obtain ⟨lk, e, l', g⟩ := buildLookup_spec 0 lens (assignCodes lens (nextCode lens))
      (List.replicate 512 0) List.length_replicate (assignCodes_length _ _)
    refine ⟨⟨lk, lens, lens.foldl Max.max 0⟩, by simp only [e, bind, Except.bind, pure, Except.pure],
      rfl, h, hle, hm, l', fun idx hidx => ?_⟩
    rcases g idx hidx with ⟨g1, g2⟩ | ⟨i, g1, g2⟩
    · refine Or.inl ⟨?_, fun _ => g2⟩
      rw [g1, getD_replicate_zero]
    · exact Or.inr ⟨i, g1, by rwa [Nat.zero_add] at g2⟩

theorem fromLengths_safe (lens : List Nat) :
    Safe (HuffmanTable.fromLengths lens) (fun t => TableOf t lens) := by
  by_cases h : ∀ l ∈ lens, l ≤ 15
  · obtain ⟨t, e, ht⟩ := fromLengths_ok lens h
    rw [e]; exact Safe.ok ht
  · have : ∃ l ∈ lens, 15 < l := by
      simp only [Classical.not_forall] at h
      obtain ⟨l, hl, h⟩ := h
      exact ⟨l, hl, by omega⟩
    obtain ⟨l, hl, h⟩ := this
    have := (foldl_max_le lens 0).2 l hl
    unfold HuffmanTable.fromLengths
    simp only
    rw [if_pos (by omega)]
    exact Safe.invalid

theorem entry_split (i L : Nat) (hi : i < 4096) :
    ((i % 2 ^ 16) ||| (L <<< 12)) >>> 12 = L ∧ ((i % 2 ^ 16) ||| (L <<< 12)) &&& 0xFFF = i := by
  rw [Nat.mod_eq_of_lt (by omega), or_shift i L 12 (by omega)]
  constructor
  · rw [Nat.shiftRight_eq_div_pow]; omega
  · rw [show 0xFFF = 2 ^ 12 - 1 by rfl, Nat.and_two_pow_sub_one_eq_mod]; omega

theorem codeword_of_matches {lens : List Nat} (h : CodeOK lens) {i idx : Nat}
    (hm : Matches lens (assignCodes lens (nextCode lens)) i idx) :
    codeword lens i = bitsLSB idx (len lens i) := by
  obtain ⟨h0, h9, h2⟩ := hm
  rw [assignCodes_spec lens i h0] at h2
  have hlt := codeValue_lt h h0
  have hp : (2:Nat) ^ len lens i ≤ 2 ^ 9 := Nat.pow_le_pow_right (by decide) h9
  rw [Nat.mod_eq_of_lt (b := 2 ^ 16) (by omega)] at h2
  unfold codeword
  rw [← bitsLSB_reverseBits _ _ (by omega), ← h2, bitsLSB_mod _ _ _ (Nat.le_refl _)]

theorem matches_of_codeword {lens : List Nat} (h : CodeOK lens) {i idx : Nat}
    (h0 : len lens i ≠ 0) (h9 : len lens i ≤ 9)
    (hc : codeword lens i = bitsLSB idx (len lens i)) :
    Matches lens (assignCodes lens (nextCode lens)) i idx := by
  refine ⟨h0, h9, ?_⟩
  rw [assignCodes_spec lens i h0]
  have hlt := codeValue_lt h h0
  have hp : (2:Nat) ^ len lens i ≤ 2 ^ 9 := Nat.pow_le_pow_right (by decide) h9
  rw [Nat.mod_eq_of_lt (b := 2 ^ 16) (by omega)]
  unfold codeword at hc
  rw [← bitsLSB_reverseBits _ _ (by omega), ← bitsLSB_mod idx _ _ (Nat.le_refl _)] at hc
  exact (bitsLSB_inj (reverseBits_lt _ _ (by omega)) (Nat.mod_lt _ (Nat.two_pow_pos _)) hc).symm

theorem findSymbol_iff {t : HuffmanTable} {lens : List Nat} (ht : t.lengths = lens)
    (L code s : Nat) (hL : L ≠ 0) (h : t.findSymbol L code = some s) :
    len lens s = L ∧ code = codeValue lens s := by
  unfold HuffmanTable.findSymbol at h
  have hp := List.find?_some h
  rw [ht] at hp
  simp only [Bool.and_eq_true, beq_iff_eq] at hp
  refine ⟨hp.1, ?_⟩
  rw [hp.2, codeForSymbol_spec, ht]
  rw [ht]
  show lens.getD s 0 ≠ 0
  omega

theorem findSymbol_none {t : HuffmanTable} {lens : List Nat} (ht : t.lengths = lens)
    (L code : Nat) (h : t.findSymbol L code = none) (s : Nat) (hs : len lens s = L) (hL : L ≠ 0) :
    code ≠ codeValue lens s := by
  unfold HuffmanTable.findSymbol at h
  rw [List.find?_eq_none] at h
  have hlt : s < lens.length := lt_length_of_len (by omega)
  have := h s (by rw [ht]; exact List.mem_range.mpr hlt)
  rw [codeForSymbol_spec t s (by rw [ht]; omega), ht] at this
  simp only [Bool.and_eq_true, beq_iff_eq, not_and] at this
  exact this hs

theorem decodeSlowLoop_spec {t : HuffmanTable} {lens : List Nat} (ht : t.lengths = lens)
    (h : CodeOK lens) {s : Nat} (hs : len lens s ≠ 0) (rounds : Nat) (L : Nat) (r : BitReader)
    (hr : r.Inv) (rest : List Bool) (hL : L < len lens s) (hrounds : len lens s - L ≤ rounds)
    (hb : r.bits = (codeword lens s).drop L ++ rest) :
    ∃ r', t.decodeSlowLoop rounds (L + 1) (codeValue lens s / 2 ^ (len lens s - L)) r = .ok (s, r') ∧
      r'.Inv ∧ r'.bits = rest ∧ r'.data = r.data := by
  induction rounds generalizing L r with
  | zero => omega
  | succ rounds ih =>
    unfold HuffmanTable.decodeSlowLoop
    have hd : (codeword lens s).drop L =
        bitsLSB (codeValue lens s / 2 ^ (len lens s - (L + 1)) % 2) 1 ++ (codeword lens s).drop (L + 1) := by
      have h1 : codeword lens s = bitsMSB (codeValue lens s / 2 ^ (len lens s - (L+1))) (L + 1) ++
          bitsMSB (codeValue lens s) (len lens s - (L + 1)) := by
        unfold codeword
        rw [← bitsMSB_add]; congr 1; omega
      have h2 : bitsMSB (codeValue lens s / 2 ^ (len lens s - (L+1))) (L + 1) =
          bitsMSB (codeValue lens s / 2 ^ (len lens s - (L+1)) / 2) L ++
            bitsLSB (codeValue lens s / 2 ^ (len lens s - (L + 1)) % 2) 1 := by
        unfold bitsMSB
        rw [bitsLSB_succ, List.reverse_cons]
        simp [bitsLSB]
      conv => lhs; rw [h1, h2]
      rw [h1, List.append_assoc, List.drop_append_of_le_length (by simp), List.drop_of_length_le (by simp),
        List.drop_append_of_le_length (by simp), List.drop_of_length_le (l := bitsMSB _ (L + 1)) (by simp)]
      simp
    rw [hd, List.append_assoc] at hb
    obtain ⟨r1, e1, i1, b1, d1⟩ := r.readBits_field hr 1 _ _ (by decide) (by omega) hb
    simp only [e1, bind, Except.bind]
    have hcode : (codeValue lens s / 2 ^ (len lens s - L)) <<< 1 |||
        codeValue lens s / 2 ^ (len lens s - (L + 1)) % 2 =
        codeValue lens s / 2 ^ (len lens s - (L + 1)) := by
      have h2 := or_shift (codeValue lens s / 2 ^ (len lens s - (L + 1)) % 2)
        (codeValue lens s / 2 ^ (len lens s - L)) 1 (by omega)
      rw [Nat.or_comm, h2]
      rw [show len lens s - L = (len lens s - (L + 1)) + 1 by omega, Nat.pow_succ, ← Nat.div_div_eq_div_mul]
      omega
    rw [hcode]
    by_cases hlast : L + 1 = len lens s
    · have hf : t.findSymbol (L + 1) (codeValue lens s / 2 ^ (len lens s - (L + 1))) = some s := by
        rcases hf : t.findSymbol (L + 1) (codeValue lens s / 2 ^ (len lens s - (L + 1))) with _ | s'
        · exfalso
          apply findSymbol_none ht _ _ hf s hlast.symm (by omega)
          rw [show len lens s - (L + 1) = 0 by omega]; simp
        · obtain ⟨f1, f2⟩ := findSymbol_iff ht _ _ _ (by omega) hf
          congr 1
          apply codeword_prefix_free h (by omega) hs
          rw [show len lens s - (L + 1) = 0 by omega] at f2
          unfold codeword
          rw [f1, ← f2, hlast]; simp
      rw [hf]
      simp only [pure, Except.pure]
      refine ⟨r1, rfl, i1, ?_, d1⟩
      rw [b1, hlast, List.drop_of_length_le (by simp)]; simp
    · have hf : t.findSymbol (L + 1) (codeValue lens s / 2 ^ (len lens s - (L + 1))) = none := by
        rcases hf : t.findSymbol (L + 1) (codeValue lens s / 2 ^ (len lens s - (L + 1))) with _ | s'
        · rfl
        · exfalso
          obtain ⟨f1, f2⟩ := findSymbol_iff ht _ _ _ (by omega) hf
          have : s' = s := by
            apply codeword_prefix_free h (by omega) hs
            unfold codeword
            rw [← f2, f1, ← bitsMSB_take (by omega)]
            exact List.take_prefix _ _
          subst this; omega
      rw [hf]
      simp only
      obtain ⟨r2, e2, i2, b2, d2⟩ := ih (L + 1) r1 i1 (by omega) (by omega) b1
      exact ⟨r2, e2, i2, b2, by rw [d2, d1]⟩

theorem decodeSlow_spec {t : HuffmanTable} {lens : List Nat} (ht : TableOf t lens)
    (h : CodeOK lens) {s : Nat} (hs : len lens s ≠ 0) (r : BitReader) (hr : r.Inv)
    (rest : List Bool) (hb : r.bits = codeword lens s ++ rest) :
    ∃ r', t.decodeSlow r = .ok (s, r') ∧ r'.Inv ∧ r'.bits = rest ∧ r'.data = r.data := by
  have hlt := lt_length_of_len hs
  have hmax : len lens s ≤ t.maxLen := len_le_of_all ht.max s
  have hz : codeValue lens s / 2 ^ (len lens s - 0) = 0 := Nat.div_eq_of_lt (codeValue_lt h hs)
  have := decodeSlowLoop_spec ht.lengths h hs t.maxLen 0 r hr rest (by omega) (by omega)
    (by simpa using hb)
  rw [hz] at this
  exact this

/-- The decoder reads back any code word of the table. -/
theorem decode_spec {t : HuffmanTable} {lens : List Nat} (ht : TableOf t lens) (hn : lens.length ≤ 4096)
    (h : CodeOK lens) {s : Nat} (hs : len lens s ≠ 0) (r : BitReader) (hr : r.Inv)
    (rest : List Bool) (hb : r.bits = codeword lens s ++ rest) :
    ∃ r', t.decode r = .ok (s, r') ∧ r'.Inv ∧ r'.bits = rest ∧ r'.data = r.data := by
  have hlt := lt_length_of_len hs
  have hmax : len lens s ≤ t.maxLen := len_le_of_all ht.max s
  unfold HuffmanTable.decode
  rw [if_neg (by omega)]
  obtain ⟨r1, e1, i1, b1, d1, n1⟩ := r.tryPeek_spec hr lookupBits (by decide)
  simp only [e1]
  -- the index
  have hidx : ofBitsLSB (r.bits.take lookupBits) < 2 ^ min r.bits.length lookupBits := by
    have := ofBitsLSB_lt (r.bits.take lookupBits)
    rwa [List.length_take, Nat.min_comm] at this
  have hidx512 : ofBitsLSB (r.bits.take lookupBits) < 512 := by
    have : (2:Nat) ^ min r.bits.length lookupBits ≤ 2 ^ 9 :=
      Nat.pow_le_pow_right (by decide) (by unfold lookupBits; omega)
    omega
  have hpre : ∀ k, k ≤ min r.bits.length lookupBits →
      bitsLSB (ofBitsLSB (r.bits.take lookupBits)) k = r.bits.take k := by
    intro k hk
    have h1 := bitsLSB_ofBitsLSB (r.bits.take lookupBits)
    have h2 : (r.bits.take lookupBits).length = k + (min r.bits.length lookupBits - k) := by
      rw [List.length_take]; omega
    rw [h2, bitsLSB_add] at h1
    have h3 := congrArg (List.take k) h1
    rw [List.take_append_of_le_length (by simp), List.take_of_length_le (by simp), List.take_take,
      show min k lookupBits = k by omega] at h3
    exact h3
  have hlk : t.lookup[ofBitsLSB (r.bits.take lookupBits)]? =
      some (t.lookup.getD (ofBitsLSB (r.bits.take lookupBits)) 0) := by
    rw [List.getD_eq_getElem?_getD, List.getElem?_eq_getElem (by rw [ht.size]; exact hidx512)]; rfl
  have slow := decodeSlow_spec ht h hs r1 i1 rest (by rw [b1]; exact hb)
  rw [d1] at slow
  -- a hit must be the right symbol
  have hit : ∀ a, a = min r.bits.length lookupBits →
      ∃ r', (if (t.lookup.getD (ofBitsLSB (r.bits.take lookupBits)) 0) >>> 12 > 0 ∧
            (t.lookup.getD (ofBitsLSB (r.bits.take lookupBits)) 0) >>> 12 ≤ a then
          (do
            let r' ← r1.consume ((t.lookup.getD (ofBitsLSB (r.bits.take lookupBits)) 0) >>> 12)
            return ((t.lookup.getD (ofBitsLSB (r.bits.take lookupBits)) 0) &&& 0xFFF, r') : R (Nat × BitReader))
          else t.decodeSlow r1) = .ok (s, r') ∧ r'.Inv ∧ r'.bits = rest ∧ r'.data = r.data := by
    intro a ha
    rcases ht.entry _ hidx512 with ⟨g1, _⟩ | ⟨i, g1, g2⟩
    · rw [g1, if_neg (by simp)]; exact slow
    · have hi4 : i < 4096 := by have := lt_length_of_len g1.1; omega
      obtain ⟨s1, s2⟩ := entry_split i (len lens i) hi4 
      rw [g2, s1, s2]
      by_cases hle : len lens i > 0 ∧ len lens i ≤ a
      · rw [if_pos hle]
        have hcw : codeword lens i = r.bits.take (len lens i) := by
          rw [codeword_of_matches h g1, hpre _ (by omega)]
        have his : i = s := by
          refine codeword_unique (bits := r.bits) h g1.1 hs ?_ ?_
          · rw [hcw]; exact List.take_prefix _ _
          · rw [hb]; exact List.prefix_append _ _
        subst his
        obtain ⟨r2, e2, i2, b2, d2⟩ := r1.consume_spec i1 (len lens i) (by omega)
        refine ⟨r2, by simp only [e2, bind, Except.bind, pure, Except.pure], i2, ?_, by rw [d2, d1]⟩
        rw [b2, b1, hb, List.drop_append_of_le_length (by simp), List.drop_of_length_le (by simp)]; rfl
      · rw [if_neg hle]; exact slow
  by_cases h9 : min r.bits.length lookupBits ≥ lookupBits
  · rw [if_pos h9, hlk]
    exact hit lookupBits (by omega)
  · rw [if_neg h9]
    by_cases h0 : min r.bits.length lookupBits > 0
    · rw [if_pos h0, hlk]
      exact hit _ rfl
    · rw [if_neg h0]; exact slow

/-! ### Totality of symbol decoding -/

theorem readBits_safe (r : BitReader) (hr : r.Inv) (n : Nat) (hn : n ≤ 32) :
    Safe (r.readBits n) (fun x => x.1 < 2 ^ n ∧ x.2.Inv ∧ x.2.bits.length + n = r.bits.length ∧
      x.2.data = r.data) := by
  by_cases hl : n ≤ r.bits.length
  · obtain ⟨r', e, i, b, d⟩ := r.readBits_ok hr n hn hl
    rw [e]
    refine Safe.ok ⟨?_, i, by rw [b, List.length_drop]; omega, d⟩
    have := ofBitsLSB_lt (r.bits.take n)
    rwa [List.length_take, Nat.min_eq_left hl] at this
  · rw [r.readBits_err hr n hn (by omega)]; exact Safe.invalid

theorem decodeSlowLoop_safe (t : HuffmanTable) (rounds L code : Nat) (r : BitReader) (hr : r.Inv) :
    Safe (t.decodeSlowLoop rounds L code r) (fun x => x.1 < t.lengths.length ∧ x.2.Inv ∧
      x.2.bits.length < r.bits.length ∧ x.2.data = r.data) := by
  induction rounds generalizing L code r with
  | zero => exact Safe.invalid
  | succ n ih =>
    unfold HuffmanTable.decodeSlowLoop
    refine Safe.bind (readBits_safe r hr 1 (by decide)) ?_
    rintro ⟨bit, r1⟩ ⟨_, i1, b1, d1⟩
    simp only at i1 b1 d1 ⊢
    split
    · rename_i s hs
      refine Safe.pure ⟨?_, i1, by simp only; omega, d1⟩
      have := List.mem_of_find?_eq_some hs
      exact List.mem_range.mp this
    · refine (ih (L + 1) _ r1 i1).mono ?_
      rintro x ⟨x1, x2, x3, x4⟩
      exact ⟨x1, x2, by omega, by rw [x4, d1]⟩

theorem decode_safe {t : HuffmanTable} {lens : List Nat} (ht : TableOf t lens)
    (hn : lens.length ≤ 4096) (r : BitReader) (hr : r.Inv) :
    Safe (t.decode r) (fun x => x.1 < lens.length ∧ x.2.Inv ∧
      x.2.bits.length < r.bits.length ∧ x.2.data = r.data) := by
  unfold HuffmanTable.decode
  split
  · exact Safe.invalid
  obtain ⟨r1, e1, i1, b1, d1, n1⟩ := r.tryPeek_spec hr lookupBits (by decide)
  simp only [e1]
  have hidx512 : ofBitsLSB (r.bits.take lookupBits) < 512 := by
    have h1 := ofBitsLSB_lt (r.bits.take lookupBits)
    rw [List.length_take, Nat.min_comm] at h1
    have : (2:Nat) ^ min r.bits.length lookupBits ≤ 2 ^ 9 :=
      Nat.pow_le_pow_right (by decide) (by unfold lookupBits; omega)
    omega
  have hlk : t.lookup[ofBitsLSB (r.bits.take lookupBits)]? =
      some (t.lookup.getD (ofBitsLSB (r.bits.take lookupBits)) 0) := by
    rw [List.getD_eq_getElem?_getD, List.getElem?_eq_getElem (by rw [ht.size]; exact hidx512)]; rfl
  have slow : Safe (t.decodeSlow r1) (fun x => x.1 < lens.length ∧ x.2.Inv ∧
      x.2.bits.length < r.bits.length ∧ x.2.data = r.data) := by
    refine (decodeSlowLoop_safe t t.maxLen 1 0 r1 i1).mono ?_
    rintro x ⟨x1, x2, x3, x4⟩
    exact ⟨by rw [ht.lengths] at x1; exact x1, x2, by rw [b1] at x3; exact x3, by rw [x4, d1]⟩
  have hit : ∀ a, a = min r.bits.length lookupBits →
      Safe (if (t.lookup.getD (ofBitsLSB (r.bits.take lookupBits)) 0) >>> 12 > 0 ∧
            (t.lookup.getD (ofBitsLSB (r.bits.take lookupBits)) 0) >>> 12 ≤ a then
          (do
            let r' ← r1.consume ((t.lookup.getD (ofBitsLSB (r.bits.take lookupBits)) 0) >>> 12)
            return ((t.lookup.getD (ofBitsLSB (r.bits.take lookupBits)) 0) &&& 0xFFF, r') : R (Nat × BitReader))
          else t.decodeSlow r1) (fun x => x.1 < lens.length ∧ x.2.Inv ∧
      x.2.bits.length < r.bits.length ∧ x.2.data = r.data) := by
    intro a ha
    rcases ht.entry _ hidx512 with ⟨g1, _⟩ | ⟨i, g1, g2⟩
    · rw [g1, if_neg (by simp)]; exact slow
    · have hil := lt_length_of_len g1.1
      obtain ⟨s1, s2⟩ := entry_split i (len lens i) (by omega) 
      rw [g2, s1, s2]
      by_cases hle : len lens i > 0 ∧ len lens i ≤ a
      · rw [if_pos hle]
        obtain ⟨r2, e2, i2, b2, d2⟩ := r1.consume_spec i1 (len lens i) (by omega)
        simp only [e2, bind, Except.bind, pure, Except.pure]
        refine Safe.ok ⟨hil, i2, ?_, by rw [d2, d1]⟩
        simp only
        rw [b2, b1, List.length_drop]; omega
      · rw [if_neg hle]; exact slow
  by_cases h9 : min r.bits.length lookupBits ≥ lookupBits
  · rw [if_pos h9, hlk]
    exact hit lookupBits (by omega)
  · rw [if_neg h9]
    by_cases h0 : min r.bits.length lookupBits > 0
    · rw [if_pos h0, hlk]
      exact hit _ rfl
    · rw [if_neg h0]; exact slow

end Pixo.Inflate
