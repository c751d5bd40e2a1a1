import Verif.Proof.InflateWork
import Verif.Spec.BlockCost
/-
Lower bounds for the steps of `inflate`.
-/
namespace Pixo.Inflate
open Pixo Spec Spec.Rfc1951 Spec.BlockCost

theorem bind_ge {α β : Type} {x : Counted α} {f : α → Counted β} {a : α} {m : Nat} (h : x.res = .ok a) (hf : m ≤ (f a).steps) :
    m ≤ (x >>= f).steps := by
  obtain ⟨x, n⟩ := x
  dsimp only at h
  subst h
  exact Nat.le_trans hf (Nat.le_add_left _ n)

theorem left_ge {α β : Type} {x : Counted α} {f : α → Counted β} {m : Nat} (h : m ≤ x.steps) : m ≤ (x >>= f).steps := by
  obtain ⟨x, n⟩ := x
  cases x with
  | ok a => exact Nat.le_trans h (Nat.le_add_right n _)
  | error e => exact h

theorem tick_ge {β : Type} {f : Unit → Counted β} {n m : Nat} (hf : m ≤ (f ()).steps) : m ≤ (tick n >>= f).steps :=
  Nat.le_trans hf (Nat.le_add_left _ n)

theorem codeForSymbolC_ge (t : HuffmanTable) (s : Nat) (h : t.lengths.getD s 0 ≠ 0) : t.lengths.length + 15 ≤ (t.codeForSymbolC s).2 := by
  unfold HuffmanTable.codeForSymbolC
  rw [if_neg h]
  exact Nat.le_add_right _ _

theorem findLoopC_ge (t : HuffmanTable) (L code : Nat) (hL : 1 ≤ L) (ss : List Nat) (h : (t.findLoopC L code ss).1 = none) :
    ss.countP (fun s => t.lengths.getD s 0 == L) * (t.lengths.length + 15) ≤ (t.findLoopC L code ss).2 := by
  induction ss with
  | nil => exact Nat.le_of_eq (Nat.zero_mul _)
  | cons s ss ih =>
    unfold HuffmanTable.findLoopC at h ⊢
    rw [List.countP_cons]
    by_cases hs : (t.lengths.getD s 0 == L) = true
    · have hc := codeForSymbolC_ge t s (by simp only [beq_iff_eq] at hs; omega)
      rw [if_pos hs] at h ⊢
      rw [if_pos hs]
      dsimp only at h ⊢
      by_cases he : (code == (t.codeForSymbolC s).1) = true
      · rw [if_pos he] at h
        cases h
      · rw [if_neg he] at h ⊢
        have := ih h
        rw [Nat.add_mul, Nat.one_mul]
        dsimp only
        omega
    · rw [if_neg hs] at h ⊢
      rw [if_neg hs]
      have := ih h
      rw [Nat.add_zero (List.countP _ ss)]
      dsimp only
      omega

/-- How many symbols have codes of at least `L` bits that are shorter than that of `s`. -/
def shorterFrom (t : HuffmanTable) (L s : Nat) : Nat :=
  (List.range t.lengths.length).countP (fun i => decide (L ≤ t.lengths.getD i 0 ∧ t.lengths.getD i 0 < t.lengths.getD s 0))

theorem decodeSlowLoopC_ge (t : HuffmanTable) (rounds L code : Nat) (hL : 1 ≤ L) (r : BitReader) {s : Nat} {r' : BitReader}
    (h : (t.decodeSlowLoopC rounds L code r).res = .ok (s, r')) :
    L ≤ t.lengths.getD s 0 ∧ shorterFrom t L s * (t.lengths.length + 15) ≤ (t.decodeSlowLoopC rounds L code r).steps := by
  induction rounds generalizing L code r with
  | zero => cases h
  | succ n ih =>
    unfold HuffmanTable.decodeSlowLoopC at h ⊢
    generalize r.readBits 1 = x at h ⊢
    rcases x with e | ⟨bit, r1⟩
    · cases h
    · rw [free_steps]
      rw [show ∀ f : Nat × BitReader → Counted (Nat × BitReader), (free (.ok (bit, r1)) >>= f).res = (f (bit, r1)).res from fun _ => rfl] at h
      dsimp only at h ⊢
      rw [tick_same] at h
      rw [tick_steps]
      have hg := findLoopC_ge t L (code <<< 1 ||| bit) hL (List.range t.lengths.length)
      have hsame := findLoopC_same t L (code <<< 1 ||| bit) (List.range t.lengths.length)
      generalize t.findLoopC L (code <<< 1 ||| bit) (List.range t.lengths.length) = p at *
      obtain ⟨o, c⟩ := p
      dsimp only at h hg hsame ⊢
      cases o with
      | some s' =>
        have hp := List.find?_some hsame.symm
        injection h with h
        injection h with h1 _
        subst h1
        simp only [Bool.and_eq_true, beq_iff_eq] at hp
        refine ⟨by omega, ?_⟩
        have : shorterFrom t L s' = 0 := by
          unfold shorterFrom
          rw [List.countP_eq_zero]
          intro i _
          simp only [decide_eq_true_eq]
          omega
        rw [this, Nat.zero_mul]
        exact Nat.zero_le _
      | none =>
        obtain ⟨i1, i2⟩ := ih (L + 1) (code <<< 1 ||| bit) (by omega) r1 h
        refine ⟨by omega, ?_⟩
        have split : shorterFrom t L s = (List.range t.lengths.length).countP (fun s => t.lengths.getD s 0 == L) + shorterFrom t (L + 1) s := by
          unfold shorterFrom
          generalize t.lengths.getD s 0 = m at i1
          induction List.range t.lengths.length with
          | nil => rfl
          | cons i ss ihs =>
            rw [List.countP_cons, List.countP_cons, List.countP_cons, ihs]
            generalize t.lengths.getD i 0 = l
            by_cases h1 : l = L
            · rw [if_pos (by simp; omega), if_pos (by simp [h1]), if_neg (by simp; omega)]; omega
            · by_cases h2 : L ≤ l ∧ l < m
              · rw [if_pos (by simp; omega), if_neg (by simp [h1]), if_pos (by simp; omega)]; omega
              · rw [if_neg (by simp; omega), if_neg (by simp [h1]), if_neg (by simp; omega)]; omega
        have := hg rfl
        rw [split, Nat.add_mul]
        dsimp only at this ⊢
        omega

/-- A symbol with a code of more than nine bits: for every symbol with a shorter code, the codes of all symbols are worked out again. -/
theorem decodeC_ge {t : HuffmanTable} {lens : List Nat} (ht : TableOf t lens) (hn : lens.length ≤ 4096) (r : BitReader) (hr : r.Inv) {s : Nat}
    {r' : BitReader} (h : (t.decodeC r).res = .ok (s, r')) (h9 : 9 < len lens s) :
    shorterFrom t 1 s * (lens.length + 15) ≤ (t.decodeC r).steps := by
  unfold HuffmanTable.decodeC at h ⊢
  rw [tick_same] at h
  refine tick_ge ?_
  by_cases hm : t.maxLen = 0
  · rw [if_pos hm] at h; cases h
  rw [if_neg hm] at h ⊢
  obtain ⟨r1, e1, i1, b1, d1, n1⟩ := r.tryPeek_spec hr lookupBits (by decide)
  simp only [e1] at h ⊢
  have hidx512 : ofBitsLSB (r.bits.take lookupBits) < 512 := by
    have h1 := ofBitsLSB_lt (r.bits.take lookupBits)
    rw [List.length_take, Nat.min_comm] at h1
    have : (2:Nat) ^ min r.bits.length lookupBits ≤ 2 ^ 9 :=
      Nat.pow_le_pow_right (by decide) (by unfold lookupBits; omega)
    omega
  have hlk : t.lookup[ofBitsLSB (r.bits.take lookupBits)]? =
      some (t.lookup.getD (ofBitsLSB (r.bits.take lookupBits)) 0) := by
    rw [List.getD_eq_getElem?_getD, List.getElem?_eq_getElem (by rw [ht.size]; exact hidx512)]; rfl
  have slow : (t.decodeSlowC r1).res = .ok (s, r') → shorterFrom t 1 s * (lens.length + 15) ≤ (t.decodeSlowC r1).steps := by
    intro h
    have := (decodeSlowLoopC_ge t t.maxLen 1 0 (Nat.le_refl _) r1 h).2
    rwa [ht.lengths] at this
  have hit : ∀ a, (if (t.lookup.getD (ofBitsLSB (r.bits.take lookupBits)) 0) >>> 12 > 0 ∧
        (t.lookup.getD (ofBitsLSB (r.bits.take lookupBits)) 0) >>> 12 ≤ a then
      (do
        let r' ← free (r1.consume ((t.lookup.getD (ofBitsLSB (r.bits.take lookupBits)) 0) >>> 12))
        return ((t.lookup.getD (ofBitsLSB (r.bits.take lookupBits)) 0) &&& 0xFFF, r') : Counted (Nat × BitReader))
      else t.decodeSlowC r1).res = .ok (s, r') →
      shorterFrom t 1 s * (lens.length + 15) ≤ (if (t.lookup.getD (ofBitsLSB (r.bits.take lookupBits)) 0) >>> 12 > 0 ∧
        (t.lookup.getD (ofBitsLSB (r.bits.take lookupBits)) 0) >>> 12 ≤ a then
      (do
        let r' ← free (r1.consume ((t.lookup.getD (ofBitsLSB (r.bits.take lookupBits)) 0) >>> 12))
        return ((t.lookup.getD (ofBitsLSB (r.bits.take lookupBits)) 0) &&& 0xFFF, r') : Counted (Nat × BitReader))
      else t.decodeSlowC r1).steps := by
    intro a ha
    split at ha
    · -- found in the table: its code has at most nine bits
      rename_i hpos
      exfalso
      rcases ht.entry _ hidx512 with ⟨g1, _⟩ | ⟨i, g1, g2⟩
      · rw [g1] at hpos
        simp at hpos
      · have hil := lt_length_of_len g1.1
        obtain ⟨s1, s2⟩ := entry_split i (len lens i) (by omega)
        rw [g2, s2] at ha
        generalize r1.consume _ = x at ha
        rcases x with e | r2
        · cases ha
        · injection ha with ha
          injection ha with ha _
          subst ha
          have := g1.2.1
          omega
    · rename_i hneg
      rw [if_neg hneg]
      exact slow ha
  by_cases hq : min r.bits.length lookupBits ≥ lookupBits
  · rw [if_pos hq, hlk] at h ⊢
    exact hit lookupBits h
  · rw [if_neg hq] at h ⊢
    by_cases h0 : min r.bits.length lookupBits > 0
    · rw [if_pos h0, hlk] at h ⊢
      exact hit _ h
    · rw [if_neg h0] at h ⊢
      exact slow h

/-- A symbol with a code of at most nine bits is found in the lookup table. -/
theorem decodeC_short {t : HuffmanTable} {lens : List Nat} (ht : TableOf t lens) (hn : lens.length ≤ 4096) (h : CodeOK lens) {s : Nat}
    (hs : len lens s ≠ 0) (h9 : len lens s ≤ 9) (r : BitReader) (hr : r.Inv) (rest : List Bool) (hb : r.bits = codeword lens s ++ rest) :
    (t.decodeC r).steps = 1 := by
  have hmax : len lens s ≤ t.maxLen := len_le_of_all ht.max s
  unfold HuffmanTable.decodeC
  rw [tick_steps, if_neg (by omega)]
  obtain ⟨r1, e1, i1, b1, d1, n1⟩ := r.tryPeek_spec hr lookupBits (by decide)
  simp only [e1]
  have hidx512 : ofBitsLSB (r.bits.take lookupBits) < 512 := by
    have h1 := ofBitsLSB_lt (r.bits.take lookupBits)
    rw [List.length_take, Nat.min_comm] at h1
    have : (2:Nat) ^ min r.bits.length lookupBits ≤ 2 ^ 9 :=
      Nat.pow_le_pow_right (by decide) (by unfold lookupBits; omega)
    omega
  have hlb : lookupBits = 9 := rfl
  have hlong : len lens s ≤ r.bits.length := by
    rw [hb, List.length_append, codeword_length]
    omega
  have hpre : ∀ k, k ≤ min r.bits.length lookupBits →
      bitsLSB (ofBitsLSB (r.bits.take lookupBits)) k = r.bits.take k := by
    intro k hk
    have h1 := bitsLSB_ofBitsLSB (r.bits.take lookupBits)
    have h2 : (r.bits.take lookupBits).length = k + (min r.bits.length lookupBits - k) := by
      rw [List.length_take]; omega
    rw [h2, bitsLSB_add] at h1
    have h3 := congrArg (List.take k) h1
    rw [List.take_append_of_le_length (by simp), List.take_of_length_le (by simp), List.take_take,
      show min k lookupBits = k by omega] at h3
    exact h3
  have hcs : codeword lens s = bitsLSB (ofBitsLSB (r.bits.take lookupBits)) (len lens s) := by
    rw [hpre _ (by omega), hb, List.take_append_of_le_length (by rw [codeword_length]; exact Nat.le_refl _),
      List.take_of_length_le (by rw [codeword_length]; exact Nat.le_refl _)]
  have hms := matches_of_codeword h hs h9 hcs
  have hlk : t.lookup[ofBitsLSB (r.bits.take lookupBits)]? =
      some (t.lookup.getD (ofBitsLSB (r.bits.take lookupBits)) 0) := by
    rw [List.getD_eq_getElem?_getD, List.getElem?_eq_getElem (by rw [ht.size]; exact hidx512)]; rfl
  have hent : t.lookup.getD (ofBitsLSB (r.bits.take lookupBits)) 0 >>> 12 = len lens s := by
    rcases ht.entry _ hidx512 with ⟨_, g⟩ | ⟨i, g1, g2⟩
    · exact absurd hms (g (by omega) s)
    · have hil := lt_length_of_len g1.1
      obtain ⟨s1, _⟩ := entry_split i (len lens i) (by omega)
      have c1 := codeword_of_matches h g1
      have his : i = s := by
        by_cases hle : len lens i ≤ len lens s
        · apply codeword_prefix_free h g1.1 hs
          rw [c1, hcs]
          rw [show len lens s = len lens i + (len lens s - len lens i) by omega, bitsLSB_add]
          exact List.prefix_append _ _
        · refine (codeword_prefix_free h hs g1.1 ?_).symm
          rw [c1, hcs]
          rw [show len lens i = len lens s + (len lens i - len lens s) by omega, bitsLSB_add]
          exact List.prefix_append _ _
      rw [g2, s1, his]
  have quick : ∀ a, len lens s ≤ a → 1 + (if (t.lookup.getD (ofBitsLSB (r.bits.take lookupBits)) 0) >>> 12 > 0 ∧
        (t.lookup.getD (ofBitsLSB (r.bits.take lookupBits)) 0) >>> 12 ≤ a then
      (do
        let r' ← free (r1.consume ((t.lookup.getD (ofBitsLSB (r.bits.take lookupBits)) 0) >>> 12))
        return ((t.lookup.getD (ofBitsLSB (r.bits.take lookupBits)) 0) &&& 0xFFF, r') : Counted (Nat × BitReader))
      else t.decodeSlowC r1).steps = 1 := by
    intro a ha
    rw [if_pos (by rw [hent]; omega)]
    cases r1.consume _ <;> rfl
  by_cases hq : min r.bits.length lookupBits ≥ lookupBits
  · rw [if_pos hq, hlk]
    exact quick _ (by omega)
  · rw [if_neg hq]
    rw [if_pos (by omega), hlk]
    exact quick _ (by omega)

/-- A run of one literal at the beginning of a block. -/
theorem inflateBlockC_ge {lit : List Nat} {tl td : HuffmanTable} (hlit : CodeOK lit) (hl : TableOf tl lit) (hln : lit.length ≤ 4096) (b : UInt8)
    (h0 : len lit b.toNat ≠ 0) (c : Nat) (hc : ∀ r r', r.Inv → (tl.decodeC r).res = .ok (b.toNat, r') → c ≤ (tl.decodeC r).steps) (k : Nat) :
    ∀ (fuel : Nat) (r : BitReader) (out : List UInt8) (rest : List Bool), k ≤ fuel → r.Inv →
      r.bits = (List.replicate k (codeword lit b.toNat)).flatten ++ rest → k * c ≤ (inflateBlockC fuel r out tl td).steps := by
  induction k with
  | zero =>
    intro fuel r out rest _ _ _
    rw [Nat.zero_mul]
    exact Nat.zero_le _
  | succ k ih =>
    intro fuel r out rest hf hr hb
    obtain ⟨f, rfl⟩ : ∃ f, fuel = f + 1 := ⟨fuel - 1, by omega⟩
    rw [List.replicate_succ, List.flatten_cons, List.append_assoc] at hb
    obtain ⟨r1, e1, i1, b1, d1⟩ := decode_spec hl hln hlit h0 r hr _ hb
    rw [← decodeC_same] at e1
    have hi := ih f r1 (out ++ [UInt8.ofNat b.toNat]) rest (by omega) i1 b1
    have hd := hc r r1 hr e1
    unfold inflateBlockC
    generalize tl.decodeC r = x at *
    obtain ⟨x, n⟩ := x
    dsimp only at e1
    subst e1
    show _ ≤ n + (blockStepC (fun r output => inflateBlockC f r output tl td) b.toNat r1 out td).steps
    unfold blockStepC
    rw [if_pos (by have := UInt8.toNat_lt b; omega), Nat.add_mul, Nat.one_mul]
    dsimp only at hd ⊢
    omega

/-- A run of one literal at the beginning of compressed data whose first block has a code of its own. -/
theorem inflateC_ge {header : List Bool} {lit dist : List Nat} (hh : DynamicHeader false header lit dist) (b : UInt8) (h9 : 9 < len lit b.toNat)
    (k : Nat) (data : List UInt8) (rest : List Bool)
    (hb : bytesLSB data = true :: (header ++ ((List.replicate k (codeword lit b.toNat)).flatten ++ rest))) :
    k * ((List.range lit.length).countP (fun i => decide (1 ≤ len lit i ∧ len lit i < len lit b.toNat)) * (lit.length + 15)) ≤
      (inflateC data).steps := by
  obtain ⟨hlit, hdist, hclen, cl, clbits, h1, h2, h3, h4, h5, h6, h7, h8, h9', h10, h11, h12, rfl⟩ := hh
  simp only [Bool.false_eq_true, if_false, clCodeOK, dataCodeOK] at h2 h5 h11 h12
  simp only [List.append_assoc] at hb
  unfold inflateC inflateLoopC
  refine tick_ge ?_
  have hr : (⟨data, 0, 0, 0⟩ : BitReader).Inv := BitReader.inv_new data
  have hbits : (⟨data, 0, 0, 0⟩ : BitReader).bits = bytesLSB data := BitReader.bits_new data
  generalize (⟨data, 0, 0, 0⟩ : BitReader) = r0 at hr hbits
  rw [hb, show ([false, true] : List Bool) = bitsLSB 2 2 by rfl] at hbits
  obtain ⟨ra, ea, ia, ba, da⟩ := r0.readBits_field hr 1 1 _ (by decide) (by decide) (show r0.bits = bitsLSB 1 1 ++ _ from hbits)
  obtain ⟨r1, e1, i1, b1, d1⟩ := ra.readBits_field ia 2 2 _ (by decide) (by decide) ba
  obtain ⟨r2, e2, i2, b2, d2⟩ := r1.readBits_field i1 5 hlit _ (by decide) (by omega) b1
  obtain ⟨r3, e3, i3, b3, d3⟩ := r2.readBits_field i2 5 hdist _ (by decide) (by omega) b2
  obtain ⟨r4, e4, i4, b4, d4⟩ := r3.readBits_field i3 4 hclen _ (by decide) (by omega) b3
  obtain ⟨r5, e5, i5, b5, d5⟩ := readCl_spec cl h6 h4 (hclen + 4) h7 r4 i4 _ b4
  obtain ⟨tc, f1, hc⟩ := fromLengths_ok cl h5.1
  have hall : (lit ++ dist).length = hlit + 257 + (hdist + 1) := by
    rw [List.length_append, h8, h9']
  obtain ⟨r6, e6, i6, b6, d6⟩ := readLengths_spec h5 hc (by omega) h10
    (hlit + 257 + (hdist + 1) + 1) r5 _ (by rw [hall]; omega) i5 b5
  rw [hall] at e6
  obtain ⟨tl, f2, hl⟩ := fromLengths_ok lit h11.1
  obtain ⟨td, f3, hd⟩ := fromLengths_ok dist h12.1
  obtain ⟨q1, q2⟩ := take_append_of_length (b := dist) h8
  refine bind_ge (a := (1, ra)) ea ?_
  refine bind_ge (a := (2, r1)) e1 ?_
  refine left_ge ?_
  show _ ≤ (inflateDynamicC r1 []).steps
  unfold inflateDynamicC
  refine bind_ge (a := (hlit, r2)) e2 ?_
  refine bind_ge (a := (hdist, r3)) e3 ?_
  refine bind_ge (a := (hclen, r4)) e4 ?_
  refine bind_ge (a := (cl, r5)) (by rw [readClLengthsC_same]; exact e5) ?_
  refine bind_ge (a := tc) (by rw [fromLengthsC_same]; exact f1) ?_
  refine tick_ge ?_
  refine bind_ge (a := (lit ++ dist, r6)) (by rw [readLengthsC_same]; exact e6) ?_
  refine bind_ge (a := tl) (by rw [fromLengthsC_same, q1]; exact f2) ?_
  refine bind_ge (a := td) (by rw [fromLengthsC_same, q2]; exact f3) ?_
  refine inflateBlockC_ge h11 hl (by omega) b (by omega) _ ?_ k (BitReader.left r6 + 1) r6 [] rest ?_ i6 b6
  · intro r r' hr h
    have h := decodeC_ge hl (by omega) r hr h h9
    unfold shorterFrom at h
    rw [hl.lengths] at h
    exact h
  · rw [left_eq, b6, List.length_append, List.length_flatten, List.map_replicate, List.sum_replicate_nat, codeword_length]
    have := Nat.le_mul_of_pos_right k (show 0 < len lit b.toNat by omega)
    omega

end Pixo.Inflate
