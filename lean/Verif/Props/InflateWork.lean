import Verif.Proof.InflateSlow
/-
C111: how much work it is to decompress.
-/
namespace Pixo.Props
open Pixo Pixo.Inflate Spec Spec.Rfc1951 Spec.BlockCost

/-- Whatever the data, valid or not, the number of steps `inflate` takes, and so the time, is at most proportional to the length of the data:
175,000 for each bit. (The counted functions give the results of the ones they count for.) -/
theorem C111 (data : List UInt8) :
    (inflateC data).res = inflate data ∧ (inflateC data).steps ≤ 175000 * (8 * data.length + 1) :=
  ⟨inflateC_same data, inflateC_steps data⟩

theorem codeForLoopC_rounds : ∀ (ls : List Nat) (sym : Nat) (next : Nat → Nat) (k : Nat), ls.getD k 0 ≠ 0 →
    (codeForLoopC ls sym next (sym + k)).2 = k + 1
  | [], _, _, k, h => by simp at h
  | l :: ls, sym, next, 0, h => by
    rw [List.getD_cons_zero] at h
    rw [codeForLoopC, if_pos (by omega), if_pos (by omega)]
  | l :: ls, sym, next, k + 1, h => by
    rw [List.getD_cons_succ] at h
    rw [codeForLoopC]
    have e : sym + (k + 1) = sym + 1 + k := by omega
    split
    · rw [if_neg (by omega), e]
      simp only
      rw [codeForLoopC_rounds ls _ _ k h]
      omega
    · rw [e]
      simp only
      rw [codeForLoopC_rounds ls _ _ k h]
      omega

/-- C111: how long it takes to work out the code of a symbol that has one: a step for each symbol, 15, and one for each symbol up to it. -/
theorem C111_rounds (t : HuffmanTable) (symbol : Nat) (h : t.lengths.getD symbol 0 ≠ 0) :
    (t.codeForSymbolC symbol).2 = t.lengths.length + 15 + (symbol + 1) := by
  unfold HuffmanTable.codeForSymbolC
  rw [if_neg h]
  have := codeForLoopC_rounds t.lengths 0 (nextCode t.lengths) symbol h
  rw [Nat.zero_add] at this
  simp only
  rw [this]

example : (HuffmanTable.codeForSymbolC ⟨[], [0, 2, 2, 1], 2⟩ 2).2 = 4 + 15 + 3 := by decide

/-- A symbol with a code of at most nine bits takes one step. -/
theorem C111_short {lens : List Nat} {t : HuffmanTable} (ht : HuffmanTable.fromLengths lens = .ok t) (hn : lens.length ≤ 288) (h : CodeOK lens)
    {s : Nat} (hs : len lens s ≠ 0) (h9 : len lens s ≤ 9) (r : BitReader) (hr : r.Inv) (rest : List Bool)
    (hb : r.bits = codeword lens s ++ rest) :
    (∃ r', (t.decodeC r).res = .ok (s, r') ∧ r'.bits = rest) ∧ (t.decodeC r).steps = 1 := by
  have htab := (fromLengths_safe lens).of_ok ht
  obtain ⟨r', e, _, b, _⟩ := decode_spec htab (by omega) h hs r hr rest hb
  exact ⟨⟨r', by rw [decodeC_same]; exact e, b⟩, decodeC_short htab (by omega) h hs h9 r hr rest hb⟩

/-- A symbol with a longer code takes `n + 15` steps for each symbol with a shorter code, where `n` is the number of all symbols; for a table
of `n` symbols never more than `2 n² + 30 n + 1`. -/
theorem C111_long {lens : List Nat} {t : HuffmanTable} (ht : HuffmanTable.fromLengths lens = .ok t) (hn : lens.length ≤ 288) (h : CodeOK lens)
    {s : Nat} (h9 : 9 < len lens s) (r : BitReader) (hr : r.Inv) (rest : List Bool) (hb : r.bits = codeword lens s ++ rest) :
    (∃ r', (t.decodeC r).res = .ok (s, r') ∧ r'.bits = rest) ∧
    (List.range lens.length).countP (fun i => decide (1 ≤ len lens i ∧ len lens i < len lens s)) * (lens.length + 15) ≤ (t.decodeC r).steps ∧
    (t.decodeC r).steps ≤ 2 * lens.length ^ 2 + 30 * lens.length + 1 := by
  have htab := (fromLengths_safe lens).of_ok ht
  obtain ⟨r', e, _, b, _⟩ := decode_spec htab (by omega) h (by omega) r hr rest hb
  rw [← decodeC_same] at e
  refine ⟨⟨r', e, b⟩, ?_, ?_⟩
  · have := decodeC_ge htab (by omega) r hr e h9
    unfold shorterFrom at this
    rw [htab.lengths] at this
    exact this
  · have := decodeC_steps htab r
    unfold symbolSteps at this
    rw [Nat.mul_add, show lens.length * (2 * lens.length) = 2 * lens.length ^ 2 by rw [Nat.pow_two, Nat.mul_left_comm]] at this
    omega

/-! ### Data that takes long -/

/-- A complete code for 286 literals and lengths: zero is one of two symbols with a code of fifteen bits. -/
def longLit : List Nat := [15, 15, 14, 13, 12, 11, 10] ++ List.replicate 232 8 ++ List.replicate 47 9

/-- A complete code for the lengths of that code. -/
def longCl : List Nat := [0, 4, 0, 0, 0, 0, 0, 0, 1, 2, 5, 5, 5, 5, 5, 5, 0, 0, 0]

theorem clSeq_ones {cl : List Nat} (pre ls : List Nat) (h : ∀ k ∈ ls, k ≤ 15 ∧ len cl k ≠ 0) :
    ClSeq cl pre (ls.flatMap (codeword cl)) (pre ++ ls) := by
  induction ls generalizing pre with
  | nil =>
    rw [List.append_nil]
    exact ClSeq.done pre
  | cons k ls ih =>
    obtain ⟨h1, h2⟩ := h k (by simp)
    have := ih (pre ++ [k]) (fun k hk => h k (by simp [hk]))
    rw [List.append_assoc, List.singleton_append] at this
    exact ClSeq.one k h1 h2 this

/-- The header which announces it. -/
def longHeader : List Bool :=
  [false, true] ++ bitsLSB 29 5 ++ bitsLSB 0 5 ++ bitsLSB 15 4 ++ clHeader longCl (15 + 4) ++ (longLit ++ [1]).flatMap (codeword longCl)

theorem longHeader_ok (strict : Bool) : DynamicHeader strict longHeader longLit [1] := by
  refine ⟨29, 0, 15, longCl, _, by decide, by cases strict <;> decide, by decide, rfl, ?_, by decide, by decide, by decide +kernel, rfl,
    clSeq_ones [] _ (by decide +kernel), ?_, ?_, rfl⟩
  · cases strict
    · exact ⟨by decide, by decide +kernel⟩
    · exact ⟨⟨by decide, by decide +kernel⟩, by decide⟩
  · cases strict
    · exact ⟨by decide +kernel, by decide +kernel⟩
    · exact Or.inl ⟨by decide +kernel, by decide +kernel⟩
  · cases strict
    · exact ⟨by decide, by decide +kernel⟩
    · exact Or.inr rfl

/-- `k` zero bytes with that code. -/
def longBody (k : Nat) : List Bool := (List.replicate k (codeword longLit 0)).flatten ++ codeword longLit 256

theorem longBody_ok (k : Nat) : Body longLit [1] (longBody k) (List.replicate k (.lit 0)) := by
  induction k with
  | zero => exact Body.eob (by decide +kernel)
  | succ k ih =>
    unfold longBody at ih ⊢
    rw [List.replicate_succ, List.flatten_cons, List.append_assoc, List.replicate_succ]
    exact Body.lit 0 (by decide +kernel) ih

theorem expandFrom_zeros (k : Nat) (out : List UInt8) : expandFrom out (List.replicate k (.lit 0)) = some (out ++ List.replicate k 0) := by
  induction k generalizing out with
  | zero => simp [expandFrom]
  | succ k ih =>
    rw [List.replicate_succ, expandFrom, ih, List.replicate_succ]
    simp

/-- Any bits are those of some bytes, but for the padding. -/
theorem bytes_with_bits (m : Nat) (bits : List Bool) (h : bits.length = 8 * m) : ∃ bytes, bytesLSB bytes = bits ∧ bytes.length = m := by
  induction m generalizing bits with
  | zero => exact ⟨[], by rw [List.length_eq_zero_iff.1 (by omega : bits.length = 0)]; rfl, rfl⟩
  | succ m ih =>
    obtain ⟨bytes, h1, h2⟩ := ih (bits.drop 8) (by rw [List.length_drop]; omega)
    refine ⟨UInt8.ofNat (ofBitsLSB (bits.take 8)) :: bytes, ?_, by rw [List.length_cons, h2]⟩
    have h8 : (bits.take 8).length = 8 := by rw [List.length_take]; omega
    have := bitsLSB_ofBitsLSB (bits.take 8)
    rw [h8] at this
    rw [bytesLSB_cons, h1, bitsLSB_ofNat, this, List.take_append_drop]

/-- How large the number of steps can be: for every `k` there are data of at most `2 k + 57` bytes, valid also for zlib, for `k` bytes, which
take more than 85,484 steps for each byte: over 42,000 for each byte of the compressed data. -/
theorem C111_slow (k : Nat) : ∃ data : List UInt8, data.length ≤ 2 * k + 57 ∧ Encodes true data (List.replicate k 0) ∧
    (inflateC data).res = .ok (List.replicate k 0) ∧ 85484 * k ≤ (inflateC data).steps := by
  have hlen : (true :: (longHeader ++ longBody k)).length = 448 + 15 * k := by
    have h1 : longHeader.length = 438 := by decide +kernel
    have h2 : len longLit 0 = 15 := by decide +kernel
    have h3 : len longLit 256 = 9 := by decide +kernel
    rw [List.length_cons, List.length_append, h1]
    unfold longBody
    rw [List.length_append, List.length_flatten, List.map_replicate, List.sum_replicate_nat, codeword_length, codeword_length, h2, h3]
    omega
  obtain ⟨data, hb, hl⟩ := bytes_with_bits ((448 + 15 * k + 7) / 8)
    (true :: (longHeader ++ longBody k) ++ List.replicate (8 * ((448 + 15 * k + 7) / 8) - (448 + 15 * k)) false)
    (by rw [List.length_append, hlen, List.length_replicate]; omega)
  have henc : ∀ strict, Stream strict 0 (true :: (longHeader ++ longBody k)) (List.replicate k (.lit 0)) := fun strict =>
    Stream.last ((longHeader_ok strict).block (longBody_ok k) 1)
  have hexp : expand (List.replicate k (.lit 0)) = some (List.replicate k 0) := by
    unfold expand
    rw [expandFrom_zeros]
    rfl
  refine ⟨data, by rw [hl]; omega, ⟨_, _, _, hb, by rw [List.length_replicate]; omega, henc true, hexp⟩, ?_, ?_⟩
  · rw [inflateC_same]
    exact inflate_spec ⟨_, _, _, hb, henc false, hexp⟩
  · have hcount : (List.range longLit.length).countP (fun i => decide (1 ≤ len longLit i ∧ len longLit i < len longLit (0 : UInt8).toNat)) *
        (longLit.length + 15) = 85484 := by decide +kernel
    have := inflateC_ge (longHeader_ok false) 0 (by decide +kernel) k data
      (codeword longLit 256 ++ List.replicate (8 * ((448 + 15 * k + 7) / 8) - (448 + 15 * k)) false) (by
        rw [hb]
        unfold longBody
        simp only [List.cons_append, List.append_assoc]
        rfl)
    rw [hcount] at this
    omega

/-- Two kilobytes for which over 85 million steps are taken. -/
example : ∃ data : List UInt8, data.length ≤ 2057 ∧ 85484000 ≤ (inflateC data).steps := by
  obtain ⟨data, h1, _, _, h2⟩ := C111_slow 1000
  exact ⟨data, by omega, by omega⟩

/-- A table with a long and a short code, as in `C111_short` and `C111_long`. -/
example : ∃ t, HuffmanTable.fromLengths longLit = .ok t ∧ CodeOK longLit ∧ len longLit 0 = 15 ∧ len longLit 7 = 8 := by
  have h : CodeOK longLit := ⟨by decide +kernel, by decide +kernel⟩
  obtain ⟨t, e, _⟩ := fromLengths_ok longLit h.1
  exact ⟨t, e, h, by decide +kernel, by decide +kernel⟩

/-- A stored block with one byte. -/
example : (inflateC [1, 1, 0, 254, 255, 97]).res = .ok [97] ∧ (inflateC [1, 1, 0, 254, 255, 97]).steps = 3 := by decide +kernel

end Pixo.Props
