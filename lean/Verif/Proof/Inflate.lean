import Verif.Proof.InflateTable
/-
`inflate` decodes every RFC 1951 stream, and is total.
-/
namespace Pixo.Inflate
open Spec Spec.Rfc1951

/-! ### Copies -/

theorem copyLoop_spec (start d : Nat) (hd : 1 ≤ d) (n i : Nat) (out : List UInt8)
    (hl : out.length = start + d + i)
    (hper : ∀ j, j < d + i → out[start + j]? = out[start + j % d]?) :
    ∃ o, copyLoop start d n i out = .ok o ∧ copyBytes n d out = some o ∧
      o.length = out.length + n := by
  induction n generalizing i out with
  | zero => exact ⟨out, rfl, rfl, rfl⟩
  | succ n ih =>
    have hmod : i % d < d := Nat.mod_lt _ hd
    have hlt : start + i < out.length := by omega
    have hsrc : out[start + i % d]? = some out[start + i] := by
      rw [← hper i (by omega), List.getElem?_eq_getElem hlt]
    unfold copyLoop copyBytes
    rw [if_neg (by omega), if_pos ⟨hd, by omega⟩, hsrc,
      show out.length - d = start + i by omega, List.getElem?_eq_getElem hlt]
    simp only
    obtain ⟨o, h1, h2, h3⟩ := ih (i + 1) (out ++ [out[start + i]]) (by simp; omega) (by
      intro j hj
      have hjd : j % d < d := Nat.mod_lt _ hd
      by_cases hji : j < d + i
      · rw [List.getElem?_append_left (by omega), List.getElem?_append_left (by omega)]
        exact hper j hji
      · have hj' : j = d + i := by omega
        subst hj'
        rw [List.getElem?_append_right (by omega), List.getElem?_append_left (by omega)]
        rw [show start + (d + i) - out.length = 0 by omega, Nat.add_mod_left, hsrc]
        rfl)
    exact ⟨o, h1, h2, by rw [h3]; simp; omega⟩

theorem copyLoop_start (d : Nat) (hd : 1 ≤ d) (n : Nat) (out : List UInt8) (hle : d ≤ out.length) :
    ∃ o, copyLoop (out.length - d) d n 0 out = .ok o ∧ copyBytes n d out = some o ∧
      o.length = out.length + n := by
  apply copyLoop_spec _ _ hd _ _ _ (by omega)
  intro j hj
  rw [Nat.mod_eq_of_lt (by omega)]

/-! ### Tables -/

theorem lengthTable_fin : ∀ i : Fin 29,
    lengthBase[i.val]? = some (lengthTable.getD i.val (0, 0)).1 ∧
      lengthExtra[i.val]? = some (lengthTable.getD i.val (0, 0)).2 ∧
      (lengthTable.getD i.val (0, 0)).2 ≤ 5 ∧ 3 ≤ (lengthTable.getD i.val (0, 0)).1 ∧
      (lengthTable.getD i.val (0, 0)).1 + 2 ^ (lengthTable.getD i.val (0, 0)).2 ≤ 259 := by decide

theorem distTable_fin : ∀ i : Fin 30,
    distanceBase[i.val]? = some (distTable.getD i.val (0, 0)).1 ∧
      distanceExtra[i.val]? = some (distTable.getD i.val (0, 0)).2 ∧
      (distTable.getD i.val (0, 0)).2 ≤ 13 ∧ 1 ≤ (distTable.getD i.val (0, 0)).1 := by decide

theorem lengthTable_get {i lb lx : Nat} (h : lengthTable[i]? = some (lb, lx)) :
    i < 29 ∧ lengthBase[i]? = some lb ∧ lengthExtra[i]? = some lx ∧ lx ≤ 5 ∧ 3 ≤ lb ∧
      lb + 2 ^ lx ≤ 259 := by
  have hi := (List.getElem?_eq_some_iff.mp h).1
  have he : lengthTable.getD i (0, 0) = (lb, lx) := by rw [List.getD_eq_getElem?_getD, h]; rfl
  have := lengthTable_fin ⟨i, hi⟩
  simp only at this
  rw [he] at this
  exact ⟨hi, this⟩

theorem distTable_get {i lb lx : Nat} (h : distTable[i]? = some (lb, lx)) :
    i < 30 ∧ distanceBase[i]? = some lb ∧ distanceExtra[i]? = some lx ∧ lx ≤ 13 ∧ 1 ≤ lb := by
  have hi := (List.getElem?_eq_some_iff.mp h).1
  have he : distTable.getD i (0, 0) = (lb, lx) := by rw [List.getD_eq_getElem?_getD, h]; rfl
  have := distTable_fin ⟨i, hi⟩
  simp only at this
  rw [he] at this
  exact ⟨hi, this⟩

/-- Every index below the table size has a spec entry. -/
theorem lengthTable_some {i : Nat} (h : i < 29) : ∃ p, lengthTable[i]? = some p :=
  ⟨lengthTable[i]'h, List.getElem?_eq_getElem _⟩

theorem distTable_some {i : Nat} (h : i < 30) : ∃ p, distTable[i]? = some p :=
  ⟨distTable[i]'h, List.getElem?_eq_getElem _⟩

/-! ### Block bodies -/

theorem inflateBlock_eob {fuel : Nat} {r r1 : BitReader} {out : List UInt8} {tl td : HuffmanTable}
    (h : tl.decode r = .ok (256, r1)) : inflateBlock (fuel + 1) r out tl td = .ok (out, r1) := by
  unfold inflateBlock; rw [h]; rfl

theorem inflateBlock_lit {fuel s : Nat} {r r1 : BitReader} {out : List UInt8} {tl td : HuffmanTable}
    (h : tl.decode r = .ok (s, r1)) (hs : s ≤ 255) :
    inflateBlock (fuel + 1) r out tl td = inflateBlock fuel r1 (out ++ [UInt8.ofNat s]) tl td := by
  conv => lhs; unfold inflateBlock
  rw [h]
  simp only [bind, Except.bind, hs, if_true]

theorem inflateBlock_copy {fuel i e j f lb lx db dx : Nat} {r r1 r2 r3 r4 : BitReader}
    {out out1 : List UInt8} {tl td : HuffmanTable}
    (h1 : tl.decode r = .ok (257 + i, r1)) (hi : i < 29)
    (hlb : lengthBase[i]? = some lb) (hlx : lengthExtra[i]? = some lx)
    (h2 : r1.readBits lx = .ok (e, r2)) (h3 : td.decode r2 = .ok (j, r3)) (hj : j < 30)
    (hdb : distanceBase[j]? = some db) (hdx : distanceExtra[j]? = some dx)
    (h4 : r3.readBits dx = .ok (f, r4)) (hle : db + f ≤ out.length)
    (hc : copyLoop (out.length - (db + f)) (db + f) (lb + e) 0 out = .ok out1) :
    inflateBlock (fuel + 1) r out tl td = inflateBlock fuel r4 out1 tl td := by
  conv => lhs; unfold inflateBlock
  rw [h1]
  have g1 : ¬ (257 + i ≤ 255) := by omega
  have g2 : ¬ (257 + i = 256) := by omega
  have g3 : 257 + i ≤ 285 := by omega
  have g4 : ¬ (j ≥ 30) := by omega
  have g5 : ¬ (db + f > out.length) := by omega
  have g6 : 257 + i - 257 = i := by omega
  simp only [bind, Except.bind, g1, g2, g3, if_true, if_false, inflateMatch, getChecked, g6, hlb, hlx,
    h2, h3, g4, hdb, hdx, h4, g5, hc, pure, Except.pure]

theorem inflateBlock_spec {lit dist : List Nat} {tl td : HuffmanTable}
    (hlit : CodeOK lit) (hdist : CodeOK dist) (hl : TableOf tl lit) (hd : TableOf td dist)
    (hln : lit.length ≤ 4096) (hdn : dist.length ≤ 4096)
    {bs : List Bool} {ts : List Token} (hbody : Body lit dist bs ts) :
    ∀ (fuel : Nat) (r : BitReader) (out out' : List UInt8) (rest : List Bool),
      bs.length ≤ fuel → r.Inv → r.bits = bs ++ rest → expandFrom out ts = some out' →
      ∃ r', inflateBlock fuel r out tl td = .ok (out', r') ∧ r'.Inv ∧ r'.bits = rest ∧
        r'.data = r.data := by
  induction hbody with
  | eob h =>
    intro fuel r out out' rest hf hr hb he
    simp only [expandFrom, Option.some.injEq] at he
    subst he
    rw [codeword_length] at hf
    obtain ⟨f, rfl⟩ : ∃ f, fuel = f + 1 := ⟨fuel - 1, by omega⟩
    obtain ⟨r1, e1, i1, b1, d1⟩ := decode_spec hl hln hlit h r hr rest hb
    exact ⟨r1, inflateBlock_eob e1, i1, b1, d1⟩
  | lit b h _ ih =>
    intro fuel r out out' rest hf hr hb he
    rw [List.length_append, codeword_length] at hf
    obtain ⟨f, rfl⟩ : ∃ f, fuel = f + 1 := ⟨fuel - 1, by omega⟩
    rw [List.append_assoc] at hb
    obtain ⟨r1, e1, i1, b1, d1⟩ := decode_spec hl hln hlit h r hr _ hb
    rw [inflateBlock_lit e1 (by have := UInt8.toNat_lt b; omega)]
    have hbb : UInt8.ofNat b.toNat = b := by simp
    rw [hbb]
    obtain ⟨r2, e2, i2, b2, d2⟩ := ih f r1 (out ++ [b]) out' rest (by omega) i1 b1
      (by simpa only [expandFrom] using he)
    exact ⟨r2, e2, i2, b2, by rw [d2, d1]⟩
  | copy i e j f h1 h2 h3 h4 h5 h6 _ ih =>
    rename_i lb lx db dx bs ts _
    intro fuel r out out' rest hf hr hb he
    simp only [List.length_append, codeword_length] at hf
    obtain ⟨fl, rfl⟩ : ∃ f, fuel = f + 1 := ⟨fuel - 1, by omega⟩
    obtain ⟨hi, hlb, hlx, hlx5, hlb3, hle⟩ := lengthTable_get h1
    obtain ⟨hj, hdb, hdx, hdx13, hdb1⟩ := distTable_get h4
    simp only [List.append_assoc] at hb
    obtain ⟨r1, e1, i1, b1, d1⟩ := decode_spec hl hln hlit h3 r hr _ hb
    obtain ⟨r2, e2, i2, b2, d2⟩ := r1.readBits_field i1 lx e _ (by omega) h2 b1
    obtain ⟨r3, e3, i3, b3, d3⟩ := decode_spec hd hdn hdist h6 r2 i2 _ b2
    obtain ⟨r4, e4, i4, b4, d4⟩ := r3.readBits_field i3 dx f _ (by omega) h5 b3
    -- the copy
    have hcopy : db + f ≤ out.length ∧ ∃ o, copyBytes (lb + e) (db + f) out = some o ∧
        expandFrom o ts = some out' := by
      simp only [expandFrom] at he
      split at he
      · rename_i o ho
        refine ⟨?_, o, ho, he⟩
        obtain ⟨m, hm⟩ : ∃ m, lb + e = m + 1 := ⟨lb + e - 1, by omega⟩
        rw [hm] at ho
        unfold copyBytes at ho
        split at ho
        · rename_i hc; exact hc.2
        · cases ho
      · cases he
    obtain ⟨hle', o, ho, he'⟩ := hcopy
    obtain ⟨o', c1, c2, c3⟩ := copyLoop_start (db + f) (by omega) (lb + e) out hle'
    rw [ho] at c2
    injection c2 with c2
    subst c2
    rw [inflateBlock_copy e1 hi hlb hlx e2 e3 hj hdb hdx e4 hle' c1]
    obtain ⟨r5, e5, i5, b5, d5⟩ := ih fl r4 o out' rest (by omega) i4 b4 he'
    exact ⟨r5, e5, i5, b5, by rw [d5, d4, d3, d2, d1]⟩

/-! ### Dynamic headers -/

theorem repeatLoop_spec (total v n : Nat) (ls : List Nat) (h : ls.length + n ≤ total) :
    repeatLoop total v n ls = .ok (ls ++ List.replicate n v) := by
  induction n generalizing ls with
  | zero => simp [repeatLoop]
  | succ n ih =>
    unfold repeatLoop
    rw [if_neg (by omega), ih _ (by simp; omega)]
    simp [List.replicate_succ]

theorem ClSeq_le {cl pre bits all} (h : ClSeq cl pre bits all) : pre.length ≤ all.length := by
  induction h with
  | done => exact Nat.le_refl _
  | one k _ _ _ ih => simp at ih; omega
  | rep e p _ _ _ _ ih => simp at ih; omega
  | zeros3 e _ _ _ ih => simp at ih; omega
  | zeros11 e _ _ _ ih => simp at ih; omega

theorem readLengths_spec {cl : List Nat} {t : HuffmanTable} (hcl : CodeOK cl) (ht : TableOf t cl)
    (hn : cl.length ≤ 4096) {pre bits all} (h : ClSeq cl pre bits all) :
    ∀ (fuel : Nat) (r : BitReader) (rest : List Bool), all.length - pre.length < fuel →
      r.Inv → r.bits = bits ++ rest →
      ∃ r', readLengths t all.length fuel pre r = .ok (all, r') ∧ r'.Inv ∧ r'.bits = rest ∧
        r'.data = r.data := by
  induction h with
  | done all =>
    intro fuel r rest hf hr hb
    obtain ⟨f, rfl⟩ : ∃ f, fuel = f + 1 := ⟨fuel - 1, by omega⟩
    unfold readLengths
    rw [if_neg (by omega)]
    exact ⟨r, rfl, hr, by simpa using hb, rfl⟩
  | one k hk h0 hc ih =>
    intro fuel r rest hf hr hb
    obtain ⟨f, rfl⟩ : ∃ f, fuel = f + 1 := ⟨fuel - 1, by omega⟩
    have hle := ClSeq_le hc
    simp only [List.length_append, List.length_singleton] at hle ih
    unfold readLengths
    rw [if_pos (by omega)]
    rw [List.append_assoc] at hb
    obtain ⟨r1, e1, i1, b1, d1⟩ := decode_spec ht hn hcl h0 r hr _ hb
    simp only [e1, bind, Except.bind]
    rw [if_pos hk]
    obtain ⟨r2, e2, i2, b2, d2⟩ := ih f r1 rest (by omega) i1 b1
    exact ⟨r2, e2, i2, b2, by rw [d2, d1]⟩
  | rep e p he h0 hp hc ih =>
    intro fuel r rest hf hr hb
    obtain ⟨f, rfl⟩ : ∃ f, fuel = f + 1 := ⟨fuel - 1, by omega⟩
    have hle := ClSeq_le hc
    simp only [List.length_append, List.length_replicate] at hle ih
    unfold readLengths
    rw [if_pos (by omega)]
    simp only [List.append_assoc] at hb
    obtain ⟨r1, e1, i1, b1, d1⟩ := decode_spec ht hn hcl h0 r hr _ hb
    obtain ⟨r2, e2, i2, b2, d2⟩ := r1.readBits_field i1 2 e _ (by decide) he b1
    simp only [e1, bind, Except.bind]
    rw [if_neg (by decide), if_pos trivial, hp]
    simp only [e2]
    rw [repeatLoop_spec _ _ _ _ (by omega), show e + 3 = 3 + e by omega]
    obtain ⟨r3, e3, i3, b3, d3⟩ := ih f r2 rest (by omega) i2 b2
    exact ⟨r3, e3, i3, b3, by rw [d3, d2, d1]⟩
  | zeros3 e he h0 hc ih =>
    intro fuel r rest hf hr hb
    obtain ⟨f, rfl⟩ : ∃ f, fuel = f + 1 := ⟨fuel - 1, by omega⟩
    have hle := ClSeq_le hc
    simp only [List.length_append, List.length_replicate] at hle ih
    unfold readLengths
    rw [if_pos (by omega)]
    simp only [List.append_assoc] at hb
    obtain ⟨r1, e1, i1, b1, d1⟩ := decode_spec ht hn hcl h0 r hr _ hb
    obtain ⟨r2, e2, i2, b2, d2⟩ := r1.readBits_field i1 3 e _ (by decide) he b1
    simp only [e1, bind, Except.bind]
    rw [if_neg (by decide), if_neg (by decide), if_pos trivial]
    simp only [e2]
    rw [repeatLoop_spec _ _ _ _ (by omega), show e + 3 = 3 + e by omega]
    obtain ⟨r3, e3, i3, b3, d3⟩ := ih f r2 rest (by omega) i2 b2
    exact ⟨r3, e3, i3, b3, by rw [d3, d2, d1]⟩
  | zeros11 e he h0 hc ih =>
    intro fuel r rest hf hr hb
    obtain ⟨f, rfl⟩ : ∃ f, fuel = f + 1 := ⟨fuel - 1, by omega⟩
    have hle := ClSeq_le hc
    simp only [List.length_append, List.length_replicate] at hle ih
    unfold readLengths
    rw [if_pos (by omega)]
    simp only [List.append_assoc] at hb
    obtain ⟨r1, e1, i1, b1, d1⟩ := decode_spec ht hn hcl h0 r hr _ hb
    obtain ⟨r2, e2, i2, b2, d2⟩ := r1.readBits_field i1 7 e _ (by decide) he b1
    simp only [e1, bind, Except.bind]
    rw [if_neg (by decide), if_neg (by decide), if_neg (by decide), if_pos trivial]
    simp only [e2]
    rw [repeatLoop_spec _ _ _ _ (by omega), show e + 11 = 11 + e by omega]
    obtain ⟨r3, e3, i3, b3, d3⟩ := ih f r2 rest (by omega) i2 b2
    exact ⟨r3, e3, i3, b3, by rw [d3, d2, d1]⟩

theorem readClLengths_spec (cl : List Nat) (hcl : ∀ l ∈ cl, l ≤ 7) (order : List Nat)
    (ho : ∀ s ∈ order, s < 19) (acc : List Nat) (hacc : acc.length = 19) (r : BitReader)
    (hr : r.Inv) (rest : List Bool)
    (hb : r.bits = order.flatMap (fun s => bitsLSB (len cl s) 3) ++ rest) :
    ∃ acc' r', readClLengths order acc r = .ok (acc', r') ∧ acc'.length = 19 ∧
      (∀ s, s < 19 → acc'.getD s 0 = if s ∈ order then len cl s else acc.getD s 0) ∧
      r'.Inv ∧ r'.bits = rest ∧ r'.data = r.data := by
  induction order generalizing acc r with
  | nil => exact ⟨acc, r, rfl, hacc, by simp, hr, by simpa using hb, rfl⟩
  | cons s0 order ih =>
    simp only [List.flatMap_cons, List.append_assoc] at hb
    have h7 := len_le_of_all hcl s0
    obtain ⟨r1, e1, i1, b1, d1⟩ := r.readBits_field hr 3 _ _ (by decide)
      (show len cl s0 < 2 ^ 3 by omega) hb
    unfold readClLengths
    simp only [e1, bind, Except.bind]
    have hs0 := ho s0 (by simp)
    rw [if_pos (by omega)]
    obtain ⟨acc', r2, e2, l2, g2, i2, b2, d2⟩ := ih (fun s hs => ho s (by simp [hs]))
      (acc.set s0 (len cl s0)) (by simpa using hacc) r1 i1 b1
    refine ⟨acc', r2, e2, l2, ?_, i2, b2, by rw [d2, d1]⟩
    intro s hs
    rw [g2 s hs]
    by_cases hin : s ∈ order
    · rw [if_pos hin, if_pos (by simp [hin])]
    · rw [if_neg hin]
      by_cases he : s = s0
      · subst he
        rw [if_pos (by simp)]
        simp [List.getD_eq_getElem?_getD, hacc, hs]
      · rw [if_neg (by simp [hin, he])]
        simp [List.getD_eq_getElem?_getD, List.getElem?_set_ne (fun h => he h.symm)]

theorem ext_getD {a b : List Nat} (hl : a.length = b.length)
    (h : ∀ i, i < a.length → a.getD i 0 = b.getD i 0) : a = b := by
  apply List.ext_getElem hl
  intro i h1 h2
  have := h i h1
  rwa [List.getD_eq_getElem?_getD, List.getD_eq_getElem?_getD, List.getElem?_eq_getElem h1,
    List.getElem?_eq_getElem h2] at this

theorem readCl_spec (cl : List Nat) (hcl : ∀ l ∈ cl, l ≤ 7) (hlen : cl.length = 19) (n : Nat)
    (hz : ∀ s ∈ clOrder.drop n, len cl s = 0) (r : BitReader) (hr : r.Inv) (rest : List Bool)
    (hb : r.bits = clHeader cl n ++ rest) :
    ∃ r', readClLengths (codeLengthOrder.take n) (List.replicate 19 0) r = .ok (cl, r') ∧
      r'.Inv ∧ r'.bits = rest ∧ r'.data = r.data := by
  have hall : ∀ s ∈ clOrder, s < 19 := by decide
  obtain ⟨acc, r', e, l, g, i, b, d⟩ := readClLengths_spec cl hcl (clOrder.take n)
    (fun s hs => hall s (List.mem_of_mem_take hs)) (List.replicate 19 0) (by simp) r hr rest hb
  have : acc = cl := by
    apply ext_getD (by rw [l, hlen])
    intro s hs
    rw [l] at hs
    rw [g s hs]
    by_cases hin : s ∈ clOrder.take n
    · rw [if_pos hin]; rfl
    · rw [if_neg hin, getD_replicate_zero]
      have hmem : s ∈ clOrder := by
        have : ∀ s : Fin 19, s.val ∈ clOrder := by decide
        exact this ⟨s, hs⟩
      rw [← List.take_append_drop n clOrder, List.mem_append] at hmem
      rcases hmem with h | h
      · exact absurd h hin
      · exact (hz s h).symm
  subst this
  exact ⟨r', e, i, b, d⟩

theorem left_eq (r : BitReader) : BitReader.left r = r.bits.length := by
  rw [BitReader.bits_length]; rfl

theorem fixedLitLengths_eq : fixedLitLengths = fixedLit := rfl

theorem fixedDistLengths_eq : fixedDistLengths = fixedDist := rfl

theorem fixedLit_length : fixedLit.length = 288 := by
  unfold fixedLit; simp only [List.length_append, List.length_replicate]

theorem fixedDist_length : fixedDist.length = 32 := by
  unfold fixedDist; simp only [List.length_replicate]

theorem fixedLit_ok : CodeOK fixedLit := by
  refine ⟨by decide +kernel, ?_⟩
  have : kraft fixedLit = 2 ^ 15 := by decide +kernel
  omega

theorem fixedDist_ok : CodeOK fixedDist := by
  refine ⟨by decide +kernel, ?_⟩
  have : kraft fixedDist = 2 ^ 15 := by decide +kernel
  omega

theorem expandFrom_lits (out data : List UInt8) :
    expandFrom out (data.map .lit) = some (out ++ data) := by
  induction data generalizing out with
  | nil => simp [expandFrom]
  | cons b data ih => simp [expandFrom, ih]

theorem expandFrom_append (out : List UInt8) (ts ts' : List Token) :
    expandFrom out (ts ++ ts') = (expandFrom out ts).bind (fun o => expandFrom o ts') := by
  induction ts generalizing out with
  | nil => rfl
  | cons t ts ih =>
    cases t with
    | lit b => simp only [List.cons_append, expandFrom, ih]
    | copy l d =>
      simp only [List.cons_append, expandFrom]
      split
      · exact ih _
      · rfl

theorem take_append_of_length {α : Type} {a b : List α} {n : Nat} (h : a.length = n) :
    (a ++ b).take n = a ∧ (a ++ b).drop n = b := by
  subst h; simp

/-- One block. -/
theorem block_spec {pos : Nat} {bs : List Bool} {ts : List Token} (h : Block false pos bs ts)
    (r : BitReader) (hr : r.Inv) (rest : List Bool) (hb : r.bits = bs ++ rest)
    (hpos : pos + r.bits.length = 8 * r.data.length) (out out' : List UInt8)
    (he : expandFrom out ts = some out') :
    ∃ btype r1, r.readBits 2 = .ok (btype, r1) ∧
      ∃ r', inflateOne btype r1 out = .ok (out', r') ∧ r'.Inv ∧ r'.bits = rest ∧ r'.data = r.data := by
  cases h with
  | stored pad data hp hal hlen =>
    rw [show ([false, false] : List Bool) = bitsLSB 0 2 by rfl] at hb
    simp only [List.append_assoc] at hb
    obtain ⟨r1, e1, i1, b1, d1⟩ := r.readBits_field hr 2 0 _ (by decide) (by decide) hb
    refine ⟨0, r1, e1, ?_⟩
    rw [show inflateOne 0 r1 out = inflateStored r1 out from rfl]
    unfold inflateStored
    obtain ⟨i2, b2, d2, a2⟩ := r1.align_spec i1
    have hlen1 : r1.bits.length + 2 = r.bits.length := by
      rw [hb, b1]; simp only [List.length_append, bitsLSB_length]; omega
    have hpad : r1.bitsInBuf % 8 = pad.length := by
      have hc := r1.consumed_eq i1
      have hc2 := i1.cons
      unfold BitReader.consumed at hc
      rw [d1] at hc
      omega
    rw [hpad, b1, List.drop_append_of_le_length (Nat.le_refl _), List.drop_of_length_le (Nat.le_refl _),
      List.nil_append] at b2
    obtain ⟨r3, e3, i3, b3, d3⟩ := r1.alignToByte.readBits_field i2 16 _ _ (by decide) hlen b2
    obtain ⟨r4, e4, i4, b4, d4⟩ := r3.readBits_field i3 16 _ _ (by decide) (by omega) b3
    simp only [e3, e4, bind, Except.bind]
    rw [if_neg (by omega)]
    have halign : r4.bitsInBuf % 8 = 0 := by
      have hc := r4.consumed_eq i4
      have hc2 := i4.cons
      unfold BitReader.consumed at hc
      have hl3 : r4.bits.length + 32 = r1.alignToByte.bits.length := by
        rw [b4, b2]; simp only [List.length_append, bitsLSB_length]; omega
      have hc' := r1.alignToByte.consumed_eq i2
      have hc2' := i2.cons
      unfold BitReader.consumed at hc'
      rw [d4, d3] at hc
      omega
    obtain ⟨bs', r5, e5, l5, b5, i5, d5⟩ := r4.readBytes_ok i4 halign data.length
      (by rw [b4, List.length_append, bytesLSB_length]; omega)
    rw [b4] at b5
    obtain ⟨q1, q2⟩ := List.append_inj b5 (by rw [bytesLSB_length, bytesLSB_length, l5])
    have q3 := bytesLSB_inj q1
    subst q3
    simp only [e5, pure, Except.pure]
    rw [expandFrom_lits] at he
    injection he with he
    exact ⟨r5, by rw [he], i5, q2.symm, by rw [d5, d4, d3, d2, d1]⟩
  | fixed hbody =>
    rw [show ([true, false] : List Bool) = bitsLSB 1 2 by rfl, List.append_assoc] at hb
    obtain ⟨r1, e1, i1, b1, d1⟩ := r.readBits_field hr 2 1 _ (by decide) (by decide) hb
    refine ⟨1, r1, e1, ?_⟩
    rw [show inflateOne 1 r1 out = inflateFixed r1 out from rfl]
    unfold inflateFixed
    obtain ⟨tl, f1, hl⟩ := fromLengths_ok fixedLit fixedLit_ok.1
    obtain ⟨td, f2, hd⟩ := fromLengths_ok fixedDist fixedDist_ok.1
    rw [fixedLitLengths_eq, fixedDistLengths_eq]
    generalize HuffmanTable.fromLengths fixedLit = x at f1 ⊢
    generalize HuffmanTable.fromLengths fixedDist = y at f2 ⊢
    subst f1 f2
    simp only [bind, Except.bind]
    obtain ⟨r2, e2, i2, b2, d2⟩ := inflateBlock_spec fixedLit_ok fixedDist_ok hl hd
      (by rw [fixedLit_length]; decide) (by rw [fixedDist_length]; decide) hbody (BitReader.left r1 + 1) r1 out out' rest
      (by rw [left_eq, b1, List.length_append]; omega) i1 b1 he
    exact ⟨r2, e2, i2, b2, by rw [d2, d1]⟩
  | dynamic hlit hdist hclen cl lit dist h1 h2 h3 h4 h5 h6 h7 h8 h9 h10 h11 h12 hbody =>
    rename_i clbits bs'
    simp only [Bool.false_eq_true, if_false, clCodeOK, dataCodeOK] at h2 h5 h11 h12
    rw [show ([false, true] : List Bool) = bitsLSB 2 2 by rfl] at hb
    simp only [List.append_assoc] at hb
    obtain ⟨r1, e1, i1, b1, d1⟩ := r.readBits_field hr 2 2 _ (by decide) (by decide) hb
    refine ⟨2, r1, e1, ?_⟩
    rw [show inflateOne 2 r1 out = inflateDynamic r1 out from rfl]
    unfold inflateDynamic
    obtain ⟨r2, e2, i2, b2, d2⟩ := r1.readBits_field i1 5 hlit _ (by decide) (by omega) b1
    obtain ⟨r3, e3, i3, b3, d3⟩ := r2.readBits_field i2 5 hdist _ (by decide) (by omega) b2
    obtain ⟨r4, e4, i4, b4, d4⟩ := r3.readBits_field i3 4 hclen _ (by decide) (by omega) b3
    obtain ⟨r5, e5, i5, b5, d5⟩ := readCl_spec cl h6 h4 (hclen + 4) h7 r4 i4 _ b4
    obtain ⟨tc, f1, hc⟩ := fromLengths_ok cl h5.1
    have hall : (lit ++ dist).length = hlit + 257 + (hdist + 1) := by
      rw [List.length_append, h8, h9]
    obtain ⟨r6, e6, i6, b6, d6⟩ := readLengths_spec h5 hc (by omega) h10
      (hlit + 257 + (hdist + 1) + 1) r5 _ (by rw [hall]; omega) i5 b5
    rw [hall] at e6
    obtain ⟨tl, f2, hl⟩ := fromLengths_ok lit h11.1
    obtain ⟨td, f3, hd⟩ := fromLengths_ok dist h12.1
    obtain ⟨q1, q2⟩ := take_append_of_length (b := dist) h8
    obtain ⟨r7, e7, i7, b7, d7⟩ := inflateBlock_spec h11 h12 hl hd (by omega)
      (by omega) hbody (BitReader.left r6 + 1) r6 out out' rest
      (by rw [left_eq, b6, List.length_append]; omega) i6 b6 he
    simp only [e2, e3, e4, e5, f1, e6, q1, q2, f2, f3, bind, Except.bind]
    exact ⟨r7, e7, i7, b7, by rw [d7, d6, d5, d4, d3, d2, d1]⟩

theorem stream_spec {pos : Nat} {bs : List Bool} {ts : List Token} (h : Stream false pos bs ts) :
    ∀ (fuel : Nat) (r : BitReader) (rest : List Bool) (out out' : List UInt8),
      bs.length ≤ fuel → r.Inv → r.bits = bs ++ rest →
      pos + r.bits.length = 8 * r.data.length → expandFrom out ts = some out' →
      inflateLoop fuel r out = .ok out' := by
  induction h with
  | last hblk =>
    intro fuel r rest out out' hf hr hb hpos he
    simp only [List.length_cons] at hf
    obtain ⟨f, rfl⟩ : ∃ f, fuel = f + 1 := ⟨fuel - 1, by omega⟩
    unfold inflateLoop
    obtain ⟨r1, e1, i1, b1, d1⟩ := r.readBits_field hr 1 1 _ (by decide) (by decide)
      (show r.bits = bitsLSB 1 1 ++ _ from hb)
    have hl1 : r1.bits.length + 1 = r.bits.length := by rw [hb, b1]; simp
    obtain ⟨bt, r2, e2, r3, e3, i3, b3, d3⟩ := block_spec hblk r1 i1 rest b1
      (by rw [d1]; omega) out out' he
    simp only [e1, e2, e3, bind, Except.bind]
    rfl
  | more hblk _ ih =>
    rename_i pos bs ts rest0 ts' _
    intro fuel r rest out out' hf hr hb hpos he
    simp only [List.length_cons, List.length_append] at hf
    obtain ⟨f, rfl⟩ : ∃ f, fuel = f + 1 := ⟨fuel - 1, by omega⟩
    unfold inflateLoop
    obtain ⟨r1, e1, i1, b1, d1⟩ := r.readBits_field hr 1 0 (bs ++ (rest0 ++ rest)) (by decide) (by decide)
      (by rw [hb]; simp [bitsLSB])
    have hl1 : r1.bits.length + 1 = r.bits.length := by rw [hb, b1]; simp
    rw [expandFrom_append] at he
    rcases hmid : expandFrom out ts with _ | mid
    · rw [hmid] at he; cases he
    rw [hmid] at he
    obtain ⟨bt, r2, e2, r3, e3, i3, b3, d3⟩ := block_spec hblk r1 i1 (rest0 ++ rest) b1
      (by rw [d1]; omega) out mid hmid
    simp only [e1, e2, e3, bind, Except.bind]
    rw [if_neg (by decide)]
    have hl3 : bs.length + r3.bits.length = r1.bits.length := by rw [b3, b1]; simp
    exact ih f r3 rest mid out' (by omega) i3 b3 (by rw [d3, d1]; omega) he

theorem inflate_spec {bytes data : List UInt8} (h : BeginsWith false bytes data) :
    inflate bytes = .ok data := by
  obtain ⟨bits, rest, ts, hb, hs, he⟩ := h
  unfold inflate
  apply stream_spec hs _ _ rest [] data _ (BitReader.inv_new bytes) (by rw [BitReader.bits_new, hb]) _ he
  · have := congrArg List.length hb
    rw [bytesLSB_length, List.length_append] at this
    omega
  · rw [BitReader.bits_new, bytesLSB_length]; simp

end Pixo.Inflate
