import Verif.Proof.InflateTotal
import Verif.Spec.Rfc1951Faults
/-
What `inflate` accepts is an RFC 1951 stream, unless a header breaks the rules for code lengths.
-/
namespace Pixo.Inflate
open Spec Spec.Rfc1951

theorem readBits_sound (r : BitReader) (hr : r.Inv) (n : Nat) (hn : n ≤ 32) :
    Safe (r.readBits n) (fun x => x.1 < 2 ^ n ∧ x.2.Inv ∧ r.bits = bitsLSB x.1 n ++ x.2.bits ∧ x.2.data = r.data) := by
  by_cases hl : n ≤ r.bits.length
  · obtain ⟨r', e, i, b, d⟩ := r.readBits_ok hr n hn hl
    rw [e]
    have hlen : (r.bits.take n).length = n := by rw [List.length_take]; omega
    refine Safe.ok ⟨?_, i, ?_, d⟩
    · have := ofBitsLSB_lt (r.bits.take n)
      rwa [hlen] at this
    · have := bitsLSB_ofBitsLSB (r.bits.take n)
      rw [hlen] at this
      simp only
      rw [this, b, List.take_append_drop]
  · rw [r.readBits_err hr n hn (by omega)]; exact Safe.invalid

/-! ### Symbols -/

/-- What decoding a symbol says about the bits. -/
structure Symbol (lens : List Nat) (r : BitReader) (x : Nat × BitReader) : Prop where
  used : len lens x.1 ≠ 0
  inv : x.2.Inv
  bits : r.bits = codeword lens x.1 ++ x.2.bits
  data : x.2.data = r.data

theorem decodeSlowLoop_sound {t : HuffmanTable} {lens : List Nat} (ht : t.lengths = lens) (rounds L code : Nat)
    (r : BitReader) (hr : r.Inv) :
    Safe (t.decodeSlowLoop rounds (L + 1) code r) (fun x => len lens x.1 ≠ 0 ∧ x.2.Inv ∧
      bitsMSB code L ++ r.bits = codeword lens x.1 ++ x.2.bits ∧ x.2.data = r.data) := by
  induction rounds generalizing L code r with
  | zero => exact Safe.invalid
  | succ n ih =>
    unfold HuffmanTable.decodeSlowLoop
    refine Safe.bind (readBits_sound r hr 1 (by decide)) ?_
    rintro ⟨bit, r1⟩ ⟨v1, i1, b1, d1⟩
    simp only at v1 i1 b1 d1 ⊢
    have hc : code <<< 1 ||| bit = 2 * code + bit := by
      rw [← Nat.shiftLeft_add_eq_or_of_lt (by omega), Nat.shiftLeft_eq]; omega
    have hbits : bitsMSB (code <<< 1 ||| bit) (L + 1) ++ r1.bits = bitsMSB code L ++ r.bits := by
      rw [hc, bitsMSB_succ, b1, show (2 * code + bit) / 2 = code by omega, show (2 * code + bit) % 2 = bit % 2 by omega]
      simp [bitsLSB]
    split
    · rename_i s hs
      obtain ⟨f1, f2⟩ := findSymbol_iff ht _ _ _ (by omega) hs
      refine Safe.pure ⟨by simp only; omega, i1, ?_, d1⟩
      simp only
      rw [← hbits, f2]
      unfold codeword
      rw [f1]
    · refine (ih (L + 1) _ r1 i1).mono ?_
      rintro x ⟨x1, x2, x3, x4⟩
      exact ⟨x1, x2, by rw [← hbits, x3], by rw [x4, d1]⟩

theorem decode_sound {t : HuffmanTable} {lens : List Nat} (ht : TableOf t lens) (hn : lens.length ≤ 4096)
    (h : CodeOK lens) (r : BitReader) (hr : r.Inv) : Safe (t.decode r) (Symbol lens r) := by
  unfold HuffmanTable.decode
  split
  · exact Safe.invalid
  obtain ⟨r1, e1, i1, b1, d1, n1⟩ := r.tryPeek_spec hr lookupBits (by decide)
  simp only [e1]
  have hidx512 : ofBitsLSB (r.bits.take lookupBits) < 512 := by
    have h1 := ofBitsLSB_lt (r.bits.take lookupBits)
    rw [List.length_take, Nat.min_comm] at h1
    have : (2:Nat) ^ min r.bits.length lookupBits ≤ 2 ^ 9 :=
      Nat.pow_le_pow_right (by decide) (by unfold lookupBits; omega)
    omega
  have hpre : ∀ k, k ≤ min r.bits.length lookupBits →
      bitsLSB (ofBitsLSB (r.bits.take lookupBits)) k = r.bits.take k := by
    intro k hk
    have h1 := bitsLSB_ofBitsLSB (r.bits.take lookupBits)
    have h2 : (r.bits.take lookupBits).length = k + (min r.bits.length lookupBits - k) := by
      rw [List.length_take]; omega
    rw [h2, bitsLSB_add] at h1
    have h3 := congrArg (List.take k) h1
    rw [List.take_append_of_le_length (by simp), List.take_of_length_le (by simp), List.take_take,
      show min k lookupBits = k by omega] at h3
    exact h3
  have hlk : t.lookup[ofBitsLSB (r.bits.take lookupBits)]? =
      some (t.lookup.getD (ofBitsLSB (r.bits.take lookupBits)) 0) := by
    rw [List.getD_eq_getElem?_getD, List.getElem?_eq_getElem (by rw [ht.size]; exact hidx512)]; rfl
  have slow : Safe (t.decodeSlow r1) (Symbol lens r) := by
    refine (decodeSlowLoop_sound ht.lengths t.maxLen 0 0 r1 i1).mono ?_
    rintro x ⟨x1, x2, x3, x4⟩
    refine ⟨x1, x2, ?_, by rw [x4, d1]⟩
    rw [← b1]
    simpa [bitsMSB] using x3
  have hit : ∀ a, a = min r.bits.length lookupBits →
      Safe (if (t.lookup.getD (ofBitsLSB (r.bits.take lookupBits)) 0) >>> 12 > 0 ∧
            (t.lookup.getD (ofBitsLSB (r.bits.take lookupBits)) 0) >>> 12 ≤ a then
          (do
            let r' ← r1.consume ((t.lookup.getD (ofBitsLSB (r.bits.take lookupBits)) 0) >>> 12)
            return ((t.lookup.getD (ofBitsLSB (r.bits.take lookupBits)) 0) &&& 0xFFF, r') : R (Nat × BitReader))
          else t.decodeSlow r1) (Symbol lens r) := by
    intro a ha
    rcases ht.entry _ hidx512 with ⟨g1, _⟩ | ⟨i, g1, g2⟩
    · rw [g1, if_neg (by simp)]; exact slow
    · have hil := lt_length_of_len g1.1
      obtain ⟨s1, s2⟩ := entry_split i (len lens i) (by omega)
      rw [g2, s1, s2]
      by_cases hle : len lens i > 0 ∧ len lens i ≤ a
      · rw [if_pos hle]
        obtain ⟨r2, e2, i2, b2, d2⟩ := r1.consume_spec i1 (len lens i) (by omega)
        simp only [e2, bind, Except.bind, pure, Except.pure]
        refine Safe.ok ⟨g1.1, i2, ?_, by rw [d2, d1]⟩
        simp only
        rw [codeword_of_matches h g1, hpre _ (by omega), b2, b1, List.take_append_drop]
      · rw [if_neg hle]; exact slow
  by_cases h9 : min r.bits.length lookupBits ≥ lookupBits
  · rw [if_pos h9, hlk]
    exact hit lookupBits (by omega)
  · rw [if_neg h9]
    by_cases h0 : min r.bits.length lookupBits > 0
    · rw [if_pos h0, hlk]
      exact hit _ rfl
    · rw [if_neg h0]; exact slow

/-! ### Blocks -/

theorem inflateMatch_sound {dist : List Nat} {td : HuffmanTable} (hd : TableOf td dist) (hdn : dist.length ≤ 4096)
    (hok : CodeOK dist) (r : BitReader) (hr : r.Inv) (out : List UInt8) (s : Nat) (hs : 257 ≤ s ∧ s ≤ 285) :
    Safe (inflateMatch r out s td) (fun x => x.2.Inv ∧ x.2.data = r.data ∧ ∃ e j f lb lx db dx,
      lengthTable[s - 257]? = some (lb, lx) ∧ e < 2 ^ lx ∧ distTable[j]? = some (db, dx) ∧ f < 2 ^ dx ∧ len dist j ≠ 0 ∧
      r.bits = bitsLSB e lx ++ codeword dist j ++ bitsLSB f dx ++ x.2.bits ∧
      copyBytes (lb + e) (db + f) out = some x.1) := by
  obtain ⟨⟨lb, lx⟩, hp⟩ := lengthTable_some (i := s - 257) (by omega)
  obtain ⟨_, hlb, hlx, hlx5, _, hle⟩ := lengthTable_get hp
  unfold inflateMatch
  simp only [getChecked, hlb, hlx, ok_bind]
  refine Safe.bind (readBits_sound r hr lx (by omega)) ?_
  rintro ⟨e, r1⟩ ⟨he, i1, b1, d1⟩
  simp only at he i1 b1 d1 ⊢
  refine Safe.bind (decode_sound hd hdn hok r1 i1) ?_
  rintro ⟨j, r2⟩ ⟨u2, i2, b2, d2⟩
  simp only at u2 i2 b2 d2 ⊢
  split
  · exact Safe.invalid
  · rename_i hj
    obtain ⟨⟨db, dx⟩, hq⟩ := distTable_some (i := j) (by omega)
    obtain ⟨_, hdb, hdx, hdx13, hdb1⟩ := distTable_get hq
    simp only [hdb, hdx, ok_bind]
    refine Safe.bind (readBits_sound r2 i2 dx (by omega)) ?_
    rintro ⟨f, r3⟩ ⟨hf, i3, b3, d3⟩
    simp only at hf i3 b3 d3 ⊢
    split
    · exact Safe.invalid
    · rename_i hle'
      obtain ⟨o, c1, c2, c3⟩ := copyLoop_start (db + f) (by omega) (lb + e) out (by omega)
      simp only [c1, ok_bind, pure, Except.pure]
      exact Safe.ok ⟨i3, by rw [d3, d2, d1], e, j, f, lb, lx, db, dx, hp, he, hq, hf, u2,
        by rw [b1, b2, b3]; simp only [List.append_assoc], c2⟩

/-- What decoding a block body says about the bits. -/
structure Read (lit dist : List Nat) (r : BitReader) (out : List UInt8) (x : List UInt8 × BitReader) : Prop where
  inv : x.2.Inv
  data : x.2.data = r.data
  body : ∃ bs ts, r.bits = bs ++ x.2.bits ∧ Body lit dist bs ts ∧ expandFrom out ts = some x.1

theorem inflateBlock_sound {lit dist : List Nat} {tl td : HuffmanTable} (hl : TableOf tl lit) (hd : TableOf td dist)
    (hln : lit.length ≤ 4096) (hdn : dist.length ≤ 4096) (hlo : CodeOK lit) (hdo : CodeOK dist) (fuel : Nat)
    (r : BitReader) (hr : r.Inv) (out : List UInt8) (hf : r.bits.length < fuel) :
    Safe (inflateBlock fuel r out tl td) (Read lit dist r out) := by
  induction fuel generalizing r out with
  | zero => omega
  | succ fuel ih =>
    unfold inflateBlock
    refine Safe.bind (decode_sound hl hln hlo r hr) ?_
    rintro ⟨s, r1⟩ ⟨u1, i1, b1, d1⟩
    simp only at u1 i1 b1 d1 ⊢
    have hshort : r1.bits.length < r.bits.length := by
      rw [b1, List.length_append]
      unfold codeword
      rw [bitsMSB_length]; omega
    split
    · rename_i hs
      have hsn : (UInt8.ofNat s).toNat = s := by rw [UInt8.toNat_ofNat']; omega
      refine (ih r1 i1 (out ++ [UInt8.ofNat s]) (by omega)).mono ?_
      rintro x ⟨x1, x2, bs, ts, x3, x4, x5⟩
      refine ⟨x1, by rw [x2, d1], codeword lit (UInt8.ofNat s).toNat ++ bs, .lit (UInt8.ofNat s) :: ts, ?_,
        Body.lit _ (by rw [hsn]; exact u1) x4, x5⟩
      rw [b1, x3, hsn, List.append_assoc]
    · split
      · rename_i h1
        subst h1
        exact Safe.pure ⟨i1, d1, codeword lit 256, [], b1, Body.eob u1, rfl⟩
      · split
        · rename_i h1 h2 h3
          refine Safe.bind (inflateMatch_sound hd hdn hdo r1 i1 out s (by omega)) ?_
          rintro ⟨o, r2⟩ ⟨i2, d2, e, j, f, lb, lx, db, dx, q1, q2, q3, q4, q5, b2, c2⟩
          simp only at i2 d2 b2 c2 ⊢
          have hshort2 : r2.bits.length ≤ r1.bits.length := by
            rw [b2, List.length_append]; omega
          refine (ih r2 i2 o (by omega)).mono ?_
          rintro x ⟨x1, x2, bs, ts, x3, x4, x5⟩
          have hs257 : 257 + (s - 257) = s := by omega
          refine ⟨x1, by rw [x2, d2, d1], _, _, ?_, Body.copy (s - 257) e j f q1 q2 (by rw [hs257]; exact u1) q3 q4 q5 x4, ?_⟩
          · rw [b1, b2, x3, hs257]
            simp only [List.append_assoc]
          · rw [expandFrom, c2]
            exact x5
        · exact Safe.invalid

theorem inflateStored_sound (r : BitReader) (hr : r.Inv) (out : List UInt8) :
    Safe (inflateStored r out) (fun x => x.2.Inv ∧ x.2.data = r.data ∧ ∃ pad bytes, pad.length = r.bitsInBuf % 8 ∧
      bytes.length < 65536 ∧ r.bits = pad ++ bitsLSB bytes.length 16 ++ bitsLSB (65535 - bytes.length) 16 ++
        bytesLSB bytes ++ x.2.bits ∧ x.1 = out ++ bytes) := by
  unfold inflateStored
  obtain ⟨i0, b0, d0, a0⟩ := r.align_spec hr
  have hmod : r.bitsInBuf % 8 ≤ r.bits.length := by
    rw [r.bits_length]
    have := Nat.mod_le r.bitsInBuf 8
    omega
  refine Safe.bind (readBits_sound _ i0 16 (by decide)) ?_
  rintro ⟨len, r1⟩ ⟨v1, i1, b1, d1⟩
  simp only at v1 i1 b1 d1 ⊢
  refine Safe.bind (readBits_sound _ i1 16 (by decide)) ?_
  rintro ⟨nlen, r2⟩ ⟨v2, i2, b2, d2⟩
  simp only at v2 i2 b2 d2 ⊢
  split
  · exact Safe.invalid
  · rename_i hlen
    have l1 := congrArg List.length b1
    have l2 := congrArg List.length b2
    simp only [List.length_append, bitsLSB_length] at l1 l2
    have halign : r2.bitsInBuf % 8 = 0 := by
      have hc := r2.consumed_eq i2
      have hc2 := i2.cons
      unfold BitReader.consumed at hc
      have hc' := r.alignToByte.consumed_eq i0
      have hc2' := i0.cons
      unfold BitReader.consumed at hc'
      rw [d2, d1] at hc
      omega
    by_cases hl : 8 * len ≤ r2.bits.length
    · obtain ⟨bs, r3, e3, l3, b3, i3, d3⟩ := r2.readBytes_ok i2 halign len hl
      simp only [e3, bind, Except.bind, pure, Except.pure]
      refine Safe.ok ⟨i3, by rw [d3, d2, d1, d0], r.bits.take (r.bitsInBuf % 8), bs, by rw [List.length_take]; omega,
        by omega, ?_, rfl⟩
      have hn : nlen = 65535 - bs.length := by omega
      rw [l3, ← l3, ← hn, l3]
      conv => lhs; rw [← List.take_append_drop (r.bitsInBuf % 8) r.bits, ← b0, b1, b2, b3]
      simp only [List.append_assoc]
    · rw [r2.readBytes_err i2 halign len (by omega)]; exact Safe.invalid

theorem readClLengths_sound (order : List Nat) (ho : ∀ s ∈ order, s < 19) (hd : order.Nodup) (acc : List Nat)
    (hacc : acc.length = 19) (h7 : ∀ l ∈ acc, l ≤ 7) (r : BitReader) (hr : r.Inv) :
    Safe (readClLengths order acc r) (fun x => x.1.length = 19 ∧ (∀ l ∈ x.1, l ≤ 7) ∧ x.2.Inv ∧ x.2.data = r.data ∧
      (∀ s, s ∉ order → len x.1 s = len acc s) ∧
      r.bits = order.flatMap (fun s => bitsLSB (len x.1 s) 3) ++ x.2.bits) := by
  induction order generalizing acc r with
  | nil => exact Safe.ok ⟨hacc, h7, hr, rfl, fun _ _ => rfl, rfl⟩
  | cons s order ih =>
    unfold readClLengths
    refine Safe.bind (readBits_sound r hr 3 (by decide)) ?_
    rintro ⟨v, r1⟩ ⟨v1, i1, b1, d1⟩
    simp only at v1 i1 b1 d1 ⊢
    have hs := ho s (by simp)
    rw [if_pos (by omega)]
    refine (ih (fun s hs => ho s (by simp [hs])) (List.nodup_cons.1 hd).2 (acc.set s v) (by simpa using hacc) (by
      intro l hl
      rcases List.mem_or_eq_of_mem_set hl with hl | rfl
      · exact h7 l hl
      · omega) r1 i1).mono ?_
    rintro x ⟨x1, x2, x3, x4, x5, x6⟩
    refine ⟨x1, x2, x3, by rw [x4, d1], ?_, ?_⟩
    · intro s' hs'
      rw [List.mem_cons, not_or] at hs'
      rw [x5 s' hs'.2]
      unfold len
      simp [List.getD_eq_getElem?_getD, List.getElem?_set_ne (fun h => hs'.1 h.symm)]
    · have : len x.1 s = v := by
        rw [x5 s (List.nodup_cons.1 hd).1]
        unfold len
        simp [List.getD_eq_getElem?_getD, hacc, hs]
      rw [List.flatMap_cons, this, b1, x6, List.append_assoc]

theorem repeatLoop_sound (total v n : Nat) (ls : List Nat) :
    Safe (repeatLoop total v n ls) (fun x => x = ls ++ List.replicate n v ∧ (ls.length ≤ total → x.length ≤ total)) := by
  induction n generalizing ls with
  | zero => exact Safe.ok ⟨by simp, fun h => h⟩
  | succ n ih =>
    unfold repeatLoop
    split
    · exact Safe.invalid
    · refine (ih (ls ++ [v])).mono ?_
      rintro x ⟨x1, x2⟩
      refine ⟨by rw [x1, List.replicate_succ]; simp, fun _ => x2 (by simp; omega)⟩

theorem readLengths_sound {cl : List Nat} {t : HuffmanTable} (ht : TableOf t cl) (hn : cl.length ≤ 4096)
    (hok : CodeOK cl) (total fuel : Nat) (ls : List Nat) (r : BitReader) (hr : r.Inv) (hl : ls.length ≤ total)
    (hf : total - ls.length < fuel) :
    Safe (readLengths t total fuel ls r) (fun x => x.1.length = total ∧ x.2.Inv ∧ x.2.data = r.data ∧
      ∃ bits, r.bits = bits ++ x.2.bits ∧ ClSeq cl ls bits x.1) := by
  induction fuel generalizing ls r with
  | zero => omega
  | succ fuel ih =>
    unfold readLengths
    split
    · refine Safe.bind (decode_sound ht hn hok r hr) ?_
      rintro ⟨s, r1⟩ ⟨u1, i1, b1, d1⟩
      simp only at u1 i1 b1 d1 ⊢
      -- the three repeat forms share one argument
      have rep : ∀ (v w base : Nat), w ≤ 32 → 1 ≤ base →
          (∀ n bs all, n < 2 ^ w → ClSeq cl (ls ++ List.replicate (base + n) v) bs all →
            ClSeq cl ls (codeword cl s ++ bitsLSB n w ++ bs) all) →
          Safe (do
            let (n, r) ← r1.readBits w
            let ls ← repeatLoop total v (n + base) ls
            readLengths t total fuel ls r) (fun x => x.1.length = total ∧ x.2.Inv ∧ x.2.data = r.data ∧
              ∃ bits, r.bits = bits ++ x.2.bits ∧ ClSeq cl ls bits x.1) := by
        intro v w base hw hbase hcl
        refine Safe.bind (readBits_sound r1 i1 w hw) ?_
        rintro ⟨n, r2⟩ ⟨v2, i2, b2, d2⟩
        simp only at v2 i2 b2 d2 ⊢
        refine Safe.bind (repeatLoop_sound total v (n + base) ls) ?_
        rintro ls' ⟨l1, l2⟩
        have l2 := l2 hl
        have l3 := congrArg List.length l1
        rw [List.length_append, List.length_replicate] at l3
        refine (ih ls' r2 i2 l2 (by omega)).mono ?_
        rintro x ⟨x1, x2, x3, bits, x4, x5⟩
        refine ⟨x1, x2, by rw [x3, d2, d1], codeword cl s ++ bitsLSB n w ++ bits, ?_, ?_⟩
        · rw [b1, b2, x4]; simp only [List.append_assoc]
        · refine hcl n bits x.1 v2 ?_
          rw [Nat.add_comm base n, ← l1]; exact x5
      split
      · rename_i h
        refine (ih (ls ++ [s]) r1 i1 (by simp; omega) (by simp; omega)).mono ?_
        rintro x ⟨x1, x2, x3, bits, x4, x5⟩
        refine ⟨x1, x2, by rw [x3, d1], codeword cl s ++ bits, by rw [b1, x4, List.append_assoc], ClSeq.one s h u1 x5⟩
      · split
        · rename_i h16
          subst h16
          split
          · exact Safe.invalid
          · rename_i prev hprev
            exact rep prev 2 3 (by decide) (by decide) (fun n bs all hn h => ClSeq.rep n prev hn u1 hprev h)
        · split
          · rename_i h17
            subst h17
            exact rep 0 3 3 (by decide) (by decide) (fun n bs all hn h => ClSeq.zeros3 n hn u1 h)
          · split
            · rename_i h18
              subst h18
              exact rep 0 7 11 (by decide) (by decide) (fun n bs all hn h => ClSeq.zeros11 n hn u1 h)
            · exact Safe.invalid
    · exact Safe.ok ⟨by simp only; omega, hr, rfl, [], rfl, ClSeq.done _⟩

/-- A block was read as the RFC says, or its header breaks the rules. -/
structure OneRead (pos : Nat) (btype : Nat) (r : BitReader) (out : List UInt8) (x : List UInt8 × BitReader) : Prop where
  inv : x.2.Inv
  data : x.2.data = r.data
  less : x.2.bits.length ≤ r.bits.length
  block : (∃ bs ts, bitsLSB btype 2 ++ r.bits = bs ++ x.2.bits ∧ Block false pos bs ts ∧ expandFrom out ts = some x.1) ∨
    BadHeader (bitsLSB btype 2 ++ r.bits)

theorem inflateDynamic_sound (pos : Nat) (r : BitReader) (hr : r.Inv) (out : List UInt8) :
    Safe (inflateDynamic r out) (OneRead pos 2 r out) := by
  unfold inflateDynamic
  refine Safe.bind (readBits_sound r hr 5 (by decide)) ?_
  rintro ⟨hlit, r1⟩ ⟨v1, i1, b1, d1⟩
  refine Safe.bind (readBits_sound r1 i1 5 (by decide)) ?_
  rintro ⟨hdist, r2⟩ ⟨v2, i2, b2, d2⟩
  refine Safe.bind (readBits_sound r2 i2 4 (by decide)) ?_
  rintro ⟨hclen, r3⟩ ⟨v3, i3, b3, d3⟩
  simp only at v1 v2 v3 i1 b1 d1 i2 b2 d2 i3 b3 d3 ⊢
  have hall : ∀ s ∈ codeLengthOrder, s < 19 := by decide
  have hnd : codeLengthOrder.Nodup := by decide
  refine Safe.bind (readClLengths_sound (codeLengthOrder.take (hclen + 4))
    (fun s hs => hall s (List.mem_of_mem_take hs)) (hnd.sublist (List.take_sublist _ _)) (List.replicate 19 0)
    List.length_replicate (by intro l hl; rw [(List.mem_replicate.1 hl).2]; omega) r3 i3) ?_
  rintro ⟨cl, r4⟩ ⟨l4, h7, i4, d4, z4, b4⟩
  simp only at l4 h7 i4 d4 z4 b4 ⊢
  have hz : ∀ s ∈ clOrder.drop (hclen + 4), len cl s = 0 := by
    intro s hs
    rw [z4 s ?_]
    · exact getD_replicate_zero _ _
    · intro hin
      have hnd' : (codeLengthOrder.take (hclen + 4) ++ codeLengthOrder.drop (hclen + 4)).Nodup := by
        rw [List.take_append_drop]; exact hnd
      exact (List.nodup_append.1 hnd').2.2 s hin s hs rfl
  have hhead : bitsLSB 2 2 ++ r.bits = [false, true] ++ bitsLSB hlit 5 ++ bitsLSB hdist 5 ++ bitsLSB hclen 4 ++ r3.bits := by
    rw [b1, b2, b3]
    simp only [List.append_assoc]
    rfl
  have hcl : r3.bits = clHeader cl (hclen + 4) ++ r4.bits := b4
  have s1 := congrArg List.length b1
  have s2 := congrArg List.length b2
  have s3 := congrArg List.length b3
  have s4 := congrArg List.length b4
  simp only [List.length_append, bitsLSB_length] at s1 s2 s3 s4
  refine Safe.bind (fromLengths_safe cl) ?_
  intro tc hc
  by_cases hco : CodeOK cl
  · refine Safe.bind (readLengths_sound hc (by omega) hco (hlit + 257 + (hdist + 1)) (hlit + 257 + (hdist + 1) + 1) [] r4 i4
      (by simp) (by simp)) ?_
    rintro ⟨ls, r5⟩ ⟨l5, i5, d5, clbits, b5, hseq⟩
    simp only at l5 i5 d5 b5 hseq ⊢
    have s5 := congrArg List.length b5
    rw [List.length_append] at s5
    refine Safe.bind (fromLengths_safe _) ?_
    intro tl hl
    refine Safe.bind (fromLengths_safe _) ?_
    intro td hd
    have hlitlen : (ls.take (hlit + 257)).length = hlit + 257 := by rw [List.length_take]; omega
    have hdistlen : (ls.drop (hlit + 257)).length = hdist + 1 := by rw [List.length_drop]; omega
    have htd : ls.take (hlit + 257) ++ ls.drop (hlit + 257) = ls := List.take_append_drop _ _
    by_cases hlo : CodeOK (ls.take (hlit + 257)) ∧ CodeOK (ls.drop (hlit + 257))
    · by_cases h30 : hlit < 30
      · refine (inflateBlock_sound hl hd (by omega) (by omega) hlo.1 hlo.2 _ r5 i5 out (by rw [left_eq]; omega)).mono ?_
        rintro x ⟨x1, x2, bs, ts, x3, x4, x5⟩
        have s6 := congrArg List.length x3
        rw [List.length_append] at s6
        refine ⟨x1, by rw [x2, d5, d4, d3, d2, d1], by omega, Or.inl ⟨_, ts, ?_,
          Block.dynamic hlit hdist hclen cl (ls.take (hlit + 257)) (ls.drop (hlit + 257)) (clbits := clbits) h30
            (by rw [if_neg (by decide)]; omega) (by omega) l4 hco h7 hz hlitlen hdistlen (by rw [htd]; exact hseq)
            hlo.1 hlo.2 x4, x5⟩⟩
        rw [hhead, hcl, b5, x3]
        simp only [List.append_assoc]
      · refine (inflateBlock_safe hl hd (by omega) (by omega) _ r5 i5 out (by rw [left_eq]; omega)).mono ?_
        rintro x ⟨x1, x2, x3, _, _⟩
        exact ⟨x1, by rw [x2, d5, d4, d3, d2, d1], by omega, Or.inr ⟨hlit, hdist, hclen, r3.bits, by omega, by omega,
          by omega, hhead, Or.inl (by omega)⟩⟩
    · refine (inflateBlock_safe hl hd (by omega) (by omega) _ r5 i5 out (by rw [left_eq]; omega)).mono ?_
      rintro x ⟨x1, x2, x3, _, _⟩
      refine ⟨x1, by rw [x2, d5, d4, d3, d2, d1], by omega, Or.inr ⟨hlit, hdist, hclen, r3.bits, by omega, by omega,
        by omega, hhead, Or.inr (Or.inr ⟨cl, _, _, clbits, r5.bits, l4, h7, hz, hco, ?_, by rw [htd]; exact hseq, hlitlen,
          hdistlen, hlo⟩)⟩⟩
      rw [hcl, b5, List.append_assoc]
  · refine Safe.bind (readLengths_safe hc (by omega) (hlit + 257 + (hdist + 1)) (hlit + 257 + (hdist + 1) + 1) [] r4 i4
      (by simp) (by simp) (by simp)) ?_
    rintro ⟨ls, r5⟩ ⟨l5, _, i5, d5, b5⟩
    simp only at l5 i5 d5 b5 ⊢
    refine Safe.bind (fromLengths_safe _) ?_
    intro tl hl
    refine Safe.bind (fromLengths_safe _) ?_
    intro td hd
    refine (inflateBlock_safe hl hd (by rw [List.length_take]; omega) (by rw [List.length_drop]; omega) _ r5 i5 out
      (by rw [left_eq]; omega)).mono ?_
    rintro x ⟨x1, x2, x3, _, _⟩
    exact ⟨x1, by rw [x2, d5, d4, d3, d2, d1], by omega, Or.inr ⟨hlit, hdist, hclen, r3.bits, by omega, by omega, by omega,
      hhead, Or.inr (Or.inl ⟨cl, r4.bits, l4, h7, hz, hcl, hco⟩)⟩⟩

theorem inflateOne_sound (pos btype : Nat) (hbt : btype < 4) (r : BitReader) (hr : r.Inv) (out : List UInt8)
    (hpos : pos + 2 + r.bits.length = 8 * r.data.length) : Safe (inflateOne btype r out) (OneRead pos btype r out) := by
  unfold inflateOne
  split
  · rename_i h0
    subst h0
    refine (inflateStored_sound r hr out).mono ?_
    rintro x ⟨x1, x2, pad, bytes, hpad, hlen, hb, ho⟩
    have s := congrArg List.length hb
    simp only [List.length_append, bitsLSB_length] at s
    refine ⟨x1, x2, by omega, Or.inl ⟨[false, false] ++ pad ++ bitsLSB bytes.length 16 ++
      bitsLSB (65535 - bytes.length) 16 ++ bytesLSB bytes, bytes.map .lit, ?_, ?_, ?_⟩⟩
    · conv => lhs; rw [hb]
      simp only [List.append_assoc]
      rfl
    · refine Block.stored pad bytes (by omega) ?_ hlen
      have hc := r.consumed_eq hr
      have hc2 := hr.cons
      unfold BitReader.consumed at hc
      omega
    · rw [expandFrom_lits, ho]
  · split
    · rename_i h1
      subst h1
      unfold inflateFixed
      refine Safe.bind (fromLengths_safe _) ?_
      intro tl hl
      refine Safe.bind (fromLengths_safe _) ?_
      intro td hd
      refine (inflateBlock_sound hl hd (by rw [fixedLitLengths_eq, fixedLit_length]; decide)
        (by rw [fixedDistLengths_eq, fixedDist_length]; decide) fixedLit_ok fixedDist_ok _ r hr out
        (by rw [left_eq]; omega)).mono ?_
      rintro x ⟨x1, x2, bs, ts, x3, x4, x5⟩
      have s := congrArg List.length x3
      rw [List.length_append] at s
      refine ⟨x1, x2, by omega, Or.inl ⟨[true, false] ++ bs, ts, ?_, Block.fixed x4, x5⟩⟩
      rw [x3, List.append_assoc]
      rfl
    · split
      · rename_i h2
        subst h2
        exact inflateDynamic_sound pos r hr out
      · exact Safe.invalid

theorem inflateLoop_sound (fuel pos : Nat) (r : BitReader) (hr : r.Inv) (out : List UInt8) (hf : r.bits.length < fuel)
    (hpos : pos + r.bits.length = 8 * r.data.length) :
    Safe (inflateLoop fuel r out) (fun o =>
      (∃ bs rest ts, r.bits = bs ++ rest ∧ Stream false pos bs ts ∧ expandFrom out ts = some o) ∨
      (∃ front final rest ts mid, r.bits = front ++ final :: rest ∧ Blocks pos front ts ∧ expandFrom out ts = some mid ∧
        BadHeader rest)) := by
  induction fuel generalizing pos r out with
  | zero => omega
  | succ fuel ih =>
    unfold inflateLoop
    refine Safe.bind (readBits_sound r hr 1 (by decide)) ?_
    rintro ⟨bf, r1⟩ ⟨v1, i1, b1, d1⟩
    refine Safe.bind (readBits_sound r1 i1 2 (by decide)) ?_
    rintro ⟨bt, r2⟩ ⟨v2, i2, b2, d2⟩
    simp only at v1 b1 d1 i1 v2 b2 d2 i2 ⊢
    have s1 := congrArg List.length b1
    have s2 := congrArg List.length b2
    simp only [List.length_append, bitsLSB_length] at s1 s2
    refine Safe.bind (inflateOne_sound (pos + 1) bt v2 r2 i2 out (by rw [d2, d1]; omega)) ?_
    rintro ⟨o, r3⟩ ⟨i3, d3, l3, hblk⟩
    simp only at i3 d3 l3 hblk ⊢
    rw [← b2] at hblk
    have hbit : r.bits = (bf % 2 == 1) :: r1.bits := by rw [b1]; simp [bitsLSB]
    rcases hblk with ⟨bs, ts, hb, hk, he⟩ | hbad
    · split
      · rename_i h1
        refine Safe.pure (Or.inl ⟨true :: bs, r3.bits, ts, ?_, Stream.last hk, he⟩)
        rw [hbit, hb, h1]
        rfl
      · rename_i h1
        have h0 : bf = 0 := by omega
        have s3 := congrArg List.length hb
        rw [List.length_append] at s3
        refine (ih (pos + 1 + bs.length) r3 i3 o (by omega) (by rw [d3, d2, d1]; omega)).mono ?_
        intro x hx
        have hb' : r.bits = (false :: bs) ++ r3.bits := by rw [hbit, hb, h0]; rfl
        rcases hx with ⟨bs', rest, ts', x1, x2, x3⟩ | ⟨front, final, rest, ts', mid, x1, x2, x3, x4⟩
        · refine Or.inl ⟨false :: bs ++ bs', rest, ts ++ ts', ?_, Stream.more hk x2, ?_⟩
          · rw [hb', x1, List.append_assoc]
          · rw [expandFrom_append, he]; exact x3
        · refine Or.inr ⟨false :: bs ++ front, final, rest, ts ++ ts', mid, ?_, Blocks.more hk x2, ?_, x4⟩
          · rw [hb', x1, List.append_assoc]
          · rw [expandFrom_append, he]; exact x3
    · have hfaulty : ∃ front final rest ts mid, r.bits = front ++ final :: rest ∧ Blocks pos front ts ∧
          expandFrom out ts = some mid ∧ BadHeader rest :=
        ⟨[], _, r1.bits, [], out, hbit, Blocks.nil pos, rfl, hbad⟩
      split
      · exact Safe.pure (Or.inr hfaulty)
      · refine (inflateLoop_safe fuel r3 i3 o (by omega)).mono ?_
        intro x _
        exact Or.inr hfaulty

theorem inflate_sound {bytes out : List UInt8} (h : inflate bytes = .ok out) :
    BeginsWith false bytes out ∨ Faulty bytes := by
  have := (inflateLoop_sound (8 * bytes.length + 1) 0 ⟨bytes, 0, 0, 0⟩ (BitReader.inv_new bytes) []
    (by rw [BitReader.bits_new, bytesLSB_length]; omega) (by rw [BitReader.bits_new, bytesLSB_length]; simp)).of_ok h
  rw [BitReader.bits_new] at this
  rcases this with ⟨bs, rest, ts, h1, h2, h3⟩ | ⟨front, final, rest, ts, mid, h1, h2, h3, h4⟩
  · exact Or.inl ⟨bs, rest, ts, h1, h2, h3⟩
  · exact Or.inr ⟨front, final, rest, ts, mid, h1, h2, h3, h4⟩

/-! ### Bad headers are not in proper streams -/

/-- Reading a field tells its value. -/
theorem field_unique {a b n : Nat} {x y : List Bool} (ha : a < 2 ^ n) (hb : b < 2 ^ n)
    (h : bitsLSB a n ++ x = bitsLSB b n ++ y) : a = b ∧ x = y := by
  obtain ⟨h1, h2⟩ := List.append_inj h (by simp)
  exact ⟨bitsLSB_inj ha hb h1, h2⟩

/-- A reader at the start of any bits there are: those of a byte string, some way in. -/
theorem bad_not_block {pos : Nat} {bs tail : List Bool} {ts : List Token} (r : BitReader) (hr : r.Inv)
    (hb : r.bits = bs ++ tail) (h : Block false pos bs ts) (hbad : BadHeader r.bits) : False := by
  obtain ⟨hlit', hdist', hclen', t', g1, g2, g3, g4, g5⟩ := hbad
  rw [hb] at g4
  cases h with
  | stored => simp at g4
  | fixed => simp at g4
  | dynamic hlit hdist hclen cl lit dist h1 h2 h3 h4 h5 h6 h7 h8 h9 h10 h11 h12 hbody =>
    rename_i clbits bs'
    simp only [Bool.false_eq_true, if_false, clCodeOK, dataCodeOK] at h2 h5 h11 h12
    rw [show ([false, true] : List Bool) = bitsLSB 2 2 by rfl] at hb g4
    simp only [List.append_assoc] at g4 hb
    obtain ⟨_, g41⟩ := field_unique (by decide) (by decide) g4
    obtain ⟨e1, g42⟩ := field_unique (by omega) (by omega) g41
    obtain ⟨e2, g43⟩ := field_unique (by omega) (by omega) g42
    obtain ⟨e3, g44⟩ := field_unique (by omega) (by omega) g43
    subst e1 e2 e3
    obtain ⟨r1, _, i1, b1, d1⟩ := r.readBits_field hr 2 2 _ (by decide) (by decide) hb
    obtain ⟨r2, _, i2, b2, d2⟩ := r1.readBits_field i1 5 hlit _ (by decide) (by omega) b1
    obtain ⟨r3, _, i3, b3, d3⟩ := r2.readBits_field i2 5 hdist _ (by decide) (by omega) b2
    obtain ⟨r4, _, i4, b4, d4⟩ := r3.readBits_field i3 4 hclen _ (by decide) (by omega) b3
    obtain ⟨r5, e5, i5, b5, d5⟩ := readCl_spec cl h6 h4 (hclen + 4) h7 r4 i4 _ b4
    rcases g5 with g5 | ⟨cl', tl, k1, k2, k3, k4, k5⟩ | ⟨cl', lit', dist', clbits', tl, k1, k2, k3, k4, k5, k6, k7, k8, k9⟩
    · omega
    · obtain ⟨r5', e5', _⟩ := readCl_spec cl' k2 k1 (hclen + 4) k3 r4 i4 tl (by rw [b4, g44, k4])
      rw [e5] at e5'
      cases e5'
      exact k5 h5
    · rw [List.append_assoc] at k5
      obtain ⟨r5', e5', i5', b5', d5'⟩ := readCl_spec cl' k2 k1 (hclen + 4) k3 r4 i4 (clbits' ++ tl) (by rw [b4, g44, k5])
      rw [e5] at e5'
      cases e5'
      obtain ⟨tc, f1, hc⟩ := fromLengths_ok cl h5.1
      have hall : (lit ++ dist).length = hlit + 257 + (hdist + 1) := by rw [List.length_append, h8, h9]
      have hall' : (lit' ++ dist').length = hlit + 257 + (hdist + 1) := by rw [List.length_append, k7, k8]
      obtain ⟨r6, e6, _⟩ := readLengths_spec h5 hc (by omega) h10 (hlit + 257 + (hdist + 1) + 1) r5 _
        (by rw [hall]; omega) i5 b5
      obtain ⟨r6', e6', _⟩ := readLengths_spec h5 hc (by omega) k6 (hlit + 257 + (hdist + 1) + 1) r5 _
        (by rw [hall']; omega) i5 b5'
      rw [hall] at e6
      rw [hall', e6] at e6'
      injection e6' with e6'
      injection e6' with e6' _
      obtain ⟨q1, q2⟩ := List.append_inj e6' (by omega)
      subst q1 q2
      exact k9 ⟨h11, h12⟩

theorem stream_cons {pos : Nat} {bs : List Bool} {ts : List Token} (h : Stream false pos bs ts) :
    ∃ b bs1 ts1 rest ts2, bs = b :: bs1 ++ rest ∧ ts = ts1 ++ ts2 ∧ Block false (pos + 1) bs1 ts1 ∧
      ((b = true ∧ rest = [] ∧ ts2 = []) ∨ (b = false ∧ Stream false (pos + 1 + bs1.length) rest ts2)) := by
  cases h with
  | last h => exact ⟨true, _, _, [], [], by simp, by simp, h, Or.inl ⟨rfl, rfl, rfl⟩⟩
  | more h h' => exact ⟨false, _, _, _, _, rfl, rfl, h, Or.inr ⟨rfl, h'⟩⟩

theorem stream_not_faulty {front : List Bool} {ts : List Token} {pos : Nat} (hf : Blocks pos front ts) :
    ∀ (r : BitReader) (bs rest final : List Bool) (b : Bool) (ts' : List Token) (out mid o : List UInt8), r.Inv →
      pos + r.bits.length = 8 * r.data.length → r.bits = front ++ b :: final → r.bits = bs ++ rest →
      Stream false pos bs ts' → expandFrom out ts = some mid → expandFrom out ts' = some o → BadHeader final → False := by
  induction hf with
  | nil pos =>
    intro r bs rest final b ts' out mid o hr hpos hb hb' hs _ _ hbad
    obtain ⟨b', bs1, ts1, rest', ts2, rfl, rfl, hk, _⟩ := stream_cons hs
    have e : b :: final = b' :: (bs1 ++ (rest' ++ rest)) := by
      rw [List.nil_append] at hb
      rw [← hb, hb']; simp
    injection e with e1 e2
    subst e1
    obtain ⟨r1, _, i1, b1, d1⟩ := r.readBits_field hr 1 b.toNat final (by decide) (by cases b <;> decide)
      (by rw [hb]; cases b <;> rfl)
    exact bad_not_block r1 i1 (by rw [b1, e2]) hk (by rw [b1]; exact hbad)
  | more hk0 _ ih =>
    rename_i pos bs0 ts0 rest0 ts0' _
    intro r bs rest final b ts' out mid o hr hpos hb hb' hs he he' hbad
    obtain ⟨b', bs1, ts1, rest', ts2, rfl, rfl, hk, hrest⟩ := stream_cons hs
    have e : false :: (bs0 ++ (rest0 ++ b :: final)) = b' :: (bs1 ++ (rest' ++ rest)) := by
      have h1 := hb
      rw [hb'] at h1
      simpa using h1.symm
    injection e with e1 e2
    subst e1
    rw [expandFrom_append] at he he'
    rcases hm0 : expandFrom out ts0 with _ | m0
    · rw [hm0] at he; cases he
    rcases hm1 : expandFrom out ts1 with _ | m1
    · rw [hm1] at he'; cases he'
    rw [hm0] at he
    rw [hm1] at he'
    have hb1 : r.bits = bitsLSB 0 1 ++ (bs0 ++ (rest0 ++ b :: final)) := by rw [hb]; simp [bitsLSB]
    obtain ⟨r1, _, i1, b1, d1⟩ := r.readBits_field hr 1 0 _ (by decide) (by decide) hb1
    have hl1 : r1.bits.length + 1 = r.bits.length := by rw [hb1, b1]; simp; omega
    obtain ⟨bt, r2, g1, r3, g2, i3, b3, d3⟩ := block_spec hk0 r1 i1 (rest0 ++ b :: final) b1 (by rw [d1]; omega) out m0 hm0
    obtain ⟨bt', r2', g1', r3', g2', i3', b3', d3'⟩ := block_spec hk r1 i1 (rest' ++ rest) (by rw [b1, e2])
      (by rw [d1]; omega) out m1 hm1
    rw [g1] at g1'
    cases g1'
    rw [g2] at g2'
    cases g2'
    have hrr : rest0 ++ b :: final = rest' ++ rest := by rw [← b3, b3']
    have hbs : bs0 = bs1 := by
      rw [hrr] at e2
      exact List.append_cancel_right e2
    subst hbs
    rcases hrest with ⟨h, _⟩ | ⟨_, hs'⟩
    · cases h
    · have hl3 : bs0.length + r3.bits.length = r1.bits.length := by rw [b3, b1]; simp
      exact ih r3 rest' rest final b ts2 m0 mid o i3 (by rw [d3, d1]; omega) b3 b3' hs' he he' hbad

theorem not_faulty {bytes out : List UInt8} (h : BeginsWith false bytes out) : ¬ Faulty bytes := by
  obtain ⟨bits, rest, ts, hb, hs, he⟩ := h
  rintro ⟨front, b, final, ts', mid, hb', hbl, he', hbad⟩
  refine stream_not_faulty hbl ⟨bytes, 0, 0, 0⟩ bits rest final b ts [] mid out (BitReader.inv_new bytes) ?_ ?_ ?_ hs he'
    he hbad
  · rw [BitReader.bits_new, bytesLSB_length]; simp
  · rw [BitReader.bits_new, hb']
  · rw [BitReader.bits_new, hb]

end Pixo.Inflate
