import Verif.Proof.Inflate
/-
`inflate` never panics or loops, on any input.
-/
namespace Pixo.Inflate
open Spec Spec.Rfc1951

/-- What one decoding step guarantees: fewer bits are left, and the output grows by at most
129 bytes for each bit used. -/
structure Step (r : BitReader) (out : List UInt8) (x : List UInt8 × BitReader) : Prop where
  inv : x.2.Inv
  data : x.2.data = r.data
  le : x.2.bits.length ≤ r.bits.length
  grow : x.1.length + 129 * x.2.bits.length ≤ out.length + 129 * r.bits.length
  pre : out <+: x.1

theorem copyBytes_prefix {n d : Nat} {out o : List UInt8} (h : copyBytes n d out = some o) :
    out <+: o := by
  induction n generalizing out with
  | zero => simp only [copyBytes, Option.some.injEq] at h; subst h; exact List.prefix_refl _
  | succ n ih =>
    unfold copyBytes at h
    split at h
    · split at h
      · exact List.IsPrefix.trans (List.prefix_append _ _) (ih h)
      · cases h
    · cases h

theorem inflateMatch_safe {dist : List Nat} {td : HuffmanTable} (hd : TableOf td dist)
    (hdn : dist.length ≤ 4096) (r : BitReader) (hr : r.Inv) (out : List UInt8) (s : Nat)
    (hs : 257 ≤ s ∧ s ≤ 285) :
    Safe (inflateMatch r out s td) (fun x => x.2.Inv ∧ x.2.data = r.data ∧
      x.2.bits.length + 1 ≤ r.bits.length ∧ x.1.length ≤ out.length + 258 ∧ out <+: x.1) := by
  obtain ⟨⟨lb, lx⟩, hp⟩ := lengthTable_some (i := s - 257) (by omega)
  obtain ⟨_, hlb, hlx, hlx5, _, hle⟩ := lengthTable_get hp
  unfold inflateMatch
  simp only [getChecked, hlb, hlx, ok_bind]
  refine Safe.bind (readBits_safe r hr lx (by omega)) ?_
  rintro ⟨e, r1⟩ ⟨he, i1, b1, d1⟩
  simp only at he i1 b1 d1 ⊢
  refine Safe.bind (decode_safe hd hdn r1 i1) ?_
  rintro ⟨j, r2⟩ ⟨_, i2, b2, d2⟩
  simp only at i2 b2 d2 ⊢
  split
  · exact Safe.invalid
  · rename_i hj
    obtain ⟨⟨db, dx⟩, hq⟩ := distTable_some (i := j) (by omega)
    obtain ⟨_, hdb, hdx, hdx13, hdb1⟩ := distTable_get hq
    simp only [hdb, hdx, ok_bind]
    refine Safe.bind (readBits_safe r2 i2 dx (by omega)) ?_
    rintro ⟨f, r3⟩ ⟨hf, i3, b3, d3⟩
    simp only at hf i3 b3 d3 ⊢
    split
    · exact Safe.invalid
    · rename_i hle'
      obtain ⟨o, c1, c2, c3⟩ := copyLoop_start (db + f) (by omega) (lb + e) out (by omega)
      simp only [c1, ok_bind, pure, Except.pure]
      exact Safe.ok ⟨i3, by rw [d3, d2, d1], by simp only; omega, by simp only; omega, copyBytes_prefix c2⟩

theorem inflateBlock_safe {lit dist : List Nat} {tl td : HuffmanTable}
    (hl : TableOf tl lit) (hd : TableOf td dist)
    (hln : lit.length ≤ 4096) (hdn : dist.length ≤ 4096) (fuel : Nat) (r : BitReader) (hr : r.Inv)
    (out : List UInt8) (hf : r.bits.length < fuel) :
    Safe (inflateBlock fuel r out tl td) (Step r out) := by
  induction fuel generalizing r out with
  | zero => omega
  | succ fuel ih =>
    unfold inflateBlock
    refine Safe.bind (decode_safe hl hln r hr) ?_
    rintro ⟨s, r1⟩ ⟨_, i1, b1, d1⟩
    simp only at i1 b1 d1 ⊢
    split
    · refine (ih r1 i1 (out ++ [UInt8.ofNat s]) (by omega)).mono ?_
      rintro x ⟨x1, x2, x3, x4, x5⟩
      refine ⟨x1, by rw [x2, d1], by omega, ?_, List.IsPrefix.trans (List.prefix_append _ _) x5⟩
      rw [List.length_append, List.length_singleton] at x4
      omega
    · split
      · exact Safe.pure ⟨i1, d1, by simp only; omega, by simp only; omega, List.prefix_refl _⟩
      · split
        · rename_i h1 h2 h3
          -- a match uses one bit for the length symbol and one for the distance symbol
          refine Safe.bind (inflateMatch_safe hd hdn r1 i1 out s (by omega)) ?_
          rintro ⟨o, r2⟩ ⟨i2, d2, b2, l2, p2⟩
          simp only at i2 d2 b2 l2 p2 ⊢
          refine (ih r2 i2 o (by omega)).mono ?_
          rintro x ⟨x1, x2, x3, x4, x5⟩
          exact ⟨x1, by rw [x2, d2, d1], by omega, by omega, List.IsPrefix.trans p2 x5⟩
        · exact Safe.invalid

theorem inflateStored_safe (r : BitReader) (hr : r.Inv) (out : List UInt8) :
    Safe (inflateStored r out) (Step r out) := by
  unfold inflateStored
  obtain ⟨i0, b0, d0, a0⟩ := r.align_spec hr
  have hb0 : r.alignToByte.bits.length ≤ r.bits.length := by
    rw [b0, List.length_drop]; omega
  refine Safe.bind (readBits_safe _ i0 16 (by decide)) ?_
  rintro ⟨len, r1⟩ ⟨_, i1, b1, d1⟩
  simp only at i1 b1 d1 ⊢
  refine Safe.bind (readBits_safe _ i1 16 (by decide)) ?_
  rintro ⟨nlen, r2⟩ ⟨_, i2, b2, d2⟩
  simp only at i2 b2 d2 ⊢
  split
  · exact Safe.invalid
  · have halign : r2.bitsInBuf % 8 = 0 := by
      have hc := r2.consumed_eq i2
      have hc2 := i2.cons
      unfold BitReader.consumed at hc
      have hc' := r.alignToByte.consumed_eq i0
      have hc2' := i0.cons
      unfold BitReader.consumed at hc'
      rw [d2, d1] at hc
      omega
    by_cases hl : 8 * len ≤ r2.bits.length
    · obtain ⟨bs, r3, e3, l3, b3, i3, d3⟩ := r2.readBytes_ok i2 halign len hl
      simp only [e3, bind, Except.bind, pure, Except.pure]
      have hl3 := congrArg List.length b3
      rw [List.length_append, bytesLSB_length, l3] at hl3
      refine Safe.ok ⟨i3, by rw [d3, d2, d1, d0], by simp only; omega, ?_, List.prefix_append _ _⟩
      simp only [List.length_append, l3]; omega
    · rw [r2.readBytes_err i2 halign len (by omega)]; exact Safe.invalid

theorem readClLengths_safe (order : List Nat) (ho : ∀ s ∈ order, s < 19) (acc : List Nat)
    (hacc : acc.length = 19) (r : BitReader) (hr : r.Inv) :
    Safe (readClLengths order acc r) (fun x => x.1.length = 19 ∧ x.2.Inv ∧
      x.2.data = r.data ∧ x.2.bits.length ≤ r.bits.length) := by
  induction order generalizing acc r with
  | nil => exact Safe.ok ⟨hacc, hr, rfl, Nat.le_refl _⟩
  | cons s order ih =>
    unfold readClLengths
    refine Safe.bind (readBits_safe r hr 3 (by decide)) ?_
    rintro ⟨v, r1⟩ ⟨_, i1, b1, d1⟩
    simp only at i1 b1 d1 ⊢
    rw [if_pos (by have := ho s (by simp); omega)]
    refine (ih (fun s hs => ho s (by simp [hs])) (acc.set s v) (by simpa using hacc) r1 i1).mono ?_
    rintro x ⟨x1, x2, x3, x4⟩
    exact ⟨x1, x2, by rw [x3, d1], by omega⟩

theorem repeatLoop_safe (total v n : Nat) (ls : List Nat) (h : ls.length ≤ total)
    (h15 : ∀ l ∈ ls, l ≤ 15) (hv : v ≤ 15) :
    Safe (repeatLoop total v n ls) (fun x => x.length = ls.length + n ∧ x.length ≤ total ∧
      ∀ l ∈ x, l ≤ 15) := by
  induction n generalizing ls with
  | zero => exact Safe.ok ⟨rfl, h, h15⟩
  | succ n ih =>
    unfold repeatLoop
    split
    · exact Safe.invalid
    · refine (ih (ls ++ [v]) (by simp; omega) (by
        intro l hl
        rcases List.mem_append.mp hl with hl | hl
        · exact h15 l hl
        · simp at hl; omega)).mono ?_
      rintro x ⟨x1, x2, x3⟩
      simp at x1
      exact ⟨by omega, x2, x3⟩

theorem readLengths_safe {cl : List Nat} {t : HuffmanTable} (ht : TableOf t cl)
    (hn : cl.length ≤ 4096) (total fuel : Nat) (ls : List Nat) (r : BitReader) (hr : r.Inv)
    (hl : ls.length ≤ total) (h15 : ∀ l ∈ ls, l ≤ 15) (hf : total - ls.length < fuel) :
    Safe (readLengths t total fuel ls r) (fun x => x.1.length = total ∧ (∀ l ∈ x.1, l ≤ 15) ∧
      x.2.Inv ∧ x.2.data = r.data ∧ x.2.bits.length ≤ r.bits.length) := by
  induction fuel generalizing ls r with
  | zero => omega
  | succ fuel ih =>
    unfold readLengths
    split
    · refine Safe.bind (decode_safe ht hn r hr) ?_
      rintro ⟨s, r1⟩ ⟨_, i1, b1, d1⟩
      simp only at i1 b1 d1 ⊢
      -- the three repeat forms share one argument
      have rep : ∀ (v w base : Nat), v ≤ 15 → w ≤ 32 → 1 ≤ base →
          Safe (do
            let (n, r) ← r1.readBits w
            let ls ← repeatLoop total v (n + base) ls
            readLengths t total fuel ls r) (fun x => x.1.length = total ∧ (∀ l ∈ x.1, l ≤ 15) ∧
              x.2.Inv ∧ x.2.data = r.data ∧ x.2.bits.length ≤ r.bits.length) := by
        intro v w base hv hw hbase
        refine Safe.bind (readBits_safe r1 i1 w hw) ?_
        rintro ⟨n, r2⟩ ⟨_, i2, b2, d2⟩
        simp only at i2 b2 d2 ⊢
        refine Safe.bind (repeatLoop_safe total v (n + base) ls hl h15 hv) ?_
        rintro ls' ⟨l1, l2, l3⟩
        refine (ih ls' r2 i2 l2 l3 (by omega)).mono ?_
        rintro x ⟨x1, x2, x3, x4, x5⟩
        exact ⟨x1, x2, x3, by rw [x4, d2, d1], by omega⟩
      split
      · rename_i h
        refine (ih (ls ++ [s]) r1 i1 (by simp; omega) (by
          intro l hl
          rcases List.mem_append.mp hl with hl | hl
          · exact h15 l hl
          · simp at hl; omega) (by simp; omega)).mono ?_
        rintro x ⟨x1, x2, x3, x4, x5⟩
        exact ⟨x1, x2, x3, by rw [x4, d1], by omega⟩
      · split
        · split
          · exact Safe.invalid
          · rename_i prev hprev
            exact rep prev 2 3 (h15 prev (List.mem_of_getLast? hprev)) (by decide) (by decide)
        · split
          · exact rep 0 3 3 (by decide) (by decide) (by decide)
          · split
            · exact rep 0 7 11 (by decide) (by decide) (by decide)
            · exact Safe.invalid
    · exact Safe.ok ⟨by simp only; omega, h15, hr, rfl, Nat.le_refl _⟩

theorem inflateFixed_safe (r : BitReader) (hr : r.Inv) (out : List UInt8) :
    Safe (inflateFixed r out) (Step r out) := by
  unfold inflateFixed
  refine Safe.bind (fromLengths_safe _) ?_
  intro tl hl
  refine Safe.bind (fromLengths_safe _) ?_
  intro td hd
  exact inflateBlock_safe hl hd (by rw [fixedLitLengths_eq, fixedLit_length]; decide)
    (by rw [fixedDistLengths_eq, fixedDist_length]; decide) _ r hr out (by rw [left_eq]; omega)

theorem inflateDynamic_safe (r : BitReader) (hr : r.Inv) (out : List UInt8) :
    Safe (inflateDynamic r out) (Step r out) := by
  unfold inflateDynamic
  refine Safe.bind (readBits_safe r hr 5 (by decide)) ?_
  rintro ⟨hlit, r1⟩ ⟨v1, i1, b1, d1⟩
  refine Safe.bind (readBits_safe r1 i1 5 (by decide)) ?_
  rintro ⟨hdist, r2⟩ ⟨v2, i2, b2, d2⟩
  refine Safe.bind (readBits_safe r2 i2 4 (by decide)) ?_
  rintro ⟨hclen, r3⟩ ⟨v3, i3, b3, d3⟩
  simp only at v1 v2 v3 i1 b1 d1 i2 b2 d2 i3 b3 d3 ⊢
  have hall : ∀ s ∈ codeLengthOrder, s < 19 := by decide
  refine Safe.bind (readClLengths_safe (codeLengthOrder.take (hclen + 4))
    (fun s hs => hall s (List.mem_of_mem_take hs)) (List.replicate 19 0) List.length_replicate
    r3 i3) ?_
  rintro ⟨cl, r4⟩ ⟨l4, i4, d4, b4⟩
  simp only at l4 i4 d4 b4 ⊢
  refine Safe.bind (fromLengths_safe cl) ?_
  intro tc hc
  refine Safe.bind (readLengths_safe hc (by omega) (hlit + 257 + (hdist + 1))
    (hlit + 257 + (hdist + 1) + 1) [] r4 i4 (by simp) (by simp) (by simp)) ?_
  rintro ⟨ls, r5⟩ ⟨l5, _, i5, d5, b5⟩
  simp only at l5 i5 d5 b5 ⊢
  refine Safe.bind (fromLengths_safe _) ?_
  intro tl hl
  refine Safe.bind (fromLengths_safe _) ?_
  intro td hd
  refine (inflateBlock_safe hl hd (by rw [List.length_take]; omega)
    (by rw [List.length_drop]; omega) _ r5 i5 out (by rw [left_eq]; omega)).mono ?_
  rintro x ⟨x1, x2, x3, x4, x5⟩
  exact ⟨x1, by rw [x2, d5, d4, d3, d2, d1], by omega, by omega, x5⟩

theorem inflateLoop_safe (fuel : Nat) (r : BitReader) (hr : r.Inv) (out : List UInt8)
    (hf : r.bits.length < fuel) :
    Safe (inflateLoop fuel r out) (fun o => o.length ≤ out.length + 129 * r.bits.length ∧ out <+: o) := by
  induction fuel generalizing r out with
  | zero => omega
  | succ fuel ih =>
    unfold inflateLoop
    refine Safe.bind (readBits_safe r hr 1 (by decide)) ?_
    rintro ⟨bf, r1⟩ ⟨_, i1, b1, d1⟩
    refine Safe.bind (readBits_safe r1 i1 2 (by decide)) ?_
    rintro ⟨bt, r2⟩ ⟨_, i2, b2, d2⟩
    simp only at b1 d1 i1 b2 d2 i2 ⊢
    have hone : Safe (inflateOne bt r2 out) (Step r2 out) := by
      unfold inflateOne
      split
      · exact inflateStored_safe r2 i2 out
      · split
        · exact inflateFixed_safe r2 i2 out
        · split
          · exact inflateDynamic_safe r2 i2 out
          · exact Safe.invalid
    refine Safe.bind hone ?_
    rintro ⟨o, r3⟩ ⟨i3, d3, b3, g3, p3⟩
    simp only at i3 d3 b3 g3 p3 ⊢
    split
    · exact Safe.pure ⟨by omega, p3⟩
    · refine (ih r3 i3 o (by omega)).mono ?_
      rintro x ⟨x1, x2⟩
      exact ⟨by omega, List.IsPrefix.trans p3 x2⟩

theorem inflate_safe (data : List UInt8) :
    Safe (inflate data) (fun o => o.length ≤ 1032 * data.length) := by
  unfold inflate
  have hb : (⟨data, 0, 0, 0⟩ : BitReader).bits.length = 8 * data.length := by
    rw [BitReader.bits_new, bytesLSB_length]
  refine (inflateLoop_safe _ _ (BitReader.inv_new data) [] (by omega)).mono ?_
  rintro o ⟨h, _⟩
  rw [hb] at h
  simp only [List.length_nil] at h
  omega

theorem inflateZlib_safe (adler : List UInt8 → Nat) (data : List UInt8) (expected : Option Nat) :
    Safe (inflateZlib adler data expected) (fun o => o.length ≤ 1032 * data.length ∧
      ∀ e, expected = some e → o.length = e) := by
  unfold inflateZlib
  split
  · rename_i cmf flg rest
    split
    · exact Safe.invalid
    split
    · exact Safe.invalid
    split
    · exact Safe.invalid
    split
    · exact Safe.unsupported
    refine Safe.bind (inflate_safe _) ?_
    intro o ho
    have ho' : o.length ≤ 1032 * (cmf :: flg :: rest).length := by
      rw [List.length_take] at ho
      simp only [List.length_cons]; omega
    simp only
    split
    · exact Safe.invalid
    · split
      · split
        · exact Safe.invalid
        · rename_i e he
          refine Safe.pure ⟨ho', ?_⟩
          intro e' he'
          injection he' with he'
          omega
      · exact Safe.pure ⟨ho', by simp⟩
  · exact Safe.invalid

end Pixo.Inflate
