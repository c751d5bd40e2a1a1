import Verif.Model.InflateCap
import Verif.Props.PngDecode
import Verif.Props.Inflate
import Verif.Props.Resize
/-
How much decompressed data the PNG decoder holds while it decodes (C107).
-/
namespace Pixo.Props
open Pixo Spec Spec.Rfc1951

/-! ### A computation under a limit -/

/-- `x`, run under a limit, is aborted or gives what `y` gives; its values satisfy `Q`. -/
def Capped {α : Type} (x y : R α) (Q : α → Prop) : Prop := x = .error .panic ∨ (x = y ∧ ∀ a, x = .ok a → Q a)

theorem Capped.bind {α β : Type} {x y : R α} {f g : α → R β} {P : α → Prop} {Q : β → Prop} (h : Capped x y P)
    (hf : ∀ a, P a → Capped (f a) (g a) Q) : Capped (x >>= f) (y >>= g) Q := by
  rcases h with h | ⟨h, hp⟩
  · left; rw [h]; rfl
  · subst h
    cases x with
    | ok a => exact hf a (hp a rfl)
    | error e => right; exact ⟨rfl, fun a h => by cases h⟩

theorem Capped.refl {α : Type} (x : R α) : Capped x x (fun _ => True) := Or.inr ⟨rfl, fun _ _ => trivial⟩

theorem Capped.err {α : Type} {Q : α → Prop} (e : Err) : Capped (.error e) (.error e) Q :=
  Or.inr ⟨rfl, fun _ h => by cases h⟩

theorem Capped.ok {α : Type} {Q : α → Prop} {a : α} (h : Q a) : Capped (.ok a) (.ok a) Q :=
  Or.inr ⟨rfl, fun b e => by cases e; exact h⟩

theorem Capped.pure {α : Type} {Q : α → Prop} {a : α} (h : Q a) : Capped (Pure.pure a : R α) (Pure.pure a) Q :=
  Capped.ok h

theorem Capped.hold {α : Type} {limit n : Nat} {x y : R α} {Q : α → Prop} (h : n ≤ limit → Capped x y Q) :
    Capped (Inflate.hold limit n >>= fun _ => x) y Q := by
  unfold Inflate.hold
  by_cases c : n ≤ limit
  · rw [if_pos c]; exact h c
  · rw [if_neg c]; exact Or.inl rfl

/-- Two continuations that agree on what a computation can give. -/
theorem same_bind {α β : Type} {x : R α} {f g : α → R β} {P : α → Prop} (h : Safe x P) (hf : ∀ a, P a → f a = g a) :
    x >>= f = x >>= g := by
  cases x with
  | ok a => exact hf a (h.of_ok rfl)
  | error e => rfl

theorem bind_same {α β : Type} (x : R α) {f g : α → R β} (hf : ∀ a, f a = g a) : x >>= f = x >>= g := by
  rw [show f = g from funext hf]

theorem hold_ok {α : Type} {limit n : Nat} (h : n ≤ limit) (x : R α) : (Inflate.hold limit n >>= fun _ => x) = x := by
  unfold Inflate.hold; rw [if_pos h]; rfl

/-! ### Lengths -/

open Inflate

theorem copyLoop_length : ∀ (n start d i : Nat) (out o : List UInt8), copyLoop start d n i out = .ok o →
    o.length = out.length + n
  | 0, _, _, _, _, _, h => by unfold copyLoop at h; cases h; rfl
  | n + 1, start, d, i, out, o, h => by
    unfold copyLoop at h
    split at h
    · cases h
    · split at h
      · cases h
      · have := copyLoop_length n _ _ _ _ _ h
        rw [this, List.length_append, List.length_singleton]; omega

theorem drainBytes_length : ∀ (k : Nat) (r : BitReader) (acc : List UInt8),
    (BitReader.drainBytes k r acc).1.length = acc.length + k
  | 0, _, _ => rfl
  | k + 1, r, acc => by
    unfold BitReader.drainBytes
    rw [drainBytes_length k, List.length_append, List.length_singleton]; omega

theorem readBytes_length {r r' : BitReader} {n : Nat} {bs : List UInt8} (h : r.readBytes n = .ok (bs, r')) :
    bs.length = n := by
  unfold BitReader.readBytes at h
  have hd := drainBytes_length (min (r.bitsInBuf / 8) n) r []
  rw [List.length_nil] at hd
  dsimp only at h
  split at h
  · cases h
  · cases h
    rw [List.length_append, List.length_take, List.length_drop, hd]
    omega

/-! ### Under a limit the decoder is aborted or unchanged -/

theorem inflateStored_capped (limit : Nat) (r : BitReader) (out : List UInt8) :
    Capped (inflateStoredCap limit r out) (inflateStored r out) (fun x => x.1.length ≤ limit) := by
  unfold inflateStoredCap inflateStored
  refine Capped.bind (Capped.refl _) ?_
  rintro ⟨len, r1⟩ -
  refine Capped.bind (Capped.refl _) ?_
  rintro ⟨nlen, r2⟩ -
  dsimp only
  by_cases c : len ≠ 65535 - nlen
  · rw [if_pos c, if_pos c]; exact Capped.err _
  rw [if_neg c, if_neg c]
  refine Capped.hold fun hl => ?_
  refine Capped.bind (P := fun x => x.1.length = len) (Or.inr ⟨rfl, ?_⟩) ?_
  · rintro ⟨bs, r3⟩ e; exact readBytes_length e
  · rintro ⟨bs, r3⟩ e
    dsimp only at e ⊢
    exact Capped.pure (by dsimp only; rw [List.length_append, e]; exact hl)

theorem inflateMatch_capped (limit : Nat) (r : BitReader) (out : List UInt8) (s : Nat) (td : HuffmanTable) :
    Capped (inflateMatchCap limit r out s td) (inflateMatch r out s td) (fun x => x.1.length ≤ limit) := by
  unfold inflateMatchCap inflateMatch
  refine Capped.bind (Capped.refl _) fun lb _ => ?_
  refine Capped.bind (Capped.refl _) fun lx _ => ?_
  refine Capped.bind (Capped.refl _) ?_
  rintro ⟨e, r1⟩ -
  refine Capped.bind (Capped.refl _) ?_
  rintro ⟨j, r2⟩ -
  dsimp only
  by_cases c : j ≥ 30
  · rw [if_pos c, if_pos c]; exact Capped.err _
  rw [if_neg c, if_neg c]
  refine Capped.bind (Capped.refl _) fun db _ => ?_
  refine Capped.bind (Capped.refl _) fun dx _ => ?_
  refine Capped.bind (Capped.refl _) ?_
  rintro ⟨f, r3⟩ -
  dsimp only
  by_cases c : db + f > out.length
  · rw [if_pos c, if_pos c]; exact Capped.err _
  rw [if_neg c, if_neg c]
  refine Capped.hold fun hl => ?_
  refine Capped.bind (P := fun o => o.length = out.length + (lb + e)) (Or.inr ⟨rfl, fun o h => copyLoop_length _ _ _ _ _ _ h⟩) ?_
  intro o ho
  exact Capped.pure (by dsimp only; rw [ho]; exact hl)

theorem inflateBlock_capped (limit : Nat) : ∀ (fuel : Nat) (r : BitReader) (out : List UInt8) (tl td : HuffmanTable),
    out.length ≤ limit →
    Capped (inflateBlockCap limit fuel r out tl td) (inflateBlock fuel r out tl td) (fun x => x.1.length ≤ limit)
  | 0, _, _, _, _, _ => Capped.err _
  | fuel + 1, r, out, tl, td, ho => by
    unfold inflateBlockCap inflateBlock
    refine Capped.bind (Capped.refl _) ?_
    rintro ⟨s, r1⟩ -
    dsimp only
    by_cases c : s ≤ 255
    · rw [if_pos c, if_pos c]
      refine Capped.hold fun hl => ?_
      exact inflateBlock_capped limit fuel _ _ _ _ (by rw [List.length_append, List.length_singleton]; exact hl)
    rw [if_neg c, if_neg c]
    by_cases c : s = 256
    · rw [if_pos c, if_pos c]; exact Capped.pure ho
    rw [if_neg c, if_neg c]
    by_cases c : s ≤ 285
    · rw [if_pos c, if_pos c]
      refine Capped.bind (inflateMatch_capped limit _ _ _ _) ?_
      rintro ⟨o, r2⟩ h2
      exact inflateBlock_capped limit fuel _ _ _ _ h2
    · rw [if_neg c, if_neg c]; exact Capped.err _

theorem inflateOne_capped (limit bt : Nat) (r : BitReader) (out : List UInt8) (ho : out.length ≤ limit) :
    Capped (inflateOneCap limit bt r out) (inflateOne bt r out) (fun x => x.1.length ≤ limit) := by
  unfold inflateOneCap inflateOne
  by_cases c : bt = 0
  · rw [if_pos c, if_pos c]; exact inflateStored_capped _ _ _
  rw [if_neg c, if_neg c]
  by_cases c : bt = 1
  · rw [if_pos c, if_pos c]
    unfold inflateFixedCap inflateFixed
    refine Capped.bind (Capped.refl _) fun lit _ => ?_
    refine Capped.bind (Capped.refl _) fun dist _ => ?_
    exact inflateBlock_capped _ _ _ _ _ _ ho
  rw [if_neg c, if_neg c]
  by_cases c : bt = 2
  · rw [if_pos c, if_pos c]
    unfold inflateDynamicCap inflateDynamic
    refine Capped.bind (Capped.refl _) ?_
    rintro ⟨hlit, r1⟩ -
    refine Capped.bind (Capped.refl _) ?_
    rintro ⟨hdist, r2⟩ -
    refine Capped.bind (Capped.refl _) ?_
    rintro ⟨hclen, r3⟩ -
    refine Capped.bind (Capped.refl _) ?_
    rintro ⟨cl, r4⟩ -
    refine Capped.bind (Capped.refl _) fun tc _ => ?_
    refine Capped.bind (Capped.refl _) ?_
    rintro ⟨ls, r5⟩ -
    refine Capped.bind (Capped.refl _) fun lit _ => ?_
    refine Capped.bind (Capped.refl _) fun dist _ => ?_
    exact inflateBlock_capped _ _ _ _ _ _ ho
  · rw [if_neg c, if_neg c]; exact Capped.err _

theorem inflateLoop_capped (limit : Nat) : ∀ (fuel : Nat) (r : BitReader) (out : List UInt8), out.length ≤ limit →
    Capped (inflateLoopCap limit fuel r out) (inflateLoop fuel r out) (fun o => o.length ≤ limit)
  | 0, _, _, _ => Capped.err _
  | fuel + 1, r, out, ho => by
    unfold inflateLoopCap inflateLoop
    refine Capped.bind (Capped.refl _) ?_
    rintro ⟨bf, r1⟩ -
    refine Capped.bind (Capped.refl _) ?_
    rintro ⟨bt, r2⟩ -
    refine Capped.bind (inflateOne_capped limit bt r2 out ho) ?_
    rintro ⟨o, r3⟩ h3
    dsimp only at h3 ⊢
    by_cases c : bf = 1
    · rw [if_pos c, if_pos c]; exact Capped.pure h3
    · rw [if_neg c, if_neg c]; exact inflateLoop_capped limit fuel r3 o h3

theorem inflate_capped (limit : Nat) (data : List UInt8) :
    Capped (inflateCap limit data) (inflate data) (fun o => o.length ≤ limit) :=
  inflateLoop_capped limit _ _ _ (Nat.zero_le _)

theorem inflateZlib_capped (limit : Nat) (adler : List UInt8 → Nat) (data : List UInt8) (e : Option Nat) :
    Capped (inflateZlibCap limit adler data e) (inflateZlib adler data e) (fun _ => True) := by
  unfold inflateZlibCap inflateZlib
  match data with
  | [] => exact Capped.err _
  | [_] => exact Capped.err _
  | cmf :: flg :: rest =>
    dsimp only
    by_cases c : rest.length < 4
    · rw [if_pos c, if_pos c]; exact Capped.err _
    rw [if_neg c, if_neg c]
    by_cases c : cmf.toNat &&& 0x0F ≠ 8
    · rw [if_pos c, if_pos c]; exact Capped.err _
    rw [if_neg c, if_neg c]
    by_cases c : ((cmf.toNat <<< 8) ||| flg.toNat) % 31 ≠ 0
    · rw [if_pos c, if_pos c]; exact Capped.err _
    rw [if_neg c, if_neg c]
    by_cases c : flg.toNat &&& 0x20 ≠ 0
    · rw [if_pos c, if_pos c]; exact Capped.err _
    rw [if_neg c, if_neg c]
    exact Capped.bind (inflate_capped limit _) fun o _ => Capped.refl _

/-! ### A limit that grows with the input is never met -/

theorem inflateStored_room {limit : Nat} (r : BitReader) (hr : r.Inv) (out : List UInt8)
    (h : out.length + 65535 ≤ limit) : inflateStoredCap limit r out = inflateStored r out := by
  unfold inflateStoredCap inflateStored
  obtain ⟨i0, -⟩ := r.align_spec hr
  refine same_bind (readBits_safe _ i0 16 (by decide)) ?_
  rintro ⟨len, r1⟩ ⟨hlen, -⟩
  dsimp only at hlen ⊢
  refine bind_same _ ?_
  rintro ⟨nlen, r2⟩
  dsimp only
  by_cases c : len ≠ 65535 - nlen
  · rw [if_pos c, if_pos c]
  rw [if_neg c, if_neg c, hold_ok (by omega)]

theorem inflateMatch_room {limit : Nat} (r : BitReader) (hr : r.Inv) (out : List UInt8) (s : Nat) (hs : 257 ≤ s ∧ s ≤ 285)
    (td : HuffmanTable) (h : out.length + 258 ≤ limit) : inflateMatchCap limit r out s td = inflateMatch r out s td := by
  obtain ⟨⟨lb, lx⟩, hp⟩ := lengthTable_some (i := s - 257) (by omega)
  obtain ⟨_, hlb, hlx, hlx5, _, hle⟩ := lengthTable_get hp
  unfold inflateMatchCap inflateMatch
  simp only [getChecked, hlb, hlx, ok_bind]
  refine same_bind (readBits_safe r hr lx (by omega)) ?_
  rintro ⟨e, r1⟩ ⟨he, -⟩
  dsimp only at he ⊢
  refine bind_same _ ?_
  rintro ⟨j, r2⟩
  dsimp only
  by_cases c : j ≥ 30
  · rw [if_pos c, if_pos c]
  rw [if_neg c, if_neg c]
  refine bind_same _ fun db => bind_same _ fun dx => bind_same _ ?_
  rintro ⟨f, r3⟩
  dsimp only
  by_cases c : db + f > out.length
  · rw [if_pos c, if_pos c]
  rw [if_neg c, if_neg c, hold_ok (by omega)]

theorem inflateBlock_room {lit dist : List Nat} {tl td : HuffmanTable} (hl : TableOf tl lit) (hd : TableOf td dist)
    (hln : lit.length ≤ 4096) (hdn : dist.length ≤ 4096) {limit : Nat} (fuel : Nat) (r : BitReader) (hr : r.Inv)
    (out : List UInt8) (h : out.length + 129 * r.bits.length + 258 ≤ limit) :
    inflateBlockCap limit fuel r out tl td = inflateBlock fuel r out tl td := by
  induction fuel generalizing r out with
  | zero => rfl
  | succ fuel ih =>
    unfold inflateBlockCap inflateBlock
    refine same_bind (decode_safe hl hln r hr) ?_
    rintro ⟨s, r1⟩ ⟨_, i1, b1, d1⟩
    dsimp only at i1 b1 d1 ⊢
    by_cases c : s ≤ 255
    · rw [if_pos c, if_pos c, hold_ok (by omega)]
      exact ih r1 i1 _ (by rw [List.length_append, List.length_singleton]; omega)
    rw [if_neg c, if_neg c]
    by_cases c : s = 256
    · rw [if_pos c, if_pos c]
    rw [if_neg c, if_neg c]
    by_cases c : s ≤ 285
    · rw [if_pos c, if_pos c, inflateMatch_room r1 i1 out s (by omega) td (by omega)]
      refine same_bind (inflateMatch_safe hd hdn r1 i1 out s (by omega)) ?_
      rintro ⟨o, r2⟩ ⟨i2, d2, b2, l2, p2⟩
      dsimp only at i2 d2 b2 l2 p2 ⊢
      exact ih r2 i2 o (by omega)
    · rw [if_neg c, if_neg c]

theorem inflateOne_room {limit bt : Nat} (r : BitReader) (hr : r.Inv) (out : List UInt8)
    (h : out.length + 129 * r.bits.length + 65535 ≤ limit) : inflateOneCap limit bt r out = inflateOne bt r out := by
  unfold inflateOneCap inflateOne
  by_cases c : bt = 0
  · rw [if_pos c, if_pos c]; exact inflateStored_room r hr out (by omega)
  rw [if_neg c, if_neg c]
  by_cases c : bt = 1
  · rw [if_pos c, if_pos c]
    unfold inflateFixedCap inflateFixed
    refine same_bind (fromLengths_safe _) fun tl hl => ?_
    refine same_bind (fromLengths_safe _) fun td hd => ?_
    exact inflateBlock_room hl hd (by rw [fixedLitLengths_eq, fixedLit_length]; decide)
      (by rw [fixedDistLengths_eq, fixedDist_length]; decide) _ r hr out (by omega)
  rw [if_neg c, if_neg c]
  by_cases c : bt = 2
  · rw [if_pos c, if_pos c]
    unfold inflateDynamicCap inflateDynamic
    refine same_bind (readBits_safe r hr 5 (by decide)) ?_
    rintro ⟨hlit, r1⟩ ⟨v1, i1, b1, d1⟩
    refine same_bind (readBits_safe r1 i1 5 (by decide)) ?_
    rintro ⟨hdist, r2⟩ ⟨v2, i2, b2, d2⟩
    refine same_bind (readBits_safe r2 i2 4 (by decide)) ?_
    rintro ⟨hclen, r3⟩ ⟨v3, i3, b3, d3⟩
    simp only at v1 v2 v3 i1 b1 d1 i2 b2 d2 i3 b3 d3 ⊢
    have hall : ∀ s ∈ codeLengthOrder, s < 19 := by decide
    refine same_bind (readClLengths_safe (codeLengthOrder.take (hclen + 4))
      (fun s hs => hall s (List.mem_of_mem_take hs)) (List.replicate 19 0) List.length_replicate r3 i3) ?_
    rintro ⟨cl, r4⟩ ⟨l4, i4, d4, b4⟩
    simp only at l4 i4 d4 b4 ⊢
    refine same_bind (fromLengths_safe cl) fun tc hc => ?_
    refine same_bind (readLengths_safe hc (by omega) (hlit + 257 + (hdist + 1))
      (hlit + 257 + (hdist + 1) + 1) [] r4 i4 (by simp) (by simp) (by simp)) ?_
    rintro ⟨ls, r5⟩ ⟨l5, _, i5, d5, b5⟩
    simp only at l5 i5 d5 b5 ⊢
    refine same_bind (fromLengths_safe _) fun tl hl => ?_
    refine same_bind (fromLengths_safe _) fun td hd => ?_
    exact inflateBlock_room hl hd (by rw [List.length_take]; omega) (by rw [List.length_drop]; omega) _ r5 i5 out (by omega)
  · rw [if_neg c, if_neg c]

theorem inflateOne_safe (bt : Nat) (r : BitReader) (hr : r.Inv) (out : List UInt8) : Safe (inflateOne bt r out) (Step r out) := by
  unfold inflateOne
  split
  · exact inflateStored_safe r hr out
  · split
    · exact inflateFixed_safe r hr out
    · split
      · exact inflateDynamic_safe r hr out
      · exact Safe.invalid

theorem inflateLoop_room {limit : Nat} (fuel : Nat) (r : BitReader) (hr : r.Inv) (out : List UInt8)
    (h : out.length + 129 * r.bits.length + 65535 ≤ limit) : inflateLoopCap limit fuel r out = inflateLoop fuel r out := by
  induction fuel generalizing r out with
  | zero => rfl
  | succ fuel ih =>
    unfold inflateLoopCap inflateLoop
    refine same_bind (readBits_safe r hr 1 (by decide)) ?_
    rintro ⟨bf, r1⟩ ⟨_, i1, b1, d1⟩
    refine same_bind (readBits_safe r1 i1 2 (by decide)) ?_
    rintro ⟨bt, r2⟩ ⟨_, i2, b2, d2⟩
    simp only at b1 d1 i1 b2 d2 i2 ⊢
    rw [inflateOne_room r2 i2 out (by omega)]
    refine same_bind (inflateOne_safe bt r2 i2 out) ?_
    rintro ⟨o, r3⟩ ⟨i3, d3, b3, g3, p3⟩
    simp only at i3 d3 b3 g3 p3 ⊢
    by_cases c : bf = 1
    · rw [if_pos c, if_pos c]
    · rw [if_neg c, if_neg c]; exact ih r3 i3 o (by omega)

theorem inflate_room {limit : Nat} (data : List UInt8) (h : 1032 * data.length + 65535 ≤ limit) :
    inflateCap limit data = inflate data := by
  have hb : (⟨data, 0, 0, 0⟩ : BitReader).bits.length = 8 * data.length := by
    rw [BitReader.bits_new, bytesLSB_length]
  exact inflateLoop_room _ _ (BitReader.inv_new data) [] (by rw [hb, List.length_nil]; omega)

theorem inflateZlib_room {limit : Nat} (adler : List UInt8 → Nat) (data : List UInt8) (e : Option Nat)
    (h : 1032 * data.length + 65535 ≤ limit) : inflateZlibCap limit adler data e = inflateZlib adler data e := by
  unfold inflateZlibCap inflateZlib
  match data with
  | [] => rfl
  | [_] => rfl
  | cmf :: flg :: rest =>
    rw [List.length_cons, List.length_cons] at h
    dsimp only
    rw [inflate_room (rest.take (rest.length - 4)) (by rw [List.length_take]; omega)]
    rfl

/-! ### What succeeds holds no more than it returns -/

theorem inflateStored_fits {limit : Nat} {r r' : BitReader} {out o : List UInt8} (h : inflateStored r out = .ok (o, r')) :
    out.length ≤ o.length ∧ (o.length ≤ limit → inflateStoredCap limit r out = .ok (o, r')) := by
  unfold inflateStored at h
  obtain ⟨⟨len, r1⟩, e1, h⟩ := bind_inv h
  obtain ⟨⟨nlen, r2⟩, e2, h⟩ := bind_inv h
  dsimp only at h e1 e2
  by_cases c : len ≠ 65535 - nlen
  · rw [if_pos c] at h; cases h
  rw [if_neg c] at h
  obtain ⟨⟨bs, r3⟩, e3, h⟩ := bind_inv h
  cases h
  have hl := readBytes_length e3
  refine ⟨by rw [List.length_append]; omega, fun ho => ?_⟩
  rw [List.length_append, hl] at ho
  unfold inflateStoredCap
  dsimp only
  rw [e1, ok_bind]
  dsimp only
  rw [e2, ok_bind]
  dsimp only
  rw [if_neg c, hold_ok ho, e3]
  rfl

theorem inflateMatch_fits {limit : Nat} {r r' : BitReader} {out o : List UInt8} {s : Nat} {td : HuffmanTable}
    (h : inflateMatch r out s td = .ok (o, r')) :
    out.length ≤ o.length ∧ (o.length ≤ limit → inflateMatchCap limit r out s td = .ok (o, r')) := by
  unfold inflateMatch at h
  obtain ⟨lb, e1, h⟩ := bind_inv h
  obtain ⟨lx, e2, h⟩ := bind_inv h
  obtain ⟨⟨e, r1⟩, e3, h⟩ := bind_inv h
  obtain ⟨⟨j, r2⟩, e4, h⟩ := bind_inv h
  dsimp only at h e3 e4
  by_cases c : j ≥ 30
  · rw [if_pos c] at h; cases h
  rw [if_neg c] at h
  obtain ⟨db, e5, h⟩ := bind_inv h
  obtain ⟨dx, e6, h⟩ := bind_inv h
  obtain ⟨⟨f, r3⟩, e7, h⟩ := bind_inv h
  dsimp only at h e7
  by_cases c' : db + f > out.length
  · rw [if_pos c'] at h; cases h
  rw [if_neg c'] at h
  obtain ⟨o', e8, h⟩ := bind_inv h
  cases h
  have hl := copyLoop_length _ _ _ _ _ _ e8
  refine ⟨by omega, fun ho => ?_⟩
  unfold inflateMatchCap
  rw [e1, ok_bind, e2, ok_bind, e3, ok_bind]
  dsimp only
  rw [e4, ok_bind]
  dsimp only
  rw [if_neg c, e5, ok_bind, e6, ok_bind, e7, ok_bind]
  dsimp only
  rw [if_neg c', hold_ok (by omega), e8]
  rfl

theorem inflateBlock_fits {limit : Nat} : ∀ (fuel : Nat) {r r' : BitReader} {out o : List UInt8} {tl td : HuffmanTable},
    inflateBlock fuel r out tl td = .ok (o, r') →
    out.length ≤ o.length ∧ (o.length ≤ limit → inflateBlockCap limit fuel r out tl td = .ok (o, r'))
  | 0, _, _, _, _, _, _, h => by cases h
  | fuel + 1, r, r', out, o, tl, td, h => by
    unfold inflateBlock at h
    obtain ⟨⟨s, r1⟩, e1, h⟩ := bind_inv h
    dsimp only at h
    unfold inflateBlockCap
    rw [e1, ok_bind]
    dsimp only
    by_cases c : s ≤ 255
    · rw [if_pos c] at h ⊢
      obtain ⟨a, b⟩ := inflateBlock_fits (limit := limit) fuel h
      rw [List.length_append, List.length_singleton] at a
      exact ⟨by omega, fun ho => by rw [hold_ok (by omega)]; exact b ho⟩
    rw [if_neg c] at h ⊢
    by_cases c : s = 256
    · rw [if_pos c] at h ⊢
      cases h
      exact ⟨Nat.le_refl _, fun _ => rfl⟩
    rw [if_neg c] at h ⊢
    by_cases c : s ≤ 285
    · rw [if_pos c] at h ⊢
      obtain ⟨⟨o2, r2⟩, e2, h⟩ := bind_inv h
      obtain ⟨a, b⟩ := inflateBlock_fits (limit := limit) fuel h
      obtain ⟨a2, b2⟩ := inflateMatch_fits (limit := limit) e2
      dsimp only at a
      exact ⟨by omega, fun ho => by rw [b2 (by omega), ok_bind]; exact b ho⟩
    · rw [if_neg c] at h; cases h

theorem inflateOne_fits {limit bt : Nat} {r r' : BitReader} {out o : List UInt8} (h : inflateOne bt r out = .ok (o, r')) :
    out.length ≤ o.length ∧ (o.length ≤ limit → inflateOneCap limit bt r out = .ok (o, r')) := by
  unfold inflateOne at h
  unfold inflateOneCap
  by_cases c : bt = 0
  · rw [if_pos c] at h ⊢; exact inflateStored_fits h
  rw [if_neg c] at h ⊢
  by_cases c : bt = 1
  · rw [if_pos c] at h ⊢
    unfold inflateFixed at h
    obtain ⟨tl, e1, h⟩ := bind_inv h
    obtain ⟨td, e2, h⟩ := bind_inv h
    obtain ⟨a, b⟩ := inflateBlock_fits (limit := limit) _ h
    refine ⟨a, fun ho => ?_⟩
    unfold inflateFixedCap
    rw [e1, ok_bind, e2, ok_bind]
    exact b ho
  rw [if_neg c] at h ⊢
  by_cases c : bt = 2
  · rw [if_pos c] at h ⊢
    unfold inflateDynamic at h
    obtain ⟨⟨hlit, r1⟩, e1, h⟩ := bind_inv h
    obtain ⟨⟨hdist, r2⟩, e2, h⟩ := bind_inv h
    obtain ⟨⟨hclen, r3⟩, e3, h⟩ := bind_inv h
    obtain ⟨⟨cl, r4⟩, e4, h⟩ := bind_inv h
    obtain ⟨tc, e5, h⟩ := bind_inv h
    obtain ⟨⟨ls, r5⟩, e6, h⟩ := bind_inv h
    obtain ⟨tl, e7, h⟩ := bind_inv h
    obtain ⟨td, e8, h⟩ := bind_inv h
    obtain ⟨a, b⟩ := inflateBlock_fits (limit := limit) _ h
    refine ⟨a, fun ho => ?_⟩
    unfold inflateDynamicCap
    dsimp only at e1 e2 e3 e4 e5 e6 e7 e8 b ⊢
    rw [e1, ok_bind]; dsimp only
    rw [e2, ok_bind]; dsimp only
    rw [e3, ok_bind]; dsimp only
    rw [e4, ok_bind]; dsimp only
    rw [e5, ok_bind, e6, ok_bind]; dsimp only
    rw [e7, ok_bind, e8, ok_bind]
    exact b ho
  · rw [if_neg c] at h; cases h

theorem inflateLoop_fits {limit : Nat} : ∀ (fuel : Nat) {r : BitReader} {out o : List UInt8}, inflateLoop fuel r out = .ok o →
    out.length ≤ o.length ∧ (o.length ≤ limit → inflateLoopCap limit fuel r out = .ok o)
  | 0, _, _, _, h => by cases h
  | fuel + 1, r, out, o, h => by
    unfold inflateLoop at h
    obtain ⟨⟨bf, r1⟩, e1, h⟩ := bind_inv h
    obtain ⟨⟨bt, r2⟩, e2, h⟩ := bind_inv h
    obtain ⟨⟨o3, r3⟩, e3, h⟩ := bind_inv h
    dsimp only at h e1 e2 e3
    obtain ⟨a3, b3⟩ := inflateOne_fits (limit := limit) e3
    unfold inflateLoopCap
    rw [e1, ok_bind]; dsimp only
    rw [e2, ok_bind]; dsimp only
    by_cases c : bf = 1
    · rw [if_pos c] at h
      cases h
      refine ⟨a3, fun ho => ?_⟩
      rw [b3 ho, ok_bind]; dsimp only
      rw [if_pos c]; rfl
    · rw [if_neg c] at h
      obtain ⟨a, b⟩ := inflateLoop_fits (limit := limit) fuel h
      refine ⟨by omega, fun ho => ?_⟩
      rw [b3 (by omega), ok_bind]; dsimp only
      rw [if_neg c]; exact b ho

theorem inflate_fits {limit : Nat} {data o : List UInt8} (h : inflate data = .ok o) (ho : o.length ≤ limit) :
    inflateCap limit data = .ok o := (inflateLoop_fits (limit := limit) _ h).2 ho

theorem inflateZlib_fits {limit : Nat} {adler : List UInt8 → Nat} {data o : List UInt8} {e : Option Nat}
    (h : inflateZlib adler data e = .ok o) (ho : o.length ≤ limit) : inflateZlibCap limit adler data e = .ok o := by
  unfold inflateZlib at h
  unfold inflateZlibCap
  match data with
  | [] => cases h
  | [_] => cases h
  | cmf :: flg :: rest =>
    dsimp only at h ⊢
    by_cases c : rest.length < 4
    · rw [if_pos c] at h; cases h
    rw [if_neg c] at h ⊢
    by_cases c : cmf.toNat &&& 0x0F ≠ 8
    · rw [if_pos c] at h; cases h
    rw [if_neg c] at h ⊢
    by_cases c : ((cmf.toNat <<< 8) ||| flg.toNat) % 31 ≠ 0
    · rw [if_pos c] at h; cases h
    rw [if_neg c] at h ⊢
    by_cases c : flg.toNat &&& 0x20 ≠ 0
    · rw [if_pos c] at h; cases h
    rw [if_neg c] at h ⊢
    obtain ⟨o', e1, h⟩ := bind_inv h
    have : o' = o := by
      by_cases c : List.foldl (fun a b => a * 256 + UInt8.toNat b) 0 (rest.drop (rest.length - 4)) ≠ adler o'
      · rw [if_pos c] at h; cases h
      rw [if_neg c] at h
      cases e with
      | none => cases h; rfl
      | some e =>
        dsimp only at h
        split at h
        · cases h
        · cases h; rfl
    subst this
    rw [inflate_fits e1 ho, ok_bind]
    exact h

/-! ### The PNG decoder -/

theorem add_idat {c c' : PngDecode.Chunks} {ty d : List UInt8} (h : c.add ty d = .ok c') :
    c'.idat.length ≤ c.idat.length + d.length := by
  unfold PngDecode.Chunks.add at h
  split at h
  · obtain ⟨_, _, h⟩ := bind_inv h; cases h; exact Nat.le_add_right _ _
  split at h
  · obtain ⟨_, _, h⟩ := bind_inv h; cases h; exact Nat.le_add_right _ _
  split at h
  · cases h; exact Nat.le_add_right _ _
  split at h
  · cases h; exact Nat.le_of_eq List.length_append
  · cases h; exact Nat.le_add_right _ _

theorem chunkLoop_idat {data : List UInt8} : ∀ (fuel pos : Nat) (c c' : PngDecode.Chunks),
    PngDecode.chunkLoop data fuel pos c = .ok c' → c'.idat.length ≤ c.idat.length + (data.length - pos)
  | 0, _, _, _, h => by cases h
  | fuel + 1, pos, c, c', h => by
    rw [PngDecode.chunkLoop] at h
    split at h
    · obtain ⟨len, -, h⟩ := bind_inv h
      obtain ⟨ty, -, h⟩ := bind_inv h
      dsimp only at h
      split at h
      · cases h
      · rename_i hl
        obtain ⟨d, ed, h⟩ := bind_inv h
        obtain ⟨crc, -, h⟩ := bind_inv h
        have hd : d.length = len := by
          unfold MatchLength.slice at ed
          rw [if_pos (by omega)] at ed
          cases ed
          rw [List.length_take, List.length_drop]; omega
        split at h
        · cases h
        split at h
        · cases h; exact Nat.le_add_right _ _
        · obtain ⟨c1, e1, h⟩ := bind_inv h
          have a := add_idat e1
          have b := chunkLoop_idat fuel _ c1 c' h
          omega
    · cases h

theorem finish_capped (limit : Nat) (adler : List UInt8 → Nat) (c : PngDecode.Chunks) :
    Capped (PngDecode.finishCap limit adler c) (PngDecode.finish adler c) (fun _ => True) := by
  unfold PngDecode.finishCap PngDecode.finish
  cases c.ihdr with
  | none => exact Capped.err _
  | some h =>
    dsimp only
    refine Capped.bind (Capped.refl _) fun _ _ => ?_
    by_cases c0 : c.idat = []
    · rw [if_pos c0, if_pos c0]; exact Capped.err _
    rw [if_neg c0, if_neg c0]
    refine Capped.bind (Capped.refl _) fun size _ => ?_
    exact Capped.bind (inflateZlib_capped limit adler _ _) fun _ _ => Capped.refl _

theorem finish_room {limit : Nat} (adler : List UInt8 → Nat) (c : PngDecode.Chunks) (h : 1032 * c.idat.length + 65535 ≤ limit) :
    PngDecode.finishCap limit adler c = PngDecode.finish adler c := by
  unfold PngDecode.finishCap PngDecode.finish
  cases c.ihdr with
  | none => rfl
  | some ih =>
    dsimp only
    refine bind_same _ fun _ => ?_
    by_cases c0 : c.idat = []
    · rw [if_pos c0, if_pos c0]
    rw [if_neg c0, if_neg c0]
    refine bind_same _ fun size => ?_
    rw [inflateZlib_room adler _ _ h]

/-- A row has at most eight bytes for each pixel. -/
theorem scanlineBytes_le {ih : PngDecode.Ihdr} (h : PngDecode.validDepth ih = true) :
    PngDecode.scanlineBytes ih ≤ 8 * ih.width := by
  obtain ⟨w, hh, d, k, a, b, c⟩ := ih
  unfold PngDecode.validDepth at h
  unfold PngDecode.scanlineBytes
  have five : ∀ m, 1 ≤ m → m ≤ 16 → PngDecode.ceil8 (w * m) ≤ 8 * w := by
    intro m h1 h2
    have := Nat.mul_le_mul_left w h2
    have h3 := Nat.mul_le_mul_left w h1
    unfold PngDecode.ceil8
    omega
  have wide : ∀ s m, s ≤ 4 → m ≤ 16 → w * s * m / 8 ≤ 8 * w := by
    intro s m h1 h2
    have := Nat.mul_le_mul (Nat.mul_le_mul_left w h1) h2
    omega
  cases k <;> simp only [decide_eq_true_eq, List.mem_cons, List.not_mem_nil, or_false] at h ⊢
  · exact five d (by omega) (by omega)
  · exact wide 3 d (by omega) (by omega)
  · exact five d (by omega) (by omega)
  · exact wide 2 d (by omega) (by omega)
  · exact wide 4 d (by omega) (by omega)

/-! ### C107 -/

/-- C107: when the decoder is given enough memory for 1032 times its input and 65,535 bytes more, the
output of the decompression always fits. -/
theorem C107_input_bound (adler : List UInt8 → Nat) (data : List UInt8) (limit : Nat)
    (h : 1032 * data.length + 65535 ≤ limit) :
    PngDecode.decodePngCap limit adler data = PngDecode.decodePng adler data := by
  unfold PngDecode.decodePngCap PngDecode.decodePng
  split
  · rfl
  · cases e : PngDecode.chunkLoop data (data.length + 1) 8 ⟨none, [], none, none⟩ with
    | error _ => rw [error_bind, error_bind]
    | ok c =>
      rw [ok_bind, ok_bind]
      have := chunkLoop_idat _ _ _ _ e
      simp only [List.length_nil, Nat.zero_add] at this
      exact finish_room adler c (by omega)

/-- C107, partial: a file that is decoded to an image of `w` by `h` pixels makes the decoder hold at most
`h * (8 * w + 1)` bytes of scanlines. Missing: files that are refused (`C107_violation`). -/
theorem C107_accepted_partial (adler : List UInt8 → Nat) (data : List UInt8) (img : PngDecode.PngImage)
    (hd : PngDecode.decodePng adler data = .ok img) (limit : Nat) (h : img.height * (8 * img.width + 1) ≤ limit) :
    PngDecode.decodePngCap limit adler data = .ok img := by
  unfold PngDecode.decodePng at hd
  unfold PngDecode.decodePngCap
  by_cases c0 : data.length < 8 ∨ data.take 8 ≠ PngDecode.signature
  · rw [if_pos c0] at hd; cases hd
  rw [if_neg c0] at hd ⊢
  obtain ⟨c, e1, hd⟩ := bind_inv hd
  rw [e1, ok_bind]
  unfold PngDecode.finish at hd
  unfold PngDecode.finishCap
  cases hi : c.ihdr with
  | none => rw [hi] at hd; cases hd
  | some ih =>
    rw [hi] at hd
    dsimp only at hd ⊢
    obtain ⟨_, e2, hd⟩ := bind_inv hd
    rw [e2, ok_bind]
    by_cases c1 : c.idat = []
    · rw [if_pos c1] at hd; cases hd
    rw [if_neg c1] at hd ⊢
    obtain ⟨size, e3, hd⟩ := bind_inv hd
    obtain ⟨raw, e4, hd⟩ := bind_inv hd
    obtain ⟨px, e5, hd⟩ := bind_inv hd
    cases hd
    have hv : PngDecode.validDepth ih = true := by
      rcases PngDecode.validate_cases ih with ⟨-, v, -⟩ | ⟨e, ee, -⟩
      · exact v.depth
      · rw [e2] at ee; cases ee
    have hsize : size = (1 + PngDecode.scanlineBytes ih) * ih.height := by
      unfold PngDecode.expectedSize at e3
      dsimp only at e3
      split at e3
      · cases e3; rfl
      · cases e3
    have hraw : raw.length = size := ((inflateZlib_safe adler c.idat (some size)).of_ok e4).2 size rfl
    have hle : raw.length ≤ limit := by
      rw [hraw, hsize, Nat.mul_comm]
      refine Nat.le_trans (Nat.mul_le_mul_left _ ?_) h
      have := scanlineBytes_le hv
      dsimp only
      omega
    rw [e3, ok_bind, inflateZlib_fits e4 hle, ok_bind, e5, ok_bind]
    rfl

/-! ### A file that outgrows any memory -/

/-- Any string of bits begins a string of bytes. -/
theorem bytes_of_bits : ∀ (n : Nat) (bits : List Bool), bits.length ≤ 8 * n →
    ∃ bytes pad, bytes.length = n ∧ bytesLSB bytes = bits ++ pad
  | 0, bits, h => ⟨[], [], rfl, by
      rw [List.length_eq_zero_iff.mp (show bits.length = 0 by omega)]; rfl⟩
  | n + 1, bits, h => by
    by_cases c : 8 ≤ bits.length
    · obtain ⟨bytes, pad, hl, hb⟩ := bytes_of_bits n (bits.drop 8) (by rw [List.length_drop]; omega)
      refine ⟨UInt8.ofNat (ofBitsLSB (bits.take 8)) :: bytes, pad, by rw [List.length_cons, hl], ?_⟩
      have h8 : (bits.take 8).length = 8 := by rw [List.length_take]; omega
      have hlt := ofBitsLSB_lt (bits.take 8)
      rw [h8] at hlt
      have e : bytesLSB (UInt8.ofNat (ofBitsLSB (bits.take 8)) :: bytes)
          = bitsLSB (UInt8.ofNat (ofBitsLSB (bits.take 8))).toNat 8 ++ bytesLSB bytes := rfl
      have t : (UInt8.ofNat (ofBitsLSB (bits.take 8))).toNat = ofBitsLSB (bits.take 8) := by
        rw [UInt8.toNat_ofNat']; exact Nat.mod_eq_of_lt hlt
      have b8 := bitsLSB_ofBitsLSB (bits.take 8)
      rw [h8] at b8
      rw [e, t, b8, hb, ← List.append_assoc, List.take_append_drop]
    · have h8 : (bits ++ List.replicate (8 - bits.length) false).length = 8 := by
        rw [List.length_append, List.length_replicate]; omega
      have hlt := ofBitsLSB_lt (bits ++ List.replicate (8 - bits.length) false)
      rw [h8] at hlt
      have b8 := bitsLSB_ofBitsLSB (bits ++ List.replicate (8 - bits.length) false)
      rw [h8] at b8
      refine ⟨UInt8.ofNat (ofBitsLSB (bits ++ List.replicate (8 - bits.length) false)) :: List.replicate n 0,
        List.replicate (8 - bits.length) false ++ bytesLSB (List.replicate n 0),
        by rw [List.length_cons, List.length_replicate], ?_⟩
      have e : bytesLSB (UInt8.ofNat (ofBitsLSB (bits ++ List.replicate (8 - bits.length) false)) :: List.replicate n 0)
          = bitsLSB (UInt8.ofNat (ofBitsLSB (bits ++ List.replicate (8 - bits.length) false))).toNat 8
            ++ bytesLSB (List.replicate n 0) := rfl
      have t : (UInt8.ofNat (ofBitsLSB (bits ++ List.replicate (8 - bits.length) false))).toNat
          = ofBitsLSB (bits ++ List.replicate (8 - bits.length) false) := by
        rw [UInt8.toNat_ofNat']; exact Nat.mod_eq_of_lt hlt
      rw [e, t, b8, List.append_assoc]

theorem cw285_length : (codeword fixedLit (257 + 28)).length = 8 := by decide +kernel
theorem cw0_length : (codeword fixedLit (0 : UInt8).toNat).length = 8 := by decide +kernel
theorem cw256_length : (codeword fixedLit 256).length = 7 := by decide +kernel
theorem cwDist_length : (codeword fixedDist 0).length = 5 := by decide +kernel

/-- Copies of 258 bytes at distance 1 take 13 bits each. -/
theorem bomb_body : ∀ k, ∃ bits, Body fixedLit fixedDist bits (List.replicate k (.copy 258 1)) ∧ bits.length = 13 * k + 7
  | 0 => ⟨_, .eob (by decide +kernel), by rw [cw256_length]⟩
  | k + 1 => by
    obtain ⟨bits, hb, hl⟩ := bomb_body k
    refine ⟨_, .copy 28 0 0 0 (lb := 258) (lx := 0) (db := 1) (dx := 0) (by decide) (by decide) (by decide +kernel)
      (by decide) (by decide) (by decide +kernel) hb, ?_⟩
    simp only [List.length_append, cw285_length, cwDist_length, hl, show (bitsLSB 0 0).length = 0 from rfl]
    omega

theorem bomb_expand : ∀ (k : Nat) (out : List UInt8), 1 ≤ out.length →
    ∃ o, expandFrom out (List.replicate k (.copy 258 1)) = some o ∧ o.length = out.length + 258 * k
  | 0, out, _ => ⟨out, rfl, rfl⟩
  | k + 1, out, h => by
    obtain ⟨o1, -, e1, l1⟩ := copyLoop_start 1 (by decide) 258 out h
    obtain ⟨o, e2, l2⟩ := bomb_expand k o1 (by omega)
    refine ⟨o, ?_, by omega⟩
    rw [List.replicate_succ, expandFrom, e1]
    exact e2

/-- `n` bytes of DEFLATE data that stand for `258 * k + 1` bytes. -/
theorem inflate_bomb (k n : Nat) (hn : 13 * k + 18 ≤ 8 * n) :
    ∃ bytes o, bytes.length = n ∧ o.length = 258 * k + 1 ∧ inflate bytes = .ok o := by
  obtain ⟨bits, hb, hl⟩ := bomb_body k
  obtain ⟨o, he, ho⟩ := bomb_expand k [0] (by decide)
  have body := Body.lit (0 : UInt8) (show len fixedLit (0 : UInt8).toNat ≠ 0 by decide +kernel) hb
  obtain ⟨bytes, pad, hbl, hbb⟩ := bytes_of_bits n (true :: ([true, false] ++ (codeword fixedLit (0 : UInt8).toNat ++ bits)))
    (by simp only [List.length_cons, List.length_append, cw0_length, hl, List.length_nil]; omega)
  refine ⟨bytes, o, hbl, by rw [ho]; simp only [List.length_singleton]; omega, ?_⟩
  exact C18_inflate_correct bytes o ⟨_, pad, _, hbb, .last (.fixed body), by
    unfold expand; rw [expandFrom]; exact he⟩

/-- The header of a grey image of one pixel. -/
def dot : Png.Header := ⟨1, 1, 8, 0⟩

/-- A file that announces one pixel and holds the zlib stream `z`. -/
def dotFile (z : List UInt8) : List UInt8 :=
  Png.signature ++ (Png.stream [⟨Png.IHDR, dot.bytes⟩, ⟨Png.IDAT, z⟩, ⟨Png.IEND, []⟩])

theorem dotFile_length (z : List UInt8) : (dotFile z).length = 57 + z.length := by
  unfold dotFile Png.stream
  simp only [List.flatMap_cons, List.flatMap_nil, List.length_append, List.append_nil,
    PngDecode.chunk_length' (c := ⟨Png.IHDR, dot.bytes⟩) rfl, PngDecode.chunk_length' (c := ⟨Png.IDAT, z⟩) rfl,
    PngDecode.chunk_length' (c := ⟨Png.IEND, []⟩) rfl, List.length_nil,
    show dot.bytes.length = 13 from rfl, show Png.signature.length = 8 from rfl]
  omega

theorem dotFile_chunks (z : List UInt8) (hz : z.length < 2 ^ 31) :
    PngDecode.chunkLoop (dotFile z) ((dotFile z).length + 1) 8 ⟨none, [], none, none⟩
      = .ok ⟨some ⟨1, 1, 8, .gray, 0, 0, 0⟩, z, none, none⟩ := by
  have hlen := dotFile_length z
  have hok : (⟨Png.IHDR, dot.bytes⟩ : Png.Chunk).Ok := ⟨rfl, by show (13 : Nat) < _; decide⟩
  have hd8 : (dotFile z).drop 8 = (⟨Png.IHDR, dot.bytes⟩ : Png.Chunk).bytes
      ++ (Png.stream [⟨Png.IDAT, z⟩, ⟨Png.IEND, []⟩] ++ []) := by
    unfold dotFile
    rw [List.drop_left' (l₁ := Png.signature) (i := 8) rfl, List.append_nil]
    simp [Png.stream]
  generalize dotFile z = data at hlen hd8
  rw [PngDecode.chunkLoop_step hok hd8, if_neg (show ¬ Png.IHDR = PngDecode.tyIEND by decide)]
  have ea : (⟨none, [], none, none⟩ : PngDecode.Chunks).add Png.IHDR dot.bytes
      = .ok ⟨some ⟨1, 1, 8, .gray, 0, 0, 0⟩, [], none, none⟩ := by rfl
  dsimp only
  rw [ea, ok_bind, PngDecode.chunkLoop_ok (tail := []) [⟨Png.IDAT, z⟩] _ _ _ ?_ ?_ ?_]
  · simp only [List.foldl_cons, List.foldl_nil, PngDecode.addSpec]
    rw [if_neg (by decide), if_neg (by decide), if_pos trivial]
    rfl
  · intro c hc
    rw [List.mem_singleton] at hc
    subst hc
    exact ⟨⟨rfl, hz⟩, (by decide : Png.IDAT ≠ Png.IHDR), (by decide : Png.IDAT ≠ Png.IEND),
      fun h => absurd h (by decide : Png.IDAT ≠ Png.PLTE)⟩
  · rw [← List.drop_drop, hd8, List.drop_left' rfl]; rfl
  · rw [PngDecode.chunk_length hok, hlen]; omega

/-- C107 fails: for every amount of memory up to 2^37 bytes there is a file of about a 158th of it, announcing
an image of one pixel (two bytes of scanlines), whose decoding does not fit. With enough memory the file is
decompressed completely and then refused. -/
theorem C107_violation (limit : Nat) (hl : limit ≤ 2 ^ 37) : ∃ z : List UInt8,
    (dotFile z).length ≤ limit / 158 + 68 ∧
    ∀ adler, PngDecode.decodePngCap limit adler (dotFile z) = .error .panic ∧
      PngDecode.decodePng adler (dotFile z) = .error .invalid := by
  obtain ⟨bytes, o, hb, ho, he⟩ := inflate_bomb (limit / 258 + 1) ((13 * (limit / 258 + 1) + 25) / 8) (by omega)
  have hcap : inflateCap limit bytes = .error .panic := by
    rcases inflate_capped limit bytes with h | ⟨h, hq⟩
    · exact h
    · rw [he] at h
      have := hq o h
      omega
  refine ⟨0x78 :: 0x01 :: (bytes ++ [0, 0, 0, 0]), ?_, fun adler => ?_⟩
  · rw [dotFile_length]
    simp only [List.length_cons, List.length_append, List.length_nil, hb]
    omega
  have hz : (0x78 :: 0x01 :: (bytes ++ [0, 0, 0, 0]) : List UInt8).length < 2 ^ 31 := by
    simp only [List.length_cons, List.length_append, List.length_nil, hb]
    omega
  have h4 : ¬ (bytes ++ [0, 0, 0, 0]).length < 4 := by simp
  have ht : (bytes ++ [0, 0, 0, 0]).take ((bytes ++ [0, 0, 0, 0]).length - 4) = bytes := by simp
  have g : ¬ ((dotFile (0x78 :: 0x01 :: (bytes ++ [0, 0, 0, 0]))).length < 8 ∨
      (dotFile (0x78 :: 0x01 :: (bytes ++ [0, 0, 0, 0]))).take 8 ≠ PngDecode.signature) := by
    rw [dotFile_length]
    have : (dotFile (0x78 :: 0x01 :: (bytes ++ [0, 0, 0, 0]))).take 8 = PngDecode.signature := by
      unfold dotFile; rw [List.take_left' (l₁ := Png.signature) (i := 8) rfl]; rfl
    rw [this]
    simp; omega
  constructor
  · unfold PngDecode.decodePngCap
    rw [if_neg g, dotFile_chunks _ hz, ok_bind]
    unfold PngDecode.finishCap
    dsimp only
    rw [show PngDecode.validate ⟨1, 1, 8, .gray, 0, 0, 0⟩ = .ok () by decide, ok_bind, if_neg (by simp),
      show PngDecode.expectedSize ⟨1, 1, 8, .gray, 0, 0, 0⟩ = .ok 2 by decide, ok_bind]
    unfold inflateZlibCap
    dsimp only
    rw [if_neg h4, if_neg (by decide), if_neg (by decide), if_neg (by decide), ht, hcap]
    rfl
  · unfold PngDecode.decodePng
    rw [if_neg g, dotFile_chunks _ hz, ok_bind]
    unfold PngDecode.finish
    dsimp only
    rw [show PngDecode.validate ⟨1, 1, 8, .gray, 0, 0, 0⟩ = .ok () by decide, ok_bind, if_neg (by simp),
      show PngDecode.expectedSize ⟨1, 1, 8, .gray, 0, 0, 0⟩ = .ok 2 by decide, ok_bind]
    unfold inflateZlib
    dsimp only
    rw [if_neg h4, if_neg (by decide), if_neg (by decide), if_neg (by decide), ht, he, ok_bind,
      if_pos (show o.length ≠ 2 by omega)]
    split <;> rfl

/-- With a gibibyte of memory: a file of less than 7 MB. -/
example : ∃ z : List UInt8, (dotFile z).length < 7000000 ∧
    PngDecode.decodePngCap (2 ^ 30) Spec.adler32 (dotFile z) = .error .panic := by
  obtain ⟨z, h, e⟩ := C107_violation (2 ^ 30) (by decide)
  exact ⟨z, by omega, (e _).1⟩

/-- An image of 2 by 2 pixels fits in 34 bytes; in 5 it does not, as its scanlines have 6. -/
example : PngDecode.decodePngCap 34 Spec.adler32 keyPng = .ok ⟨2, 2, [10, 200, 7, 9], .gray⟩ ∧
    PngDecode.decodePngCap 5 Spec.adler32 keyPng = .error .panic :=
  ⟨C107_accepted_partial Spec.adler32 keyPng ⟨2, 2, [10, 200, 7, 9], .gray⟩ (by decide +kernel) 34 (by decide),
    by decide +kernel⟩

end Pixo.Props
