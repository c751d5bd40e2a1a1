import Verif.Model.JpegDecode
import Verif.Proof.Safe
/-
The JPEG decoder of a release build does not panic once there is a frame header.
-/
namespace Pixo.JpegDecode
open Pixo Pixo.Idct

theorem _root_.Pixo.Oks.get' {α : Type} {l : List α} {i : Nat} (hi : i < l.length) : Oks (getChecked l i) (fun v => v ∈ l) :=
  Oks.get hi (List.getElem_mem hi)

theorem _root_.Pixo.Oks.safe {α : Type} {x : R α} {P : α → Prop} (h : Oks x P) : Safe x P := by
  obtain ⟨a, e, p⟩ := h.out
  rw [e]; exact Safe.ok p

theorem _root_.Pixo.Oks.set {α : Type} {l : List α} {i : Nat} {v : α} (hi : i < l.length) :
    Oks (setChecked l i v) (fun l' => l' = l.set i v) := by
  unfold setChecked; rw [if_pos hi]; exact Oks.ok rfl

theorem _root_.Pixo.Oks.mapM {α β : Type} {f : α → R β} {Q : β → Prop} {l : List α} (h : ∀ a ∈ l, Oks (f a) Q) :
    Oks (l.mapM f) (fun r => r.length = l.length ∧ ∀ b ∈ r, Q b) := by
  induction l with
  | nil => exact Oks.pure ⟨rfl, by simp⟩
  | cons a l ih =>
    rw [List.mapM_cons]
    refine (h a (by simp)).bind fun b hb => (ih (fun x hx => h x (by simp [hx]))).bind fun bs hbs => Oks.pure ?_
    refine ⟨by simp [hbs.1], ?_⟩
    intro x hx
    rcases List.mem_cons.1 hx with rfl | hx
    · exact hb
    · exact hbs.2 x hx

/-! ### Arithmetic -/

theorem i32_ok (v : Int) : Oks (i32 false v) (fun _ => True) := by
  unfold i32; split
  · exact Oks.ok trivial
  · exact Oks.ok trivial

theorem shift_ok (s : Nat) : Oks (shift false s) (fun t => t = s % 32) := by
  unfold shift; split
  · exact Oks.ok (by omega)
  · exact Oks.ok rfl

theorem even_ok (a b c d : Int) : Oks (even false a b c d) (fun _ => True) := by
  unfold even
  repeat refine Oks.bind (i32_ok _) fun _ _ => ?_
  exact Oks.pure trivial

theorem odd_ok (a b c d : Int) : Oks (odd false a b c d) (fun _ => True) := by
  unfold odd
  repeat refine Oks.bind (i32_ok _) fun _ _ => ?_
  exact Oks.pure trivial

theorem pass_ok (d : List Int) : Oks (pass false d) (fun _ => True) := by
  unfold pass
  refine (even_ok _ _ _ _).bind fun _ _ => (odd_ok _ _ _ _).bind fun _ _ => ?_
  exact (Oks.mapM (fun a _ => i32_ok a)).mono fun _ _ => trivial

theorem idct_ok (c : List Int) : Oks (idct false c) (fun _ => True) := by
  unfold idct
  refine Oks.bind (P := fun _ => True) (Oks.mono (Oks.mapM (Q := fun _ => True) fun a _ => ?_) (fun _ _ => trivial)) fun cols _ => ?_
  · refine (pass_ok _).bind fun p _ => Oks.mono (Oks.mapM (Q := fun _ => True) fun v _ => ?_) (fun _ _ => trivial)
    unfold descale1
    exact (i32_ok _).bind fun _ _ => Oks.pure trivial
  · refine Oks.bind (P := fun _ => True) (Oks.mono (Oks.mapM (Q := fun _ => True) fun a _ => ?_) (fun _ _ => trivial)) fun rows _ => ?_
    · refine (pass_ok _).bind fun p _ => Oks.mono (Oks.mapM (Q := fun _ => True) fun v _ => ?_) (fun _ _ => trivial)
      unfold descale2
      exact (i32_ok _).bind fun _ _ => Oks.pure trivial
    · exact Oks.pure trivial

/-! ### Bits -/

/-- The reader is at a place of its data. -/
def Pos (r : MsbBitReader) : Prop := r.pos ≤ r.data.length

theorem nextByte_ok (fuel : Nat) (r : MsbBitReader) (hp : Pos r) (hf : r.data.length - r.pos < fuel) :
    Oks (nextByte fuel r) (fun p => Pos p.2 ∧ p.2.data = r.data ∧ (p.1.isSome → r.pos < p.2.pos)) := by
  induction fuel generalizing r with
  | zero => omega
  | succ fuel ih =>
    unfold nextByte
    unfold Pos at *
    cases h0 : r.data[r.pos]? with
    | none => exact Oks.ok ⟨hp, rfl, by simp⟩
    | some byte =>
      have h0' := (List.getElem?_eq_some_iff.1 h0).1
      simp only
      split
      · cases h1 : r.data[r.pos + 1]? with
        | none => exact Oks.ok ⟨h0', rfl, by simp⟩
        | some next =>
          have h1' := (List.getElem?_eq_some_iff.1 h1).1
          simp only
          split
          · exact Oks.ok ⟨h1', rfl, by simp only; intro; omega⟩
          · split
            · refine (ih { r with pos := r.pos + 2, bitBuf := 0, bitsInBuf := 0 } (by simp only; omega) (by simp only; omega)).mono ?_
              rintro p ⟨a, b, c⟩
              exact ⟨a, b, fun h => by have := c h; simp only at this; omega⟩
            · exact Oks.ok ⟨hp, rfl, by simp⟩
      · exact Oks.ok ⟨h0', rfl, by simp only; intro; omega⟩

theorem ensure_ok (fuel : Nat) (r : MsbBitReader) (n : Nat) (hp : Pos r) (hf : r.data.length - r.pos < fuel) :
    Oks (ensure false fuel r n) (fun p => Pos p.2 ∧ p.2.data = r.data ∧ (p.1 = true → n ≤ p.2.bitsInBuf)) := by
  induction fuel generalizing r with
  | zero => omega
  | succ fuel ih =>
    unfold ensure
    split
    · refine (nextByte_ok _ r hp (by omega)).bind ?_
      rintro ⟨b, r'⟩ ⟨h1, h2, h3⟩
      cases b with
      | none => exact Oks.pure ⟨h1, h2, by simp⟩
      | some b =>
        have h4 := h3 rfl
        unfold Pos at *
        simp only at h1 h2 h4 ⊢
        split
        · refine (ih _ (by simp only; exact h1) (by simp only; rw [h2] at h1 ⊢; omega)).mono ?_
          rintro p ⟨a, b, c⟩
          exact ⟨a, b.trans h2, c⟩
        · rw [if_neg (by decide)]
          refine (ih _ (by simp only; exact h1) (by simp only; rw [h2] at h1 ⊢; omega)).mono ?_
          rintro p ⟨a, b, c⟩
          exact ⟨a, b.trans h2, c⟩
    · exact Oks.ok ⟨hp, rfl, fun _ => by simp only; omega⟩

theorem peekBits_ok (r : MsbBitReader) (n : Nat) (hp : Pos r) :
    Oks (peekBits false r n) (fun p => Pos p.2 ∧ ∀ v, p.1 = some v → n ≤ p.2.bitsInBuf ∧ v < 2 ^ (n % 32)) := by
  unfold peekBits
  rw [if_neg (by simp)]
  refine (ensure_ok _ r n hp (by omega)).bind ?_
  rintro ⟨d, r'⟩ ⟨h1, h2, h3⟩
  simp only
  cases d with
  | false => exact Oks.pure ⟨h1, by simp⟩
  | true =>
    refine Oks.bind (shift_ok _) fun s hs => (shift_ok _).bind fun t ht => Oks.pure ⟨h1, ?_⟩
    intro v hv
    injection hv with hv
    refine ⟨h3 rfl, ?_⟩
    rw [← hv, ← ht, Nat.shiftLeft_eq, Nat.one_mul, Nat.and_two_pow_sub_one_eq_mod]
    exact Nat.mod_lt _ (Nat.two_pow_pos _)

theorem consume_ok (r : MsbBitReader) (n : Nat) (hp : Pos r) (h : n ≤ r.bitsInBuf) : Oks (consume r n) Pos := by
  unfold consume; rw [if_pos h]; exact Oks.ok hp

theorem readBits_ok (r : MsbBitReader) (n : Nat) (hp : Pos r) : Oks (readBits false r n) (fun p => Pos p.2) := by
  unfold readBits
  refine (peekBits_ok r n hp).bind ?_
  rintro ⟨v, r'⟩ ⟨h1, h2⟩
  cases v with
  | none => exact Oks.pure h1
  | some v => exact (consume_ok r' n h1 (h2 v rfl).1).bind fun _ h => Oks.pure h

/-! ### Huffman tables -/

/-- A table of the right shape. -/
structure Huff.Good (t : Huff) : Prop where
  lookup : t.lookup.length = 256
  maxCode : t.maxCode.length = 17
  valOffset : t.valOffset.length = 17

theorem empty_good : Huff.empty.Good := ⟨List.length_replicate, List.length_replicate, List.length_replicate⟩

theorem fillEntries_length (len code val : Nat) (t : List Nat) : (fillEntries len code val t).length = t.length := by
  unfold fillEntries
  generalize List.range (2 ^ (8 - len)) = l
  induction l generalizing t with
  | nil => rfl
  | cons i l ih => rw [List.foldl_cons, ih]; simp only; split <;> simp

theorem fillLookup_length (es : List (Nat × Nat × Nat)) : (fillLookup es).length = 256 := by
  unfold fillLookup
  suffices ∀ t : List Nat, (es.foldl (fun t e => if e.1 ≤ 8 then fillEntries e.1 e.2.1 e.2.2 t else t) t).length = t.length by
    rw [this, List.length_replicate]
  induction es with
  | nil => intro t; rfl
  | cons e es ih =>
    intro t
    rw [List.foldl_cons, ih]
    split
    · exact fillEntries_length _ _ _ _
    · rfl

theorem limits_length (hc bits : List Nat) (i : Nat) : (limits hc bits i).length = bits.length := by
  induction bits generalizing i with
  | nil => rfl
  | cons n bits ih => rw [limits, List.length_cons, ih, List.length_cons]

theorem build_good {bits values : List Nat} (h : bits.length = 16) : (Huff.build bits values).Good := by
  unfold Huff.build
  exact ⟨fillLookup_length _, by simp [limits_length, h], by simp [limits_length, h]⟩

theorem decodeSlow_ok {t : Huff} (ht : t.Good) (n len : Nat) (code : Int) (r : MsbBitReader) (hp : Pos r)
    (hl : len + n ≤ 17) : Oks (decodeSlow false t n len code r) (fun p => Pos p.2) := by
  induction n generalizing len code r with
  | zero => exact Oks.ok hp
  | succ n ih =>
    unfold decodeSlow
    refine (readBits_ok r 1 hp).bind ?_
    rintro ⟨b, r'⟩ h1
    cases b with
    | none => exact Oks.pure h1
    | some b =>
      refine (Pixo.Oks.get' (by rw [ht.maxCode]; omega)).bind fun m _ => ?_
      split
      · exact (Pixo.Oks.get' (by rw [ht.valOffset]; omega)).bind fun o _ => Oks.pure h1
      · exact ih _ _ _ h1 (by omega)

theorem decode_ok {t : Huff} (ht : t.Good) (r : MsbBitReader) (hp : Pos r) : Oks (t.decode false r) (fun p => Pos p.2) := by
  unfold Huff.decode
  refine (peekBits_ok r 8 hp).bind ?_
  rintro ⟨v, r'⟩ ⟨h1, h2⟩
  cases v with
  | none => exact decodeSlow_ok ht 16 1 0 _ h1 (by omega)
  | some v =>
    obtain ⟨h3, h4⟩ := h2 v rfl
    refine (Pixo.Oks.get' (by rw [ht.lookup]; exact h4)).bind fun e _ => ?_
    simp only
    split
    · rename_i hl
      exact (consume_ok r' _ h1 (by simp only at h3; omega)).bind fun _ h => Oks.pure h
    · exact decodeSlow_ok ht 16 1 0 _ h1 (by omega)

theorem readAmplitude_ok (r : MsbBitReader) (size : Nat) (hp : Pos r) :
    Oks (readAmplitude false r size) (fun p => Pos p.2) := by
  unfold readAmplitude
  refine (readBits_ok r size hp).bind ?_
  rintro ⟨b, r'⟩ h1
  cases b with
  | none => exact Oks.pure h1
  | some b =>
    refine Oks.bind (shift_ok _) fun s _ => ?_
    simp only
    split
    · exact Oks.bind (i32_ok _) fun _ _ => Oks.bind (i32_ok _) fun _ _ => Oks.bind (i32_ok _) fun _ _ => Oks.pure h1
    · exact Oks.pure h1

theorem acLoop_ok {t : Huff} (ht : t.Good) (fuel k : Nat) (cs : List Int) (r : MsbBitReader) (hp : Pos r)
    (hc : cs.length = 64) (hf : 0 < fuel ∧ (k < 64 → 64 < k + fuel)) :
    Oks (acLoop false t fuel k cs r) (fun p => Pos p.2) := by
  induction fuel generalizing k cs r with
  | zero => omega
  | succ fuel ih =>
    unfold acLoop
    split
    · rename_i hk
      have hk2 := hf.2 hk
      refine (decode_ok ht r hp).bind ?_
      rintro ⟨sym, r'⟩ h1
      cases sym with
      | none => exact Oks.pure h1
      | some sym =>
        simp only
        split
        · exact Oks.pure h1
        · split
          · exact ih _ _ _ h1 hc ⟨by omega, by omega⟩
          · split
            · exact Oks.pure h1
            · split
              · refine (readAmplitude_ok r' _ h1).bind ?_
                rintro ⟨a, r2⟩ h2
                cases a with
                | none => exact Oks.pure h2
                | some a =>
                  refine (Oks.set (by omega)).bind ?_
                  rintro l rfl
                  exact ih _ _ _ h2 (by rw [List.length_set]; exact hc) ⟨by omega, by omega⟩
              · exact ih _ _ _ h1 hc ⟨by omega, by omega⟩
    · exact Oks.pure hp

/-! ### States -/

structure Component.Good (c : Component) (s : State) : Prop where
  h : 0 < c.h ∧ c.h ≤ s.maxH
  v : 0 < c.v ∧ c.v ≤ s.maxV
  quant : c.quant < 4
  dc : c.dc < 4
  ac : c.ac < 4

structure State.Good (s : State) : Prop where
  quant : s.quant.length = 4
  dc : s.dc.length = 4 ∧ ∀ t ∈ s.dc, t.Good
  ac : s.ac.length = 4 ∧ ∀ t ∈ s.ac, t.Good
  comps : ∀ c ∈ s.components, c.Good s
  count : s.components.length = 0 ∨ s.components.length = 1 ∨ s.components.length = 3

theorem decodeBlock_ok {s : State} (hs : s.Good) {c : Component} (hc : c.Good s) (pred : Int) (r : MsbBitReader)
    (hp : Pos r) : Oks (decodeBlock false s c pred r) (fun p => Pos p.2) := by
  unfold decodeBlock
  refine (Pixo.Oks.get' (by rw [hs.dc.1]; exact hc.dc)).bind fun dc hdc => ?_
  refine (decode_ok (hs.dc.2 dc hdc) r hp).bind ?_
  rintro ⟨cat, r'⟩ h1
  cases cat with
  | none => exact Oks.pure h1
  | some cat =>
    simp only
    have key : ∀ p : Option Int × MsbBitReader, Pos p.2 → Oks (match p.1 with
        | none => (pure (none, p.2) : R _)
        | some diff => do
          let pred ← i32 false (pred + diff)
          let ac ← getChecked s.ac c.ac
          let p ← acLoop false ac 64 1 ((List.replicate 64 0).set 0 (wrap16 pred)) p.2
          match p.1 with
            | none => pure (none, p.2)
            | some coeffs => pure (some (coeffs, pred), p.2)) (fun p => Pos p.2) := by
      rintro ⟨d, r2⟩ h3
      cases d with
      | none => exact Oks.pure h3
      | some d =>
        refine Oks.bind (i32_ok _) fun pred _ => ?_
        refine (Pixo.Oks.get' (by rw [hs.ac.1]; exact hc.ac)).bind fun ac hac => ?_
        refine (acLoop_ok (hs.ac.2 ac hac) 64 1 _ r2 h3 (by simp) ⟨by omega, by omega⟩).bind ?_
        rintro ⟨cs, r3⟩ h4
        cases cs with
        | none => exact Oks.pure h4
        | some cs => exact Oks.pure h4
    split
    · exact (readAmplitude_ok r' cat h1).bind key
    · exact key (some 0, r') h1

structure Scan.Good (st : Scan) (s : State) : Prop where
  reader : Pos st.reader
  preds : st.preds.length = s.components.length
  data : st.data.length = s.components.length

theorem blockStep_ok {s : State} (hs : s.Good) (cols i bx byy : Nat) {st : Scan} (hst : st.Good s)
    (hi : i < s.components.length) : Oks (blockStep false s cols i bx byy st) (fun p => p.2.Good s) := by
  unfold blockStep
  refine (Pixo.Oks.get' hi).bind fun c hc => ?_
  refine (Pixo.Oks.get' (by rw [hst.preds]; exact hi)).bind fun pred _ => ?_
  refine (decodeBlock_ok hs (hs.comps c hc) pred _ hst.reader).bind ?_
  rintro ⟨res, r⟩ h1
  cases res with
  | none => exact Oks.pure ⟨h1, hst.preds, hst.data⟩
  | some p =>
    obtain ⟨cs, pr⟩ := p
    refine (Oks.set (by rw [hst.preds]; exact hi)).bind ?_
    rintro _ rfl
    refine (Pixo.Oks.get' (by rw [hs.quant]; exact (hs.comps c hc).quant)).bind fun q _ => ?_
    refine (idct_ok _).bind fun px _ => ?_
    refine (Pixo.Oks.get' (by rw [hst.data]; exact hi)).bind fun d _ => ?_
    refine (Oks.set (by rw [hst.data]; exact hi)).bind ?_
    rintro _ rfl
    exact Oks.pure ⟨h1, by rw [List.length_set, hst.preds], by rw [List.length_set, hst.data]⟩

theorem blocksLoop_ok {s : State} (hs : s.Good) (cols : Nat) (bs : List (Nat × Nat × Nat))
    (hb : ∀ b ∈ bs, b.1 < s.components.length) {st : Scan} (hst : st.Good s) :
    Oks (blocksLoop false s cols bs st) (fun p => p.2.Good s) := by
  induction bs generalizing st with
  | nil => exact Oks.ok hst
  | cons b bs ih =>
    obtain ⟨i, bx, byy⟩ := b
    unfold blocksLoop
    refine (blockStep_ok hs cols i bx byy hst (hb (i, bx, byy) (by simp))).bind ?_
    rintro ⟨go, st'⟩ h1
    cases go with
    | false => exact Oks.pure h1
    | true => exact ih (fun b hb' => hb b (by simp [hb'])) h1

theorem mcuBlocks_lt {cs : List Component} {mx my : Nat} : ∀ b ∈ mcuBlocks cs mx my, b.1 < cs.length := by
  intro b hb
  unfold mcuBlocks at hb
  obtain ⟨⟨c, i⟩, hc, hb⟩ := List.mem_flatMap.1 hb
  obtain ⟨y, _, hb⟩ := List.mem_flatMap.1 hb
  obtain ⟨x, _, rfl⟩ := List.mem_map.1 hb
  have := List.mem_zipIdx hc
  simp only at this ⊢
  omega

theorem mcuLoop_ok {s : State} (hs : s.Good) (cols : Nat) (ms : List (Nat × Nat)) (count : Nat) {st : Scan}
    (hst : st.Good s) : Oks (mcuLoop false s cols ms count st) (fun st => st.Good s) := by
  induction ms generalizing count st with
  | nil => exact Oks.ok hst
  | cons m ms ih =>
    obtain ⟨mx, my⟩ := m
    unfold mcuLoop
    have h0 : (if s.restart > 0 ∧ count > 0 ∧ count % s.restart = 0 then
        ({ st with preds := st.preds.map (fun _ => 0) } : Scan) else st).Good s := by
      split
      · exact ⟨hst.reader, by rw [List.length_map, hst.preds], hst.data⟩
      · exact hst
    simp only
    refine (blocksLoop_ok hs cols _ mcuBlocks_lt h0).bind ?_
    rintro ⟨go, st'⟩ h1
    cases go with
    | false => exact Oks.pure h1
    | true => exact ih _ h1

/-- An image of the size it says. -/
def Image.Sized (i : Image) : Prop :=
  (i.colorType = .gray ∧ i.pixels.length = i.width * i.height) ∨
  (i.colorType = .rgb ∧ i.pixels.length = i.width * i.height * 3)

theorem flatten_length_const {α : Type} {l : List (List α)} {k : Nat} (h : ∀ a ∈ l, a.length = k) :
    l.flatten.length = l.length * k := by
  induction l with
  | nil => simp
  | cons a l ih =>
    rw [List.flatten_cons, List.length_append, h a (by simp), ih (fun x hx => h x (by simp [hx])), List.length_cons,
      Nat.succ_mul, Nat.add_comm]

theorem grayPixels_length (d : List UInt8) (cw w h : Nat) : (grayPixels d cw w h).length = w * h := by
  unfold grayPixels
  rw [List.flatMap_def, flatten_length_const (k := w)]
  · simp [Nat.mul_comm]
  · intro a ha
    obtain ⟨y, _, rfl⟩ := List.mem_map.1 ha
    simp

theorem divChecked_ok {a b : Nat} (h : 0 < b) : Oks (divChecked a b) (fun q => q = a / b) := by
  unfold divChecked; rw [if_neg (by omega)]; exact Oks.ok rfl

theorem rgbPixels_ok {s : State} (hs : s.Good) (h3 : s.components.length = 3) {data : List (List UInt8)}
    (hd : data.length = s.components.length) :
    Oks (rgbPixels data s.width s.height s.components s.maxH s.maxV) (fun p => p.length = s.width * s.height * 3) := by
  unfold rgbPixels
  refine (Pixo.Oks.get' (by omega)).bind fun c1 hc1 => (Pixo.Oks.get' (by omega)).bind fun c2 hc2 => ?_
  have g1 := hs.comps c1 hc1
  have g2 := hs.comps c2 hc2
  have pos : ∀ {a b : Nat}, 0 < b → b ≤ a → 0 < a / b := fun h h' => Nat.div_pos h' h
  refine (divChecked_ok g1.h.1).bind ?_
  rintro _ rfl
  refine (divChecked_ok g1.v.1).bind ?_
  rintro _ rfl
  refine (divChecked_ok g2.h.1).bind ?_
  rintro _ rfl
  refine (divChecked_ok g2.v.1).bind ?_
  rintro _ rfl
  refine (Pixo.Oks.get' (by omega)).bind fun d0 _ => (Pixo.Oks.get' (by omega)).bind fun d1 _ => (Pixo.Oks.get' (by omega)).bind fun d2 _ => ?_
  refine Oks.bind (P := fun r => r.length = s.height ∧ ∀ b ∈ r, b.length = s.width * 3)
    (Oks.mono (Oks.mapM (Q := fun b => b.length = s.width * 3) fun y _ => ?_) (fun r h => by simpa using h)) fun rows hr => ?_
  · refine (divChecked_ok (pos g1.v.1 g1.v.2)).bind fun _ _ => (divChecked_ok (pos g2.v.1 g2.v.2)).bind fun _ _ => ?_
    refine Oks.bind (P := fun r => r.length = s.width ∧ ∀ b ∈ r, b.length = 3)
      (Oks.mono (Oks.mapM (Q := fun b => b.length = 3) fun x _ => ?_) (fun r h => by simpa using h)) fun row hrow => ?_
    · refine (divChecked_ok (pos g1.h.1 g1.h.2)).bind fun _ _ => (divChecked_ok (pos g2.h.1 g2.h.2)).bind fun _ _ => ?_
      exact Oks.pure rfl
    · exact Oks.pure (by rw [flatten_length_const hrow.2, hrow.1])
  · exact Oks.pure (by rw [flatten_length_const hr.2, hr.1, ← Nat.mul_assoc, Nat.mul_comm s.height])

theorem decodeScan_ok {s : State} (hs : s.Good) (h0 : s.components ≠ []) (rest : List UInt8) :
    Oks (decodeScan false s rest) (fun i => i.Sized ∧ i.width = s.width ∧ i.height = s.height ∧ (i.colorType = .gray ↔ s.components.length = 1)) := by
  unfold decodeScan
  simp only
  refine (mcuLoop_ok hs _ _ 0 (st := _) ⟨Nat.zero_le _, by simp, by simp⟩).bind fun st hst => ?_
  have h0' : 0 < s.components.length := List.length_pos_iff.2 h0
  split
  · refine (Pixo.Oks.get' h0').bind fun c _ => (Pixo.Oks.get' (by rw [hst.data]; exact h0')).bind fun d _ => Oks.pure ?_
    exact ⟨Or.inl ⟨rfl, grayPixels_length _ _ _ _⟩, rfl, rfl, by simpa⟩
  · refine (rgbPixels_ok hs (by have := hs.count; omega) hst.data).bind fun p hp => Oks.pure ?_
    exact ⟨Or.inr ⟨rfl, hp⟩, rfl, rfl, by simpa⟩

/-! ### Headers -/

theorem sofComponents_safe (seg : List UInt8) (n i : Nat) (s : State) (hl : 6 + (i + n) * 3 ≤ seg.length)
    (h : s.quant.length = 4 ∧ (s.dc.length = 4 ∧ ∀ t ∈ s.dc, t.Good) ∧ (s.ac.length = 4 ∧ ∀ t ∈ s.ac, t.Good))
    (hc : ∀ c ∈ s.components, c.Good s) (hn : i = s.components.length) :
    Safe (sofComponents seg n i s) (fun s' => (s'.quant.length = 4 ∧ (s'.dc.length = 4 ∧ ∀ t ∈ s'.dc, t.Good) ∧
      (s'.ac.length = 4 ∧ ∀ t ∈ s'.ac, t.Good)) ∧ (∀ c ∈ s'.components, c.Good s') ∧ s'.components.length = i + n ∧ s'.width = s.width ∧ s'.height = s.height) := by
  induction n generalizing i s with
  | zero => exact Safe.ok ⟨h, hc, by omega, rfl, rfl⟩
  | succ n ih =>
    unfold sofComponents
    simp only
    refine (Pixo.Oks.get' (by omega)).safe.bind fun sm _ => ?_
    split
    · exact Safe.invalid
    · rename_i hhv
      refine (Pixo.Oks.get' (by omega)).safe.bind fun tq _ => ?_
      split
      · exact Safe.invalid
      · rename_i htq
        refine Safe.mono (ih (i + 1) _ (by omega) h ?_ ?_) ?_
        rotate_left 1
        · simp [hn]
        rotate_left 1
        · intro c hc'
          rcases List.mem_append.1 hc' with hc' | hc'
          · have := hc c hc'
            exact ⟨⟨this.h.1, by have := this.h.2; simp only; omega⟩, ⟨this.v.1, by have := this.v.2; simp only; omega⟩,
              this.quant, this.dc, this.ac⟩
          · rw [List.mem_singleton] at hc'
            subst hc'
            exact ⟨⟨by simp only; omega, by simp only; omega⟩, ⟨by simp only; omega, by simp only; omega⟩, by simp only; omega, by simp, by simp⟩
        · rintro s' ⟨a, b, c, d, e⟩
          exact ⟨a, b, by omega, d, e⟩

theorem parseSof0_safe (seg : List UInt8) (s : State) (hs : s.Good) :
    Safe (parseSof0 seg s) (fun s' => s'.Good ∧ s'.components ≠ [] ∧ ∃ h1 h0 w1 w0 n tail, seg = 8 :: h1 :: h0 :: w1 :: w0 :: n :: tail ∧
      s'.height = 256 * h1.toNat + h0.toNat ∧ s'.width = 256 * w1.toNat + w0.toNat ∧ s'.components.length = n.toNat) := by
  unfold parseSof0
  split
  · exact Safe.invalid
  · rename_i h8
    match seg, h8 with
    | p :: h1 :: h0 :: w1 :: w0 :: n :: tail, h8 =>
      show Safe (if p ≠ 8 then _ else _) _
      split
      · exact Safe.unsupported
      · rename_i hp
        have hp : p = 8 := Decidable.not_not.1 hp
        subst hp
        show Safe (if n.toNat ≠ 1 ∧ n.toNat ≠ 3 then _ else _) _
        split
        · exact Safe.unsupported
        · rename_i hn
          split
          · exact Safe.invalid
          · refine (sofComponents_safe _ n.toNat 0 { s with width := _, height := _, components := [] } (by omega)
              ⟨hs.quant, hs.dc, hs.ac⟩ (by simp) rfl).mono ?_
            rintro s' ⟨⟨a, b, c⟩, d, e, f, g⟩
            refine ⟨⟨a, b, c, d, by omega⟩, ?_, h1, h0, w1, w0, n, tail, rfl, g, f, by omega⟩
            intro h
            rw [h, List.length_nil] at e
            omega
    | [], h8 | [_], h8 | [_, _], h8 | [_, _, _], h8 | [_, _, _, _], h8 | [_, _, _, _, _], h8 => simp at h8

theorem mem_set_of {α : Type} {P : α → Prop} {l : List α} {i : Nat} {v : α} (h : ∀ x ∈ l, P x) (hv : P v) :
    ∀ x ∈ l.set i v, P x := fun x hx => (List.mem_or_eq_of_mem_set hx).elim (h x) (fun e => e ▸ hv)

theorem takeChecked_ok {α : Type} {l : List α} {n : Nat} (h : n ≤ l.length) : takeChecked l n = .ok (l.take n) := by
  unfold takeChecked; rw [if_neg (by omega)]

theorem parseDht_safe (fuel : Nat) (seg : List UInt8) (s : State) (hs : s.Good) (hf : seg.length ≤ fuel) :
    Safe (parseDht fuel seg s) (fun s' => s'.Good ∧ s'.components = s.components ∧ s'.width = s.width ∧ s'.height = s.height) := by
  induction fuel generalizing seg s with
  | zero =>
    have : seg = [] := List.length_eq_zero_iff.1 (by omega)
    subst this
    exact Safe.ok ⟨hs, rfl, rfl, rfl⟩
  | succ fuel ih =>
    cases seg with
    | nil => exact Safe.ok ⟨hs, rfl, rfl, rfl⟩
    | cons info rest =>
      unfold parseDht
      simp only
      split
      · exact Safe.invalid
      · rename_i hid
        split
        · exact Safe.invalid
        · rename_i h16
          rw [takeChecked_ok (by omega), ok_bind]
          split
          · exact Safe.invalid
          · rw [takeChecked_ok (by omega), ok_bind]
            have hg : (Huff.build ((rest.take 16).map UInt8.toNat)
                (((rest.drop 16).take ((rest.take 16).map UInt8.toNat).sum).map UInt8.toNat)).Good :=
              build_good (by rw [List.length_map, List.length_take]; omega)
            rw [List.length_cons] at hf
            split
            · refine (Oks.set (by rw [hs.dc.1]; omega)).safe.bind ?_
              rintro _ rfl
              exact ih _ { s with dc := _ } ⟨hs.quant, ⟨by rw [List.length_set]; exact hs.dc.1, mem_set_of hs.dc.2 hg⟩, hs.ac,
                fun c hc => ⟨(hs.comps c hc).h, (hs.comps c hc).v, (hs.comps c hc).quant, (hs.comps c hc).dc, (hs.comps c hc).ac⟩,
                hs.count⟩ (by rw [List.length_drop, List.length_drop]; omega)
            · refine (Oks.set (by rw [hs.ac.1]; omega)).safe.bind ?_
              rintro _ rfl
              exact ih _ { s with ac := _ } ⟨hs.quant, hs.dc, ⟨by rw [List.length_set]; exact hs.ac.1, mem_set_of hs.ac.2 hg⟩,
                fun c hc => ⟨(hs.comps c hc).h, (hs.comps c hc).v, (hs.comps c hc).quant, (hs.comps c hc).dc, (hs.comps c hc).ac⟩,
                hs.count⟩ (by rw [List.length_drop, List.length_drop]; omega)

theorem parseDqt_safe (fuel : Nat) (seg : List UInt8) (s : State) (hs : s.Good) (hf : seg.length ≤ fuel) :
    Safe (parseDqt fuel seg s) (fun s' => s'.Good ∧ s'.components = s.components ∧ s'.width = s.width ∧ s'.height = s.height) := by
  induction fuel generalizing seg s with
  | zero =>
    have : seg = [] := List.length_eq_zero_iff.1 (by omega)
    subst this
    exact Safe.ok ⟨hs, rfl, rfl, rfl⟩
  | succ fuel ih =>
    cases seg with
    | nil => exact Safe.ok ⟨hs, rfl, rfl, rfl⟩
    | cons info rest =>
      unfold parseDqt
      simp only
      rw [List.length_cons] at hf
      have hg : ∀ q i, ({ s with quant := s.quant.set i q } : State).Good := fun q i =>
        ⟨by rw [List.length_set]; exact hs.quant, hs.dc, hs.ac,
          fun c hc => ⟨(hs.comps c hc).h, (hs.comps c hc).v, (hs.comps c hc).quant, (hs.comps c hc).dc, (hs.comps c hc).ac⟩, hs.count⟩
      split
      · exact Safe.invalid
      · rename_i hid
        split
        · split
          · exact Safe.invalid
          · rw [takeChecked_ok (by omega), ok_bind]
            refine (Oks.set (by rw [hs.quant]; omega)).safe.bind ?_
            rintro _ rfl
            exact ih _ _ (hg _ _) (by rw [List.length_drop]; omega)
        · split
          · exact Safe.invalid
          · rw [takeChecked_ok (by omega), ok_bind]
            refine (Oks.set (by rw [hs.quant]; omega)).safe.bind ?_
            rintro _ rfl
            exact ih _ _ (hg _ _) (by rw [List.length_drop]; omega)

theorem parseDri_safe (seg : List UInt8) (s : State) (hs : s.Good) :
    Safe (parseDri seg s) (fun s' => s'.Good ∧ s'.components = s.components ∧ s'.width = s.width ∧ s'.height = s.height) := by
  unfold parseDri
  split
  · exact Safe.ok ⟨⟨hs.quant, hs.dc, hs.ac,
      fun c hc => ⟨(hs.comps c hc).h, (hs.comps c hc).v, (hs.comps c hc).quant, (hs.comps c hc).dc, (hs.comps c hc).ac⟩, hs.count⟩, rfl, rfl, rfl⟩
  · exact Safe.invalid

theorem sosComponents_safe (seg : List UInt8) (s : State) (n i : Nat) (cs : List Component) (hc : ∀ c ∈ cs, c.Good s)
    (hi : i + n ≤ cs.length) :
    Safe (sosComponents seg n i cs) (fun cs' => cs'.length = cs.length ∧ ∀ c ∈ cs', c.Good s) := by
  induction n generalizing i cs with
  | zero => exact Safe.ok ⟨rfl, hc⟩
  | succ n ih =>
    unfold sosComponents
    simp only
    split
    · exact Safe.invalid
    · refine (Pixo.Oks.get' (by omega)).safe.bind fun t _ => ?_
      split
      · exact Safe.invalid
      · split
        · exact Safe.invalid
        · refine (Pixo.Oks.get' (by omega)).safe.bind fun c hcm => ?_
          have := hc c hcm
          refine Safe.mono (ih (i + 1) _ (mem_set_of hc ?_) ?_) ?_
          · exact ⟨this.h, this.v, this.quant, by simp only; omega, by simp only; omega⟩
          · rw [List.length_set]; omega
          rintro cs' ⟨a, b⟩
          exact ⟨by rw [a, List.length_set], b⟩

theorem parseSos_safe (seg : List UInt8) (s : State) (hs : s.Good) :
    Safe (parseSos seg s) (fun s' => s'.Good ∧ s'.components.length = s.components.length ∧
      s'.width = s.width ∧ s'.height = s.height ∧
      (s.components = [] → seg.head? = some 0)) := by
  unfold parseSos
  split
  · exact Safe.invalid
  · rename_i n _
    split
    · exact Safe.invalid
    · rename_i hn
      refine (sosComponents_safe _ s _ 0 _ hs.comps (by omega)).bind ?_
      rintro cs ⟨a, b⟩
      refine Safe.pure ⟨⟨hs.quant, hs.dc, hs.ac, ?_, by simp only; rw [a]; exact hs.count⟩, a, rfl, rfl, ?_⟩
      · intro c hc
        exact ⟨(b c hc).h, (b c hc).v, (b c hc).quant, (b c hc).dc, (b c hc).ac⟩
      · intro h0
        rw [h0] at hn
        have : n.toNat = 0 := by simpa using hn
        rw [List.head?_cons]
        congr 1
        exact UInt8.toNat_inj.1 this

end Pixo.JpegDecode
