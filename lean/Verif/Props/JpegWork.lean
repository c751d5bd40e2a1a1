import Verif.Model.JpegWork
import Verif.Proof.InflateWork
import Verif.Props.JpegDecode32
/-
C113: the work of decoding JPEG.
-/
namespace Pixo.Props.JpegWork
open Pixo Pixo.JpegDecode Pixo.Idct Spec.Markers
open Pixo.Inflate (Counted tick free bind_same free_same tick_same)
open Pixo.Props.JpegDecode32 (Small parseSof0_small parseDht_small parseDqt_small parseDri_small parseSos_small plane_le plane)

/-! ### The same results -/

theorem decodeSlowC_same (t : Huff) : ∀ (n len : Nat) (code : Int) (r : MsbBitReader), (decodeSlowC t n len code r).res = decodeSlow false t n len code r
  | 0, _, _, _ => rfl
  | n + 1, len, code, r => by
    rw [decodeSlowC, decodeSlow, tick_same]
    refine free_same ?_
    rintro ⟨b, r'⟩
    cases b with
    | none => rfl
    | some b =>
      refine free_same fun m => ?_
      split
      · exact free_same fun _ => rfl
      · exact decodeSlowC_same t n _ _ _

theorem decodeC_same (t : Huff) (r : MsbBitReader) : (t.decodeC r).res = t.decode false r := by
  unfold Huff.decodeC Huff.decode
  rw [tick_same]
  refine free_same ?_
  rintro ⟨p, r'⟩
  cases p with
  | none => exact decodeSlowC_same t _ _ _ _
  | some p =>
    refine free_same fun e => ?_
    simp only
    split
    · exact free_same fun _ => rfl
    · exact decodeSlowC_same t _ _ _ _

theorem acLoopC_same (t : Huff) : ∀ (fuel k : Nat) (cs : List Int) (r : MsbBitReader), (acLoopC t fuel k cs r).res = acLoop false t fuel k cs r
  | 0, _, _, _ => rfl
  | fuel + 1, k, cs, r => by
    rw [acLoopC, acLoop]
    split
    · refine bind_same (decodeC_same t r) ?_
      rintro ⟨sym, r'⟩
      cases sym with
      | none => rfl
      | some sym =>
        simp only
        split
        · rfl
        · split
          · exact acLoopC_same t _ _ _ _
          · split
            · rfl
            · split
              · rw [tick_same]
                refine free_same ?_
                rintro ⟨a, r2⟩
                cases a with
                | none => rfl
                | some a => exact free_same fun _ => acLoopC_same t _ _ _ _
              · exact acLoopC_same t _ _ _ _
    · rfl

theorem decodeBlockC_same (s : State) (c : Component) (pred : Int) (r : MsbBitReader) :
    (decodeBlockC s c pred r).res = decodeBlock false s c pred r := by
  unfold decodeBlockC decodeBlock
  rw [tick_same]
  refine free_same fun dc => bind_same (decodeC_same dc r) ?_
  rintro ⟨cat, r'⟩
  cases cat with
  | none => rfl
  | some cat =>
    have key : ∀ p : Option Int × MsbBitReader, (match p.1 with
        | none => (pure (none, p.2) : Counted (Option (List Int × Int) × MsbBitReader))
        | some diff => do
          let pred ← free (i32 false (pred + diff))
          let ac ← free (getChecked s.ac c.ac)
          let p ← acLoopC ac 64 1 ((List.replicate 64 0).set 0 (wrap16 pred)) p.2
          match p.1 with
            | none => pure (none, p.2)
            | some coeffs => pure (some (coeffs, pred), p.2)).res = (match p.1 with
        | none => (pure (none, p.2) : R (Option (List Int × Int) × MsbBitReader))
        | some diff => do
          let pred ← i32 false (pred + diff)
          let ac ← getChecked s.ac c.ac
          let p ← acLoop false ac 64 1 ((List.replicate 64 0).set 0 (wrap16 pred)) p.2
          match p.1 with
            | none => pure (none, p.2)
            | some coeffs => pure (some (coeffs, pred), p.2)) := by
      rintro ⟨d, r2⟩
      cases d with
      | none => rfl
      | some d =>
        refine free_same fun pred => free_same fun ac => bind_same (acLoopC_same _ _ _ _ _) ?_
        rintro ⟨cs, r3⟩
        cases cs <;> rfl
    simp only
    unfold dcDiffC
    split
    · rw [Inflate.bind_res, tick_same]
      show (readAmplitude false r' cat >>= _) = _
      exact bind_congr fun p => key p
    · exact key (some 0, r')

theorem blockStepC_same (s : State) (cols i bx byy : Nat) (st : Scan) : (blockStepC s cols i bx byy st).res = blockStep false s cols i bx byy st := by
  unfold blockStepC blockStep
  refine free_same fun c => free_same fun pred => bind_same (decodeBlockC_same _ _ _ _) ?_
  rintro ⟨res, r⟩
  cases res with
  | none => rfl
  | some p =>
    obtain ⟨cs, pred⟩ := p
    simp only
    rw [tick_same]
    exact free_same fun _ => free_same fun _ => free_same fun _ => free_same fun _ => free_same fun _ => rfl

theorem blocksLoopC_same (s : State) (cols : Nat) : ∀ (l : List (Nat × Nat × Nat)) (st : Scan), (blocksLoopC s cols l st).res = blocksLoop false s cols l st
  | [], _ => rfl
  | (i, bx, byy) :: l, st => by
    rw [blocksLoopC, blocksLoop]
    refine bind_same (blockStepC_same _ _ _ _ _ _) ?_
    rintro ⟨go, st⟩
    cases go with
    | false => rfl
    | true => exact blocksLoopC_same s cols l st

theorem mcuLoopC_same (s : State) (cols : Nat) : ∀ (l : List (Nat × Nat)) (count : Nat) (st : Scan), (mcuLoopC s cols l count st).res = mcuLoop false s cols l count st
  | [], _, _ => rfl
  | (mx, my) :: l, count, st => by
    rw [mcuLoopC, mcuLoop, tick_same]
    refine bind_same (blocksLoopC_same _ _ _ _) ?_
    rintro ⟨go, st⟩
    cases go with
    | false => rfl
    | true => exact mcuLoopC_same s cols l _ st

theorem decodeScanC_same (s : State) (rest : List UInt8) : (decodeScanC s rest).res = decodeScan false s rest := by
  unfold decodeScanC decodeScan
  simp only
  rw [tick_same, tick_same]
  refine bind_same (mcuLoopC_same _ _ _ _ _) fun st => ?_
  rw [tick_same]
  split
  · exact free_same fun _ => free_same fun _ => rfl
  · exact free_same fun _ => rfl

theorem markerLoopC_same : ∀ (fuel : Nat) (s : State) (d : List UInt8), (markerLoopC fuel s d).res = markerLoop false fuel s d
  | 0, _, _ => rfl
  | fuel + 1, s, d => by
    rw [markerLoopC, markerLoop]
    refine free_same ?_
    rintro ⟨m, seg, rest⟩
    simp only
    rw [tick_same]
    split
    · exact free_same fun _ => markerLoopC_same _ _ _
    split
    · rfl
    split
    · exact free_same fun _ => markerLoopC_same _ _ _
    split
    · exact free_same fun _ => markerLoopC_same _ _ _
    split
    · exact free_same fun _ => markerLoopC_same _ _ _
    split
    · exact free_same fun _ => decodeScanC_same _ _
    split
    · rfl
    · exact markerLoopC_same _ _ _

theorem decodeJpegC_same (data : List UInt8) : (decodeJpegC data).res = decodeJpeg false data := by
  unfold decodeJpegC decodeJpeg
  split
  · exact markerLoopC_same _ _ _
  · rename_i hn
    split
    · exact absurd rfl (hn _)
    · rfl

/-! ### Bits that are left -/

/-- Bits not yet taken. -/
def bitsLeft (r : MsbBitReader) : Nat := 8 * (r.data.length - r.pos) + r.bitsInBuf

theorem nextByte_left : ∀ (fuel : Nat) (r : MsbBitReader) (p : Option Nat × MsbBitReader), nextByte fuel r = .ok p →
    p.2.data = r.data ∧ bitsLeft p.2 + (if p.1.isSome then 8 else 0) ≤ bitsLeft r
  | 0, _, _, h => by cases h
  | fuel + 1, r, p, h => by
    unfold nextByte at h
    cases h0 : r.data[r.pos]? with
    | none =>
      rw [h0] at h
      cases h
      exact ⟨rfl, Nat.le_refl _⟩
    | some byte =>
      have h0' := (List.getElem?_eq_some_iff.1 h0).1
      rw [h0] at h
      simp only at h
      split at h
      · cases h1 : r.data[r.pos + 1]? with
        | none =>
          rw [h1] at h
          cases h
          refine ⟨rfl, ?_⟩
          unfold bitsLeft
          simp only [Option.isSome_none, if_neg (show ¬(false = true) by decide)]
          omega
        | some next =>
          have h1' := (List.getElem?_eq_some_iff.1 h1).1
          rw [h1] at h
          simp only at h
          split at h
          · cases h
            refine ⟨rfl, ?_⟩
            unfold bitsLeft
            simp only [Option.isSome_some, if_true]
            omega
          · split at h
            · obtain ⟨a, b⟩ := nextByte_left fuel _ p h
              refine ⟨a, Nat.le_trans b ?_⟩
              unfold bitsLeft
              simp only
              omega
            · cases h
              exact ⟨rfl, Nat.le_refl _⟩
      · cases h
        refine ⟨rfl, ?_⟩
        unfold bitsLeft
        simp only [Option.isSome_some, if_true]
        omega

theorem ensure_left : ∀ (fuel : Nat) (r : MsbBitReader) (n : Nat) (p : Bool × MsbBitReader), ensure false fuel r n = .ok p → bitsLeft p.2 ≤ bitsLeft r
  | 0, _, _, _, h => by cases h
  | fuel + 1, r, n, p, h => by
    unfold ensure at h
    split at h
    · obtain ⟨⟨b, r'⟩, h1, h⟩ := JpegDecode32.bind_parts h
      have := nextByte_left _ _ _ h1
      cases b with
      | none =>
        cases h
        exact Nat.le_trans (Nat.le_add_right _ _) this.2
      | some b =>
        have h2 := this.2
        simp only [Option.isSome_some, if_true] at h2
        simp only at h
        split at h
        · refine Nat.le_trans (ensure_left fuel _ n p h) ?_
          unfold bitsLeft at *
          simp only at *
          omega
        · rw [if_neg (by decide)] at h
          refine Nat.le_trans (ensure_left fuel _ n p h) ?_
          have := Nat.mod_le (r'.bitsInBuf + 8) 256
          unfold bitsLeft at *
          simp only at *
          omega
    · cases h
      exact Nat.le_refl _

theorem peekBits_left {r : MsbBitReader} {n : Nat} {p : Option Nat × MsbBitReader} (h : peekBits false r n = .ok p) : bitsLeft p.2 ≤ bitsLeft r := by
  unfold peekBits at h
  rw [if_neg (by simp)] at h
  obtain ⟨⟨d, r'⟩, h1, h⟩ := JpegDecode32.bind_parts h
  have := ensure_left _ _ _ _ h1
  cases d with
  | false =>
    cases h
    exact this
  | true =>
    simp only [if_true] at h
    obtain ⟨_, -, h⟩ := JpegDecode32.bind_parts h
    obtain ⟨_, -, h⟩ := JpegDecode32.bind_parts h
    cases h
    exact this

theorem consume_left {r r' : MsbBitReader} {n : Nat} (h : consume r n = .ok r') : bitsLeft r' + n = bitsLeft r := by
  unfold consume at h
  split at h
  · cases h
    unfold bitsLeft
    simp only
    omega
  · cases h

theorem readBits_left {r : MsbBitReader} {n : Nat} {p : Option Nat × MsbBitReader} (h : readBits false r n = .ok p) :
    bitsLeft p.2 + (if p.1.isSome then n else 0) ≤ bitsLeft r := by
  unfold readBits at h
  obtain ⟨⟨v, r'⟩, h1, h⟩ := JpegDecode32.bind_parts h
  have := peekBits_left h1
  cases v with
  | none =>
    cases h
    simpa using this
  | some v =>
    obtain ⟨r2, h2, h⟩ := JpegDecode32.bind_parts h
    cases h
    have := consume_left h2
    simp only [Option.isSome_some, if_true] at *
    omega

theorem readAmplitude_left {r : MsbBitReader} {n : Nat} {p : Option Int × MsbBitReader} (h : readAmplitude false r n = .ok p) :
    bitsLeft p.2 ≤ bitsLeft r := by
  unfold readAmplitude at h
  obtain ⟨⟨v, r'⟩, h1, h⟩ := JpegDecode32.bind_parts h
  have := readBits_left h1
  cases v with
  | none =>
    cases h
    exact Nat.le_trans (Nat.le_add_right _ _) this
  | some v =>
    have h2 : bitsLeft r' ≤ bitsLeft r := Nat.le_trans (Nat.le_add_right _ _) this
    obtain ⟨_, -, h⟩ := JpegDecode32.bind_parts h
    simp only at h
    split at h
    · obtain ⟨_, -, h⟩ := JpegDecode32.bind_parts h
      obtain ⟨_, -, h⟩ := JpegDecode32.bind_parts h
      obtain ⟨_, -, h⟩ := JpegDecode32.bind_parts h
      cases h
      exact h2
    · cases h
      exact h2

/-! ### Budgets -/

/-- The steps are within the budget, and `left` of it is left. -/
def Spend {α : Type} (x : Counted α) (budget : Nat) (left : α → Nat) : Prop :=
  x.steps ≤ budget ∧ ∀ a, x.res = .ok a → x.steps + left a ≤ budget

theorem Spend.bind {α β : Type} {x : Counted α} {f : α → Counted β} {b : Nat} {l : α → Nat} {l' : β → Nat} (hx : Spend x b l)
    (hf : ∀ a, x.res = .ok a → Spend (f a) (l a) l') : Spend (x >>= f) b l' := by
  obtain ⟨res, n⟩ := x
  cases res with
  | error e => exact ⟨hx.1, fun a h => by cases h⟩
  | ok a =>
    have h1 := hx.2 a rfl
    have h2 := hf a rfl
    simp only at h1
    constructor
    · show n + (f a).steps ≤ b
      have := h2.1
      omega
    · intro c hc
      have := h2.2 c hc
      show n + (f a).steps + l' c ≤ b
      omega

theorem Spend.pure {α : Type} {a : α} {b : Nat} {l : α → Nat} (h : l a ≤ b) : Spend (Pure.pure a : Counted α) b l := by
  refine ⟨Nat.zero_le _, ?_⟩
  rintro c ⟨⟩
  show 0 + l a ≤ b
  omega

theorem Spend.free {α : Type} {x : R α} {b : Nat} {l : α → Nat} (h : ∀ a, x = .ok a → l a ≤ b) : Spend (Inflate.free x) b l := by
  refine ⟨Nat.zero_le _, fun a ha => ?_⟩
  have := h a ha
  show 0 + l a ≤ b
  omega

theorem Spend.free_bind {α β : Type} {x : R α} {f : α → Counted β} {b : Nat} {l : β → Nat} (h : ∀ a, x = .ok a → Spend (f a) b l) :
    Spend (Inflate.free x >>= f) b l := Spend.bind (l := fun _ => b) (Spend.free fun _ _ => Nat.le_refl _) h

theorem Spend.tick_bind {β : Type} {n b : Nat} {f : Unit → Counted β} {l : β → Nat} (h : Spend (f ()) b l) : Spend (Inflate.tick n >>= f) (n + b) l :=
  Spend.bind (l := fun _ => b) ⟨Nat.le_add_right _ _, fun _ _ => Nat.le_refl _⟩ fun _ _ => h

theorem Spend.mono {α : Type} {x : Counted α} {b b' : Nat} {l l' : α → Nat} (h : Spend x b l) (hb : b ≤ b') (hl : ∀ a, l' a + b ≤ l a + b') : Spend x b' l' := by
  refine ⟨Nat.le_trans h.1 hb, fun a ha => ?_⟩
  have := h.2 a ha
  have := hl a
  omega

/-! ### Steps -/

/-- Steps a bit can cost: a block with a symbol of one bit. -/
def perBit : Nat := 226

/-- What is left when `e` more are paid for each success. -/
def rem {α : Type} (e : Nat) (p : Option α × MsbBitReader) : Nat := perBit * bitsLeft p.2 + (if p.1.isSome then e else 0)

theorem decodeSlowC_spend (t : Huff) : ∀ (n len : Nat) (code : Int) (r : MsbBitReader),
    Spend (decodeSlowC t n len code r) (perBit * bitsLeft r + n) (rem perBit)
  | 0, _, _, r => by
    rw [decodeSlowC]
    refine Spend.pure ?_
    unfold rem
    simp
  | n + 1, len, code, r => by
    rw [decodeSlowC, show perBit * bitsLeft r + (n + 1) = 1 + (perBit * bitsLeft r + n) by omega]
    refine Spend.tick_bind (Spend.free_bind ?_)
    rintro ⟨b, r'⟩ h
    have h1 := readBits_left h
    cases b with
    | none =>
      refine Spend.pure ?_
      unfold rem perBit
      simp only [Option.isSome_none] at *
      simp only [if_neg (show ¬(false = true) by decide)] at *
      omega
    | some b =>
      simp only [Option.isSome_some, if_true] at h1
      refine Spend.free_bind fun m _ => ?_
      split
      · refine Spend.free_bind fun o _ => Spend.pure ?_
        have : ∀ x : Option Nat, (if x.isSome then 226 else 0) ≤ 226 := fun x => by split <;> omega
        have := this (if 0 ≤ code * 2 + (b : Int) + o then t.values[(code * 2 + (b : Int) + o).toNat]? else none)
        unfold rem perBit
        simp only at *
        omega
      · refine (decodeSlowC_spend t n _ _ _).mono ?_ fun a => ?_
        · unfold perBit
          omega
        · unfold perBit
          omega

theorem decodeC_spend (t : Huff) (r : MsbBitReader) : Spend (t.decodeC r) (perBit * bitsLeft r + 17) (rem perBit) := by
  unfold Huff.decodeC
  rw [show perBit * bitsLeft r + 17 = 1 + (perBit * bitsLeft r + 16) by omega]
  refine Spend.tick_bind (Spend.free_bind ?_)
  rintro ⟨p, r'⟩ h
  have h1 := peekBits_left h
  simp only at h1
  have slow : Spend (decodeSlowC t 16 1 0 r') (perBit * bitsLeft r + 16) (rem perBit) := by
    refine (decodeSlowC_spend t 16 1 0 r').mono ?_ fun a => ?_
    · unfold perBit
      omega
    · unfold perBit
      omega
  cases p with
  | none => exact slow
  | some p =>
    refine Spend.free_bind fun e _ => ?_
    simp only
    split
    · refine Spend.free_bind fun r2 h2 => Spend.pure ?_
      have := consume_left h2
      unfold rem perBit
      simp only [Option.isSome_some, if_true]
      omega
    · exact slow

theorem acLoopC_spend (t : Huff) : ∀ (fuel k : Nat) (cs : List Int) (r : MsbBitReader), Spend (acLoopC t fuel k cs r) (perBit * bitsLeft r + 17) (rem 17)
  | 0, _, _, _ => Spend.free fun _ h => by cases h
  | fuel + 1, k, cs, r => by
    rw [acLoopC]
    split
    · refine (decodeC_spend t r).bind ?_
      rintro ⟨sym, r'⟩ -
      cases sym with
      | none =>
        refine Spend.pure ?_
        unfold rem
        simp
      | some sym =>
        have enough : ∀ (r2 : MsbBitReader) (k : Nat) (cs : List Int), bitsLeft r2 ≤ bitsLeft r' → ∀ b, perBit * bitsLeft r' + 17 ≤ b →
            Spend (acLoopC t fuel k cs r2) b (rem 17) := by
          intro r2 k cs hr b hb
          refine (acLoopC_spend t fuel k cs r2).mono ?_ fun a => ?_
          · unfold perBit at *
            omega
          · unfold perBit at *
            omega
        have e : rem perBit (some sym, r') = perBit * bitsLeft r' + 226 := rfl
        rw [e]
        simp only
        split
        · exact Spend.pure (by unfold rem; simp)
        · split
          · exact enough r' _ _ (Nat.le_refl _) _ (by omega)
          · split
            · exact Spend.pure (by unfold rem; simp)
            · split
              · rw [show perBit * bitsLeft r' + 226 = 1 + (perBit * bitsLeft r' + 225) by omega]
                refine Spend.tick_bind (Spend.free_bind ?_)
                rintro ⟨a, r2⟩ h2
                replace h2 := readAmplitude_left h2
                simp only at h2
                cases a with
                | none =>
                  refine Spend.pure ?_
                  unfold rem perBit
                  simp only [Option.isSome_none, if_neg (show ¬(false = true) by decide)]
                  omega
                | some a => exact Spend.free_bind fun cs _ => enough r2 _ _ h2 _ (by omega)
              · exact enough r' _ _ (Nat.le_refl _) _ (by omega)
    · refine Spend.pure ?_
      unfold rem
      simp only [Option.isSome_some, if_true]
      omega

theorem dcDiffC_spend (cat : Nat) (r : MsbBitReader) (b : Nat) : Spend (dcDiffC cat r) (1 + (perBit * bitsLeft r + b)) (rem b) := by
  unfold dcDiffC
  split
  · refine Spend.tick_bind (Spend.free ?_)
    rintro ⟨a, r2⟩ h2
    have h2 := readAmplitude_left h2
    unfold rem perBit
    simp only at *
    split <;> omega
  · refine Spend.pure ?_
    unfold rem
    simp only [Option.isSome_some, if_true]
    omega

theorem decodeBlockC_spend (s : State) (c : Component) (pred : Int) (r : MsbBitReader) :
    Spend (decodeBlockC s c pred r) (perBit * bitsLeft r + 81) (rem 225) := by
  unfold decodeBlockC
  rw [show perBit * bitsLeft r + 81 = 64 + (perBit * bitsLeft r + 17) by omega]
  refine Spend.tick_bind (Spend.free_bind fun dc _ => (decodeC_spend dc r).bind ?_)
  rintro ⟨cat, r'⟩ -
  cases cat with
  | none =>
    refine Spend.pure ?_
    unfold rem
    simp
  | some cat =>
    have e : rem perBit (some cat, r') = 1 + (perBit * bitsLeft r' + 225) := by
      show perBit * bitsLeft r' + 226 = _
      omega
    rw [e]
    refine (dcDiffC_spend cat r' 225).bind ?_
    rintro ⟨d, r2⟩ -
    cases d with
    | none =>
      refine Spend.pure ?_
      unfold rem
      simp
    | some d =>
      have e : rem 225 (some d, r2) = perBit * bitsLeft r2 + 225 := rfl
      rw [e]
      refine Spend.free_bind fun pred _ => Spend.free_bind fun ac _ => ?_
      refine Spend.bind (l := fun p => rem 17 p + 208) ((acLoopC_spend ac 64 1 _ r2).mono (by omega) (fun _ => by omega)) ?_
      rintro ⟨cs, r3⟩ -
      cases cs with
      | none =>
        refine Spend.pure ?_
        unfold rem
        simp
      | some cs =>
        refine Spend.pure ?_
        unfold rem
        simp only [Option.isSome_some, if_true]
        omega

/-- What is left after blocks. -/
def remScan (p : Bool × Scan) : Nat := perBit * bitsLeft p.2.reader + (if p.1 then 81 else 0)

theorem blockStepC_spend (s : State) (cols i bx byy : Nat) (st : Scan) :
    Spend (blockStepC s cols i bx byy st) (perBit * bitsLeft st.reader + 81) remScan := by
  unfold blockStepC
  refine Spend.free_bind fun c _ => Spend.free_bind fun pred _ => (decodeBlockC_spend s c pred st.reader).bind ?_
  rintro ⟨res, r⟩ -
  cases res with
  | none =>
    refine Spend.pure ?_
    unfold rem remScan
    simp
  | some p =>
    obtain ⟨cs, pred⟩ := p
    have e : rem 225 (some (cs, pred), r) = (64 + 16 + 64) + (perBit * bitsLeft r + 81) := by
      show perBit * bitsLeft r + 225 = _
      omega
    rw [e]
    refine Spend.tick_bind (Spend.free_bind fun _ _ => Spend.free_bind fun _ _ => Spend.free_bind fun _ _ => Spend.free_bind fun _ _ =>
      Spend.free_bind fun _ _ => Spend.pure ?_)
    exact Nat.le_refl _

theorem blocksLoopC_spend (s : State) (cols : Nat) : ∀ (l : List (Nat × Nat × Nat)) (st : Scan),
    Spend (blocksLoopC s cols l st) (perBit * bitsLeft st.reader + 81) remScan
  | [], st => Spend.pure (Nat.le_refl _)
  | (i, bx, byy) :: l, st => by
    rw [blocksLoopC]
    refine (blockStepC_spend s cols i bx byy st).bind ?_
    rintro ⟨go, st⟩ -
    cases go with
    | false => exact Spend.pure (Nat.le_refl _)
    | true => exact blocksLoopC_spend s cols l st

theorem mcuLoopC_spend (s : State) (cols : Nat) : ∀ (l : List (Nat × Nat)) (count : Nat) (st : Scan),
    Spend (mcuLoopC s cols l count st) ((1 + s.components.length) * l.length + (perBit * bitsLeft st.reader + 81)) (fun _ => 0)
  | [], _, st => Spend.pure (Nat.zero_le _)
  | (mx, my) :: l, count, st => by
    rw [mcuLoopC, List.length_cons, Nat.mul_add, Nat.mul_one, Nat.add_comm (_ * l.length), Nat.add_assoc]
    refine Spend.tick_bind ?_
    simp only
    have hr : (if s.restart > 0 ∧ count > 0 ∧ count % s.restart = 0 then { st with preds := st.preds.map (fun _ => 0) } else st).reader = st.reader := by
      split <;> rfl
    have hb := blocksLoopC_spend s cols (mcuBlocks s.components mx my)
      (if s.restart > 0 ∧ count > 0 ∧ count % s.restart = 0 then { st with preds := st.preds.map (fun _ => 0) } else st)
    rw [hr] at hb
    refine Spend.bind (l := fun p => remScan p + (1 + s.components.length) * l.length) (hb.mono ?_ ?_) ?_
    · omega
    · intro a
      omega
    · rintro ⟨go, st⟩ -
      cases go with
      | false => exact Spend.pure (Nat.zero_le _)
      | true =>
        refine (mcuLoopC_spend s cols l (count + 1) st).mono ?_ fun _ => ?_
        · unfold remScan
          simp only [if_true]
          omega
        · unfold remScan
          simp only [if_true]
          omega

theorem entropyEnd_le : ∀ l : List UInt8, entropyEnd l ≤ l.length
  | [] => Nat.le_refl _
  | [_] => Nat.le_refl _
  | a :: b :: l => by
    rw [entropyEnd]
    have h1 := entropyEnd_le l
    have h2 := entropyEnd_le (b :: l)
    simp only [List.length_cons] at *
    split
    · split <;> omega
    · omega

theorem grid_length (rows cols : Nat) : ((List.range rows).flatMap (fun my => (List.range cols).map (fun mx => (mx, my)))).length = rows * cols := by
  rw [List.length_flatMap]
  simp

theorem decodeScanC_steps (s : State) (rest : List UInt8) : (decodeScanC s rest).steps ≤
    (s.components.map (plane (divCeil s.width (s.maxH * 8)) (divCeil s.height (s.maxV * 8)))).sum +
    (1 + s.components.length) * (divCeil s.height (s.maxV * 8) * divCeil s.width (s.maxH * 8)) + s.width * s.height + 1809 * rest.length + 82 := by
  have hE := entropyEnd_le rest
  have main : Spend (decodeScanC s rest) ((s.components.map (plane (divCeil s.width (s.maxH * 8)) (divCeil s.height (s.maxV * 8)))).sum +
      ((entropyEnd rest + 1) + ((1 + s.components.length) * (divCeil s.height (s.maxV * 8) * divCeil s.width (s.maxH * 8)) +
      (perBit * (8 * entropyEnd rest) + 81) + s.width * s.height))) (fun _ => 0) := by
    unfold decodeScanC
    refine Spend.tick_bind (Spend.tick_bind ?_)
    have hm := mcuLoopC_spend s (divCeil s.width (s.maxH * 8))
      ((List.range (divCeil s.height (s.maxV * 8))).flatMap (fun my => (List.range (divCeil s.width (s.maxH * 8))).map (fun mx => (mx, my)))) 0
      ⟨⟨rest.take (entropyEnd rest), 0, 0, 0⟩, s.components.map (fun _ => 0), s.components.map (fun c =>
        List.replicate (divCeil s.width (s.maxH * 8) * c.h * 8 * (divCeil s.height (s.maxV * 8) * c.v * 8)) (0 : UInt8))⟩
    rw [grid_length] at hm
    have hb : bitsLeft ⟨rest.take (entropyEnd rest), 0, 0, 0⟩ = 8 * entropyEnd rest := by
      unfold bitsLeft
      simp only [List.length_take]
      omega
    simp only [hb] at hm
    refine Spend.bind (l := fun _ => s.width * s.height) (hm.mono (by omega) (fun _ => by omega)) fun st _ => ?_
    refine Spend.tick_bind (b := 0) ?_
    split
    · exact Spend.free_bind fun _ _ => Spend.free_bind fun _ _ => Spend.pure (Nat.le_refl _)
    · exact Spend.free_bind fun _ _ => Spend.pure (Nat.le_refl _)
  have := main.1
  unfold perBit at this
  omega

/-! ### Files -/

/-- There is a size only with components. -/
def Zero (s : State) : Prop := s.components = [] → s.width = 0 ∧ s.height = 0

/-- What may be spent for the image. -/
def extra : R Image → Nat
  | .ok i => 5 * ((i.width + 119) * (i.height + 119))
  | .error _ => 0

theorem scan_steps {s : State} (hs : s.Good) (hsm : Small s) (hz : Zero s) (rest : List UInt8) :
    (decodeScanC s rest).steps ≤ 1809 * rest.length + 82 + extra (decodeScan false s rest) := by
  have h := decodeScanC_steps s rest
  by_cases h0 : s.components = []
  · obtain ⟨h1, h2⟩ := hz h0
    have h3 : divCeil 0 (s.maxH * 8) = 0 := by
      unfold divCeil
      have := hsm.maxH
      exact Nat.div_eq_of_lt (by omega)
    rw [h0, h1, h2, h3] at h
    simp only [List.map_nil, List.sum_nil, Nat.mul_zero, Nat.zero_add] at h
    omega
  · have hok := decodeScan_ok hs h0 rest
    unfold Oks at hok
    obtain ⟨i, hi, -, h1, h2, -⟩ := hok
    rw [hi]
    unfold extra
    simp only
    rw [h1, h2]
    have hn : s.components.length ≤ 3 := by
      have := hs.count
      omega
    have hsum : ∀ l : List Component, (∀ c ∈ l, c ∈ s.components) →
        (l.map (plane (divCeil s.width (s.maxH * 8)) (divCeil s.height (s.maxV * 8)))).sum ≤ l.length * ((s.width + 119) * (s.height + 119)) := by
      intro l
      induction l with
      | nil => simp
      | cons c l ih =>
        intro hl
        have := ih fun c hc => hl c (by simp [hc])
        have := plane_le hsm (hs.comps c (hl c (by simp)))
        rw [List.map_cons, List.sum_cons, List.length_cons, Nat.add_mul]
        omega
    have hsum := hsum s.components fun c hc => hc
    have hsum' := Nat.mul_le_mul_right ((s.width + 119) * (s.height + 119)) hn
    have hwh : s.width * s.height ≤ (s.width + 119) * (s.height + 119) := Nat.mul_le_mul (by omega) (by omega)
    obtain ⟨c, l, hc⟩ := List.exists_cons_of_ne_nil h0
    have hc : c ∈ s.components := by rw [hc]; simp
    have hp := plane_le hsm (hs.comps c hc)
    have hcell : 64 * (divCeil s.height (s.maxV * 8) * divCeil s.width (s.maxH * 8)) ≤
        plane (divCeil s.width (s.maxH * 8)) (divCeil s.height (s.maxV * 8)) c := by
      unfold plane
      have ha := Nat.mul_le_mul_left (divCeil s.width (s.maxH * 8)) (hs.comps c hc).h.1
      have hb := Nat.mul_le_mul_left (divCeil s.height (s.maxV * 8)) (hs.comps c hc).v.1
      have := Nat.mul_le_mul (Nat.mul_le_mul_right 8 ha) (Nat.mul_le_mul_right 8 hb)
      calc _ = divCeil s.width (s.maxH * 8) * Nat.succ 0 * 8 * (divCeil s.height (s.maxV * 8) * Nat.succ 0 * 8) := by
              rw [show Nat.succ 0 = 1 from rfl, Nat.mul_one, Nat.mul_one, Nat.mul_comm (divCeil s.height _), Nat.mul_mul_mul_comm]
              omega
        _ ≤ _ := this
    have hcells := Nat.mul_le_mul_right (divCeil s.height (s.maxV * 8) * divCeil s.width (s.maxH * 8)) (show 1 + s.components.length ≤ 4 by omega)
    omega

theorem free_steps {α : Type} {x : R α} {f : α → Counted Image} {g : α → R Image} {N : Nat} (h : ∀ a, x = .ok a → (f a).steps ≤ N + extra (g a)) :
    (free x >>= f).steps ≤ N + extra (x >>= g) := by
  cases x with
  | error e => exact Nat.zero_le _
  | ok a =>
    have := h a rfl
    show 0 + (f a).steps ≤ N + extra (g a)
    omega

theorem Zero.of_eq {s s' : State} (h : Zero s) (hc : s'.components = s.components ∧ s'.width = s.width ∧ s'.height = s.height) : Zero s' := by
  unfold Zero
  rw [hc.1, hc.2.1, hc.2.2]
  exact h

theorem marker_steps : ∀ (fuel : Nat) (s : State) (d : List UInt8), s.Good → Small s → Zero s →
    (markerLoopC fuel s d).steps ≤ 1810 * d.length + 82 + extra (markerLoop false fuel s d)
  | 0, _, _, _, _, _ => Nat.zero_le _
  | fuel + 1, s, d, hs, hsm, hz => by
    rw [markerLoopC, markerLoop]
    refine free_steps ?_
    rintro ⟨m, seg, rest⟩ hm
    have hlt := segment_length ((C36_markers _ _ _ _).1 hm)
    simp only
    rw [Inflate.tick_steps]
    have next : ∀ (s' : State), s'.Good → Small s' → Zero s' → (markerLoopC fuel s' rest).steps ≤
        (1810 * d.length + 82 - (d.length - rest.length)) + extra (markerLoop false fuel s' rest) := by
      intro s' h1 h2 h3
      have := marker_steps fuel s' rest h1 h2 h3
      omega
    have up : ∀ {a b : Nat}, a ≤ (1810 * d.length + 82 - (d.length - rest.length)) + b → d.length - rest.length + a ≤ 1810 * d.length + 82 + b := by
      intro a b h
      omega
    refine up ?_
    split
    · refine free_steps fun s' h => ?_
      have hg := (parseSof0_safe seg s hs).of_ok h
      exact next s' hg.1 (parseSof0_small hsm h) fun h0 => absurd h0 hg.2.1
    split
    · exact Nat.zero_le _
    split
    · refine free_steps fun s' h => ?_
      have hg := (parseDht_safe _ seg s hs (Nat.le_refl _)).of_ok h
      exact next s' hg.1 (parseDht_small _ _ _ _ hsm h) (hz.of_eq hg.2)
    split
    · refine free_steps fun s' h => ?_
      have hg := (parseDqt_safe _ seg s hs (Nat.le_refl _)).of_ok h
      exact next s' hg.1 (parseDqt_small _ _ _ _ hsm h) (hz.of_eq hg.2)
    split
    · refine free_steps fun s' h => ?_
      have hg := (parseDri_safe seg s hs).of_ok h
      exact next s' hg.1 (parseDri_small hsm h) (hz.of_eq hg.2)
    split
    · refine free_steps fun s' h => ?_
      have hg := (parseSos_safe seg s hs).of_ok h
      have hz' : Zero s' := by
        intro h0
        rw [hg.2.2.1, hg.2.2.2.1]
        have := hg.2.1
        rw [h0, List.length_nil] at this
        exact hz (List.length_eq_zero_iff.1 this.symm)
      have := scan_steps hg.1 (parseSos_small hsm h) hz' rest
      omega
    split
    · exact Nat.zero_le _
    · exact next s hs hsm hz

/-! ## C113 -/

/-- C113: decoding takes at most 1810 steps for each byte of the file, and five for each pixel of the image, with up to 119 more in each row and
column; a file which is not decoded takes at most 1810 steps for each of its bytes, and 82. -/
theorem C113 (data : List UInt8) : (decodeJpegC data).res = decodeJpeg false data ∧
    (∀ i, decodeJpeg false data = .ok i → (decodeJpegC data).steps ≤ 1810 * data.length + 82 + 5 * ((i.width + 119) * (i.height + 119))) ∧
    ∀ e, decodeJpeg false data = .error e → (decodeJpegC data).steps ≤ 1810 * data.length + 82 := by
  have main : (decodeJpegC data).steps ≤ 1810 * data.length + 82 + extra (decodeJpeg false data) := by
    unfold decodeJpegC decodeJpeg
    split
    · rename_i rest
      have := marker_steps (rest.length + 1) {} rest start_good ⟨by decide, by decide, by decide, by decide⟩ (fun _ => ⟨rfl, rfl⟩)
      refine Nat.le_trans this ?_
      simp only [List.length_cons]
      omega
    · exact Nat.zero_le _
  refine ⟨decodeJpegC_same data, fun i h => ?_, fun e h => ?_⟩
  · rw [h] at main
    exact main
  · rw [h] at main
    exact main

/-! ### From below -/

theorem bind_ge {α β : Type} {x : Counted α} {f : α → Counted β} {b : β} {N : Nat} (h : (x >>= f).res = .ok b)
    (hf : ∀ a, x.res = .ok a → (f a).res = .ok b → N ≤ (f a).steps) : N ≤ (x >>= f).steps := by
  obtain ⟨res, n⟩ := x
  cases res with
  | error e => cases h
  | ok a =>
    have := hf a rfl h
    show N ≤ n + (f a).steps
    omega

theorem scan_ge {s : State} {rest : List UInt8} {i : Image} (h : (decodeScanC s rest).res = .ok i) : i.width * i.height ≤ (decodeScanC s rest).steps := by
  unfold decodeScanC at h ⊢
  refine bind_ge h fun _ _ h => bind_ge h fun _ _ h => bind_ge h fun st _ h => ?_
  rw [Inflate.tick_steps]
  rw [tick_same] at h
  have : i.width = s.width ∧ i.height = s.height := by
    split at h
    · rw [Inflate.bind_res] at h
      obtain ⟨c, -, h⟩ := JpegDecode32.bind_parts h
      rw [Inflate.bind_res] at h
      obtain ⟨d, -, h⟩ := JpegDecode32.bind_parts h
      cases h
      exact ⟨rfl, rfl⟩
    · rw [Inflate.bind_res] at h
      obtain ⟨c, -, h⟩ := JpegDecode32.bind_parts h
      cases h
      exact ⟨rfl, rfl⟩
  rw [this.1, this.2]
  exact Nat.le_add_right _ _

/-- A result that is this image has taken a step for each pixel. -/
def Full (i : Image) (x : Counted Image) : Prop := x.res = .ok i → i.width * i.height ≤ x.steps

theorem Full.bind {α : Type} {i : Image} {x : Counted α} {f : α → Counted Image} (h : ∀ a, Full i (f a)) : Full i (x >>= f) :=
  fun e => bind_ge e fun a _ e => h a e

theorem Full.error {i : Image} {e : Err} : Full i (free (.error e)) := fun h => by cases h

theorem marker_ge {i : Image} : ∀ (fuel : Nat) (s : State) (d : List UInt8), Full i (markerLoopC fuel s d)
  | 0, _, _ => Full.error
  | fuel + 1, s, d => by
    rw [markerLoopC]
    refine Full.bind ?_
    rintro ⟨m, seg, rest⟩
    simp only
    refine Full.bind fun _ => ?_
    split
    · exact Full.bind fun s' => marker_ge fuel s' rest
    split
    · exact Full.error
    split
    · exact Full.bind fun s' => marker_ge fuel s' rest
    split
    · exact Full.bind fun s' => marker_ge fuel s' rest
    split
    · exact Full.bind fun s' => marker_ge fuel s' rest
    split
    · exact Full.bind fun s' h => scan_ge h
    split
    · exact Full.error
    · exact marker_ge fuel s rest

/-- C113: a step for each pixel is needed in any case, so that the size of the file alone is no bound. -/
theorem C113_pixels (data : List UInt8) (i : Image) (h : decodeJpeg false data = .ok i) : i.width * i.height ≤ (decodeJpegC data).steps := by
  rw [← decodeJpegC_same] at h
  unfold decodeJpegC at h ⊢
  split at h
  · exact marker_ge _ _ _ h
  · cases h

/-- C113: a file of 22 bytes that takes more than four thousand million steps. -/
theorem C113_bomb : ∃ data : List UInt8, data.length = 22 ∧ 2 ^ 32 - 2 ^ 18 ≤ (decodeJpegC data).steps := by
  obtain ⟨data, i, h1, h2, h3, h4, -⟩ := C95_violation
  refine ⟨data, h1, Nat.le_trans ?_ (C113_pixels data i h2)⟩
  rw [h3, h4]
  omega

/-- A file of one block: one step for each of the bytes of the headers, and those of the block. -/
example : ∃ i, decodeJpeg false (category26.set 36 2) = .ok i ∧ i.width * i.height ≤ (decodeJpegC (category26.set 36 2)).steps ∧
    (decodeJpegC (category26.set 36 2)).steps ≤ 1000 := by
  have : (match (decodeJpegC (category26.set 36 2)).res with
    | .ok _ => decide ((decodeJpegC (category26.set 36 2)).steps ≤ 1000)
    | .error _ => false) = true := by decide +kernel
  cases h : (decodeJpegC (category26.set 36 2)).res with
  | error e =>
    rw [h] at this
    cases this
  | ok i =>
    rw [h] at this
    have h' := (decodeJpegC_same _).symm.trans h
    exact ⟨i, h', C113_pixels _ i h', of_decide_eq_true this⟩

end Pixo.Props.JpegWork
