import Verif.Props.Bits
/-
C90: what bit writers and readers say about their own size and position.
-/
namespace Pixo.Props
open Spec Pixo

/-- C90 (`BitWriter`): after any calls that wrote `n` bits, `len` is the number of whole bytes, `bit_position` the
number of bits beyond them, and `is_empty` says whether nothing was written. -/
theorem C90_bitwriter (ops : List Op) (hok : ∀ o ∈ ops, o.ok) :
    let w := ops.foldl Op.run {}
    let n := (ops.flatMap Op.spec).length
    w.len = n / 8 ∧ w.bitPosition = n % 8 ∧ (w.isEmpty = true ↔ n = 0) := by
  intro w n
  obtain ⟨h1, h2⟩ := run_spec ops hok {} BitWriter.inv_new
  have h0 : ({} : BitWriter).bits = [] := rfl
  rw [h0, List.nil_append] at h1
  have h3 := congrArg List.length h1
  unfold BitWriter.bits at h3
  rw [List.length_append, bytesLSB_length, bitsLSB_length] at h3
  change 8 * w.buffer.length + w.bitPosition = n at h3
  have h4 : w.bitPosition < 8 := h2.lt
  refine ⟨by unfold BitWriter.len; omega, by omega, ?_⟩
  unfold BitWriter.isEmpty
  rw [Bool.and_eq_true, List.isEmpty_iff_length_eq_zero, beq_iff_eq]
  omega

example : (∀ o ∈ [Op.bits 5 3, .bit true, .bytes [1, 2]], o.ok) ∧
    ([Op.bits 5 3, .bit true, .bytes [1, 2]].flatMap Op.spec).length = 20 :=
  ⟨by intro o ho; simp at ho; rcases ho with rfl | rfl | rfl <;> simp [Op.ok], by decide⟩

/-- C90 (`BitWriter64`) for widths below 32 (C19). -/
theorem C90_bitwriter64 (ops : List (Nat × Nat)) (hok : ∀ o ∈ ops, o.2 < 32) :
    ∃ w, ops.foldlM (fun w o => BitWriter64.writeBitsChecked w o.1 o.2) {} = .ok w ∧
      w.len = (ops.map Prod.snd).sum / 8 ∧ (w.isEmpty = true ↔ (ops.map Prod.snd).sum = 0) := by
  obtain ⟨w, e, b, i⟩ := fold64_spec ops hok {} BitWriter64.inv_new
  have h0 : ({} : BitWriter64).bits = [] := rfl
  rw [h0, List.nil_append] at b
  have h3 := congrArg List.length b
  unfold BitWriter64.bits at h3
  rw [List.length_append, bytesLSB_length, bitsLSB_length, List.length_flatMap] at h3
  simp only [bitsLSB_length] at h3
  have h4 := i.lt
  refine ⟨w, e, ?_, ?_⟩
  · unfold BitWriter64.len
    change _ = (ops.map (fun o => o.2)).sum / 8
    omega
  · unfold BitWriter64.isEmpty
    rw [Bool.and_eq_true, List.isEmpty_iff_length_eq_zero, beq_iff_eq]
    change _ ↔ (ops.map (fun o => o.2)).sum = 0
    omega

/-- `write_bit` is `write_bits` of width one. -/
theorem C90_write_bit (w : BitWriter64) (v : BitWriterMsb) (b : Bool) :
    w.writeBit b = w.writeBitsChecked (if b then 1 else 0) 1 ∧ v.writeBit b = v.writeBits (if b then 1 else 0) 1 := by
  cases b <;> exact ⟨rfl, rfl⟩

/-- C90 (`BitWriterMsb`): `len` counts the whole bytes and the zero after each of them that is 255. -/
theorem C90_bitwriter_msb (ops : List (Nat × Nat)) (hok : ∀ o ∈ ops, o.2 ≤ 32) :
    let w := ops.foldl (fun w o => BitWriterMsb.writeBits w o.1 o.2) {}
    let bits := ops.flatMap (fun o => bitsMSB o.1 o.2)
    (∃ whole, bytesMSB whole = bits.take (8 * (bits.length / 8)) ∧
      w.len = bits.length / 8 + whole.count 0xFF) ∧ (w.isEmpty = true ↔ bits.length = 0) := by
  intro w bits
  have key : ∀ (ops : List (Nat × Nat)), (∀ o ∈ ops, o.2 ≤ 32) → ∀ (w : BitWriterMsb) raw bits,
      w.Rep raw bits → ∃ raw', (ops.foldl (fun w o => BitWriterMsb.writeBits w o.1 o.2) w).Rep raw'
        (bits ++ ops.flatMap (fun o => bitsMSB o.1 o.2)) := by
    intro ops
    induction ops with
    | nil => intro _ w raw bits h; exact ⟨raw, by simpa using h⟩
    | cons o ops ih =>
      intro hok w raw bits h
      obtain ⟨raw1, h1⟩ := w.writeBits_spec raw bits h o.1 o.2 (hok o (by simp))
      obtain ⟨raw2, h2⟩ := ih (fun o ho => hok o (by simp [ho])) _ _ _ h1
      exact ⟨raw2, by simpa using h2⟩
  obtain ⟨raw, h⟩ := key ops hok {} [] [] BitWriterMsb.rep_new
  rw [List.nil_append] at h
  change w.Rep raw bits at h
  have hl := congrArg List.length h.bits
  rw [List.length_append, bytesMSB_length, bitsMSB_length] at hl
  have hp := h.pos
  have hst : ∀ l : List UInt8, (stuff l).length = l.length + l.count 0xFF := by
    intro l
    induction l with
    | nil => rfl
    | cons a l ih =>
      rw [show stuff (a :: l) = (if a = 0xFF then [0xFF, 0] else [a]) ++ stuff l from rfl, List.length_append, ih,
        List.count_cons, List.length_cons]
      by_cases ha : a = 0xFF
      · simp [ha]; omega
      · simp [ha]; omega
  refine ⟨⟨raw, ?_, ?_⟩, ?_⟩
  · rw [show bits.length / 8 = raw.length by omega]
    rw [h.bits, List.take_append_of_le_length (by rw [bytesMSB_length]; omega),
      List.take_of_length_le (by rw [bytesMSB_length]; omega)]
  · unfold BitWriterMsb.len
    rw [h.buf, hst]; omega
  · unfold BitWriterMsb.isEmpty
    rw [Bool.and_eq_true, List.isEmpty_iff_length_eq_zero, beq_iff_eq, h.buf, hst]
    constructor
    · omega
    · intro h0
      have : raw = [] := List.eq_nil_of_length_eq_zero (by omega)
      subst this
      simp; omega

example : ([(0xFF, 8), (1, 2)].foldl (fun w o => BitWriterMsb.writeBits w o.1 o.2) {}).len = 2 := by decide

/-! ### Reader -/

/-- A call on the reader. -/
inductive ReadOp where
  | bits (n : Nat)
  | peek (n : Nat)
  | tryPeek (n : Nat)
  | byte
  | align
  | bytes (n : Nat)

/-- Where a call that succeeds leaves the reader, in bits from the start. -/
def ReadOp.next (p : Nat) : ReadOp → Nat
  | .bits n => p + n
  | .peek _ => p
  | .tryPeek _ => p
  | .byte => p + 8
  | .align => (p + 7) / 8 * 8
  | .bytes n => p + 8 * n

/-- What the documentation allows at a place: widths up to 32, whole bytes only when aligned. -/
def ReadOp.ok (p : Nat) : ReadOp → Prop
  | .bits n => n ≤ 32
  | .peek n => n ≤ 32
  | .tryPeek n => n ≤ 32
  | .bytes _ => p % 8 = 0
  | _ => True

/-- The call on the model. -/
def ReadOp.run (r : BitReader) : ReadOp → R BitReader
  | .bits n => (r.readBits n).map Prod.snd
  | .peek n => (r.peekBits n).map Prod.snd
  | .tryPeek n => .ok (r.tryPeekBits n).2.2
  | .byte => r.readByte.map Prod.snd
  | .align => .ok r.alignToByte
  | .bytes n => (r.readBytes n).map Prod.snd

/-- The place a sequence of calls leads to. -/
def placeAfter : Nat → List ReadOp → Nat
  | p, [] => p
  | p, o :: os => placeAfter (o.next p) os

/-- All calls of a sequence are allowed. -/
def allowed : Nat → List ReadOp → Prop
  | _, [] => True
  | p, o :: os => o.ok p ∧ allowed (o.next p) os

theorem read_step (r r' : BitReader) (h : r.Inv) (o : ReadOp) (ho : o.ok r.consumed) (e : o.run r = .ok r') :
    r'.Inv ∧ r'.data = r.data ∧ r'.consumed = o.next r.consumed := by
  have h0 := r.consumed_eq h
  have fin : ∀ (k : Nat) (s : BitReader), s.Inv → s.data = r.data → s.bits.length = r.bits.length - k →
      k ≤ r.bits.length → s.consumed = r.consumed + k := by
    intro k s hs hd hb hk
    have := s.consumed_eq hs
    rw [hd] at this
    omega
  cases o with
  | bits n =>
    change (r.readBits n).map Prod.snd = .ok r' at e
    rcases Nat.lt_or_ge r.bits.length n with hl | hl
    · rw [r.readBits_err h n ho hl] at e; cases e
    · obtain ⟨s, e1, i, b, d⟩ := r.readBits_ok h n ho hl
      rw [e1] at e
      injection e with e
      change s = r' at e
      subst e
      exact ⟨i, d, fin n s i d (by rw [b, List.length_drop]) hl⟩
  | peek n =>
    change (r.peekBits n).map Prod.snd = .ok r' at e
    unfold BitReader.peekBits BitReader.ensure at e
    have hs := BitReader.ensureLoop_spec n r h n ho (by omega)
    rcases Nat.lt_or_ge r.bits.length n with hl | hl
    · rw [hs.2 hl] at e; cases e
    · obtain ⟨s, e1, i, b, d, _⟩ := hs.1 hl
      rw [e1] at e
      injection e with e
      change s = r' at e
      subst e
      exact ⟨i, d, fin 0 s i d (by rw [b]; rfl) (by omega)⟩
  | tryPeek n =>
    change Except.ok (r.tryPeekBits n).2.2 = .ok r' at e
    obtain ⟨s, e1, i, b, d, _⟩ := r.tryPeek_spec h n ho
    rw [e1] at e
    injection e with e
    change s = r' at e
    subst e
    exact ⟨i, d, fin 0 s i d (by rw [b]; rfl) (by omega)⟩
  | byte =>
    change r.readByte.map Prod.snd = .ok r' at e
    unfold BitReader.readByte at e
    rcases Nat.lt_or_ge r.bits.length 8 with hl | hl
    · rw [r.readBits_err h 8 (by decide) hl] at e; cases e
    · obtain ⟨s, e1, i, b, d⟩ := r.readBits_ok h 8 (by decide) hl
      rw [e1] at e
      injection e with e
      change s = r' at e
      subst e
      exact ⟨i, d, fin 8 s i d (by rw [b, List.length_drop]) hl⟩
  | align =>
    change Except.ok r.alignToByte = .ok r' at e
    injection e with e
    subst e
    obtain ⟨i, b, d, _⟩ := r.align_spec h
    have hk : r.bitsInBuf % 8 ≤ r.bits.length := by rw [BitReader.bits_length]; omega
    refine ⟨i, d, (fin (r.bitsInBuf % 8) _ i d (by rw [b, List.length_drop]) hk).trans ?_⟩
    have := h.cons
    unfold BitReader.consumed ReadOp.next
    simp only
    omega
  | bytes n =>
    change (r.readBytes n).map Prod.snd = .ok r' at e
    have ha : r.bitsInBuf % 8 = 0 := by
      have := h.cons
      have h2 : r.consumed % 8 = 0 := ho
      unfold BitReader.consumed at h2
      omega
    rcases Nat.lt_or_ge r.bits.length (8 * n) with hl | hl
    · rw [r.readBytes_err h ha n hl] at e; cases e
    · obtain ⟨bs, s, e1, l, b, i, d⟩ := r.readBytes_ok h ha n hl
      rw [e1] at e
      injection e with e
      change s = r' at e
      subst e
      have hb := congrArg List.length b
      rw [List.length_append, bytesLSB_length, l] at hb
      exact ⟨i, d, fin (8 * n) s i d (by omega) hl⟩

theorem read_steps (ops : List ReadOp) (r r' : BitReader) (h : r.Inv) (ho : allowed r.consumed ops)
    (e : ops.foldlM ReadOp.run r = .ok r') :
    r'.Inv ∧ r'.data = r.data ∧ r'.consumed = placeAfter r.consumed ops := by
  induction ops generalizing r with
  | nil => injection e with e; subst e; exact ⟨h, rfl, rfl⟩
  | cons o os ih =>
    rw [List.foldlM_cons] at e
    cases e1 : o.run r with
    | error x => rw [e1] at e; cases e
    | ok s =>
      rw [e1] at e
      obtain ⟨i, d, c⟩ := read_step r s h o ho.1 e1
      obtain ⟨i2, d2, c2⟩ := ih s i (by rw [c]; exact ho.2) e
      exact ⟨i2, d2.trans d, by rw [c2, c]; rfl⟩

/-- C90 (`BitReader`): after any calls that succeed, `remaining_bytes` does not underflow and is the number of whole
bytes behind the place in bits, `is_empty` says whether that place is the end, and `position` is a byte not before it. -/
theorem C90_bitreader (data : List UInt8) (ops : List ReadOp) (ho : allowed 0 ops) (r : BitReader)
    (e : ops.foldlM ReadOp.run ⟨data, 0, 0, 0⟩ = .ok r) :
    placeAfter 0 ops ≤ 8 * data.length ∧ r.remainingBytes = .ok ((8 * data.length - placeAfter 0 ops) / 8) ∧
    (r.isEmpty = true ↔ placeAfter 0 ops = 8 * data.length) ∧
    (placeAfter 0 ops ≤ 8 * r.position ∧ r.position ≤ data.length ∧ 8 * r.position ≤ placeAfter 0 ops + 40) := by
  obtain ⟨i, d, c⟩ := read_steps ops ⟨data, 0, 0, 0⟩ r (BitReader.inv_new data) ho e
  change r.data = data at d
  change r.consumed = placeAfter 0 ops at c
  have h1 := i.pos
  have h2 := i.cons
  have h3 := i.small
  rw [d] at h1
  unfold BitReader.consumed at c
  refine ⟨by omega, ?_, ?_, ?_⟩
  · unfold BitReader.remainingBytes
    rw [d, if_pos h1]
    congr 1
    omega
  · unfold BitReader.isEmpty
    rw [Bool.and_eq_true, decide_eq_true_iff, beq_iff_eq, d]
    omega
  · unfold BitReader.position; omega

/-- Three bits, the rest of the byte skipped, a byte, a look at the next 15 bits. -/
example : allowed 0 [.bits 3, .align, .byte, .peek 15] ∧
    ([ReadOp.bits 3, .align, .byte, .peek 15].foldlM ReadOp.run ⟨[1, 2, 3, 4], 0, 0, 0⟩).toOption =
      some ⟨[1, 2, 3, 4], 4, 0x403, 16⟩ :=
  ⟨⟨(show 3 ≤ 32 by decide), trivial, trivial, (show 15 ≤ 32 by decide), trivial⟩, by decide⟩

end Pixo.Props
