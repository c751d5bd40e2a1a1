import Verif.Proof.JpegCodes
import Verif.Proof.BitMsb
/-
`encode_block` writes the entropy code of T.81 for its block.
-/
namespace Pixo
open Spec

/-- A writer with bytes in front of its buffer. -/
def BitWriterMsb.pre (p : List UInt8) (w : BitWriterMsb) : BitWriterMsb := { w with buffer := p ++ w.buffer }

theorem BitWriterMsb.pre_writeLoop (p : List UInt8) (fuel : Nat) (w : BitWriterMsb) (v r : Nat) :
    writeLoop fuel (w.pre p) v r = (writeLoop fuel w v r).pre p := by
  induction fuel generalizing w r with
  | zero => rfl
  | succ fuel ih =>
    rw [writeLoop, writeLoop]
    by_cases hr : r > 0
    · rw [if_pos hr, if_pos hr]
      simp only
      rw [← ih]
      congr 1
      by_cases hq : w.bitPosition - min r w.bitPosition = 0
      · rw [if_pos hq, if_pos (by exact hq)]
        simp [flushByteWithStuffing, pre]
        rfl
      · rw [if_neg hq, if_neg (by exact hq)]
        simp [pre]
    · rw [if_neg hr, if_neg hr]

theorem BitWriterMsb.pre_writeBits (p : List UInt8) (w : BitWriterMsb) (v n : Nat) :
    (w.pre p).writeBits v n = (w.writeBits v n).pre p := pre_writeLoop p n w _ n

theorem BitWriterMsb.pre_flush (p : List UInt8) (w : BitWriterMsb) : (w.pre p).flush = w.flush.pre p := by
  unfold flush
  by_cases hp : w.bitPosition < 8
  · rw [if_pos hp, if_pos (by exact hp)]
    simp [pre, List.append_assoc]
    rfl
  · rw [if_neg hp, if_neg (by exact hp)]

/-- The writer holds the bytes `p`, then the bits `bits`. -/
def BitWriterMsb.Holds (w : BitWriterMsb) (p : List UInt8) (bits : List Bool) : Prop :=
  ∃ (w0 : BitWriterMsb) (raw : List UInt8), w = w0.pre p ∧ w0.Rep raw bits

theorem BitWriterMsb.holds_new (p : List UInt8) : BitWriterMsb.Holds ⟨p, 0, 8⟩ p [] :=
  ⟨{}, [], by simp [pre], rep_new⟩

/-- Going from `w` to `w'` writes `bs`. -/
def Emits (w w' : BitWriterMsb) (bs : List Bool) : Prop :=
  ∀ p bits, w.Holds p bits → w'.Holds p (bits ++ bs)

theorem Emits.refl (w : BitWriterMsb) : Emits w w [] := by
  intro p bits h; simpa using h

theorem Emits.trans {a b c : BitWriterMsb} {x y : List Bool} (h : Emits a b x) (g : Emits b c y) :
    Emits a c (x ++ y) := by
  intro p bits hh
  rw [← List.append_assoc]
  exact g p _ (h p _ hh)

theorem emits_writeBits (w : BitWriterMsb) (v n : Nat) (hn : n ≤ 32) :
    Emits w (w.writeBits v n) (bitsMSB v n) := by
  rintro p bits ⟨w0, raw, rfl, hr⟩
  obtain ⟨raw', hr'⟩ := w0.writeBits_spec raw bits hr v n hn
  exact ⟨w0.writeBits v n, raw', BitWriterMsb.pre_writeBits p w0 v n, hr'⟩

/-- What `flush` leaves. -/
theorem BitWriterMsb.Holds.flush {w : BitWriterMsb} {p : List UInt8} {bits : List Bool} (h : w.Holds p bits) :
    ∃ raw, w.flush = ⟨p ++ stuff raw, 0, 8⟩ ∧
      bytesMSB raw = bits ++ List.replicate (padLen bits.length) true := by
  obtain ⟨w0, raw, rfl, hr⟩ := h
  obtain ⟨raw', e, hb⟩ := w0.finish_spec raw bits hr
  refine ⟨raw', ?_, hb⟩
  rw [pre_flush]
  have e' : w0.flush.buffer = stuff raw' := e
  have h8 : w0.flush.currentByte = 0 ∧ w0.flush.bitPosition = 8 := by
    unfold BitWriterMsb.flush
    by_cases hp : w0.bitPosition < 8
    · rw [if_pos hp]; exact ⟨rfl, rfl⟩
    · rw [if_neg hp]
      obtain ⟨_, ⟨_, h8⟩, hlow, hlt, _⟩ := hr
      have : w0.bitPosition = 8 := by omega
      rw [this] at hlow
      exact ⟨by omega, this⟩
  unfold BitWriterMsb.pre
  rw [e', h8.1, h8.2]

end Pixo

namespace Pixo.Jpeg
open Pixo Spec Spec.T81

/-! ### Values -/

theorem category_zero : category 0 = 0 := rfl

theorem category_pos {v : Int} (h : v ≠ 0) : 1 ≤ category v := by
  unfold category; rw [if_neg h]; omega

theorem category_bounds {v : Int} (h : v ≠ 0) :
    2 ^ (category v - 1) ≤ v.natAbs ∧ v.natAbs < 2 ^ category v := by
  unfold category
  rw [if_neg h, Nat.add_sub_cancel]
  have hn : v.natAbs ≠ 0 := by omega
  exact ⟨Nat.log2_self_le hn, Nat.lt_log2_self⟩

theorem category_le {v : Int} {n : Nat} (h : v.natAbs < 2 ^ n) : category v ≤ n := by
  by_cases h0 : v = 0
  · subst h0; simp [category]
  · have := (category_bounds h0).1
    have hlt : 2 ^ (category v - 1) < 2 ^ n := by omega
    have := (Nat.pow_lt_pow_iff_right (a := 2) (by decide)).mp hlt
    have := category_pos h0
    omega

theorem encodeValue_spec {v : Int} (h0 : v ≠ 0) (hr : -32768 < v ∧ v < 32768) :
    ∃ b, encodeValue v = .ok (b, category v) ∧ b < 2 ^ category v ∧ extend b (category v) = v := by
  have hp := category_pos h0
  obtain ⟨h1, h2⟩ := category_bounds h0
  have hc : category v ≤ 15 := category_le (by omega)
  unfold encodeValue
  simp only [and_mask]
  rw [if_neg (by omega)]
  generalize category v = n at *
  have hpos := Nat.two_pow_pos n
  have hps : (2:Nat) ^ n = 2 * 2 ^ (n - 1) := by
    rw [← Nat.pow_succ']; congr 1; omega
  have hn15 : (2:Nat) ^ n ≤ 2 ^ 15 := Nat.pow_le_pow_right (by decide) hc
  have hcast : ((2:Int) ^ n) = ((2 ^ n : Nat) : Int) := by norm_cast
  by_cases hneg : v < 0
  · rw [if_pos hneg, subI16, if_pos (by omega)]
    refine ⟨_, rfl, Nat.mod_lt _ hpos, ?_⟩
    have h16 : ((v - 1) % 2 ^ 16).toNat % 2 ^ n = (v - 1 + 2 ^ n).toNat := by
      have e : ((v - 1) % 2 ^ 16).toNat = (v - 1 + 65536).toNat := by omega
      rw [e]
      have hd : (2:Nat) ^ n ∣ 65536 := ⟨2 ^ (16 - n), by
        rw [← Nat.pow_add, show n + (16 - n) = 16 by omega]⟩
      obtain ⟨k, hk⟩ := hd
      have hk1 : 1 ≤ k := by
        rcases Nat.eq_zero_or_pos k with rfl | hk0
        · simp at hk
        · exact hk0
      have hk2 : 2 ^ n * k = 2 ^ n * (k - 1) + 2 ^ n := by
        rw [← Nat.mul_succ]; congr 1; omega
      have e2 : (v - 1 + 65536).toNat = 2 ^ n * (k - 1) + (v - 1 + 2 ^ n).toNat := by
        rw [hcast]
        generalize 2 ^ n * (k - 1) = z at *
        omega
      rw [e2, Nat.mul_add_mod, Nat.mod_eq_of_lt]
      rw [hcast]; omega
    rw [h16, extend, hcast]
    rw [if_pos (by omega)]
    omega
  · rw [if_neg hneg]
    refine ⟨_, rfl, Nat.mod_lt _ hpos, ?_⟩
    rw [Nat.mod_eq_of_lt (by omega), extend, if_neg (by omega)]
    omega

/-! ### Tables by class -/

/-- The table for DC or AC, luminance or chrominance. -/
def HuffTables.get (t : HuffTables) (dc lum : Bool) : Table :=
  if dc then (if lum then t.dcLum else t.dcChrom) else (if lum then t.acLum else t.acChrom)

/-- A table as BITS and HUFFVAL. -/
def Table.spec (t : Table) : Spec.T81.Table := ⟨t.bits, t.vals⟩

theorem TablesOk.get {t : HuffTables} (h : TablesOk t) (dc lum : Bool) :
    TableOk (if dc then 12 else 256) (t.get dc lum) := by
  cases dc <;> cases lum
  · exact h.acChrom
  · exact h.acLum
  · exact h.dcChrom
  · exact h.dcLum

theorem acCode_spec {t : HuffTables} (h : TablesOk t) {s : Nat} {lum : Bool}
    (hs : s ∈ (t.get false lum).vals) (w : BitWriterMsb) :
    ∃ c word, t.acCode s lum = .ok c ∧ (t.get false lum).spec.HasCode s word ∧
      Emits w (writeCode w c) word := by
  obtain ⟨code, size, e, _, _, h16, hc⟩ := (h.get false lum).lookup hs
  refine ⟨(code, size), _, ?_, hc, emits_writeBits w code size (by omega)⟩
  cases lum <;> exact e

theorem dcCode_spec {t : HuffTables} (h : TablesOk t) {s : Nat} {lum : Bool}
    (hs : s ∈ (t.get true lum).vals) (w : BitWriterMsb) :
    ∃ c word, t.dcCode s lum = .ok c ∧ (t.get true lum).spec.HasCode s word ∧
      Emits w (writeCode w c) word := by
  obtain ⟨code, size, e, _, _, h16, hc⟩ := (h.get true lum).lookup hs
  refine ⟨(code, size), _, ?_, hc, emits_writeBits w code size (by omega)⟩
  cases lum <;> exact e

/-! ### Symbols -/

/-- The symbols coded for the AC coefficients after `run` zeros. -/
def acSyms : List Int → Nat → List Nat
  | [], run => if run > 0 then [0] else []
  | v :: vs, run =>
    if v = 0 then acSyms vs (run + 1)
    else List.replicate (run / 16) 0xF0 ++ (16 * (run % 16) + category v) :: acSyms vs 0

/-- The symbols coded for a block in zigzag order: (is DC, is luminance, symbol). -/
def blockSyms (lum : Bool) (zz : List Int) (prev : Int) : List (Bool × Bool × Nat) :=
  (true, lum, category (zz.headD 0 - prev)) :: (acSyms (zz.drop 1) 0).map (fun s => (false, lum, s))

/-- The tables have codes for all these symbols. -/
def Covers (t : HuffTables) (syms : List (Bool × Bool × Nat)) : Prop :=
  ∀ s ∈ syms, s.2.2 ∈ (t.get s.1 s.2.1).vals

theorem Covers.append {t : HuffTables} {a b} (h : Covers t (a ++ b)) : Covers t a ∧ Covers t b :=
  ⟨fun s hs => h s (List.mem_append_left _ hs), fun s hs => h s (List.mem_append_right _ hs)⟩

theorem rs_eq {run cat : Nat} (hc : cat < 16) :
    ((((run % 16) <<< 4) % 2 ^ 8) ||| cat) = 16 * (run % 16) + cat := by
  have hr : run % 16 < 16 := Nat.mod_lt _ (by decide)
  rw [Nat.mod_eq_of_lt (by rw [Nat.shiftLeft_eq]; omega), Nat.or_comm, or_shift cat _ 4 (by omega)]
  omega

theorem writeZrl_spec {t : HuffTables} (h : TablesOk t) (lum : Bool) (n : Nat) (w : BitWriterMsb)
    (hs : 0 < n → 0xF0 ∈ (t.get false lum).vals) :
    ∃ w' bs, writeZrl t lum n w = .ok w' ∧ Emits w w' bs ∧
      ∀ rest bits, Ac (t.get false lum).spec rest bits →
        Ac (t.get false lum).spec (List.replicate (16 * n) 0 ++ rest) (bs ++ bits) := by
  induction n generalizing w with
  | zero => exact ⟨w, [], rfl, Emits.refl w, fun rest bits hh => by simpa using hh⟩
  | succ n ih =>
    obtain ⟨c, word, e, hc, hem⟩ := acCode_spec h (hs (by omega)) w
    obtain ⟨w', bs, e2, hem2, hac⟩ := ih (writeCode w c) (fun _ => hs (by omega))
    refine ⟨w', word ++ bs, ?_, hem.trans hem2, ?_⟩
    · rw [writeZrl, e, ok_bind, e2]
    · intro rest bits hh
      have := Ac.zrl hc (hac rest bits hh)
      rw [← List.append_assoc, List.replicate_append_replicate,
        show 16 + 16 * n = 16 * (n + 1) by omega, ← List.append_assoc] at this
      exact this

/-- AC coefficients of the baseline range. -/
def AcRange (l : List Int) : Prop := ∀ v ∈ l, v.natAbs < 1024

theorem encodeAc_spec {t : HuffTables} (h : TablesOk t) (lum : Bool) (acs : List Int) (run : Nat)
    (w : BitWriterMsb) (hr : AcRange acs) (hs : ∀ s ∈ acSyms acs run, s ∈ (t.get false lum).vals) :
    ∃ w' bs, encodeAc t lum acs run w = .ok w' ∧ Emits w w' bs ∧
      Ac (t.get false lum).spec (List.replicate run 0 ++ acs) bs := by
  induction acs generalizing run w with
  | nil =>
    rw [encodeAc]
    by_cases h0 : run > 0
    · rw [if_pos h0]
      rw [acSyms, if_pos h0] at hs
      obtain ⟨c, word, e, hc, hem⟩ := acCode_spec h (hs 0 (by simp)) w
      refine ⟨_, word, ?_, hem, ?_⟩
      · rw [e]; rfl
      · rw [List.append_nil]; exact Ac.eob h0 hc
    · rw [if_neg h0]
      have : run = 0 := by omega
      subst this
      exact ⟨w, [], rfl, Emits.refl w, Ac.done⟩
  | cons v vs ih =>
    have hrv : AcRange vs := fun x hx => hr x (List.mem_cons_of_mem _ hx)
    by_cases h0 : v = 0
    · subst h0
      rw [encodeAc, if_pos rfl]
      rw [acSyms, if_pos rfl] at hs
      obtain ⟨w', bs, e, hem, hac⟩ := ih (run + 1) w hrv hs
      refine ⟨w', bs, e, hem, ?_⟩
      rw [List.replicate_succ', List.append_assoc] at hac
      exact hac
    · rw [encodeAc, if_neg h0]
      rw [acSyms, if_neg h0] at hs
      have hv := hr v (by simp)
      have hcat : category v ≤ 10 := category_le (by omega)
      have hcat1 := category_pos h0
      obtain ⟨w1, bs1, e1, hem1, hac1⟩ := writeZrl_spec h lum (run / 16) w (fun hn =>
        hs _ (List.mem_append_left _ (by rw [List.mem_replicate]; exact ⟨by omega, rfl⟩)))
      obtain ⟨c, word, e2, hc, hem2⟩ := acCode_spec h
        (hs (16 * (run % 16) + category v) (List.mem_append_right _ (by simp))) w1
      obtain ⟨b, e3, hb, hext⟩ := encodeValue_spec h0 (by omega)
      obtain ⟨w', bs, e4, hem4, hac⟩ := ih 0 (writeCode (writeCode w1 c) (b, category v)) hrv
        (fun s hs' => hs s (List.mem_append_right _ (List.mem_cons_of_mem _ hs')))
      refine ⟨w', bs1 ++ (word ++ bitsMSB b (category v) ++ bs), ?_, ?_, ?_⟩
      · rw [e1, ok_bind]
        simp only
        rw [rs_eq (by omega), e2, ok_bind]
        rw [e3, ok_bind, e4]
      · exact hem1.trans ((hem2.trans (emits_writeBits _ b _ (by omega))).trans hem4)
      · have hco := Ac.coef (Nat.mod_lt run (by decide : 0 < 16)) hcat1 hcat hb hc hac
        rw [hext] at hco
        have := hac1 _ _ hco
        rw [← List.append_assoc, List.replicate_append_replicate, Nat.div_add_mod] at this
        exact this

/-! ### Blocks -/

theorem zigzagReorder_length (b : List Int) : (zigzagReorder b).length = 64 := by
  simp [zigzagReorder]

/-- Coefficients of the baseline range, in natural or zigzag order: what an 8-bit image gives. -/
structure BlockRange (zz : List Int) : Prop where
  dc : -1024 ≤ zz.headD 0 ∧ zz.headD 0 ≤ 1023
  ac : AcRange (zz.drop 1)

theorem encodeBlock_spec {t : HuffTables} (h : TablesOk t) (lum : Bool) (block : List Int) (prev : Int)
    (w : BitWriterMsb) (hr : BlockRange (zigzagReorder block)) (hp : -1024 ≤ prev ∧ prev ≤ 1023)
    (hs : Covers t (blockSyms lum (zigzagReorder block) prev)) :
    ∃ w' bs, encodeBlock t w block prev lum = .ok (w', (zigzagReorder block).headD 0) ∧ Emits w w' bs ∧
      Block (t.get true lum).spec (t.get false lum).spec prev (zigzagReorder block) bs := by
  unfold encodeBlock
  have hlen := zigzagReorder_length block
  generalize zigzagReorder block = zz at *
  obtain ⟨hdc, hac⟩ := hr
  cases zz with
  | nil => simp at hlen
  | cons d acs =>
    simp only [List.headD_cons, List.drop_succ_cons, List.drop_zero] at hdc hac hs ⊢
    simp only [List.length_cons] at hlen
    have hdiff : subI16 d prev = .ok (d - prev) := by rw [subI16, if_pos (by omega)]
    rw [hdiff, ok_bind]
    have hcov := hs (true, lum, category (d - prev)) (by simp [blockSyms])
    obtain ⟨c, word, e1, hc, hem1⟩ := dcCode_spec h hcov w
    rw [e1, ok_bind]
    have hacs : ∀ s ∈ acSyms acs 0, s ∈ (t.get false lum).vals := by
      intro s hs'
      have := hs (false, lum, s) (by
        simp only [blockSyms, List.mem_cons, List.mem_map]
        right; exact ⟨s, by simpa using hs', rfl⟩)
      simpa using this
    by_cases h0 : d - prev = 0
    · rw [h0] at hc ⊢
      have ev : encodeValue 0 = .ok (0, 0) := rfl
      rw [ev, ok_bind, category_zero]
      simp only [Nat.lt_irrefl, if_false, gt_iff_lt]
      obtain ⟨w', bs, e4, hem4, hac4⟩ := encodeAc_spec h lum acs 0 (writeCode w c) hac hacs
      rw [e4]
      refine ⟨w', word ++ bs, rfl, hem1.trans hem4, ?_⟩
      have := Block.mk (dc := (t.get true lum).spec) (pred := prev) (by omega : acs.length = 63)
        (Dc.zero hc) hac4
      have hd : prev + 0 = d := by omega
      rw [hd] at this
      exact this
    · obtain ⟨b, e3, hb, hext⟩ := encodeValue_spec h0 (by omega)
      have hcat1 := category_pos h0
      have hcat : category (d - prev) ≤ 11 := category_le (by omega)
      rw [e3, ok_bind, if_pos (by omega)]
      obtain ⟨w', bs, e4, hem4, hac4⟩ := encodeAc_spec h lum acs 0
        (writeCode (writeCode w c) (b, category (d - prev))) hac hacs
      rw [e4]
      refine ⟨w', (word ++ bitsMSB b (category (d - prev))) ++ bs, rfl,
        (hem1.trans (emits_writeBits _ b _ (by omega))).trans hem4, ?_⟩
      have hd : prev + (d - prev) = d := by omega
      have hdc := Dc.bits hcat1 hcat hb hc
      rw [hext] at hdc
      have := Block.mk (dc := (t.get true lum).spec) (pred := prev) (by omega : acs.length = 63) hdc hac4
      rw [hd] at this
      exact this

end Pixo.Jpeg
