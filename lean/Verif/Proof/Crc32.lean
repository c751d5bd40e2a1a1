import Verif.Spec.Checksum
import Verif.Model.Crc32
import Verif.Proof.Bits
/-
CRC-32: linearity of the shift register, slicing-by-8 equals the bit-by-bit definition.
-/
namespace Pixo.Crc
open Spec

/-- Polynomial if the bit is set. -/
abbrev sel (b : Bool) : BitVec 32 := if b then 0xEDB88320#32 else 0#32

theorem sel_xor (a b : Bool) : sel (a ^^ b) = sel a ^^^ sel b := by
  cases a <;> cases b <;> decide

/-- Shift register step without input. -/
def T (c : BitVec 32) : BitVec 32 := (c >>> 1) ^^^ sel (c.getLsbD 0)

theorem T_xor (a b : BitVec 32) : T (a ^^^ b) = T a ^^^ T b := by
  unfold T
  rw [BitVec.getLsbD_xor, sel_xor, BitVec.ushiftRight_xor_distrib]
  ac_rfl

theorem T_zero : T 0#32 = 0#32 := by decide

theorem shift1_eq (c : BitVec 32) : shift1 c = T c := by
  unfold shift1 T
  have h : c &&& 1#32 = if c.getLsbD 0 then 1#32 else 0#32 := by
    ext i hi
    rcases Nat.eq_zero_or_pos i with rfl | hpos
    · cases h0 : c.getLsbD 0 <;> simp [← BitVec.getLsbD_eq_getElem, h0]
    · have h1 : (1#32)[i] = false := by
        rw [BitVec.getElem_one]; simp; omega
      cases c.getLsbD 0 <;> simp [h1]
  rw [h]
  cases c.getLsbD 0 <;> simp [sel]

theorem crcBit_eq (c : BitVec 32) (b : Bool) : crcBit c b = T c ^^^ sel b := by
  unfold crcBit T
  cases h : c.getLsbD 0 <;> cases b <;> simp [sel, BitVec.xor_assoc]

/-- `n` steps. -/
def Tn (n : Nat) (c : BitVec 32) : BitVec 32 := Nat.repeat T n c

theorem Tn_zero' (c : BitVec 32) : Tn 0 c = c := rfl
theorem Tn_succ (n : Nat) (c : BitVec 32) : Tn (n + 1) c = T (Tn n c) := rfl
theorem Tn_xor (n : Nat) (a b : BitVec 32) : Tn n (a ^^^ b) = Tn n a ^^^ Tn n b := by
  induction n with
  | zero => rfl
  | succ n ih => rw [Tn_succ, ih, T_xor, Tn_succ, Tn_succ]
theorem Tn_add (m n : Nat) (c : BitVec 32) : Tn (m + n) c = Tn m (Tn n c) := by
  induction m with
  | zero => simp [Tn_zero']
  | succ m ih => rw [Nat.add_right_comm, Tn_succ, ih, Tn_succ]
theorem Tn_succ' (n : Nat) (c : BitVec 32) : Tn (n + 1) c = Tn n (T c) := Tn_add n 1 c
theorem Tn_zeroVec (n : Nat) : Tn n 0#32 = 0#32 := by
  induction n with
  | zero => rfl
  | succ n ih => rw [Tn_succ, ih, T_zero]

theorem table0_eq (i : BitVec 32) : table0 i = Tn 8 i := by
  simp [table0, Tn, Nat.repeat, shift1_eq]

/-- A value whose low `n` bits are clear just shifts. -/
theorem Tn_shift (n : Nat) (c : BitVec 32) (h : ∀ i < n, c.getLsbD i = false) :
    Tn n c = c >>> n := by
  induction n generalizing c with
  | zero => simp [Tn_zero']
  | succ n ih =>
    rw [Tn_succ', ih]
    · rw [T, h 0 (by omega)]
      simp only [sel, Bool.false_eq_true, if_false, BitVec.xor_zero]
      rw [Nat.add_comm n 1, BitVec.shiftRight_add]
    · intro i hi
      rw [T, h 0 (by omega)]
      simp only [sel, Bool.false_eq_true, if_false, BitVec.xor_zero, BitVec.getLsbD_ushiftRight]
      exact h _ (by omega)

theorem split8 (c : BitVec 32) : c = (c &&& 0xFF#32) ^^^ ((c >>> 8) <<< 8) := by
  apply BitVec.eq_of_getLsbD_eq
  intro i hi
  have h255 : (0xFF#32).getLsbD i = decide (i < 8) := by
    have := BitVec.getLsbD_ofNat 32 (2 ^ 8 - 1) i
    rw [Nat.testBit_two_pow_sub_one] at this
    rw [show (0xFF#32) = BitVec.ofNat 32 (2 ^ 8 - 1) from rfl, this]
    simp [hi]
  rw [BitVec.getLsbD_xor, BitVec.getLsbD_and, h255, BitVec.getLsbD_shiftLeft,
    BitVec.getLsbD_ushiftRight]
  by_cases h : i < 8
  · simp [h]
  · rw [show 8 + (i - 8) = i by omega]; simp [h, hi]

theorem byte_table (c : BitVec 32) : (c >>> 8) ^^^ table0 (c &&& 0xFF#32) = Tn 8 c := by
  have h := congrArg (Tn 8) (split8 c)
  rw [Tn_xor, Tn_shift 8 ((c >>> 8) <<< 8)] at h
  · rw [h, table0_eq, BitVec.xor_comm]
    congr 1
    ext i hi
    simp only [BitVec.getElem_ushiftRight, BitVec.getLsbD_shiftLeft, BitVec.getLsbD_ushiftRight]
    by_cases h : 8 + i < 32
    · simp [h]
    · simp [h]; exact BitVec.getLsbD_of_ge _ _ (by omega)
  · intro i hi
    simp [BitVec.getLsbD_shiftLeft, hi]

theorem table_eq (t : Nat) (i : BitVec 32) : table t i = Tn (8 * (t + 1)) i := by
  induction t with
  | zero => exact table0_eq i
  | succ t ih =>
    simp only [table]
    rw [byte_table, ih, ← Tn_add]
    congr 1; omega

theorem ofByte_high (b : UInt8) (i : Nat) (hi : 8 ≤ i) : (BitVec.ofNat 32 b.toNat).getLsbD i = false := by
  rw [BitVec.getLsbD_ofNat]
  have : b.toNat.testBit i = false := by
    apply Nat.testBit_lt_two_pow
    have := b.toNat_lt
    have : 2 ^ 8 ≤ 2 ^ i := Nat.pow_le_pow_right (by decide) hi
    omega
  simp [this]

theorem byteStep_eq (c : BitVec 32) (b : UInt8) : byteStep c b = Tn 8 (c ^^^ BitVec.ofNat 32 b.toNat) := by
  unfold byteStep
  rw [← byte_table]
  have : (c ^^^ BitVec.ofNat 32 b.toNat) >>> 8 = c >>> 8 := by
    ext i hi
    simp only [BitVec.getElem_ushiftRight, BitVec.getLsbD_xor]
    rw [ofByte_high b (8 + i) (by omega)]; simp
  rw [this]; rfl

/-- Feeding `n` bits of `v` equals `n` steps of `c` xor `v`. -/
theorem foldl_bits (n v : Nat) (c : BitVec 32) (hv : v < 2 ^ n) (hn : n ≤ 32) :
    (bitsLSB v n).foldl crcBit c = Tn n (c ^^^ BitVec.ofNat 32 v) := by
  induction n generalizing v c with
  | zero => obtain rfl : v = 0 := by simpa using hv
            simp [bitsLSB, Tn_zero']
  | succ n ih =>
    rw [bitsLSB_succ, List.foldl_cons, ih (v / 2) _ (by omega) (by omega), Tn_succ', T_xor, crcBit_eq,
      BitVec.xor_assoc]
    congr 2
    have hlt : v < 2 ^ 32 := Nat.lt_of_lt_of_le hv (Nat.pow_le_pow_right (by decide) hn)
    have hs : BitVec.ofNat 32 v >>> 1 = BitVec.ofNat 32 (v / 2) := by
      apply BitVec.eq_of_toNat_eq
      rw [BitVec.toNat_ushiftRight, BitVec.toNat_ofNat, BitVec.toNat_ofNat, Nat.shiftRight_eq_div_pow,
        Nat.mod_eq_of_lt hlt, Nat.mod_eq_of_lt (by omega)]
    have hb : (BitVec.ofNat 32 v).getLsbD 0 = (v % 2 == 1) := by
      rw [BitVec.getLsbD_ofNat]; simp [Nat.testBit_zero]; rfl
    rw [T, hs, hb, BitVec.xor_comm]

theorem byteStep_spec (c : BitVec 32) (b : UInt8) :
    byteStep c b = (bitsLSB b.toNat 8).foldl crcBit c := by
  rw [byteStep_eq, foldl_bits _ _ _ (UInt8.toNat_lt b) (by decide)]

theorem foldl_byteStep (data : List UInt8) (c : BitVec 32) :
    data.foldl byteStep c = (bytesLSB data).foldl crcBit c := by
  induction data generalizing c with
  | nil => rfl
  | cons b data ih =>
    rw [List.foldl_cons, ih, byteStep_spec]
    show _ = (bitsLSB b.toNat 8 ++ bytesLSB data).foldl crcBit c
    rw [List.foldl_append]

/-- Split a word into its four bytes. -/
theorem split32 (x : BitVec 32) (n : Nat) :
    Tn (n + 32) x = Tn (n + 32) (x &&& 0xFF#32) ^^^ Tn (n + 24) ((x >>> 8) &&& 0xFF#32)
      ^^^ Tn (n + 16) ((x >>> 16) &&& 0xFF#32) ^^^ Tn (n + 8) ((x >>> 24) &&& 0xFF#32) := by
  have step : ∀ (m : Nat) (y : BitVec 32), Tn (m + 8) y = Tn (m + 8) (y &&& 0xFF#32) ^^^ Tn m (y >>> 8) := by
    intro m y
    rw [Tn_add, ← byte_table y, Tn_xor, table0_eq, ← Tn_add, BitVec.xor_comm]
  rw [show n + 32 = (n + 24) + 8 from rfl, step (n + 24) x, show n + 24 = (n + 16) + 8 from rfl,
    step (n + 16), show n + 16 = (n + 8) + 8 from rfl, step (n + 8), step n,
    ← BitVec.shiftRight_add, ← BitVec.shiftRight_add, ← BitVec.shiftRight_add]
  have h0 : x >>> (8 + 8 + 8 + 8) = 0#32 := by
    apply BitVec.eq_of_toNat_eq
    rw [BitVec.toNat_ushiftRight, Nat.shiftRight_eq_div_pow]
    simp only [BitVec.toNat_zero]
    exact Nat.div_eq_of_lt x.isLt
  rw [h0, Tn_zeroVec]
  simp only [BitVec.xor_zero]
  ac_rfl

theorem chunkStep_eq (c low high : BitVec 32) :
    chunkStep c low high = Tn 32 (Tn 32 (c ^^^ low) ^^^ high) := by
  rw [Tn_xor, ← Tn_add, show Tn 32 high = Tn (0 + 32) high from rfl, split32 _ 32, split32 high 0]
  unfold chunkStep
  simp only [table_eq]
  ac_rfl

theorem word_spec (a b c d : UInt8) (s : BitVec 32) :
    (bytesLSB [a, b, c, d]).foldl crcBit s = Tn 32 (s ^^^ le32 a b c d) := by
  have ha := UInt8.toNat_lt a
  have hb := UInt8.toNat_lt b
  have hc := UInt8.toNat_lt c
  have hd := UInt8.toNat_lt d
  have h1 : bytesLSB [a, b, c, d] =
      bitsLSB (a.toNat + (b.toNat + (c.toNat + d.toNat * 2 ^ 8) * 2 ^ 8) * 2 ^ 8) 32 := by
    rw [show (32 : Nat) = 8 + (8 + (8 + 8)) from rfl, bitsLSB_concat _ _ _ _ (by omega),
      bitsLSB_concat _ _ _ _ (by omega), bitsLSB_concat _ _ _ _ (by omega)]
    simp [bytesLSB]
  have h2 : le32 a b c d =
      BitVec.ofNat 32 (a.toNat + (b.toNat + (c.toNat + d.toNat * 2 ^ 8) * 2 ^ 8) * 2 ^ 8) := by
    apply BitVec.eq_of_toNat_eq
    unfold le32
    simp only [BitVec.toNat_or, BitVec.toNat_shiftLeft, BitVec.toNat_ofNat]
    rw [Nat.mod_eq_of_lt (show a.toNat < 2 ^ 32 by omega), Nat.mod_eq_of_lt (show b.toNat < 2 ^ 32 by omega),
      Nat.mod_eq_of_lt (show c.toNat < 2 ^ 32 by omega), Nat.mod_eq_of_lt (show d.toNat < 2 ^ 32 by omega)]
    simp only [Nat.shiftLeft_eq]
    rw [Nat.mod_eq_of_lt (show b.toNat * 2 ^ 8 < 2 ^ 32 by omega),
      Nat.mod_eq_of_lt (show c.toNat * 2 ^ 16 < 2 ^ 32 by omega),
      Nat.mod_eq_of_lt (show d.toNat * 2 ^ 24 < 2 ^ 32 by omega),
      Nat.mod_eq_of_lt (show _ < 2 ^ 32 by omega)]
    rw [← Nat.shiftLeft_eq b.toNat, ← Nat.shiftLeft_eq c.toNat 16, ← Nat.shiftLeft_eq d.toNat 24,
      or_shift _ _ 8 (by omega), or_shift _ _ 16 (by omega), or_shift _ _ 24 (by omega)]
    omega
  rw [h1, h2, foldl_bits _ _ _ (by omega) (by decide)]

theorem run_spec : ∀ (data : List UInt8) (c : BitVec 32), run c data = (bytesLSB data).foldl crcBit c
  | b0 :: b1 :: b2 :: b3 :: b4 :: b5 :: b6 :: b7 :: rest, c => by
    rw [run, run_spec rest, chunkStep_eq, ← word_spec, ← word_spec, ← List.foldl_append, ← List.foldl_append,
      ← bytesLSB_append, ← bytesLSB_append]
    rfl
  | [], c => foldl_byteStep _ _
  | [_], c => foldl_byteStep _ _
  | [_, _], c => foldl_byteStep _ _
  | [_, _, _], c => foldl_byteStep _ _
  | [_, _, _, _], c => foldl_byteStep _ _
  | [_, _, _, _, _], c => foldl_byteStep _ _
  | [_, _, _, _, _, _], c => foldl_byteStep _ _
  | [_, _, _, _, _, _, _], c => foldl_byteStep _ _

theorem xor_ones (x : BitVec 32) : x ^^^ 0xFFFFFFFF#32 = ~~~x := by
  rw [show (0xFFFFFFFF#32) = BitVec.allOnes 32 from by decide, BitVec.xor_allOnes]

theorem crc32_spec (data : List UInt8) : crc32 data = Spec.crc32 data := by
  rw [crc32, run_spec, xor_ones]; rfl

theorem update_spec (data : List UInt8) (c : BitVec 32) : update c data = (bytesLSB data).foldl crcBit c :=
  foldl_byteStep data c

/-! ## Injectivity and error detection -/

theorem T_eq_zero {x : BitVec 32} (h : T x = 0#32) : x = 0#32 := by
  cases hb : x.getLsbD 0 with
  | true =>
    have := congrArg (fun v => v.getLsbD 31) h
    simp only [T, hb, sel, if_true, BitVec.getLsbD_xor, BitVec.getLsbD_ushiftRight] at this
    rw [BitVec.getLsbD_of_ge x _ (by decide)] at this
    exact absurd this (by decide)
  | false =>
    simp only [T, hb, sel, Bool.false_eq_true, if_false, BitVec.xor_zero] at h
    apply BitVec.eq_of_getLsbD_eq
    intro i hi
    rcases i with _ | i
    · simpa using hb
    · have := congrArg (fun v => v.getLsbD i) h
      simp only [BitVec.getLsbD_ushiftRight, BitVec.getLsbD_zero] at this
      rw [Nat.add_comm i 1, this]; simp

theorem Tn_eq_zero {n : Nat} {x : BitVec 32} (h : Tn n x = 0#32) : x = 0#32 := by
  induction n generalizing x with
  | zero => exact h
  | succ n ih => exact ih (T_eq_zero h)

/-- Bitwise difference of two bit strings acts linearly. -/
theorem foldl_xor (a b : List Bool) (h : a.length = b.length) (c d : BitVec 32) :
    a.foldl crcBit c ^^^ b.foldl crcBit d =
      (List.zipWith Bool.xor a b).foldl crcBit (c ^^^ d) := by
  induction a generalizing b c d with
  | nil => obtain rfl : b = [] := by simpa using h.symm
           rfl
  | cons x a ih =>
    cases b with
    | nil => simp at h
    | cons y b =>
      simp only [List.foldl_cons, List.zipWith_cons_cons]
      rw [ih b (by simpa using h)]
      congr 1
      rw [crcBit_eq, crcBit_eq, crcBit_eq, T_xor, sel_xor]
      ac_rfl

theorem foldl_zeros (n : Nat) (c : BitVec 32) : (List.replicate n false).foldl crcBit c = Tn n c := by
  induction n generalizing c with
  | zero => rfl
  | succ n ih => rw [List.replicate_succ, List.foldl_cons, ih, crcBit_eq, Tn_succ']; simp [sel]

/-- A nonzero pattern of at most 32 bits leaves a nonzero register. -/
theorem burst_ne_zero (e : List Bool) (hl : e.length ≤ 32) (h : e.foldl crcBit 0#32 = 0#32) :
    ∀ b ∈ e, b = false := by
  have hv := ofBitsLSB_lt e
  have he := bitsLSB_ofBitsLSB e
  rw [← he, foldl_bits _ _ _ hv hl, BitVec.zero_xor] at h
  have h0 := Tn_eq_zero h
  have h1 : ofBitsLSB e = 0 := by
    have := congrArg BitVec.toNat h0
    rw [BitVec.toNat_ofNat, Nat.mod_eq_of_lt (Nat.lt_of_lt_of_le hv (Nat.pow_le_pow_right (by decide) hl))] at this
    simpa using this
  rw [h1] at he
  rw [← he]
  intro b hb
  have : bitsLSB 0 e.length = List.replicate e.length false := by
    generalize e.length = n
    clear he
    induction n with
    | zero => rfl
    | succ n ih => rw [bitsLSB_succ, Nat.zero_div, ih]; rfl
  rw [this] at hb
  exact (List.mem_replicate.mp hb).2

end Pixo.Crc
