import Verif.Proof.SimdCrcHw
/-
Where two CRC registers with different polynomials agree: linear algebra over the field of two elements.
-/
namespace Pixo.Simd
open Spec

theorem xor_left_comm' (a b c : BitVec 32) : a ^^^ (b ^^^ c) = b ^^^ (a ^^^ c) := by ac_rfl

/-- Sum of the vectors whose bits are set. -/
def lin : List (BitVec 32) → List Bool → BitVec 32
  | v :: vs, b :: bs => (if b then v else 0#32) ^^^ lin vs bs
  | _, _ => 0#32

theorem lin_xor (vs : List (BitVec 32)) (bs ds : List Bool) (h : bs.length = ds.length) :
    lin vs (List.zipWith xor bs ds) = lin vs bs ^^^ lin vs ds := by
  induction vs generalizing bs ds with
  | nil => simp [lin]
  | cons v vs ih =>
    match bs, ds, h with
    | [], [], _ => simp [lin]
    | b :: bs, d :: ds, h =>
      simp only [List.zipWith_cons_cons, lin]
      rw [ih bs ds (by simpa using h)]
      cases b <;> cases d <;> simp only [Bool.false_xor, Bool.xor_false, Bool.true_xor, Bool.not_true, Bool.not_false,
        if_true, Bool.false_eq_true, if_false, BitVec.zero_xor]
      · exact xor_left_comm' _ _ _
      · rw [BitVec.xor_assoc]
      · rw [BitVec.xor_assoc, xor_left_comm' _ v, ← BitVec.xor_assoc v v, BitVec.xor_self, BitVec.zero_xor]

/-- One step of the register without input. -/
def turn (p c : BitVec 32) : BitVec 32 := crcBitOf p c false

theorem crcBitOf_xor (p a c : BitVec 32) (x y : Bool) :
    crcBitOf p (a ^^^ c) (x ^^ y) = crcBitOf p a x ^^^ crcBitOf p c y := by
  apply BitVec.eq_of_getLsbD_eq
  intro i _
  rw [BitVec.getLsbD_xor, crcBitOf_bit, crcBitOf_bit, crcBitOf_bit, BitVec.getLsbD_xor, BitVec.getLsbD_xor]
  cases a.getLsbD (i + 1) <;> cases c.getLsbD (i + 1) <;> cases a.getLsbD 0 <;> cases c.getLsbD 0 <;> cases x <;>
    cases y <;> cases p.getLsbD i <;> rfl

theorem foldl_bitOf_xor (p : BitVec 32) (bs ds : List Bool) (h : bs.length = ds.length) (a c : BitVec 32) :
    (List.zipWith xor bs ds).foldl (crcBitOf p) (a ^^^ c) = bs.foldl (crcBitOf p) a ^^^ ds.foldl (crcBitOf p) c := by
  induction bs generalizing ds a c with
  | nil => cases ds with
    | nil => rfl
    | cons => simp at h
  | cons b bs ih =>
    match ds, h with
    | d :: ds, h =>
      simp only [List.zipWith_cons_cons, List.foldl_cons]
      rw [crcBitOf_xor, ih ds (by simpa using h)]

/-- What a set bit followed by as many others adds to the register. -/
def columns (p : BitVec 32) : Nat → List (BitVec 32)
  | 0 => []
  | n + 1 => Nat.repeat (turn p) n p :: columns p n

theorem foldl_false (p : BitVec 32) (n : Nat) (c : BitVec 32) :
    (List.replicate n false).foldl (crcBitOf p) c = Nat.repeat (turn p) n c := by
  have key : ∀ n c, Nat.repeat (turn p) n (turn p c) = turn p (Nat.repeat (turn p) n c) := by
    intro n
    induction n with
    | zero => intro c; rfl
    | succ n ih => intro c; simp only [Nat.repeat]; rw [ih]
  induction n generalizing c with
  | zero => rfl
  | succ n ih => rw [List.replicate_succ, List.foldl_cons, ih]; exact key n c

theorem zip_false (bs : List Bool) : List.zipWith xor (List.replicate bs.length false) bs = bs := by
  induction bs with
  | nil => rfl
  | cons b bs ih => simp [List.replicate_succ, ih]

theorem foldl_lin (p : BitVec 32) (bs : List Bool) :
    bs.foldl (crcBitOf p) 0#32 = lin (columns p bs.length) bs := by
  induction bs with
  | nil => rfl
  | cons b bs ih =>
    have h := foldl_bitOf_xor p (List.replicate bs.length false) bs (by simp) (crcBitOf p 0#32 b) 0#32
    rw [zip_false, BitVec.xor_zero] at h
    rw [List.foldl_cons, h, foldl_false, ih, List.length_cons, columns, lin]
    congr 1
    cases b with
    | true => rw [show crcBitOf p 0#32 true = p by simp [crcBitOf]]; rfl
    | false =>
      rw [show crcBitOf p 0#32 false = 0#32 by simp [crcBitOf]]
      have : ∀ n, Nat.repeat (turn p) n 0#32 = 0#32 := by
        intro n
        induction n with
        | zero => rfl
        | succ n ih => rw [Nat.repeat, ih]; simp [turn, crcBitOf]
      rw [this]; rfl

theorem lin_add (us vs : List (BitVec 32)) (h : us.length = vs.length) (bs : List Bool) :
    lin us bs ^^^ lin vs bs = lin (List.zipWith (· ^^^ ·) us vs) bs := by
  induction us generalizing vs bs with
  | nil => cases vs with
    | nil => simp [lin]
    | cons => simp at h
  | cons u us ih =>
    match vs, h, bs with
    | v :: vs, h, [] => simp [lin]
    | v :: vs, h, b :: bs =>
      simp only [List.zipWith_cons_cons, lin]
      rw [← ih vs (by simpa using h)]
      cases b
      · simp
      · simp only [if_true]; ac_rfl

/-- The inverse of the difference of the two registers over 32 bits, column by column. -/
def inverse : List (BitVec 32) := [
    0xda7163d4#32, 0x93a42b19#32, 0xeba83#32, 0x275b99b7#32, 0x69f1dfdf#32, 0xf4a5530f#32, 0xe94aa61e#32, 0xf5d3a08d#32,
    0xcce1adab#32, 0xbe85b7e7#32, 0x5a4d837f#32, 0xb49b06fe#32, 0x69360dfc#32, 0xd26c1bf8#32, 0x839edb41#32, 0x73db682#32,
    0xe7b6d04#32, 0x3bb036b9#32, 0x77606d72#32, 0xeec0dae4#32, 0xdd81b5c8#32, 0x9c458721#32, 0x1fcde2f3#32, 0x18dd2957#32,
    0x31ba52ae#32, 0x443249ed#32, 0xaf227f6b#32, 0x5e44fed6#32, 0x9bcf111d#32, 0x10d8ce8b#32, 0x6f771a7#32, 0xdeee34e#32]

/-- The bits of a vector, lowest first. -/
def bitsOf (x : BitVec 32) : List Bool := (List.range 32).map x.getLsbD

/-- The inverse map. -/
def undo (x : BitVec 32) : BitVec 32 := lin inverse (bitsOf x)

theorem undo_xor (x y : BitVec 32) : undo (x ^^^ y) = undo x ^^^ undo y := by
  unfold undo
  rw [← lin_xor _ _ _ (by simp [bitsOf])]
  congr 1
  simp [bitsOf, List.zipWith_map, List.zipWith_self]

theorem undo_lin (vs : List (BitVec 32)) (bs : List Bool) : undo (lin vs bs) = lin (vs.map undo) bs := by
  have h0 : undo 0#32 = 0#32 := by decide +kernel
  induction vs generalizing bs with
  | nil => exact h0
  | cons v vs ih =>
    cases bs with
    | nil => exact h0
    | cons b bs =>
      rw [lin, undo_xor, ih, List.map_cons, lin]
      cases b
      · simp [h0]
      · simp

/-- The difference of the columns for the two polynomials. -/
def differences (n : Nat) : List (BitVec 32) :=
  List.zipWith (· ^^^ ·) (columns 0x82F63B78#32 n) (columns 0xEDB88320#32 n)

theorem undo_differences : ∀ n : Fin 33,
    (differences n.1).map undo = (List.range' (32 - n.1) n.1).map (fun i => BitVec.twoPow 32 i) := by
  decide +kernel

theorem lin_units (bs : List Bool) (k j : Nat) (h : k + bs.length ≤ 32) :
    (lin ((List.range' k bs.length).map (fun i => BitVec.twoPow 32 i)) bs).getLsbD j =
      (decide (k ≤ j) && bs.getD (j - k) false) := by
  induction bs generalizing k with
  | nil => simp [lin]
  | cons b bs ih =>
    simp only [List.length_cons] at h
    rw [List.length_cons, List.range'_succ, List.map_cons, lin, BitVec.getLsbD_xor, ih (k + 1) (by omega)]
    have hb : (if b = true then BitVec.twoPow 32 k else 0#32).getLsbD j = (b && decide (j = k)) := by
      cases b
      · simp
      · by_cases hj : j = k
        · simp [hj, BitVec.getLsbD_twoPow]; omega
        · simp [BitVec.getLsbD_twoPow, hj, show ¬ k = j from fun e => hj e.symm]
    rw [hb]
    rcases Nat.lt_trichotomy j k with h1 | h1 | h1
    · simp [show ¬ j = k by omega, show ¬ k + 1 ≤ j by omega, show ¬ k ≤ j by omega]
    · subst h1; simp [show ¬ j + 1 ≤ j by omega]
    · obtain ⟨d, rfl⟩ : ∃ d, j = k + 1 + d := ⟨j - (k + 1), by omega⟩
      rw [show k + 1 + d - (k + 1) = d by omega, show k + 1 + d - k = d + 1 by omega]
      simp [show ¬ k + 1 + d = k by omega, show k ≤ k + 1 + d by omega]

/-- Up to 32 bits from an empty register, the two polynomials agree on zeros only. -/
theorem agree_zero (bs : List Bool) (hl : bs.length ≤ 32)
    (h : bs.foldl (crcBitOf 0x82F63B78#32) 0#32 = bs.foldl (crcBitOf 0xEDB88320#32) 0#32) :
    ∀ b ∈ bs, b = false := by
  have hlen : ∀ p n, (columns p n).length = n := by
    intro p n
    induction n with
    | zero => rfl
    | succ n ih => simp [columns, ih]
  rw [foldl_lin, foldl_lin] at h
  have h1 : lin (differences bs.length) bs = 0#32 := by
    unfold differences
    rw [← lin_add _ _ (by rw [hlen, hlen]), h, BitVec.xor_self]
  have h2 := undo_lin (differences bs.length) bs
  rw [h1, undo_differences ⟨bs.length, by omega⟩] at h2
  rw [show undo 0#32 = 0#32 by decide +kernel] at h2
  intro b hb
  obtain ⟨i, hi, rfl⟩ := List.getElem_of_mem hb
  have h3 := congrArg (fun x => x.getLsbD (32 - bs.length + i)) h2
  simp only at h3
  rw [lin_units bs (32 - bs.length) _ (by omega)] at h3
  rw [show 32 - bs.length + i - (32 - bs.length) = i by omega] at h3
  simpa [hi, List.getD_eq_getElem?_getD] using h3.symm

/-- Ones leave a register of ones alone but for shifting it. -/
theorem foldl_ones (p : BitVec 32) (n : Nat) (h : n ≤ 32) :
    (List.replicate n true).foldl (crcBitOf p) (BitVec.allOnes 32) = BitVec.allOnes 32 >>> n := by
  have key : ∀ n k, n + k ≤ 32 →
      (List.replicate n true).foldl (crcBitOf p) (BitVec.allOnes 32 >>> k) = BitVec.allOnes 32 >>> (n + k) := by
    intro n
    induction n with
    | zero => intro k _; simp
    | succ n ih =>
      intro k hk
      rw [List.replicate_succ, List.foldl_cons]
      have : crcBitOf p (BitVec.allOnes 32 >>> k) true = BitVec.allOnes 32 >>> (k + 1) := by
        unfold crcBitOf
        rw [BitVec.getLsbD_ushiftRight, BitVec.getLsbD_allOnes, ← BitVec.shiftRight_add]
        simp [show k < 32 by omega]
      rw [this, ih (k + 1) (by omega)]
      congr 1; omega
  simpa using key n 0 (by omega)

/-- Up to 32 bits, the two CRCs agree on ones only. -/
theorem agree_ones (bs : List Bool) (hl : bs.length ≤ 32) :
    bs.foldl (crcBitOf 0x82F63B78#32) (BitVec.allOnes 32) = bs.foldl (crcBitOf 0xEDB88320#32) (BitVec.allOnes 32) ↔
      ∀ b ∈ bs, b = true := by
  have split : ∀ p, bs.foldl (crcBitOf p) (BitVec.allOnes 32) =
      (List.replicate bs.length true).foldl (crcBitOf p) (BitVec.allOnes 32) ^^^
        (bs.map not).foldl (crcBitOf p) 0#32 := by
    intro p
    rw [← foldl_bitOf_xor p _ _ (by simp), BitVec.xor_zero]
    congr 1
    clear hl
    induction bs with
    | nil => rfl
    | cons b bs ih =>
      rw [List.length_cons, List.replicate_succ, List.map_cons, List.zipWith_cons_cons, ← ih]
      simp
  constructor
  · intro h
    rw [split, split, foldl_ones _ _ hl, foldl_ones _ _ hl] at h
    have h' := agree_zero (bs.map not) (by simpa using hl) (by
      have := congrArg (fun x => (BitVec.allOnes 32 >>> bs.length) ^^^ x) h
      simpa [← BitVec.xor_assoc] using this)
    intro b hb
    have := h' (!b) (List.mem_map_of_mem hb)
    simpa using this
  · intro h
    have : bs = List.replicate bs.length true := List.eq_replicate_iff.2 ⟨rfl, h⟩
    rw [this, foldl_ones _ _ hl, foldl_ones _ _ hl]

/-! ### Longer data -/

/-- The difference of the registers after 32 bits. -/
def differ (x : BitVec 32) : BitVec 32 := lin (differences 32) (bitsOf x)

theorem differ_xor (x y : BitVec 32) : differ (x ^^^ y) = differ x ^^^ differ y := by
  unfold differ
  rw [← lin_xor _ _ _ (by simp [bitsOf])]
  congr 1
  simp [bitsOf, List.zipWith_map, List.zipWith_self]

theorem differ_lin (vs : List (BitVec 32)) (bs : List Bool) : differ (lin vs bs) = lin (vs.map differ) bs := by
  have h0 : differ 0#32 = 0#32 := by decide +kernel
  induction vs generalizing bs with
  | nil => exact h0
  | cons v vs ih =>
    cases bs with
    | nil => exact h0
    | cons b bs =>
      rw [lin, differ_xor, ih, List.map_cons, lin]
      cases b
      · simp [h0]
      · simp

theorem bits_of_units {bs : List Bool} (hb : bs.length = 32) {u : BitVec 32}
    (h : u = lin ((List.range' 0 32).map (fun i => BitVec.twoPow 32 i)) bs) : bs = bitsOf u := by
  apply List.ext_getElem (by simp [bitsOf, hb])
  intro i hi _
  have h4 := lin_units bs 0 i (by omega)
  rw [hb, ← h] at h4
  simp [bitsOf, h4, List.getD_eq_getElem?_getD, hi]

theorem lin_bitsOf (x : BitVec 32) : lin ((List.range' 0 32).map (fun i => BitVec.twoPow 32 i)) (bitsOf x) = x := by
  apply BitVec.eq_of_getLsbD_eq
  intro i hi
  have hl : (bitsOf x).length = 32 := by simp [bitsOf]
  have := lin_units (bitsOf x) 0 i (by omega)
  rw [hl] at this
  rw [this]
  simp [bitsOf, List.getD_eq_getElem?_getD, hi]

theorem differ_undo (x : BitVec 32) : differ (undo x) = x := by
  have h : inverse.map differ = (List.range' 0 32).map (fun i => BitVec.twoPow 32 i) := by decide +kernel
  unfold undo
  rw [differ_lin, h, lin_bitsOf]

/-- From any two registers there is exactly one string of 32 bits after which they agree. -/
theorem agree_after (a c : BitVec 32) :
    ∃ ds : List Bool, ds.length = 32 ∧ ∀ bs : List Bool, bs.length = 32 →
      (bs.foldl (crcBitOf 0x82F63B78#32) a = bs.foldl (crcBitOf 0xEDB88320#32) c ↔ bs = ds) := by
  have hlen : ∀ p n, (columns p n).length = n := by
    intro p n
    induction n with
    | zero => rfl
    | succ n ih => simp [columns, ih]
  have split : ∀ p (a : BitVec 32) (bs : List Bool), bs.length = 32 →
      bs.foldl (crcBitOf p) a = Nat.repeat (turn p) 32 a ^^^ lin (columns p 32) bs := by
    intro p a bs hb
    have h := foldl_bitOf_xor p (List.replicate bs.length false) bs (by simp) a 0#32
    rw [zip_false, BitVec.xor_zero, foldl_false, foldl_lin, hb] at h
    exact h
  generalize ht : Nat.repeat (turn 0x82F63B78#32) 32 a ^^^ Nat.repeat (turn 0xEDB88320#32) 32 c = t
  have key : ∀ bs : List Bool, bs.length = 32 →
      (bs.foldl (crcBitOf 0x82F63B78#32) a = bs.foldl (crcBitOf 0xEDB88320#32) c ↔ lin (differences 32) bs = t) := by
    intro bs hb
    unfold differences
    rw [split _ _ bs hb, split _ _ bs hb, ← lin_add _ _ (by rw [hlen, hlen]), ← ht]
    generalize Nat.repeat (turn 0x82F63B78#32) 32 a = a'
    generalize Nat.repeat (turn 0xEDB88320#32) 32 c = c'
    generalize lin (columns 0x82F63B78#32 32) bs = x
    generalize lin (columns 0xEDB88320#32 32) bs = y
    constructor
    · intro h
      have h1 : a' ^^^ x ^^^ (c' ^^^ x) = c' ^^^ y ^^^ (c' ^^^ x) := by rw [h]
      have h2 : a' ^^^ x ^^^ (c' ^^^ x) = a' ^^^ c' := by
        rw [BitVec.xor_assoc, xor_left_comm' x, BitVec.xor_self, BitVec.xor_zero]
      have h3 : c' ^^^ y ^^^ (c' ^^^ x) = x ^^^ y := by
        rw [BitVec.xor_assoc, xor_left_comm' y, ← BitVec.xor_assoc, BitVec.xor_self, BitVec.zero_xor, BitVec.xor_comm]
      rw [← h2, h1, h3]
    · intro h
      have h1 : x = a' ^^^ c' ^^^ y := by rw [← h, BitVec.xor_assoc, BitVec.xor_self, BitVec.xor_zero]
      rw [h1, BitVec.xor_assoc a', ← BitVec.xor_assoc a' a', BitVec.xor_self, BitVec.zero_xor]
  have hl : (bitsOf (undo t)).length = 32 := by simp [bitsOf]
  refine ⟨bitsOf (undo t), hl, fun bs hb => ?_⟩
  rw [key bs hb]
  constructor
  · intro h
    have h3 : (differences 32).map undo = (List.range' 0 32).map (fun i => BitVec.twoPow 32 i) :=
      undo_differences ⟨32, by decide⟩
    have h2 := undo_lin (differences 32) bs
    rw [h, h3] at h2
    exact bits_of_units hb h2
  · rintro rfl
    exact differ_undo t

end Pixo.Simd
