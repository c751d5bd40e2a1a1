import Verif.Model.SimdAdler
import Verif.Proof.Adler32
/-
Accelerated Adler-32 routines: lane sums, block transitions, overflow bounds.
-/
namespace Pixo.Simd
open Spec

theorem list16 {α : Type} (v : List α) (h : v.length = 16) :
    ∃ b0 b1 b2 b3 b4 b5 b6 b7 b8 b9 b10 b11 b12 b13 b14 b15,
      v = [b0, b1, b2, b3, b4, b5, b6, b7, b8, b9, b10, b11, b12, b13, b14, b15] := by
  match v, h with
  | [b0, b1, b2, b3, b4, b5, b6, b7, b8, b9, b10, b11, b12, b13, b14, b15], _ =>
    exact ⟨b0, b1, b2, b3, b4, b5, b6, b7, b8, b9, b10, b11, b12, b13, b14, b15, rfl⟩

theorem sad16 (v : List UInt8) (h : v.length = 16) : sad v 0 + sad v 1 = bsum v := by
  obtain ⟨b0, b1, b2, b3, b4, b5, b6, b7, b8, b9, b10, b11, b12, b13, b14, b15, rfl⟩ := list16 v h
  simp only [sad, g, bsum, Nat.mul_zero, Nat.mul_one,
    Nat.zero_add, Nat.reduceAdd, Nat.add_zero, List.getD]
  simp only [List.getElem?_cons_zero, List.getElem?_cons_succ, Option.getD_some]
  omega

theorem madd16 (v : List UInt8) (h : v.length = 16) :
    (madd 16 v 0 + madd 16 v 8) + (madd 16 v 2 + madd 16 v 10) + (madd 16 v 4 + madd 16 v 12)
      + (madd 16 v 6 + madd 16 v 14) = wsum v := by
  obtain ⟨b0, b1, b2, b3, b4, b5, b6, b7, b8, b9, b10, b11, b12, b13, b14, b15, rfl⟩ := list16 v h
  simp only [madd, g, wsum, List.getD, List.getElem?_cons_zero, List.getElem?_cons_succ,
    Option.getD_some, Nat.reduceAdd, Nat.reduceSub, List.length_cons, List.length_nil]
  omega

theorem neonStep_eq (s : Nat × Nat) (v : List UInt8) (h : v.length = 16) :
    neonStep s v = ((s.1 + bsum v) % 2 ^ 32, (s.2 + 16 * s.1 + wsum v) % 2 ^ 32) := by
  have h1 := sad16 v h
  unfold neonStep add32
  simp only
  rw [h1]
  congr 1
  obtain ⟨b0, b1, b2, b3, b4, b5, b6, b7, b8, b9, b10, b11, b12, b13, b14, b15, rfl⟩ := list16 v h
  simp only [g, wsum, List.getD, List.getElem?_cons_zero, List.getElem?_cons_succ,
    Option.getD_some, Nat.reduceAdd, Nat.reduceSub, List.length_cons, List.length_nil]
  omega

theorem take_take_drop (d : List UInt8) (a b : Nat) :
    d.take a ++ (d.drop a).take b = d.take (a + b) := by
  rw [List.take_add]

theorem neonLoop_eq (k : Nat) (d pre : List UInt8) (a b : Nat) (hk : 16 * k ≤ d.length) :
    neonLoop k d ((a + bsum pre) % 2 ^ 32, (b + pre.length * a + wsum pre) % 2 ^ 32) =
      ((a + bsum (pre ++ d.take (16 * k))) % 2 ^ 32,
        (b + (pre ++ d.take (16 * k)).length * a + wsum (pre ++ d.take (16 * k))) % 2 ^ 32) := by
  induction k generalizing d pre with
  | zero => simp [neonLoop]
  | succ k ih =>
    have hl : (d.take 16).length = 16 := by simp; omega
    have hst : neonStep ((a + bsum pre) % 2 ^ 32, (b + pre.length * a + wsum pre) % 2 ^ 32) (d.take 16) =
        ((a + bsum (pre ++ d.take 16)) % 2 ^ 32,
          (b + (pre ++ d.take 16).length * a + wsum (pre ++ d.take 16)) % 2 ^ 32) := by
      rw [neonStep_eq _ _ hl, bsum_append, wsum_append, List.length_append, hl, Nat.add_mul]
      congr 1 <;> simp only <;> omega
    rw [neonLoop, hst, ih _ _ (by simp; omega), List.append_assoc, take_take_drop,
      show 16 + 16 * k = 16 * (k + 1) by omega]

/-- What a correct block routine returns. -/
def BlockOK (block : List UInt8 → Nat → Nat → R (Nat × Nat)) : Prop :=
  ∀ d a b, d.length % 16 = 0 → d.length ≤ 5552 → a < 65521 → b < 65521 →
    block d a b = .ok (a + bsum d, b + d.length * a + wsum d)

theorem neonBlock_ok : BlockOK neonBlock := by
  intro d a b h16 hl ha hb
  obtain ⟨h1, h2⟩ := chunk_bound d a b (by omega) (by omega) hl
  have h := neonLoop_eq (d.length / 16) d [] a b (by omega)
  rw [show 16 * (d.length / 16) = d.length by omega] at h
  simp only [bsum, wsum, List.length_nil, Nat.zero_mul, Nat.add_zero, List.nil_append,
    List.take_length] at h
  rw [Nat.mod_eq_of_lt h1, Nat.mod_eq_of_lt h2, Nat.mod_eq_of_lt (show a < 2 ^ 32 by omega),
    Nat.mod_eq_of_lt (show b < 2 ^ 32 by omega)] at h
  rw [neonBlock, h]

theorem blockLoop_ok {block} (hblk : BlockOK block) (fuel : Nat) (d : List UInt8) (a b : Nat)
    (hf : d.length < fuel) (ha : a < 65521) (hb : b < 65521) :
    ∃ pre rem, d = pre ++ rem ∧ rem.length < 5552 ∧
      blockLoop block fuel d a b = .ok (rem, (pre.foldl adlerStep (a, b)).1, (pre.foldl adlerStep (a, b)).2) := by
  induction fuel generalizing d a b with
  | zero => omega
  | succ fuel ih =>
    rw [blockLoop]
    by_cases h : d.length ≥ 5552
    · rw [if_pos h]
      have hl : (d.take 5552).length = 5552 := by simp; omega
      rw [hblk _ _ _ (by rw [hl]) (by omega) ha hb, ok_bind]
      simp only
      obtain ⟨pre, rem, e, hr, hx⟩ := ih (d.drop 5552) ((a + bsum (d.take 5552)) % 65521)
        ((b + (d.take 5552).length * a + wsum (d.take 5552)) % 65521) (by simp; omega)
        (Nat.mod_lt _ (by decide)) (Nat.mod_lt _ (by decide))
      refine ⟨d.take 5552 ++ pre, rem, ?_, hr, ?_⟩
      · rw [List.append_assoc, ← e, List.take_append_drop]
      · rw [hx, List.foldl_append, spec_fold (d.take 5552) a b ha hb]
    · rw [if_neg h]
      exact ⟨[], d, rfl, by omega, rfl⟩

theorem adlerStep_lt (d : List UInt8) (a b : Nat) (ha : a < 65521) (hb : b < 65521) :
    (d.foldl adlerStep (a, b)).1 < 65521 ∧ (d.foldl adlerStep (a, b)).2 < 65521 := by
  rw [spec_fold d a b ha hb]
  exact ⟨Nat.mod_lt _ (by decide), Nat.mod_lt _ (by decide)⟩

theorem combine (s1 s2 : Nat) (h : s1 < 65536) : (s2 <<< 16) ||| s1 = s2 * 65536 + s1 := by
  rw [← Nat.shiftLeft_add_eq_or_of_lt (by omega), Nat.shiftLeft_eq]

theorem blockAdler_ok {block} (hblk : BlockOK block) (d : List UInt8) :
    blockAdler block d = .ok (Spec.adler32 d) := by
  obtain ⟨pre, rem, e, hr, hx⟩ := blockLoop_ok hblk (d.length + 1) d 1 0 (by omega) (by decide) (by decide)
  obtain ⟨l1, l2⟩ := adlerStep_lt pre 1 0 (by decide) (by decide)
  have htail : ∃ pre' rem', d = pre' ++ rem' ∧ rem'.length ≤ 5552 ∧
      blockTail block rem (pre.foldl adlerStep (1, 0)).1 (pre.foldl adlerStep (1, 0)).2 =
        .ok (rem', (pre'.foldl adlerStep (1, 0)).1, (pre'.foldl adlerStep (1, 0)).2) := by
    unfold blockTail
    by_cases h : rem.length ≥ 16
    · rw [if_pos h]
      generalize hn : rem.length / 16 * 16 = n
      have hl : (rem.take n).length = n := by simp; omega
      rw [hblk _ _ _ (by omega) (by omega) l1 l2, ok_bind]
      refine ⟨pre ++ rem.take n, rem.drop n, ?_, by simp; omega, ?_⟩
      · rw [List.append_assoc, List.take_append_drop]; exact e
      · rw [List.foldl_append, spec_fold (rem.take n) _ _ l1 l2]; rfl
    · rw [if_neg h]
      exact ⟨pre, rem, e, by omega, rfl⟩
  obtain ⟨pre', rem', e', hr', hx'⟩ := htail
  obtain ⟨m1, m2⟩ := adlerStep_lt pre' 1 0 (by decide) (by decide)
  obtain ⟨c1, c2⟩ := chunk_bound rem' _ _ (Nat.le_of_lt_succ m1) (Nat.le_of_lt_succ m2) hr'
  unfold blockAdler
  rw [hx, ok_bind]
  simp only
  rw [hx', ok_bind]
  simp only
  rw [adlerChunk_ok _ _ _ c1 c2, ok_bind]
  simp only
  show Except.ok _ = _
  rw [combine _ _ (by have := Nat.mod_lt ((pre'.foldl adlerStep (1, 0)).1 + bsum rem') (show 0 < 65521 by decide); omega)]
  unfold Spec.adler32
  rw [e', List.foldl_append, spec_fold rem' _ _ m1 m2]

/-! ## SSSE3 -/

theorem ssse3Step_eq (s : Acc) (v : List UInt8) (h : v.length = 16) :
    add32 (ssse3Step s v).vs1.1 (ssse3Step s v).vs1.2 = (s.vs1.1 + s.vs1.2 + bsum v) % 2 ^ 32 ∧
    add32 (ssse3Step s v).total.1 (ssse3Step s v).total.2 = (s.total.1 + s.total.2 + bsum v) % 2 ^ 32 ∧
    add32 (add32 (ssse3Step s v).a (ssse3Step s v).c) (add32 (ssse3Step s v).b (ssse3Step s v).d)
      = (s.a + s.b + s.c + s.d + 16 * (s.total.1 + s.total.2) + wsum v) % 2 ^ 32 := by
  have h1 := sad16 v h
  have h2 := madd16 v h
  simp only [ssse3Step, add32]
  refine ⟨?_, ?_, ?_⟩ <;> omega

theorem ssse3Loop_eq (k : Nat) (d pre : List UInt8) (s : Acc) (hk : 16 * k ≤ d.length)
    (h1 : add32 s.vs1.1 s.vs1.2 = bsum pre % 2 ^ 32) (h2 : add32 s.total.1 s.total.2 = bsum pre % 2 ^ 32)
    (h3 : add32 (add32 s.a s.c) (add32 s.b s.d) = wsum pre % 2 ^ 32) :
    add32 (ssse3Loop k d s).vs1.1 (ssse3Loop k d s).vs1.2 = bsum (pre ++ d.take (16 * k)) % 2 ^ 32 ∧
    add32 (add32 (ssse3Loop k d s).a (ssse3Loop k d s).c) (add32 (ssse3Loop k d s).b (ssse3Loop k d s).d)
      = wsum (pre ++ d.take (16 * k)) % 2 ^ 32 := by
  induction k generalizing d pre s with
  | zero => simp only [ssse3Loop, Nat.mul_zero, List.take_zero, List.append_nil]; exact ⟨h1, h3⟩
  | succ k ih =>
    have hl : (d.take 16).length = 16 := by simp; omega
    obtain ⟨e1, e2, e3⟩ := ssse3Step_eq s (d.take 16) hl
    have := ih (d.drop 16) (pre ++ d.take 16) (ssse3Step s (d.take 16)) (by simp; omega)
      (by rw [e1, bsum_append]; unfold add32 at h1; omega)
      (by rw [e2, bsum_append]; unfold add32 at h2; omega)
      (by rw [e3, wsum_append, hl]; unfold add32 at h2 h3; omega)
    rw [List.append_assoc, take_take_drop, show 16 + 16 * k = 16 * (k + 1) by omega] at this
    exact this

/-- The SSSE3 block routine leaves out the contribution of the incoming `s1`. -/
theorem ssse3Block_eq (d : List UInt8) (a b : Nat) (h16 : d.length % 16 = 0) (hl : d.length ≤ 5552)
    (ha : a < 65521) (hb : b < 65521) : ssse3Block d a b = .ok (a + bsum d, b + wsum d) := by
  obtain ⟨h1, h2⟩ := chunk_bound d a b (by omega) (by omega) hl
  have h := ssse3Loop_eq (d.length / 16) d [] {} (by omega) rfl rfl rfl
  rw [show 16 * (d.length / 16) = d.length by omega, List.nil_append, List.take_length] at h
  unfold ssse3Block
  simp only
  rw [h.1, h.2, Nat.mod_eq_of_lt (show bsum d < 2 ^ 32 by omega),
    Nat.mod_eq_of_lt (show wsum d < 2 ^ 32 by omega)]
  unfold addU32
  rw [if_pos (by omega), ok_bind, if_pos (by omega), ok_bind]
  rfl

theorem adlerSsse3_short (d : List UInt8) (h : d.length < 16) : adlerSsse3 d = .ok (Spec.adler32 d) := by
  obtain ⟨c1, c2⟩ := chunk_bound d 1 0 (by decide) (by decide) (by omega)
  unfold adlerSsse3 blockAdler
  rw [blockLoop, if_neg (by omega), ok_bind]
  simp only
  rw [blockTail, if_neg (by omega)]
  show (do let (s1, s2) ← adlerChunk d 1 0; _) = _
  rw [adlerChunk_ok _ _ _ c1 c2, ok_bind]
  show Except.ok _ = _
  rw [combine _ _ (by have := Nat.mod_lt (1 + bsum d) (show 0 < 65521 by decide); omega)]
  unfold Spec.adler32
  rw [spec_fold d _ _ (by decide) (by decide)]

/-- For 16 to 5551 bytes the SSSE3 result has `16 * ⌊len/16⌋` missing from `s2`. -/
theorem adlerSsse3_value (d : List UInt8) (h16 : 16 ≤ d.length) (h : d.length < 5552) :
    adlerSsse3 d = .ok ((d.length - d.length / 16 * 16 + wsum d) % 65521 * 65536 + (1 + bsum d) % 65521) := by
  unfold adlerSsse3 blockAdler
  rw [blockLoop, if_neg (by omega), ok_bind]
  simp only
  rw [blockTail, if_pos (by omega)]
  generalize hn : d.length / 16 * 16 = n
  have hl : (d.take n).length = n := by simp; omega
  rw [ssse3Block_eq _ _ _ (by omega) (by omega) (by decide) (by decide), ok_bind]
  show (do let (s1, s2) ← adlerChunk _ _ _; _) = _
  have hdl : (d.drop n).length = d.length - n := by simp
  obtain ⟨c1, c2⟩ := chunk_bound (d.drop n) ((1 + bsum (d.take n)) % 65521)
    ((0 + wsum (d.take n)) % 65521) (by omega) (by omega) (by omega)
  rw [adlerChunk_ok _ _ _ c1 c2, ok_bind]
  show Except.ok _ = _
  have e1 := bsum_append (d.take n) (d.drop n)
  have e2 := wsum_append (d.take n) (d.drop n)
  rw [List.take_append_drop] at e1 e2
  rw [combine _ _ (by omega), e1, e2, hdl]
  have hmul : (d.length - n) * ((1 + bsum (d.take n)) % 65521) % 65521 =
      (d.length - n) * (1 + bsum (d.take n)) % 65521 := Nat.mul_mod_mod ..
  rw [Nat.mul_add, Nat.mul_one] at hmul
  have h1 : ((1 + bsum (d.take n)) % 65521 + bsum (d.drop n)) % 65521 =
      (1 + (bsum (d.take n) + bsum (d.drop n))) % 65521 := by omega
  have h2 : ((0 + wsum (d.take n)) % 65521 + (d.length - n) * ((1 + bsum (d.take n)) % 65521)
      + wsum (d.drop n)) % 65521 =
      (d.length - n + (wsum (d.take n) + (d.length - n) * bsum (d.take n) + wsum (d.drop n))) % 65521 := by
    generalize (d.length - n) * ((1 + bsum (d.take n)) % 65521) = p at *
    generalize (d.length - n) * bsum (d.take n) = q at *
    omega
  rw [h1, h2]

/-! ## AVX2 -/

theorem sums32 (v : List UInt8) (h : v.length = 32) :
    sad v 0 + sad v 1 + sad v 2 + sad v 3 = bsum v ∧
    ((madd 32 v 0 + madd 32 v 8) + (madd 32 v 2 + madd 32 v 10) + (madd 32 v 4 + madd 32 v 12)
      + (madd 32 v 6 + madd 32 v 14)) +
    ((madd 32 v 16 + madd 32 v 24) + (madd 32 v 18 + madd 32 v 26) + (madd 32 v 20 + madd 32 v 28)
      + (madd 32 v 22 + madd 32 v 30)) = wsum v := by
  match v, h with
  | [b0, b1, b2, b3, b4, b5, b6, b7, b8, b9, b10, b11, b12, b13, b14, b15, b16, b17, b18, b19, b20,
      b21, b22, b23, b24, b25, b26, b27, b28, b29, b30, b31], _ =>
    simp only [sad, madd, g, wsum, bsum, List.getD, Nat.mul_zero, Nat.mul_one,
      Nat.zero_add, Nat.reduceAdd, Nat.reduceMul, Nat.add_zero, List.getElem?_cons_zero,
      List.getElem?_cons_succ, Option.getD_some, Nat.reduceSub, List.length_cons, List.length_nil]
    constructor <;> omega

theorem avx2Step_eq (s : Nat × Nat) (v : List UInt8) (h : v.length = 32) :
    avx2Step s v = ((s.1 + bsum v) % 2 ^ 32, (s.2 + 32 * s.1 + wsum v) % 2 ^ 32) := by
  obtain ⟨h1, h2⟩ := sums32 v h
  simp only [avx2Step, add32]
  rw [h1]
  congr 1
  simp only [Nat.mul_zero, Nat.mul_one, Nat.zero_add, Nat.reduceAdd, Nat.reduceMul, Nat.add_zero]
  omega

/-- Loop state `(s1, s2), processed` after the bytes `pre` of a block started at `(a, b)`. -/
def st (a b : Nat) (pre : List UInt8) : (Nat × Nat) × Nat :=
  ((a + bsum pre, (b + pre.length * a + wsum pre) % 2 ^ 32), pre.length)

theorem st_nil (a b : Nat) (hb : b < 65521) : st a b [] = ((a, b), 0) := by
  simp only [st, bsum, wsum, List.length_nil, Nat.zero_mul, Nat.add_zero]
  rw [Nat.mod_eq_of_lt (by omega)]

theorem avx2Step_st (a b : Nat) (pre v : List UInt8) (ha : a < 65521) (h : v.length = 32)
    (hp : pre.length ≤ 5552) :
    avx2Step (st a b pre).1 v = (st a b (pre ++ v)).1 := by
  have h1 := bsum_le pre
  have h2 := bsum_le v
  rw [avx2Step_eq _ _ h]
  simp only [st, bsum_append, wsum_append, List.length_append, h, Nat.add_mul]
  congr 1 <;> omega

theorem avx2Loop_add (k m : Nat) (d : List UInt8) (s : (Nat × Nat) × Nat) :
    avx2Loop (k + m) d s = avx2Loop m (d.drop (32 * k)) (avx2Loop k d s) := by
  induction k generalizing d s with
  | zero => simp [avx2Loop]
  | succ k ih =>
    rw [show k + 1 + m = (k + m) + 1 by omega, avx2Loop, ih, List.drop_drop,
      show 32 + 32 * k = 32 * (k + 1) by omega]
    rfl

theorem avx2Loop_st (k : Nat) (d pre : List UInt8) (a b : Nat) (ha : a < 65521)
    (hk : 32 * k ≤ d.length) (hp : pre.length + 32 * k < 5552) :
    avx2Loop k d (st a b pre) = st a b (pre ++ d.take (32 * k)) := by
  induction k generalizing d pre with
  | zero => simp [avx2Loop]
  | succ k ih =>
    have hl : (d.take 32).length = 32 := by simp; omega
    rw [avx2Loop, avx2Step_st _ _ _ _ ha hl (by omega)]
    have hr : avx2Reduce (st a b (pre ++ d.take 32)).1 ((st a b pre).2 + 32) = st a b (pre ++ d.take 32) := by
      unfold avx2Reduce
      rw [if_neg (by simp only [st]; omega)]
      simp only [st, List.length_append, hl]
    rw [hr, ih _ _ (by simp; omega) (by rw [List.length_append, hl]; omega), List.append_assoc,
      take_take_drop, show 32 + 32 * k = 32 * (k + 1) by omega]

/-- One full block of 174 chunks: `s2` is reduced modulo 2^32 before 65521. -/
theorem avx2Loop_block (d : List UInt8) (a b : Nat) (ha : a < 65521) (hb : b < 65521)
    (hd : 5568 ≤ d.length) :
    avx2Loop 174 d ((a, b), 0) = (((a + bsum (d.take 5568)) % 65521,
      (b + 5568 * a + wsum (d.take 5568)) % 2 ^ 32 % 65521), 0) := by
  rw [← st_nil a b hb, show 174 = 173 + 1 from rfl, avx2Loop_add, avx2Loop_st _ _ _ _ _ ha (by omega) (by decide)]
  have hl : ((d.drop (32 * 173)).take 32).length = 32 := by simp; omega
  have hl2 : (d.take (32 * 173)).length = 32 * 173 := by simp; omega
  have hl3 : (d.take 5568).length = 5568 := by simp; omega
  rw [avx2Loop, avx2Step_st _ _ _ _ ha hl (by simp; omega), List.nil_append, take_take_drop]
  rw [avx2Reduce, if_pos (by simp only [st, hl2]; decide)]
  simp only [avx2Loop, st, hl3]

theorem avx2Rem_ok (bs pre : List UInt8) (a b : Nat) (ha : a < 65521) (hb : b < 65521)
    (hp : pre.length < 5552) :
    ((avx2Rem bs (st a b pre)).1.1 % 65521, (avx2Rem bs (st a b pre)).1.2 % 65521) =
      (pre ++ bs).foldl adlerStep (a, b) := by
  induction bs generalizing pre a b with
  | nil =>
    obtain ⟨h1, h2⟩ := chunk_bound pre a b (by omega) (by omega) (by omega)
    rw [List.append_nil, spec_fold _ _ _ ha hb]
    simp only [avx2Rem, st]
    rw [Nat.mod_eq_of_lt h2]
  | cons x bs ih =>
    have hl : (pre ++ [x]).length = pre.length + 1 := by simp
    obtain ⟨h1, h2⟩ := chunk_bound (pre ++ [x]) a b (by omega) (by omega) (by omega)
    have e1 : add32 (st a b pre).1.1 x.toNat = a + bsum (pre ++ [x]) := by
      rw [bsum_append] at h1 ⊢
      simp only [bsum, Nat.add_zero] at h1 ⊢
      simp only [st, add32]
      rw [Nat.mod_eq_of_lt (by omega)]; omega
    have e2 : add32 (st a b pre).1.2 (a + bsum (pre ++ [x])) = b + (pre ++ [x]).length * a + wsum (pre ++ [x]) := by
      rw [bsum_append]
      rw [wsum_append, hl, Nat.add_mul] at h2 ⊢
      simp only [bsum, wsum, Nat.add_zero, List.length_cons, List.length_nil, Nat.zero_add, Nat.one_mul] at h2 ⊢
      simp only [st, add32]
      rw [Nat.mod_eq_of_lt (show b + pre.length * a + wsum pre < 2 ^ 32 by omega), Nat.mod_eq_of_lt (by omega)]
      omega
    rw [avx2Rem]
    rw [e1, e2, show pre ++ x :: bs = (pre ++ [x]) ++ bs by simp, List.foldl_append]
    by_cases hq : pre.length + 1 ≥ 5552
    · have hr : avx2Reduce (a + bsum (pre ++ [x]), b + (pre ++ [x]).length * a + wsum (pre ++ [x]))
          ((st a b pre).2 + 1) = st ((a + bsum (pre ++ [x])) % 65521)
            ((b + (pre ++ [x]).length * a + wsum (pre ++ [x])) % 65521) [] := by
        rw [avx2Reduce, if_pos (by simpa only [st] using hq), st_nil _ _ (Nat.mod_lt _ (by decide))]
      rw [hr, ih [] _ _ (Nat.mod_lt _ (by decide)) (Nat.mod_lt _ (by decide)) (by decide), List.nil_append,
        spec_fold (pre ++ [x]) a b ha hb]
    · have hr : avx2Reduce (a + bsum (pre ++ [x]), b + (pre ++ [x]).length * a + wsum (pre ++ [x]))
          ((st a b pre).2 + 1) = st a b (pre ++ [x]) := by
        rw [avx2Reduce, if_neg (by simpa only [st] using hq)]
        simp only [st, hl]
        rw [hl] at h2
        rw [Nat.mod_eq_of_lt h2]
      rw [hr, ih (pre ++ [x]) a b ha hb (by omega), List.foldl_append]

/-- The sums `adler32_avx2` ends with when started at `(a, b)`. -/
def avxFinal (d : List UInt8) (a b : Nat) : Nat × Nat :=
  let s := (avx2Rem (d.drop (32 * (d.length / 32))) (avx2Loop (d.length / 32) d ((a, b), 0))).1
  (s.1 % 65521, s.2 % 65521)

theorem avxFinal_short (d : List UInt8) (a b : Nat) (ha : a < 65521) (hb : b < 65521)
    (h : d.length < 5568) : avxFinal d a b = d.foldl adlerStep (a, b) := by
  have hk : 32 * (d.length / 32) < 5552 := by omega
  unfold avxFinal
  simp only
  rw [← st_nil a b hb, avx2Loop_st _ _ _ _ _ ha (by omega) (by simpa using hk), List.nil_append,
    avx2Rem_ok _ _ _ _ ha hb (by simp; omega), List.take_append_drop]

theorem avxFinal_block (d : List UInt8) (a b : Nat) (ha : a < 65521) (hb : b < 65521)
    (h : 5568 ≤ d.length) : avxFinal d a b = avxFinal (d.drop 5568) ((a + bsum (d.take 5568)) % 65521)
      ((b + 5568 * a + wsum (d.take 5568)) % 2 ^ 32 % 65521) := by
  unfold avxFinal
  have e : d.length / 32 = 174 + (d.drop 5568).length / 32 := by simp; omega
  rw [e, avx2Loop_add, avx2Loop_block d a b ha hb h, List.drop_drop,
    show 32 * 174 = 5568 from rfl, show 5568 + 32 * ((d.drop 5568).length / 32) = 32 * (174 + (d.drop 5568).length / 32) by omega]

/-- Without overflow a full block is right. -/
theorem avxFinal_block_ok (d : List UInt8) (a b : Nat) (ha : a < 65521) (hb : b < 65521)
    (h : 5568 ≤ d.length) (hov : b + 5568 * a + wsum (d.take 5568) < 2 ^ 32) :
    avxFinal d a b = avxFinal (d.drop 5568) ((d.take 5568).foldl adlerStep (a, b)).1
      ((d.take 5568).foldl adlerStep (a, b)).2 := by
  have hl : (d.take 5568).length = 5568 := by simp; omega
  rw [avxFinal_block d a b ha hb h, Nat.mod_eq_of_lt hov, spec_fold _ _ _ ha hb, hl]

theorem adlerAvx2_eq (d : List UInt8) : adlerAvx2 d = (avxFinal d 1 0).2 * 65536 + (avxFinal d 1 0).1 := by
  unfold adlerAvx2 avxFinal
  simp only
  rw [combine _ _ (by have := Nat.mod_lt (avx2Rem (d.drop (32 * (d.length / 32)))
    (avx2Loop (d.length / 32) d ((1, 0), 0))).1.1 (show 0 < 65521 by decide); omega)]

/-- Weighted sum bound for bytes at most `m`. -/
theorem wsum_le_of (l : List UInt8) (m : Nat) (h : ∀ b ∈ l, b.toNat ≤ m) :
    2 * wsum l ≤ m * (l.length * (l.length + 1)) := by
  induction l with
  | nil => simp [wsum]
  | cons b l ih =>
    have h1 : (l.length + 1) * b.toNat ≤ (l.length + 1) * m := Nat.mul_le_mul_left _ (h b (by simp))
    have := ih (fun b hb => h b (by simp [hb]))
    simp only [wsum, List.length_cons, Nat.mul_add, Nat.add_mul, Nat.mul_one, Nat.one_mul] at *
    rw [Nat.mul_comm l.length m] at h1
    omega

theorem avxFinal_dark (n : Nat) (d : List UInt8) (hn : d.length ≤ n) (a b : Nat) (ha : a < 65521)
    (hb : b < 65521) (h : ∀ x ∈ d, x.toNat ≤ 253) : avxFinal d a b = d.foldl adlerStep (a, b) := by
  induction n using Nat.strongRecOn generalizing d a b with
  | _ n ih =>
    by_cases hl : d.length < 5568
    · exact avxFinal_short d a b ha hb hl
    · have hw := wsum_le_of (d.take 5568) 253 (fun x hx => h x (List.mem_of_mem_take hx))
      have hlen : (d.take 5568).length = 5568 := by simp; omega
      rw [hlen] at hw
      obtain ⟨h1, h2⟩ := adlerStep_lt (d.take 5568) a b ha hb
      rw [avxFinal_block_ok d a b ha hb (by omega) (by omega),
        ih (n - 1) (by omega) _ (by simp; omega) _ _ h1 h2 (fun x hx => h x (List.mem_of_mem_drop hx)),
        ← List.foldl_append, List.take_append_drop]

theorem avxFinal_medium (d : List UInt8) (h : d.length < 11136) :
    avxFinal d 1 0 = d.foldl adlerStep (1, 0) := by
  by_cases hl : d.length < 5568
  · exact avxFinal_short d 1 0 (by decide) (by decide) hl
  · have hw := wsum_le (d.take 5568)
    have hlen : (d.take 5568).length = 5568 := by simp; omega
    rw [hlen] at hw
    obtain ⟨h1, h2⟩ := adlerStep_lt (d.take 5568) 1 0 (by decide) (by decide)
    rw [avxFinal_block_ok d 1 0 (by decide) (by decide) (by omega) (by omega),
      avxFinal_short _ _ _ h1 h2 (by simp; omega), ← List.foldl_append, List.take_append_drop]

/-- Input on which `s2` overflows 32 bits in the second block. -/
def avxWitness : List UInt8 :=
  (List.replicate 256 255 ++ [239] ++ List.replicate 5311 0) ++ List.replicate 5568 255

theorem avxWitness_bad : adlerAvx2 avxWitness ≠ Spec.adler32 avxWitness := by
  have hA : (List.replicate 256 (255 : UInt8) ++ [239] ++ List.replicate 5311 0).length = 5568 := by
    rw [List.length_append, List.length_append, List.length_replicate, List.length_replicate]; rfl
  have hl : avxWitness.length = 11136 := by
    unfold avxWitness; rw [List.length_append, hA, List.length_replicate]
  have ht : avxWitness.take 5568 = List.replicate 256 255 ++ [239] ++ List.replicate 5311 0 := by
    unfold avxWitness; rw [List.take_append_of_le_length (by omega), List.take_of_length_le (by omega)]
  have hd : avxWitness.drop 5568 = List.replicate 5568 255 := by
    unfold avxWitness; rw [List.drop_append_of_le_length (by omega), List.drop_of_length_le (by omega), List.nil_append]
  have b255 : (255 : UInt8).toNat = 255 := rfl
  have w1 := wsum_replicate 256 255
  have w2 := wsum_replicate 5311 0
  have w3 := wsum_replicate 5568 255
  rw [b255] at w1 w3
  have hs : bsum (List.replicate 256 (255 : UInt8) ++ [239] ++ List.replicate 5311 0) = 65519 := by
    rw [bsum_append, bsum_append, bsum_replicate, bsum_replicate]; rfl
  have hw : wsum (List.replicate 256 (255 : UInt8) ++ [239] ++ List.replicate 5311 0) =
      wsum (List.replicate 256 (255 : UInt8)) + 65280 + 239 + 5311 * (65280 + 239) := by
    rw [wsum_append, wsum_append, bsum_append, bsum_replicate]
    simp only [List.length_replicate, bsum, wsum, List.length_cons, List.length_nil, b255,
      show (239 : UInt8).toNat = 239 from rfl, show wsum (List.replicate 5311 0) = 0 by
        have : (0 : UInt8).toNat = 0 := rfl
        rw [this] at w2; omega]
  have v1 : wsum (List.replicate 256 (255 : UInt8)) = 8388480 := by omega
  have v3 : wsum (List.replicate 5568 (255 : UInt8)) = 3953544480 := by omega
  have e1 := avxFinal_block avxWitness 1 0 (by decide) (by decide) (by omega)
  rw [ht, hd, hs, hw, v1] at e1
  have e2 := avxFinal_block (List.replicate 5568 255) 65520 62257 (by decide) (by decide)
    (by rw [List.length_replicate]; omega)
  rw [List.take_of_length_le (by rw [List.length_replicate]; omega),
    List.drop_of_length_le (by rw [List.length_replicate]; omega), bsum_replicate, b255, v3,
    avxFinal_short [] _ _ (Nat.mod_lt _ (by decide)) (Nat.mod_lt _ (by decide)) (by decide),
    List.foldl_nil] at e2
  have hg := congrArg (List.foldl adlerStep (1, 0)) (List.take_append_drop 5568 avxWitness)
  rw [ht, hd, List.foldl_append, spec_fold _ 1 0 (by decide) (by decide),
    spec_fold _ _ _ (Nat.mod_lt _ (by decide)) (Nat.mod_lt _ (by decide)), hs, hw, v1,
    bsum_replicate, b255, hA, List.length_replicate, v3] at hg
  rw [adlerAvx2_eq, e1, Spec.adler32, ← hg, show (1 + 65519) % 65521 = 65520 from rfl,
    show (0 + 5568 * 1 + (8388480 + 65280 + 239 + 5311 * (65280 + 239))) % 2 ^ 32 % 65521 = 62257 from rfl, e2]
  decide

end Pixo.Simd
