import Verif.Spec.Checksum
import Verif.Model.Adler32
import Verif.Proof.Safe
/-
Adler-32: closed form of the two sums and absence of overflow.
-/
namespace Pixo
open Spec

/-- Sum of the bytes. -/
def bsum : List UInt8 → Nat
  | [] => 0
  | b :: bs => b.toNat + bsum bs

/-- Sum weighted by the number of bytes from here to the end. -/
def wsum : List UInt8 → Nat
  | [] => 0
  | b :: bs => (bs.length + 1) * b.toNat + wsum bs

theorem bsum_append (a b : List UInt8) : bsum (a ++ b) = bsum a + bsum b := by
  induction a with
  | nil => simp [bsum]
  | cons x a ih => simp [bsum, ih]; omega

theorem wsum_append (a b : List UInt8) : wsum (a ++ b) = wsum a + b.length * bsum a + wsum b := by
  induction a with
  | nil => simp [wsum, bsum]
  | cons x a ih =>
    simp only [List.cons_append, wsum, bsum, ih, List.length_append, Nat.add_mul, Nat.mul_add]
    omega

theorem bsum_le (l : List UInt8) : bsum l ≤ 255 * l.length := by
  induction l with
  | nil => simp [bsum]
  | cons b l ih =>
    have := UInt8.toNat_lt b
    simp only [bsum, List.length_cons]; omega

theorem wsum_le (l : List UInt8) : 2 * wsum l ≤ 255 * (l.length * (l.length + 1)) := by
  induction l with
  | nil => simp [wsum]
  | cons b l ih =>
    have h1 : (l.length + 1) * b.toNat ≤ (l.length + 1) * 255 :=
      Nat.mul_le_mul_left _ (by have := UInt8.toNat_lt b; omega)
    simp only [wsum, List.length_cons, Nat.mul_add, Nat.add_mul] at *
    omega

theorem wsum_replicate (n : Nat) (b : UInt8) : 2 * wsum (List.replicate n b) = n * (n + 1) * b.toNat := by
  induction n with
  | zero => simp [wsum]
  | succ n ih =>
    simp only [List.replicate_succ, wsum, List.length_replicate, Nat.mul_add, Nat.add_mul, Nat.mul_one, Nat.one_mul] at *
    omega

theorem bsum_replicate (n : Nat) (b : UInt8) : bsum (List.replicate n b) = n * b.toNat := by
  induction n with
  | zero => simp [bsum]
  | succ n ih => simp only [List.replicate_succ, bsum, ih, Nat.add_mul]; omega

/-- Closed form of the specification. -/
theorem spec_fold (data : List UInt8) (a b : Nat) (ha : a < 65521) (hb : b < 65521) :
    data.foldl adlerStep (a, b) =
      ((a + bsum data) % 65521, (b + data.length * a + wsum data) % 65521) := by
  induction data generalizing a b with
  | nil => simp [bsum, wsum, Nat.mod_eq_of_lt ha, Nat.mod_eq_of_lt hb]
  | cons x data ih =>
    rw [List.foldl_cons]
    unfold adlerStep at *
    simp only
    rw [ih _ _ (Nat.mod_lt _ (by decide)) (Nat.mod_lt _ (by decide))]
    simp only [bsum, wsum, List.length_cons]
    have e1 : ((a + x.toNat) % 65521 + bsum data) % 65521 = (a + (x.toNat + bsum data)) % 65521 := by
      omega
    rw [e1]
    congr 1
    have e2 : data.length * ((a + x.toNat) % 65521) % 65521 = data.length * (a + x.toNat) % 65521 :=
      Nat.mul_mod_mod ..
    have e3 : (data.length + 1) * a = data.length * a + a := Nat.succ_mul ..
    have e4 : (data.length + 1) * x.toNat = data.length * x.toNat + x.toNat := Nat.succ_mul ..
    rw [Nat.mul_add] at e2
    generalize data.length * ((a + x.toNat) % 65521) = p at *
    generalize data.length * a = q at *
    generalize data.length * x.toNat = r at *
    omega

/-- Closed form of one chunk when the final sums fit in 32 bits. -/
theorem adlerChunk_ok (bs : List UInt8) (a b : Nat) (ha : a + bsum bs < 2 ^ 32)
    (hb : b + bs.length * a + wsum bs < 2 ^ 32) :
    adlerChunk bs a b = .ok (a + bsum bs, b + bs.length * a + wsum bs) := by
  induction bs generalizing a b with
  | nil => simp [adlerChunk, bsum, wsum]
  | cons x bs ih =>
    simp only [bsum, wsum, List.length_cons, Nat.add_mul] at *
    have h1 : addU32 a x.toNat = .ok (a + x.toNat) := by
      unfold addU32; rw [if_pos (by omega)]
    have h2 : addU32 b (a + x.toNat) = .ok (b + (a + x.toNat)) := by
      unfold addU32; rw [if_pos (by omega)]
    rw [adlerChunk, h1, ok_bind, h2, ok_bind, ih (a + x.toNat) (b + (a + x.toNat)) (by omega)
      (by rw [Nat.mul_add]; omega)]
    rw [Nat.mul_add]
    congr 1; congr 1 <;> omega

/-- The bound behind `NMAX`. -/
theorem chunk_bound (bs : List UInt8) (a b : Nat) (ha : a ≤ 65520) (hb : b ≤ 65520)
    (hl : bs.length ≤ 5552) : a + bsum bs < 2 ^ 32 ∧ b + bs.length * a + wsum bs < 2 ^ 32 := by
  have h1 := bsum_le bs
  have h2 := wsum_le bs
  have h3 : bs.length * a ≤ 5552 * 65520 := Nat.mul_le_mul hl ha
  have h4 : bs.length * (bs.length + 1) ≤ 5552 * 5553 := Nat.mul_le_mul hl (by omega)
  omega

theorem adlerLoop_ok (fuel : Nat) (data : List UInt8) (a b : Nat) (hf : data.length < fuel)
    (ha : a < 65521) (hb : b < 65521) :
    adlerLoop fuel data a b = .ok (data.foldl adlerStep (a, b)) := by
  induction fuel generalizing data a b with
  | zero => omega
  | succ fuel ih =>
    rw [adlerLoop]
    by_cases he : data.isEmpty
    · rw [if_pos he]; simp at he; subst he; rfl
    · rw [if_neg he]
      have hne : 0 < data.length := by
        cases data with
        | nil => simp at he
        | cons => simp
      obtain ⟨h1, h2⟩ := chunk_bound (data.take 5552) a b (by omega) (by omega) (by simp; omega)
      rw [adlerChunk_ok _ _ _ h1 h2, ok_bind]
      simp only
      rw [ih _ _ _ (by simp; omega) (Nat.mod_lt _ (by decide)) (Nat.mod_lt _ (by decide)),
        ← spec_fold _ _ _ ha hb, ← List.foldl_append, List.take_append_drop]

theorem adler32_ok (data : List UInt8) : adler32 data = .ok (Spec.adler32 data) := by
  have h := adlerLoop_ok (data.length + 1) data 1 0 (by omega) (by decide) (by decide)
  unfold adler32
  rw [h, ok_bind]
  unfold Spec.adler32
  rw [spec_fold _ _ _ (by decide) (by decide)]
  simp only
  show Except.ok _ = _
  congr 1
  rw [← Nat.shiftLeft_add_eq_or_of_lt (by have := Nat.mod_lt (1 + bsum data) (show 0 < 65521 by decide); omega),
    Nat.shiftLeft_eq]

end Pixo
