import Verif.Model.YcbcrRow
import Verif.Proof.Idct
import Verif.Proof.Safe
/-
The AVX2 colour conversion of a row of pixels.
-/
namespace Pixo.YcbcrRow
open Pixo Pixo.Idct

/-- The value of pixel `i` for three factors. -/
def val (mr mg mb : Int) (rgb : List UInt8) (i : Nat) : Int :=
  (mr * at' rgb (i * 3) + mg * at' rgb (i * 3 + 1) + (mb * at' rgb (i * 3 + 2) + 32768)) / 2 ^ 16

theorem at_bound (rgb : List UInt8) (i : Nat) : 0 ≤ at' rgb i ∧ at' rgb i ≤ 255 := by
  unfold at'
  have := (rgb.getD i 0).toNat_lt
  omega

theorem product_bound {m a : Int} (hm : -40000 ≤ m ∧ m ≤ 40000) (ha : 0 ≤ a ∧ a ≤ 255) : -10200000 ≤ m * a ∧ m * a ≤ 10200000 := by
  have h1 := Int.mul_le_mul_of_nonneg_right hm.1 ha.1
  have h2 := Int.mul_le_mul_of_nonneg_right hm.2 ha.1
  omega

theorem combine_eq {mr mg mb : Int} (hr : -40000 ≤ mr ∧ mr ≤ 40000) (hg : -40000 ≤ mg ∧ mg ≤ 40000)
    (hb : -40000 ≤ mb ∧ mb ≤ 40000) (rgb : List UInt8) (i : Nat) :
    combine mr mg mb ((List.range 8).map (fun j => at' rgb ((i + j) * 3))) ((List.range 8).map (fun j => at' rgb ((i + j) * 3 + 1)))
      ((List.range 8).map (fun j => at' rgb ((i + j) * 3 + 2))) = (List.range 8).map (fun j => val mr mg mb rgb (i + j)) := by
  have e : ∀ f g h : Nat → Int, combine mr mg mb ((List.range 8).map f) ((List.range 8).map g) ((List.range 8).map h) =
      (List.range 8).map (fun j => wrap32 (wrap32 (wrap32 (mr * f j) + wrap32 (mg * g j)) +
        wrap32 (wrap32 (mb * h j) + 32768)) / 2 ^ 16) := fun f g h => rfl
  rw [e]
  refine List.map_congr_left fun j _ => ?_
  unfold val
  have h1 := product_bound hr (at_bound rgb ((i + j) * 3))
  have h2 := product_bound hg (at_bound rgb ((i + j) * 3 + 1))
  have h3 := product_bound hb (at_bound rgb ((i + j) * 3 + 2))
  generalize mr * _ = a at *
  generalize mg * _ = b at *
  generalize mb * _ = c at *
  rw [wrap32_id (v := a) (by omega), wrap32_id (v := b) (by omega), wrap32_id (v := c) (by omega), wrap32_id (v := a + b) (by omega),
    wrap32_id (v := c + 32768) (by omega), wrap32_id (by omega)]

/-- The first `i` values written, the rest as at first. -/
def Upto (o0 : List Int) (v : Nat → Int) (i : Nat) (o : Out) : Prop := o.past = 0 ∧ o.vals = (List.range i).map v ++ o0.drop i

theorem store8_upto {o0 : List Int} {v : Nat → Int} {i : Nat} {o : Out} (h : Upto o0 v i o) (hl : i + 8 ≤ o0.length) :
    ∃ o', store8 o i ((List.range 8).map (fun j => v (i + j))) = .ok o' ∧ Upto o0 v (i + 8) o' := by
  obtain ⟨hp, hv⟩ := h
  have hlen : o.vals.length = o0.length := by rw [hv]; simp; omega
  unfold store8
  rw [if_neg (by omega)]
  refine ⟨_, rfl, ?_, ?_⟩
  · show o.past + (i + 8 - o.vals.length) = 0
    omega
  · show o.vals.take i ++ ((List.range 8).map (fun j => v (i + j))).take (o.vals.length - i) ++ o.vals.drop (i + 8) = _
    have e1 : o.vals.take i = (List.range i).map v := by
      rw [hv, List.take_append_of_le_length (by simp), List.take_of_length_le (by simp)]
    have e2 : o.vals.drop (i + 8) = o0.drop (i + 8) := by
      rw [hv, List.drop_append, List.drop_of_length_le (by simp)]
      simp [List.drop_drop, Nat.add_comm]
    rw [e1, e2, List.take_of_length_le (by simp; omega), List.range_add, List.map_append, List.map_map]
    rfl

theorem store1_upto {o0 : List Int} {v : Nat → Int} {i : Nat} {o : Out} (h : Upto o0 v i o) (hl : i < o0.length) :
    ∃ o', store1 o i (v i) = .ok o' ∧ Upto o0 v (i + 1) o' := by
  obtain ⟨hp, hv⟩ := h
  have hlen : o.vals.length = o0.length := by rw [hv]; simp; omega
  unfold store1
  rw [if_pos (by omega)]
  refine ⟨_, rfl, hp, ?_⟩
  show o.vals.set i (v i) = _
  rw [hv, List.set_append, if_neg (by simp), List.range_succ, List.map_append, List.append_assoc]
  congr 1
  rw [List.length_map, List.length_range, Nat.sub_self, List.drop_eq_getElem_cons hl]
  rfl

/-- The outputs after `i` pixels. -/
def UptoAll (rgb : List UInt8) (y cb cr : List Int) (i : Nat) (o : Outs) : Prop :=
  Upto y (fun j => val 19595 38470 7471 rgb j - 128) i o.y ∧ Upto cb (val (-11056) (-21712) 32768 rgb) i o.cb ∧
    Upto cr (val 32768 (-27440) (-5328) rgb) i o.cr

theorem step8_upto {rgb : List UInt8} {y cb cr : List Int} {i : Nat} {o : Outs} (h : UptoAll rgb y cb cr i o)
    (hy : i + 8 ≤ y.length) (hcb : i + 8 ≤ cb.length) (hcr : i + 8 ≤ cr.length) :
    ∃ o', step8 rgb i o = .ok o' ∧ UptoAll rgb y cb cr (i + 8) o' := by
  obtain ⟨a, ha, ha'⟩ := store8_upto h.1 hy
  obtain ⟨b, hb, hb'⟩ := store8_upto h.2.1 hcb
  obtain ⟨c, hc, hc'⟩ := store8_upto h.2.2 hcr
  refine ⟨⟨a, b, c⟩, ?_, ha', hb', hc'⟩
  unfold step8
  simp only [combine_eq (show (-40000 : Int) ≤ 19595 ∧ (19595 : Int) ≤ 40000 by omega) (show (-40000 : Int) ≤ 38470 ∧ (38470 : Int) ≤ 40000 by omega)
    (show (-40000 : Int) ≤ 7471 ∧ (7471 : Int) ≤ 40000 by omega),
    combine_eq (show (-40000 : Int) ≤ -11056 ∧ (-11056 : Int) ≤ 40000 by omega) (show (-40000 : Int) ≤ -21712 ∧ (-21712 : Int) ≤ 40000 by omega)
    (show (-40000 : Int) ≤ 32768 ∧ (32768 : Int) ≤ 40000 by omega),
    combine_eq (show (-40000 : Int) ≤ 32768 ∧ (32768 : Int) ≤ 40000 by omega) (show (-40000 : Int) ≤ -27440 ∧ (-27440 : Int) ≤ 40000 by omega)
    (show (-40000 : Int) ≤ -5328 ∧ (-5328 : Int) ≤ 40000 by omega), List.map_map]
  have e : ((fun x => x - 128) ∘ fun j => val 19595 38470 7471 rgb (i + j)) = fun j => val 19595 38470 7471 rgb (i + j) - 128 := rfl
  rw [e, ha, ok_bind, hb, ok_bind, hc, ok_bind]
  rfl

theorem step1_upto {rgb : List UInt8} {y cb cr : List Int} {i : Nat} {o : Outs} (h : UptoAll rgb y cb cr i o)
    (hy : i < y.length) (hcb : i < cb.length) (hcr : i < cr.length) :
    ∃ o', step1 rgb i o = .ok o' ∧ UptoAll rgb y cb cr (i + 1) o' := by
  obtain ⟨a, ha, ha'⟩ := store1_upto h.1 hy
  obtain ⟨b, hb, hb'⟩ := store1_upto h.2.1 hcb
  obtain ⟨c, hc, hc'⟩ := store1_upto h.2.2 hcr
  refine ⟨⟨a, b, c⟩, ?_, ha', hb', hc'⟩
  have e1 : (19595 * at' rgb (i * 3) + 38470 * at' rgb (i * 3 + 1) + 7471 * at' rgb (i * 3 + 2) + 32768) / 2 ^ 16 - 128 =
      val 19595 38470 7471 rgb i - 128 := by unfold val; rw [← Int.add_assoc]
  have e2 : (-11056 * at' rgb (i * 3) - 21712 * at' rgb (i * 3 + 1) + 32768 * at' rgb (i * 3 + 2) + 32768) / 2 ^ 16 =
      val (-11056) (-21712) 32768 rgb i := by unfold val; congr 1; omega
  have e3 : (32768 * at' rgb (i * 3) - 27440 * at' rgb (i * 3 + 1) - 5328 * at' rgb (i * 3 + 2) + 32768) / 2 ^ 16 =
      val 32768 (-27440) (-5328) rgb i := by unfold val; congr 1; omega
  unfold step1
  simp only [e1, e2, e3]
  rw [ha, ok_bind, hb, ok_bind, hc, ok_bind]
  rfl

theorem loop8_upto {rgb : List UInt8} {y cb cr : List Int} (hy : rgb.length / 3 ≤ y.length) (hcb : rgb.length / 3 ≤ cb.length)
    (hcr : rgb.length / 3 ≤ cr.length) : ∀ (n i : Nat) (o : Outs), rgb.length / 3 - i ≤ n → i ≤ rgb.length / 3 →
    UptoAll rgb y cb cr i o →
    ∃ k o', loop8 rgb i o = .ok (k, o') ∧ k ≤ rgb.length / 3 ∧ UptoAll rgb y cb cr k o' := by
  intro n
  induction n with
  | zero =>
    intro i o hn hi h
    unfold loop8
    rw [if_neg (by omega)]
    exact ⟨i, o, rfl, hi, h⟩
  | succ n ih =>
    intro i o hn hi h
    unfold loop8
    split
    · rename_i hc
      obtain ⟨o', h1, h2⟩ := step8_upto h (by omega) (by omega) (by omega)
      rw [h1, ok_bind]
      exact ih (i + 8) o' (by omega) hc h2
    · exact ⟨i, o, rfl, hi, h⟩

theorem loop1_upto {rgb : List UInt8} {y cb cr : List Int} (hy : rgb.length / 3 ≤ y.length) (hcb : rgb.length / 3 ≤ cb.length)
    (hcr : rgb.length / 3 ≤ cr.length) : ∀ (n i : Nat) (o : Outs), rgb.length / 3 - i ≤ n → i ≤ rgb.length / 3 →
    UptoAll rgb y cb cr i o → ∃ o', loop1 rgb i o = .ok o' ∧ UptoAll rgb y cb cr (rgb.length / 3) o' := by
  intro n
  induction n with
  | zero =>
    intro i o hn hi h
    unfold loop1
    rw [if_neg (by omega)]
    have : i = rgb.length / 3 := by omega
    subst this
    exact ⟨o, rfl, h⟩
  | succ n ih =>
    intro i o hn hi h
    unfold loop1
    split
    · rename_i hc
      obtain ⟨o', h1, h2⟩ := step1_upto h (by omega) (by omega) (by omega)
      rw [h1, ok_bind]
      exact ih (i + 1) o' (by omega) (by omega) h2
    · have : i = rgb.length / 3 := by omega
      subst this
      exact ⟨o, rfl, h⟩

end Pixo.YcbcrRow

namespace Pixo.Props
open Pixo Pixo.YcbcrRow

/-- The colour of a pixel in millionths by ITU-T T.871 (clause 7) less the offsets: `Y - 128`, `Cb - 128`, `Cr - 128`. -/
def t871 (r g b : Int) : Int × Int × Int :=
  (299000 * r + 587000 * g + 114000 * b - 128000000, -168736 * r - 331264 * g + 500000 * b, 500000 * r - 418688 * g - 81312 * b)

/-- `v` is within 51/100 of `x` millionths. -/
def Near (v x : Int) : Prop := (1000000 * v - x).natAbs ≤ 510000

/-- C63 when there is room: if every output is at least as long as the row, nothing is written past an
end, every value written is within 51/100 of the one ITU-T T.871 asks for, whether the vector loop or the
scalar loop wrote it, and nothing else changes.

Missing for C63: the safety note of the function does not ask for room (`C63_violated`). -/
theorem C63_partial (rgb : List UInt8) (y cb cr : List Int) (hy : rgb.length / 3 ≤ y.length)
    (hcb : rgb.length / 3 ≤ cb.length) (hcr : rgb.length / 3 ≤ cr.length) :
    ∃ o, row rgb y cb cr = .ok o ∧ o.y.past = 0 ∧ o.cb.past = 0 ∧ o.cr.past = 0 ∧
      o.y.vals.length = y.length ∧ o.cb.vals.length = cb.length ∧ o.cr.vals.length = cr.length ∧
      (∀ i < rgb.length / 3,
        let c := t871 (rgb.getD (3 * i) 0).toNat (rgb.getD (3 * i + 1) 0).toNat (rgb.getD (3 * i + 2) 0).toNat
        Near (o.y.vals.getD i 0) c.1 ∧ Near (o.cb.vals.getD i 0) c.2.1 ∧ Near (o.cr.vals.getD i 0) c.2.2) ∧
      o.y.vals.drop (rgb.length / 3) = y.drop (rgb.length / 3) ∧ o.cb.vals.drop (rgb.length / 3) = cb.drop (rgb.length / 3) ∧
      o.cr.vals.drop (rgb.length / 3) = cr.drop (rgb.length / 3) := by
  obtain ⟨k, o1, h1, h2, h3⟩ := loop8_upto hy hcb hcr _ 0 ⟨⟨y, 0⟩, ⟨cb, 0⟩, ⟨cr, 0⟩⟩ (Nat.le_refl _) (Nat.zero_le _)
    ⟨⟨rfl, rfl⟩, ⟨rfl, rfl⟩, ⟨rfl, rfl⟩⟩
  obtain ⟨o, h4, h5⟩ := loop1_upto hy hcb hcr _ k o1 (Nat.le_refl _) h2 h3
  have hlen : ∀ (o0 : List Int) (v : Nat → Int) (n : Nat), n ≤ o0.length → ((List.range n).map v ++ o0.drop n).length = o0.length := by
    intro o0 v n h; simp; omega
  have hget : ∀ (o0 : List Int) (v : Nat → Int) (n i : Nat), i < n → ((List.range n).map v ++ o0.drop n).getD i 0 = v i := by
    intro o0 v n i h
    rw [List.getD_eq_getElem?_getD, List.getElem?_append_left (by simpa using h), List.getElem?_map, List.getElem?_range h]
    rfl
  have hdrop : ∀ (o0 : List Int) (v : Nat → Int) (n : Nat), ((List.range n).map v ++ o0.drop n).drop n = o0.drop n := by
    intro o0 v n
    rw [List.drop_append_of_le_length (by simp), List.drop_of_length_le (by simp), List.nil_append]
  obtain ⟨⟨p1, v1⟩, ⟨p2, v2⟩, ⟨p3, v3⟩⟩ := h5
  refine ⟨o, ?_, p1, p2, p3, ?_, ?_, ?_, fun i hi => ?_, ?_, ?_, ?_⟩
  · unfold row
    rw [h1, ok_bind]
    exact h4
  · rw [v1, hlen _ _ _ hy]
  · rw [v2, hlen _ _ _ hcb]
  · rw [v3, hlen _ _ _ hcr]
  · rw [v1, v2, v3, hget _ _ _ _ hi, hget _ _ _ _ hi, hget _ _ _ _ hi]
    unfold val at' Near t871
    rw [Nat.mul_comm i 3]
    have b1 := (rgb.getD (3 * i) 0).toNat_lt
    have b2 := (rgb.getD (3 * i + 1) 0).toNat_lt
    have b3 := (rgb.getD (3 * i + 2) 0).toNat_lt
    generalize (rgb.getD (3 * i) 0).toNat = r at *
    generalize (rgb.getD (3 * i + 1) 0).toNat = g at *
    generalize (rgb.getD (3 * i + 2) 0).toNat = b at *
    refine ⟨?_, ?_, ?_⟩ <;> simp only [] <;> omega
  · rw [v1, hdrop]
  · rw [v2, hdrop]
  · rw [v3, hdrop]

/-- The input `0, 9, 18, ..`. -/
def ramp (n : Nat) : List UInt8 := (List.range n).map (fun i => UInt8.ofNat (i * 9))

/-- Nine pixels: eight by the vector loop, one by the scalar loop. -/
example : row (ramp 27) (List.replicate 9 0) (List.replicate 9 0) (List.replicate 10 7) =
    .ok ⟨⟨[-121, -94, -67, -40, -13, 14, 41, 68, 95], 0⟩, ⟨[6, 6, 6, 6, 6, 6, 6, 6, 6], 0⟩,
      ⟨[-5, -5, -5, -5, -5, -5, -5, -5, -5, 7], 0⟩⟩ := by
  unfold row
  rw [loop8, if_pos (by decide), show step8 (ramp 27) 0 _ = .ok ⟨⟨[-121, -94, -67, -40, -13, 14, 41, 68, 0], 0⟩,
    ⟨[6, 6, 6, 6, 6, 6, 6, 6, 0], 0⟩, ⟨[-5, -5, -5, -5, -5, -5, -5, -5, 7, 7], 0⟩⟩ by decide +kernel, ok_bind, loop8, if_neg (by decide),
    ok_bind]
  show loop1 _ _ _ = _
  rw [loop1, if_pos (by decide), show step1 (ramp 27) _ _ = .ok ⟨⟨[-121, -94, -67, -40, -13, 14, 41, 68, 95], 0⟩,
    ⟨[6, 6, 6, 6, 6, 6, 6, 6, 6], 0⟩, ⟨[-5, -5, -5, -5, -5, -5, -5, -5, -5, 7], 0⟩⟩ by decide +kernel, ok_bind, loop1,
    if_neg (by decide)]

/-- C63 fails: with the 24 bytes of input the function asks for and outputs of one value, it writes 21
values past their ends. -/
theorem C63_violated : ∃ (rgb : List UInt8) (y cb cr : List Int) (o : Outs), 24 ≤ rgb.length ∧ row rgb y cb cr = .ok o ∧
    o.y.past = 7 ∧ o.cb.past = 7 ∧ o.cr.past = 7 := by
  refine ⟨List.replicate 24 255, [0], [0], [0], ⟨⟨[127], 7⟩, ⟨[0], 7⟩, ⟨[0], 7⟩⟩, by decide, ?_, rfl, rfl, rfl⟩
  unfold row
  rw [loop8, if_pos (by decide)]
  rw [show step8 (List.replicate 24 255) 0 ⟨⟨[0], 0⟩, ⟨[0], 0⟩, ⟨[0], 0⟩⟩ = .ok ⟨⟨[127], 7⟩, ⟨[0], 7⟩, ⟨[0], 7⟩⟩ by decide +kernel, ok_bind,
    loop8, if_neg (by decide), ok_bind]
  show loop1 _ _ _ = _
  rw [loop1, if_neg (by decide)]

end Pixo.Props
