import Verif.Model.Dither
import Verif.Spec.Dither
import Verif.Proof.F32Order
import Verif.Proof.JpegDct
import Verif.Proof.QuantizeNearest
/-
The error diffusion of the quantizer: all its f32 arithmetic is exact, and it is Floyd–Steinberg
on integers.
-/
namespace Pixo.Quantize
open Pixo.Palette (Rgba)
open Pixo.F32 (lit ofInt Rep one)
open Spec.Dither

/-! ### Exact arithmetic -/

/-- `k / 16` as an f32. -/
def s16 (k : Int) : Int := k * (2 ^ 145 : Nat)

theorem one_s16 : (one : Nat) = 16 * 2 ^ 145 := by unfold one; decide

theorem rep_s16 {k : Int} (h : k.natAbs ≤ 2 ^ 24) : Rep (s16 k) := by
  refine ⟨k.natAbs, 145, h, ?_⟩
  unfold s16
  rw [Int.natAbs_mul, Int.natAbs_natCast]

theorem s16_add (a b : Int) : s16 a + s16 b = s16 (a + b) := by unfold s16; rw [Int.add_mul]

theorem add_s16 {a b : Int} (h : (a + b).natAbs ≤ 2 ^ 24) : F32.add (s16 a) (s16 b) = s16 (a + b) := by
  rw [F32.add_exact (by rw [s16_add]; exact rep_s16 h), s16_add]

theorem one_mul_s16 (k : Int) : k * (one : Nat) = s16 (16 * k) := by
  unfold s16
  rw [one_s16, Int.natCast_mul, ← Int.mul_assoc, Int.mul_comm k]
  rfl

theorem ofInt_s16 (v : UInt8) : ofInt v.toNat = s16 (16 * v.toNat) := by
  rw [Jpeg.ofInt_nat _ (by have := v.toNat_lt; omega), Int.natCast_mul, one_mul_s16]

theorem lit_one_mul (k : Nat) (h : k ≤ 2 ^ 24) : lit k 1 = ((k * one : Nat) : Int) := by
  have : lit k 1 = F32.rndI (((k * one : Nat) : Int) * ((1 : Nat) : Int)) 1 := by
    unfold lit F32.rndI
    rw [if_pos (by omega)]
    congr 2
    omega
  rw [this]
  exact F32.rndI_exact (by decide) (F32.rep_one h)

theorem part_s16 {e : Int} {k : Nat} (h : (e * k).natAbs ≤ 2 ^ 24) (hk : k ≤ 2 ^ 24) : part (s16 (16 * e)) k = s16 (e * k) := by
  unfold part
  have h1 : F32.mul (s16 (16 * e)) (lit k 1) = s16 (16 * (e * k)) := by
    unfold F32.mul
    rw [lit_one_mul k hk, ← one_mul_s16, Int.natCast_mul]
    have : e * (one : Nat) * ((k : Int) * (one : Nat)) = (e * k * (one : Nat)) * (one : Nat) := by
      rw [← Int.mul_assoc, Int.mul_right_comm e]
    rw [this, F32.rndI_exact F32.one_pos, one_mul_s16]
    rw [one_mul_s16]
    refine ⟨(e * k).natAbs, 149, h, ?_⟩
    rw [← one_mul_s16, Int.natAbs_mul, Int.natAbs_natCast]
    rfl
  rw [h1]
  unfold F32.div
  rw [lit_one_mul 16 (by decide), Int.toNat_natCast]
  have : s16 (16 * (e * k)) * (one : Nat) = s16 (e * k) * ((16 * one : Nat) : Int) := by
    unfold s16
    generalize ((2 ^ 145 : Nat) : Int) = q
    rw [Int.natCast_mul, show ((16 : Nat) : Int) = 16 from rfl]
    generalize ((one : Nat) : Int) = u
    rw [Int.mul_comm 16 (e * k), Int.mul_right_comm (e * k) 16 q, Int.mul_assoc (e * k * q) 16 u]
  rw [this]
  exact F32.rndI_exact (Nat.mul_pos (by decide) F32.one_pos) (rep_s16 h)

theorem errorOf_s16 (a p : UInt8) : errorOf a p = s16 (16 * ((a.toNat : Int) - p.toNat)) := by
  have h1 := a.toNat_lt
  have h2 := p.toNat_lt
  unfold errorOf
  have e : s16 (16 * a.toNat) - s16 (16 * p.toNat) = s16 (16 * ((a.toNat : Int) - p.toNat)) := by
    unfold s16
    rw [← Int.sub_mul]
    congr 1
    omega
  rw [ofInt_s16, ofInt_s16, F32.sub_exact (by rw [e]; exact rep_s16 (by omega)), e]

/-- The value wanted at a place that received `k / 16`. -/
def want (v k : Int) : Int := max 0 (min 255 ((16 * v + k) / 16))

theorem want_range (v k : Int) : 0 ≤ want v k ∧ want v k ≤ 255 := by unfold want; omega

theorem adjusted_ok (v : UInt8) {err : List Int} {x : Nat} {k : Int} (hx : x + 1 < err.length)
    (he : err.getD (x + 1) 0 = s16 k) (hk : k.natAbs ≤ 2 ^ 23) :
    ∃ a : UInt8, adjusted v err x = .ok a ∧ (a.toNat : Int) = want v.toNat k := by
  have hv := v.toNat_lt
  unfold adjusted
  rw [Palette.getChecked_ok 0 hx, ok_bind, he, ofInt_s16, add_s16 (by omega), lit_one_mul 255 (by decide)]
  refine ⟨_, rfl, ?_⟩
  have hp : (0 : Int) < (2 ^ 145 : Nat) := by decide
  have e1 : ((255 * one : Nat) : Int) = s16 4080 := by
    rw [Int.natCast_mul, one_mul_s16]; rfl
  rw [e1]
  have e2 : max 0 (min (s16 4080) (s16 (16 * (v.toNat : Int) + k))) = s16 (max 0 (min 4080 (16 * (v.toNat : Int) + k))) := by
    unfold s16
    generalize ((2 ^ 145 : Nat) : Int) = q at hp
    generalize 16 * (v.toNat : Int) + k = z
    rcases Int.le_total 4080 z with h | h
    · have h' := Int.mul_le_mul_of_nonneg_right h (Int.le_of_lt hp)
      rw [Int.min_eq_left h', Int.min_eq_left h, Int.max_eq_right (by omega), Int.max_eq_right (by omega)]
    · have h' := Int.mul_le_mul_of_nonneg_right h (Int.le_of_lt hp)
      rw [Int.min_eq_right h', Int.min_eq_right h]
      rcases Int.le_total 0 z with h2 | h2
      · have h3 := Int.mul_le_mul_of_nonneg_right h2 (Int.le_of_lt hp)
        rw [Int.zero_mul] at h3
        rw [Int.max_eq_right h3, Int.max_eq_right h2]
      · have h3 := Int.mul_le_mul_of_nonneg_right h2 (Int.le_of_lt hp)
        rw [Int.zero_mul] at h3
        rw [Int.max_eq_left h3, Int.max_eq_left h2, Int.zero_mul]
  rw [e2]
  have e3 : ∀ z : Int, F32.floor (s16 z) = z / 16 := by
    intro z
    unfold F32.floor s16
    rw [one_s16, Int.natCast_mul]
    exact Int.mul_ediv_mul_of_pos_left _ _ hp
  rw [e3]
  unfold want
  rw [UInt8.toNat_ofNat']
  omega

theorem bump_ok {l : List Int} {i : Nat} (h : i < l.length) (d : Int) :
    bump l i d = .ok (l.set i (F32.add (l.getD i 0) d)) := by
  unfold bump
  rw [Palette.getChecked_ok 0 h, ok_bind]
  rfl

theorem getD_set (l : List Int) (i j : Nat) (v : Int) (h : i < l.length) :
    (l.set i v).getD j 0 = if j = i then v else l.getD j 0 := by
  by_cases e : j = i
  · subst e; rw [if_pos rfl]; simp [List.getD, h]
  · rw [if_neg e]; simp [List.getD, List.getElem?_set, Ne.symm e]

theorem distribute_ok {err next : List Int} {x : Nat} (he : x + 2 < err.length) (hn : x + 2 < next.length) (e : Int) :
    ∃ err' next', distribute err next x e = .ok (err', next') ∧ err'.length = err.length ∧ next'.length = next.length ∧
      (∀ j, err'.getD j 0 = if j = x + 2 then F32.add (err.getD j 0) (part e 7) else err.getD j 0) ∧
      ∀ j, next'.getD j 0 = if j = x then F32.add (next.getD j 0) (part e 3)
        else if j = x + 1 then F32.add (next.getD j 0) (part e 5)
        else if j = x + 2 then F32.add (next.getD j 0) (part e 1) else next.getD j 0 := by
  unfold distribute
  rw [bump_ok he, ok_bind, bump_ok (by omega : x < next.length), ok_bind, bump_ok (by rw [List.length_set]; omega), ok_bind,
    bump_ok (by rw [List.length_set, List.length_set]; omega), ok_bind]
  refine ⟨_, _, rfl, by simp, by simp, fun j => ?_, fun j => ?_⟩
  · rw [getD_set _ _ _ _ he]
    by_cases h : j = x + 2
    · subst h; rfl
    · rw [if_neg h, if_neg h]
  · have k0 : x < next.length := by omega
    have k1 : x + 1 < (next.set x (F32.add (next.getD x 0) (part e 3))).length := by simp; omega
    rw [getD_set _ _ _ _ (by simp; omega), getD_set _ _ _ _ k1, getD_set _ _ _ _ k1, getD_set _ _ _ _ k0,
      getD_set _ _ _ _ k0, getD_set _ _ _ _ k0]
    by_cases h1 : j = x
    · subst h1
      rw [if_neg (by omega), if_neg (by omega), if_pos rfl, if_pos rfl]
    by_cases h2 : j = x + 1
    · subst h2
      rw [if_neg (by omega), if_pos rfl, if_neg (by omega), if_neg (by omega), if_pos rfl]
    by_cases h3 : j = x + 2
    · subst h3
      rw [if_pos rfl, if_neg (by omega), if_neg (by omega), if_neg (by omega), if_neg (by omega), if_pos rfl]
    rw [if_neg h3, if_neg h2, if_neg h1, if_neg h1, if_neg h2, if_neg h3]

/-! ### The invariant of one channel -/

/-- The pixel at column `a` of row `b` has been dealt with when the loop is at column `x` of row
`y`. -/
def Done (w x y : Nat) (a b : Int) : Prop := 0 ≤ a ∧ a < w ∧ (0 ≤ b ∧ b < y ∨ b = y ∧ a < x)

/-- `err` and `next` hold what the pixels dealt with have passed on; `E` are their errors. -/
structure Holds (w x y : Nat) (err next : List Int) (E : Int → Int → Int) : Prop where
  elen : err.length = w + 2
  nlen : next.length = w + 2
  todo : ∀ a b, ¬ Done w x y a b → E a b = 0
  bound : ∀ a b, -255 ≤ E a b ∧ E a b ≤ 255
  here : ∀ j : Nat, x ≤ j → j < w → err.getD (j + 1) 0 = s16 (received E j y)
  below : ∀ j : Nat, j < w → next.getD (j + 1) 0 = s16 (received E j ((y : Int) + 1))

/-- The error of one more pixel. -/
def put (E : Int → Int → Int) (x y : Nat) (e : Int) : Int → Int → Int :=
  fun a b => if a = x ∧ b = y then e else E a b

theorem received_bound {E : Int → Int → Int} (h : ∀ a b, -255 ≤ E a b ∧ E a b ≤ 255) (x y : Int) :
    (received E x y).natAbs ≤ 4080 := by
  unfold received
  have := h (x - 1) y
  have := h (x + 1) (y - 1)
  have := h x (y - 1)
  have := h (x - 1) (y - 1)
  omega

theorem received_put_here {E : Int → Int → Int} {x y : Nat} (h0 : E x y = 0) (e : Int) (j : Int) :
    received (put E x y e) j y = received E j y + if j = (x : Int) + 1 then 7 * e else 0 := by
  unfold received put
  by_cases h : j = (x : Int) + 1
  · subst h
    rw [if_pos (by omega), if_neg (by omega), if_neg (by omega), if_neg (by omega), if_pos rfl]
    have : (x : Int) + 1 - 1 = x := by omega
    rw [this, h0]
    omega
  · rw [if_neg (by omega), if_neg (by omega), if_neg (by omega), if_neg (by omega), if_neg h]
    omega

theorem received_put_below {E : Int → Int → Int} {x y : Nat} (h0 : E x y = 0) (e : Int) (j : Int) :
    received (put E x y e) j ((y : Int) + 1) = received E j ((y : Int) + 1) +
      if j + 1 = x then 3 * e else if j = x then 5 * e else if j = (x : Int) + 1 then e else 0 := by
  have hy : (y : Int) + 1 - 1 = y := by omega
  unfold received put
  rw [hy, if_neg (by omega)]
  by_cases h1 : j + 1 = x
  · rw [if_pos ⟨h1, rfl⟩, if_neg (by omega), if_neg (by omega), if_pos h1, h1, h0]
    omega
  rw [if_neg (by omega)]
  by_cases h2 : j = x
  · rw [if_pos ⟨h2, rfl⟩, if_neg (by omega), if_neg h1, if_pos h2, h2, h0]
    omega
  rw [if_neg (by omega)]
  by_cases h3 : j = (x : Int) + 1
  · have : j - 1 = x := by omega
    rw [if_pos ⟨this, rfl⟩, if_neg h1, if_neg h2, if_pos h3, this, h0]
    omega
  · rw [if_neg (by omega), if_neg h1, if_neg h2, if_neg h3]
    omega

/-- One channel of one pixel. -/
theorem Holds.step {w x y : Nat} {err next : List Int} {E : Int → Int → Int} (h : Holds w x y err next E) (hx : x < w)
    (v : UInt8) :
    ∃ a : UInt8, adjusted v err x = .ok a ∧ (a.toNat : Int) = want v.toNat (received E x y) ∧
      ∀ p : UInt8, ∃ err' next', distribute err next x (errorOf a p) = .ok (err', next') ∧
        Holds w (x + 1) y err' next' (put E x y ((a.toNat : Int) - p.toNat)) := by
  have hb := received_bound h.bound
  obtain ⟨a, ha, hw⟩ := adjusted_ok v (err := err) (x := x) (by rw [h.elen]; omega) (h.here x (Nat.le_refl _) hx)
    (by have := hb x y; omega)
  refine ⟨a, ha, hw, fun p => ?_⟩
  have h1 := a.toNat_lt
  have h2 := p.toNat_lt
  obtain ⟨err', next', e, l1, l2, g1, g2⟩ := distribute_ok (err := err) (next := next) (x := x) (by rw [h.elen]; omega)
    (by rw [h.nlen]; omega) (errorOf a p)
  rw [errorOf_s16] at g1 g2
  have hd : -255 ≤ (a.toNat : Int) - p.toNat ∧ (a.toNat : Int) - p.toNat ≤ 255 := by omega
  generalize hD : (a.toNat : Int) - p.toNat = D at *
  have hp : ∀ k : Nat, k ≤ 7 → part (s16 (16 * D)) k = s16 (D * k) := by
    intro k hk
    refine part_s16 ?_ (by omega)
    rw [Int.natAbs_mul, Int.natAbs_natCast]
    have := Nat.mul_le_mul (show D.natAbs ≤ 255 by omega) hk
    omega
  rw [hp 7 (by omega)] at g1
  rw [hp 3 (by omega), hp 5 (by omega), hp 1 (by omega)] at g2
  have h0 : E x y = 0 := h.todo _ _ (by unfold Done; omega)
  have hbound : ∀ a b, -255 ≤ put E x y D a b ∧ put E x y D a b ≤ 255 := by
    intro a b
    unfold put
    split
    · exact hd
    · exact h.bound a b
  have hb' := received_bound hbound
  refine ⟨err', next', e, ⟨by rw [l1, h.elen], by rw [l2, h.nlen], fun a b hn => ?_, hbound, fun j hj hjw => ?_, fun j hj => ?_⟩⟩
  · unfold put
    rw [if_neg (by intro hab; apply hn; unfold Done; omega)]
    refine h.todo a b fun hh => hn ?_
    unfold Done at *
    omega
  · have hr := received_put_here h0 D j
    have hbj := hb' j y
    rw [g1 (j + 1), h.here j (by omega) hjw]
    by_cases hj2 : j = x + 1
    · rw [if_pos (by omega)]
      rw [if_pos (by omega)] at hr
      rw [hr] at hbj ⊢
      rw [add_s16 (by omega)]
      congr 1
      omega
    · rw [if_neg (by omega)]
      rw [if_neg (by omega)] at hr
      rw [hr, Int.add_zero]
  · have hr := received_put_below h0 D j
    have hbj := hb' j ((y : Int) + 1)
    rw [g2 (j + 1), h.below j hj]
    by_cases h1 : j + 1 = x
    · rw [if_pos h1]
      rw [if_pos (by omega)] at hr
      rw [hr] at hbj ⊢
      rw [add_s16 (by omega)]
      congr 1
      omega
    rw [if_neg h1]
    rw [if_neg (by omega)] at hr
    by_cases h2 : j = x
    · rw [if_pos (by omega)]
      rw [if_pos (by omega)] at hr
      rw [hr] at hbj ⊢
      rw [add_s16 (by omega)]
      congr 1
      omega
    rw [if_neg (by omega)]
    rw [if_neg (by omega)] at hr
    by_cases h3 : j = x + 1
    · rw [if_pos (by omega)]
      rw [if_pos (by omega)] at hr
      rw [hr] at hbj ⊢
      rw [add_s16 (by omega)]
      congr 1
      omega
    rw [if_neg (by omega)]
    rw [if_neg (by omega)] at hr
    rw [hr, Int.add_zero]

theorem zeros_getD (w j : Nat) : (List.replicate (w + 2) (0 : Int)).getD j 0 = 0 := by
  rw [List.getD, List.getElem?_replicate]
  split <;> rfl

/-- The end of a row. -/
theorem Holds.nextRow {w y : Nat} {err next : List Int} {E : Int → Int → Int} (h : Holds w w y err next E) :
    Holds w 0 (y + 1) next (List.replicate (w + 2) 0) E := by
  have z : ∀ a b : Int, (y : Int) < b → E a b = 0 := fun a b hb => h.todo a b (by unfold Done; omega)
  refine ⟨h.nlen, by simp, fun a b hn => h.todo a b fun hd => hn ?_, h.bound, fun j _ hj => ?_, fun j hj => ?_⟩
  · unfold Done at *
    omega
  · have := h.below j hj
    rw [this]
    rfl
  · have e : received E j (((y + 1 : Nat) : Int) + 1) = 0 := by
      unfold received
      rw [z _ _ (by omega), z _ _ (by omega), z _ _ (by omega), z _ _ (by omega)]
      rfl
    rw [e]
    exact zeros_getD w (j + 1)

theorem Holds.start (w : Nat) : Holds w 0 0 (List.replicate (w + 2) 0) (List.replicate (w + 2) 0) fun _ _ => 0 := by
  refine ⟨by simp, by simp, fun _ _ _ => rfl, fun _ _ => by omega, fun j _ hj => ?_, fun j hj => ?_⟩ <;>
    rw [zeros_getD] <;> rfl

/-! ### The image -/

/-- The errors of the three channels. -/
structure Errors where
  r : Int → Int → Int
  g : Int → Int → Int
  b : Int → Int → Int

/-- The invariant of all channels. -/
structure Holds3 (w x y : Nat) (err next : Errs) (E : Errors) : Prop where
  r : Holds w x y err.r next.r E.r
  g : Holds w x y err.g next.g E.g
  b : Holds w x y err.b next.b E.b

/-- The same errors before column `x` of row `y`. -/
def Agree (F E : Int → Int → Int) (x y : Nat) : Prop := ∀ a b : Int, b < y ∨ b = y ∧ a < x → F a b = E a b

theorem Agree.received {F E : Int → Int → Int} {x y : Nat} (h : Agree F E x y) : received F x y = received E x y := by
  unfold Spec.Dither.received
  rw [h _ _ (.inr ⟨rfl, by omega⟩), h _ _ (.inl (by omega)), h _ _ (.inl (by omega)), h _ _ (.inl (by omega))]

theorem agree_put (E : Int → Int → Int) (x y : Nat) (e : Int) : Agree (put E x y e) E x y := by
  intro a b h
  unfold put
  rw [if_neg (by omega)]

theorem Agree.step {F E : Int → Int → Int} {x y : Nat} {e : Int} (h : Agree F (put E x y e) (x + 1) y) :
    Agree F E x y ∧ F x y = e := by
  constructor
  · intro a b hab
    rw [h a b (by omega), agree_put E x y e a b hab]
  · rw [h _ _ (.inr ⟨rfl, by omega⟩)]
    unfold put
    rw [if_pos ⟨rfl, rfl⟩]

/-- Pixel `c` at column `x` of row `y` is shown by entry `idx`: the entry looked up for the wanted
colour, whose difference to it is the error. -/
def ShownBy (palette : List Rgba) (c : Rgba) (E : Errors) (x y : Nat) (idx : UInt8) : Prop :=
  ∃ (p : Rgba) (r g b : UInt8), palette[idx.toNat]? = some p ∧ idx = lookup palette (r, g, b, c.2.2.2) ∧
    ((r.toNat : Int) = want c.1.toNat (received E.r x y) ∧ E.r x y = (r.toNat : Int) - p.1.toNat) ∧
    ((g.toNat : Int) = want c.2.1.toNat (received E.g x y) ∧ E.g x y = (g.toNat : Int) - p.2.1.toNat) ∧
    ((b.toNat : Int) = want c.2.2.1.toNat (received E.b x y) ∧ E.b x y = (b.toNat : Int) - p.2.2.1.toNat)

structure Agree3 (F E : Errors) (x y : Nat) : Prop where
  r : Agree F.r E.r x y
  g : Agree F.g E.g x y
  b : Agree F.b E.b x y

theorem ShownBy.agree {palette : List Rgba} {c : Rgba} {E F : Errors} {x y : Nat} {idx : UInt8}
    (h : ShownBy palette c E x y idx) (ha : Agree3 F E (x + 1) y) : ShownBy palette c F x y idx := by
  have w : ∀ {F E : Int → Int → Int}, Agree F E (x + 1) y → received F x y = received E x y ∧ F x y = E x y := by
    intro F E h
    exact ⟨Agree.received fun a b hab => h a b (by omega), h _ _ (.inr ⟨rfl, by omega⟩)⟩
  obtain ⟨p, r, g, b, h1, h2, ⟨h3, h4⟩, ⟨h5, h6⟩, ⟨h7, h8⟩⟩ := h
  refine ⟨p, r, g, b, h1, h2, ?_, ?_, ?_⟩
  · rw [(w ha.r).1, (w ha.r).2]; exact ⟨h3, h4⟩
  · rw [(w ha.g).1, (w ha.g).2]; exact ⟨h5, h6⟩
  · rw [(w ha.b).1, (w ha.b).2]; exact ⟨h7, h8⟩

/-- One pixel. -/
theorem ditherPixel_ok {palette : List Rgba} (h1 : 1 ≤ palette.length) (h2 : palette.length ≤ 256) (c : Rgba)
    {w x y : Nat} {err next : Errs} {E : Errors} (h : Holds3 w x y err next E) (hx : x < w) :
    ∃ idx err' next' F, ditherPixel palette c x err next = .ok (idx, err', next') ∧
      Holds3 w (x + 1) y err' next' F ∧ Agree3 F E x y ∧ ShownBy palette c F x y idx := by
  obtain ⟨r, er, wr, sr⟩ := h.r.step hx c.1
  obtain ⟨g, eg, wg, sg⟩ := h.g.step hx c.2.1
  obtain ⟨b, eb, wb, sb⟩ := h.b.step hx c.2.2.1
  have hlt := lookup_lt (r, g, b, c.2.2.2) h1 h2
  obtain ⟨p, hp⟩ : ∃ p, palette[(lookup palette (r, g, b, c.2.2.2)).toNat]? = some p := ⟨_, List.getElem?_eq_getElem hlt⟩
  have gp : getChecked palette (lookup palette (r, g, b, c.2.2.2)).toNat = .ok p := by unfold getChecked; rw [hp]
  obtain ⟨e1, n1, d1, k1⟩ := sr p.1
  obtain ⟨e2, n2, d2, k2⟩ := sg p.2.1
  obtain ⟨e3, n3, d3, k3⟩ := sb p.2.2.1
  refine ⟨lookup palette (r, g, b, c.2.2.2), ⟨e1, e2, e3⟩, ⟨n1, n2, n3⟩,
    ⟨put E.r x y ((r.toNat : Int) - p.1.toNat), put E.g x y ((g.toNat : Int) - p.2.1.toNat),
      put E.b x y ((b.toNat : Int) - p.2.2.1.toNat)⟩, ?_, ⟨k1, k2, k3⟩,
    ⟨agree_put _ _ _ _, agree_put _ _ _ _, agree_put _ _ _ _⟩, p, r, g, b, hp, rfl, ⟨?_, ?_⟩, ⟨?_, ?_⟩, ⟨?_, ?_⟩⟩
  · unfold ditherPixel
    rw [er, ok_bind, eg, ok_bind, eb, ok_bind]
    dsimp only
    rw [gp, ok_bind, d1, ok_bind]
    dsimp only
    rw [d2, ok_bind]
    dsimp only
    rw [d3, ok_bind]
    rfl
  · rw [(agree_put _ _ _ _).received]; exact wr
  · exact if_pos ⟨rfl, rfl⟩
  · rw [(agree_put _ _ _ _).received]; exact wg
  · exact if_pos ⟨rfl, rfl⟩
  · rw [(agree_put _ _ _ _).received]; exact wb
  · exact if_pos ⟨rfl, rfl⟩

/-- No colour. -/
def black : Rgba := (0, 0, 0, 0)

theorem Agree3.trans {F E D : Errors} {x y x' y' : Nat} (h1 : Agree3 F E x' y') (h2 : Agree3 E D x y)
    (hle : y < y' ∨ y = y' ∧ x ≤ x') : Agree3 F D x y := by
  refine ⟨fun a b h => ?_, fun a b h => ?_, fun a b h => ?_⟩
  · rw [h1.r a b (by omega), h2.r a b h]
  · rw [h1.g a b (by omega), h2.g a b h]
  · rw [h1.b a b (by omega), h2.b a b h]

theorem Agree3.refl (E : Errors) (x y : Nat) : Agree3 E E x y := ⟨fun _ _ _ => rfl, fun _ _ _ => rfl, fun _ _ _ => rfl⟩

/-- The rest of a row. -/
theorem ditherRow_ok {palette px : List Rgba} (h1 : 1 ≤ palette.length) (h2 : palette.length ≤ 256) {start w y : Nat}
    (hs : start + w ≤ px.length) : ∀ (n x : Nat) (err next : Errs) (E : Errors), x + n = w → Holds3 w x y err next E →
    ∃ idxs err' next' F, ditherRow palette px start n x err next = .ok (idxs, next') ∧ idxs.length = n ∧
      Holds3 w w y err' next' F ∧ Agree3 F E x y ∧
      ∀ i, i < n → ShownBy palette (px.getD (start + (x + i)) black) F (x + i) y (idxs.getD i 0)
  | 0, x, err, next, E, hn, h => by
    have : x = w := by omega
    subst this
    exact ⟨[], err, next, E, rfl, rfl, h, Agree3.refl _ _ _, fun i hi => absurd hi (by omega)⟩
  | n + 1, x, err, next, E, hn, h => by
    obtain ⟨idx, err1, next1, F1, e1, k1, a1, s1⟩ := ditherPixel_ok h1 h2 (px.getD (start + x) black) h (by omega)
    obtain ⟨idxs, err2, next2, F2, e2, l2, k2, a2, s2⟩ := ditherRow_ok h1 h2 hs n (x + 1) err1 next1 F1 (by omega) k1
    refine ⟨idx :: idxs, err2, next2, F2, ?_, by simp [l2], k2, a2.trans a1 (.inr ⟨rfl, by omega⟩), fun i hi => ?_⟩
    · rw [ditherRow, Palette.getChecked_ok black (by omega), ok_bind, e1, ok_bind]
      dsimp only
      rw [e2, ok_bind]
      rfl
    · cases i with
      | zero => exact s1.agree a2
      | succ i =>
        have := s2 i (by omega)
        rw [show x + 1 + i = x + (i + 1) by omega] at this
        exact this

/-- The remaining rows. -/
theorem ditherRows_ok {palette px : List Rgba} (h1 : 1 ≤ palette.length) (h2 : palette.length ≤ 256) {w h : Nat}
    (hs : h * w ≤ px.length) : ∀ (n y : Nat) (err : Errs) (E : Errors), y + n = h → Holds3 w 0 y err (noErrs w) E →
    ∃ idxs err' F, ditherRows palette px w n y err = .ok idxs ∧ idxs.length = n * w ∧
      Holds3 w 0 h err' (noErrs w) F ∧ Agree3 F E 0 y ∧
      ∀ j i, j < n → i < w → ShownBy palette (px.getD ((y + j) * w + i) black) F i (y + j) (idxs.getD (j * w + i) 0)
  | 0, y, err, E, hn, hh => by
    have : y = h := by omega
    subst this
    exact ⟨[], err, E, rfl, by simp, hh, Agree3.refl _ _ _, fun j i hj => absurd hj (by omega)⟩
  | n + 1, y, err, E, hn, hh => by
    have hle : y * w + w ≤ px.length := by
      have := Nat.mul_le_mul_right w (show y + 1 ≤ h by omega)
      rw [Nat.add_mul, Nat.one_mul] at this
      omega
    obtain ⟨row, err1, next1, F1, e1, l1, k1, a1, s1⟩ := ditherRow_ok h1 h2 hle w 0 err (noErrs w) E (by omega) hh
    obtain ⟨idxs, err2, F2, e2, l2, k2, a2, s2⟩ := ditherRows_ok h1 h2 hs n (y + 1) next1 F1 (by omega)
      ⟨k1.r.nextRow, k1.g.nextRow, k1.b.nextRow⟩
    refine ⟨row ++ idxs, err2, F2, ?_, by rw [List.length_append, l1, l2, Nat.add_mul]; omega, k2,
      a2.trans a1 (.inl (by omega)), fun j i hj hi => ?_⟩
    · rw [ditherRows, e1, ok_bind]
      dsimp only
      rw [e2, ok_bind]
      rfl
    · cases j with
      | zero =>
        have h3 := s1 i hi
        rw [Nat.zero_add] at h3
        rw [Nat.zero_mul, Nat.zero_add, Nat.add_zero]
        have e : (row ++ idxs).getD i 0 = row.getD i 0 := by
          simp [List.getD, List.getElem?_append_left (show i < row.length by omega)]
        rw [e]
        exact h3.agree (a2.trans (Agree3.refl _ _ _) (.inl (by omega)))
      | succ j =>
        have h3 := s2 j i (by omega) hi
        rw [show y + 1 + j = y + (j + 1) by omega] at h3
        have e : (row ++ idxs).getD ((j + 1) * w + i) 0 = idxs.getD (j * w + i) 0 := by
          have hge : row.length ≤ (j + 1) * w + i := by rw [l1, Nat.add_mul]; omega
          simp only [List.getD, List.getElem?_append_right hge]
          congr 2
          rw [l1, Nat.add_mul]
          omega
        rw [e]
        exact h3

/-- The whole image: errors that are zero outside it. -/
theorem dither_ok {palette px : List Rgba} (h1 : 1 ≤ palette.length) (h2 : palette.length ≤ 256) {w h : Nat}
    (hs : h * w ≤ px.length) : ∃ (idxs : List UInt8) (E : Errors),
      ditherRows palette px w h 0 (noErrs w) = .ok idxs ∧ idxs.length = h * w ∧
      (∀ a b, ¬ Inside w h a b → E.r a b = 0 ∧ E.g a b = 0 ∧ E.b a b = 0) ∧
      ∀ y x, y < h → x < w → ShownBy palette (px.getD (y * w + x) black) E x y (idxs.getD (y * w + x) 0) := by
  obtain ⟨idxs, err, F, e, l, k, -, s⟩ := ditherRows_ok h1 h2 hs h 0 (noErrs w) ⟨fun _ _ => 0, fun _ _ => 0, fun _ _ => 0⟩
    (by omega) ⟨Holds.start w, Holds.start w, Holds.start w⟩
  have hz : ∀ a b, ¬ Inside w h a b → ¬ Done w 0 h a b := by
    intro a b hn hd
    unfold Inside at hn
    unfold Done at hd
    omega
  refine ⟨idxs, F, e, l, fun a b hn => ⟨k.r.todo a b (hz a b hn), k.g.todo a b (hz a b hn), k.b.todo a b (hz a b hn)⟩,
    fun y x hy hx => ?_⟩
  have := s y x hy hx
  rw [Nat.zero_add] at this
  exact this

/-! ### The quantizer -/

/-- `quantize_image` after the histogram. -/
theorem quantizeExact_with (tie : Nat → Nat) {data : List UInt8} {ct : ColorType} (hct : ct = .rgb ∨ ct = .rgba) {n : Nat}
    (hl : data.length = n * ct.bytesPerPixel) (h1 : 1 ≤ n) (hn : n < 2 ^ 30) :
    ∃ colors : List ColorCount, Counted data ct.bytesPerPixel n colors ∧
      (∀ adjust m dithering, quantizeImage ⟨tie, adjust⟩ data ct m dithering =
        quantizeWith ⟨tie, adjust⟩ ((List.range n).map (pixelAt data ct.bytesPerPixel)) colors m dithering) ∧
      ∀ w h m dithering, quantizeExact tie data w h ct m dithering =
        if colors.length ≤ m ∨ ¬ dithering then
          quantizeWith ⟨tie, fun _ => (0, 0, 0)⟩ ((List.range n).map (pixelAt data ct.bytesPerPixel)) colors m dithering
        else do
          let palette ← medianCut colors m
          let indices ← ditherRows palette ((List.range n).map (pixelAt data ct.bytesPerPixel)) w h 0 (noErrs w)
          return (palette, indices) := by
  have hb := bpp_colour hct
  unfold quantizeImage quantizeExact
  dsimp only
  generalize ct.bytesPerPixel = bpp at hb hl
  obtain ⟨keys, ek, hc⟩ := counted ⟨tie, fun _ => (0, 0, 0)⟩ hb hl h1 hn
  refine ⟨_, hc, fun adjust m d => ?_, fun w h m d => ?_⟩
  · rw [if_neg (by omega), hl, Nat.mul_div_cancel _ (by omega : 0 < bpp), ek, ok_bind, pixels_ok hb hl, ok_bind]
    rfl
  · rw [if_neg (by omega), hl, Nat.mul_div_cancel _ (by omega : 0 < bpp), ek, ok_bind, pixels_ok hb hl, ok_bind]

theorem ditherLoop_eq (env : Env) {ps : List Rgba} (h1 : 1 ≤ ps.length) (h2 : ps.length ≤ 256) :
    ∀ (px : List Rgba) (i : Nat) (out : List UInt8), out.length = px.length →
      (∀ k, k < px.length → out.getD k 0 =
        lookup ps ((env.adjust (i + k)).1, (env.adjust (i + k)).2.1, (env.adjust (i + k)).2.2, (px.getD k black).2.2.2)) →
      ditherLoop env ps px i = .ok out
  | [], _, out, hl, _ => by
    have : out = [] := List.eq_nil_of_length_eq_zero hl
    rw [this]; rfl
  | c :: px, i, o :: out, hl, h => by
    rw [ditherLoop]
    dsimp only
    have hlt := lookup_lt ((env.adjust i).1, (env.adjust i).2.1, (env.adjust i).2.2, c.2.2.2) h1 h2
    rw [Palette.getChecked_ok black hlt, ok_bind]
    have ih := ditherLoop_eq env h1 h2 px (i + 1) out (by simpa using hl) fun k hk => by
      have := h (k + 1) (by simp; omega)
      rw [show i + (k + 1) = i + 1 + k by omega] at this
      exact this
    rw [ih, ok_bind]
    have := h 0 (by simp)
    rw [Nat.add_zero] at this
    have e : o = lookup ps ((env.adjust i).1, (env.adjust i).2.1, (env.adjust i).2.2, c.2.2.2) := this
    rw [e]
    rfl

/-- The exact arithmetic is one of those the open model allows. -/
theorem quantizeExact_refines (tie : Nat → Nat) {data : List UInt8} {ct : ColorType} (hct : ct = .rgb ∨ ct = .rgba)
    {w h : Nat} (hl : data.length = w * h * ct.bytesPerPixel) (h1 : 1 ≤ w * h) (hn : w * h < 2 ^ 30) {m : Nat}
    (hm : m ≤ 256) (dithering : Bool) :
    ∃ adjust, quantizeExact tie data w h ct m dithering = quantizeImage ⟨tie, adjust⟩ data ct m dithering := by
  obtain ⟨colors, hc, e1, e2⟩ := quantizeExact_with tie hct hl h1 hn
  by_cases hd : colors.length ≤ m ∨ ¬ dithering
  · refine ⟨fun _ => (0, 0, 0), ?_⟩
    rw [e1, e2, if_pos hd]
  · obtain ⟨hgt, hd'⟩ := not_or.mp hd
    have hd' : dithering = true := by simpa using hd'
    obtain ⟨p, ep, hp⟩ := (medianCut_ok hc.light m).out
    have hp2 : p.length ≤ 256 := by omega
    have hlen : ((List.range (w * h)).map (pixelAt data ct.bytesPerPixel)).length = w * h := by simp
    obtain ⟨idxs, E, e, l, -, s⟩ := dither_ok hp.1 hp2 (w := w) (h := h)
      (px := (List.range (w * h)).map (pixelAt data ct.bytesPerPixel)) (by rw [hlen, Nat.mul_comm h w]; exact Nat.le_refl _)
    have hw : 0 < w := Nat.pos_of_ne_zero fun h0 => by rw [h0, Nat.zero_mul] at h1; omega
    have hk : ∀ k, ∃ a : UInt8 × UInt8 × UInt8, k < w * h → idxs.getD k 0 = lookup p (a.1, a.2.1, a.2.2,
        (((List.range (w * h)).map (pixelAt data ct.bytesPerPixel)).getD k black).2.2.2) := by
      intro k
      by_cases hlt : k < w * h
      · have hy : k / w < h := Nat.div_lt_of_lt_mul hlt
        have hx : k % w < w := Nat.mod_lt _ hw
        obtain ⟨-, r, g, b, -, hi, -⟩ := s (k / w) (k % w) hy hx
        have hk : k / w * w + k % w = k := by rw [Nat.mul_comm]; exact Nat.div_add_mod k w
        rw [hk] at hi
        exact ⟨(r, g, b), fun _ => hi⟩
      · exact ⟨(0, 0, 0), fun h => absurd h hlt⟩
    refine ⟨fun k => (hk k).choose, ?_⟩
    rw [e1, e2, if_neg hd, ep, ok_bind, e, ok_bind]
    unfold quantizeWith
    rw [if_neg hgt, ep, ok_bind, if_pos hd', ditherLoop_eq _ hp.1 hp2 _ 0 idxs (by rw [l, hlen, Nat.mul_comm]) ?_, ok_bind]
    intro k hlt
    rw [hlen] at hlt
    rw [Nat.zero_add]
    exact (hk k).choose_spec hlt

end Pixo.Quantize
