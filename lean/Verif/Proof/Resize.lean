import Verif.Model.Resize
import Verif.Proof.F32Order
import Verif.Proof.Parallel
/-
src/resize.rs: coordinates, ranges and the bytes of the result.
-/
namespace Pixo.Resize
open Pixo F32

/-! ### Lists of equal length -/

theorem flatten_length {α : Type} (n k : Nat) (g : Nat → List α) (h : ∀ i, i < n → (g i).length = k) :
    ((List.range n).map g).flatten.length = n * k := by
  induction n with
  | zero => simp
  | succ n ih =>
    rw [List.range_succ, List.map_append, List.flatten_append, List.length_append, ih (fun i hi => h i (by omega))]
    simp [h n (by omega), Nat.succ_mul]

theorem flatten_get {α : Type} (n k : Nat) (g : Nat → List α) (h : ∀ i, i < n → (g i).length = k) {i j : Nat}
    (hi : i < n) (hj : j < k) : ((List.range n).map g).flatten[i * k + j]? = (g i)[j]? := by
  induction n with
  | zero => omega
  | succ n ih =>
    have hl := flatten_length n k g (fun i hi => h i (by omega))
    rw [List.range_succ, List.map_append, List.flatten_append]
    by_cases hn : i < n
    · have : i * k + j < n * k := by
        have := Nat.mul_le_mul_right k (show i + 1 ≤ n by omega)
        rw [Nat.succ_mul] at this; omega
      rw [List.getElem?_append_left (by omega)]
      exact ih (fun i hi => h i (by omega)) hn
    · have : i = n := by omega
      subst this
      rw [List.getElem?_append_right (by omega), hl, Nat.add_sub_cancel_left]
      simp

/-- An index into an image. -/
theorem index_lt {x y c w h k : Nat} (hx : x < w) (hy : y < h) (hc : c < k) : (y * w + x) * k + c < w * h * k := by
  have h1 : y * w + x + 1 ≤ w * h := by
    have := Nat.mul_le_mul_right w (show y + 1 ≤ h by omega)
    rw [Nat.succ_mul, Nat.mul_comm h] at this; omega
  have := Nat.mul_le_mul_right k h1
  rw [Nat.succ_mul] at this
  omega

theorem index_le {x y w h k : Nat} (hx : x < w) (hy : y < h) : (y * w + x) * k + k ≤ w * h * k := by
  have h1 : y * w + x + 1 ≤ w * h := by
    have := Nat.mul_le_mul_right w (show y + 1 ≤ h by omega)
    rw [Nat.succ_mul, Nat.mul_comm h] at this; omega
  have := Nat.mul_le_mul_right k h1
  rwa [Nat.succ_mul] at this

theorem get_ok {α : Type} {l : List α} {i : Nat} (d : α) (h : i < l.length) : getChecked l i = .ok (l.getD i d) := by
  rw [getChecked, List.getD_eq_getElem?_getD, List.getElem?_eq_getElem h]; rfl

theorem slice_ok {data : List UInt8} {a n : Nat} (h : a + n ≤ data.length) :
    slice data a n = .ok ((data.drop a).take n) := if_pos h

/-! ### Nearest neighbour -/

theorem nearestIndex_lt {src dst d : Nat} (h0 : 0 < src) (h : src ≤ 2 ^ 24) : nearestIndex src dst d < src := by
  unfold nearestIndex
  simp only
  have e : F32.floor (F32.ofInt ((src - 1 : Nat) : Int)) = ((src - 1 : Nat) : Int) := by
    rw [ofInt_exact (by omega), F32.floor, Int.natCast_mul]
    exact Int.mul_ediv_cancel _ (by have := one_pos; omega)
  rw [e]
  omega

/-- The pixel of the source for a pixel of the result. -/
def nearestPixel (data : List UInt8) (sw sh dw dh bpp x y : Nat) : List UInt8 :=
  (data.drop ((nearestIndex sh dh y * sw + nearestIndex sw dw x) * bpp)).take bpp

theorem nearest_ok {data : List UInt8} {sw sh dw dh bpp : Nat} (hw : 0 < sw) (hh : 0 < sh) (hw2 : sw ≤ 2 ^ 24)
    (hh2 : sh ≤ 2 ^ 24) (hl : data.length = sw * sh * bpp) :
    nearest data sw sh dw dh bpp = .ok (((List.range dh).map (fun y =>
      ((List.range dw).map (fun x => nearestPixel data sw sh dw dh bpp x y)).flatten)).flatten) := by
  unfold nearest
  rw [Parallel.mapM_ok _ (fun y => ((List.range dw).map (fun x => nearestPixel data sw sh dw dh bpp x y)).flatten),
    ok_bind]
  · rfl
  · intro y _
    simp only
    rw [Parallel.mapM_ok _ (fun x => nearestPixel data sw sh dw dh bpp x y), ok_bind]
    · rfl
    · intro x _
      refine slice_ok ?_
      rw [hl]
      exact index_le (nearestIndex_lt hw hw2) (nearestIndex_lt hh hh2)

theorem nearestPixel_length {data : List UInt8} {sw sh dw dh bpp : Nat} (hw : 0 < sw) (hh : 0 < sh) (hw2 : sw ≤ 2 ^ 24)
    (hh2 : sh ≤ 2 ^ 24) (hl : data.length = sw * sh * bpp) (x y : Nat) :
    (nearestPixel data sw sh dw dh bpp x y).length = bpp := by
  unfold nearestPixel
  have := index_le (k := bpp) (nearestIndex_lt (dst := dw) (d := x) hw hw2) (nearestIndex_lt (dst := dh) (d := y) hh hh2)
  rw [List.length_take, List.length_drop, hl]
  omega

theorem add_half {d : Nat} (h : d < 2 ^ 23) :
    F32.add (F32.ofInt d) (F32.lit 1 2) = (((2 * d + 1) * 2 ^ 148 : Nat) : Int) := by
  rw [ofInt_exact (by omega), lit_half]
  have e : ((d * one : Nat) : Int) + ((2 ^ 148 : Nat) : Int) = (((2 * d + 1) * 2 ^ 148 : Nat) : Int) := by
    rw [one_eq]; omega
  rw [add_exact (by rw [e]; exact rep_nat 148 (by omega)), e]

theorem div_self {n : Nat} (h0 : 0 < n) : F32.div ((n * one : Nat) : Int) ((n * one : Nat) : Int) = (one : Int) := by
  unfold F32.div
  rw [Int.toNat_natCast, Int.mul_comm]
  exact rndI_exact (Nat.mul_pos h0 one_pos) (by have := rep_one (m := 1) (by omega); rwa [Nat.one_mul] at this)

theorem nearestIndex_self {n d : Nat} (hn : n ≤ 2 ^ 23) (hd : d < n) : nearestIndex n n d = d := by
  unfold nearestIndex
  simp only
  have e : F32.floor (F32.ofInt ((n - 1 : Nat) : Int)) = ((n - 1 : Nat) : Int) := by
    rw [ofInt_exact (by omega), F32.floor, Int.natCast_mul]
    exact Int.mul_ediv_cancel _ (by have := one_pos; omega)
  have e2 : (((2 * d + 1) * 2 ^ 148 : Nat) : Int) - ((2 ^ 148 : Nat) : Int) = ((d * one : Nat) : Int) := by
    rw [one_eq]; omega
  rw [e, add_half (by omega), ofInt_exact (by omega), div_self (by omega), mul_one_right (rep_nat 148 (by omega)),
    lit_half, sub_exact (by rw [e2]; exact rep_one (by omega)), e2]
  have e3 : F32.round ((d * one : Nat) : Int) = d := by
    unfold F32.round
    rw [if_pos (Int.natCast_nonneg _), one_eq]
    omega
  rw [e3]
  omega

/-! ### Bilinear -/

theorem bilinearRatio_nonneg (src dst : Nat) : 0 ≤ bilinearRatio src dst := by
  unfold bilinearRatio
  split
  · refine rndI_nonneg _ ?_
    refine Int.mul_nonneg ?_ (Int.natCast_nonneg _)
    exact rndI_nonneg _ (Int.mul_nonneg (Int.natCast_nonneg _) (Int.natCast_nonneg _))
  · exact Int.le_refl 0

theorem coordinate_nonneg (src dst d : Nat) : 0 ≤ coordinate src dst d := by
  unfold coordinate
  refine rndI_nonneg _ (Int.mul_nonneg ?_ (bilinearRatio_nonneg src dst))
  exact rndI_nonneg _ (Int.mul_nonneg (Int.natCast_nonneg _) (Int.natCast_nonneg _))

/-- The ratio, as a natural number of units. -/
theorem bilinearRatio_eq {src dst : Nat} (h1 : 1 < dst) (hs : src ≤ 2 ^ 24) (ht : dst ≤ 2 ^ 24) :
    bilinearRatio src dst = (F32.rnd ((src - 1) * one * one) ((dst - 1) * one) : Nat) := by
  unfold bilinearRatio
  rw [if_pos h1, ofInt_exact (by omega), ofInt_exact (by omega), F32.div, Int.toNat_natCast, rndI, if_pos]
  · rfl
  · exact Int.mul_nonneg (Int.natCast_nonneg _) (Int.natCast_nonneg _)

theorem ratio_bounds {src dst : Nat} (h1 : 1 < dst) :
    2 ^ 24 * (F32.rnd ((src - 1) * one * one) ((dst - 1) * one) * (dst - 1))
      ≤ 2 ^ 24 * ((src - 1) * one) + (src - 1) * one + 2 ^ 23 * (dst - 1) ∧
    2 ^ 24 * ((src - 1) * one)
      ≤ 2 ^ 24 * (F32.rnd ((src - 1) * one * one) ((dst - 1) * one) * (dst - 1)) + (src - 1) * one + 2 ^ 23 * (dst - 1) := by
  have h := rnd_rel ((src - 1) * one * one) ((dst - 1) * one) (Nat.mul_pos (by omega) one_pos)
  generalize F32.rnd ((src - 1) * one * one) ((dst - 1) * one) = r at *
  generalize dst - 1 = t at *
  generalize src - 1 = s at *
  have e1 : r * (t * one) = r * t * one := by rw [Nat.mul_assoc]
  rw [e1] at h
  constructor
  · refine Nat.le_of_mul_le_mul_right (?_ : _ * one ≤ _ * one) one_pos
    simp only [Nat.add_mul, Nat.mul_assoc] at *
    exact h.1
  · refine Nat.le_of_mul_le_mul_right (?_ : _ * one ≤ _ * one) one_pos
    simp only [Nat.add_mul, Nat.mul_assoc] at *
    exact h.2

/-- Sources of at most `2^23` keep the coordinate below the edge. -/
theorem coordinate_le {src dst d : Nat} (h0 : 0 < src) (hs : src ≤ 2 ^ 23) (ht : dst ≤ 2 ^ 24) (hd : d < dst) :
    coordinate src dst d ≤ (((2 * src - 1) * 2 ^ 148 : Nat) : Int) := by
  unfold coordinate
  by_cases h1 : 1 < dst
  · rw [bilinearRatio_eq h1 (by omega) ht, ofInt_exact (by omega)]
    refine rndI_le one_pos (rep_nat 148 (by omega)) ?_
    have h := (ratio_bounds (src := src) h1).1
    generalize F32.rnd ((src - 1) * one * one) ((dst - 1) * one) = r at *
    have h2 : d * r ≤ r * (dst - 1) := by
      rw [Nat.mul_comm]; exact Nat.mul_le_mul_left _ (by omega)
    generalize r * (dst - 1) = R at *
    have h3 : d * r ≤ (2 * src - 1) * 2 ^ 148 := by
      rw [one_eq] at h
      omega
    have := Nat.mul_le_mul_right one h3
    rw [← Int.natCast_mul, ← Int.natCast_mul]
    rw [show d * one * r = d * r * one by rw [Nat.mul_assoc, Nat.mul_comm one, Nat.mul_assoc]]
    exact_mod_cast this
  · rw [show bilinearRatio src dst = 0 by unfold bilinearRatio; rw [if_neg h1], mul_zero]
    exact Int.natCast_nonneg _

theorem taps_lt {src dst d : Nat} (h0 : 0 < src) (hs : src ≤ 2 ^ 23) (ht : dst ≤ 2 ^ 24) (hd : d < dst) :
    (taps src dst d).1 < src ∧ (taps src dst d).2.1 < src := by
  have h1 := coordinate_le h0 hs ht hd
  have h2 := coordinate_nonneg src dst d
  unfold taps
  simp only
  generalize coordinate src dst d = f at *
  have h3 : F32.floor f < src := by
    unfold F32.floor
    rw [one_eq]
    omega
  omega

/-- The byte of the result. -/
def bilinearAt (data : List UInt8) (sw sh dw dh bpp x y c : Nat) : UInt8 :=
  bilinearByte
    (data.getD (((taps sh dh y).1 * sw + (taps sw dw x).1) * bpp + c) 0)
    (data.getD (((taps sh dh y).1 * sw + (taps sw dw x).2.1) * bpp + c) 0)
    (data.getD (((taps sh dh y).2.1 * sw + (taps sw dw x).1) * bpp + c) 0)
    (data.getD (((taps sh dh y).2.1 * sw + (taps sw dw x).2.1) * bpp + c) 0)
    (taps sw dw x).2.2 (taps sh dh y).2.2

/-- All taps are inside. -/
def Inside (src dst : Nat) : Prop := ∀ d, d < dst → (taps src dst d).1 < src ∧ (taps src dst d).2.1 < src

theorem bilinear_ok {data : List UInt8} {sw sh dw dh bpp : Nat} (hx : Inside sw dw) (hy : Inside sh dh)
    (hl : data.length = sw * sh * bpp) :
    bilinear data sw sh dw dh bpp = .ok (((List.range dh).map (fun y =>
      ((List.range dw).map (fun x => (List.range bpp).map (bilinearAt data sw sh dw dh bpp x y))).flatten)).flatten) := by
  unfold bilinear
  rw [Parallel.mapM_ok _ (fun y => ((List.range dw).map
    (fun x => (List.range bpp).map (bilinearAt data sw sh dw dh bpp x y))).flatten), ok_bind]
  · rfl
  · intro y hym
    have hy' := hy y (List.mem_range.1 hym)
    simp only
    rw [Parallel.mapM_ok _ (fun x => (List.range bpp).map (bilinearAt data sw sh dw dh bpp x y)), ok_bind]
    · rfl
    · intro x hxm
      have hx' := hx x (List.mem_range.1 hxm)
      refine Parallel.mapM_ok _ _ _ ?_
      intro c hc
      have hc' := List.mem_range.1 hc
      rw [get_ok 0 (by rw [hl]; exact index_lt hx'.1 hy'.1 hc'), ok_bind,
        get_ok 0 (by rw [hl]; exact index_lt hx'.2 hy'.1 hc'), ok_bind,
        get_ok 0 (by rw [hl]; exact index_lt hx'.1 hy'.2 hc'), ok_bind,
        get_ok 0 (by rw [hl]; exact index_lt hx'.2 hy'.2 hc'), ok_bind]
      rfl

theorem coordinate_self {n d : Nat} (hn : n ≤ 2 ^ 24) (hd : d < n) : coordinate n n d = ((d * one : Nat) : Int) := by
  unfold coordinate bilinearRatio
  by_cases h1 : n > 1
  · rw [if_pos h1, ofInt_exact (by omega), ofInt_exact (by omega), div_self (by omega),
      mul_one_right (rep_one (by omega))]
  · rw [if_neg h1, mul_zero, show d = 0 by omega]; simp

theorem taps_self {n d : Nat} (hn : n ≤ 2 ^ 24) (hd : d < n) : taps n n d = (d, min (d + 1) (n - 1), 0) := by
  unfold taps
  simp only
  have e : (F32.floor ((d * one : Nat) : Int)).toNat = d := by
    rw [F32.floor, Int.natCast_mul, Int.mul_ediv_cancel _ (by have := one_pos; omega)]; omega
  rw [coordinate_self hn hd, e, ofInt_exact (by omega), sub_exact (by rw [Int.sub_self]; exact rep_zero), Int.sub_self]

theorem inside_self {n : Nat} (hn : n ≤ 2 ^ 24) : Inside n n := by
  intro d hd
  rw [taps_self hn hd]
  simp only
  omega

theorem lerp_zero {a b : Int} (ha : Rep a) : lerp a b 0 = a := by
  unfold lerp
  rw [lit_one, sub_exact (by have := rep_one (m := 1) (by omega); rw [Nat.one_mul] at this; rwa [Int.sub_zero]),
    Int.sub_zero, mul_one_right ha, mul_zero, add_zero ha]

theorem toByte_nat (p : UInt8) : toByte ((p.toNat * one : Nat) : Int) = p := by
  unfold toByte
  have e : F32.round ((p.toNat * one : Nat) : Int) = p.toNat := by
    unfold F32.round
    rw [if_pos (Int.natCast_nonneg _), one_eq]
    omega
  have := p.toNat_lt
  rw [e, clampU8, if_neg (by omega), if_neg (by omega), Int.toNat_natCast]
  exact UInt8.ofNat_toNat

theorem bilinearByte_zero (p00 p01 p10 p11 : UInt8) : bilinearByte p00 p01 p10 p11 0 0 = p00 := by
  have hr : Rep (F32.ofInt p00.toNat) := rndI_rep _ _ (by omega)
  have h2 : Rep (F32.ofInt p10.toNat) := rndI_rep _ _ (by omega)
  unfold bilinearByte
  simp only
  rw [lerp_zero hr, lerp_zero h2, lerp_zero hr, ofInt_exact (by have := p00.toNat_lt; omega), toByte_nat]

/-! ### Lanczos -/

theorem rep_mul (a b : Int) : Rep (F32.mul a b) := rndI_rep _ _ one_pos
theorem rep_sub (a b : Int) : Rep (F32.sub a b) := rndI_rep _ _ (by omega)
theorem rep_add (a b : Int) : Rep (F32.add a b) := rndI_rep _ _ (by omega)

theorem sub_le_left {a b : Int} (ha : Rep a) (hb : 0 ≤ b) : F32.sub a b ≤ a :=
  rndI_le (by omega) ha (by omega)

theorem le_add_left {a b : Int} (ha : Rep a) (hb : 0 ≤ b) : a ≤ F32.add a b :=
  le_rndI (by omega) ha (by omega)

/-- The position of the middle of a pixel does not pass the edge by much. -/
theorem middle_le {src dst d : Nat} (hs : src ≤ 2 ^ 24) (ht : dst ≤ 2 ^ 24) (hd : d < dst) :
    F32.mul (F32.add (F32.ofInt d) (F32.lit 1 2)) (F32.div (F32.ofInt src) (F32.ofInt dst))
      ≤ (((src + 3) * one : Nat) : Int) := by
  have ha : F32.add (F32.ofInt d) (F32.lit 1 2) ≤ ((dst * one : Nat) : Int) := by
    rw [ofInt_exact (by omega), lit_half]
    refine rndI_le (by omega) (rep_one ht) ?_
    rw [one_eq]; omega
  have hr : F32.div (F32.ofInt src) (F32.ofInt dst) = (F32.rnd (src * one * one) (dst * one) : Nat) := by
    rw [ofInt_exact hs, ofInt_exact ht, F32.div, Int.toNat_natCast, rndI, if_pos]
    · rfl
    · exact Int.mul_nonneg (Int.natCast_nonneg _) (Int.natCast_nonneg _)
  have hb : F32.rnd (src * one * one) (dst * one) * dst ≤ (src + 2) * one := by
    have h := (rnd_rel (src * one * one) (dst * one) (Nat.mul_pos (by omega) one_pos)).1
    generalize F32.rnd (src * one * one) (dst * one) = r at *
    have e1 : r * (dst * one) = r * dst * one := by rw [Nat.mul_assoc]
    rw [e1] at h
    have h2 : 2 ^ 24 * (r * dst) ≤ 2 ^ 24 * (src * one) + src * one + 2 ^ 23 * dst := by
      refine Nat.le_of_mul_le_mul_right (?_ : _ * one ≤ _ * one) one_pos
      simp only [Nat.add_mul, Nat.mul_assoc] at *
      exact h
    generalize r * dst = R at *
    rw [one_eq] at *
    omega
  rw [hr]
  generalize F32.rnd (src * one * one) (dst * one) = r at *
  generalize F32.add (F32.ofInt d) (F32.lit 1 2) = a at *
  have h1 : a * r ≤ (((src + 2) * one : Nat) : Int) * one := by
    refine Int.le_trans (Int.mul_le_mul_of_nonneg_right ha (Int.natCast_nonneg r)) ?_
    rw [← Int.natCast_mul, ← Int.natCast_mul]
    have := Nat.mul_le_mul_right one hb
    rw [show dst * one * r = r * dst * one by rw [Nat.mul_comm, ← Nat.mul_assoc]]
    exact_mod_cast this
  by_cases h2 : src + 2 ≤ 2 ^ 24
  · refine Int.le_trans (rndI_le one_pos (rep_one h2) h1) ?_
    have := Nat.mul_le_mul_right one (show src + 2 ≤ src + 3 by omega)
    exact_mod_cast this
  · refine Int.le_trans (rndI_le (r := (((2 ^ 23 + 1) * 2 ^ 150 : Nat) : Int)) one_pos (rep_nat 150 (by omega)) ?_) ?_
    · refine Int.le_trans h1 (Int.mul_le_mul_of_nonneg_right ?_ (Int.natCast_nonneg _))
      rw [one_eq]; omega
    · rw [one_eq]; omega

theorem contribution_ok (sin : Int → Int) {src dst d : Nat} (hs : src ≤ 2 ^ 24) (ht : dst ≤ 2 ^ 24) (hd : d < dst) :
    ∃ k, contribution sin src dst d = .ok k ∧ k.start + k.weights.length ≤ src := by
  unfold contribution
  simp only
  have hm := middle_le hs ht hd
  generalize hmm : F32.mul (F32.add (F32.ofInt d) (F32.lit 1 2)) (F32.div (F32.ofInt src) (F32.ofInt dst)) = mid at *
  have hrm : Rep mid := by rw [← hmm]; exact rep_mul _ _
  have hc : F32.sub mid (F32.lit 1 2) ≤ mid := sub_le_left hrm (by rw [lit_half]; omega)
  have hrc : Rep (F32.sub mid (F32.lit 1 2)) := rep_sub _ _
  generalize F32.sub mid (F32.lit 1 2) = center at *
  have hf : (one : Int) ≤ max (F32.div (F32.ofInt src) (F32.ofInt dst)) (F32.lit 1 1) := by rw [lit_one]; omega
  generalize max (F32.div (F32.ofInt src) (F32.ofInt dst)) (F32.lit 1 1) = fs at *
  have hsup : ((3 * one : Nat) : Int) ≤ F32.mul (F32.lit 3 1) fs := by
    rw [lit_three]
    refine le_rndI one_pos (rep_one (by omega)) ?_
    exact Int.mul_le_mul_of_nonneg_left hf (Int.natCast_nonneg _)
  generalize F32.mul (F32.lit 3 1) fs = sup at *
  have hsup0 : 0 ≤ sup := by omega
  have h1 : F32.sub center sup ≤ center := sub_le_left hrc hsup0
  have h2 : center ≤ F32.add center sup := le_add_left hrc hsup0
  have h3 : F32.sub center sup ≤ ((src * one : Nat) : Int) := by
    refine rndI_le (by omega) (rep_one hs) ?_
    rw [one_eq] at *
    omega
  generalize F32.sub center sup = lo at *
  generalize F32.add center sup = hi at *
  have h4 : (F32.floor lo).toNat ≤ min ((F32.ceil hi).toNat + 1) src := by
    have h5 : F32.floor lo ≤ src := by
      unfold F32.floor
      rw [one_eq] at *
      omega
    have h6 : F32.floor lo ≤ F32.ceil hi := by
      unfold F32.floor F32.ceil
      rw [one_eq] at *
      omega
    omega
  rw [if_neg (by omega)]
  refine ⟨_, rfl, ?_⟩
  simp only
  split <;> simp <;> omega

theorem contributions_ok (sin : Int → Int) {src dst : Nat} (hs : src ≤ 2 ^ 24) (ht : dst ≤ 2 ^ 24) :
    ∃ cs, contributions sin src dst = .ok cs ∧ cs.length = dst ∧ ∀ k ∈ cs, k.start + k.weights.length ≤ src := by
  unfold contributions
  have key : ∀ l : List Nat, (∀ d ∈ l, d < dst) →
      ∃ cs, l.mapM (contribution sin src dst) = .ok cs ∧ cs.length = l.length ∧
        ∀ k ∈ cs, k.start + k.weights.length ≤ src := by
    intro l
    induction l with
    | nil => intro _; exact ⟨[], rfl, rfl, by simp⟩
    | cons a l ih =>
      intro h
      obtain ⟨k, h1, h2⟩ := contribution_ok sin hs ht (h a (by simp))
      obtain ⟨cs, h3, h4, h5⟩ := ih (fun d hd => h d (by simp [hd]))
      refine ⟨k :: cs, ?_, by simp [h4], ?_⟩
      · rw [List.mapM_cons, h1, ok_bind, h3, ok_bind]; rfl
      · intro q hq
        rcases List.mem_cons.1 hq with rfl | hq
        · exact h2
        · exact h5 q hq
  obtain ⟨cs, h1, h2, h3⟩ := key (List.range dst) (fun d hd => List.mem_range.1 hd)
  exact ⟨cs, h1, by rw [h2, List.length_range], h3⟩

/-- The weighted sum, without checks. -/
def weightedSum (bytes : List UInt8) (base stride : Nat) : List Int → Nat → Int → Int
  | [], _, sum => sum
  | w :: ws, i, sum =>
    weightedSum bytes base stride ws (i + 1) (F32.add sum (F32.mul (F32.ofInt (bytes.getD (base + i * stride) 0).toNat) w))

theorem weighted_ok (bytes : List UInt8) (base stride : Nat) : ∀ (ws : List Int) (i : Nat) (sum : Int),
    (∀ j, j < ws.length → base + (i + j) * stride < bytes.length) →
    weighted bytes base stride ws i sum = .ok (weightedSum bytes base stride ws i sum) := by
  intro ws
  induction ws with
  | nil => intro i sum _; rfl
  | cons w ws ih =>
    intro i sum h
    have h0 := h 0 (by simp)
    rw [Nat.add_zero] at h0
    rw [weighted, weightedSum, get_ok 0 h0, ok_bind]
    refine ih (i + 1) _ (fun j hj => ?_)
    have := h (j + 1) (by simp; omega)
    rwa [show i + (j + 1) = i + 1 + j by omega] at this

/-- A row after the horizontal pass. -/
def rowOf (row : List UInt8) (cs : List Contribution) (bpp : Nat) : List UInt8 :=
  (cs.map (fun k => (List.range bpp).map (fun c => toByte (weightedSum row (k.start * bpp + c) bpp k.weights 0 0)))).flatten

theorem horizontalRow_ok {row : List UInt8} {cs : List Contribution} {bpp sw : Nat} (hr : row.length = sw * bpp)
    (hc : ∀ k ∈ cs, k.start + k.weights.length ≤ sw) : horizontalRow row cs bpp = .ok (rowOf row cs bpp) := by
  unfold horizontalRow rowOf
  rw [Parallel.mapM_ok _ (fun k => (List.range bpp).map
    (fun c => toByte (weightedSum row (k.start * bpp + c) bpp k.weights 0 0))), ok_bind]
  · rfl
  · intro k hk
    refine Parallel.mapM_ok _ _ _ (fun c hcm => ?_)
    have hb := List.mem_range.1 hcm
    rw [weighted_ok, ok_bind]
    · rfl
    · intro j hj
      have h1 := hc k hk
      have h2 := Nat.mul_le_mul_right bpp (show k.start + j + 1 ≤ sw by omega)
      rw [Nat.succ_mul, Nat.add_mul] at h2
      rw [hr, Nat.zero_add]
      omega

theorem map_flatten_length {α β : Type} (l : List α) (g : α → List β) (k : Nat) (h : ∀ a ∈ l, (g a).length = k) :
    (l.map g).flatten.length = l.length * k := by
  induction l with
  | nil => simp
  | cons a l ih =>
    rw [List.map_cons, List.flatten_cons, List.length_append, h a (by simp), ih (fun x hx => h x (by simp [hx])),
      List.length_cons, Nat.succ_mul]
    omega

theorem rowOf_length (row : List UInt8) (cs : List Contribution) (bpp : Nat) :
    (rowOf row cs bpp).length = cs.length * bpp := by
  unfold rowOf
  exact map_flatten_length cs _ bpp (fun k _ => by simp)

/-- A row of the result. -/
def columnOf (temp : List UInt8) (k : Contribution) (width bpp : Nat) : List UInt8 :=
  ((List.range width).map (fun x => (List.range bpp).map (fun c =>
    toByte (weightedSum temp (k.start * (width * bpp) + x * bpp + c) (width * bpp) k.weights 0 0)))).flatten

theorem verticalRow_ok {temp : List UInt8} {k : Contribution} {width bpp sh : Nat}
    (ht : temp.length = sh * (width * bpp)) (hk : k.start + k.weights.length ≤ sh) :
    verticalRow temp k width bpp = .ok (columnOf temp k width bpp) := by
  unfold verticalRow columnOf
  rw [Parallel.mapM_ok _ (fun x => (List.range bpp).map (fun c =>
    toByte (weightedSum temp (k.start * (width * bpp) + x * bpp + c) (width * bpp) k.weights 0 0))), ok_bind]
  · rfl
  · intro x hx
    refine Parallel.mapM_ok _ _ _ (fun c hcm => ?_)
    have hb := List.mem_range.1 hcm
    have hx' := List.mem_range.1 hx
    rw [weighted_ok, ok_bind]
    · rfl
    · intro j hj
      have h2 := Nat.mul_le_mul_right (width * bpp) (show k.start + j + 1 ≤ sh by omega)
      have h3 := Nat.mul_le_mul_right bpp (show x + 1 ≤ width by omega)
      rw [Nat.succ_mul] at h3
      rw [Nat.succ_mul, Nat.add_mul] at h2
      rw [ht, Nat.zero_add]
      omega

theorem columnOf_length (temp : List UInt8) (k : Contribution) (width bpp : Nat) :
    (columnOf temp k width bpp).length = width * bpp := by
  unfold columnOf
  exact flatten_length width bpp _ (fun i _ => by simp)

/-- The result of Lanczos from its contributions, whatever the schedules are. -/
def lanczosOf (data : List UInt8) (hc vc : List Contribution) (sw sh dw dh bpp : Nat) : List UInt8 :=
  ((List.range dh).map (fun y => columnOf
    ((List.range sh).map (fun y => rowOf ((data.drop (y * (sw * bpp))).take (sw * bpp)) hc bpp)).flatten
    (vc.getD y ⟨0, []⟩) dw bpp)).flatten

theorem lanczos3_eq {env : Env} {data : List UInt8} {sw sh dw dh bpp : Nat} {hc vc : List Contribution}
    (hl : data.length = sw * sh * bpp) (h1 : Parallel.Fair env.horizontal sh) (h2 : Parallel.Fair env.vertical dh)
    (e1 : contributions env.sin sw dw = .ok hc) (l1 : hc.length = dw) (b1 : ∀ k ∈ hc, k.start + k.weights.length ≤ sw)
    (e2 : contributions env.sin sh dh = .ok vc) (l2 : vc.length = dh) (b2 : ∀ k ∈ vc, k.start + k.weights.length ≤ sh) :
    lanczos3 env data sw sh dw dh bpp = .ok (lanczosOf data hc vc sw sh dw dh bpp) := by
  have hrow : ∀ y, y < sh → (do
      let row ← slice data (y * (sw * bpp)) (sw * bpp)
      horizontalRow row hc bpp) = .ok (rowOf ((data.drop (y * (sw * bpp))).take (sw * bpp)) hc bpp) := by
    intro y hy
    have h3 : y * (sw * bpp) + sw * bpp ≤ data.length := by
      have := Nat.mul_le_mul_right (sw * bpp) (show y + 1 ≤ sh by omega)
      rw [Nat.succ_mul, ← Nat.mul_assoc sh, Nat.mul_comm sh] at this
      omega
    rw [slice_ok h3, ok_bind]
    exact horizontalRow_ok (sw := sw) (by rw [List.length_take, List.length_drop]; omega) b1
  have htemp : ((List.range sh).map (fun y => rowOf ((data.drop (y * (sw * bpp))).take (sw * bpp)) hc bpp)).flatten.length
      = sh * (dw * bpp) :=
    flatten_length sh (dw * bpp) _ (fun y _ => by rw [rowOf_length, l1])
  unfold lanczosOf
  generalize ht : ((List.range sh).map (fun y => rowOf ((data.drop (y * (sw * bpp))).take (sw * bpp)) hc bpp)).flatten
    = temp at htemp
  have hcol : ∀ y, y < dh → (do
      let k ← getChecked vc y
      verticalRow temp k dw bpp) = .ok (columnOf temp (vc.getD y ⟨0, []⟩) dw bpp) := by
    intro y hy
    rw [get_ok ⟨0, []⟩ (by omega), ok_bind]
    refine verticalRow_ok htemp (b2 _ ?_)
    rw [List.getD_eq_getElem?_getD, List.getElem?_eq_getElem (by omega)]
    exact List.getElem_mem _
  unfold lanczos3
  rw [e1, ok_bind, e2, ok_bind, Parallel.loop_ok _ _ h1 hrow, ok_bind, ht, Parallel.loop_ok _ _ h2 hcol, ok_bind]
  rfl

theorem lanczosOf_length (data : List UInt8) (hc vc : List Contribution) (sw sh dw dh bpp : Nat) :
    (lanczosOf data hc vc sw sh dw dh bpp).length = dw * dh * bpp := by
  unfold lanczosOf
  rw [flatten_length dh (dw * bpp) _ (fun y _ => columnOf_length _ _ _ _), ← Nat.mul_assoc, Nat.mul_comm dh]

/-- Lanczos succeeds, whatever the sine and the schedules are, and the schedules do not matter. -/
theorem lanczos3_ok {env : Env} {data : List UInt8} {sw sh dw dh bpp : Nat} (hw : sw ≤ 2 ^ 24) (hh : sh ≤ 2 ^ 24)
    (hdw : dw ≤ 2 ^ 24) (hdh : dh ≤ 2 ^ 24) (hl : data.length = sw * sh * bpp)
    (h1 : Parallel.Fair env.horizontal sh) (h2 : Parallel.Fair env.vertical dh) :
    ∃ out, lanczos3 env data sw sh dw dh bpp = .ok out ∧ out.length = dw * dh * bpp ∧
      lanczos3 ⟨env.sin, none, none⟩ data sw sh dw dh bpp = .ok out := by
  obtain ⟨hc, e1, l1, b1⟩ := contributions_ok env.sin hw hdw
  obtain ⟨vc, e2, l2, b2⟩ := contributions_ok env.sin hh hdh
  have hf0 : ∀ n, Parallel.Fair none n := fun n o ho => by cases ho
  exact ⟨_, lanczos3_eq hl h1 h2 e1 l1 b1 e2 l2 b2, lanczosOf_length _ _ _ _ _ _ _ _,
    lanczos3_eq (env := ⟨env.sin, none, none⟩) hl (hf0 _) (hf0 _) e1 l1 b1 e2 l2 b2⟩

end Pixo.Resize
