import Verif.Model.Idct
import Verif.Proof.JpegMcus
import Verif.Proof.JpegSamples
/-
The passes of the inverse transform without overflow.
-/
namespace Pixo.Idct
open Pixo

/-- What the even part contributes to position `x`. -/
def evenI (d : Nat → Int) (x : Nat) : Int :=
  8192 * d 0 + ([1, -1, -1, 1, 1, -1, -1, 1] : List Int).getD x 0 * (8192 * d 4) +
    ([10703, 4433, -4433, -10703, -10703, -4433, 4433, 10703] : List Int).getD x 0 * d 2 +
    ([4433, -10704, 10704, -4433, -4433, 10704, -10704, 4433] : List Int).getD x 0 * d 6

/-- What the odd part contributes to position `x`. -/
def oddI (d : Nat → Int) (x : Nat) : Int :=
  let m (a b : Int) := a * b / 2 ^ 13
  let z5 := m (d 1 + d 5) 9633
  let z1 := m (d 1 + d 7) (-7373)
  let z2 := m (d 3 + d 5) (-20995)
  let z3 := m (d 5 + d 7) (-16069) + z5
  let z4 := m (d 1 + d 3) (-3196) + z5
  let o0 := m (d 1) 2446 + z1 + z3
  let o1 := m (d 3) 16819 + z2 + z4
  let o2 := m (d 5) 25172 + z2 + z3
  let o3 := m (d 7) 12299 + z1 + z4
  [o3, o2, o1, o0, -o0, -o1, -o2, -o3].getD x 0

theorem oddI_bound {d : Nat → Int} {b : Int} (h : ∀ i < 8, -b ≤ d i ∧ d i ≤ b) (x : Nat) (hx : x < 8) :
    -(6 * b + 5) ≤ oddI d x ∧ oddI d x ≤ 6 * b + 5 := by
  have h1 := h 1 (by omega)
  have h3 := h 3 (by omega)
  have h5 := h 5 (by omega)
  have h7 := h 7 (by omega)
  unfold oddI
  match x, hx with
  | 0, _ | 1, _ | 2, _ | 3, _ | 4, _ | 5, _ | 6, _ | 7, _ =>
    simp only [List.getD_cons_zero, List.getD_cons_succ]
    omega

theorem oddI_zero {d : Nat → Int} (h : d 1 = 0 ∧ d 3 = 0 ∧ d 5 = 0 ∧ d 7 = 0) (x : Nat) (hx : x < 8) : oddI d x = 0 := by
  unfold oddI
  rw [h.1, h.2.1, h.2.2.1, h.2.2.2]
  match x, hx with
  | 0, _ | 1, _ | 2, _ | 3, _ | 4, _ | 5, _ | 6, _ | 7, _ => rfl

theorem evenI_bound {d : Nat → Int} {b : Int} (h : ∀ i < 8, -b ≤ d i ∧ d i ≤ b) (x : Nat) (hx : x < 8) :
    -(31521 * b) ≤ evenI d x ∧ evenI d x ≤ 31521 * b := by
  have h0 := h 0 (by omega)
  have h2 := h 2 (by omega)
  have h4 := h 4 (by omega)
  have h6 := h 6 (by omega)
  unfold evenI
  match x, hx with
  | 0, _ | 1, _ | 2, _ | 3, _ | 4, _ | 5, _ | 6, _ | 7, _ =>
    simp only [List.getD_cons_zero, List.getD_cons_succ]
    omega

theorem wrap32_id {v : Int} (h : -2 ^ 31 ≤ v ∧ v < 2 ^ 31) : wrap32 v = v := by
  unfold wrap32; omega

theorem i32_fits {ck : Bool} {v : Int} (h : -2 ^ 31 ≤ v ∧ v < 2 ^ 31) : i32 ck v = .ok v := by
  unfold i32; rw [if_pos h]

theorem fixMul_id {a b : Int} (h : -2 ^ 31 ≤ a * b / 2 ^ 13 ∧ a * b / 2 ^ 13 < 2 ^ 31) : fixMul a b = a * b / 2 ^ 13 := by
  unfold fixMul; exact wrap32_id h

theorem even_eq {ck : Bool} {a b c d : Int} (ha : -66000 ≤ a ∧ a ≤ 66000) (hb : -66000 ≤ b ∧ b ≤ 66000)
    (hc : -66000 ≤ c ∧ c ≤ 66000) (hd : -66000 ≤ d ∧ d ≤ 66000) :
    even ck a b c d = .ok (8192 * (a + c) + (10703 * b + 4433 * d), 8192 * (a - c) + (4433 * b - 10704 * d),
      8192 * (a - c) - (4433 * b - 10704 * d), 8192 * (a + c) - (10703 * b + 4433 * d)) := by
  unfold even
  simp only
  rw [wrap32_id (v := a * 2 ^ 13) (by omega), wrap32_id (v := b * 2 ^ 13) (by omega), wrap32_id (v := c * 2 ^ 13) (by omega),
    wrap32_id (v := d * 2 ^ 13) (by omega)]
  rw [i32_fits (v := a * 2 ^ 13 + c * 2 ^ 13) (by omega), ok_bind, i32_fits (v := a * 2 ^ 13 - c * 2 ^ 13) (by omega), ok_bind,
    i32_fits (v := b * 2 ^ 13 + d * 2 ^ 13) (by omega), ok_bind]
  rw [fixMul_id (a := b * 2 ^ 13 + d * 2 ^ 13) (by omega), fixMul_id (a := b * 2 ^ 13) (by omega),
    fixMul_id (a := d * 2 ^ 13) (by omega)]
  rw [show (b * 2 ^ 13 + d * 2 ^ 13) * 4433 / 2 ^ 13 = (b + d) * 4433 by omega, show d * 2 ^ 13 * 15137 / 2 ^ 13 = d * 15137 by omega,
    show b * 2 ^ 13 * 6270 / 2 ^ 13 = b * 6270 by omega]
  rw [i32_fits (v := (b + d) * 4433 - d * 15137) (by omega), ok_bind, i32_fits (v := (b + d) * 4433 + b * 6270) (by omega), ok_bind]
  rw [i32_fits (by omega), ok_bind, i32_fits (by omega), ok_bind, i32_fits (by omega), ok_bind, i32_fits (by omega), ok_bind]
  show Except.ok _ = Except.ok _
  refine congrArg Except.ok (Prod.ext ?_ (Prod.ext ?_ (Prod.ext ?_ ?_))) <;> simp only <;> omega

theorem odd_eq {ck : Bool} {d : Nat → Int} (h : ∀ i < 8, -66000 ≤ d i ∧ d i ≤ 66000) :
    odd ck (d 1) (d 3) (d 5) (d 7) = .ok (oddI d 3, oddI d 2, oddI d 1, oddI d 0) := by
  have h1 := h 1 (by omega)
  have h3 := h 3 (by omega)
  have h5 := h 5 (by omega)
  have h7 := h 7 (by omega)
  unfold odd
  simp only
  rw [i32_fits (v := d 1 + d 5) (by omega), ok_bind, i32_fits (v := d 1 + d 7) (by omega), ok_bind,
    i32_fits (v := d 3 + d 5) (by omega), ok_bind, i32_fits (v := d 5 + d 7) (by omega), ok_bind,
    i32_fits (v := d 1 + d 3) (by omega), ok_bind]
  rw [fixMul_id (a := d 1 + d 5) (by omega), fixMul_id (a := d 1 + d 7) (by omega), fixMul_id (a := d 3 + d 5) (by omega),
    fixMul_id (a := d 5 + d 7) (by omega), fixMul_id (a := d 1 + d 3) (by omega), fixMul_id (a := d 1) (by omega),
    fixMul_id (a := d 3) (by omega), fixMul_id (a := d 5) (by omega), fixMul_id (a := d 7) (by omega)]
  iterate 10 rw [i32_fits (by omega), ok_bind]
  rfl

theorem pass_eq {ck : Bool} {l : List Int} {d : Nat → Int} (hl : ∀ i < 8, l.getD i 0 = d i)
    (h : ∀ i < 8, -66000 ≤ d i ∧ d i ≤ 66000) :
    pass ck l = .ok ((List.range 8).map (fun x => evenI d x + oddI d x)) := by
  unfold pass
  rw [hl 0 (by omega), hl 1 (by omega), hl 2 (by omega), hl 3 (by omega), hl 4 (by omega), hl 5 (by omega), hl 6 (by omega),
    hl 7 (by omega)]
  rw [even_eq (h 0 (by omega)) (h 2 (by omega)) (h 4 (by omega)) (h 6 (by omega)), ok_bind]
  simp only
  rw [odd_eq h, ok_bind]
  simp only
  have e : ∀ x < 8, -(31521 * 66000) ≤ evenI d x ∧ evenI d x ≤ 31521 * 66000 := evenI_bound h
  have o : ∀ x < 8, -(6 * 66000 + 5) ≤ oddI d x ∧ oddI d x ≤ 6 * 66000 + 5 := oddI_bound h
  have key : ∀ x < 8, i32 ck (evenI d x + oddI d x) = .ok (evenI d x + oddI d x) := by
    intro x hx
    have := e x hx
    have := o x hx
    exact i32_fits (by omega)
  have hr : List.range 8 = [0, 1, 2, 3, 4, 5, 6, 7] := rfl
  rw [hr]
  simp only [List.map_cons, List.map_nil]
  have n4 : oddI d 4 = -oddI d 3 := rfl
  have n5 : oddI d 5 = -oddI d 2 := rfl
  have n6 : oddI d 6 = -oddI d 1 := rfl
  have n7 : oddI d 7 = -oddI d 0 := rfl
  have ev : 8192 * (d 0 + d 4) + (10703 * d 2 + 4433 * d 6) = evenI d 0 ∧
      8192 * (d 0 - d 4) + (4433 * d 2 - 10704 * d 6) = evenI d 1 ∧
      8192 * (d 0 - d 4) - (4433 * d 2 - 10704 * d 6) = evenI d 2 ∧
      8192 * (d 0 + d 4) - (10703 * d 2 + 4433 * d 6) = evenI d 3 ∧
      evenI d 4 = evenI d 3 ∧ evenI d 5 = evenI d 2 ∧ evenI d 6 = evenI d 1 ∧ evenI d 7 = evenI d 0 := by
    simp only [evenI, List.getD_cons_zero, List.getD_cons_succ]
    refine ⟨?_, ?_, ?_, ?_, ?_⟩
    · omega
    · omega
    · omega
    · omega
    · trivial
  obtain ⟨e0, e1, e2, e3, e4, e5, e6, e7⟩ := ev
  rw [e0, e1, e2, e3]
  have k4 := key 4 (by omega)
  have k5 := key 5 (by omega)
  have k6 := key 6 (by omega)
  have k7 := key 7 (by omega)
  rw [n4, e4, ← Int.sub_eq_add_neg] at k4
  rw [n5, e5, ← Int.sub_eq_add_neg] at k5
  rw [n6, e6, ← Int.sub_eq_add_neg] at k6
  rw [n7, e7, ← Int.sub_eq_add_neg] at k7
  simp only [List.mapM_cons, List.mapM_nil, key 0 (by omega), key 1 (by omega), key 2 (by omega), key 3 (by omega), k4, k5, k6, k7,
    ok_bind]
  rw [n4, n5, n6, n7, e4, e5, e6, e7, ← Int.sub_eq_add_neg, ← Int.sub_eq_add_neg, ← Int.sub_eq_add_neg, ← Int.sub_eq_add_neg]
  rfl

/-- The workspace after the first pass: column `c`, row `y`. -/
def work (coeffs : List Int) (c y : Nat) : Int :=
  (evenI (fun r => coeffs.getD (c + 8 * r) 0) y + oddI (fun r => coeffs.getD (c + 8 * r) 0) y + 2 ^ 10) / 2 ^ 11

/-- The sum for the sample in row `y`, column `x`. -/
def total (coeffs : List Int) (y x : Nat) : Int :=
  evenI (fun c => work coeffs c y) x + oddI (fun c => work coeffs c y) x

/-- The sample. -/
def sample (coeffs : List Int) (y x : Nat) : UInt8 :=
  UInt8.ofNat (min (max ((total coeffs y x + 2 ^ 17) / 2 ^ 18 + 128) 0) 255).toNat

theorem work_bound {coeffs : List Int} {b : Int} (h : ∀ i < 64, -b ≤ coeffs.getD i 0 ∧ coeffs.getD i 0 ≤ b)
    (c y : Nat) (hc : c < 8) (hy : y < 8) : -(16 * b + 1) ≤ work coeffs c y ∧ work coeffs c y ≤ 16 * b + 1 := by
  have e := evenI_bound (d := fun r => coeffs.getD (c + 8 * r) 0) (b := b) (fun i hi => h _ (by omega)) y hy
  have o := oddI_bound (d := fun r => coeffs.getD (c + 8 * r) 0) (b := b) (fun i hi => h _ (by omega)) y hy
  unfold work
  omega

theorem range_getD {α : Type} (f : Nat → α) (n i : Nat) (h : i < n) (d : α) : ((List.range n).map f).getD i d = f i := by
  rw [List.getD_eq_getElem?_getD, List.getElem?_map, List.getElem?_range h]; rfl

/-- Without overflow the transform gives the samples. -/
theorem idct_eq {ck : Bool} {coeffs : List Int} (h : ∀ i < 64, -4096 ≤ coeffs.getD i 0 ∧ coeffs.getD i 0 ≤ 4096) :
    idct ck coeffs = .ok ((List.range 8).flatMap (fun y => (List.range 8).map (fun x => sample coeffs y x))) := by
  have hw := work_bound (b := 4096) h
  unfold idct
  have h1 : (List.range 8).mapM (fun c => do
      let p ← pass ck ((List.range 8).map (fun r => coeffs.getD (c + 8 * r) 0))
      p.mapM (descale1 ck)) = (.ok ((List.range 8).map (fun c => (List.range 8).map (fun y => work coeffs c y))) : R _) := by
    refine Jpeg.mapM_pure _ _ _ ?_
    intro c hc
    have hc := List.mem_range.1 hc
    have hd : ∀ i < 8, -4096 ≤ coeffs.getD (c + 8 * i) 0 ∧ coeffs.getD (c + 8 * i) 0 ≤ 4096 := fun i hi => h _ (by omega)
    rw [pass_eq (d := fun r => coeffs.getD (c + 8 * r) 0) (fun i hi => range_getD _ 8 i hi 0)
      (fun i hi => by have := hd i hi; omega), ok_bind, List.mapM_map]
    refine Jpeg.mapM_pure _ _ _ ?_
    intro y hy
    have hy := List.mem_range.1 hy
    have e := evenI_bound (d := fun r => coeffs.getD (c + 8 * r) 0) (b := 4096) hd y hy
    have o := oddI_bound (d := fun r => coeffs.getD (c + 8 * r) 0) (b := 4096) hd y hy
    rw [Function.comp_apply]
    unfold descale1 work
    rw [i32_fits (by omega)]
    rfl
  rw [h1, ok_bind]
  have h2 : (List.range 8).mapM (fun r => do
      let p ← pass ck ((List.range 8).map (fun c => (((List.range 8).map (fun c => (List.range 8).map
        (fun y => work coeffs c y))).getD c []).getD r 0))
      p.mapM (descale2 ck)) = (.ok ((List.range 8).map (fun y => (List.range 8).map (fun x => sample coeffs y x))) : R _) := by
    refine Jpeg.mapM_pure _ _ _ ?_
    intro y hy
    have hy := List.mem_range.1 hy
    have hd : ∀ i < 8, -(16 * 4096 + 1) ≤ work coeffs i y ∧ work coeffs i y ≤ 16 * 4096 + 1 := fun i hi => hw i y hi hy
    rw [pass_eq (d := fun c => work coeffs c y) (fun i hi => by
        rw [range_getD _ 8 i hi 0, range_getD _ 8 i hi [], range_getD _ 8 y hy 0])
      (fun i hi => by have := hd i hi; omega), ok_bind, List.mapM_map]
    refine Jpeg.mapM_pure _ _ _ ?_
    intro x hx
    have hx := List.mem_range.1 hx
    have e := evenI_bound (d := fun c => work coeffs c y) hd x hx
    have o := oddI_bound (d := fun c => work coeffs c y) hd x hx
    rw [Function.comp_apply]
    unfold descale2 sample total
    rw [i32_fits (by omega)]
    rfl
  rw [h2, ok_bind, List.flatMap_def]
  rfl

end Pixo.Idct
