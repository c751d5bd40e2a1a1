import Verif.Proof.ResizeLanczos
import Verif.Proof.ResizeIdentity
/-
C37 (validation and size), C38 (nearest neighbour and identity), C39 (bilinear stays inside), C52
(bilinear interpolates), C53 (the Lanczos kernel) and the part of C25 about resizing.
-/
namespace Pixo.Props
open Pixo.Resize (Options Algorithm Env)
open Spec.Resample

/-- What resizing accepts: positive dimensions of at most `2^24` and as many bytes as the source has. -/
structure Accepted (data : List UInt8) (o : Options) : Prop where
  srcWidth : 0 < o.srcWidth ∧ o.srcWidth ≤ 2 ^ 24
  srcHeight : 0 < o.srcHeight ∧ o.srcHeight ≤ 2 ^ 24
  dstWidth : 0 < o.dstWidth ∧ o.dstWidth ≤ 2 ^ 24
  dstHeight : 0 < o.dstHeight ∧ o.dstHeight ≤ 2 ^ 24
  length : data.length = o.srcWidth * o.srcHeight * o.colorType.bytesPerPixel

/-- Every row task of Lanczos runs, in any order. -/
def Fair (env : Env) (o : Options) : Prop :=
  (∀ order, env.horizontal = some order → ∀ y, y ∈ order ↔ y < o.srcHeight) ∧
  (∀ order, env.vertical = some order → ∀ y, y ∈ order ↔ y < o.dstHeight)

theorem validate_ok {data : List UInt8} {o : Options} (h : Accepted data o) : Resize.validate data o = .ok () := by
  have h1 := h.srcWidth
  have h2 := h.srcHeight
  have h3 := h.dstWidth
  have h4 := h.dstHeight
  have hm : Resize.maxDimension = 2 ^ 24 := rfl
  unfold Resize.validate
  rw [hm, if_neg (by omega), if_neg (by omega), if_neg (by omega)]
  simp only
  rw [if_neg (by rw [h.length]; simp)]

theorem resize_run (env : Env) {data : List UInt8} {o : Options} (h : Accepted data o) :
    Resize.resize env data o = Resize.run env data o := by
  unfold Resize.resize Resize.resizeInto
  rw [validate_ok h]
  simp only
  cases Resize.run env data o <;> rfl

/-! ## C37 -/

/-- C37: the errors, in the documented order: source dimensions, new dimensions, the limit, the length. -/
theorem C37_validation (env : Env) (output data : List UInt8) (o : Options) :
    (o.srcWidth = 0 ∨ o.srcHeight = 0 →
      Resize.resizeInto env output data o = (.error (.dimensions o.srcWidth o.srcHeight), output)) ∧
    (0 < o.srcWidth → 0 < o.srcHeight → o.dstWidth = 0 ∨ o.dstHeight = 0 →
      Resize.resizeInto env output data o = (.error (.dimensions o.dstWidth o.dstHeight), output)) ∧
    (0 < o.srcWidth → 0 < o.srcHeight → 0 < o.dstWidth → 0 < o.dstHeight →
      (2 ^ 24 < o.srcWidth ∨ 2 ^ 24 < o.srcHeight ∨ 2 ^ 24 < o.dstWidth ∨ 2 ^ 24 < o.dstHeight) →
      Resize.resizeInto env output data o
        = (.error (.tooLarge (max o.srcWidth o.dstWidth) (max o.srcHeight o.dstHeight) (2 ^ 24)), output)) ∧
    (0 < o.srcWidth → 0 < o.srcHeight → 0 < o.dstWidth → 0 < o.dstHeight →
      o.srcWidth ≤ 2 ^ 24 → o.srcHeight ≤ 2 ^ 24 → o.dstWidth ≤ 2 ^ 24 → o.dstHeight ≤ 2 ^ 24 →
      data.length ≠ o.srcWidth * o.srcHeight * o.colorType.bytesPerPixel →
      Resize.resizeInto env output data o
        = (.error (.dataLength (o.srcWidth * o.srcHeight * o.colorType.bytesPerPixel) data.length), output)) := by
  have hm : Resize.maxDimension = 2 ^ 24 := rfl
  refine ⟨?_, ?_, ?_, ?_⟩
  · intro h
    unfold Resize.resizeInto Resize.validate
    rw [if_pos h]
  · intro h1 h2 h3
    unfold Resize.resizeInto Resize.validate
    rw [if_neg (by omega), if_pos h3]
  · intro h1 h2 h3 h4 h5
    unfold Resize.resizeInto Resize.validate
    rw [if_neg (by omega), if_neg (by omega), hm, if_pos (by omega)]
  · intro h1 h2 h3 h4 h5 h6 h7 h8 h9
    unfold Resize.resizeInto Resize.validate
    rw [if_neg (by omega), if_neg (by omega), hm, if_neg (by omega)]
    simp only
    rw [if_pos h9]

/-- A result is an error of validation, a panic, or pixels: nothing else. -/
theorem validate_error {data : List UInt8} {o : Options} {e : Err} (h : Resize.validate data o = .error e) :
    ¬ Accepted data o := by
  intro ha
  rw [validate_ok ha] at h
  cases h

theorem accepted_of_validate {data : List UInt8} {o : Options} (h : Resize.validate data o = .ok ()) : Accepted data o := by
  have hm : Resize.maxDimension = 2 ^ 24 := rfl
  unfold Resize.validate at h
  rw [hm] at h
  split at h
  · cases h
  · split at h
    · cases h
    · split at h
      · cases h
      · simp only at h
        split at h
        · cases h
        · refine ⟨by omega, by omega, by omega, by omega, by omega⟩

/-- The only way a run fails is a panic. -/
def OnlyPanic {α : Type} (x : R α) : Prop := ∀ e, x = .error e → e = .panic

theorem OnlyPanic.bind {α β : Type} {x : R α} {f : α → R β} (h : OnlyPanic x) (hf : ∀ a, OnlyPanic (f a)) :
    OnlyPanic (x >>= f) := by
  cases x with
  | ok a => exact hf a
  | error e => intro e' he; cases he; exact h e rfl

theorem OnlyPanic.ok {α : Type} (a : α) : OnlyPanic (.ok a : R α) := fun e h => by cases h

theorem OnlyPanic.pure {α : Type} (a : α) : OnlyPanic (Pure.pure a : R α) := fun e h => by cases h

theorem OnlyPanic.get {α : Type} (l : List α) (i : Nat) : OnlyPanic (getChecked l i) := by
  unfold getChecked
  split
  · exact .ok _
  · intro e h; cases h; rfl

theorem OnlyPanic.mapM {α β : Type} (f : α → R β) (l : List α) (h : ∀ a, OnlyPanic (f a)) : OnlyPanic (l.mapM f) := by
  induction l with
  | nil => exact .pure _
  | cons a l ih =>
    rw [List.mapM_cons]
    exact .bind (h a) fun b => .bind ih fun bs => .pure _

theorem mapM_inv {α β : Type} (f : α → R β) : ∀ (l : List α) (r : List β), l.mapM f = .ok r →
    r.length = l.length ∧ (∀ b ∈ r, ∃ a ∈ l, f a = .ok b) ∧ (∀ a ∈ l, ∃ b, f a = .ok b) := by
  intro l
  induction l with
  | nil => intro r h; cases h; exact ⟨rfl, by simp, by simp⟩
  | cons a l ih =>
    intro r h
    rw [List.mapM_cons] at h
    cases hf : f a with
    | error e => rw [hf] at h; cases h
    | ok b =>
      rw [hf, ok_bind] at h
      cases hl : l.mapM f with
      | error e => rw [hl] at h; cases h
      | ok bs =>
        rw [hl, ok_bind] at h
        cases h
        obtain ⟨h1, h2, h3⟩ := ih bs hl
        refine ⟨by simp [h1], ?_, ?_⟩
        · intro c hc
          rcases List.mem_cons.1 hc with rfl | hc
          · exact ⟨a, by simp, hf⟩
          · obtain ⟨x, hx, hfx⟩ := h2 c hc
            exact ⟨x, by simp [hx], hfx⟩
        · intro x hx
          rcases List.mem_cons.1 hx with rfl | hx
          · exact ⟨b, hf⟩
          · exact h3 x hx

theorem flatten_len {α : Type} (l : List (List α)) (k : Nat) (h : ∀ a ∈ l, a.length = k) :
    l.flatten.length = l.length * k := by
  induction l with
  | nil => simp
  | cons a l ih =>
    rw [List.flatten_cons, List.length_append, h a (by simp), ih (fun x hx => h x (by simp [hx])),
      List.length_cons, Nat.succ_mul]
    omega

theorem bilinear_onlyPanic (data : List UInt8) (sw sh dw dh bpp : Nat) :
    OnlyPanic (Resize.bilinear data sw sh dw dh bpp) := by
  unfold Resize.bilinear
  refine .bind (.mapM _ _ fun y => ?_) fun _ => .pure _
  refine .bind (.mapM _ _ fun x => ?_) fun _ => .pure _
  refine .mapM _ _ fun c => ?_
  exact .bind (.get _ _) fun _ => .bind (.get _ _) fun _ => .bind (.get _ _) fun _ => .bind (.get _ _) fun _ => .pure _

theorem bind_inv {α β : Type} {x : R α} {f : α → R β} {b : β} (h : x >>= f = .ok b) : ∃ a, x = .ok a ∧ f a = .ok b := by
  cases x with
  | ok a => exact ⟨a, rfl, h⟩
  | error e => cases h

theorem bilinear_inv {data out : List UInt8} {sw sh dw dh bpp : Nat} (h : Resize.bilinear data sw sh dw dh bpp = .ok out) :
    out.length = dw * dh * bpp ∧ ∀ x y c, x < dw → y < dh → c < bpp →
      ((Resize.taps sh dh y).1 * sw + (Resize.taps sw dw x).1) * bpp + c < data.length := by
  unfold Resize.bilinear at h
  obtain ⟨rows, hr, h⟩ := bind_inv h
  cases h
  obtain ⟨h1, h2, h3⟩ := mapM_inv _ _ _ hr
  constructor
  · rw [flatten_len _ (dw * bpp), h1, List.length_range]
    · rw [← Nat.mul_assoc, Nat.mul_comm dh]
    · intro row hrow
      obtain ⟨y, _, hy⟩ := h2 row hrow
      obtain ⟨pixels, hp, hy⟩ := bind_inv hy
      cases hy
      obtain ⟨h4, h5, _⟩ := mapM_inv _ _ _ hp
      rw [flatten_len _ bpp, h4, List.length_range]
      intro p hpm
      obtain ⟨x, _, hx⟩ := h5 p hpm
      obtain ⟨h6, _, _⟩ := mapM_inv _ _ _ hx
      rw [h6, List.length_range]
  · intro x y c hx hy hc
    obtain ⟨row, hrow⟩ := h3 y (List.mem_range.2 hy)
    obtain ⟨pixels, hp, _⟩ := bind_inv hrow
    obtain ⟨_, _, h6⟩ := mapM_inv _ _ _ hp
    obtain ⟨p, hpx⟩ := h6 x (List.mem_range.2 hx)
    obtain ⟨_, _, h7⟩ := mapM_inv _ _ _ hpx
    obtain ⟨b, hb⟩ := h7 c (List.mem_range.2 hc)
    refine Nat.lt_of_not_le fun hle => ?_
    obtain ⟨p00, h00, _⟩ := bind_inv hb
    change getChecked data (((Resize.taps sh dh y).1 * sw + (Resize.taps sw dw x).1) * bpp + c) = .ok p00 at h00
    rw [getChecked, List.getElem?_eq_none hle] at h00
    cases h00

theorem nearest_total (env : Env) {data : List UInt8} {o : Options} (h : Accepted data o) (ha : o.algorithm = .nearest) :
    ∃ out, Resize.resize env data o = .ok out ∧ out.length = o.dstWidth * o.dstHeight * o.colorType.bytesPerPixel := by
  rw [resize_run env h, Resize.run, ha]
  simp only
  rw [Resize.nearest_ok h.srcWidth.1 h.srcHeight.1 h.srcWidth.2 h.srcHeight.2 h.length]
  refine ⟨_, rfl, ?_⟩
  rw [Resize.flatten_length _ (o.dstWidth * o.colorType.bytesPerPixel)]
  · rw [← Nat.mul_assoc, Nat.mul_comm o.dstHeight]
  · intro y _
    exact Resize.flatten_length _ _ _ (fun x _ =>
      Resize.nearestPixel_length h.srcWidth.1 h.srcHeight.1 h.srcWidth.2 h.srcHeight.2 h.length x y)

theorem lanczos_total {env : Env} {data : List UInt8} {o : Options} (h : Accepted data o) (hf : Fair env o)
    (ha : o.algorithm = .lanczos3) :
    ∃ out, Resize.resize env data o = .ok out ∧ out.length = o.dstWidth * o.dstHeight * o.colorType.bytesPerPixel ∧
      Resize.resize ⟨env.sin, none, none⟩ data o = .ok out := by
  rw [resize_run env h, resize_run _ h, Resize.run, Resize.run, ha]
  simp only
  exact Resize.lanczos3_ok h.srcWidth.2 h.srcHeight.2 h.dstWidth.2 h.dstHeight.2 h.length hf.1 hf.2

/-- C37: pixels that are returned fill the new image exactly, for every algorithm. -/
theorem C37_size (env : Env) (output data out : List UInt8) (o : Options) (hf : Fair env o)
    (h : Resize.resizeInto env output data o = (.ok (), out)) :
    out.length = o.dstWidth * o.dstHeight * o.colorType.bytesPerPixel := by
  unfold Resize.resizeInto at h
  cases hv : Resize.validate data o with
  | error e => rw [hv] at h; simp only at h; cases h
  | ok u =>
    rw [hv] at h
    simp only at h
    have ha := accepted_of_validate hv
    cases hr : Resize.run env data o with
    | error e => rw [hr] at h; simp only at h; cases h
    | ok bytes =>
      rw [hr] at h
      simp only at h
      cases h
      rw [← resize_run env ha] at hr
      cases hal : o.algorithm with
      | nearest =>
        obtain ⟨out', h1, h2⟩ := nearest_total env ha hal
        rw [h1] at hr; cases hr; exact h2
      | lanczos3 =>
        obtain ⟨out', h1, h2, _⟩ := lanczos_total ha hf hal
        rw [h1] at hr; cases hr; exact h2
      | bilinear =>
        rw [resize_run env ha, Resize.run, hal] at hr
        exact (bilinear_inv hr).1

/-- C37, partial: what is accepted is resized, never refused; missing: bilinear resizing of sources wider or
higher than `2^23`, which can panic (`C39_violation`). -/
theorem C37_accepted_partial (env : Env) (data : List UInt8) (o : Options) (hf : Fair env o) (h : Accepted data o)
    (hb : o.algorithm = .bilinear → o.srcWidth ≤ 2 ^ 23 ∧ o.srcHeight ≤ 2 ^ 23) :
    ∃ out, Resize.resize env data o = .ok out ∧ out.length = o.dstWidth * o.dstHeight * o.colorType.bytesPerPixel := by
  cases hal : o.algorithm with
  | nearest => exact nearest_total env h hal
  | lanczos3 =>
    obtain ⟨out, h1, h2, _⟩ := lanczos_total h hf hal
    exact ⟨out, h1, h2⟩
  | bilinear =>
    have hb' := hb hal
    rw [resize_run env h, Resize.run, hal]
    simp only
    have e := Resize.bilinear_ok (bpp := o.colorType.bytesPerPixel) (data := data)
      (fun d hd => Resize.taps_lt h.srcWidth.1 hb'.1 h.dstWidth.2 hd)
      (fun d hd => Resize.taps_lt h.srcHeight.1 hb'.2 h.dstHeight.2 hd) h.length
    exact ⟨_, e, (bilinear_inv e).1⟩

/-- The options of a small resize. -/
def smallResize (a : Algorithm) : Options := ⟨3, 2, 5, 4, .rgb, a⟩

example : Accepted (List.replicate 18 7) (smallResize .lanczos3) :=
  ⟨by decide, by decide, by decide, by decide, by decide⟩
example : Fair ⟨fun _ => 0, some [1, 0], some [3, 1, 0, 2]⟩ (smallResize .lanczos3) := by
  constructor
  · intro order h y; cases h; simp [smallResize]; omega
  · intro order h y; cases h; simp [smallResize]; omega

/-! ## C38 -/

/-- The bytes of a nearest neighbour resize. -/
theorem nearest_get (env : Env) {data out : List UInt8} {o : Options} (h : Accepted data o) (ha : o.algorithm = .nearest)
    (e : Resize.resize env data o = .ok out) {x y c : Nat} (hx : x < o.dstWidth) (hy : y < o.dstHeight)
    (hc : c < o.colorType.bytesPerPixel) :
    out[(y * o.dstWidth + x) * o.colorType.bytesPerPixel + c]?
      = data[(Resize.nearestIndex o.srcHeight o.dstHeight y * o.srcWidth + Resize.nearestIndex o.srcWidth o.dstWidth x)
          * o.colorType.bytesPerPixel + c]? := by
  rw [resize_run env h, Resize.run, ha] at e
  simp only at e
  rw [Resize.nearest_ok h.srcWidth.1 h.srcHeight.1 h.srcWidth.2 h.srcHeight.2 h.length] at e
  rw [← Except.ok.inj e]
  have hlen := fun y x => Resize.nearestPixel_length (dw := o.dstWidth) (dh := o.dstHeight) h.srcWidth.1 h.srcHeight.1
    h.srcWidth.2 h.srcHeight.2 h.length x y
  have e : (y * o.dstWidth + x) * o.colorType.bytesPerPixel + c
      = y * (o.dstWidth * o.colorType.bytesPerPixel) + (x * o.colorType.bytesPerPixel + c) := by
    rw [Nat.add_mul, Nat.mul_assoc]; omega
  have hc2 : x * o.colorType.bytesPerPixel + c < o.dstWidth * o.colorType.bytesPerPixel := by
    have := Nat.mul_le_mul_right o.colorType.bytesPerPixel (show x + 1 ≤ o.dstWidth by omega)
    rw [Nat.succ_mul] at this
    omega
  rw [e, Resize.flatten_get _ (o.dstWidth * o.colorType.bytesPerPixel) _ (fun y _ =>
    Resize.flatten_length _ _ _ (fun x _ => hlen y x)) hy hc2,
    Resize.flatten_get _ _ _ (fun x _ => hlen y x) hx hc]
  unfold Resize.nearestPixel
  rw [List.getElem?_take_of_lt hc, List.getElem?_drop]

/-- C38: every pixel of a nearest neighbour resize is a pixel of the source, the same column of it for
every row and the same row for every column, at the middle of the new pixel up to half a pixel and the
rounding of the coordinate. -/
theorem C38_nearest (env : Env) (data : List UInt8) (o : Options) (h : Accepted data o) (ha : o.algorithm = .nearest) :
    ∃ (out : List UInt8) (sx sy : Nat → Nat), Resize.resize env data o = .ok out ∧
      (∀ x, x < o.dstWidth → sx x < o.srcWidth ∧
        |(sx x : ℝ) - centre o.srcWidth o.dstWidth x| ≤ 1 / 2 + o.srcWidth / 2 ^ 21) ∧
      (∀ y, y < o.dstHeight → sy y < o.srcHeight ∧
        |(sy y : ℝ) - centre o.srcHeight o.dstHeight y| ≤ 1 / 2 + o.srcHeight / 2 ^ 21) ∧
      ∀ x y c, x < o.dstWidth → y < o.dstHeight → c < o.colorType.bytesPerPixel →
        out[(y * o.dstWidth + x) * o.colorType.bytesPerPixel + c]?
          = data[(sy y * o.srcWidth + sx x) * o.colorType.bytesPerPixel + c]? := by
  obtain ⟨out, e, _⟩ := nearest_total env h ha
  refine ⟨out, Resize.nearestIndex o.srcWidth o.dstWidth, Resize.nearestIndex o.srcHeight o.dstHeight, e, ?_, ?_, ?_⟩
  · intro x hx
    exact ⟨Resize.nearestIndex_lt h.srcWidth.1 h.srcWidth.2,
      Resize.nearestIndex_real h.srcWidth.1 h.srcWidth.2 h.dstWidth.2 hx⟩
  · intro y hy
    exact ⟨Resize.nearestIndex_lt h.srcHeight.1 h.srcHeight.2,
      Resize.nearestIndex_real h.srcHeight.1 h.srcHeight.2 h.dstHeight.2 hy⟩
  · intro x y c hx hy hc
    exact nearest_get env h ha e hx hy hc

example : Accepted (List.replicate 18 7) (smallResize .nearest) :=
  ⟨by decide, by decide, by decide, by decide, by decide⟩

/-- Two images that agree at every pixel are equal. -/
theorem image_ext {a b : List UInt8} {w h k : Nat} (ha : a.length = w * h * k) (hb : b.length = w * h * k)
    (e : ∀ x y c, x < w → y < h → c < k → a[(y * w + x) * k + c]? = b[(y * w + x) * k + c]?) : a = b := by
  refine List.ext_getElem? fun i => ?_
  by_cases hi : i < w * h * k
  · have hk : 0 < k := Nat.pos_of_ne_zero fun h0 => by subst h0; simp at hi
    have hq : i / k < w * h := (Nat.div_lt_iff_lt_mul hk).2 hi
    have hw : 0 < w := Nat.pos_of_ne_zero fun h0 => by subst h0; simp at hq
    have hy : i / k / w < h := (Nat.div_lt_iff_lt_mul hw).2 (by rwa [Nat.mul_comm])
    have := e (i / k % w) (i / k / w) (i % k) (Nat.mod_lt _ hw) hy (Nat.mod_lt _ hk)
    have e2 : (i / k / w * w + i / k % w) * k + i % k = i := by
      rw [Nat.div_add_mod' (i / k) w, Nat.div_add_mod' i k]
    rwa [e2] at this
  · rw [List.getElem?_eq_none (by omega), List.getElem?_eq_none (by omega)]

/-- C38: a bilinear resize to the same size returns the image, for every accepted size. -/
theorem C38_identity_bilinear (env : Env) (data : List UInt8) (o : Options) (h : Accepted data o)
    (ha : o.algorithm = .bilinear) (hw : o.dstWidth = o.srcWidth) (hh : o.dstHeight = o.srcHeight) :
    Resize.resize env data o = .ok data := by
  rw [resize_run env h, Resize.run, ha]
  simp only
  rw [hw, hh]
  have e := Resize.bilinear_ok (bpp := o.colorType.bytesPerPixel) (Resize.inside_self h.srcWidth.2)
    (Resize.inside_self h.srcHeight.2) h.length
  rw [e]
  congr 1
  have hl := (bilinear_inv e).1
  refine image_ext hl h.length fun x y c hx hy hc => ?_
  have e1 : (y * o.srcWidth + x) * o.colorType.bytesPerPixel + c
      = y * (o.srcWidth * o.colorType.bytesPerPixel) + (x * o.colorType.bytesPerPixel + c) := by
    rw [Nat.add_mul, Nat.mul_assoc]; omega
  have hc2 : x * o.colorType.bytesPerPixel + c < o.srcWidth * o.colorType.bytesPerPixel := by
    have := Nat.mul_le_mul_right o.colorType.bytesPerPixel (show x + 1 ≤ o.srcWidth by omega)
    rw [Nat.succ_mul] at this
    omega
  have hi : (y * o.srcWidth + x) * o.colorType.bytesPerPixel + c < data.length := by
    rw [h.length]; exact Resize.index_lt hx hy hc
  rw [e1, Resize.flatten_get _ (o.srcWidth * o.colorType.bytesPerPixel) _ (fun y _ =>
    Resize.flatten_length _ _ _ (fun x _ => by simp)) hy hc2,
    Resize.flatten_get _ _ _ (fun x _ => by simp) hx hc, ← e1]
  rw [List.getElem?_map, List.getElem?_range hc, Option.map_some, List.getElem?_eq_getElem hi]
  unfold Resize.bilinearAt
  rw [Resize.taps_self h.srcWidth.2 hx, Resize.taps_self h.srcHeight.2 hy, Resize.bilinearByte_zero]
  simp only
  rw [List.getD_eq_getElem?_getD, List.getElem?_eq_getElem hi]
  rfl

/-- C38, partial: a nearest neighbour resize to the same size returns the image. Missing: sizes above
`2^23`, where it can fail (`C38_identity_violation`). -/
theorem C38_identity_nearest_partial (env : Env) (data : List UInt8) (o : Options) (h : Accepted data o)
    (ha : o.algorithm = .nearest) (hw : o.dstWidth = o.srcWidth) (hh : o.dstHeight = o.srcHeight)
    (hw2 : o.srcWidth ≤ 2 ^ 23) (hh2 : o.srcHeight ≤ 2 ^ 23) :
    Resize.resize env data o = .ok data := by
  obtain ⟨out, e, hl⟩ := nearest_total env h ha
  have hg := fun x y c hx hy hc => nearest_get env h ha e (x := x) (y := y) (c := c) hx hy hc
  rw [e]
  congr 1
  rw [hw, hh] at hl hg
  refine image_ext hl h.length fun x y c hx hy hc => ?_
  rw [hg x y c hx hy hc, Resize.nearestIndex_self hw2 hx, Resize.nearestIndex_self hh2 hy]

/-- C38, partial: a Lanczos resize to the same size returns the image, when the sine function used is
accurate (`GoodSine`), whatever the schedules of the two passes are. Missing: sizes above `2^23`; it fails at `2^24`
(`C38_identity_lanczos_violation` in Props/LanczosMean). -/
theorem C38_identity_lanczos_partial (env : Env) (hsin : Resize.GoodSine env.sin) (data : List UInt8) (o : Options)
    (h : Accepted data o) (hf : Fair env o) (ha : o.algorithm = .lanczos3) (hw : o.dstWidth = o.srcWidth)
    (hh : o.dstHeight = o.srcHeight) (hw2 : o.srcWidth ≤ 2 ^ 23) (hh2 : o.srcHeight ≤ 2 ^ 23) :
    Resize.resize env data o = .ok data := by
  rw [resize_run env h, Resize.run, ha]
  simp only
  rw [hw, hh]
  exact Resize.lanczos3_same hsin hw2 hh2 h.length hf.1 (hh ▸ hf.2)

example : Accepted (List.replicate 12 7) ⟨2, 2, 2, 2, .rgb, .lanczos3⟩ ∧ ∀ sin, Fair ⟨sin, some [1, 0], none⟩ ⟨2, 2, 2, 2, .rgb, .lanczos3⟩ := by
  refine ⟨⟨by decide, by decide, by decide, by decide, by decide⟩, fun sin => ⟨fun order ho y => ?_, fun order ho => by cases ho⟩⟩
  cases ho
  simp
  omega

/-- A row of `2^23 + 3` gray pixels. -/
def wideRow : List UInt8 := (List.range 8388611).map UInt8.ofNat

theorem wideRow_length : wideRow.length = 8388611 := by unfold wideRow; rw [List.length_map, List.length_range]

theorem wideRow_get {i : Nat} (h : i < 8388611) : wideRow[i]? = some (UInt8.ofNat i) := by
  unfold wideRow
  rw [List.getElem?_map, List.getElem?_range h]; rfl

/-- The size of that row, unchanged. -/
def wideSame : Options := ⟨8388611, 1, 8388611, 1, .gray, .nearest⟩

theorem wide_accepted : Accepted wideRow wideSame :=
  ⟨⟨by decide, by decide⟩, ⟨by decide, by decide⟩, ⟨by decide, by decide⟩, ⟨by decide, by decide⟩,
    by rw [wideRow_length]; rfl⟩

theorem wide_index : Resize.nearestIndex 8388611 8388611 8388609 = 8388610 := by decide +kernel

theorem wide_ne : UInt8.ofNat ((0 * 8388611 + 8388610) * 1 + 0) ≠ UInt8.ofNat ((0 * 8388611 + 8388609) * 1 + 0) := by
  decide +kernel

theorem wide_zero : Resize.nearestIndex 1 1 0 = 0 := by decide +kernel

/-- C38 fails for nearest neighbour at large sizes: `2^23 + 1.5` is no `f32`, and the pixel next to the
right one is taken. -/
theorem C38_identity_violation (env : Env) : ∃ out, Resize.resize env wideRow wideSame = .ok out ∧
    out.length = wideRow.length ∧ out ≠ wideRow := by
  obtain ⟨out, e, hl⟩ := nearest_total env wide_accepted rfl
  refine ⟨out, e, by rw [hl, wideRow_length]; rfl, ?_⟩
  intro he
  have h1 := nearest_get env wide_accepted rfl e (x := 8388609) (y := 0) (c := 0) (by decide) (by decide) (by decide)
  rw [he] at h1
  change wideRow[(0 * 8388611 + 8388609) * 1 + 0]? =
    wideRow[(Resize.nearestIndex 1 1 0 * 8388611 + Resize.nearestIndex 8388611 8388611 8388609) * 1 + 0]? at h1
  rw [wide_index, wide_zero, wideRow_get (by omega), wideRow_get (by omega)] at h1
  exact wide_ne (Option.some.inj h1.symm)

/-! ## C39 -/

/-- C39, partial: bilinear resizing of sources of at most `2^23` by `2^23` does not panic. Missing: larger
sources, where it can (`C39_violation`). -/
theorem C39_partial (env : Env) (data : List UInt8) (o : Options) (h : Accepted data o)
    (hw : o.srcWidth ≤ 2 ^ 23) (hh : o.srcHeight ≤ 2 ^ 23) (ha : o.algorithm = .bilinear) :
    ∃ out, Resize.resize env data o = .ok out := by
  rw [resize_run env h, Resize.run, ha]
  simp only
  exact ⟨_, Resize.bilinear_ok (fun d hd => Resize.taps_lt h.srcWidth.1 hw h.dstWidth.2 hd)
      (fun d hd => Resize.taps_lt h.srcHeight.1 hh h.dstHeight.2 hd) h.length⟩

/-- A row of `2^24` gray pixels made 26 wide. -/
def wideShrink : Options := ⟨16777216, 1, 26, 1, .gray, .bilinear⟩

theorem wide_tap : (Resize.taps 16777216 26 25).1 = 16777216 := by decide +kernel

/-- C39 fails: `25 * (16777215 / 25)` is rounded to 16777216, one past the last pixel. -/
theorem C39_violation (env : Env) (data : List UInt8) (h : data.length = 16777216) :
    Accepted data wideShrink ∧ Resize.resize env data wideShrink = .error .panic := by
  have ha : Accepted data wideShrink :=
    ⟨⟨by decide, by decide⟩, ⟨by decide, by decide⟩, ⟨by decide, by decide⟩, ⟨by decide, by decide⟩, by rw [h]; rfl⟩
  refine ⟨ha, ?_⟩
  rw [resize_run env ha]
  change Resize.bilinear data 16777216 1 26 1 1 = _
  cases hb : Resize.bilinear data 16777216 1 26 1 1 with
  | error e => rw [bilinear_onlyPanic data _ _ _ _ _ e hb]
  | ok out =>
    have := (bilinear_inv hb).2 25 0 0 (by omega) (by omega) (by omega)
    rw [wide_tap, h] at this
    omega

example : ∃ data : List UInt8, data.length = 16777216 := ⟨List.replicate 16777216 0, List.length_replicate⟩

/-! ## C52 -/

/-- Channel `c` of an image. -/
def channel (data : List UInt8) (w k c i j : Nat) : ℝ := ((data.getD ((j * w + i) * k + c) 0).toNat : ℝ)

/-- C52: a bilinear resize interpolates: every byte is within half (and `2^-12`) of bilinear interpolation of
its channel, at a column that depends on its column only and a row that depends on its row only, the ones
that keep the corner pixels up to the rounding of the coordinate. -/
theorem C52_bilinear (env : Env) (data : List UInt8) (o : Options) (h : Accepted data o)
    (hw : o.srcWidth ≤ 2 ^ 23) (hh : o.srcHeight ≤ 2 ^ 23) (ha : o.algorithm = .bilinear) :
    ∃ (out : List UInt8) (X Y : ℕ → ℝ), Resize.resize env data o = .ok out ∧
      (∀ x, x < o.dstWidth → |X x - corner o.srcWidth o.dstWidth x| ≤ o.srcWidth / 2 ^ 22 ∧ 0 ≤ X x ∧ X x < o.srcWidth) ∧
      (∀ y, y < o.dstHeight → |Y y - corner o.srcHeight o.dstHeight y| ≤ o.srcHeight / 2 ^ 22 ∧ 0 ≤ Y y ∧
        Y y < o.srcHeight) ∧
      ∀ x y c, x < o.dstWidth → y < o.dstHeight → c < o.colorType.bytesPerPixel →
        ∃ b, out[(y * o.dstWidth + x) * o.colorType.bytesPerPixel + c]? = some b ∧
          |(b.toNat : ℝ) - bilinear (channel data o.srcWidth o.colorType.bytesPerPixel c) o.srcWidth o.srcHeight
            (X x) (Y y)| ≤ 1 / 2 + 1 / 2 ^ 12 := by
  have hx : Resize.Inside o.srcWidth o.dstWidth := fun d hd => Resize.taps_lt h.srcWidth.1 hw h.dstWidth.2 hd
  have hy : Resize.Inside o.srcHeight o.dstHeight := fun d hd => Resize.taps_lt h.srcHeight.1 hh h.dstHeight.2 hd
  rw [resize_run env h, Resize.run, ha]
  simp only
  have e := Resize.bilinear_ok (bpp := o.colorType.bytesPerPixel) hx hy h.length
  rw [e]
  have side : ∀ {src dst d : ℕ}, 0 < src → src ≤ 2 ^ 23 → dst ≤ 2 ^ 24 → d < dst →
      |Resize.val (Resize.coordinate src dst d) - corner src dst d| ≤ src / 2 ^ 22 ∧
        0 ≤ Resize.val (Resize.coordinate src dst d) ∧ Resize.val (Resize.coordinate src dst d) < src := by
    intro src dst d h0 hs ht hd
    refine ⟨Resize.coordinate_real h0 (by omega) ht hd, ?_, ?_⟩
    · unfold Resize.val
      have : (0 : ℝ) ≤ Resize.coordinate src dst d := by exact_mod_cast Resize.coordinate_nonneg src dst d
      positivity
    · have h1 := Resize.coordinate_le h0 hs ht hd
      have h2 : Resize.coordinate src dst d < (src : ℤ) * 2 ^ 149 := by omega
      have h3 : (Resize.coordinate src dst d : ℝ) < src * 2 ^ 149 := by exact_mod_cast h2
      unfold Resize.val
      rw [div_lt_iff₀ (by positivity)]
      exact h3
  refine ⟨_, fun x => Resize.val (Resize.coordinate o.srcWidth o.dstWidth x),
    fun y => Resize.val (Resize.coordinate o.srcHeight o.dstHeight y), rfl,
    fun x hxd => side h.srcWidth.1 hw h.dstWidth.2 hxd, fun y hyd => side h.srcHeight.1 hh h.dstHeight.2 hyd, ?_⟩
  intro x y c hxd hyd hc
  have e1 : (y * o.dstWidth + x) * o.colorType.bytesPerPixel + c
      = y * (o.dstWidth * o.colorType.bytesPerPixel) + (x * o.colorType.bytesPerPixel + c) := by
    rw [Nat.add_mul, Nat.mul_assoc]; omega
  have hc2 : x * o.colorType.bytesPerPixel + c < o.dstWidth * o.colorType.bytesPerPixel := by
    have := Nat.mul_le_mul_right o.colorType.bytesPerPixel (show x + 1 ≤ o.dstWidth by omega)
    rw [Nat.succ_mul] at this
    omega
  refine ⟨Resize.bilinearAt data o.srcWidth o.srcHeight o.dstWidth o.dstHeight o.colorType.bytesPerPixel x y c, ?_, ?_⟩
  · rw [e1, Resize.flatten_get _ (o.dstWidth * o.colorType.bytesPerPixel) _ (fun y _ =>
      Resize.flatten_length _ _ _ (fun x _ => by simp)) hyd hc2,
      Resize.flatten_get _ _ _ (fun x _ => by simp) hxd hc]
    rw [List.getElem?_map, List.getElem?_range hc]; rfl
  · have hx' := hx x hxd
    have hy' := hy y hyd
    obtain ⟨x1, x2, x3, x4, x5⟩ := Resize.taps_real (src := o.srcWidth) (dst := o.dstWidth) (d := x) (by omega)
    obtain ⟨y1, y2, y3, y4, y5⟩ := Resize.taps_real (src := o.srcHeight) (dst := o.dstHeight) (d := y) (by omega)
    have key := Resize.bilinearByte_real
      (data.getD (((Resize.taps o.srcHeight o.dstHeight y).1 * o.srcWidth + (Resize.taps o.srcWidth o.dstWidth x).1) * o.colorType.bytesPerPixel + c) 0)
      (data.getD (((Resize.taps o.srcHeight o.dstHeight y).1 * o.srcWidth + (Resize.taps o.srcWidth o.dstWidth x).2.1) * o.colorType.bytesPerPixel + c) 0)
      (data.getD (((Resize.taps o.srcHeight o.dstHeight y).2.1 * o.srcWidth + (Resize.taps o.srcWidth o.dstWidth x).1) * o.colorType.bytesPerPixel + c) 0)
      (data.getD (((Resize.taps o.srcHeight o.dstHeight y).2.1 * o.srcWidth + (Resize.taps o.srcWidth o.dstWidth x).2.1) * o.colorType.bytesPerPixel + c) 0)
      x4 x5 y4 y5
    unfold Resize.bilinearAt bilinear linear channel
    rw [x3, y3] at key
    rw [x1, x2, y1, y2] at key ⊢
    exact key

/-- C52: no overshoot: a channel between two values stays between them. -/
theorem C52_between (env : Env) (data out : List UInt8) (o : Options) (h : Accepted data o)
    (hw : o.srcWidth ≤ 2 ^ 23) (hh : o.srcHeight ≤ 2 ^ 23) (ha : o.algorithm = .bilinear)
    (he : Resize.resize env data o = .ok out) (c lo hi : Nat) (hc : c < o.colorType.bytesPerPixel)
    (hb : ∀ x y, x < o.srcWidth → y < o.srcHeight →
      ∃ b, data[(y * o.srcWidth + x) * o.colorType.bytesPerPixel + c]? = some b ∧ lo ≤ b.toNat ∧ b.toNat ≤ hi)
    (x y : Nat) (hxd : x < o.dstWidth) (hyd : y < o.dstHeight) :
    ∃ b, out[(y * o.dstWidth + x) * o.colorType.bytesPerPixel + c]? = some b ∧ lo ≤ b.toNat ∧ b.toNat ≤ hi := by
  have hx : Resize.Inside o.srcWidth o.dstWidth := fun d hd => Resize.taps_lt h.srcWidth.1 hw h.dstWidth.2 hd
  have hy : Resize.Inside o.srcHeight o.dstHeight := fun d hd => Resize.taps_lt h.srcHeight.1 hh h.dstHeight.2 hd
  rw [resize_run env h, Resize.run, ha] at he
  simp only at he
  rw [Resize.bilinear_ok (bpp := o.colorType.bytesPerPixel) hx hy h.length] at he
  cases he
  have e1 : (y * o.dstWidth + x) * o.colorType.bytesPerPixel + c
      = y * (o.dstWidth * o.colorType.bytesPerPixel) + (x * o.colorType.bytesPerPixel + c) := by
    rw [Nat.add_mul, Nat.mul_assoc]; omega
  have hc2 : x * o.colorType.bytesPerPixel + c < o.dstWidth * o.colorType.bytesPerPixel := by
    have := Nat.mul_le_mul_right o.colorType.bytesPerPixel (show x + 1 ≤ o.dstWidth by omega)
    rw [Nat.succ_mul] at this
    omega
  refine ⟨Resize.bilinearAt data o.srcWidth o.srcHeight o.dstWidth o.dstHeight o.colorType.bytesPerPixel x y c, ?_, ?_⟩
  · rw [e1, Resize.flatten_get _ (o.dstWidth * o.colorType.bytesPerPixel) _ (fun y _ =>
      Resize.flatten_length _ _ _ (fun x _ => by simp)) hyd hc2,
      Resize.flatten_get _ _ _ (fun x _ => by simp) hxd hc]
    rw [List.getElem?_map, List.getElem?_range hc]; rfl
  · have hx' := hx x hxd
    have hy' := hy y hyd
    obtain ⟨_, _, _, x4, x5⟩ := Resize.taps_real (src := o.srcWidth) (dst := o.dstWidth) (d := x) (by omega)
    obtain ⟨_, _, _, y4, y5⟩ := Resize.taps_real (src := o.srcHeight) (dst := o.dstHeight) (d := y) (by omega)
    have hd : ∀ i j, i < o.srcWidth → j < o.srcHeight →
        lo ≤ (data.getD ((j * o.srcWidth + i) * o.colorType.bytesPerPixel + c) 0).toNat ∧
        (data.getD ((j * o.srcWidth + i) * o.colorType.bytesPerPixel + c) 0).toNat ≤ hi := by
      intro i j hi hj
      obtain ⟨b, h1, h2⟩ := hb i j hi hj
      rw [List.getD_eq_getElem?_getD, h1]
      exact h2
    exact Resize.bilinearByte_between _ _ _ _ x4 x5 y4 y5 lo hi (hd _ _ hx'.1 hy'.1) (hd _ _ hx'.2 hy'.1)
      (hd _ _ hx'.1 hy'.2) (hd _ _ hx'.2 hy'.2)

example : Accepted (List.replicate 18 7) (smallResize .bilinear) :=
  ⟨by decide, by decide, by decide, by decide, by decide⟩
example : Resize.resize ⟨fun _ => 0, none, none⟩ [10, 20] ⟨2, 1, 3, 1, .gray, .bilinear⟩ = .ok [10, 15, 20] := by
  decide +kernel

/-! ## C25, resizing -/

/-- C25: the order in which the rows of Lanczos are worked on does not show in the result. -/
theorem C25_resize (env : Env) (data : List UInt8) (o : Options) (h : Accepted data o) (hf : Fair env o) :
    Resize.resize env data o = Resize.resize ⟨env.sin, none, none⟩ data o := by
  cases hal : o.algorithm with
  | lanczos3 =>
    obtain ⟨out, h1, _, h2⟩ := lanczos_total h hf hal
    rw [h1, h2]
  | nearest => rw [resize_run _ h, resize_run _ h, Resize.run, Resize.run, hal]
  | bilinear => rw [resize_run _ h, resize_run _ h, Resize.run, Resize.run, hal]

/-! ## C53 -/

/-- C53, partial: away from the middle the kernel is three times the Lanczos kernel, whatever sine with small
relative error the library has, and it ends where that ends. As weights are divided by their sum, the factor
does not matter. Missing: the middle, where the kernel is the Lanczos kernel itself without the factor
(`C53_violation`). -/
theorem C53_kernel_partial (sin : Int → Int) (hsin : Resize.GoodSine sin) (x : Int) (h : 1 / 2 ^ 23 ≤ |Resize.val x|) :
    |Resize.val (Resize.kernel sin x) - 3 * lanczos (Resize.val x)| ≤ 1 / 2 ^ 15 := by
  have habs : |Resize.val x| = (x.natAbs : ℝ) / 2 ^ 149 := by
    unfold Resize.val
    rw [abs_div, abs_of_pos (show (0 : ℝ) < 2 ^ 149 by positivity), Nat.cast_natAbs]
    push_cast
    rfl
  have h1 : Resize.epsilon ≤ (x.natAbs : Int) := by
    rw [habs, div_le_div_iff₀ (by positivity) (by positivity)] at h
    have : (2 : ℝ) ^ 126 ≤ x.natAbs := by linarith
    have h3 : (2 : ℤ) ^ 126 ≤ x.natAbs := by exact_mod_cast this
    exact h3
  by_cases h2 : (x.natAbs : Int) < F32.lit 3 1
  · exact Resize.kernel_real hsin h1 h2
  · have h3 : 3 ≤ |Resize.val x| := by
      rw [habs, le_div_iff₀ (by positivity)]
      have h3 := h2
      rw [F32.lit_three, F32.one_eq] at h3
      have h5 : ((3 * 2 ^ 149 : Nat) : Int) ≤ x.natAbs := by omega
      have h6 : 3 * 2 ^ 149 ≤ x.natAbs := by exact_mod_cast h5
      exact_mod_cast h6
    have h4 : Resize.val x ≠ 0 := by intro h0; rw [h0, abs_zero] at h3; norm_num at h3
    unfold Resize.kernel lanczos
    rw [if_neg (by omega), if_pos (by omega), if_neg h4, if_pos h3]
    unfold Resize.val
    norm_num

/-- There are such sines: the nearest number below, for instance. -/
noncomputable example : Resize.GoodSine (fun y => ⌊Real.sin (Resize.val y) * 2 ^ 149⌋) := by
  intro y _
  have h1 := Int.floor_le (Real.sin (Resize.val y) * 2 ^ 149)
  have h2 := Int.lt_floor_add_one (Real.sin (Resize.val y) * 2 ^ 149)
  have h0 := abs_nonneg (Real.sin (Resize.val y))
  have e : Resize.val ⌊Real.sin (Resize.val y) * 2 ^ 149⌋ - Real.sin (Resize.val y)
      = (⌊Real.sin (Resize.val y) * 2 ^ 149⌋ - Real.sin (Resize.val y) * 2 ^ 149) / 2 ^ 149 := by
    unfold Resize.val; field_simp
  rw [e, abs_div, abs_of_pos (show (0 : ℝ) < 2 ^ 149 by positivity)]
  generalize (⌊Real.sin (Resize.val y) * 2 ^ 149⌋ : ℝ) = f at *
  have h3 : |f - Real.sin (Resize.val y) * 2 ^ 149| ≤ 1 := by rw [abs_le]; constructor <;> linarith
  have h4 : |f - Real.sin (Resize.val y) * 2 ^ 149| / 2 ^ 149 ≤ 1 / 2 ^ 149 :=
    div_le_div_of_nonneg_right h3 (by positivity)
  linarith

theorem lanczos_le_one (x : ℝ) : lanczos x ≤ 1 := by
  unfold lanczos
  split
  · exact le_refl _
  · split
    · norm_num
    · refine le_trans (le_abs_self _) ?_
      rw [abs_mul]
      exact mul_le_one₀ (Resize.sinc_le_one _) (abs_nonneg _) (Resize.sinc_le_one _)

/-- C53 fails where a source pixel lies exactly in the middle of a new one: it gets a third of its weight.
Three pixels 0, 255, 0 made one give at most 52; the Lanczos kernel gives at least 85. -/
theorem C53_violation (sin : Int → Int) (hsin : Resize.GoodSine sin) :
    (∃ b, Resize.resize ⟨sin, none, none⟩ [0, 255, 0] ⟨3, 1, 1, 1, .gray, .lanczos3⟩ = .ok [b] ∧ b.toNat ≤ 52) ∧
    85 ≤ (0 * lanczos (-1 / 3) + 255 * lanczos 0 + 0 * lanczos (1 / 3)) / (lanczos (-1 / 3) + lanczos 0 + lanczos (1 / 3)) := by
  constructor
  · obtain ⟨b, h1, h2⟩ := Resize.lanczos_three hsin
    refine ⟨b, ?_, h2⟩
    rw [resize_run _ ⟨by decide, by decide, by decide, by decide, rfl⟩]
    exact h1
  · have e0 : lanczos 0 = 1 := by unfold lanczos; rw [if_pos rfl]
    have e1 : lanczos (-1 / 3) = lanczos (1 / 3) := by
      rw [show (-1 / 3 : ℝ) = -(1 / 3) by norm_num, Resize.lanczos_neg]
    have h1 := lanczos_le_one (1 / 3)
    have h2 : 0 ≤ lanczos (1 / 3) := by
      have hp := Real.pi_pos
      unfold lanczos
      rw [if_neg (by norm_num), if_neg (by rw [abs_of_pos (by norm_num)]; norm_num)]
      refine mul_nonneg (div_nonneg (Real.sin_nonneg_of_nonneg_of_le_pi ?_ ?_) ?_)
        (div_nonneg (Real.sin_nonneg_of_nonneg_of_le_pi ?_ ?_) ?_) <;> linarith
    rw [e1, e0, le_div_iff₀ (by linarith)]
    linarith

end Pixo.Props
