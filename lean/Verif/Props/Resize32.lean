import Verif.Model.Resize32
import Verif.Props.Resize
/-
C105: resizing on machines with a `usize` of 32 bits.
-/
namespace Pixo.Props.Resize32
open Pixo Pixo.Props Pixo.Resize32
open Pixo.Resize (Options Algorithm Contribution)

theorem w32_id {n : Nat} (h : n < 2 ^ 32) : w32 n = n := Nat.mod_eq_of_lt h

theorem mapM_same {α β : Type} {f g : α → R β} : ∀ {l : List α} {r : List β}, l.mapM f = .ok r →
    (∀ a ∈ l, ∀ b, f a = .ok b → g a = .ok b) → l.mapM g = .ok r := by
  intro l
  induction l with
  | nil => intro r h _; exact h
  | cons a l ih =>
    intro r h hs
    rw [List.mapM_cons] at h ⊢
    obtain ⟨b, hb, h⟩ := bind_inv h
    obtain ⟨bs, hbs, h⟩ := bind_inv h
    rw [hs a (by simp) b hb, ok_bind, ih hbs (fun a ha => hs a (by simp [ha])), ok_bind]
    exact h

theorem slice_same {data r : List UInt8} {start len : Nat} (hd : data.length < 2 ^ 32) (h : Resize.slice data start len = .ok r) :
    slice32 data start len = .ok r ∧ start + len ≤ data.length := by
  unfold Resize.slice at h
  split at h
  · rename_i hle
    refine ⟨?_, hle⟩
    unfold slice32
    rw [w32_id (by omega), if_pos ⟨by omega, hle⟩, show start + len - start = len by omega]
    exact h
  · cases h

theorem get_lt {α : Type} {l : List α} {i : Nat} {a : α} (h : getChecked l i = .ok a) : i < l.length := by
  unfold getChecked at h
  split at h
  · rename_i e
    exact (List.getElem?_eq_some_iff.1 e).1
  · cases h

theorem nearest_same {data out : List UInt8} {sw sh dw dh bpp : Nat} (hd : data.length < 2 ^ 32) (hb : 1 ≤ bpp)
    (h : Resize.nearest data sw sh dw dh bpp = .ok out) : nearest32 data sw sh dw dh bpp = .ok out := by
  unfold Resize.nearest at h
  unfold nearest32
  obtain ⟨rows, hr, h⟩ := bind_inv h
  rw [mapM_same hr, ok_bind]
  · exact h
  · intro y _ row hrow
    dsimp only at hrow ⊢
    obtain ⟨pixels, hp, hrow⟩ := bind_inv hrow
    rw [mapM_same hp, ok_bind]
    · exact hrow
    · intro x _ p hx
      obtain ⟨_, hle⟩ := slice_same hd hx
      generalize Resize.nearestIndex sh dh y = a at *
      generalize Resize.nearestIndex sw dw x = b at *
      have h1 : a * sw + b ≤ (a * sw + b) * bpp := Nat.le_mul_of_pos_right _ hb
      rw [w32_id (n := a * sw) (by omega), w32_id (n := a * sw + b) (by omega), w32_id (by omega)]
      exact (slice_same hd hx).1

theorem index_same {y sw x bpp c n : Nat} (hb : 1 ≤ bpp) (h : (y * sw + x) * bpp + c < n) (hn : n < 2 ^ 32) :
    index32 y sw x bpp c = (y * sw + x) * bpp + c := by
  have h1 : y * sw + x ≤ (y * sw + x) * bpp := Nat.le_mul_of_pos_right _ hb
  unfold index32
  rw [w32_id (n := y * sw) (by omega), w32_id (n := y * sw + x) (by omega), w32_id (n := (y * sw + x) * bpp) (by omega), w32_id (by omega)]

theorem bilinear_same {data out : List UInt8} {sw sh dw dh bpp : Nat} (hd : data.length < 2 ^ 32) (hb : 1 ≤ bpp)
    (h : Resize.bilinear data sw sh dw dh bpp = .ok out) : bilinear32 data sw sh dw dh bpp = .ok out := by
  unfold Resize.bilinear at h
  unfold bilinear32
  obtain ⟨rows, hr, h⟩ := bind_inv h
  rw [mapM_same hr, ok_bind]
  · exact h
  · intro y _ row hrow
    generalize Resize.taps sh dh y = ty at *
    obtain ⟨y0, y1, yf⟩ := ty
    dsimp only at hrow ⊢
    obtain ⟨pixels, hp, hrow⟩ := bind_inv hrow
    rw [mapM_same hp, ok_bind]
    · exact hrow
    · intro x _ p hx
      generalize Resize.taps sw dw x = tx at *
      obtain ⟨x0, x1, xf⟩ := tx
      dsimp only at hx ⊢
      refine mapM_same hx fun c _ v hv => ?_
      obtain ⟨a, ha, hv⟩ := bind_inv hv
      obtain ⟨b, hb1, hv⟩ := bind_inv hv
      obtain ⟨d, hd1, hv⟩ := bind_inv hv
      obtain ⟨e, he, hv⟩ := bind_inv hv
      rw [index_same hb (get_lt ha) hd, index_same hb (get_lt hb1) hd, index_same hb (get_lt hd1) hd, index_same hb (get_lt he) hd,
        ha, ok_bind, hb1, ok_bind, hd1, ok_bind, he, ok_bind]
      exact hv

theorem weighted_same {bytes : List UInt8} (hd : bytes.length < 2 ^ 32) {start stride off c : Nat} (hs : 1 ≤ stride) (ws : List Int) (i : Nat) (sum : Int) {r : Int}
    (h : Resize.weighted bytes (start * stride + off + c) stride ws i sum = .ok r) : weighted32 bytes start stride off c ws i sum = .ok r := by
  induction ws generalizing i sum with
  | nil => exact h
  | cons w ws ih =>
    unfold Resize.weighted at h
    unfold weighted32
    obtain ⟨b, hb, h⟩ := bind_inv h
    have hlt := get_lt hb
    have e : start * stride + off + c + i * stride = (start + i) * stride + off + c := by rw [Nat.add_mul]; omega
    rw [e] at hb hlt
    have h1 : start + i ≤ (start + i) * stride := Nat.le_mul_of_pos_right _ hs
    rw [w32_id (n := start + i) (by omega), w32_id (n := (start + i) * stride) (by omega), w32_id (n := (start + i) * stride + off) (by omega),
      w32_id (by omega), hb, ok_bind]
    exact ih _ _ h

theorem horizontal_same {row out : List UInt8} {cs : List Contribution} {bpp : Nat} (hd : row.length < 2 ^ 32) (hb : 1 ≤ bpp)
    (h : Resize.horizontalRow row cs bpp = .ok out) : horizontalRow32 row cs bpp = .ok out := by
  unfold Resize.horizontalRow at h
  unfold horizontalRow32
  obtain ⟨pixels, hp, h⟩ := bind_inv h
  rw [mapM_same hp, ok_bind]
  · exact h
  · intro k _ p hx
    refine mapM_same hx fun c _ v hv => ?_
    obtain ⟨s, hs, hv⟩ := bind_inv hv
    rw [weighted_same hd hb _ _ _ hs, ok_bind]
    exact hv

theorem vertical_same {temp out : List UInt8} {k : Contribution} {width bpp : Nat} (hd : temp.length < 2 ^ 32) (hw : width * bpp < 2 ^ 32) (h1 : 1 ≤ width)
    (hb : 1 ≤ bpp) (h : Resize.verticalRow temp k width bpp = .ok out) : verticalRow32 temp k width bpp = .ok out := by
  unfold Resize.verticalRow at h
  unfold verticalRow32
  obtain ⟨pixels, hp, h⟩ := bind_inv h
  rw [mapM_same hp, ok_bind]
  · exact h
  · intro x hx p hp
    refine mapM_same hp fun c _ v hv => ?_
    obtain ⟨s, hs, hv⟩ := bind_inv hv
    have hxw : x * bpp ≤ width * bpp := Nat.mul_le_mul_right _ (Nat.le_of_lt (List.mem_range.1 hx))
    rw [w32_id hw, w32_id (n := x * bpp) (by omega), weighted_same hd (Nat.mul_pos h1 hb) _ _ _ hs, ok_bind]
    exact hv

theorem row_len {row out : List UInt8} {cs : List Contribution} {bpp : Nat} (h : Resize.horizontalRow row cs bpp = .ok out) : out.length = cs.length * bpp := by
  unfold Resize.horizontalRow at h
  obtain ⟨pixels, hp, h⟩ := bind_inv h
  cases h
  obtain ⟨h1, h2, _⟩ := mapM_inv _ _ _ hp
  rw [flatten_len _ bpp, h1]
  intro p hpm
  obtain ⟨k, _, hk⟩ := h2 p hpm
  rw [(mapM_inv _ _ _ hk).1, List.length_range]

/-- A range of the intermediate image that does not wrap. -/
theorem rowRange_ok {size y stride n : Nat} (hy : y < n) (h : n * stride ≤ size) (hs : size < 2 ^ 32) : rowRange32 size y stride = .ok () := by
  have h1 : (y + 1) * stride ≤ n * stride := Nat.mul_le_mul_right _ hy
  rw [Nat.add_mul, Nat.one_mul] at h1
  unfold rowRange32
  rw [w32_id (n := y * stride) (by omega), w32_id (by omega), if_pos ⟨by omega, by omega⟩]

theorem temp_size {sh dw bpp : Nat} : sh * dw * bpp = sh * (dw * bpp) := Nat.mul_assoc _ _ _

theorem lanczos_same {sin : Int → Int} {data out : List UInt8} {sw sh dw dh bpp : Nat} (hd : data.length < 2 ^ 31) (hl : data.length = sw * sh * bpp)
    (hb : 1 ≤ bpp) (h0 : 1 ≤ sh) (h1 : 1 ≤ dw) (hw : dw * bpp < 2 ^ 32) (ht : sh * dw * bpp < 2 ^ 31)
    (h : Resize.lanczos3 ⟨sin, none, none⟩ data sw sh dw dh bpp = .ok out) : lanczos32 sin data sw sh dw dh bpp = .ok out := by
  unfold Resize.lanczos3 at h
  unfold lanczos32
  obtain ⟨hc, ehc, h⟩ := bind_inv h
  obtain ⟨vc, evc, h⟩ := bind_inv h
  obtain ⟨temp, et, h⟩ := bind_inv h
  obtain ⟨o, eo, h⟩ := bind_inv h
  simp only at ehc evc
  have hsd : sh * dw ≤ sh * dw * bpp := Nat.le_mul_of_pos_right _ hb
  have hs : w32 (w32 (sh * dw) * bpp) = sh * dw * bpp := by rw [w32_id (n := sh * dw) (by omega), w32_id (by omega)]
  have hrow : sw * bpp ≤ data.length := by
    rw [hl, Nat.mul_right_comm]
    exact Nat.le_mul_of_pos_right _ h0
  have hcl : hc.length = dw := by
    rw [(mapM_inv _ _ _ ehc).1, List.length_range]
  simp only
  rw [ehc, ok_bind, evc, ok_bind, hs, alloc32, if_pos ht, ok_bind]
  unfold Parallel.loop at et eo
  simp only at et eo
  have htl : temp.flatten.length = sh * (dw * bpp) := by
    obtain ⟨t1, t2, _⟩ := mapM_inv _ _ _ et
    rw [flatten_len _ (dw * bpp), t1, List.length_range]
    intro r hr
    obtain ⟨y, _, hy⟩ := t2 r hr
    obtain ⟨row, _, hy⟩ := bind_inv hy
    rw [row_len hy, hcl]
  rw [mapM_same et, ok_bind, mapM_same eo, ok_bind]
  · exact h
  · intro y hy r hr
    obtain ⟨k, hk, hr⟩ := bind_inv hr
    rw [hk, ok_bind]
    exact vertical_same (by rw [htl, ← temp_size]; omega) hw h1 hb hr
  · intro y hy r hr
    obtain ⟨row, hrw, hr⟩ := bind_inv hr
    obtain ⟨e1, e2⟩ := slice_same (by omega) hrw
    rw [w32_id (n := sw * bpp) (by omega), w32_id (n := y * (sw * bpp)) (by omega), e1, ok_bind, w32_id hw,
      rowRange_ok (List.mem_range.1 hy) (by rw [temp_size]) (by omega), ok_bind]
    refine horizontal_same ?_ hb hr
    unfold Resize.slice at hrw
    rw [if_pos e2] at hrw
    injection hrw with hrw
    rw [← hrw, List.length_take, List.length_drop]
    omega

/-! ### What does not fit -/

theorem slice_panic (data : List UInt8) (start len : Nat) : OnlyPanic (slice32 data start len) := by
  unfold slice32
  split
  · exact OnlyPanic.ok _
  · intro e h
    cases h
    rfl

theorem range_panic (size y stride : Nat) : OnlyPanic (rowRange32 size y stride) := by
  unfold rowRange32
  split
  · exact OnlyPanic.ok _
  · intro e h
    cases h
    rfl

theorem weighted_panic (bytes : List UInt8) (start stride off c : Nat) (ws : List Int) (i : Nat) (sum : Int) :
    OnlyPanic (weighted32 bytes start stride off c ws i sum) := by
  induction ws generalizing i sum with
  | nil => exact OnlyPanic.ok _
  | cons w ws ih =>
    unfold weighted32
    exact OnlyPanic.bind (OnlyPanic.get _ _) fun b => ih _ _

theorem horizontal_panic (row : List UInt8) (cs : List Contribution) (bpp : Nat) : OnlyPanic (horizontalRow32 row cs bpp) := by
  unfold horizontalRow32
  exact OnlyPanic.bind (OnlyPanic.mapM _ _ fun k => OnlyPanic.mapM _ _ fun c =>
    OnlyPanic.bind (weighted_panic _ _ _ _ _ _ _ _) fun s => OnlyPanic.pure _) fun p => OnlyPanic.pure _

theorem mapM_fails {α β : Type} {f : α → R β} {l : List α} {a : α} (ha : a ∈ l) (h : ∀ b, f a ≠ .ok b) (r : List β) : l.mapM f ≠ .ok r := by
  induction l generalizing r with
  | nil => cases ha
  | cons x l ih =>
    intro he
    rw [List.mapM_cons] at he
    obtain ⟨b, hb, he⟩ := bind_inv he
    obtain ⟨bs, hbs, he⟩ := bind_inv he
    rcases List.mem_cons.1 ha with h1 | h1
    · exact h b (h1 ▸ hb)
    · exact ih h1 bs hbs

theorem panic_of_not_ok {α : Type} {x : R α} (h : OnlyPanic x) (hn : ∀ r, x ≠ .ok r) : x = .error .panic := by
  cases hx : x with
  | error e => rw [h e hx]
  | ok r => exact absurd hx (hn r)

/-- When the intermediate image does not fit, its computed size is that of a shorter one, and the first row that is
not in it is a range out of bounds. -/
theorem lanczos_panic {sin : Int → Int} {data out : List UInt8} {sw sh dw dh bpp : Nat}
    (h1 : 1 ≤ dw * bpp) (hw : dw * bpp < 2 ^ 31) (ht : 2 ^ 31 ≤ sh * dw * bpp)
    (h : Resize.lanczos3 ⟨sin, none, none⟩ data sw sh dw dh bpp = .ok out) : lanczos32 sin data sw sh dw dh bpp = .error .panic := by
  unfold Resize.lanczos3 at h
  unfold lanczos32
  obtain ⟨hc, ehc, h⟩ := bind_inv h
  obtain ⟨vc, evc, h⟩ := bind_inv h
  simp only at ehc evc
  have hs : w32 (w32 (sh * dw) * bpp) = sh * (dw * bpp) % 2 ^ 32 := by
    unfold w32
    rw [← temp_size, Nat.mod_mul_mod]
  rw [temp_size] at ht
  simp only
  rw [ehc, ok_bind, evc, ok_bind, hs, w32_id (n := dw * bpp) (by omega)]
  generalize dw * bpp = stride at *
  by_cases ha : sh * stride % 2 ^ 32 < 2 ^ 31
  · rw [alloc32, if_pos ha, ok_bind]
    generalize hsz : sh * stride % 2 ^ 32 = size at *
    have hlt : size < sh * stride := by omega
    have hy : size / stride < sh := Nat.div_lt_of_lt_mul (by rw [Nat.mul_comm]; exact hlt)
    have hm := Nat.div_add_mod size stride
    have hr := Nat.mod_lt size h1
    have hbad : rowRange32 size (size / stride) stride = .error .panic := by
      unfold rowRange32
      rw [Nat.mul_comm (size / stride), w32_id (n := stride * (size / stride)) (by omega), w32_id (by omega), if_neg (by omega)]
    rw [panic_of_not_ok (x := List.mapM _ (List.range sh)) ?_ ?_]
    · rfl
    · exact OnlyPanic.mapM _ _ fun y => OnlyPanic.bind (slice_panic _ _ _) fun row => OnlyPanic.bind (range_panic _ _ _) fun _ => horizontal_panic _ _ _
    · refine mapM_fails (List.mem_range.2 hy) fun b hb => ?_
      obtain ⟨row, _, hb⟩ := bind_inv hb
      rw [hbad] at hb
      cases hb
  · rw [alloc32, if_neg ha]
    rfl

theorem bpp_bounds (c : ColorType) : 1 ≤ c.bytesPerPixel ∧ c.bytesPerPixel ≤ 4 := by
  cases c <;> decide

theorem checked_some {a b c : Nat} (hc : 1 ≤ c) (h : a * b * c < 2 ^ 32) : checkedLen a b c = some (a * b * c) := by
  have : a * b ≤ a * b * c := Nat.le_mul_of_pos_right _ hc
  unfold checkedLen
  rw [if_pos ⟨by omega, h⟩]

theorem checked_none {a b c : Nat} (h : 2 ^ 32 ≤ a * b * c) : checkedLen a b c = none := by
  unfold checkedLen
  rw [if_neg (by omega)]

theorem validate_cases {data : List UInt8} {o : Options} (h : Accepted data o) (hd : data.length < 2 ^ 31) :
    validate32 data o = if o.dstWidth * o.dstHeight * o.colorType.bytesPerPixel < 2 ^ 32
      then .ok (o.dstWidth * o.dstHeight * o.colorType.bytesPerPixel) else .error (.dataLength (2 ^ 32 - 1) 0) := by
  have h1 := h.srcWidth
  have h2 := h.srcHeight
  have h3 := h.dstWidth
  have h4 := h.dstHeight
  have hl := h.length
  have hm : Resize.maxDimension = 2 ^ 24 := rfl
  unfold validate32
  rw [hm, if_neg (by omega), if_neg (by omega), if_neg (by omega), checked_some (bpp_bounds _).1 (by omega)]
  simp only
  rw [if_neg (by rw [hl]; simp)]
  by_cases hlt : o.dstWidth * o.dstHeight * o.colorType.bytesPerPixel < 2 ^ 32
  · rw [checked_some (bpp_bounds _).1 hlt, if_pos hlt]
  · rw [checked_none (by omega), if_neg hlt]

/-! ## C105 -/

/-- The new image, and the image Lanczos puts between its two passes (the new width by the old height), are less than
`2^31` bytes, the most one allocation of a program of 32 bits can hold. -/
def Fits (o : Options) : Prop :=
  o.dstWidth * o.dstHeight * o.colorType.bytesPerPixel < 2 ^ 31 ∧
  (o.algorithm = .lanczos3 → o.srcHeight * o.dstWidth * o.colorType.bytesPerPixel < 2 ^ 31)

/-- C105 for the images that fit (`_partial`: the full statement, that every image resized with a `usize` of 64 bits
whose new pixels fit is resized to the same image, is false: `C105_violation`). -/
theorem C105_same_partial (sin : Int → Int) (data out : List UInt8) (o : Options) (hd : data.length < 2 ^ 31) (hf : Fits o)
    (h : Resize.resize ⟨sin, none, none⟩ data o = .ok out) : resize32 sin data o = .ok out := by
  have ha : Accepted data o := by
    unfold Resize.resize Resize.resizeInto at h
    cases hv : Resize.validate data o with
    | error e =>
      rw [hv] at h
      cases h
    | ok u => exact accepted_of_validate hv
  have hb := bpp_bounds o.colorType
  have hdw := ha.dstWidth
  have hw : o.dstWidth * o.colorType.bytesPerPixel ≤ 2 ^ 24 * 4 := Nat.mul_le_mul hdw.2 hb.2
  rw [resize_run _ ha, Resize.run] at h
  unfold resize32
  rw [validate_cases ha hd, if_pos (by have := hf.1; omega), ok_bind, alloc32, if_pos hf.1, ok_bind]
  cases hal : o.algorithm with
  | nearest =>
    simp only [hal] at h ⊢
    exact nearest_same (by omega) hb.1 h
  | bilinear =>
    simp only [hal] at h ⊢
    exact bilinear_same (by omega) hb.1 h
  | lanczos3 =>
    simp only [hal] at h ⊢
    exact lanczos_same hd ha.length hb.1 ha.srcHeight.1 hdw.1 (by omega) (hf.2 hal) h

/-- C105: every accepted image that does not fit is an error if the new image is `2^32` bytes or more, and otherwise a
panic. -/
theorem C105_exact (sin : Int → Int) (data out : List UInt8) (o : Options) (hd : data.length < 2 ^ 31) (hf : ¬ Fits o)
    (h : Resize.resize ⟨sin, none, none⟩ data o = .ok out) :
    resize32 sin data o = .error (if o.dstWidth * o.dstHeight * o.colorType.bytesPerPixel < 2 ^ 32 then .panic
      else .dataLength (2 ^ 32 - 1) 0) := by
  have ha : Accepted data o := by
    unfold Resize.resize Resize.resizeInto at h
    cases hv : Resize.validate data o with
    | error e =>
      rw [hv] at h
      cases h
    | ok u => exact accepted_of_validate hv
  have hb := bpp_bounds o.colorType
  have hdw := ha.dstWidth
  have hw : o.dstWidth * o.colorType.bytesPerPixel ≤ 2 ^ 24 * 4 := Nat.mul_le_mul hdw.2 hb.2
  have hw1 : 1 ≤ o.dstWidth * o.colorType.bytesPerPixel := Nat.mul_pos hdw.1 hb.1
  rw [resize_run _ ha, Resize.run] at h
  unfold resize32
  rw [validate_cases ha hd]
  split
  · rw [ok_bind]
    by_cases hs : o.dstWidth * o.dstHeight * o.colorType.bytesPerPixel < 2 ^ 31
    · rw [alloc32, if_pos hs, ok_bind]
      have hl : o.algorithm = .lanczos3 ∧ 2 ^ 31 ≤ o.srcHeight * o.dstWidth * o.colorType.bytesPerPixel := by
        constructor
        · apply Classical.byContradiction
          intro hn
          exact hf ⟨hs, fun hl => absurd hl hn⟩
        · apply Classical.byContradiction
          intro hn
          exact hf ⟨hs, fun _ => by omega⟩
      simp only [hl.1] at h ⊢
      exact lanczos_panic hw1 (by omega) hl.2 h
    · rw [alloc32, if_neg hs]
      rfl
  · rfl

/-- C105: an image that is not accepted is the same error, but for the size that was expected, which is shown as
`2^32 - 1` if it is larger. -/
theorem C105_errors (sin : Int → Int) (data : List UInt8) (o : Options) (h : ¬ Accepted data o) :
    ∃ e, Resize.resize ⟨sin, none, none⟩ data o = .error e ∧
      resize32 sin data o = .error (match e with
        | .dataLength n m => .dataLength (min n (2 ^ 32 - 1)) m
        | e => e) := by
  unfold Resize.resize Resize.resizeInto resize32
  cases hv : Resize.validate data o with
  | ok u => exact absurd (accepted_of_validate hv) h
  | error e =>
    refine ⟨e, rfl, ?_⟩
    unfold Resize.validate at hv
    unfold validate32
    split at hv
    · rename_i h1
      cases hv
      rw [if_pos h1]
      rfl
    · rename_i h1
      rw [if_neg h1]
      split at hv
      · rename_i h2
        cases hv
        rw [if_pos h2]
        rfl
      · rename_i h2
        rw [if_neg h2]
        split at hv
        · rename_i h3
          cases hv
          rw [if_pos h3]
          rfl
        · rename_i h3
          rw [if_neg h3]
          simp only at hv
          split at hv
          · rename_i h4
            cases hv
            by_cases hlt : o.srcWidth * o.srcHeight * o.colorType.bytesPerPixel < 2 ^ 32
            · rw [checked_some (bpp_bounds _).1 hlt]
              simp only
              rw [if_pos h4, Nat.min_eq_left (by omega)]
              rfl
            · rw [checked_none (by omega)]
              simp only
              rw [Nat.min_eq_right (by omega)]
              rfl
          · cases hv

/-- A column of 65536 grey pixels, to be made a row of as many. -/
def column (algorithm : Algorithm) : Options := ⟨1, 65536, 65536, 1, .gray, algorithm⟩

theorem column_accepted (algorithm : Algorithm) : Accepted (List.replicate 65536 (7 : UInt8)) (column algorithm) := by
  refine ⟨?_, ?_, ?_, ?_, ?_⟩
  · exact (by decide : 0 < 1 ∧ 1 ≤ 2 ^ 24)
  · exact (by decide : 0 < 65536 ∧ 65536 ≤ 2 ^ 24)
  · exact (by decide : 0 < 65536 ∧ 65536 ≤ 2 ^ 24)
  · exact (by decide : 0 < 1 ∧ 1 ≤ 2 ^ 24)
  · rw [List.length_replicate]
    exact (by decide : 65536 = 1 * 65536 * 1)

/-- C105 fails: 65536 bytes made 65536 bytes by Lanczos3. With 64 bits this is a row; with 32 bits the size of the
intermediate image is computed as 0 and the first row is a panic. -/
theorem C105_violation (sin : Int → Int) : ∃ out,
    Resize.resize ⟨sin, none, none⟩ (List.replicate 65536 7) (column .lanczos3) = .ok out ∧ out.length = 65536 ∧
    resize32 sin (List.replicate 65536 7) (column .lanczos3) = .error .panic := by
  obtain ⟨out, h1, h2, _⟩ := lanczos_total (env := ⟨sin, none, none⟩) (column_accepted .lanczos3)
    ⟨fun _ h => by (cases h), fun _ h => by (cases h)⟩ rfl
  refine ⟨out, h1, h2, ?_⟩
  have h := C105_exact sin _ out _ (by rw [List.length_replicate]; decide)
    (fun hf => absurd (hf.2 rfl) (by decide)) h1
  rw [h, if_pos (by decide)]

/-- The hypotheses of `C105_same_partial` hold: the same column, by the nearest pixel. -/
example (sin : Int → Int) : ∃ out, Resize.resize ⟨sin, none, none⟩ (List.replicate 65536 7) (column .nearest) = .ok out ∧
    Fits (column .nearest) ∧ resize32 sin (List.replicate 65536 7) (column .nearest) = .ok out := by
  obtain ⟨out, h1, _⟩ := nearest_total ⟨sin, none, none⟩ (column_accepted .nearest) rfl
  have hf : Fits (column .nearest) := ⟨by decide, fun h => by cases h⟩
  exact ⟨out, h1, hf, C105_same_partial sin _ out _ (by rw [List.length_replicate]; decide) hf h1⟩

/-- The hypotheses of `C105_errors` hold: a byte too few. -/
example : ¬ Accepted [7] ⟨1, 2, 3, 4, .gray, .nearest⟩ ∧
    (match resize32 id [7] ⟨1, 2, 3, 4, .gray, .nearest⟩ with | .error e => e = .dataLength 2 1 | .ok _ => False) :=
  ⟨fun h => absurd h.length (by decide), rfl⟩

end Pixo.Props.Resize32
