import Verif.Props.Resize
import Verif.Proof.LanczosWide
/-
C96 (Lanczos resizing takes weighted means) and C97 (images of one colour stay as they are).
-/
namespace Pixo.Props
open Pixo.Resize (Options Algorithm Env)
open Spec.Resample

/-- What the Lanczos theorems assume of the sizes: at most `2^16` pixels each way, shrunk at most 256 times. -/
structure ModerateSize (o : Options) : Prop where
  width : o.srcWidth ≤ 2 ^ 16 ∧ o.srcWidth ≤ 256 * o.dstWidth
  height : o.srcHeight ≤ 2 ^ 16 ∧ o.srcHeight ≤ 256 * o.dstHeight

/-! ## C96 -/

/-- C96, partial: Lanczos resizing computes every row from the rows of the source and then every column from these
rows. Every byte is the mean of its channel with the Lanczos kernel around the middle of the new pixel, stretched when
the image shrinks, cut at 0 and 255, up to half and the rounding of the weights. The weights of a column are the same
in every row and channel, and those of a row in every column and channel.
Missing: a pixel in the very middle may have a third of its weight (`C53_violation`); sources wider or higher
than `2^16` and images shrunk more than 256 times, whose sums of weights are not bounded here. -/
theorem C96_partial (env : Env) (hsin : Resize.GoodSine env.sin) (data : List UInt8) (o : Options) (h : Accepted data o)
    (hf : Fair env o) (ha : o.algorithm = .lanczos3) (hm : ModerateSize o) :
    ∃ out between, Resize.resize env data o = .ok out ∧
      between.length = o.dstWidth * o.srcHeight * o.colorType.bytesPerPixel ∧
      out.length = o.dstWidth * o.dstHeight * o.colorType.bytesPerPixel ∧
      (∀ x, x < o.dstWidth → ∃ c s w, Stands o.srcWidth o.dstWidth x c s w ∧
        ∀ y ch, y < o.srcHeight → ch < o.colorType.bytesPerPixel →
          Near s (∑ i ∈ Finset.range o.srcWidth, w i)
            (mean o.srcWidth (fun i => channel data o.srcWidth o.colorType.bytesPerPixel ch i y) w)
            (channel between o.dstWidth o.colorType.bytesPerPixel ch x y)) ∧
      (∀ y, y < o.dstHeight → ∃ c s w, Stands o.srcHeight o.dstHeight y c s w ∧
        ∀ x ch, x < o.dstWidth → ch < o.colorType.bytesPerPixel →
          Near s (∑ j ∈ Finset.range o.srcHeight, w j)
            (mean o.srcHeight (fun j => channel between o.dstWidth o.colorType.bytesPerPixel ch x j) w)
            (channel out o.dstWidth o.colorType.bytesPerPixel ch x y)) := by
  rw [resize_run env h, Resize.run, ha]
  simp only
  obtain ⟨hc, e1, l1, b1, g1⟩ := Resize.contributions_good hsin h.srcWidth.1 hm.width.1 h.dstWidth.2 hm.width.2
  obtain ⟨vc, e2, l2, b2, g2⟩ := Resize.contributions_good hsin h.srcHeight.1 hm.height.1 h.dstHeight.2 hm.height.2
  refine ⟨_, Resize.betweenOf data hc o.srcWidth o.srcHeight o.colorType.bytesPerPixel,
    Resize.lanczos3_eq h.length hf.1 hf.2 e1 l1 b1 e2 l2 b2, Resize.betweenOf_length l1, Resize.lanczosOf_length _ _ _ _ _ _ _ _,
    ?_, ?_⟩
  · intro x hx
    obtain ⟨c, s, w, hst, raw, W, m, hr⟩ := g1 x hx
    refine ⟨c, s, w, hst, fun y ch hy hch => ?_⟩
    unfold channel
    rw [Resize.betweenOf_get l1 hx hy hch]
    refine hr.mean _ _ _ (fun i => ((data.getD ((y * o.srcWidth + i) * o.colorType.bytesPerPixel + ch) 0).toNat : ℝ)) ?_
    intro j hj
    have hfit := hr.fits
    rw [← Resize.row_get (show (hc.getD x ⟨0, []⟩).start + j < o.srcWidth by omega) hch]
    congr 3
    rw [Nat.add_mul]; omega
  · intro y hy
    obtain ⟨c, s, w, hst, raw, W, m, hr⟩ := g2 y hy
    refine ⟨c, s, w, hst, fun x ch hx hch => ?_⟩
    unfold channel
    rw [Resize.lanczosOf_get hx hy hch]
    refine hr.mean _ _ _ (fun j => (((Resize.betweenOf data hc o.srcWidth o.srcHeight o.colorType.bytesPerPixel).getD
      ((j * o.dstWidth + x) * o.colorType.bytesPerPixel + ch) 0).toNat : ℝ)) ?_
    intro j hj
    congr 3
    rw [Nat.add_mul, Nat.add_mul, Nat.add_mul, Nat.mul_assoc, Nat.mul_assoc]; omega

/-- A photograph made a quarter as wide and high. -/
example : Accepted (List.replicate (1200 * 800 * 3) 7) ⟨1200, 800, 300, 200, .rgb, .lanczos3⟩ :=
  ⟨by decide, by decide, by decide, by decide, by rw [List.length_replicate]; rfl⟩
example : ModerateSize ⟨1200, 800, 300, 200, .rgb, .lanczos3⟩ := ⟨by decide, by decide⟩

/-! ## C97 -/

/-- Every pixel of the image has the colour. -/
def OneColour (data : List UInt8) (w h : Nat) (colour : List UInt8) : Prop :=
  data.length = w * h * colour.length ∧
  ∀ x y c, x < w → y < h → c < colour.length → data[(y * w + x) * colour.length + c]? = colour[c]?

/-- C97, partial: an image of one colour stays one, whatever the algorithm is. Missing: for bilinear, sizes above
`2^23`, where it can panic (`C39_violation`); for Lanczos, sources wider or higher than `2^16` and images shrunk more
than 256 times. -/
theorem C97_partial (env : Env) (hsin : Resize.GoodSine env.sin) (data : List UInt8) (o : Options) (h : Accepted data o)
    (hf : Fair env o) (hb : o.algorithm = .bilinear → o.srcWidth ≤ 2 ^ 23 ∧ o.srcHeight ≤ 2 ^ 23)
    (hl : o.algorithm = .lanczos3 → ModerateSize o) (colour : List UInt8) (hk : colour.length = o.colorType.bytesPerPixel)
    (hu : OneColour data o.srcWidth o.srcHeight colour) :
    ∃ out, Resize.resize env data o = .ok out ∧ OneColour out o.dstWidth o.dstHeight colour := by
  obtain ⟨out, e, hlen⟩ := C37_accepted_partial env data o hf h hb
  refine ⟨out, e, by rw [hk]; exact hlen, ?_⟩
  obtain ⟨_, hu⟩ := hu
  rw [hk] at hu ⊢
  cases ha : o.algorithm with
  | nearest =>
    intro x y c hx hy hc
    obtain ⟨out', sx, sy, e', h1, h2, h3⟩ := C38_nearest env data o h ha
    rw [e] at e'
    cases e'
    rw [h3 x y c hx hy hc, hu _ _ c (h1 x hx).1 (h2 y hy).1 hc]
  | bilinear =>
    intro x y c hx hy hc
    obtain ⟨b, h1, h2, h3⟩ := C52_between env data out o h (hb ha).1 (hb ha).2 ha e c (colour.getD c 0).toNat
      (colour.getD c 0).toNat hc (fun x y hx hy => ⟨colour.getD c 0, by
        rw [hu x y c hx hy hc, List.getD_eq_getElem?_getD, List.getElem?_eq_getElem (by omega)]; rfl,
        Nat.le_refl _, Nat.le_refl _⟩) x y hx hy
    rw [h1]
    have : b = colour.getD c 0 := UInt8.toNat_inj.1 (by omega)
    rw [this, List.getD_eq_getElem?_getD, List.getElem?_eq_getElem (by omega)]
    rfl
  | lanczos3 =>
    have hm := hl ha
    rw [resize_run env h, Resize.run, ha] at e
    simp only at e
    obtain ⟨hc, e1, l1, b1, g1⟩ := Resize.contributions_good hsin h.srcWidth.1 hm.width.1 h.dstWidth.2 hm.width.2
    obtain ⟨vc, e2, l2, b2, g2⟩ := Resize.contributions_good hsin h.srcHeight.1 hm.height.1 h.dstHeight.2 hm.height.2
    rw [Resize.lanczos3_eq h.length hf.1 hf.2 e1 l1 b1 e2 l2 b2] at e
    cases e
    have hbet : ∀ x y c, x < o.dstWidth → y < o.srcHeight → c < o.colorType.bytesPerPixel →
        (Resize.betweenOf data hc o.srcWidth o.srcHeight o.colorType.bytesPerPixel).getD
          ((y * o.dstWidth + x) * o.colorType.bytesPerPixel + c) 0 = colour.getD c 0 := by
      intro x y ch hx hy hch
      obtain ⟨c, s, w, hst, raw, W, m, hr⟩ := g1 x hx
      rw [Resize.betweenOf_get l1 hx hy hch]
      refine hr.uniform _ _ _ _ ?_
      intro j hj
      have hfit := hr.fits
      have hi : (hc.getD x ⟨0, []⟩).start + j < o.srcWidth := by omega
      have := Resize.row_get (data := data) (y := y) hi hch
      rw [Nat.add_mul] at this
      rw [show (hc.getD x ⟨0, []⟩).start * o.colorType.bytesPerPixel + ch + j * o.colorType.bytesPerPixel
        = (hc.getD x ⟨0, []⟩).start * o.colorType.bytesPerPixel + j * o.colorType.bytesPerPixel + ch by omega, this,
        List.getD_eq_getElem?_getD, hu _ _ _ hi hy hch, ← List.getD_eq_getElem?_getD]
    intro x y ch hx hy hch
    obtain ⟨c, s, w, hst, raw, W, m, hr⟩ := g2 y hy
    have hfin := Resize.lanczosOf_get (data := data) (hc := hc) (vc := vc) (sw := o.srcWidth) (sh := o.srcHeight) hx hy hch
    rw [hr.uniform _ _ _ (colour.getD ch 0) ?_] at hfin
    · have hi := Resize.index_lt hx hy hch
      have hl2 := Resize.lanczosOf_length data hc vc o.srcWidth o.srcHeight o.dstWidth o.dstHeight o.colorType.bytesPerPixel
      rw [List.getD_eq_getElem?_getD, List.getD_eq_getElem?_getD, List.getElem?_eq_getElem (by omega),
        List.getElem?_eq_getElem (show ch < colour.length by omega)] at hfin
      rw [List.getElem?_eq_getElem (by omega), List.getElem?_eq_getElem (show ch < colour.length by omega)]
      exact congrArg some hfin
    · intro j hj
      have hfit := hr.fits
      have hi : (vc.getD y ⟨0, []⟩).start + j < o.srcHeight := by omega
      rw [← hbet x _ ch hx hi hch]
      congr 1
      rw [Nat.add_mul, Nat.add_mul, Nat.add_mul, Nat.mul_assoc, Nat.mul_assoc]; omega

example : OneColour (List.replicate 6 [7, 8, 9]).flatten 3 2 [7, 8, 9] :=
  ⟨rfl, fun x y c hx hy hc => by
    have hc' : c < 3 := hc
    have : ∀ x < 3, ∀ y < 2, ∀ c < 3,
      ((List.replicate 6 [7, 8, 9]).flatten : List UInt8)[(y * 3 + x) * 3 + c]? = ([7, 8, 9] : List UInt8)[c]? := by decide
    exact this x hx y hy c hc'⟩
example : Accepted (List.replicate 6 [7, 8, 9]).flatten (smallResize .lanczos3) ∧ ModerateSize (smallResize .lanczos3) :=
  ⟨⟨by decide, by decide, by decide, by decide, by decide⟩, ⟨by decide, by decide⟩⟩
example : Fair ⟨fun _ => 0, none, none⟩ (smallResize .lanczos3) :=
  ⟨fun _ h => (by cases h), fun _ h => (by cases h)⟩

/-- A contribution is where it belongs. -/
theorem mapM_getD {α : Type} (f : Nat → R α) (d : α) : ∀ (n : Nat) (r : List α), (List.range n).mapM f = .ok r →
    ∀ i, i < n → f i = .ok (r.getD i d) := by
  intro n
  induction n with
  | zero => intro r _ i hi; omega
  | succ n ih =>
    intro r h i hi
    rw [List.range_succ, List.mapM_append] at h
    obtain ⟨a, ha, h⟩ := bind_inv h
    obtain ⟨b, hb, h⟩ := bind_inv h
    cases h
    have hl := (mapM_inv f _ _ ha).1
    rw [List.length_range] at hl
    rw [List.mapM_cons, List.mapM_nil] at hb
    obtain ⟨c, hc, hb⟩ := bind_inv hb
    cases hb
    by_cases hin : i < n
    · rw [List.getD_eq_getElem?_getD, List.getElem?_append_left (by omega), ← List.getD_eq_getElem?_getD]
      exact ih a ha i hin
    · have : i = n := by omega
      subst this
      rw [List.getD_eq_getElem?_getD, List.getElem?_append_right (by omega), hl, Nat.sub_self]
      exact hc

/-- A pixel whose contribution always gives zero. -/
theorem black_pixel {env : Env} (hsin : Resize.GoodSine env.sin) {data : List UInt8} {n x : Nat} (hn : n ≤ 2 ^ 24)
    (hlen : data.length = n) (h1 : Parallel.Fair env.horizontal 1) (h2 : Parallel.Fair env.vertical 1) (hx : x < n)
    {k : Resize.Contribution} (hk : Resize.contribution env.sin n n x = .ok k)
    (hz : ∀ bytes base stride, Resize.toByte (Resize.weightedSum bytes base stride k.weights 0 0) = 0) :
    ∃ out, Resize.lanczos3 env data n 1 n 1 1 = .ok out ∧ out[x]? = some 0 := by
  obtain ⟨hc, e1, l1, b1⟩ := Resize.contributions_ok env.sin hn hn
  obtain ⟨vc, e2, l2, k2⟩ := Resize.contributions_same hsin (show (1 : Nat) ≤ 2 ^ 23 by decide)
  have b2 := Resize.keeps_mem l2 k2
  have hlen : data.length = n * 1 * 1 := by rw [hlen]; omega
  refine ⟨_, Resize.lanczos3_eq (env := env) hlen h1 h2 e1 l1 b1 e2 l2 b2, ?_⟩
  unfold Resize.contributions at e1
  have hlast := mapM_getD _ ⟨0, []⟩ _ _ e1 x hx
  rw [hk] at hlast
  have hk' : k = hc.getD x ⟨0, []⟩ := Except.ok.inj hlast
  have hg := Resize.lanczosOf_get (data := data) (hc := hc) (vc := vc) (sw := n) (sh := 1) (dw := n) (dh := 1)
    (bpp := 1) (x := x) (y := 0) (ch := 0) hx (by omega) (by omega)
  have hb := Resize.keeps_byte (k2 0 (by omega)) (Resize.betweenOf data hc n 1 1) (x * 1 + 0) (n * 1)
  rw [← Nat.add_assoc] at hb
  rw [hb] at hg
  have hm := Resize.betweenOf_get (data := data) (sw := n) (sh := 1) (dw := n) (bpp := 1) (x := x) (y := 0)
    (ch := 0) l1 hx (by omega) (by omega)
  rw [← hk', hz] at hm
  have hl := Resize.lanczosOf_length data hc vc n 1 n 1 1
  have hg2 : (Resize.lanczosOf data hc vc n 1 n 1 1).getD x 0 = 0 := by
    rw [show (0 * n + x) * 1 + 0 = x by omega] at hg hm
    rw [show 0 * (n * 1) + (x * 1 + 0) = x by omega] at hg
    rw [hg, hm]
  rw [List.getD_eq_getElem?_getD, List.getElem?_eq_getElem (by omega)] at hg2
  rw [List.getElem?_eq_getElem (by omega)]
  exact congrArg some hg2

/-- A row of `n` gray pixels that keeps its width. -/
def rowKeep (n : Nat) : Options := ⟨n, 1, n, 1, .gray, .lanczos3⟩

/-- C97 fails for Lanczos at the largest size, and so does C38: the middle of the last pixel, `2^24 - 1`, is computed
as `2^24`; the pixels that are left have weights of nearly nothing, whose sum is too small to divide by, and the last
pixel becomes black, whatever it was. -/
theorem C97_violation (env : Env) (hsin : Resize.GoodSine env.sin) (data : List UInt8) (h : data.length = 16777216)
    (hf : Fair env (rowKeep 16777216)) :
    Accepted data (rowKeep 16777216) ∧
      ∃ out, Resize.resize env data (rowKeep 16777216) = .ok out ∧ out[16777215]? = some 0 := by
  obtain ⟨k, hk, hz⟩ := Resize.wide_last hsin
  generalize hx : (16777215 : Nat) = x at *
  generalize hn : (16777216 : Nat) = n at *
  have ha : Accepted data (rowKeep n) := by
    refine ⟨?_, ?_, ?_, ?_, ?_⟩
    · show 0 < n ∧ n ≤ 2 ^ 24; omega
    · show 0 < 1 ∧ 1 ≤ 2 ^ 24; omega
    · show 0 < n ∧ n ≤ 2 ^ 24; omega
    · show 0 < 1 ∧ 1 ≤ 2 ^ 24; omega
    · show data.length = n * 1 * 1; omega
  refine ⟨ha, ?_⟩
  rw [resize_run env ha]
  exact black_pixel (n := n) (x := x) hsin (by omega) h hf.1 hf.2 (by omega) hk hz

/-- C38 fails for Lanczos at the largest size: a white row that keeps its width is not returned. -/
theorem C38_identity_lanczos_violation (env : Env) (hsin : Resize.GoodSine env.sin) (hf : Fair env (rowKeep 16777216)) :
    ∃ data out, Accepted data (rowKeep 16777216) ∧ Resize.resize env data (rowKeep 16777216) = .ok out ∧ out ≠ data := by
  obtain ⟨ha, out, e, h0⟩ := C97_violation env hsin (List.replicate 16777216 255) List.length_replicate hf
  refine ⟨_, out, ha, e, ?_⟩
  rintro rfl
  rw [List.getElem?_replicate, if_pos (by omega)] at h0
  have h1 : (255 : UInt8) = 0 := Option.some.inj h0
  exact absurd h1 (by decide)

/-- A white row of that size is of one colour. -/
theorem white_row (n : Nat) : OneColour (List.replicate n 255) n 1 [255] := by
  refine ⟨by rw [List.length_replicate, List.length_singleton]; omega, fun x y c hx hy hc => ?_⟩
  rw [List.length_singleton] at hc ⊢
  have h1 : c = 0 := by omega
  have h2 : y = 0 := by omega
  subst h1 h2
  rw [List.getElem?_replicate, if_pos (by omega)]
  rfl

example : (List.replicate 16777216 (255 : UInt8)).length = 16777216 := List.length_replicate

end Pixo.Props
