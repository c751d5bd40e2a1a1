import Verif.Proof.Dither
import Verif.Proof.DitherSum
import Verif.Props.PngEncode
/-
C74 (quantization shows every pixel by the nearest palette colour), C75 (dithering is
Floyd–Steinberg error diffusion), C76 (dithering keeps the sum of every channel).
-/
namespace Pixo.Props
open Spec Spec.Png Spec.Colour Spec.Dither

/-! ## C74 -/

/-- C74 in full: without dithering, every pixel gets the (first) nearest palette entry. -/
def C74_full : Prop :=
  ∀ (env : Quantize.Env) (ct : ColorType), (ct = .rgb ∨ ct = .rgba) → ∀ (data : List UInt8) (n : Nat),
    data.length = n * ct.bytesPerPixel → 1 ≤ n → n < 2 ^ 30 → ∀ m, m ≤ 256 →
    ∀ palette indices, Quantize.quantizeImage env data ct m false = .ok (palette, indices) →
      ∀ k, k < n → IsNearest (pixelOf ct.bytesPerPixel data k) (palette.map Png.num) (indices.getD k 0).toNat

/-- The colour that is looked up for another: opaque ones are reduced to six bits per channel. -/
def reduced (c : Rgba) : Rgba := if c.a = 255 then sixBits c else c

/-- C74, what holds: either every pixel gets the nearest entry, or every pixel gets the entry
nearest to its colour reduced to six bits per channel (if it is opaque). -/
theorem C74_reduced_partial (env : Quantize.Env) {ct : ColorType} (hct : ct = .rgb ∨ ct = .rgba) (data : List UInt8)
    (n : Nat) (hl : data.length = n * ct.bytesPerPixel) (h1 : 1 ≤ n) (hn : n < 2 ^ 30) (m : Nat) (hm : m ≤ 256) :
    ∃ palette indices, Quantize.quantizeImage env data ct m false = .ok (palette, indices) ∧ indices.length = n ∧
      ((∀ k, k < n → IsNearest (pixelOf ct.bytesPerPixel data k) (palette.map Png.num) (indices.getD k 0).toNat) ∨
        ∀ k, k < n → IsNearest (reduced (pixelOf ct.bytesPerPixel data k)) (palette.map Png.num)
          (indices.getD k 0).toNat) := by
  obtain ⟨q, e, -, hlen, h⟩ := (Quantize.quantizeImage_nearest env hct hl h1 hn hm).out
  exact ⟨q.1, q.2, e, hlen, h⟩

/-- C74 holds for pixels that are not opaque, and for those that have only six bits per channel. -/
theorem C74_exact_partial (env : Quantize.Env) {ct : ColorType} (hct : ct = .rgb ∨ ct = .rgba) (data : List UInt8)
    (n : Nat) (hl : data.length = n * ct.bytesPerPixel) (h1 : 1 ≤ n) (hn : n < 2 ^ 30) (m : Nat) (hm : m ≤ 256)
    (palette : List Palette.Rgba) (indices : List UInt8)
    (h : Quantize.quantizeImage env data ct m false = .ok (palette, indices)) (k : Nat) (hk : k < n)
    (hc : (pixelOf ct.bytesPerPixel data k).a ≠ 255 ∨
      sixBits (pixelOf ct.bytesPerPixel data k) = pixelOf ct.bytesPerPixel data k) :
    IsNearest (pixelOf ct.bytesPerPixel data k) (palette.map Png.num) (indices.getD k 0).toNat := by
  obtain ⟨p, i, e, -, hr⟩ := C74_reduced_partial env hct data n hl h1 hn m hm
  rw [h] at e
  injection e with e
  injection e with e1 e2
  subst e1 e2
  rcases hr with hr | hr
  · exact hr k hk
  · have h2 := hr k hk
    have : reduced (pixelOf ct.bytesPerPixel data k) = pixelOf ct.bytesPerPixel data k := by
      unfold reduced
      rcases hc with hc | hc
      · rw [if_neg hc]
      · rw [hc]; split <;> rfl
    rwa [this] at h2

theorem pixelOf_bytes {ct : ColorType} (hct : ct = .rgb ∨ ct = .rgba) (data : List UInt8) (k : Nat) :
    ∃ c : Palette.Rgba, Png.num c = pixelOf ct.bytesPerPixel data k := ⟨_, Png.num_pixelAt hct k⟩

/-- C74: in any case the entry shown is at most 28546 further from the pixel than any other (the
distances go up to 650250). -/
theorem C74_slack_partial (env : Quantize.Env) {ct : ColorType} (hct : ct = .rgb ∨ ct = .rgba) (data : List UInt8)
    (n : Nat) (hl : data.length = n * ct.bytesPerPixel) (h1 : 1 ≤ n) (hn : n < 2 ^ 30) (m : Nat) (hm : m ≤ 256)
    (palette : List Palette.Rgba) (indices : List UInt8)
    (h : Quantize.quantizeImage env data ct m false = .ok (palette, indices)) (k : Nat) (hk : k < n) :
    ∃ p, palette[(indices.getD k 0).toNat]? = some p ∧ ∀ q ∈ palette,
      redmean (pixelOf ct.bytesPerPixel data k) (Png.num p) ≤ redmean (pixelOf ct.bytesPerPixel data k) (Png.num q) + 28546 := by
  obtain ⟨p', i', e, -, hr⟩ := C74_reduced_partial env hct data n hl h1 hn m hm
  rw [h] at e
  injection e with e
  injection e with e1 e2
  subst e1 e2
  obtain ⟨c, hc⟩ := pixelOf_bytes hct data k
  have key : ∀ {c' : Rgba}, (c' = Png.num c ∨ c' = sixBits (Png.num c)) →
      IsNearest c' (palette.map Png.num) (indices.getD k 0).toNat →
      ∃ p, palette[(indices.getD k 0).toNat]? = some p ∧ ∀ q ∈ palette,
        redmean (Png.num c) (Png.num p) ≤ redmean (Png.num c) (Png.num q) + 28546 := by
    intro c' hc' hnear
    obtain ⟨p, hp, hle, -⟩ := hnear
    rw [List.getElem?_map] at hp
    obtain ⟨p, hp', rfl⟩ := Option.map_eq_some_iff.mp hp
    refine ⟨p, hp', fun q hq => ?_⟩
    have h3 := hle (Png.num q) (List.mem_map_of_mem hq)
    have lt : ∀ c : Palette.Rgba, (Png.num c).r < 256 ∧ (Png.num c).g < 256 ∧ (Png.num c).b < 256 :=
      fun c => ⟨c.1.toNat_lt, c.2.1.toNat_lt, c.2.2.1.toNat_lt⟩
    rcases hc' with rfl | rfl
    · omega
    · have r := Quantize.six_near (Png.num c).r (lt c).1
      have g := Quantize.six_near (Png.num c).g (lt c).2.1
      have b := Quantize.six_near (Png.num c).b (lt c).2.2
      have h4 := Quantize.redmean_near (c := sixBits (Png.num c)) (c' := Png.num c) (d := Png.num p)
        ⟨r.2.2, g.2.2, b.2.2⟩ (lt c) (lt p) ⟨r.2.1, r.1⟩ ⟨g.2.1, g.1⟩ ⟨b.2.1, b.1⟩ rfl
      have h5 := Quantize.redmean_near (c := Png.num c) (c' := sixBits (Png.num c)) (d := Png.num q)
        (lt c) ⟨r.2.2, g.2.2, b.2.2⟩ (lt q) ⟨r.1, r.2.1⟩ ⟨g.1, g.2.1⟩ ⟨b.1, b.2.1⟩ rfl
      omega
  rw [← hc]
  rcases hr with hr | hr
  · have := hr k hk
    rw [← hc] at this
    exact key (.inl rfl) this
  · have := hr k hk
    rw [← hc] at this
    refine key ?_ this
    unfold reduced
    split
    · exact .inr rfl
    · exact .inl rfl

/-- Five pixels of three colours, black, (3, 3, 3) and (3, 3, 4), with two palette entries. -/
def darkImage : List UInt8 := [0, 0, 0, 0, 0, 0, 3, 3, 3, 3, 3, 3, 3, 3, 4]

/-- The palette is black and (3, 3, 3), and yet all pixels become black. -/
theorem darkImage_result : Quantize.quantizeImage ⟨id, fun _ => (0, 0, 0)⟩ darkImage .rgb 2 false =
    .ok ([(0, 0, 0, 255), (3, 3, 3, 255)], [0, 0, 0, 0, 0]) := by decide +kernel

/-- C74 fails: a pixel whose colour is in the palette is shown in another. -/
theorem C74_fails : ¬ C74_full := by
  intro h
  obtain ⟨p, hp, hle, -⟩ := h ⟨id, fun _ => (0, 0, 0)⟩ .rgb (.inl rfl) darkImage 5 (by decide) (by decide) (by decide) 2
    (by decide) _ _ darkImage_result 2 (by decide)
  have h2 : p = ⟨0, 0, 0, 255⟩ := by
    have : some p = some (⟨0, 0, 0, 255⟩ : Rgba) := hp.symm.trans (by decide)
    exact Option.some.inj this
  subst h2
  exact absurd (hle ⟨3, 3, 3, 255⟩ (by decide)) (by decide)

/-- The hypotheses of the partial theorems, and what they say here: (3, 3, 3) becomes black. -/
example : IsNearest (reduced ⟨3, 3, 3, 255⟩) [⟨0, 0, 0, 255⟩, ⟨3, 3, 3, 255⟩] 0 :=
  ⟨⟨0, 0, 0, 255⟩, rfl, by decide, fun j q h => absurd h (by omega)⟩

/-- A transparent pixel of that colour is shown as it is. -/
example : Quantize.quantizeImage ⟨id, fun _ => (0, 0, 0)⟩ [0, 0, 0, 9, 0, 0, 0, 9, 3, 3, 3, 9, 3, 3, 3, 9, 3, 3, 4, 9] .rgba 2 false =
    .ok ([(0, 0, 0, 9), (3, 3, 3, 9)], [0, 0, 1, 1, 1]) := by decide +kernel

/-! ## C75 -/

/-- The plane of one channel of an image of `w` columns. -/
def plane (channel : Rgba → Nat) (colour : Nat → Rgba) (w : Nat) : Int → Int → Int :=
  fun x y => channel (colour (y.toNat * w + x.toNat))

/-- The colour shown for pixel `k`. -/
def entry (palette : List Palette.Rgba) (indices : List UInt8) (k : Nat) : Rgba :=
  ((palette.map Png.num)[(indices.getD k 0).toNat]?).getD ⟨0, 0, 0, 0⟩

/-- The image is shown by error diffusion: for errors and wanted values of the three channels,
every pixel gets the entry looked up for the wanted colour (and its own alpha). -/
def Diffused (w h : Nat) (given : Nat → Rgba) (palette : List Palette.Rgba) (indices : List UInt8) : Prop :=
  ∃ er eg eb wr wg wb : Int → Int → Int,
    Whole w h (plane Rgba.r given w) (plane Rgba.r (entry palette indices) w) wr er ∧
    Whole w h (plane Rgba.g given w) (plane Rgba.g (entry palette indices) w) wg eg ∧
    Whole w h (plane Rgba.b given w) (plane Rgba.b (entry palette indices) w) wb eb ∧
    ∀ x y : Nat, x < w → y < h →
      IsNearest (reduced ⟨(wr x y).toNat, (wg x y).toNat, (wb x y).toNat, (given (y * w + x)).a⟩) (palette.map Png.num)
        (indices.getD (y * w + x) 0).toNat

/-- One channel of what `dither_ok` yields. -/
theorem whole_of {w h : Nat} {given shown E : Int → Int → Int} (hz : ∀ a b, ¬ Inside w h a b → E a b = 0)
    (he : ∀ x y : Nat, x < w → y < h → E x y = Quantize.want (given x y) (received E x y) - shown x y) :
    Whole w h given shown (fun x y => Quantize.want (given x y) (received E x y)) E := by
  refine ⟨hz, fun x y _ => rfl, fun x y hi => ?_⟩
  obtain ⟨a, b, c, d⟩ := hi
  have := he x.toNat y.toNat (by omega) (by omega)
  rw [Int.toNat_of_nonneg a, Int.toNat_of_nonneg c] at this
  exact this

/-- C75: dithering in exact f32 arithmetic is Floyd–Steinberg diffusion on integers, whatever the
image, unless the colours found fit the palette. It is not reached then, and every pixel gets the
nearest entry. -/
theorem C75_dither (tie : Nat → Nat) {ct : ColorType} (hct : ct = .rgb ∨ ct = .rgba) (data : List UInt8) (w h : Nat)
    (hl : data.length = w * h * ct.bytesPerPixel) (h1 : 1 ≤ w * h) (hn : w * h < 2 ^ 30) (m : Nat) (hm : m ≤ 256) :
    ∃ palette indices, Quantize.quantizeExact tie data w h ct m true = .ok (palette, indices) ∧
      1 ≤ palette.length ∧ palette.length ≤ max 1 m ∧ indices.length = w * h ∧
      (Diffused w h (pixelOf ct.bytesPerPixel data) palette indices ∨
        palette.length ≤ m ∧
        ∀ k, k < w * h → IsNearest (pixelOf ct.bytesPerPixel data k) (palette.map Png.num) (indices.getD k 0).toNat) ∧
      (w * h < 100000 →
        (∀ l : List Palette.Rgba, (∀ k, k < w * h → ∃ c ∈ l, Png.num c = pixelOf ct.bytesPerPixel data k) → m < l.length) →
        Diffused w h (pixelOf ct.bytesPerPixel data) palette indices) := by
  obtain ⟨colors, hc, -, e⟩ := Quantize.quantizeExact_with tie hct hl h1 hn
  rw [e]
  have hpos : 0 < colors.length := List.length_pos_iff.mpr hc.some
  by_cases hle : colors.length ≤ m
  · rw [if_pos (.inl hle)]
    unfold Quantize.quantizeWith
    rw [if_pos hle]
    refine ⟨_, _, rfl, by simp; omega, by simp; omega, by simp, .inr ⟨by simpa using hle, fun k hk => ?_⟩, fun hsm hall => ?_⟩
    · have hg : (((List.range (w * h)).map (Quantize.pixelAt data ct.bytesPerPixel)).map
          (Quantize.exactIndex (colors.map Quantize.ColorCount.rgba))).getD k 0 =
          Quantize.exactIndex (colors.map Quantize.ColorCount.rgba) (Quantize.pixelAt data ct.bytesPerPixel k) := by
        simp [List.getD, hk]
      rw [hg, ← Png.num_pixelAt hct k]
      exact Quantize.exactIndex_nearest _ (hc.nodup (by omega)) (by simp; omega) (by simp; omega)
    · have := hall (colors.map Quantize.ColorCount.rgba) fun k hk =>
        ⟨_, hc.all (by omega) hsm k hk, Png.num_pixelAt hct k⟩
      rw [List.length_map] at this
      omega
  · rw [if_neg (by simpa using hle)]
    obtain ⟨p, ep, hp1, hp2⟩ := (Quantize.medianCut_ok hc.light m).out
    rw [ep, ok_bind]
    have hlen : ((List.range (w * h)).map (Quantize.pixelAt data ct.bytesPerPixel)).length = w * h := by simp
    obtain ⟨idxs, E, ei, hil, hz, s⟩ := Quantize.dither_ok hp1 (by omega) (w := w) (h := h)
      (px := (List.range (w * h)).map (Quantize.pixelAt data ct.bytesPerPixel))
      (by rw [hlen, Nat.mul_comm h w]; exact Nat.le_refl _)
    rw [ei, ok_bind]
    have hlt : ∀ {x y : Nat}, x < w → y < h → y * w + x < w * h := by
      intro x y hx hy
      have := Nat.mul_le_mul_right w (show y + 1 ≤ h by omega)
      rw [Nat.add_mul, Nat.one_mul, Nat.mul_comm h w] at this
      omega
    have hpx : ∀ {x y : Nat}, x < w → y < h →
        ((List.range (w * h)).map (Quantize.pixelAt data ct.bytesPerPixel)).getD (y * w + x) Quantize.black =
          Quantize.pixelAt data ct.bytesPerPixel (y * w + x) := by
      intro x y hx hy
      simp [List.getD, hlt hx hy]
    have hdiff : Diffused w h (pixelOf ct.bytesPerPixel data) p idxs := by
      refine ⟨E.r, E.g, E.b, _, _, _, whole_of (fun a b hi => (hz a b hi).1) fun x y hx hy => ?_,
        whole_of (fun a b hi => (hz a b hi).2.1) fun x y hx hy => ?_,
        whole_of (fun a b hi => (hz a b hi).2.2) fun x y hx hy => ?_, fun x y hx hy => ?_⟩
      all_goals
        obtain ⟨q, r, g, b, hq, hidx, ⟨r1, r2⟩, ⟨g1, g2⟩, ⟨b1, b2⟩⟩ := s y x hy hx
        rw [hpx hx hy] at r1 g1 b1 hidx
        have hnum := Png.num_pixelAt hct (data := data) (y * w + x)
        have he : entry p idxs (y * w + x) = Png.num q := by unfold entry; rw [List.getElem?_map, hq]; rfl
      · unfold plane
        rw [Int.toNat_natCast, Int.toNat_natCast, he, r2, ← hnum, r1]
        rfl
      · unfold plane
        rw [Int.toNat_natCast, Int.toNat_natCast, he, g2, ← hnum, g1]
        rfl
      · unfold plane
        rw [Int.toNat_natCast, Int.toNat_natCast, he, b2, ← hnum, b1]
        rfl
      · unfold plane
        rw [Int.toNat_natCast, Int.toNat_natCast, ← hnum]
        have e1 : Quantize.want ((Png.num (Quantize.pixelAt data ct.bytesPerPixel (y * w + x))).r : Nat) (received E.r x y) = r.toNat := r1.symm
        have e2 : Quantize.want ((Png.num (Quantize.pixelAt data ct.bytesPerPixel (y * w + x))).g : Nat) (received E.g x y) = g.toNat := g1.symm
        have e3 : Quantize.want ((Png.num (Quantize.pixelAt data ct.bytesPerPixel (y * w + x))).b : Nat) (received E.b x y) = b.toNat := b1.symm
        rw [e1, e2, e3, Int.toNat_natCast, Int.toNat_natCast, Int.toNat_natCast, hidx]
        exact Quantize.lookup_nearest _ hp1 (by omega)
    exact ⟨p, idxs, rfl, hp1, hp2, by rw [hil, Nat.mul_comm], .inl hdiff, fun _ _ => hdiff⟩

/-- C75: so everything proved for any float behaviour holds for the arithmetic of the code. -/
theorem C75_allowed (tie : Nat → Nat) {ct : ColorType} (hct : ct = .rgb ∨ ct = .rgba) (data : List UInt8) (w h : Nat)
    (hl : data.length = w * h * ct.bytesPerPixel) (h1 : 1 ≤ w * h) (hn : w * h < 2 ^ 30) (m : Nat) (hm : m ≤ 256)
    (dithering : Bool) :
    ∃ adjust, Quantize.quantizeExact tie data w h ct m dithering =
      Quantize.quantizeImage ⟨tie, adjust⟩ data ct m dithering :=
  Quantize.quantizeExact_refines tie hct hl h1 hn hm dithering

/-- A gradient of four columns and two rows with two entries. -/
example : Quantize.quantizeExact id [0, 0, 0, 40, 40, 40, 80, 80, 80, 120, 120, 120, 160, 160, 160, 200, 200, 200, 240, 240, 240, 255, 255, 255]
    4 2 .rgb 2 true = .ok ([(60, 60, 60, 255), (213, 213, 213, 255)], [0, 0, 0, 0, 0, 1, 1, 1]) := by decide +kernel

/-! ## C76 -/

/-- C76 in full: nothing of the errors is lost inside the image: the sum of what is shown differs
from the sum of what is given by what leaves the image at its edges, for every channel. -/
def C76_full : Prop :=
  ∀ (tie : Nat → Nat) (ct : ColorType), (ct = .rgb ∨ ct = .rgba) → ∀ (data : List UInt8) (w h : Nat),
    data.length = w * h * ct.bytesPerPixel → 1 ≤ w * h → w * h < 2 ^ 30 → ∀ m, m ≤ 256 →
    ∀ palette indices, Quantize.quantizeExact tie data w h ct m true = .ok (palette, indices) →
      ∀ channel, channel = Rgba.r ∨ channel = Rgba.g ∨ channel = Rgba.b → ∀ wanted error,
        Whole w h (plane channel (pixelOf ct.bytesPerPixel data) w) (plane channel (entry palette indices) w) wanted error →
        16 * total w h (fun x y => plane channel (pixelOf ct.bytesPerPixel data) w x y -
          plane channel (entry palette indices) w x y) = total w h (leaving w h error)

/-- C76, what holds: the sums differ by what leaves the image and what rounding and limiting take:
less than 1 per pixel, never negative, where the value to be shown is within 0..255. -/
theorem C76_sum_partial {w h : Nat} {given shown wanted error : Int → Int → Int}
    (hw : Whole w h given shown wanted error) :
    ∃ loss : Int → Int → Int,
      16 * total w h (fun x y => given x y - shown x y) = total w h (leaving w h error) + total w h loss ∧
      (∀ x y, Inside w h x y → 0 ≤ 16 * given x y + received error x y → 16 * given x y + received error x y < 4096 →
        0 ≤ loss x y ∧ loss x y ≤ 15) ∧
      (∀ x y, Inside w h x y → 16 * given x y + received error x y < 0 → loss x y < 0) ∧
      ∀ x y, Inside w h x y → 4096 ≤ 16 * given x y + received error x y → 16 ≤ loss x y := by
  refine ⟨_, total_whole hw, fun x y hi h0 h1 => ?_, fun x y hi h0 => ?_, fun x y hi h0 => ?_⟩ <;>
    have := hw.value x y hi <;> omega

/-- C76 for every dithered image: all three channels lose this way. -/
theorem C76_code_partial {w h : Nat} {given : Nat → Rgba} {palette : List Palette.Rgba} {indices : List UInt8}
    (hd : Diffused w h given palette indices) (channel : Rgba → Nat)
    (hch : channel = Rgba.r ∨ channel = Rgba.g ∨ channel = Rgba.b) :
    ∃ wanted error loss : Int → Int → Int,
      Whole w h (plane channel given w) (plane channel (entry palette indices) w) wanted error ∧
      16 * total w h (fun x y => plane channel given w x y - plane channel (entry palette indices) w x y) =
        total w h (leaving w h error) + total w h loss ∧
      ∀ x y, Inside w h x y → 0 ≤ 16 * plane channel given w x y + received error x y →
        16 * plane channel given w x y + received error x y < 4096 → 0 ≤ loss x y ∧ loss x y ≤ 15 := by
  obtain ⟨er, eg, eb, wr, wg, wb, hr, hg, hb, -⟩ := hd
  rcases hch with rfl | rfl | rfl
  · obtain ⟨l, h1, h2, -⟩ := C76_sum_partial hr
    exact ⟨_, _, l, hr, h1, h2⟩
  · obtain ⟨l, h1, h2, -⟩ := C76_sum_partial hg
    exact ⟨_, _, l, hg, h1, h2⟩
  · obtain ⟨l, h1, h2, -⟩ := C76_sum_partial hb
    exact ⟨_, _, l, hb, h1, h2⟩

/-- Two pixels, one entry: an error of -5 makes -35/16 for the next, of which 13/16 are lost. -/
theorem twoPixels : Quantize.quantizeExact id [10, 20, 30, 20, 40, 60] 2 1 .rgb 1 true =
    .ok ([(15, 30, 45, 255)], [0, 0]) := by decide +kernel

/-- The errors of its red channel. -/
def twoErrors (x y : Int) : Int := if y = 0 then if x = 0 then -5 else if x = 1 then 2 else 0 else 0

/-- The values wanted. -/
def twoWanted (x _ : Int) : Int := if x = 0 then 10 else 17

theorem twoWhole : Whole 2 1 (plane Rgba.r (pixelOf 3 [10, 20, 30, 20, 40, 60]) 2)
    (plane Rgba.r (entry [(15, 30, 45, 255)] [0, 0]) 2) twoWanted twoErrors := by
  refine ⟨fun x y hn => ?_, fun x y hi => ?_, fun x y hi => ?_⟩
  · unfold Inside at hn
    unfold twoErrors
    split
    · split
      · omega
      · split
        · omega
        · rfl
    · rfl
  all_goals
    obtain ⟨h1, h2, h3, h4⟩ := hi
    have hy : y = 0 := by omega
    subst hy
    have hx : x = 0 ∨ x = 1 := by omega
    rcases hx with rfl | rfl <;> decide

/-- C76 fails: 13/16 of the red are lost. -/
theorem C76_fails : ¬ C76_full := by
  intro hf
  have := hf id .rgb (.inl rfl) [10, 20, 30, 20, 40, 60] 2 1 (by decide) (by decide) (by decide) 1 (by decide) _ _ twoPixels
    Rgba.r (.inl rfl) _ _ twoWhole
  exact absurd this (by decide)

end Pixo.Props
