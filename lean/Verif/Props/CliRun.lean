import Verif.Props.Cli
import Verif.Props.Wasm
import Verif.Props.JpegProgressive
/-
C56 (the command line tool writes PNG files without loss), C57 (its conversions), C58 (its JPEG files) and
C59 (its presets).
-/
namespace Pixo.Props
open Pixo.Cli
open Spec.Png (pixelOf byteAt Rgba)
open Pixo.Deflate (Pool)
open Pixo.Png (Valid)

/-! ## C57 -/

/-- Rounding of 0.299 R + 0.587 G + 0.114 B (ITU-R BT.601) to within 1, in thousandths. -/
def NearLuma (v r g b : Nat) : Prop :=
  1000 * v < 299 * r + 587 * g + 114 * b + 1000 ∧ 299 * r + 587 * g + 114 * b < 1000 * v + 1000

theorem luma_toNat (r g b : UInt8) : (luma r g b).toNat = (77 * r.toNat + 150 * g.toNat + 29 * b.toNat + 128) / 256 := by
  unfold luma
  have := r.toNat_lt
  have := g.toNat_lt
  have := b.toNat_lt
  rw [UInt8.toNat_ofNat']
  apply Nat.mod_eq_of_lt
  omega

/-- C57: the gray value of a colour is within 1 of its luma, and that of a gray is itself. -/
theorem C57_luma (r g b : UInt8) : NearLuma (luma r g b).toNat r.toNat g.toNat b.toNat ∧
    (r = g → g = b → luma r g b = r) := by
  have h1 := r.toNat_lt
  have h2 := g.toNat_lt
  have h3 := b.toNat_lt
  refine ⟨?_, ?_⟩
  · unfold NearLuma
    rw [luma_toNat]
    omega
  · rintro rfl rfl
    apply UInt8.toNat_inj.mp
    rw [luma_toNat]
    omega

/-- The gray of the tool is the Y of the JPEG encoder. -/
theorem C57_same_as_jpeg (r g b : UInt8) : luma r g b = (rgbToYcbcr r g b).1 := by
  have h1 := r.toNat_lt
  have h2 := g.toNat_lt
  have h3 := b.toNat_lt
  apply UInt8.toNat_inj.mp
  rw [luma_toNat]
  unfold rgbToYcbcr clampU8
  simp only []
  have e : (77 * (r.toNat : Int) + 150 * (g.toNat : Int) + 29 * (b.toNat : Int) + 128) / 256 =
      (((77 * r.toNat + 150 * g.toNat + 29 * b.toNat + 128) / 256 : Nat) : Int) := by omega
  have hlt : (77 * r.toNat + 150 * g.toNat + 29 * b.toNat + 128) / 256 < 256 := by omega
  rw [e]
  generalize (77 * r.toNat + 150 * g.toNat + 29 * b.toNat + 128) / 256 = v at hlt
  rw [if_neg (by omega), if_neg (by omega), UInt8.toNat_ofNat', Int.toNat_natCast, Nat.mod_eq_of_lt hlt]

theorem byteAt_cons_succ (a : UInt8) (l : List UInt8) (i : Nat) : byteAt (a :: l) (i + 1) = byteAt l i := rfl

theorem everyOther_spec (n : Nat) (l : List UInt8) (h : l.length = n * 2) :
    (everyOther l).length = n ∧ ∀ k < n, byteAt (everyOther l) k = byteAt l (k * 2) := by
  induction n generalizing l with
  | zero => cases l with
    | nil => exact ⟨rfl, fun k hk => by omega⟩
    | cons a l => simp at h
  | succ n ih =>
    match l, h with
    | [], h => simp at h
    | [a], h => simp at h; omega
    | a :: b :: l, h =>
      obtain ⟨h1, h2⟩ := ih l (by simp at h; omega)
      refine ⟨by simp [everyOther, h1], fun k hk => ?_⟩
      cases k with
      | zero => rfl
      | succ k =>
        rw [everyOther, byteAt_cons_succ, h2 k (by omega)]
        have : (k + 1) * 2 = k * 2 + 1 + 1 := by omega
        rw [this]
        rfl

theorem lumaRgb_spec (n : Nat) (l : List UInt8) (h : l.length = n * 3) :
    (lumaRgb l).length = n ∧ ∀ k < n, ∃ r g b : UInt8, pixelOf 3 l k = ⟨r.toNat, g.toNat, b.toNat, 255⟩ ∧
      byteAt (lumaRgb l) k = (luma r g b).toNat := by
  induction n generalizing l with
  | zero =>
    have : l = [] := List.length_eq_zero_iff.mp (by omega)
    subst this
    exact ⟨rfl, fun k hk => by omega⟩
  | succ n ih =>
    match l, h with
    | [], h => simp at h
    | [a], h => simp at h; omega
    | [a, b], h => simp at h; omega
    | a :: b :: c :: l, h =>
      obtain ⟨h1, h2⟩ := ih l (by simp at h; omega)
      refine ⟨by simp [lumaRgb, h1], fun k hk => ?_⟩
      cases k with
      | zero => exact ⟨a, b, c, rfl, rfl⟩
      | succ k =>
        obtain ⟨r, g, b', e1, e2⟩ := h2 k (by omega)
        refine ⟨r, g, b', ?_, ?_⟩
        · rw [← e1]
          unfold pixelOf
          simp only []
          have e : ∀ j, (k + 1) * 3 + j = k * 3 + j + 1 + 1 + 1 := fun j => by omega
          rw [e, e, e]
          rfl
        · rw [lumaRgb, byteAt_cons_succ, e2]

theorem rgba_spec (n : Nat) (l : List UInt8) (h : l.length = n * 4) :
    (lumaRgba l).length = n ∧ (rgbaToRgb l).length = n * 3 ∧
    (∀ k < n, ∃ r g b a : UInt8, pixelOf 4 l k = ⟨r.toNat, g.toNat, b.toNat, a.toNat⟩ ∧
      byteAt (lumaRgba l) k = (luma r g b).toNat ∧ pixelOf 3 (rgbaToRgb l) k = ⟨r.toNat, g.toNat, b.toNat, 255⟩) := by
  induction n generalizing l with
  | zero =>
    have : l = [] := List.length_eq_zero_iff.mp (by omega)
    subst this
    exact ⟨rfl, rfl, fun k hk => by omega⟩
  | succ n ih =>
    match l, h with
    | [], h => simp at h
    | [a], h => simp at h; omega
    | [a, b], h => simp at h; omega
    | [a, b, c], h => simp at h; omega
    | a :: b :: c :: d :: l, h =>
      obtain ⟨h1, h1', h2⟩ := ih l (by simp at h; omega)
      refine ⟨by simp [lumaRgba, h1], by simp [rgbaToRgb, h1']; omega, fun k hk => ?_⟩
      cases k with
      | zero => exact ⟨a, b, c, d, rfl, rfl, rfl⟩
      | succ k =>
        obtain ⟨r, g, b', a', e1, e2, e3⟩ := h2 k (by omega)
        refine ⟨r, g, b', a', ?_, ?_, ?_⟩
        · rw [← e1]
          unfold pixelOf
          simp only []
          have e : ∀ j, (k + 1) * 4 + j = k * 4 + j + 1 + 1 + 1 + 1 := fun j => by omega
          rw [e, e, e, e]
          rfl
        · rw [lumaRgba, byteAt_cons_succ, e2]
        · rw [← e3]
          unfold pixelOf
          simp only []
          have e : ∀ j, (k + 1) * 3 + j = k * 3 + j + 1 + 1 + 1 := fun j => by omega
          rw [e, e, e]
          rfl

/-- C57: `--grayscale` gives one byte per pixel: the gray of a gray image, and within 1 of the luma of a
coloured one (exactly the gray where red, green and blue agree). Alpha is dropped. -/
theorem C57_grayscale (pixels : List UInt8) (ct : ColorType) (n : Nat) (h : pixels.length = n * ct.bytesPerPixel) :
    (toGrayscale pixels ct).length = n ∧ ∀ k < n,
      NearLuma (byteAt (toGrayscale pixels ct) k) (pixelOf ct.bytesPerPixel pixels k).r
        (pixelOf ct.bytesPerPixel pixels k).g (pixelOf ct.bytesPerPixel pixels k).b ∧
      ((pixelOf ct.bytesPerPixel pixels k).r = (pixelOf ct.bytesPerPixel pixels k).g →
        (pixelOf ct.bytesPerPixel pixels k).g = (pixelOf ct.bytesPerPixel pixels k).b →
        byteAt (toGrayscale pixels ct) k = (pixelOf ct.bytesPerPixel pixels k).r) := by
  have hgray : ∀ v, NearLuma v v v v := fun v => by unfold NearLuma; omega
  cases ct with
  | gray =>
    refine ⟨by simpa [ColorType.bytesPerPixel, toGrayscale] using h, fun k hk => ?_⟩
    have e : pixelOf ColorType.gray.bytesPerPixel pixels k = ⟨byteAt pixels k, byteAt pixels k, byteAt pixels k, 255⟩ := by
      unfold pixelOf ColorType.bytesPerPixel
      simp only [Nat.mul_one, Nat.add_zero]
    rw [e]
    exact ⟨hgray _, fun _ _ => rfl⟩
  | grayAlpha =>
    obtain ⟨h1, h2⟩ := everyOther_spec n pixels h
    refine ⟨h1, fun k hk => ?_⟩
    have e : pixelOf ColorType.grayAlpha.bytesPerPixel pixels k =
        ⟨byteAt pixels (k * 2), byteAt pixels (k * 2), byteAt pixels (k * 2), byteAt pixels (k * 2 + 1)⟩ := rfl
    have e2 : byteAt (toGrayscale pixels .grayAlpha) k = byteAt pixels (k * 2) := h2 k hk
    rw [e, e2]
    exact ⟨hgray _, fun _ _ => rfl⟩
  | rgb =>
    obtain ⟨h1, h2⟩ := lumaRgb_spec n pixels h
    refine ⟨h1, fun k hk => ?_⟩
    obtain ⟨r, g, b, e1, e2⟩ := h2 k hk
    have e1' : pixelOf ColorType.rgb.bytesPerPixel pixels k = ⟨r.toNat, g.toNat, b.toNat, 255⟩ := e1
    have e2' : byteAt (toGrayscale pixels .rgb) k = (luma r g b).toNat := e2
    rw [e1', e2']
    obtain ⟨h3, h4⟩ := C57_luma r g b
    exact ⟨h3, fun ha hb => congrArg _ (h4 (UInt8.toNat_inj.mp ha) (UInt8.toNat_inj.mp hb))⟩
  | rgba =>
    obtain ⟨h1, -, h2⟩ := rgba_spec n pixels h
    refine ⟨h1, fun k hk => ?_⟩
    obtain ⟨r, g, b, a, e1, e2, -⟩ := h2 k hk
    have e1' : pixelOf ColorType.rgba.bytesPerPixel pixels k = ⟨r.toNat, g.toNat, b.toNat, a.toNat⟩ := e1
    have e2' : byteAt (toGrayscale pixels .rgba) k = (luma r g b).toNat := e2
    rw [e1', e2']
    obtain ⟨h3, h4⟩ := C57_luma r g b
    exact ⟨h3, fun ha hb => congrArg _ (h4 (UInt8.toNat_inj.mp ha) (UInt8.toNat_inj.mp hb))⟩

/-- C57: what is given to the JPEG encoder: the same colours, opaque. -/
theorem C57_drop_alpha (a : Args) (hg : a.grayscale = false) (img : Image) (n : Nat)
    (h : img.pixels.length = n * img.colorType.bytesPerPixel) :
    ((convert a .jpeg img).2 = .gray ∨ (convert a .jpeg img).2 = .rgb) ∧
    (convert a .jpeg img).1.length = n * (convert a .jpeg img).2.bytesPerPixel ∧
    ∀ k < n, pixelOf (convert a .jpeg img).2.bytesPerPixel (convert a .jpeg img).1 k =
      { pixelOf img.colorType.bytesPerPixel img.pixels k with a := 255 } := by
  obtain ⟨w, ht, pixels, ct⟩ := img
  unfold convert
  rw [if_neg (by rw [hg]; decide)]
  cases ct with
  | gray => exact ⟨.inl rfl, h, fun k hk => rfl⟩
  | grayAlpha =>
    obtain ⟨h1, h2⟩ := everyOther_spec n pixels h
    refine ⟨.inl rfl, by simpa [grayAlphaToGray, ColorType.bytesPerPixel] using h1, fun k hk => ?_⟩
    have e : pixelOf ColorType.gray.bytesPerPixel (everyOther pixels) k =
        ⟨byteAt (everyOther pixels) k, byteAt (everyOther pixels) k, byteAt (everyOther pixels) k, 255⟩ := by
      unfold pixelOf ColorType.bytesPerPixel
      simp only [Nat.mul_one, Nat.add_zero]
    show pixelOf ColorType.gray.bytesPerPixel (everyOther pixels) k = _
    rw [e, h2 k hk]
    rfl
  | rgb => exact ⟨.inr rfl, h, fun k hk => rfl⟩
  | rgba =>
    obtain ⟨-, h1, h2⟩ := rgba_spec n pixels h
    refine ⟨.inr rfl, h1, fun k hk => ?_⟩
    obtain ⟨r, g, b, a, e1, -, e3⟩ := h2 k hk
    show pixelOf 3 (rgbaToRgb pixels) k = { pixelOf 4 pixels k with a := 255 }
    rw [e1, e3]

example : toGrayscale [255, 0, 0, 9, 7, 7, 7, 0] .rgba = [77, 7] := by decide
example : convert Args.default .jpeg ⟨2, 1, [1, 2, 3, 4, 5, 6, 7, 8], .rgba⟩ = ([1, 2, 3, 5, 6, 7], .rgb) := by decide

/-! ## C56 -/

theorem cli_load (adler : List UInt8 → Nat) (ck stdin : Bool) (input : List UInt8) :
    (if stdin then loadImageFromBytes adler ck input else loadImage adler ck input) = loadImage adler ck input := by
  rw [C46_stdin, ite_self]

theorem png_options (a : Args) (w h : Nat) (c : ColorType) (hl : ∀ l, a.compression = some l → 1 ≤ l ∧ l ≤ 9) :
    (pngOptions a w h c).width = w ∧ (pngOptions a w h c).height = h ∧ (pngOptions a w h c).colorType = c ∧
    (pngOptions a w h c).quantization.mode = .off ∧
    (1 ≤ (pngOptions a w h c).level ∧ (pngOptions a w h c).level ≤ 9) ∧
    (pngOptions a w h c).reduceColorType = (pngOptions a w h c).reducePalette ∧
    (pngOptions a w h c).optimizeAlpha = a.optimizeAlpha := by
  obtain ⟨_, _, _, _, compression, _, filter, preset, _, _, _, _⟩ := a
  unfold pngOptions
  have h2 : 1 ≤ 2 ∧ 2 ≤ 9 := by decide
  have h6 : 1 ≤ 6 ∧ 6 ≤ 9 := by decide
  have h9 : 1 ≤ 9 ∧ 9 ≤ 9 := by decide
  cases compression with
  | none =>
    cases preset with
    | none => cases filter <;> exact ⟨rfl, rfl, rfl, rfl, h2, rfl, rfl⟩
    | some p =>
      cases p
      · cases filter <;> exact ⟨rfl, rfl, rfl, rfl, h2, rfl, rfl⟩
      · cases filter <;> exact ⟨rfl, rfl, rfl, rfl, h6, rfl, rfl⟩
      · cases filter <;> exact ⟨rfl, rfl, rfl, rfl, h9, rfl, rfl⟩
  | some l =>
    have hll := hl l rfl
    cases preset with
    | none => cases filter <;> exact ⟨rfl, rfl, rfl, rfl, hll, rfl, rfl⟩
    | some p => cases p <;> cases filter <;> exact ⟨rfl, rfl, rfl, rfl, hll, rfl, rfl⟩

/-- The image a run of the tool gives to the PNG encoder, as colours. -/
def cliPixel (a : Args) (img : Image) (k : Nat) : Rgba :=
  if a.grayscale then
    ⟨byteAt (toGrayscale img.pixels img.colorType) k, byteAt (toGrayscale img.pixels img.colorType) k,
      byteAt (toGrayscale img.pixels img.colorType) k, 255⟩
  else pixelOf img.colorType.bytesPerPixel img.pixels k

theorem convert_png (a : Args) (img : Image) (n : Nat) (h : img.pixels.length = n * img.colorType.bytesPerPixel) :
    (convert a .png img).1.length = n * (convert a .png img).2.bytesPerPixel ∧
    ∀ k < n, pixelOf (convert a .png img).2.bytesPerPixel (convert a .png img).1 k = cliPixel a img k := by
  unfold convert cliPixel
  cases hg : a.grayscale with
  | true =>
    simp only [if_true]
    refine ⟨?_, fun k hk => ?_⟩
    · have := (C57_grayscale img.pixels img.colorType n h).1
      simpa [ColorType.bytesPerPixel] using this
    · unfold pixelOf ColorType.bytesPerPixel
      simp only [Nat.mul_one, Nat.add_zero]
  | false =>
    simp only [Bool.false_eq_true, if_false]
    exact ⟨h, fun k hk => trivial⟩

/-- C56: whatever the tool has read, if it writes a PNG file then that decodes to the same dimensions and
colours (gray ones with `--grayscale`); with `--png-optimize-alpha`, transparent pixels may become
transparent black. The options are those the argument parser admits. -/
theorem C56_png (env : Cli.Env) (adler : List UInt8 → Nat) (a : Args) (stdin stdout : Bool) (ext : Option String)
    (input : List UInt8) (img : Image) (hload : loadImage adler env.checked input = .ok img)
    (hf : outputFormat a stdout ext = .png) (hl : ∀ l, a.compression = some l → 1 ≤ l ∧ l ≤ 9)
    (hw : 0 < img.width ∧ img.width ≤ 2 ^ 24) (hh : 0 < img.height ∧ img.height ≤ 2 ^ 24)
    (hlen : img.pixels.length = img.width * img.height * img.colorType.bytesPerPixel)
    (hs : Png.Small img.width img.height) (he : Sane env.png img.height) :
    ∃ out img', run env adler a stdin stdout ext input = .ok out ∧
      Reads env.png.deflate.level out img.width img.height img' ∧
      ∀ k < img.width * img.height, shown img' k = cliPixel a img k ∨
        a.optimizeAlpha = true ∧ (cliPixel a img k).a = 0 ∧ shown img' k = ⟨0, 0, 0, 0⟩ := by
  obtain ⟨c1, c2⟩ := convert_png a img _ hlen
  generalize hc : convert a .png img = p at c1 c2
  obtain ⟨pixels, ct⟩ := p
  simp only at c1 c2
  obtain ⟨e1, e2, e3, e4, e5, e6, e7⟩ := png_options a img.width img.height ct hl
  have hv : Valid pixels (pngOptions a img.width img.height ct) := by
    refine ⟨e5, ?_, ?_, ?_, ?_, ?_⟩
    · rw [e1]; exact hw.1
    · rw [e2]; exact hh.1
    · rw [e1]; exact hw.2
    · rw [e2]; exact hh.2
    · rw [e1, e2, e3]; exact c1
  have hls : ¬ LosesScale pixels (pngOptions a img.width img.height ct) := fun h => by
    have h1 := h.1
    rw [e6, h.2.1] at h1
    cases h1
  have hsize : ¬ (stdin = true ∧ env.checked = true ∧ 2 ^ 32 ≤ img.width * img.height * ct.bytesPerPixel) := by
    rintro ⟨-, -, h⟩
    have h1 := hs.pixels
    have h2 := Png.bytesPerPixel_le ct
    have h3 : img.width * img.height * ct.bytesPerPixel ≤ img.width * img.height * 4 := Nat.mul_le_mul_left _ h2
    unfold Png.Small at hs
    have h4 : img.height * (1 + 4 * img.width) = img.height + 4 * (img.width * img.height) := by
      rw [Nat.mul_add, Nat.mul_one, Nat.mul_left_comm, Nat.mul_comm img.height]
    omega
  have hrun : ∀ out pool', Png.encode env.png Pool.new pixels (pngOptions a img.width img.height ct) = .ok (out, pool') →
      run env adler a stdin stdout ext input = .ok out := by
    intro out pool' h
    unfold run
    rw [cli_load, hload, ok_bind]
    simp only [hf, hc]
    rw [h, ok_bind]
    simp only [pure, Except.pure]
    rw [ok_bind, if_neg hsize]
  cases ha : a.optimizeAlpha with
  | false =>
    obtain ⟨out, pool', img', e, hr, hk⟩ := C13_lossless_partial .new env.png pixels _ hv (by rw [e1, e2]; exact hs)
      (by rw [e2]; exact he) e4 (e7.trans ha) hls
    rw [e1, e2] at hr
    refine ⟨out, img', hrun out pool' e, hr, fun k hkk => .inl ?_⟩
    rw [hk k (by rw [e1, e2]; exact hkk), ← c2 k hkk]
    unfold given
    rw [e3]
  | true =>
    obtain ⟨out, pool', img', e, hr, hk⟩ := C13_alpha_partial .new env.png pixels _ hv (by rw [e1, e2]; exact hs)
      (by rw [e2]; exact he) e4 hls
    rw [e1, e2] at hr
    refine ⟨out, img', hrun out pool' e, hr, fun k hkk => ?_⟩
    have := hk k (by rw [e1, e2]; exact hkk)
    unfold given at this
    rw [e3, c2 k hkk] at this
    exact this.imp id fun h => ⟨rfl, h⟩

/-- C56 for PNG input: nothing is assumed about the file but that it decodes, and not to more than about
2^28 pixels. -/
theorem C56_png_to_png (env : Cli.Env) (adler : List UInt8 → Nat) (a : Args) (stdin stdout : Bool) (ext : Option String)
    (input : List UInt8) (img : PngDecode.PngImage) (hdec : PngDecode.decodePng adler input = .ok img)
    (hsig : detectFormat input = .ok .png)
    (hf : outputFormat a stdout ext = .png) (hl : ∀ l, a.compression = some l → 1 ≤ l ∧ l ≤ 9)
    (hg : a.grayscale = false) (ha : a.optimizeAlpha = false)
    (hs : Png.Small img.width img.height) (he : Sane env.png img.height) :
    ∃ out img', run env adler a stdin stdout ext input = .ok out ∧
      Reads env.png.deflate.level out img.width img.height img' ∧
      ∀ k < img.width * img.height, shown img' k = shown img k := by
  have hload : loadImage adler env.checked input = .ok ⟨img.width, img.height, img.pixels, img.colorType⟩ := by
    unfold loadImage
    rw [hsig, ok_bind]
    show Cli.decodePng adler input = _
    unfold Cli.decodePng
    rw [hdec, ok_bind]
    rfl
  rcases C16_decoder_total adler input with ⟨img1, e, h1, h2, h3, h4, h5⟩ | ⟨e, he, -⟩
  · rw [hdec] at e
    injection e with e
    subst e
    obtain ⟨out, img', e1, e2, e3⟩ := C56_png env adler a stdin stdout ext input _ hload hf hl ⟨h2, h3⟩ ⟨h4, h5⟩ h1 hs he
    refine ⟨out, img', e1, e2, fun k hk => ?_⟩
    rcases e3 k hk with h | ⟨h, -⟩
    · rw [h]
      unfold cliPixel shown
      rw [hg]
      rfl
    · rw [ha] at h; cases h
  · rw [hdec] at he; cases he

/-- A file given to the tool with `-o out.png`. -/
example : ∃ out img', run ⟨plainPng, true⟩ Spec.adler32 Args.default true false (some "png") tinyPng = .ok out ∧
    Reads plainPng.deflate.level out 2 2 img' ∧ ∀ k < 2 * 2, shown img' k = shown ⟨2, 2, [10, 200, 7, 16], .gray⟩ k :=
  C56_png_to_png ⟨plainPng, true⟩ Spec.adler32 Args.default true false (some "png") tinyPng ⟨2, 2, [10, 200, 7, 16], .gray⟩
    (by decide +kernel) (by decide +kernel) rfl (fun l h => by cases h) rfl rfl (by unfold Png.Small; decide) (plainPng_sane _)

/-! ## C58 -/

theorem jpeg_options (a : Args) (w h : Nat) (c : ColorType) :
    (Cli.jpegOptions a w h c).width = w ∧ (Cli.jpegOptions a w h c).height = h ∧ (Cli.jpegOptions a w h c).colorType = c ∧
    (Cli.jpegOptions a w h c).quality = a.quality ∧ (Cli.jpegOptions a w h c).subsampling = a.subsampling ∧
    (Cli.jpegOptions a w h c).restartInterval = (if a.restartInterval = 0 then none else some a.restartInterval) ∧
    ((Cli.jpegOptions a w h c).progressive = true ↔ a.preset = some .max) := by
  obtain ⟨_, _, _, _, _, _, _, preset, _, _, _, _⟩ := a
  unfold Cli.jpegOptions
  cases preset with
  | none => exact ⟨rfl, rfl, rfl, rfl, rfl, rfl, ⟨(fun h => by cases h), (fun h => by cases h)⟩⟩
  | some p =>
    cases p
    · exact ⟨rfl, rfl, rfl, rfl, rfl, rfl, ⟨(fun h => by cases h), (fun h => by cases h)⟩⟩
    · exact ⟨rfl, rfl, rfl, rfl, rfl, rfl, ⟨(fun h => by cases h), (fun h => by cases h)⟩⟩
    · exact ⟨rfl, rfl, rfl, rfl, rfl, rfl, ⟨fun _ => rfl, fun _ => rfl⟩⟩

/-- What the argument parser admits. -/
structure Args.Ok (a : Args) : Prop where
  quality : 1 ≤ a.quality ∧ a.quality ≤ 100
  restart : a.restartInterval < 65536

theorem jpeg_run (env : Cli.Env) (adler : List UInt8 → Nat) (a : Args) (ha : Args.Ok a) (stdin stdout : Bool) (ext : Option String)
    (input : List UInt8) (img : Image) (hload : loadImage adler env.checked input = .ok img)
    (hf : outputFormat a stdout ext = .jpeg)
    (hw : 1 ≤ img.width ∧ img.width ≤ 65535) (hh : 1 ≤ img.height ∧ img.height ≤ 65535)
    (hlen : img.pixels.length = img.width * img.height * img.colorType.bytesPerPixel)
    (hsmall : img.width * img.height < 2 ^ 30) :
    ∃ pixels ct, convert a .jpeg img = (pixels, ct) ∧
      JpegValid pixels (Cli.jpegOptions a img.width img.height ct) ∧
      ∀ file, Jpeg.encode pixels (Cli.jpegOptions a img.width img.height ct) = .ok file →
        run env adler a stdin stdout ext input = .ok file := by
  have hconv : ((convert a .jpeg img).2 = .gray ∨ (convert a .jpeg img).2 = .rgb) ∧
      (convert a .jpeg img).1.length = img.width * img.height * (convert a .jpeg img).2.bytesPerPixel := by
    cases hg : a.grayscale with
    | false =>
      obtain ⟨h1, h2, -⟩ := C57_drop_alpha a hg img _ hlen
      exact ⟨h1, h2⟩
    | true =>
      have h1 := (C57_grayscale img.pixels img.colorType _ hlen).1
      unfold convert
      rw [hg]
      simp only [if_true]
      exact ⟨.inl trivial, by simpa [ColorType.bytesPerPixel] using h1⟩
  generalize hc : convert a .jpeg img = p at hconv
  obtain ⟨pixels, ct⟩ := p
  simp only at hconv
  obtain ⟨hct, hcl⟩ := hconv
  obtain ⟨e1, e2, e3, e4, e5, e6, e7⟩ := jpeg_options a img.width img.height ct
  refine ⟨pixels, ct, rfl, ⟨?_, ?_, ?_, ?_, ?_, ?_⟩, fun file h => ?_⟩
  · rw [e4]; exact ha.quality
  · intro i h
    rw [e6] at h
    split at h
    · cases h
    · injection h with h
      have := ha.restart
      omega
  · rw [e1]; exact hw
  · rw [e2]; exact hh
  · rw [e3]; exact hct.symm
  · rw [e1, e2, e3, hcl]
    rcases hct with rfl | rfl <;> rfl
  · have hsize : ¬ (stdin = true ∧ env.checked = true ∧ 2 ^ 32 ≤ img.width * img.height * ct.bytesPerPixel) := by
      rintro ⟨-, -, h⟩
      have h2 : ct.bytesPerPixel ≤ 4 := by cases ct <;> decide
      have h3 : img.width * img.height * ct.bytesPerPixel ≤ img.width * img.height * 4 := Nat.mul_le_mul_left _ h2
      omega
    unfold run
    rw [cli_load, hload, ok_bind]
    simp only [hf, hc]
    rw [h, ok_bind, if_neg hsize]
    rfl

/-- C58 (part): except with `--preset max`, the tool writes a JPEG file from which a decoder gets the
dimensions of the image read, the tables of the given quality, and the coefficients of its colours
without alpha (`convert`, see C57; that they are those of the image is C50). -/
theorem C58_jpeg_partial (env : Cli.Env) (adler : List UInt8 → Nat) (a : Args) (ha : Args.Ok a) (stdin stdout : Bool)
    (ext : Option String) (input : List UInt8) (img : Image) (hload : loadImage adler env.checked input = .ok img)
    (hf : outputFormat a stdout ext = .jpeg) (hp : a.preset ≠ some .max)
    (hw : 1 ≤ img.width ∧ img.width ≤ 65535) (hh : 1 ≤ img.height ∧ img.height ≤ 65535)
    (hlen : img.pixels.length = img.width * img.height * img.colorType.bytesPerPixel)
    (hsmall : img.width * img.height < 2 ^ 30) :
    ∃ file pixels ct mcus, run env adler a stdin stdout ext input = .ok file ∧ convert a .jpeg img = (pixels, ct) ∧
      blocksOf pixels (Cli.jpegOptions a img.width img.height ct) = .ok mcus ∧
      ∀ f quant mcus', Spec.T81.Reads file f quant mcus' ↔
        f = frameFor (Cli.jpegOptions a img.width img.height ct) ∧ quant = quantFor (Cli.jpegOptions a img.width img.height ct) ∧
        mcus' = zigzagged mcus := by
  obtain ⟨pixels, ct, e, hv, hrun⟩ := jpeg_run env adler a ha stdin stdout ext input img hload hf hw hh hlen hsmall
  have hprog : (Cli.jpegOptions a img.width img.height ct).progressive = false := by
    have := (jpeg_options a img.width img.height ct).2.2.2.2.2.2
    cases h : (Cli.jpegOptions a img.width img.height ct).progressive with
    | false => rfl
    | true => exact absurd (this.mp h) hp
  obtain ⟨file, mcus, h1, h2, h3, h4⟩ := C29_lossless pixels _ hv hprog
  refine ⟨file, pixels, ct, mcus, hrun file h1, e, h2, fun f quant mcus' => ⟨h4 f quant mcus', ?_⟩⟩
  rintro ⟨rfl, rfl, rfl⟩
  exact h3

/-- C58 is violated by `--preset max`: from a gray image, or with `--grayscale`, the tool writes a file that
is not a progressive JPEG file of any frame. -/
theorem C58_max_violated (env : Cli.Env) (adler : List UInt8 → Nat) (a : Args) (ha : Args.Ok a) (stdin stdout : Bool)
    (ext : Option String) (input : List UInt8) (img : Image) (hload : loadImage adler env.checked input = .ok img)
    (hf : outputFormat a stdout ext = .jpeg) (hp : a.preset = some .max)
    (hg : a.grayscale = true ∨ img.colorType = .gray ∨ img.colorType = .grayAlpha)
    (hw : 1 ≤ img.width ∧ img.width ≤ 65535) (hh : 1 ≤ img.height ∧ img.height ≤ 65535)
    (hlen : img.pixels.length = img.width * img.height * img.colorType.bytesPerPixel)
    (hsmall : img.width * img.height < 2 ^ 30) :
    ∃ file, run env adler a stdin stdout ext input = .ok file ∧ ∀ f quant out, ¬Spec.T81.ReadsProg file f quant out := by
  obtain ⟨pixels, ct, e, hv, hrun⟩ := jpeg_run env adler a ha stdin stdout ext input img hload hf hw hh hlen hsmall
  obtain ⟨e1, e2, e3, e4, e5, e6, e7⟩ := jpeg_options a img.width img.height ct
  have hct : ct = .gray := by
    have : (convert a .jpeg img).2 = .gray := by
      unfold convert
      rcases hg with h | h | h
      · rw [h]; rfl
      · rw [h]; split <;> rfl
      · rw [h]; split <;> rfl
    rw [e] at this
    exact this
  obtain ⟨file, h1, h2⟩ := C31_gray pixels _ hv (e7.mpr hp) (e3.trans hct)
  exact ⟨file, hrun file h1, h2⟩

/-- `pixo - --preset max -o out.jpg` on a PGM file of 21 by 1 pixels. -/
example : ∃ file, run ⟨plainPng, true⟩ Spec.adler32 { Args.default with preset := some .max } true false (some "jpg")
    ([80, 53] ++ pgmText ++ 10 :: (pgmRaster ++ [1, 2])) = .ok file ∧
      ∀ f quant out, ¬Spec.T81.ReadsProg file f quant out :=
  C58_max_violated _ _ _ ⟨by decide, by decide⟩ _ _ _ _ ⟨21, 1, pgmRaster, .gray⟩
    (C46_partial _ _ .pgm 21 1 pgmText pgmRaster _ (pgm_wellFormed _ (fun b h _ => h) rfl) (by decide) (by decide)
      (by decide)).1 rfl rfl (.inr (.inl rfl)) (by decide) (by decide) (by decide) (by decide)

/-! ## C59 -/

/-- C59 (part): with a preset and no other option, the tool uses the level and the filter strategy of the
preset for PNG, and for JPEG its tables, progression and trellis quantization. -/
theorem C59_preset_partial (p : Preset) (w h : Nat) (c : ColorType) :
    (pngOptions { Args.default with preset := some p } w h c).level = (Png.Options.fromPreset w h p.id).level ∧
    (pngOptions { Args.default with preset := some p } w h c).strategy = (Png.Options.fromPreset w h p.id).strategy ∧
    (pngOptions { Args.default with preset := some p } w h c).optimal = (Png.Options.fromPreset w h p.id).optimal ∧
    (Cli.jpegOptions { Args.default with preset := some p } w h c).optimizeHuffman =
      (Jpeg.Options.fromPreset w h 85 p.id).optimizeHuffman ∧
    (Cli.jpegOptions { Args.default with preset := some p } w h c).progressive = (Jpeg.Options.fromPreset w h 85 p.id).progressive ∧
    (Cli.jpegOptions { Args.default with preset := some p } w h c).trellisQuant = (Jpeg.Options.fromPreset w h 85 p.id).trellisQuant := by
  cases p <;> exact ⟨rfl, rfl, rfl, rfl, rfl, rfl⟩

/-- C59 holds for the preset `fast`. -/
theorem C59_fast (w h : Nat) (c : ColorType) :
    pngOptions { Args.default with preset := some .fast } w h c = { Png.Options.fromPreset w h 0 with colorType := c } ∧
    Cli.jpegOptions { Args.default with preset := some .fast } w h c = { Jpeg.Options.fromPreset w h 85 0 with colorType := c } :=
  ⟨rfl, rfl⟩

/-- C59 is violated by the other presets: the switches for alpha, colour type, palette and metadata that the
PNG presets turn on are turned off again, although no option says so; and `max` uses 4:4:4 for JPEG, not
4:2:0. -/
theorem C59_violated (w h : Nat) (c : ColorType) :
    (∀ p, p = .balanced ∨ p = .max → pngOptions { Args.default with preset := some p } w h c ≠
      { Png.Options.fromPreset w h p.id with colorType := c }) ∧
    Cli.jpegOptions { Args.default with preset := some .max } w h c ≠ { Jpeg.Options.fromPreset w h 85 2 with colorType := c } := by
  refine ⟨fun p hp h => ?_, fun h => ?_⟩
  · have := congrArg Png.Options.reducePalette h
    rcases hp with rfl | rfl <;> cases this
  · have := congrArg Jpeg.Options.subsampling h
    cases this

end Pixo.Props
