import Verif.Model.Wasm
import Verif.Props.PngEncode
/-
C43 (codes of colour types, algorithms and presets) and C55 (what the functions exported to JavaScript
return for PNG).
-/
namespace Pixo.Props
open Pixo.Deflate (Pool)
open Pixo.Png (Options Valid Small)

/-! ## C43 -/

/-- The documented codes (src/wasm.rs:71, 145-149): 0 = Gray, 1 = GrayAlpha, 2 = Rgb, 3 = Rgba. -/
def colorCodes : List (Nat × ColorType) := [(0, .gray), (1, .grayAlpha), (2, .rgb), (3, .rgba)]

/-- The documented algorithms (src/wasm.rs:178). -/
def algorithmCodes : List (Nat × Resize.Algorithm) := [(0, .nearest), (1, .bilinear), (2, .lanczos3)]

/-- C43: a code gives a colour type exactly when the documentation says so, and the colour type gives the
code back. -/
theorem C43_color (v : UInt8) (c : ColorType) :
    (ColorType.ofU8 v = some c ↔ (v.toNat, c) ∈ colorCodes) ∧ (c.toU8 = v ↔ (v.toNat, c) ∈ colorCodes) := by
  have key : ∀ v : UInt8, ∀ c : ColorType, (ColorType.ofU8 v = some c ↔ (v.toNat, c) ∈ colorCodes) ∧
      (c.toU8 = v ↔ (v.toNat, c) ∈ colorCodes) := by
    have h : ∀ n : Fin 256, ∀ c ∈ [ColorType.gray, .grayAlpha, .rgb, .rgba],
        (ColorType.ofU8 (UInt8.ofNat n) = some c ↔ ((UInt8.ofNat n).toNat, c) ∈ colorCodes) ∧
        (c.toU8 = UInt8.ofNat n ↔ ((UInt8.ofNat n).toNat, c) ∈ colorCodes) := by decide +kernel
    intro v c
    have := h ⟨v.toNat, v.toNat_lt⟩ c (by cases c <;> simp)
    simpa using this
  exact key v c

/-- C43: other codes are rejected. -/
theorem C43_color_rejected (v : UInt8) (h : 4 ≤ v.toNat) : ColorType.ofU8 v = none := by
  cases e : ColorType.ofU8 v with
  | none => rfl
  | some c =>
    have := (C43_color v c).1.mp e
    simp only [colorCodes, List.mem_cons, Prod.mk.injEq, List.not_mem_nil, or_false] at this
    omega

theorem colorTypeFromU8_eq (v : UInt8) (c : ColorType) : Wasm.colorTypeFromU8 v = .ok c ↔ (v.toNat, c) ∈ colorCodes := by
  rw [← (C43_color v c).1]
  unfold Wasm.colorTypeFromU8
  cases ColorType.ofU8 v <;> simp

theorem colorTypeFromU8_rejected (v : UInt8) (h : 4 ≤ v.toNat) : Wasm.colorTypeFromU8 v = .error .invalid := by
  unfold Wasm.colorTypeFromU8
  rw [C43_color_rejected v h]

/-- C43: the exported functions reject other codes, whatever the other arguments. `encode_jpeg` takes only
0 and 2. -/
theorem C43_wasm_rejected (v : UInt8) (h : 4 ≤ v.toNat) :
    (∀ env pool data w h preset lossy, Wasm.encodePng env pool data w h v preset lossy = .error .invalid) ∧
    Wasm.bytesPerPixel v = .error .invalid ∧
    (∀ env data sw sh dw dh a, Wasm.resizeImage env data sw sh dw dh v a = .error .invalid) := by
  have e := colorTypeFromU8_rejected v h
  refine ⟨fun _ _ _ _ _ _ _ => ?_, ?_, fun _ _ _ _ _ _ _ => ?_⟩
  · unfold Wasm.encodePng; rw [e]; rfl
  · unfold Wasm.bytesPerPixel; rw [e]; rfl
  · unfold Wasm.resizeImage; rw [e]; rfl

theorem C43_jpeg_rejected (v : UInt8) (h : v.toNat ≠ 0 ∧ v.toNat ≠ 2) (data : List UInt8) (w ht : Nat) (q p : UInt8) (s : Bool) :
    Wasm.encodeJpeg data w ht v q p s = .error .invalid := by
  unfold Wasm.encodeJpeg
  cases e : ColorType.ofU8 v with
  | none => rfl
  | some c =>
    have := (C43_color v c).1.mp e
    simp only [colorCodes, List.mem_cons, Prod.mk.injEq, List.not_mem_nil, or_false] at this
    rcases this with ⟨h1, rfl⟩ | ⟨h1, rfl⟩ | ⟨h1, rfl⟩ | ⟨h1, rfl⟩
    · omega
    · rfl
    · omega
    · rfl

/-- C43: accepted codes of `encode_jpeg`. -/
theorem C43_jpeg_accepted (c : ColorType) (hc : c = .gray ∨ c = .rgb) (data : List UInt8) (w ht : Nat) (q p : UInt8) (s : Bool) :
    Wasm.encodeJpeg data w ht c.toU8 q p s = Jpeg.encode data (Wasm.jpegOptions w ht c q p s) := by
  rcases hc with rfl | rfl <;> rfl

/-- C43: bytes per pixel. -/
theorem C43_bytes (v : UInt8) : v.toNat < 4 → Wasm.bytesPerPixel v = .ok (v + 1) := by
  have h : ∀ n : Fin 256, (UInt8.ofNat n).toNat < 4 →
      Wasm.bytesPerPixel (UInt8.ofNat n) = .ok (UInt8.ofNat n + 1) := by decide +kernel
  have := h ⟨v.toNat, v.toNat_lt⟩
  simpa using this

/-- C43: algorithms. -/
theorem C43_algorithm (v : UInt8) (a : Resize.Algorithm) :
    Wasm.resizeAlgorithmFromU8 v = .ok a ↔ (v.toNat, a) ∈ algorithmCodes := by
  have h : ∀ n : Fin 256, ∀ a ∈ [Resize.Algorithm.nearest, .bilinear, .lanczos3],
      (Wasm.resizeAlgorithmFromU8 (UInt8.ofNat n) = .ok a ↔ ((UInt8.ofNat n).toNat, a) ∈ algorithmCodes) := by decide +kernel
  have := h ⟨v.toNat, v.toNat_lt⟩ a (by cases a <;> simp)
  simpa using this

theorem C43_algorithm_rejected (v : UInt8) (h : 3 ≤ v.toNat) (env : Resize.Env) (data : List UInt8) (sw sh dw dh : Nat) (c : UInt8) :
    Wasm.resizeImage env data sw sh dw dh c v = .error .invalid := by
  have e : Wasm.resizeAlgorithmFromU8 v = .error .invalid := by
    unfold Wasm.resizeAlgorithmFromU8
    split
    · omega
    · omega
    · omega
    · rfl
  unfold Wasm.resizeImage
  unfold Wasm.colorTypeFromU8
  cases ColorType.ofU8 c with
  | none => rfl
  | some c => rw [ok_bind, e]; rfl

/-- C43: with documented codes, `resize_image` resizes. -/
theorem C43_resize (env : Resize.Env) (data : List UInt8) (sw sh dw dh : Nat) (v a : UInt8) (c : ColorType)
    (al : Resize.Algorithm) (hc : (v.toNat, c) ∈ colorCodes) (ha : (a.toNat, al) ∈ algorithmCodes) :
    Wasm.resizeImage env data sw sh dw dh v a = Resize.resize env data ⟨sw, sh, dw, dh, c, al⟩ := by
  unfold Wasm.resizeImage
  rw [(colorTypeFromU8_eq v c).mpr hc, ok_bind, (C43_algorithm a al).mpr ha, ok_bind]

/-! ### Presets -/

/-- What the documentation says about a PNG preset (src/png/mod.rs:125-128, 146-150, 167-172). -/
structure PngPreset where
  level : Nat
  strategy : Filter.Strategy
  optimal : Bool
  optimizations : Bool

/-- 0 = fast, 1 = balanced, 2 = max. -/
def pngPresets : List (Nat × PngPreset) :=
  [(0, ⟨2, .adaptiveFast, false, false⟩), (1, ⟨6, .adaptive, false, true⟩), (2, ⟨9, .minSum, true, true⟩)]

/-- The options that follow a description, except for the filter strategy. -/
def Follows (p : PngPreset) (o : Options) : Prop :=
  o.level = p.level ∧ o.optimal = p.optimal ∧ o.optimizeAlpha = p.optimizations ∧
    o.reduceColorType = p.optimizations ∧ o.stripMetadata = p.optimizations ∧ o.reducePalette = p.optimizations

/-- C43 (part): the PNG presets 0, 1 and 2 are as documented and keep dimensions and colour type; the filter
strategy is as documented for 0 and 1. -/
theorem C43_png_preset_partial (n : Nat) (p : PngPreset) (hp : (n, p) ∈ pngPresets) (o : Options) :
    Follows p (o.preset n) ∧ (n ≠ 2 → (o.preset n).strategy = p.strategy) ∧
      (o.preset n).width = o.width ∧ (o.preset n).height = o.height ∧ (o.preset n).colorType = o.colorType ∧
      (o.preset n).quantization.mode = .off := by
  simp only [pngPresets, List.mem_cons, Prod.mk.injEq, List.not_mem_nil, or_false] at hp
  rcases hp with ⟨rfl, rfl⟩ | ⟨rfl, rfl⟩ | ⟨rfl, rfl⟩
  · exact ⟨⟨rfl, rfl, rfl, rfl, rfl, rfl⟩, fun _ => rfl, rfl, rfl, rfl, rfl⟩
  · exact ⟨⟨rfl, rfl, rfl, rfl, rfl, rfl⟩, fun _ => rfl, rfl, rfl, rfl, rfl⟩
  · exact ⟨⟨rfl, rfl, rfl, rfl, rfl, rfl⟩, fun h => absurd rfl h, rfl, rfl, rfl, rfl⟩

/-- C43 is violated by preset 2: it uses the filter strategy `Bigrams`, not `MinSum`. -/
theorem C43_max_violated (o : Options) : (o.preset 2).strategy = .bigrams ∧
    ∀ p, (2, p) ∈ pngPresets → p.strategy = .minSum := by
  refine ⟨rfl, fun p hp => ?_⟩
  simp only [pngPresets, List.mem_cons, Prod.mk.injEq, List.not_mem_nil, or_false] at hp
  rcases hp with ⟨h, -⟩ | ⟨h, -⟩ | ⟨-, rfl⟩
  · exact absurd h (by decide)
  · exact absurd h (by decide)
  · rfl

/-- What the documentation says about a JPEG preset (src/jpeg/mod.rs:160, 177, 193-194): optimized tables,
4:2:0, progressive, trellis quantization. -/
def jpegPresets : List (Nat × (Bool × Jpeg.Subsampling × Bool × Bool)) :=
  [(0, (false, .s444, false, false)), (1, (true, .s444, false, false)), (2, (true, .s420, true, true))]

/-- C43 (part): the JPEG presets 0, 1 and 2. -/
theorem C43_jpeg_preset_partial (n : Nat) (p : Bool × Jpeg.Subsampling × Bool × Bool) (hp : (n, p) ∈ jpegPresets)
    (o : Jpeg.Options) : o.preset n = ⟨o.width, o.height, o.colorType, o.quality, p.2.1, none, p.1, p.2.2.1, p.2.2.2⟩ := by
  simp only [jpegPresets, List.mem_cons, Prod.mk.injEq, List.not_mem_nil, or_false] at hp
  rcases hp with ⟨rfl, rfl⟩ | ⟨rfl, rfl⟩ | ⟨rfl, rfl⟩ <;> rfl

/-- C43 is violated by the presets: a number above 2 is not rejected but treated as 1. -/
theorem C43_presets_violated (n : Nat) (h : 3 ≤ n) :
    (∀ o : Options, o.preset n = o.preset 1) ∧ (∀ o : Jpeg.Options, o.preset n = o.preset 1) := by
  match n, h with
  | k + 3, _ => exact ⟨fun o => rfl, fun o => by
      unfold Jpeg.Options.preset Jpeg.Options.fromPreset
      rw [if_neg (by omega), if_neg (by omega)]
      rfl⟩

/-- The exported functions accept such numbers. -/
theorem C43_wasm_preset_violated (preset : UInt8) (h : 3 ≤ preset.toNat) :
    (∀ env pool data w h c lossy, Wasm.encodePng env pool data w h c preset lossy = Wasm.encodePng env pool data w h c 1 lossy) ∧
    (∀ data w h c q s, Wasm.encodeJpeg data w h c q preset s = Wasm.encodeJpeg data w h c q 1 s) := by
  obtain ⟨h1, h2⟩ := C43_presets_violated _ h
  refine ⟨fun env pool data w h c lossy => ?_, fun data w h c q s => ?_⟩
  · unfold Wasm.encodePng Wasm.pngOptions
    simp only [h1]
    rfl
  · unfold Wasm.encodeJpeg Wasm.jpegOptions
    simp only [h2]
    rfl

example : (2, (⟨9, .minSum, true, true⟩ : PngPreset)) ∈ pngPresets := by simp [pngPresets]
example : Wasm.resizeAlgorithmFromU8 2 = .ok .lanczos3 := (C43_algorithm 2 _).mpr (by decide)

/-! ## C55 -/

theorem wasm_options (w h : Nat) (c : ColorType) (preset : UInt8) :
    (Wasm.pngOptions w h c preset false).width = w ∧ (Wasm.pngOptions w h c preset false).height = h ∧
    (Wasm.pngOptions w h c preset false).colorType = c ∧
    (Wasm.pngOptions w h c preset false).quantization.mode = .off ∧
    (1 ≤ (Wasm.pngOptions w h c preset false).level ∧ (Wasm.pngOptions w h c preset false).level ≤ 9) ∧
    (Wasm.pngOptions w h c preset false).reduceColorType = (Wasm.pngOptions w h c preset false).reducePalette := by
  have key : Wasm.pngOptions w h c preset false = ⟨w, h, c, 2, .adaptiveFast, false, false, false, false, false, ⟨.off, 256, false⟩⟩ ∨
      Wasm.pngOptions w h c preset false = ⟨w, h, c, 9, .bigrams, true, true, true, true, true, ⟨.off, 256, false⟩⟩ ∨
      Wasm.pngOptions w h c preset false = ⟨w, h, c, 6, .adaptive, true, true, true, true, false, ⟨.off, 256, false⟩⟩ := by
    unfold Wasm.pngOptions Png.Options.preset Png.Options.fromPreset
    generalize preset.toNat = n
    match n with
    | 0 => exact .inl rfl
    | 1 => exact .inr (.inr rfl)
    | 2 => exact .inr (.inl rfl)
    | k + 3 => exact .inr (.inr rfl)
  rcases key with e | e | e <;> rw [e]
  · exact ⟨rfl, rfl, rfl, rfl, ⟨by simp, by simp⟩, rfl⟩
  · exact ⟨rfl, rfl, rfl, rfl, ⟨by simp, by simp⟩, rfl⟩
  · exact ⟨rfl, rfl, rfl, rfl, ⟨by simp, by simp⟩, rfl⟩

/-- C55: called from JavaScript with a documented colour type, data of the right length, any preset and
`lossy = false`, `encodePng` returns a file that decodes to an image of the given dimensions with the given
colours, except that transparent pixels may become transparent black; with preset 0 not even that. -/
theorem C55_wasm_png {pool : Pool} (hp : PHistory pool) (env : Png.Env) (data : List UInt8) (w h : Nat) (v preset : UInt8)
    (c : ColorType) (hc : (v.toNat, c) ∈ colorCodes) (hw : 0 < w ∧ w ≤ 2 ^ 24) (hh : 0 < h ∧ h ≤ 2 ^ 24)
    (hl : data.length = w * h * c.bytesPerPixel) (hs : Small w h) (he : Sane env h) :
    ∃ out pool' img, Wasm.encodePng env pool data w h v preset false = .ok (out, pool') ∧
      Reads env.deflate.level out w h img ∧
      ∀ k, k < w * h → shown img k = Spec.Png.pixelOf c.bytesPerPixel data k ∨
        preset ≠ 0 ∧ (Spec.Png.pixelOf c.bytesPerPixel data k).a = 0 ∧ shown img k = ⟨0, 0, 0, 0⟩ := by
  obtain ⟨e1, e2, e3, e4, e5, e6⟩ := wasm_options w h c preset
  have henc : Wasm.encodePng env pool data w h v preset false = Png.encode env pool data (Wasm.pngOptions w h c preset false) := by
    unfold Wasm.encodePng
    rw [(colorTypeFromU8_eq v c).mpr hc, ok_bind]
  have hv : Valid data (Wasm.pngOptions w h c preset false) := by
    refine ⟨e5, ?_, ?_, ?_, ?_, ?_⟩
    · rw [e1]; exact hw.1
    · rw [e2]; exact hh.1
    · rw [e1]; exact hw.2
    · rw [e2]; exact hh.2
    · rw [e1, e2, e3]; exact hl
  have hls : ¬ LosesScale data (Wasm.pngOptions w h c preset false) := fun h => by
    have h1 := h.1
    rw [e6, h.2.1] at h1
    cases h1
  rw [henc]
  by_cases h0 : preset = 0
  · have ha : (Wasm.pngOptions w h c preset false).optimizeAlpha = false := by rw [h0]; rfl
    obtain ⟨out, pool', img, e, hr, hk⟩ := C13_lossless_partial hp env data _ hv (by rw [e1, e2]; exact hs)
      (by rw [e2]; exact he) e4 ha hls
    rw [e1, e2] at hr
    refine ⟨out, pool', img, e, hr, fun k hkk => .inl ?_⟩
    rw [hk k (by rw [e1, e2]; exact hkk)]
    unfold given
    rw [e3]
  · obtain ⟨out, pool', img, e, hr, hk⟩ := C13_alpha_partial hp env data _ hv (by rw [e1, e2]; exact hs)
      (by rw [e2]; exact he) e4 hls
    rw [e1, e2] at hr
    refine ⟨out, pool', img, e, hr, fun k hkk => ?_⟩
    have := hk k (by rw [e1, e2]; exact hkk)
    unfold given at this
    rw [e3] at this
    exact this.imp id fun h => ⟨h0, h⟩

example : ∃ out pool' img, Wasm.encodePng plainPng Pool.new [1, 2, 3, 0, 9, 9, 9, 9] 2 1 3 2 false = .ok (out, pool') ∧
    Reads plainPng.deflate.level out 2 1 img ∧ shown img 1 = ⟨9, 9, 9, 9⟩ := by
  obtain ⟨out, pool', img, e, hr, hk⟩ := C55_wasm_png .new plainPng [1, 2, 3, 0, 9, 9, 9, 9] 2 1 3 2 .rgba (by decide)
    (by decide) (by decide) (by decide) (by unfold Small; decide) (plainPng_sane _)
  refine ⟨out, pool', img, e, hr, ?_⟩
  rcases hk 1 (by decide) with h | ⟨-, h, -⟩
  · rw [h]; decide
  · exact absurd h (by decide)

/-- An image is encoded with preset 200. -/
example : ∃ out pool', Wasm.encodePng plainPng Pool.new [1, 2, 3] 1 1 2 200 false = .ok (out, pool') := by
  obtain ⟨out, pool', -, h, -⟩ := C55_wasm_png .new plainPng [1, 2, 3] 1 1 2 200 .rgb (by decide)
    (by decide) (by decide) (by decide) (by unfold Small; decide) (plainPng_sane _)
  exact ⟨out, pool', h⟩

end Pixo.Props
