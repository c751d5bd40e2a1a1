import Verif.Proof.PngEncode
import Verif.Props.Deflate
import Verif.Props.PngDecode
/-
C13 (encoding is lossless), C14 (validation, no panics), C15 (well-formed files), C21 (palettes),
C22 (quantization), C23 (alpha optimisation), C24 (metadata stripping), C44 (indexed encoder),
C45 (bit packing), and C26 for the encoder.

All theorems about the encoder hold for images of at most about 2^28 pixels (`Small`).
-/
namespace Pixo.Props
open Spec Spec.Png
open Pixo.Png (Options Valid Small encode encodeInto encodeWith encodeIndexed encodeIndexedWith encodeIndexedInto)
open Pixo.Deflate (Pool)
open Pixo.PngDecode (decodePng)

/-- The assumptions on what the model leaves open: `log2` is between 0 and 32 on u32 values, and
every row task runs. -/
structure Sane (env : Png.Env) (height : Nat) : Prop where
  log : Lz77.LogOk env.deflate.log2
  sched : FairSchedule env.sched height

theorem Sane.ok {env : Png.Env} {height : Nat} (h : Sane env height) : Png.EnvOk env height := ⟨h.log, h.sched⟩

/-- An environment. -/
def plainPng : Png.Env := ⟨plainEnv, none, ⟨id, fun _ => (0, 0, 0)⟩⟩

theorem plainPng_sane (height : Nat) : Sane plainPng height := ⟨plain_log, fun order h => by cases h⟩

/-- Colour `k` of the image given to the encoder. -/
def given (data : List UInt8) (o : Options) (k : Nat) : Rgba := pixelOf o.colorType.bytesPerPixel data k

/-- Colour `k` of a decoded image. -/
def shown (img : PngDecode.PngImage) (k : Nat) : Rgba := pixelOf img.colorType.bytesPerPixel img.pixels k

theorem getD_ge {l : List UInt8} {i : Nat} {d : UInt8} (h : l.length ≤ i) : l.getD i d = d := by
  simp [List.getD, List.getElem?_eq_none h]

/-- The decoder reads `out` as an image of the given size. -/
structure Reads (lv : Simd.Level) (out : List UInt8) (w h : Nat) (img : PngDecode.PngImage) : Prop where
  decodes : decodePng (checksum lv) out = .ok img
  width : img.width = w
  height : img.height = h
  length : img.pixels.length = w * h * img.colorType.bytesPerPixel

/-! ## C13 -/

/-- The images that lose their scale: an opaque gray image below 16, given as RGB or RGBA, with
colour type reduction but no palette, and not entirely black. -/
def LosesScale (data : List UInt8) (o : Options) : Prop :=
  o.reduceColorType = true ∧ o.reducePalette = false ∧ (o.colorType = .rgb ∨ o.colorType = .rgba) ∧
  (∀ k, k < o.width * o.height → ∃ v, v < 16 ∧ given data o k = ⟨v, v, v, 255⟩) ∧
  ∃ k, k < o.width * o.height ∧ given data o k ≠ ⟨0, 0, 0, 255⟩

theorem wrote_reads {lv : Simd.Level} {w h : Nat} (hw : w ≤ 2 ^ 24) (hh : h ≤ 2 ^ 24) {f : Nat → Rgba} {out : List UInt8}
    (hW : Png.Wrote (checksum lv) w h f out) :
    ∃ img, Reads lv out w h img ∧ ∀ k, k < w * h → shown img k = f k := by
  obtain ⟨hd, plte, trns, raw, rfl, rfl, -, ht, hs⟩ := hW
  obtain ⟨img, e, h1, h2, h3, h4⟩ := Png.Tight_decode hw hh hs ht []
  rw [List.append_nil] at e
  exact ⟨img, ⟨e, h1, h2, h3⟩, h4⟩

theorem dimmed_iff {n : Nat} {p f : Nat → Rgba} {o : Options} {d : Nat} {v : Nat → Nat} (h : Png.Dimmed n p f o d v) :
    (∀ k, k < n → ∃ v, v < 16 ∧ p k = ⟨v, v, v, 255⟩) ∧ ∀ k, k < n → (f k = p k ↔ p k = ⟨0, 0, 0, 255⟩) := by
  have hd := h.depth.mem
  have hs := h.small
  simp only [List.mem_cons, List.not_mem_nil, or_false] at hd
  refine ⟨fun k hk => ⟨v k, ?_, h.gray k hk⟩, fun k hk => ?_⟩
  · have := h.depth.lt k hk
    have : 2 ^ d ≤ 2 ^ 4 := Nat.pow_le_pow_right (by decide) (by omega)
    omega
  · rw [h.get k hk, h.gray k hk]
    unfold Png.grayOf
    simp only [Rgba.mk.injEq, and_true, and_self]
    unfold to8
    rcases hd with rfl | rfl | rfl | rfl
    · rw [if_neg (by decide)]; omega
    · rw [if_neg (by decide)]; omega
    · rw [if_neg (by decide)]; omega
    · omega

/-- C13, exactly: without quantization and alpha optimisation, encoding then decoding returns the
image if and only if it is not one that loses its scale. -/
theorem C13_lossless_iff {pool : Pool} (hp : PHistory pool) (env : Png.Env) (data : List UInt8) (o : Options)
    (hv : Valid data o) (hs : Small o.width o.height) (he : Sane env o.height)
    (hq : o.quantization.mode = .off) (ha : o.optimizeAlpha = false) :
    ∃ out pool' img, encode env pool data o = .ok (out, pool') ∧ Reads env.deflate.level out o.width o.height img ∧
      ((∀ k, k < o.width * o.height → shown img k = given data o k) ↔ ¬ LosesScale data o) := by
  obtain ⟨⟨out, pool'⟩, e, ⟨f, hW, hH⟩, -⟩ :=
    (Png.encodeWith_ok (sumOk env.deflate.level) hv he.ok hp.ok [] hs).out
  obtain ⟨img, hR, hsh⟩ := wrote_reads hv.w1 hv.h1 hW
  refine ⟨out, pool', img, e, hR, ?_⟩
  rcases hH with hK | ⟨hm, -⟩
  · rcases hK with ⟨hnd, hk⟩ | ⟨d, v, hdim⟩
    · refine ⟨fun _ hl => hnd ⟨hl.1, hl.2.1, hl.2.2.1, hl.2.2.2.1⟩, fun _ k hk' => ?_⟩
      rw [hsh k hk']
      rcases hk k hk' with h | ⟨h, -⟩
      · exact h
      · rw [ha] at h; cases h
    · obtain ⟨h1, h2⟩ := dimmed_iff hdim
      constructor
      · rintro hall ⟨-, -, -, -, k, hk, hne⟩
        exact hne ((h2 k hk).mp (by rw [← hsh k hk]; exact hall k hk))
      · intro hnl k hk
        rw [hsh k hk]
        refine (h2 k hk).mpr (Classical.byContradiction fun hne => ?_)
        exact hnl ⟨hdim.reduce, hdim.palette, hdim.colour, h1, k, hk, hne⟩
  · exact absurd hq hm

/-- C13 for all other images (the full statement has no `¬ LosesScale`; it fails, see below). -/
theorem C13_lossless_partial {pool : Pool} (hp : PHistory pool) (env : Png.Env) (data : List UInt8) (o : Options)
    (hv : Valid data o) (hs : Small o.width o.height) (he : Sane env o.height)
    (hq : o.quantization.mode = .off) (ha : o.optimizeAlpha = false) (hl : ¬ LosesScale data o) :
    ∃ out pool' img, encode env pool data o = .ok (out, pool') ∧ Reads env.deflate.level out o.width o.height img ∧
      ∀ k, k < o.width * o.height → shown img k = given data o k := by
  obtain ⟨out, pool', img, e, hR, hiff⟩ := C13_lossless_iff hp env data o hv hs he hq ha
  exact ⟨out, pool', img, e, hR, hiff.mpr hl⟩

/-- C13 with alpha optimisation: only pixels with alpha 0 may change, to transparent black. -/
theorem C13_alpha_partial {pool : Pool} (hp : PHistory pool) (env : Png.Env) (data : List UInt8) (o : Options)
    (hv : Valid data o) (hs : Small o.width o.height) (he : Sane env o.height)
    (hq : o.quantization.mode = .off) (hl : ¬ LosesScale data o) :
    ∃ out pool' img, encode env pool data o = .ok (out, pool') ∧ Reads env.deflate.level out o.width o.height img ∧
      ∀ k, k < o.width * o.height → shown img k = given data o k ∨
        (given data o k).a = 0 ∧ shown img k = ⟨0, 0, 0, 0⟩ := by
  obtain ⟨⟨out, pool'⟩, e, ⟨f, hW, hH⟩, -⟩ :=
    (Png.encodeWith_ok (sumOk env.deflate.level) hv he.ok hp.ok [] hs).out
  obtain ⟨img, hR, hsh⟩ := wrote_reads hv.w1 hv.h1 hW
  refine ⟨out, pool', img, e, hR, fun k hk => ?_⟩
  rw [hsh k hk]
  rcases hH with hK | ⟨hm, -⟩
  · rcases hK with ⟨-, h⟩ | ⟨d, v, hdim⟩
    · rcases h k hk with h | ⟨-, h⟩
      · exact .inl h
      · unfold Png.cleared at h
        by_cases h0 : (given data o k).a = 0
        · exact .inr ⟨h0, by rw [h]; exact if_pos h0⟩
        · exact .inl (by rw [h]; exact if_neg h0)
    · obtain ⟨h1, h2⟩ := dimmed_iff hdim
      refine .inl ((h2 k hk).mpr (Classical.byContradiction fun hne => ?_))
      exact hl ⟨hdim.reduce, hdim.palette, hdim.colour, h1, k, hk, hne⟩
  · exact absurd hq hm

/-- Options of the witness: colour type reduction, nothing else. -/
def dimOptions : Options := { Options.fast 1 1 with colorType := .rgb, reduceColorType := true }

theorem dim_valid : Valid [1, 1, 1] dimOptions := ⟨by decide, by decide, by decide, by decide, by decide, by decide⟩

/-- C13 is violated: a 1x1 RGB image of colour (1, 1, 1), with `reduce_color_type`, does not come
back. -/
theorem C13_dim_violated : ∃ out pool' img, encode plainPng Pool.new [1, 1, 1] dimOptions = .ok (out, pool') ∧
    Reads plainPng.deflate.level out 1 1 img ∧ shown img 0 ≠ given [1, 1, 1] dimOptions 0 := by
  obtain ⟨out, pool', img, e, hR, hiff⟩ := C13_lossless_iff .new plainPng [1, 1, 1] dimOptions dim_valid
    (by unfold Small; decide) (plainPng_sane _) rfl rfl
  refine ⟨out, pool', img, e, hR, fun h => ?_⟩
  refine hiff.mp (fun k hk => ?_) ⟨rfl, rfl, .inl rfl, fun k hk => ?_, 0, by decide, by decide⟩
  · have : k = 0 := by have : k < 1 := hk; omega
    subst this; exact h
  · have : k = 0 := by have : k < 1 := hk; omega
    subst this; exact ⟨1, by decide, by decide⟩

/-- A 2x1 image that meets the hypotheses of the lossless theorem, with everything switched on
except alpha optimisation. -/
def redOptions : Options := { Options.max 2 1 with colorType := .rgb, optimizeAlpha := false }

example : Valid [255, 0, 0, 1, 1, 1] redOptions ∧ Small redOptions.width redOptions.height ∧
    ¬ LosesScale [255, 0, 0, 1, 1, 1] redOptions :=
  ⟨⟨by decide, by decide, by decide, by decide, by decide, by decide⟩, by unfold Small; decide, fun h => by
    cases h.2.1⟩

/-! ## C14 -/

/-- C14: a level outside 1 to 9 is reported first. -/
theorem C14_level (env : Png.Env) (pool : Pool) (buffer data : List UInt8) (o : Options)
    (h : ¬ (1 ≤ o.level ∧ o.level ≤ 9)) :
    encodeInto env pool buffer data o = ⟨.error (.level o.level), buffer, pool⟩ := by
  unfold encodeInto encodeWith Png.checkInput
  rw [if_pos h]; rfl

/-- C14: then zero dimensions. -/
theorem C14_zero (env : Png.Env) (pool : Pool) (buffer data : List UInt8) (o : Options)
    (hl : 1 ≤ o.level ∧ o.level ≤ 9) (h : o.width = 0 ∨ o.height = 0) :
    encodeInto env pool buffer data o = ⟨.error (.dimensions o.width o.height), buffer, pool⟩ := by
  unfold encodeInto encodeWith Png.checkInput
  rw [if_neg (by simpa using hl), if_pos h]; rfl

/-- C14: then dimensions above 2^24. -/
theorem C14_large (env : Png.Env) (pool : Pool) (buffer data : List UInt8) (o : Options)
    (hl : 1 ≤ o.level ∧ o.level ≤ 9) (h0 : 0 < o.width ∧ 0 < o.height)
    (h : o.width > 2 ^ 24 ∨ o.height > 2 ^ 24) :
    encodeInto env pool buffer data o = ⟨.error (.tooLarge o.width o.height (2 ^ 24)), buffer, pool⟩ := by
  unfold encodeInto encodeWith Png.checkInput Png.maxDimension
  rw [if_neg (by simpa using hl), if_neg (by omega), if_pos h]; rfl

/-- C14: then a wrong data length. -/
theorem C14_length (env : Png.Env) (pool : Pool) (buffer data : List UInt8) (o : Options)
    (hl : 1 ≤ o.level ∧ o.level ≤ 9) (h0 : 0 < o.width ∧ 0 < o.height)
    (h1 : o.width ≤ 2 ^ 24 ∧ o.height ≤ 2 ^ 24)
    (h : data.length ≠ o.width * o.height * o.colorType.bytesPerPixel) :
    encodeInto env pool buffer data o =
      ⟨.error (.dataLength (o.width * o.height * o.colorType.bytesPerPixel) data.length), buffer, pool⟩ := by
  have hb := Png.bytesPerPixel_le o.colorType
  have h2 : o.width * o.height ≤ 2 ^ 24 * 2 ^ 24 := Nat.mul_le_mul h1.1 h1.2
  have h3 : o.width * o.height * o.colorType.bytesPerPixel ≤ 2 ^ 24 * 2 ^ 24 * 4 := Nat.mul_le_mul h2 hb
  unfold encodeInto encodeWith Png.checkInput Png.checkLen Png.expectedLen Png.maxDimension
  rw [if_neg (by simpa using hl), if_neg (by omega), if_neg (by omega), if_pos ⟨by omega, by omega⟩, ok_bind, if_pos h]
  rfl

/-- C14: everything else succeeds (within the size bound), and what is written does not depend on
what the buffer held. -/
theorem C14_ok_partial {pool : Pool} (hp : PHistory pool) (env : Png.Env) (data : List UInt8) (o : Options)
    (hv : Valid data o) (hs : Small o.width o.height) (he : Sane env o.height) :
    ∃ out pool', ∀ buffer, encodeInto env pool buffer data o = ⟨.ok (), out, pool'⟩ := by
  obtain ⟨⟨out, pool'⟩, e, -⟩ := (Png.encodeWith_ok (sumOk env.deflate.level) hv he.ok hp.ok [] hs).out
  refine ⟨out, pool', fun buffer => ?_⟩
  unfold encodeInto
  rw [Png.encodeWith_buffer, e]

/-- C14, beyond the bound: from 1431655766 pixels on, `apply_most_popular_first` overflows in
`indexed.len() as u32 * 3`. -/
theorem C14_threshold_overflow (indexed : List UInt8) (remapping : List Nat) (h1 : 1431655766 ≤ indexed.length)
    (h2 : indexed.length < 2 ^ 32) (hr : remapping ≠ []) (r : List Nat) :
    Palette.popularFirst indexed remapping ≠ .ok r := by
  have hne : indexed ≠ [] := by rintro rfl; simp at h1
  have ht : Palette.threshold indexed.length = .error .panic := by
    unfold Palette.threshold
    rw [if_neg (by omega)]
  unfold Palette.popularFirst
  rw [if_neg (by simp [hne, hr]), ht]
  cases Palette.countLoop indexed (List.replicate 256 0) with
  | error e => intro h; cases h
  | ok c =>
    rw [ok_bind]
    cases remapping.mapM fun i => do return (i, ← getChecked c i) with
    | error e => intro h; cases h
    | ok q => intro h; cases h

example : ∃ l : List UInt8, 1431655766 ≤ l.length ∧ l.length < 2 ^ 32 :=
  ⟨List.replicate 1431655766 0, by rw [List.length_replicate]; decide⟩
example : encodeInto plainPng Pool.new [1, 2] [] { Options.fast 0 0 with level := 0 } =
    ⟨.error (.level 0), [1, 2], Pool.new⟩ := C14_level _ _ _ _ _ (by decide)
example : encodeInto plainPng Pool.new [7] [1, 2, 3, 4, 5] (Options.fast 1 1) =
    ⟨.error (.dataLength 4 5), [7], Pool.new⟩ :=
  C14_length _ _ _ _ _ (by decide) (by decide) (by decide) (by decide)

/-! ## C15 -/

/-- C15: every image encodes to a file with signature, IHDR of the given dimensions, PLTE and tRNS
only for indexed images, non-empty IDAT chunks and IEND, in this order, with right lengths and
CRCs, whose IDAT data are one zlib stream of filtered scanlines. -/
theorem C15_well_formed {pool : Pool} (hp : PHistory pool) (env : Png.Env) (data : List UInt8) (o : Options)
    (hv : Valid data o) (hs : Small o.width o.height) (he : Sane env o.height) :
    ∃ out pool' hd plte trns rows, encode env pool data o = .ok (out, pool') ∧
      hd.width = o.width ∧ hd.height = o.height ∧ Tight (checksum env.deflate.level) hd plte trns rows out := by
  obtain ⟨⟨out, pool'⟩, e, ⟨f, hW, -⟩, -⟩ := (Png.encodeWith_ok (sumOk env.deflate.level) hv he.ok hp.ok [] hs).out
  obtain ⟨hd, plte, trns, raw, h1, h2, -, ht, -⟩ := hW
  exact ⟨out, pool', hd, plte, trns, _, e, h1, h2, ht⟩

/-- C15 for whoever called successfully. -/
theorem C15_every_success {pool : Pool} (hp : PHistory pool) (env : Png.Env) (data : List UInt8) (o : Options)
    (hs : Small o.width o.height) (he : Sane env o.height) {out : List UInt8} {pool' : Pool}
    (e : encode env pool data o = .ok (out, pool')) :
    Valid data o ∧ ∃ hd plte trns rows, hd.width = o.width ∧ hd.height = o.height ∧
      Tight (checksum env.deflate.level) hd plte trns rows out := by
  have hv : Valid data o := by
    have hi : ∀ r, encodeInto env pool [] data o = r → r.result = .ok () := by
      intro r hr
      unfold encodeInto at hr
      unfold encode at e
      rw [e] at hr
      rw [← hr]
    by_cases hl : 1 ≤ o.level ∧ o.level ≤ 9
    · by_cases h0 : o.width = 0 ∨ o.height = 0
      · cases hi _ (C14_zero env pool [] data o hl h0)
      · by_cases h1 : o.width > 2 ^ 24 ∨ o.height > 2 ^ 24
        · cases hi _ (C14_large env pool [] data o hl (by omega) h1)
        · by_cases hn : data.length = o.width * o.height * o.colorType.bytesPerPixel
          · exact ⟨hl, by omega, by omega, by omega, by omega, hn⟩
          · cases hi _ (C14_length env pool [] data o hl (by omega) (by omega) hn)
    · cases hi _ (C14_level env pool [] data o hl)
  obtain ⟨out', pool'', hd, plte, trns, rows, e', h1, h2, h3⟩ := C15_well_formed hp env data o hv hs he
  rw [e] at e'
  cases e'
  exact ⟨hv, hd, plte, trns, rows, h1, h2, h3⟩

/-- With a right checksum (scalar, for one) the zlib stream is as RFC 1950 demands. -/
theorem C15_scalar_checksum : checksum .scalar = Spec.adler32 := by
  funext data
  unfold checksum
  have := C09_scalar data
  rw [show Simd.adler32 .scalar data = .ok (Spec.adler32 data) from this]

/-! ## C21 -/

/-- C21: the palette has distinct colours, at most 256, all from the image; every index is in range
and gives the pixel its colour; and a palette is found whenever the colours fit. -/
theorem C21_palette {ct : ColorType} (hct : ct = .rgb ∨ ct = .rgba) (data : List UInt8) (w h : Nat)
    (hl : data.length = w * h * ct.bytesPerPixel) (hK : w * h < 2 ^ 30) :
    (∃ indexed palette, Palette.buildPalette data ct w h = .ok (some (indexed, palette)) ∧
      palette.Nodup ∧ palette.length ≤ 256 ∧ indexed.length = w * h ∧
      (∀ c ∈ palette, ∃ k, k < w * h ∧ Png.num c = pixelOf ct.bytesPerPixel data k) ∧
      ∀ k, k < w * h → ∃ (hk : k < indexed.length) (hi : indexed[k].toNat < palette.length),
        Png.num palette[indexed[k].toNat] = pixelOf ct.bytesPerPixel data k) ∨
    Palette.buildPalette data ct w h = .ok none ∧
      ∀ l : List Palette.Rgba, (∀ k, k < w * h → ∃ c ∈ l, Png.num c = pixelOf ct.bytesPerPixel data k) →
        256 < l.length := by
  obtain ⟨r, e, hr⟩ := (Png.buildPalette_ok hct hl hK).out
  cases r with
  | none => exact .inr ⟨e, hr⟩
  | some q =>
    left
    refine ⟨q.1, q.2, e, hr.nodup, hr.le, hr.len, hr.occurs, fun k hk => ?_⟩
    obtain ⟨c, hc, he⟩ := hr.same k hk
    have hk' : k < q.1.length := by rw [hr.len]; exact hk
    rw [Palette.getD_lt hk'] at hc
    obtain ⟨hlt, hc⟩ := List.getElem?_eq_some_iff.mp hc
    exact ⟨hk', hlt, by rw [hc]; exact he⟩

example : Palette.buildPalette [9, 9, 9, 1, 2, 3, 5, 5, 5, 9, 9, 9] .rgb 2 2 matches
    .ok (some ([0, 1, 2, 0], [(9, 9, 9, 255), (1, 2, 3, 255), (5, 5, 5, 255)])) := by decide +kernel

/-! ## C22 -/

/-- C22: 1 to `max(1, max_colors)` entries, an index in range for every pixel, for any float
behaviour of the dithering and any order among equal counts. -/
theorem C22_bounded (env : Quantize.Env) {ct : ColorType} (hct : ct = .rgb ∨ ct = .rgba) (data : List UInt8) (n : Nat)
    (hl : data.length = n * ct.bytesPerPixel) (h1 : 1 ≤ n) (hn : n < 2 ^ 30) (m : Nat) (hm : m ≤ 256)
    (dithering : Bool) :
    ∃ palette indices, Quantize.quantizeImage env data ct m dithering = .ok (palette, indices) ∧
      1 ≤ palette.length ∧ palette.length ≤ max 1 m ∧ indices.length = n ∧ ∀ i ∈ indices, i.toNat < palette.length := by
  obtain ⟨q, e, hq, -⟩ := (Quantize.quantizeImage_ok env hct hl h1 hn hm dithering).out
  exact ⟨q.1, q.2, e, hq.one, hq.le, hq.len, hq.lt⟩

/-- C22: exact if the image has at most `m` colours and less than 100000 pixels (so that all are
sampled). Dithering does not matter: it is not reached. -/
theorem C22_exact (env : Quantize.Env) {ct : ColorType} (hct : ct = .rgb ∨ ct = .rgba) (data : List UInt8) (n : Nat)
    (hl : data.length = n * ct.bytesPerPixel) (h1 : 1 ≤ n) (hn : n < 100000) (m : Nat) (hm : m ≤ 256)
    (dithering : Bool) (colours : List Palette.Rgba) (hc : colours.length ≤ m)
    (hall : ∀ k, k < n → ∃ c ∈ colours, Png.num c = pixelOf ct.bytesPerPixel data k) :
    ∃ palette indices, Quantize.quantizeImage env data ct m dithering = .ok (palette, indices) ∧
      ∀ k, k < n → ∃ (hk : k < indices.length) (hi : indices[k].toNat < palette.length),
        Png.num palette[indices[k].toNat] = pixelOf ct.bytesPerPixel data k := by
  obtain ⟨q, e, hq, hex⟩ := (Quantize.quantizeImage_ok env hct hl h1 (by omega) hm dithering).out
  refine ⟨q.1, q.2, e, fun k hk => ?_⟩
  have := hex hn colours (fun i hi => by
    obtain ⟨c, hc, he⟩ := hall i hi
    rw [← Png.num_pixelAt hct] at he
    rw [← Png.num_inj he]; exact hc) hc k hk
  have hk' : k < q.2.length := by rw [hq.len]; exact hk
  rw [Palette.getD_lt hk'] at this
  obtain ⟨hlt, hc⟩ := List.getElem?_eq_some_iff.mp this
  exact ⟨hk', hlt, by rw [hc]; exact Png.num_pixelAt hct k⟩

/-- C22 for the encoder: whatever the options, the decoded image either is the one given (up to
alpha optimisation and loss of scale), or is quantized: its colours are from a list of at most
`max(1, min(max_colors, 256))`, and they are those given if these fit and all are sampled. -/
theorem C22_encoder {pool : Pool} (hp : PHistory pool) (env : Png.Env) (data : List UInt8) (o : Options)
    (hv : Valid data o) (hs : Small o.width o.height) (he : Sane env o.height)
    (hq : o.quantization.mode = .force) (hct : o.colorType = .rgb ∨ o.colorType = .rgba) :
    ∃ out pool' img, encode env pool data o = .ok (out, pool') ∧ Reads env.deflate.level out o.width o.height img ∧
      ∃ palette : List Palette.Rgba, 1 ≤ palette.length ∧ palette.length ≤ max 1 (min o.quantization.maxColors 256) ∧
        (∀ k, k < o.width * o.height → ∃ c ∈ palette, shown img k = Png.num c) ∧
        (o.width * o.height < 100000 → ∀ colours : List Palette.Rgba,
          (∀ k, k < o.width * o.height → ∃ c ∈ colours, Png.num c = given data o k) →
          colours.length ≤ min o.quantization.maxColors 256 →
          ∀ k, k < o.width * o.height → shown img k = given data o k) := by
  have hd : Png.Dims o.width o.height := ⟨hv.w0, hv.h0, by have := hv.w1; omega, by have := hv.h1; omega⟩
  have e1 : encode env pool data o = Png.encodeQuantized env pool [] data o := by
    unfold encode encodeWith Png.shouldQuantize
    rw [Png.checkInput_ok hv, ok_bind, hq]
    dsimp only
    rw [ok_bind, if_pos (by unfold Png.isColour; rcases hct with h | h <;> rw [h] <;> rfl)]
  obtain ⟨⟨out, pool'⟩, e, ⟨f, hW, palette, h1, h2, h3, h4⟩, -⟩ :=
    (Png.encodeQuantized_ok (sumOk env.deflate.level) he.ok hp.ok [] hd hs hct hv.len).out
  obtain ⟨img, hR, hsh⟩ := wrote_reads hv.w1 hv.h1 hW
  refine ⟨out, pool', img, e1.trans e, hR, palette, h1, h2, fun k hk => ?_, fun hn l hl hlm k hk => ?_⟩
  · rw [hsh k hk]; exact h3 k hk
  · rw [hsh k hk]; exact h4 hn l hl hlm k hk

/-- Two colours, one entry: both become their mean. Two entries: exact. -/
example : Quantize.quantizeImage ⟨id, fun _ => (0, 0, 0)⟩ [10, 20, 30, 20, 40, 60] .rgb 1 false =
    .ok ([(15, 30, 45, 255)], [0, 0]) := by decide +kernel
example : Quantize.quantizeImage ⟨id, fun _ => (0, 0, 0)⟩ [10, 20, 30, 20, 40, 60] .rgb 2 false =
    .ok ([(10, 20, 30, 255), (20, 40, 60, 255)], [0, 1]) := by decide +kernel

/-! ## C23 -/

/-- C23: alpha optimisation succeeds, keeps the length and every pixel except those with alpha 0,
which become all zero. -/
theorem C23_alpha {ct : ColorType} {data : List UInt8} {n : Nat} (hl : data.length = n * ct.bytesPerPixel) :
    ∃ out, Png.optimizeAlpha data ct true = .ok out ∧ out.length = data.length ∧
      ∀ k, k < n → (pixelOf ct.bytesPerPixel out k).a = (pixelOf ct.bytesPerPixel data k).a ∧
        ((pixelOf ct.bytesPerPixel data k).a ≠ 0 → pixelOf ct.bytesPerPixel out k = pixelOf ct.bytesPerPixel data k) ∧
        ((pixelOf ct.bytesPerPixel data k).a = 0 → pixelOf ct.bytesPerPixel out k = ⟨0, 0, 0, 0⟩) := by
  obtain ⟨out, e, h1, h2⟩ := Png.optimizeAlpha_ok hl true
  refine ⟨out, e, h1, fun k hk => ?_⟩
  have h2 := h2 k hk
  rw [if_pos rfl] at h2
  unfold Png.cleared at h2
  by_cases h0 : (pixelOf ct.bytesPerPixel data k).a = 0
  · rw [if_pos h0] at h2
    exact ⟨by rw [h2, h0], fun h => absurd h0 h, fun _ => h2⟩
  · rw [if_neg h0] at h2
    exact ⟨by rw [h2], fun _ => h2, fun h => absurd h h0⟩

/-- C23: switched off, nothing happens. -/
theorem C23_off (data : List UInt8) (ct : ColorType) : Png.optimizeAlpha data ct false = .ok data := rfl

example : Png.optimizeAlpha [1, 2, 3, 0, 4, 5, 6, 7] .rgba true = .ok [0, 0, 0, 0, 4, 5, 6, 7] := by decide +kernel

/-! ## C24 -/

/-- Metadata chunks. -/
def isMetadata (c : Chunk) : Bool := c.ty = tEXt || c.ty = zTXt || c.ty = iTXt || c.ty = tIME

/-- C24: of a chunk stream that ends with IEND exactly the metadata chunks are removed; what follows
IEND goes too. -/
theorem C24_strip (head : List UInt8) (hh : head.length = 8) (cs : List Chunk) (hc : ∀ c ∈ cs, c.Ok ∧ c.ty ≠ IEND)
    (e : Chunk) (he : e.Ok) (het : e.ty = IEND) (tail : List UInt8) :
    Png.stripMetadata (head ++ stream (cs ++ [e]) ++ tail)
      = .ok (head ++ stream (cs.filter (fun c => !isMetadata c) ++ [e])) :=
  Png.stripMetadata_end hh hc he het tail

/-- C24 for a stream without IEND. -/
theorem C24_strip_open (head : List UInt8) (hh : head.length = 8) (cs : List Chunk) (hc : ∀ c ∈ cs, c.Ok ∧ c.ty ≠ IEND) :
    Png.stripMetadata (head ++ stream cs) = .ok (head ++ stream (cs.filter (fun c => !isMetadata c))) :=
  Png.stripMetadata_open hh hc

/-- C24: the encoder's own output is left alone. -/
theorem C24_identity {pool : Pool} (hp : PHistory pool) (env : Png.Env) (data : List UInt8) (o : Options)
    (hv : Valid data o) (hs : Small o.width o.height) (he : Sane env o.height) :
    ∃ out pool', encode env pool data o = .ok (out, pool') ∧ Png.stripMetadata out = .ok out := by
  obtain ⟨out, pool', hd, plte, trns, rows, e, -, -, ht⟩ := C15_well_formed hp env data o hv hs he
  exact ⟨out, pool', e, Png.Tight_strip ht⟩

example : ∀ c ∈ [(⟨tEXt, [65, 0, 66]⟩ : Chunk), ⟨IDAT, [1, 2, 3]⟩], c.Ok ∧ c.ty ≠ IEND := by
  intro c hc
  rcases List.mem_cons.mp hc with rfl | hc
  · exact ⟨⟨rfl, by decide⟩, by decide⟩
  · rw [List.mem_singleton] at hc; subst hc; exact ⟨⟨rfl, by decide⟩, by decide⟩

/-! ## C44 -/

/-- C44: the indexed encoder's output decodes to the palette colours of the indices, with the
transparency table; an index outside the palette shows as opaque black. -/
theorem C44_indexed {pool : Pool} (hp : PHistory pool) (env : Png.Env) (data : List UInt8) (w h : Nat)
    (palette : List (UInt8 × UInt8 × UInt8)) (transparency : Option (List UInt8)) (o : Options)
    (hw : 0 < w ∧ w ≤ 2 ^ 24) (hh : 0 < h ∧ h ≤ 2 ^ 24) (hs : Small w h) (hl : data.length = w * h)
    (hp1 : 1 ≤ palette.length ∧ palette.length ≤ 256) (ht : (transparency.getD []).length ≤ palette.length)
    (he : Sane env h) :
    ∃ out pool' img, encodeIndexedWith env pool data w h palette transparency o = .ok (out, pool') ∧
      Reads env.deflate.level out w h img ∧
      ∀ k (hk : k < data.length),
        (∀ hi : data[k].toNat < palette.length, shown img k =
          ⟨palette[data[k].toNat].1.toNat, palette[data[k].toNat].2.1.toNat, palette[data[k].toNat].2.2.toNat,
            ((transparency.getD []).getD data[k].toNat 255).toNat⟩) ∧
        (palette.length ≤ data[k].toNat → shown img k = ⟨0, 0, 0, 255⟩) := by
  obtain ⟨⟨out, pool'⟩, e, hW, -⟩ := (Png.encodeIndexedInto_ok (sumOk env.deflate.level) he.ok hp.ok []
    ⟨hw.1, hh.1, by omega, by omega⟩ hs hl hp1.1 hp1.2 ht o).out
  obtain ⟨img, hR, hsh⟩ := wrote_reads hw.2 hh.2 hW
  refine ⟨out, pool', img, e, hR, fun k hk => ?_⟩
  rw [hsh k (by rw [← hl]; exact hk)]
  unfold Png.indexColour
  have hb : byteAt data k = data[k].toNat := by unfold byteAt; rw [Palette.getD_lt hk]
  rw [hb]
  generalize data[k].toNat = i
  have hlen := Png.plteBytes_length palette
  have htr : (if i < (transparency.getD []).length then byteAt (transparency.getD []) i else 255)
      = ((transparency.getD []).getD i 255).toNat := by
    by_cases h : i < (transparency.getD []).length
    · rw [if_pos h]; unfold byteAt; rw [Palette.getD_lt h, Palette.getD_lt h]
    · rw [if_neg h, getD_ge (Nat.le_of_not_lt h)]; rfl
  constructor
  · intro hi
    have hg := Png.plteBytes_get (p := palette.map fun c => (c.1, c.2.1, c.2.2, 255)) (i := i)
      (c := (palette[i].1, palette[i].2.1, palette[i].2.2, 255)) (by
        rw [List.getElem?_map, List.getElem?_eq_getElem hi]; rfl)
    rw [List.map_map] at hg
    have hid : palette.map ((fun c : Palette.Rgba => (c.1, c.2.1, c.2.2.1)) ∘ fun c => (c.1, c.2.1, c.2.2, 255)) = palette := by
      conv => rhs; rw [← List.map_id palette]
      rfl
    rw [hid] at hg
    unfold paletteAt
    rw [hg.1, hg.2.1, hg.2.2, htr]
  · intro hi
    have h0 : ∀ j, (Png.plteBytes palette).length ≤ j → byteAt (Png.plteBytes palette) j = 0 := by
      intro j hj
      unfold byteAt
      rw [getD_ge hj]; rfl
    unfold paletteAt
    rw [h0 _ (by omega), h0 _ (by omega), h0 _ (by omega), if_neg (by omega)]

/-- C44: what `encode_indexed` refuses. -/
theorem C44_refuses (env : Png.Env) (pool : Pool) (data : List UInt8) (w h : Nat)
    (palette : List (UInt8 × UInt8 × UInt8)) (transparency : Option (List UInt8)) (o : Options) :
    (palette.length = 0 ∨ palette.length > 256 →
      encodeIndexedWith env pool data w h palette transparency o = .error .compression) ∧
    (1 ≤ palette.length → palette.length ≤ 256 → palette.length < (transparency.getD []).length →
      encodeIndexedWith env pool data w h palette transparency o = .error .compression) ∧
    (1 ≤ palette.length → palette.length ≤ 256 → (transparency.getD []).length ≤ palette.length →
      w * h < 2 ^ 64 → data.length ≠ w * h →
      encodeIndexedWith env pool data w h palette transparency o = .error (.dataLength (w * h) data.length)) := by
  unfold encodeIndexedWith encodeIndexedInto Png.checkIndexed Png.checkLen Png.expectedLen
  refine ⟨fun h => ?_, fun h1 h2 h3 => ?_, fun h1 h2 h3 h4 h5 => ?_⟩
  · rw [if_pos h]; rfl
  · rw [if_neg (by omega), if_pos h3]; rfl
  · rw [if_neg (by omega), if_neg (by omega), if_pos ⟨h4, by omega⟩, ok_bind, if_pos (by simpa using h5)]
    simp [error_bind]

/-- The file `encode_indexed` writes for zero dimensions. -/
def emptyFile : List UInt8 :=
  [137, 80, 78, 71, 13, 10, 26, 10, 0, 0, 0, 13, 73, 72, 68, 82, 0, 0, 0, 0, 0, 0, 0, 0, 8, 3, 0, 0, 0, 12, 85, 140, 32,
   0, 0, 0, 3, 80, 76, 84, 69, 1, 2, 3, 13, 135, 100, 213, 0, 0, 0, 8, 73, 68, 65, 84, 120, 94, 3, 0, 0, 0, 0, 1, 19, 132,
   7, 112, 0, 0, 0, 0, 73, 69, 78, 68, 174, 66, 96, 130]

theorem emptyFile_written : ((encodeIndexedWith plainPng Pool.new [] 0 0 [(1, 2, 3)] none { Options.fast 0 0 with level := 1 }).map
    Prod.fst).toOption = some emptyFile := by decide +kernel

theorem emptyFile_refused : (decodePng (checksum .scalar) emptyFile).toOption.isNone = true := by decide +kernel

/-- C44 is violated for zero dimensions: `encode_indexed` writes a file that no PNG decoder reads. -/
theorem C44_zero_violated : ∃ out, ((encodeIndexedWith plainPng Pool.new [] 0 0 [(1, 2, 3)] none
    { Options.fast 0 0 with level := 1 }).map Prod.fst).toOption = some out ∧
    (decodePng (checksum .scalar) out).toOption.isNone = true :=
  ⟨emptyFile, emptyFile_written, emptyFile_refused⟩

/-- Zero dimensions are not refused by the checks. -/
theorem C44_zero_accepted (palette : List (UInt8 × UInt8 × UInt8)) (h1 : 1 ≤ palette.length) (h2 : palette.length ≤ 256) :
    Png.checkIndexed [] 0 0 palette none = .ok () := by
  unfold Png.checkIndexed Png.checkLen Png.expectedLen
  rw [if_neg (by omega), if_neg (by simp)]
  rfl

example : 1 ≤ [((1 : UInt8), (2 : UInt8), (3 : UInt8))].length ∧ Small 2 1 ∧
    ((some [(9 : UInt8)] : Option (List UInt8)).getD []).length ≤ [((1 : UInt8), (2 : UInt8), (3 : UInt8))].length :=
  ⟨by decide, by unfold Small; decide, by decide⟩

/-! ## C45 -/

open Pixo.BitDepth (packRow packRows SubByte packRow_row packRow_length packRow_sample packRows_eq)
open Pixo.PngDecode (unpackRow unpackIndices unpackRow_ok ceil8 RowsOk unpackRows_get)

/-- C45: the bits of a packed row are those of the samples, first sample first and most significant
bit first, followed by less than a byte of zero bits. -/
theorem C45_bits {d : Nat} (hd : d = 1 ∨ d = 2 ∨ d = 4) (row : List UInt8) :
    ∃ pad, pad < 8 ∧ (d * row.length + pad) % 8 = 0 ∧
      bytesMSB (packRow d row 0 0) = row.flatMap (fun v => bitsMSB v.toNat d) ++ List.replicate pad false := by
  refine ⟨_, ?_, ?_, packRow_row hd row⟩ <;> unfold BitDepth.padding <;> omega

/-- C45: unpacking a packed row returns the samples, cut to the depth. -/
theorem C45_row {d : Nat} (hd : d = 1 ∨ d = 2 ∨ d = 4) (row : List UInt8) :
    unpackRow (packRow d row 0 0) row.length d = row.map fun v => UInt8.ofNat (v.toNat % 2 ^ d) := by
  have hm : d ∈ [1, 2, 4, 8] := by rcases hd with rfl | rfl | rfl <;> decide
  obtain ⟨hl, hg⟩ := unpackRow_ok hm (packRow_length hd row)
  apply List.ext_getElem?
  intro x
  by_cases hx : x < row.length
  · rw [hg x hx, packRow_sample hd hx, List.getElem?_map, List.getElem?_eq_getElem hx]; rfl
  · rw [List.getElem?_eq_none (by omega), List.getElem?_eq_none (by simp; omega)]

/-- C45: packing and unpacking whole images, for every size. -/
theorem C45_round_trip {d : Nat} (hd : d = 1 ∨ d = 2 ∨ d = 4) (data : List UInt8) (w h : Nat)
    (hl : data.length = h * w) (hv : ∀ v ∈ data, v.toNat < 2 ^ d) :
    ∃ packed, packRows data w d = .ok packed ∧ packed.length = h * ((w * d + 7) / 8) ∧
      unpackIndices packed w h d = .ok data := by
  have hm : d ∈ [1, 2, 4, 8] := by rcases hd with rfl | rfl | rfl <;> decide
  by_cases hz : w = 0 ∨ h = 0
  · have hd0 : data = [] := by
      apply List.length_eq_zero_iff.mp
      rw [hl]
      rcases hz with rfl | rfl <;> simp
    have hr : RowsOk [] (List.replicate h []) (ceil8 (w * d)) ∨ h = 0 := by
      rcases hz with rfl | h0
      · refine .inl ⟨by simp, fun r hr => ?_⟩
        rw [List.eq_of_mem_replicate hr, Nat.zero_mul]; rfl
      · exact .inr h0
    refine ⟨[], ?_, ?_, ?_⟩
    · unfold packRows
      rw [if_neg (by rcases hd with rfl | rfl | rfl <;> decide), if_pos (.inr (by rw [hd0]; rfl))]
    · rcases hz with rfl | rfl <;> simp
    · rcases hr with hr | rfl
      · obtain ⟨idx, e, hi, -⟩ := unpackRows_get hm hr
        rw [List.length_replicate] at e hi
        unfold unpackIndices
        rw [e, hd0]
        have : idx.length = 0 := by
          rw [hi]; rcases hz with rfl | rfl <;> simp
        rw [List.length_eq_zero_iff.mp this]
      · rw [hd0]; rfl
  · have hw : 0 < w := by omega
    have hh : 0 < h := by omega
    have hrl : ∀ y, y < h → ((data.drop (y * w)).take w).length = w := by
      intro y hy
      have : (y + 1) * w ≤ h * w := Nat.mul_le_mul_right w hy
      rw [Nat.succ_mul] at this
      rw [List.length_take, List.length_drop]; omega
    have hr : RowsOk (((List.range h).map fun y => packRow d ((data.drop (y * w)).take w) 0 0).flatten)
        ((List.range h).map fun y => packRow d ((data.drop (y * w)).take w) 0 0) (ceil8 (w * d)) := by
      refine ⟨rfl, fun r hr => ?_⟩
      obtain ⟨y, hy, rfl⟩ := List.mem_map.mp hr
      rw [packRow_length hd, hrl y (List.mem_range.mp hy)]
    refine ⟨_, packRows_eq hw hh hl hd, ?_, ?_⟩
    · rw [hr.length, List.length_map, List.length_range]; rfl
    · obtain ⟨idx, e, hi, hg⟩ := unpackRows_get hm hr
      rw [List.length_map, List.length_range] at e hi
      unfold unpackIndices
      rw [e]
      congr 1
      apply List.ext_getElem?
      intro k
      by_cases hk : k < h * w
      · have hy : k / w < h := Nat.div_lt_of_lt_mul (by rw [Nat.mul_comm]; exact hk)
        have hx : k % w < w := Nat.mod_lt _ hw
        have hkd : k < data.length := by omega
        have := hg (k / w) (k % w) (by simpa using hy) hx
        rw [Nat.mul_comm, Nat.div_add_mod] at this
        have hxr : k % w < ((data.drop (k / w * w)).take w).length := by rw [hrl _ hy]; exact hx
        have hge : ((data.drop (k / w * w)).take w)[k % w] = data[k] := by
          rw [List.getElem_take, List.getElem_drop]
          congr 1
          rw [Nat.mul_comm, Nat.div_add_mod]
        rw [this, List.getElem_map, List.getElem_range, packRow_sample hd hxr, hge,
          Nat.mod_eq_of_lt (hv _ (List.getElem_mem hkd)), List.getElem?_eq_getElem hkd, UInt8.ofNat_toNat]
      · rw [List.getElem?_eq_none (by omega), List.getElem?_eq_none (by omega)]

example : packRows [1, 0, 3, 2, 1, 3, 0, 0, 2, 1] 5 2 matches .ok [0b01001110, 0b01000000, 0b11000010, 0b01000000] := by
  decide +kernel

/-! ## C26 -/

theorem compress_pool {pool : Pool} (h : PHistory pool) (env : Png.Env) (data : List UInt8) (o : Options) :
    (Png.compress env pool data o).map Prod.fst = (Png.compress env Pool.new data o).map Prod.fst := by
  unfold Png.compress
  split
  · cases Deflate.deflateOptimalZlib env.deflate (Simd.adler32 env.deflate.level) data 5 <;> rfl
  · exact (C26_pool h env.deflate _ data o.level).2.2.2

/-- A step after which only the bytes are used. -/
theorem map_fst_congr {x y : R (List UInt8 × Pool)} (h : x.map Prod.fst = y.map Prod.fst) (g : List UInt8 → R (List UInt8)) :
    ((x >>= fun r => g r.1 >>= fun b => pure (b, r.2)) : R (List UInt8 × Pool)).map Prod.fst
      = ((y >>= fun r => g r.1 >>= fun b => pure (b, r.2)) : R (List UInt8 × Pool)).map Prod.fst := by
  have key : ∀ z : R (List UInt8 × Pool),
      ((z >>= fun r => g r.1 >>= fun b => pure (b, r.2)) : R (List UInt8 × Pool)).map Prod.fst
        = z.map Prod.fst >>= g := by
    intro z
    cases z with
    | error e => rfl
    | ok r =>
      show (g r.1 >>= fun b => pure (b, r.2)).map Prod.fst = g r.1
      cases g r.1 <;> rfl
  rw [key, key, h]

/-- C26 for the encoder: the bytes do not depend on what the process compressed before. -/
theorem C26_png {pool : Pool} (h : PHistory pool) (env : Png.Env) (data : List UInt8) (o : Options) :
    (encode env pool data o).map Prod.fst = (encode env Pool.new data o).map Prod.fst := by
  have hemit : ∀ (output raw : List UInt8) (w hh rb bpp : Nat) (st : Filter.Strategy),
      (Png.emit env pool output raw w hh rb bpp st o).map Prod.fst
        = (Png.emit env Pool.new output raw w hh rb bpp st o).map Prod.fst := by
    intro output raw w hh rb bpp st
    unfold Png.emit
    cases Filter.applyFilters env.deflate.level env.sched raw w hh rb bpp st with
    | error e => rfl
    | ok f => exact map_fst_congr (compress_pool h env f o) fun c => pure (Png.writeIend (Png.writeIdat output c))
  unfold encode encodeWith
  cases Png.checkInput data o with
  | error e => rfl
  | ok _ =>
    rw [ok_bind, ok_bind]
    cases Png.shouldQuantize data o with
    | error e => rfl
    | ok q =>
      rw [ok_bind, ok_bind]
      cases q with
      | true =>
        rw [if_pos rfl, if_pos rfl]
        unfold Png.encodeQuantized Png.encodeIndexedInto
        cases Quantize.quantizeImage env.quantize data o.colorType (min o.quantization.maxColors 256) o.quantization.dithering with
        | error e => rfl
        | ok q =>
          rw [ok_bind, ok_bind]
          dsimp only
          cases Png.checkIndexed q.2 o.width o.height (q.1.map fun c => (c.1, c.2.1, c.2.2.1))
            (Png.trimTransparency (q.1.map fun c => c.2.2.2)) with
          | error e => rfl
          | ok _ => exact hemit _ _ _ _ _ _ _
      | false =>
        rw [if_neg (by decide), if_neg (by decide)]
        have hw : (Png.writeImage env pool [] data o).map Prod.fst = (Png.writeImage env Pool.new [] data o).map Prod.fst := by
          unfold Png.writeImage
          cases Png.reduce data o.width o.height o.colorType o with
          | error e => rfl
          | ok r =>
            rw [ok_bind, ok_bind]
            cases Png.optimizeAlpha r.data r.effective o.optimizeAlpha with
            | error e => rfl
            | ok d => exact hemit _ _ _ _ _ _ _
        unfold Png.encodePlain
        cases hst : o.stripMetadata with
        | false => exact map_fst_congr hw fun b => pure b
        | true => exact map_fst_congr hw Png.stripMetadata

end Pixo.Props
