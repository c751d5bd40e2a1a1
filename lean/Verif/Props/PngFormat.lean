import Verif.Proof.PngFormat
import Verif.Props.PngEncode
/-
C81: the format (colour type and bit depth) that the lossless reductions choose, and whether it is
the one with the fewest bits per pixel.
-/
namespace Pixo.Props
open Spec Spec.Png
open Pixo.Png (Options Valid Small encode Chosen)
open Pixo.Deflate (Pool)

/-- The bytes of a file tell its header. -/
theorem tight_header {sum : List UInt8 → Nat} {h h' : Header} {plte trns plte' trns' : Option (List UInt8)}
    {rows rows' : List (List UInt8)} {bytes : List UInt8} (ht : Tight sum h plte trns rows bytes)
    (ht' : Tight sum h' plte' trns' rows' bytes) : h.depth = h'.depth ∧ h.colour = h'.colour := by
  obtain ⟨hok, -, -, -, -, _, _, -, -, e, -⟩ := ht
  obtain ⟨hok', -, -, -, -, _, _, -, -, e', -⟩ := ht'
  rw [e] at e'
  have e1 := List.append_cancel_left e'
  simp only [stream, List.cons_append, List.flatMap_cons, Chunk.bytes, Header.bytes, be32, IHDR] at e1
  simp only [List.cons_append, List.nil_append, List.length_cons, List.length_nil, List.cons.injEq, true_and] at e1
  have hd := e1.2.2.2.2.2.2.2.2.1
  have hc := e1.2.2.2.2.2.2.2.2.2.1
  have small : ∀ h : Header, h.Ok → h.depth < 256 ∧ h.colour < 256 := by
    intro h hok
    have := hok.2.2.2.2
    simp only [List.mem_cons, List.not_mem_nil, or_false] at this
    omega
  obtain ⟨a1, a2⟩ := small h hok
  obtain ⟨b1, b2⟩ := small h' hok'
  have toNat : ∀ n, n < 256 → (UInt8.ofNat n).toNat = n := fun n hn => by
    rw [UInt8.toNat_ofNat']; exact Nat.mod_eq_of_lt hn
  constructor
  · have := congrArg UInt8.toNat hd
    rw [toNat _ a1, toNat _ b1] at this; exact this
  · have := congrArg UInt8.toNat hc
    rw [toNat _ a2, toNat _ b2] at this; exact this

/-- C81, the choice: the header of the file has the colour type and depth that `Chosen` names. -/
theorem C81_choice {pool : Pool} (hp : PHistory pool) (env : Png.Env) (data : List UInt8) (o : Options)
    (hv : Valid data o) (hs : Small o.width o.height) (he : Sane env o.height) (hq : o.quantization.mode = .off) :
    ∃ out pool' hd plte trns rows, encode env pool data o = .ok (out, pool') ∧
      Tight (checksum env.deflate.level) hd plte trns rows out ∧ hd.width = o.width ∧ hd.height = o.height ∧
      Chosen o (given data o) hd.colour hd.depth := by
  obtain ⟨⟨out, pool'⟩, e, q, f, eq, ⟨plte, trns, raw, -, ht, -⟩, -⟩ :=
    (Png.encodeWith_as (sumOk env.deflate.level) hv he.ok hp.ok [] hs hq).out
  have hd : Png.Dims o.width o.height := ⟨hv.w0, hv.h0, by have := hv.w1; omega, by have := hv.h1; omega⟩
  exact ⟨out, pool', _, plte, trns, _, e, ht, rfl, rfl, Png.prepare_chosen hd hv.len hs.pixels eq⟩

/-- The format of `out` has the fewest bits per pixel of all that can store `p`. -/
def FewestBits (sum : List UInt8 → Nat) (store : Header → (Nat → Rgba) → Prop) (w h : Nat) (p : Nat → Rgba)
    (out : List UInt8) : Prop :=
  ∃ hd plte trns rows, Tight sum hd plte trns rows out ∧
    ∀ hd' : Header, hd'.width = w → hd'.height = h → store hd' p → hd.bits ≤ hd'.bits

/-- C81 in full: with both reductions on, the file uses the fewest bits per pixel that the format
allows for the image. -/
def C81_full (store : Header → (Nat → Rgba) → Prop) : Prop :=
  ∀ {pool : Pool}, PHistory pool → ∀ (env : Png.Env) (data : List UInt8) (o : Options), Valid data o →
    Small o.width o.height → Sane env o.height → o.quantization.mode = .off → o.optimizeAlpha = false →
    o.reduceColorType = true → o.reducePalette = true →
    ∃ out pool', encode env pool data o = .ok (out, pool') ∧
      FewestBits (checksum env.deflate.level) store o.width o.height (given data o) out

/-- C81 for RGB and RGBA input, colour keys aside. -/
theorem C81_minimal_partial {pool : Pool} (hp : PHistory pool) (env : Png.Env) (data : List UInt8) (o : Options)
    (hv : Valid data o) (hs : Small o.width o.height) (he : Sane env o.height) (hq : o.quantization.mode = .off)
    (hr : o.reduceColorType = true) (hpal : o.reducePalette = true)
    (hct : o.colorType = .rgb ∨ o.colorType = .rgba) :
    ∃ out pool', encode env pool data o = .ok (out, pool') ∧
      FewestBits (checksum env.deflate.level) Storable o.width o.height (given data o) out := by
  obtain ⟨out, pool', hd, plte, trns, rows, e, ht, hw, hh, hc⟩ := C81_choice hp env data o hv hs he hq
  refine ⟨out, pool', e, hd, plte, trns, rows, ht, fun hd' hw' hh' hst => ?_⟩
  by_cases hin : Within (o.width * o.height) 256 (given data o)
  · obtain ⟨h3, hl⟩ := hc.palette hct hpal hin
    have hb : hd.bits = hd.depth := by unfold Header.bits; rw [h3]; simp [samples]
    by_cases h8 : hd'.bits ≤ 8
    · obtain ⟨hm, hwi⟩ := Png.storable_within hst h8
      rw [hw', hh'] at hwi
      rw [hb]
      exact hl.least _ hm hwi
    · have := hl.mem
      simp only [List.mem_cons, List.not_mem_nil, or_false] at this
      omega
  · obtain ⟨h16, h24, h32⟩ := Png.storable_many hst (by rw [hw', hh']; exact hin)
    rw [hw', hh'] at h24 h32
    obtain ⟨h1, h2, h3, h4⟩ := hc.reduced hct (fun h => hin h.2) hr
    have bits : ∀ c d, hd.colour = c → hd.depth = d → hd.bits = samples c * d := by rintro _ _ rfl rfl; rfl
    by_cases hg : AllGray (o.width * o.height) (given data o)
    · by_cases ho : AllOpaque (o.width * o.height) (given data o)
      · obtain ⟨h0, hl⟩ := h1 hg ho
        have := hl.mem
        rw [bits _ _ h0 rfl]
        simp only [samples, Nat.one_mul]
        simp only [List.mem_cons, List.not_mem_nil, or_false] at this
        omega
      · obtain ⟨ha, hb⟩ := h3 hg ho
        rw [bits _ _ ha hb]
        exact h16
    · have h24' : 24 ≤ hd'.bits := Nat.le_of_not_lt fun h => hg (h24 h)
      by_cases ho : AllOpaque (o.width * o.height) (given data o)
      · obtain ⟨ha, hb⟩ := h2 hg ho
        rw [bits _ _ ha hb]
        exact h24'
      · obtain ⟨ha, hb⟩ := h4 hg ho
        rw [bits _ _ ha hb]
        exact Nat.le_of_not_lt fun h => (h32 h).elim hg ho

/-- Fewest bits per pixel are fewest bytes per line. -/
theorem fewest_rows {hd hd' : Header} (hw : hd.width = hd'.width) (h : hd.bits ≤ hd'.bits) : hd.rowBytes ≤ hd'.rowBytes := by
  unfold Header.rowBytes
  unfold Header.bits at h
  rw [hw, Nat.mul_assoc, Nat.mul_assoc]
  have := Nat.mul_le_mul_left hd'.width h
  omega

/-- The image of `redOptions` (Props/PngEncode.lean) meets the hypotheses; it gets one bit per
pixel. -/
example : Valid [255, 0, 0, 1, 1, 1] redOptions ∧ redOptions.reduceColorType = true ∧
    redOptions.reducePalette = true ∧ redOptions.colorType = .rgb :=
  ⟨⟨by decide, by decide, by decide, by decide, by decide, by decide⟩, rfl, rfl, rfl⟩

/-! ### Where it is not the smallest -/

/-- Gray input, everything switched on except alpha optimisation. -/
def grayOptions : Options := { Options.max 1 1 with colorType := .gray, optimizeAlpha := false }

theorem gray_valid : Valid [255] grayOptions := ⟨by decide, by decide, by decide, by decide, by decide, by decide⟩

/-- One white pixel fits one bit. -/
theorem white_storable : Storable ⟨1, 1, 1, 0⟩ (given [255] grayOptions) := by
  refine ⟨none, none, [[0x80]], ⟨by unfold Header.Ok; decide, ⟨fun p h => (by cases h), fun h => (by cases h), fun h => (by cases h)⟩, rfl, by decide⟩,
    fun y x hy hx => ?_⟩
  have hy : y < 1 := hy
  have hx : x < 1 := hx
  obtain rfl : y = 0 := by omega
  obtain rfl : x = 0 := by omega
  decide +kernel

/-- C81 fails for gray input: it keeps 8 bits per pixel. -/
theorem C81_gray_fails : ¬ C81_full Storable := by
  intro h
  obtain ⟨out, pool', e, hd, plte, trns, rows, ht, hmin⟩ := h .new plainPng [255] grayOptions gray_valid
    (by unfold Small; decide) (plainPng_sane _) rfl rfl rfl rfl
  obtain ⟨out', pool'', hd', plte', trns', rows', e', ht', hw, hh, hc⟩ := C81_choice .new plainPng [255] grayOptions gray_valid
    (by unfold Small; decide) (plainPng_sane _) rfl
  rw [e] at e'
  cases e'
  have := hmin ⟨1, 1, 1, 0⟩ rfl rfl white_storable
  obtain ⟨h1, h2⟩ := tight_header ht ht'
  obtain ⟨h3, h4⟩ := hc.gray (.inl rfl)
  unfold Header.bits at this
  rw [h1, h2, h3, h4] at this
  exact absurd this (by decide)

/-- 257 opaque colours and one transparent pixel. -/
def keyData : List UInt8 := (List.range 258).flatMap fun k =>
  if k < 257 then [UInt8.ofNat k, UInt8.ofNat (k / 256), 0, 255] else [0, 2, 9, 0]

/-- The same without alpha. -/
def keyRow : List UInt8 := (List.range 258).flatMap fun k =>
  if k < 257 then [UInt8.ofNat k, UInt8.ofNat (k / 256), 0] else [0, 2, 9]

/-- Everything on except alpha optimisation. -/
def keyOptions : Options := { Options.max 258 1 with colorType := .rgba, optimizeAlpha := false }

theorem key_valid : Valid keyData keyOptions := ⟨by decide, by decide, by decide, by decide, by decide, by decide +kernel⟩

theorem key_many : ¬ Within (keyOptions.width * keyOptions.height) 256 (given keyData keyOptions) := by
  rintro ⟨l, hl, h⟩
  have hn : ((List.range 258).map (given keyData keyOptions)).Nodup := by decide +kernel
  have := Png.nodup_le hn (m := l) fun c hc => by
    obtain ⟨k, hk, rfl⟩ := List.mem_map.mp hc
    exact h k (List.mem_range.mp hk)
  simp at this
  omega

/-- Colour keys in 8-bit RGB. -/
theorem keyed_rgb8 (w h : Nat) (plte trns row : List UInt8) (x : Nat) (hx : x * 3 + 2 < row.length) :
    pixelKeyed ⟨w, h, 8, 2⟩ plte trns row x =
      if trns.length = 6 ∧ byteAt row (x * 3) = be16 trns 0 ∧ byteAt row (x * 3 + 1) = be16 trns 2 ∧
        byteAt row (x * 3 + 2) = be16 trns 4 then
        ⟨byteAt row (x * 3), byteAt row (x * 3 + 1), byteAt row (x * 3 + 2), 0⟩
      else ⟨byteAt row (x * 3), byteAt row (x * 3 + 1), byteAt row (x * 3 + 2), 255⟩ := by
  have s0 : sampleAt 8 row (x * 3) = byteAt row (x * 3) := PngDecode.sampleAt_8 (by omega)
  have s1 : sampleAt 8 row (x * 3 + 1) = byteAt row (x * 3 + 1) := PngDecode.sampleAt_8 (by omega)
  have s2 : sampleAt 8 row (x * 3 + 2) = byteAt row (x * 3 + 2) := PngDecode.sampleAt_8 (by omega)
  unfold pixelKeyed
  have hp : pixelAt ⟨w, h, 8, 2⟩ plte trns row x = ⟨byteAt row (x * 3), byteAt row (x * 3 + 1), byteAt row (x * 3 + 2), 255⟩ := by
    simp only [pixelAt, samples, Nat.add_zero, s0, s1, s2, PngDecode.to8_8]
  have hk : (keyed ⟨w, h, 8, 2⟩ trns row x = true) ↔ trns.length = 6 ∧ byteAt row (x * 3) = be16 trns 0 ∧
      byteAt row (x * 3 + 1) = be16 trns 2 ∧ byteAt row (x * 3 + 2) = be16 trns 4 := by
    simp only [keyed, Nat.mul_comm 3 x, s0, s1, s2, Bool.and_eq_true, decide_eq_true_eq, and_assoc]
  rw [hp]
  by_cases hc : keyed ⟨w, h, 8, 2⟩ trns row x = true
  · rw [if_pos hc, if_pos (hk.mp hc)]
  · rw [if_neg hc, if_neg (fun h => hc (hk.mpr h))]

theorem key_length : keyRow.length = 774 := by decide +kernel

theorem key_pixels : ∀ x, x < 258 →
    (if [(0 : UInt8), 0, 0, 2, 0, 9].length = 6 ∧ byteAt keyRow (x * 3) = be16 [0, 0, 0, 2, 0, 9] 0 ∧
      byteAt keyRow (x * 3 + 1) = be16 [0, 0, 0, 2, 0, 9] 2 ∧ byteAt keyRow (x * 3 + 2) = be16 [0, 0, 0, 2, 0, 9] 4 then
      (⟨byteAt keyRow (x * 3), byteAt keyRow (x * 3 + 1), byteAt keyRow (x * 3 + 2), 0⟩ : Rgba)
    else ⟨byteAt keyRow (x * 3), byteAt keyRow (x * 3 + 1), byteAt keyRow (x * 3 + 2), 255⟩)
      = given keyData keyOptions x := by decide +kernel

theorem key_storable : StorableKeyed ⟨258, 1, 8, 2⟩ (given keyData keyOptions) := by
  refine ⟨none, some [0, 0, 0, 2, 0, 9], [keyRow], ⟨by unfold Header.Ok; decide,
    ⟨fun p h => (by cases h), fun h => (by cases h), fun h => (by cases h)⟩, rfl, ?_⟩, fun y x hy hx => ?_⟩
  · intro row hr
    rw [List.mem_singleton.mp hr]
    exact key_length
  · have hy : y < 1 := hy
    have hx : x < 258 := hx
    obtain rfl : y = 0 := by omega
    have e := keyed_rgb8 258 1 [] [0, 0, 0, 2, 0, 9] keyRow x (by rw [key_length]; omega)
    rw [key_pixels x hx] at e
    refine Eq.trans e ?_
    show given keyData keyOptions x = given keyData keyOptions (0 * 258 + x)
    rw [Nat.zero_mul, Nat.zero_add]

/-- C81 fails even for RGBA input when colour keys count: the encoder never writes one, and gives
an image with a single transparent colour 32 bits per pixel where 24 would do. -/
theorem C81_key_fails : ∃ out pool', encode plainPng Pool.new keyData keyOptions = .ok (out, pool') ∧
    ¬ FewestBits (checksum plainPng.deflate.level) StorableKeyed keyOptions.width keyOptions.height
      (given keyData keyOptions) out := by
  obtain ⟨out, pool', hd', plte', trns', rows', e, ht', hw, hh, hc⟩ := C81_choice .new plainPng keyData keyOptions key_valid
    (by unfold Small; decide) (plainPng_sane _) rfl
  refine ⟨out, pool', e, ?_⟩
  rintro ⟨hd, plte, trns, rows, ht, hmin⟩
  have := hmin ⟨258, 1, 8, 2⟩ rfl rfl key_storable
  obtain ⟨h1, h2⟩ := tight_header ht ht'
  have hg : ¬ AllGray (keyOptions.width * keyOptions.height) (given keyData keyOptions) := fun h =>
    absurd (h 1 (by decide)) (by decide +kernel)
  have ho : ¬ AllOpaque (keyOptions.width * keyOptions.height) (given keyData keyOptions) := fun h =>
    absurd (h 257 (by decide)) (by decide +kernel)
  obtain ⟨h3, h4⟩ := (hc.reduced (.inr rfl) (fun h => key_many h.2) rfl).2.2.2 hg ho
  unfold Header.bits at this
  rw [h1, h2, h3, h4] at this
  exact absurd this (by decide)

end Pixo.Props
