import Verif.Proof.AutoQuantize
import Verif.Props.PngEncode
/-
C87: automatic quantization (`QuantizationMode::Auto`) is applied to images with "more than
max_colors but not too many" colours, up to 32 times as many (src/png/mod.rs:1703-1762).

The encoder with mode `Auto` is compared with the same encoder with mode `Force` or `Off`, so that
nothing needs to be known of how the decision is made.
-/
namespace Pixo.Props
open Spec Spec.Png
open Pixo.Png (Options Valid Small encode)
open Pixo.Deflate (Pool)

/-- Exactly `d` colours occur among the pixels `f k` with `P k`. -/
def Colours (P : Nat → Prop) (f : Nat → Rgba) (d : Nat) : Prop :=
  ∃ l : List Rgba, l.Nodup ∧ l.length = d ∧ ∀ c, c ∈ l ↔ ∃ k, P k ∧ f k = c

/-- The palette size asked for. -/
def wanted (o : Options) : Nat := min o.quantization.maxColors 256

/-- The mode for an image of `d` colours. -/
def modeFor (o : Options) (d : Nat) : Png.Mode := if wanted o < d ∧ d ≤ 32 * wanted o then .force else .off

/-- C87 in full: an image is quantized exactly if it has more than `max_colors` colours, but not more
than 32 times as many. -/
def C87_full : Prop := ∀ (env : Png.Env) (pool : Pool) (data : List UInt8) (o : Options) (d : Nat), Valid data o →
  (o.colorType = .rgb ∨ o.colorType = .rgba) → Colours (· < o.width * o.height) (given data o) d →
  encode env pool data (o.withMode .auto) = encode env pool data (o.withMode (modeFor o d))

theorem Colours.unique {P : Nat → Prop} {f : Nat → Rgba} {d d' : Nat} (h : Colours P f d) (h' : Colours P f d') : d = d' := by
  obtain ⟨l, n, rfl, hl⟩ := h
  obtain ⟨l', n', rfl, hl'⟩ := h'
  have a := n.length_le_of_subset fun c hc => (hl' c).mpr ((hl c).mp hc)
  have b := n'.length_le_of_subset fun c hc => (hl c).mpr ((hl' c).mp hc)
  omega

/-- Fewer pixels have no more colours. -/
theorem Colours.mono {P Q : Nat → Prop} {f : Nat → Rgba} {d d' : Nat} (h : Colours P f d) (h' : Colours Q f d')
    (hPQ : ∀ k, P k → Q k) : d ≤ d' := by
  obtain ⟨l, n, rfl, hl⟩ := h
  obtain ⟨l', n', rfl, hl'⟩ := h'
  exact n.length_le_of_subset fun c hc => by
    obtain ⟨k, hk, e⟩ := (hl c).mp hc
    exact (hl' c).mpr ⟨k, hPQ k hk, e⟩

theorem decision {data : List UInt8} {o : Options} (hv : Valid data o) (hct : o.colorType = .rgb ∨ o.colorType = .rgba) :
    ∃ d, Colours (fun k => k < o.width * o.height ∧ max (o.width * o.height / 20000) 1 ∣ k) (given data o) d ∧
      ∀ env pool, encode env pool data (o.withMode .auto) = encode env pool data (o.withMode (modeFor o d)) := by
  have hn : 0 < o.width * o.height := Nat.mul_pos hv.w0 hv.h0
  have hb : o.colorType.bytesPerPixel = 3 ∨ o.colorType.bytesPerPixel = 4 := by
    rcases hct with h | h <;> rw [h] <;> decide
  obtain ⟨keys, h1, h2, h3⟩ := Quantize.shouldQuantizeAuto_eq hb hv.len hn (wanted o)
  have hu : ∀ k ∈ keys, ∃ t, t * max (o.width * o.height / 20000) 1 < o.width * o.height ∧
      Palette.unkey k = Quantize.pixelAt data o.colorType.bytesPerPixel (t * max (o.width * o.height / 20000) 1) ∧
      k = Palette.key (Palette.unkey k) := by
    intro k hk
    obtain ⟨t, ht, e⟩ := (h2 k).mp hk
    exact ⟨t, ht, by rw [e, Palette.unkey_key], by rw [e, Palette.unkey_key]⟩
  refine ⟨keys.length, ⟨keys.map fun k => Png.num (Palette.unkey k), ?_, by rw [List.length_map], fun c => ?_⟩,
    fun env pool => Png.encodeWith_mode _ _ _ _ _ _ _ ?_⟩
  · rw [List.nodup_iff_pairwise_ne] at h1 ⊢
    rw [List.pairwise_map]
    refine h1.imp_of_mem fun ha hb hab e => hab ?_
    obtain ⟨_, _, _, ea⟩ := hu _ ha
    obtain ⟨_, _, _, eb⟩ := hu _ hb
    rw [ea, eb, Png.num_inj e]
  · rw [List.mem_map]
    constructor
    · rintro ⟨k, hk, rfl⟩
      obtain ⟨t, ht, e, -⟩ := hu k hk
      exact ⟨_, ⟨ht, Nat.dvd_mul_left _ _⟩, by rw [e, Png.num_pixelAt hct]; rfl⟩
    · rintro ⟨k, ⟨hk, t, rfl⟩, rfl⟩
      refine ⟨_, (h2 _).mpr ⟨t, by rw [Nat.mul_comm]; exact hk, rfl⟩, ?_⟩
      rw [Palette.unkey_key, Png.num_pixelAt hct, Nat.mul_comm]; rfl
  · have hi : Png.isColour o.colorType = true := by rcases hct with h | h <;> rw [h] <;> rfl
    have e1 : Png.shouldQuantize data (o.withMode .auto)
        = .ok (decide (wanted o < keys.length ∧ keys.length ≤ wanted o * 32)) := by
      rw [← h3]
      show (if Png.isColour o.colorType = true then _ else _) = _
      rw [if_pos hi]; rfl
    rw [e1]
    unfold modeFor
    by_cases h : wanted o < keys.length ∧ keys.length ≤ 32 * wanted o
    · rw [if_pos h, decide_eq_true (by omega)]
      show _ = Except.ok (Png.isColour o.colorType)
      rw [hi]
    · rw [if_neg h, decide_eq_false (by omega)]
      rfl

/-- C87, for images of any size: what counts are the colours of every `⌊n/20000⌋`-th pixel. -/
theorem C87_sampled_partial (env : Png.Env) (pool : Pool) (data : List UInt8) (o : Options) (d : Nat) (hv : Valid data o)
    (hct : o.colorType = .rgb ∨ o.colorType = .rgba)
    (hd : Colours (fun k => k < o.width * o.height ∧ max (o.width * o.height / 20000) 1 ∣ k) (given data o) d) :
    encode env pool data (o.withMode .auto) = encode env pool data (o.withMode (modeFor o d)) := by
  obtain ⟨d', h, e⟩ := decision hv hct
  rw [hd.unique h]; exact e env pool

/-- C87 for images of less than 40000 pixels. -/
theorem C87_small_partial (env : Png.Env) (pool : Pool) (data : List UInt8) (o : Options) (d : Nat) (hv : Valid data o)
    (hct : o.colorType = .rgb ∨ o.colorType = .rgba) (hd : Colours (· < o.width * o.height) (given data o) d)
    (hn : o.width * o.height < 40000) :
    encode env pool data (o.withMode .auto) = encode env pool data (o.withMode (modeFor o d)) := by
  refine C87_sampled_partial env pool data o d hv hct ?_
  have h1 : max (o.width * o.height / 20000) 1 = 1 := by omega
  obtain ⟨l, h2, h3, h4⟩ := hd
  refine ⟨l, h2, h3, fun c => ?_⟩
  rw [h4 c, h1]
  exact ⟨fun ⟨k, hk, e⟩ => ⟨k, ⟨hk, Nat.one_dvd k⟩, e⟩, fun ⟨k, hk, e⟩ => ⟨k, hk.1, e⟩⟩

/-- C87 for images of few colours, whatever their size: not quantized, so that nothing is lost but what
`C13_lossless_iff` says. -/
theorem C87_few_partial (env : Png.Env) (pool : Pool) (data : List UInt8) (o : Options) (d : Nat) (hv : Valid data o)
    (hct : o.colorType = .rgb ∨ o.colorType = .rgba) (hd : Colours (· < o.width * o.height) (given data o) d)
    (hm : d ≤ wanted o) :
    encode env pool data (o.withMode .auto) = encode env pool data (o.withMode .off) := by
  obtain ⟨d', h, e⟩ := decision hv hct
  have : d' ≤ d := h.mono hd fun k hk => hk.1
  rw [e env pool]
  unfold modeFor
  rw [if_neg (by omega)]

/-- Gray images are not quantized. -/
theorem C87_gray (env : Png.Env) (pool : Pool) (data : List UInt8) (o : Options)
    (hct : o.colorType = .gray ∨ o.colorType = .grayAlpha) :
    encode env pool data (o.withMode .auto) = encode env pool data (o.withMode .off) := by
  refine Png.encodeWith_mode _ _ _ _ _ _ _ ?_
  show (if Png.isColour o.colorType = true then _ else _) = _
  rw [if_neg (by rcases hct with h | h <;> rw [h] <;> decide)]
  rfl

/-! ### Large images -/

/-- RGB data of `n` pixels. -/
def picture (f : Nat → UInt8 × UInt8 × UInt8) (n : Nat) : List UInt8 :=
  (List.range n).flatMap fun k => [(f k).1, (f k).2.1, (f k).2.2]

theorem picture_succ (f : Nat → UInt8 × UInt8 × UInt8) (n : Nat) :
    picture f (n + 1) = picture f n ++ [(f n).1, (f n).2.1, (f n).2.2] := by
  unfold picture
  rw [List.range_succ, List.flatMap_append]; rfl

theorem picture_length (f : Nat → UInt8 × UInt8 × UInt8) (n : Nat) : (picture f n).length = n * 3 := by
  induction n with
  | zero => rfl
  | succ n ih => rw [picture_succ, List.length_append, ih, Nat.succ_mul]; rfl

theorem picture_get (f : Nat → UInt8 × UInt8 × UInt8) (n k : Nat) (hk : k < n) :
    pixelOf 3 (picture f n) k = ⟨(f k).1.toNat, (f k).2.1.toNat, (f k).2.2.toNat, 255⟩ := by
  have h : ∀ j, j < 3 → byteAt (picture f n) (k * 3 + j) = byteAt [(f k).1, (f k).2.1, (f k).2.2] j := by
    intro j hj
    induction n with
    | zero => omega
    | succ n ih =>
      rw [picture_succ]
      have hl := picture_length f n
      unfold byteAt at ih ⊢
      by_cases h : k < n
      · rw [← ih h]
        simp only [List.getD_eq_getElem?_getD]
        rw [List.getElem?_append_left (by omega)]
      · have : k = n := by omega
        subst this
        simp only [List.getD_eq_getElem?_getD]
        rw [List.getElem?_append_right (by omega), show k * 3 + j - (picture f k).length = j by omega]
  show (⟨byteAt _ (k * 3 + 0), byteAt _ (k * 3 + 1), byteAt _ (k * 3 + 2), 255⟩ : Rgba) = _
  rw [h 0 (by decide), h 1 (by decide), h 2 (by decide)]
  rfl

/-- 200 by 200 pixels, to be shown with one colour. -/
def autoOptions : Options := { Options.fast 200 200 with colorType := .rgb, quantization := ⟨.auto, 1, false⟩ }

/-- Columns of black and red, with pixels of 10000 colours in between. -/
def busy : List UInt8 := picture
  (fun k => if k % 2 = 0 then (UInt8.ofNat (k / 2 % 2), 0, 0) else (UInt8.ofNat (k / 256), UInt8.ofNat (k % 256), 1)) 40000

/-- Columns of black and red. -/
def striped : List UInt8 := picture (fun k => if k % 2 = 0 then (0, 0, 0) else (1, 0, 0)) 40000

theorem auto_valid {data : List UInt8} (h : data.length = 40000 * 3) (m : Png.Mode) : Valid data (autoOptions.withMode m) := by
  cases m <;> exact ⟨by decide, by decide, by decide, by decide, by decide, h.trans (by decide)⟩

/-- With two colours in the image, forced quantization to one colour does not give the same file as none. -/
theorem force_ne_off {data : List UInt8} (h : data.length = 40000 * 3) {i j : Nat} (hi : i < 40000) (hj : j < 40000)
    (hij : given data autoOptions i ≠ given data autoOptions j) :
    encode plainPng Pool.new data (autoOptions.withMode .force) ≠ encode plainPng Pool.new data (autoOptions.withMode .off) := by
  intro e
  obtain ⟨out, pool, img, e1, hR, palette, -, hp, hs, -⟩ := C22_encoder .new plainPng data (autoOptions.withMode .force)
    (auto_valid h _) (by unfold Small; decide) (plainPng_sane _) rfl (.inl rfl)
  obtain ⟨out', pool', img', e2, hR', hs'⟩ := C13_lossless_partial .new plainPng data (autoOptions.withMode .off)
    (auto_valid h _) (by unfold Small; decide) (plainPng_sane _) rfl rfl (fun hl => by cases hl.1)
  rw [e1, e2] at e
  injection e with e
  injection e with e _
  subst e
  have himg : img = img' := by
    have a := hR.decodes
    rw [show (autoOptions.withMode .force).width = (autoOptions.withMode .off).width from rfl] at *
    have b := hR'.decodes
    rw [a] at b
    injection b
  subst himg
  obtain ⟨a, ha, ea⟩ := hs i hi
  obtain ⟨b, hb, eb⟩ := hs j hj
  have hp1 : palette.length ≤ 1 := hp
  have hab : a = b := by
    match palette, hp1 with
    | [], _ => cases ha
    | [c], _ => rw [List.mem_singleton.mp ha, List.mem_singleton.mp hb]
    | _ :: _ :: _, h => simp at h
  refine hij ?_
  have x := hs' i hi
  have y := hs' j hj
  rw [ea] at x
  rw [eb] at y
  rw [hab] at x
  exact x.symm.trans y

theorem striped_given {k : Nat} (hk : k < 40000) :
    given striped autoOptions k = if k % 2 = 0 then ⟨0, 0, 0, 255⟩ else ⟨1, 0, 0, 255⟩ := by
  refine (picture_get _ _ k hk).trans ?_
  by_cases h : k % 2 = 0
  · simp only [if_pos h]; rfl
  · simp only [if_neg h]; rfl

/-- `C87_full` fails: of an image of 40000 pixels only every second one is looked at. Black and red columns, with
one colour asked for, are not quantized … -/
theorem C87_missed_violated :
    Colours (· < autoOptions.width * autoOptions.height) (given striped autoOptions) 2 ∧ modeFor autoOptions 2 = .force ∧
    encode plainPng Pool.new striped (autoOptions.withMode .auto) = encode plainPng Pool.new striped (autoOptions.withMode .off) ∧
    encode plainPng Pool.new striped (autoOptions.withMode .auto) ≠ encode plainPng Pool.new striped (autoOptions.withMode .force) := by
  have hl : striped.length = 40000 * 3 := picture_length _ _
  have h1 : encode plainPng Pool.new striped (autoOptions.withMode .auto) =
      encode plainPng Pool.new striped (autoOptions.withMode .off) := by
    refine C87_sampled_partial plainPng Pool.new striped autoOptions 1 (auto_valid hl .auto) (.inl rfl)
      ⟨[⟨0, 0, 0, 255⟩], by simp, rfl, fun c => ?_⟩
    rw [List.mem_singleton]
    constructor
    · rintro rfl
      exact ⟨0, ⟨by decide, Nat.dvd_zero _⟩, striped_given (by decide)⟩
    · rintro ⟨k, ⟨hk, hd⟩, rfl⟩
      have hd : 2 ∣ k := hd
      rw [striped_given hk, if_pos (by omega)]
  refine ⟨⟨[⟨0, 0, 0, 255⟩, ⟨1, 0, 0, 255⟩], by decide, rfl, fun c => ?_⟩, rfl, h1, fun e => ?_⟩
  · simp only [List.mem_cons, List.not_mem_nil, or_false]
    constructor
    · rintro (rfl | rfl)
      · exact ⟨0, by decide, striped_given (by decide)⟩
      · exact ⟨1, by decide, striped_given (by decide)⟩
    · rintro ⟨k, hk, rfl⟩
      rw [striped_given hk]
      split
      · exact .inl rfl
      · exact .inr rfl
  · refine force_ne_off hl (i := 0) (j := 1) (by decide) (by decide) ?_ (e.symm.trans h1)
    rw [striped_given (by decide), striped_given (by decide)]
    decide

theorem C87_full_fails : ¬ C87_full := by
  intro h
  obtain ⟨h1, h2, -, h4⟩ := C87_missed_violated
  have := h plainPng Pool.new striped autoOptions 2 (auto_valid (picture_length _ _) .auto) (.inl rfl) h1
  rw [h2] at this
  exact h4 this

theorem busy_given {k : Nat} (hk : k < 40000) : given busy autoOptions k =
    if k % 2 = 0 then ⟨k / 2 % 2, 0, 0, 255⟩ else ⟨k / 256, k % 256, 1, 255⟩ := by
  refine (picture_get _ _ k hk).trans ?_
  by_cases h : k % 2 = 0
  · simp only [if_pos h, UInt8.toNat_ofNat']
    rw [show k / 2 % 2 % 2 ^ 8 = k / 2 % 2 by omega]; rfl
  · simp only [if_neg h, UInt8.toNat_ofNat']
    rw [show k / 256 % 2 ^ 8 = k / 256 by omega, show k % 256 % 2 ^ 8 = k % 256 by omega]; rfl

/-- … and one with thousands of colours is. -/
theorem C87_photo_violated :
    (∀ d, Colours (· < autoOptions.width * autoOptions.height) (given busy autoOptions) d →
      20000 ≤ d ∧ modeFor autoOptions d = .off) ∧
    encode plainPng Pool.new busy (autoOptions.withMode .auto) = encode plainPng Pool.new busy (autoOptions.withMode .force) ∧
    encode plainPng Pool.new busy (autoOptions.withMode .auto) ≠ encode plainPng Pool.new busy (autoOptions.withMode .off) := by
  have hl : busy.length = 40000 * 3 := picture_length _ _
  have h1 : encode plainPng Pool.new busy (autoOptions.withMode .auto) =
      encode plainPng Pool.new busy (autoOptions.withMode .force) := by
    refine C87_sampled_partial plainPng Pool.new busy autoOptions 2 (auto_valid hl .auto) (.inl rfl)
      ⟨[⟨0, 0, 0, 255⟩, ⟨1, 0, 0, 255⟩], by decide, rfl, fun c => ?_⟩
    simp only [List.mem_cons, List.not_mem_nil, or_false]
    constructor
    · rintro (rfl | rfl)
      · exact ⟨0, ⟨by decide, Nat.dvd_zero _⟩, busy_given (by decide)⟩
      · exact ⟨2, ⟨by decide, ⟨1, by decide⟩⟩, busy_given (by decide)⟩
    · rintro ⟨k, ⟨hk, hd⟩, rfl⟩
      have hd : 2 ∣ k := hd
      rw [busy_given hk, if_pos (by omega)]
      rcases Nat.mod_two_eq_zero_or_one (k / 2) with h | h
      · rw [h]; exact .inl rfl
      · rw [h]; exact .inr rfl
  refine ⟨fun d hd => ?_, h1, fun e => ?_⟩
  · obtain ⟨l, -, rfl, hl⟩ := hd
    have h2 : ((List.range 20000).map fun i => given busy autoOptions (2 * i + 1)).length ≤ l.length := by
      refine List.Nodup.length_le_of_subset ?_ fun c hc => ?_
      · rw [List.nodup_iff_pairwise_ne, List.pairwise_map]
        have := List.nodup_range (n := 20000)
        rw [List.nodup_iff_pairwise_ne] at this
        refine this.imp_of_mem fun {a b} ha hb hab e => hab ?_
        rw [List.mem_range] at ha hb
        rw [busy_given (by omega), busy_given (by omega), if_neg (by omega), if_neg (by omega)] at e
        simp only [Rgba.mk.injEq] at e
        omega
      · obtain ⟨i, hi, rfl⟩ := List.mem_map.mp hc
        rw [List.mem_range] at hi
        exact (hl _).mpr ⟨2 * i + 1, show 2 * i + 1 < 40000 by omega, rfl⟩
    rw [List.length_map, List.length_range] at h2
    refine ⟨h2, ?_⟩
    unfold modeFor
    rw [if_neg]
    rintro ⟨-, h⟩
    have : l.length ≤ 32 := h
    omega
  · refine force_ne_off hl (i := 0) (j := 1) (by decide) (by decide) ?_ (h1.symm.trans e)
    rw [busy_given (by decide), busy_given (by decide)]
    decide

/-- Three pixels of three colours, to be shown with two: quantized. -/
def threeOptions : Options := { Options.fast 3 1 with colorType := .rgb, quantization := ⟨.auto, 2, false⟩ }

example : Valid [0, 0, 0, 1, 1, 1, 2, 2, 2] threeOptions ∧ modeFor threeOptions 3 = .force ∧
    Colours (· < threeOptions.width * threeOptions.height) (given [0, 0, 0, 1, 1, 1, 2, 2, 2] threeOptions) 3 := by
  refine ⟨⟨by decide, by decide, by decide, by decide, by decide, by decide⟩, by decide,
    [⟨0, 0, 0, 255⟩, ⟨1, 1, 1, 255⟩, ⟨2, 2, 2, 255⟩], by decide, rfl, fun c => ?_⟩
  simp only [List.mem_cons, List.not_mem_nil, or_false]
  constructor
  · rintro (rfl | rfl | rfl)
    · exact ⟨0, by decide, by decide⟩
    · exact ⟨1, by decide, by decide⟩
    · exact ⟨2, by decide, by decide⟩
  · rintro ⟨k, hk, rfl⟩
    have hk : k < 3 := hk
    match k, hk with
    | 0, _ => exact .inl (by decide)
    | 1, _ => exact .inr (.inl (by decide))
    | 2, _ => exact .inr (.inr (by decide))

end Pixo.Props
