import Verif.Spec.PngFormat
import Verif.Proof.PngEncode
/-
What formats can hold, and the format the reduction chooses. Used by C81.
-/
namespace Pixo.Png
open Spec Spec.Png

/-! ### What formats can hold -/

theorem foldl_bits_lt : ∀ (l : List Bool) (a m : Nat), a < 2 ^ m →
    l.foldl (fun a b => 2 * a + b.toNat) a < 2 ^ (m + l.length)
  | [], _, _, h => h
  | b :: l, a, m, h => by
    rw [List.foldl_cons, List.length_cons, show m + (l.length + 1) = (m + 1) + l.length by omega]
    refine foldl_bits_lt l _ _ ?_
    have := Bool.toNat_le b
    rw [Nat.pow_succ]; omega

theorem ofBitsMSB_lt (l : List Bool) : ofBitsMSB l < 2 ^ l.length := by
  have := foldl_bits_lt l 0 0 (by decide)
  rw [Nat.zero_add] at this
  exact this

theorem sampleAt_lt (d : Nat) (row : List UInt8) (k : Nat) : sampleAt d row k < 2 ^ d := by
  unfold sampleAt
  refine Nat.lt_of_lt_of_le (ofBitsMSB_lt _) (Nat.pow_le_pow_right (by decide) ?_)
  rw [List.length_take]; omega

/-- An image whose pixels are a function of numbers below `m`. -/
theorem within_of {n m : Nat} {p : Nat → Spec.Png.Rgba} (f : Nat → Spec.Png.Rgba)
    (h : ∀ k, k < n → ∃ i, i < m ∧ p k = f i) : Within n m p := by
  refine ⟨(List.range m).map f, by simp, fun k hk => ?_⟩
  obtain ⟨i, hi, e⟩ := h k hk
  exact List.mem_map.mpr ⟨i, List.mem_range.mpr hi, e.symm⟩

/-- Pixel `k` of a stored image, by line and column. -/
theorem at_pixel {w h k : Nat} (hk : k < w * h) : k / w < h ∧ k % w < w ∧ k / w * w + k % w = k := by
  have hw : 0 < w := by
    rcases Nat.eq_zero_or_pos w with rfl | h
    · simp at hk
    · exact h
  refine ⟨(Nat.div_lt_iff_lt_mul hw).mpr (by rw [Nat.mul_comm]; exact hk), Nat.mod_lt _ hw, ?_⟩
  rw [Nat.mul_comm]; exact Nat.div_add_mod k w

theorem storable_pixels {hd : Header} {p : Nat → Spec.Png.Rgba} (h : Storable hd p) :
    ∃ plte trns, ∀ k, k < hd.width * hd.height → ∃ row x, p k = pixelAt hd plte trns row x := by
  obtain ⟨plte, trns, rows, -, hp⟩ := h
  refine ⟨plte.getD [], trns.getD [], fun k hk => ?_⟩
  obtain ⟨h1, h2, h3⟩ := at_pixel hk
  refine ⟨rows.getD (k / hd.width) [], k % hd.width, ?_⟩
  have := hp _ _ h1 h2
  rw [h3] at this
  exact this.symm

theorem storable_ok {hd : Header} {p : Nat → Spec.Png.Rgba} (h : Storable hd p) : hd.Ok := by
  obtain ⟨_, _, _, h, -⟩ := h
  exact h.header

/-- A format of at most 8 bits per pixel holds as many colours as there are samples. -/
theorem storable_within {hd : Header} {p : Nat → Spec.Png.Rgba} (h : Storable hd p) (h8 : hd.bits ≤ 8) :
    hd.bits ∈ [1, 2, 4, 8] ∧ Within (hd.width * hd.height) (2 ^ hd.bits) p := by
  have hok := (storable_ok h).2.2.2.2
  obtain ⟨plte, trns, hp⟩ := storable_pixels h
  unfold Header.bits at h8 ⊢
  rcases hok with ⟨hc, hm⟩ | ⟨hc, hm⟩ | ⟨hc, hm⟩ | ⟨hc, hm⟩ | ⟨hc, hm⟩
  · rw [hc] at h8 ⊢
    simp only [samples, Nat.one_mul] at h8 ⊢
    refine ⟨by simp at hm ⊢; omega, within_of (fun i => ⟨to8 hd.depth i, to8 hd.depth i, to8 hd.depth i, 255⟩) fun k hk => ?_⟩
    obtain ⟨row, x, e⟩ := hp k hk
    refine ⟨_, sampleAt_lt hd.depth row x, ?_⟩
    rw [e]
    simp only [pixelAt, hc, samples, Nat.mul_one, Nat.add_zero]
  · rw [hc] at h8
    simp [samples] at hm h8
    omega
  · rw [hc] at h8 ⊢
    simp only [samples, Nat.one_mul] at h8 ⊢
    refine ⟨hm, within_of (paletteAt plte trns) fun k hk => ?_⟩
    obtain ⟨row, x, e⟩ := hp k hk
    refine ⟨_, sampleAt_lt hd.depth row x, ?_⟩
    rw [e]
    simp only [pixelAt, hc]
  · rw [hc] at h8
    simp [samples] at hm h8
    omega
  · rw [hc] at h8
    simp [samples] at hm h8
    omega

theorem to8_lt {d s : Nat} (hd : d ∈ [1, 2, 4, 8, 16]) (hs : s < 2 ^ d) : to8 d s < 256 := by
  unfold to8
  simp only [List.mem_cons, List.not_mem_nil, or_false] at hd
  rcases hd with rfl | rfl | rfl | rfl | rfl
  · rw [if_neg (by decide)]; omega
  · rw [if_neg (by decide)]; omega
  · rw [if_neg (by decide)]; omega
  · rw [if_neg (by decide)]; omega
  · rw [if_pos rfl]; omega

/-- What a format of less than 24 or 32 bits per pixel can hold, beyond 256 colours. -/
theorem storable_many {hd : Header} {p : Nat → Spec.Png.Rgba} (h : Storable hd p)
    (hn : ¬ Within (hd.width * hd.height) 256 p) :
    16 ≤ hd.bits ∧ (hd.bits < 24 → AllGray (hd.width * hd.height) p) ∧
      (hd.bits < 32 → AllGray (hd.width * hd.height) p ∨ AllOpaque (hd.width * hd.height) p) := by
  have hw : ∀ m, m ≤ 256 → ¬ Within (hd.width * hd.height) m p := fun m hm ⟨l, hl, h⟩ => hn ⟨l, by omega, h⟩
  have h8 : ¬ hd.bits ≤ 8 := fun h8 => hw _ (by
    have := (storable_within h h8).1
    simp only [List.mem_cons, List.not_mem_nil, or_false] at this
    rcases this with e | e | e | e <;> rw [e] <;> decide) (storable_within h h8).2
  have hok := (storable_ok h).2.2.2.2
  obtain ⟨plte, trns, hp⟩ := storable_pixels h
  unfold Header.bits at h8 ⊢
  rcases hok with ⟨hc, hm⟩ | ⟨hc, hm⟩ | ⟨hc, hm⟩ | ⟨hc, hm⟩ | ⟨hc, hm⟩
  · exfalso
    refine hn (within_of (fun i => ⟨i, i, i, 255⟩) fun k hk => ?_)
    obtain ⟨row, x, e⟩ := hp k hk
    refine ⟨_, to8_lt hm (sampleAt_lt hd.depth row x), ?_⟩
    rw [e]
    simp only [pixelAt, hc, samples, Nat.mul_one, Nat.add_zero]
  · have hop : AllOpaque (hd.width * hd.height) p := fun k hk => by
      obtain ⟨row, x, e⟩ := hp k hk
      rw [e]; simp only [pixelAt, hc]
    rw [hc] at h8 ⊢
    simp [samples] at hm h8 ⊢
    exact ⟨by omega, fun h => by omega, fun _ => .inr hop⟩
  · rw [hc] at h8
    simp [samples] at hm h8
    omega
  · have hg : AllGray (hd.width * hd.height) p := fun k hk => by
      obtain ⟨row, x, e⟩ := hp k hk
      rw [e]; simp only [pixelAt, hc, and_self]
    rw [hc] at h8 ⊢
    simp [samples] at hm h8 ⊢
    exact ⟨by omega, fun _ => hg, fun _ => .inl hg⟩
  · rw [hc] at h8 ⊢
    simp [samples] at hm h8 ⊢
    exact ⟨by omega, by omega, by omega⟩

/-! ### What the reduction chooses -/

/-- The format chosen for the pixels `p`. -/
structure Chosen (o : Options) (p : Nat → Spec.Png.Rgba) (colour depth : Nat) : Prop where
  /-- Gray images, with or without alpha, are left alone. -/
  gray : o.colorType = .gray ∨ o.colorType = .grayAlpha → colour = o.colorType.pngColorType.toNat ∧ depth = 8
  /-- A palette if wanted and possible, at the least depth. -/
  palette : o.colorType = .rgb ∨ o.colorType = .rgba → o.reducePalette = true → Within (o.width * o.height) 256 p →
    colour = 3 ∧ Spec.Png.LeastDepth depth fun d => Within (o.width * o.height) (2 ^ d) p
  /-- Else as given if nothing else is wanted. -/
  kept : o.colorType = .rgb ∨ o.colorType = .rgba → ¬ (o.reducePalette = true ∧ Within (o.width * o.height) 256 p) →
    o.reduceColorType = false → colour = o.colorType.pngColorType.toNat ∧ depth = 8
  /-- Else the colour type by the channels that matter. -/
  reduced : o.colorType = .rgb ∨ o.colorType = .rgba → ¬ (o.reducePalette = true ∧ Within (o.width * o.height) 256 p) →
    o.reduceColorType = true →
    (AllGray (o.width * o.height) p → AllOpaque (o.width * o.height) p →
      colour = 0 ∧ Spec.Png.LeastDepth depth fun d => ∀ k, k < o.width * o.height → (p k).r < 2 ^ d) ∧
    (¬ AllGray (o.width * o.height) p → AllOpaque (o.width * o.height) p → colour = 2 ∧ depth = 8) ∧
    (AllGray (o.width * o.height) p → ¬ AllOpaque (o.width * o.height) p → colour = 4 ∧ depth = 8) ∧
    (¬ AllGray (o.width * o.height) p → ¬ AllOpaque (o.width * o.height) p → colour = 6 ∧ depth = 8)

theorem within_num {n m : Nat} {p : Nat → Spec.Png.Rgba} (hb : ∀ k, k < n → ∃ c : Palette.Rgba, num c = p k)
    (h : Within n m p) : ∃ l : List Palette.Rgba, l.length ≤ m ∧ ∀ k, k < n → ∃ c ∈ l, num c = p k := by
  obtain ⟨l, hl, h⟩ := h
  let u (c : Spec.Png.Rgba) : Palette.Rgba := (UInt8.ofNat c.r, UInt8.ofNat c.g, UInt8.ofNat c.b, UInt8.ofNat c.a)
  refine ⟨l.map u, by rw [List.length_map]; exact hl, fun k hk => ?_⟩
  obtain ⟨c, hc⟩ := hb k hk
  have e : u (p k) = c := by
    rw [← hc]
    simp only [u, num, UInt8.ofNat_toNat]
  exact ⟨c, List.mem_map.mpr ⟨p k, h k hk, e⟩, hc⟩

theorem pixel_num {ct : ColorType} (hct : ct = .rgb ∨ ct = .rgba) (data : List UInt8) (k : Nat) :
    ∃ c : Palette.Rgba, num c = pixelOf ct.bytesPerPixel data k := by
  rcases hct with rfl | rfl
  · exact ⟨(data.getD (k * 3) 0, data.getD (k * 3 + 1) 0, data.getD (k * 3 + 2) 0, 255), rfl⟩
  · exact ⟨(data.getD (k * 4) 0, data.getD (k * 4 + 1) 0, data.getD (k * 4 + 2) 0, data.getD (k * 4 + 3) 0), rfl⟩

/-- No duplicates and all in a list: not longer. -/
theorem nodup_le {α : Type} [DecidableEq α] : ∀ {l m : List α}, l.Nodup → (∀ a ∈ l, a ∈ m) → l.length ≤ m.length
  | [], _, _, _ => Nat.zero_le _
  | a :: l, m, hn, hs => by
    rw [List.nodup_cons] at hn
    have ha : a ∈ m := hs a List.mem_cons_self
    have := nodup_le (l := l) (m := m.erase a) hn.2 fun b hb => by
      have hne : b ≠ a := by rintro rfl; exact hn.1 hb
      exact (List.mem_erase_of_ne hne).mpr (hs b (List.mem_cons_of_mem a hb))
    rw [List.length_erase_of_mem ha] at this
    have := List.length_pos_of_mem ha
    rw [List.length_cons]; omega

/-- The depth of a palette is the least that has room for its colours. -/
theorem palette_least {n : Nat} {p : Nat → Spec.Png.Rgba} {indexed : List UInt8} {palette : List Palette.Rgba}
    (hn : 0 < n) (hi : Indexes p n indexed palette) :
    Spec.Png.LeastDepth (BitDepth.paletteBitDepth palette.length) fun d => Within n (2 ^ d) p := by
  have hw : ∀ m, Within n m p ↔ palette.length ≤ m := by
    intro m
    constructor
    · rintro ⟨l, hl, h⟩
      have := nodup_le (l := palette.map num) (m := l)
        (List.Pairwise.map _ (fun a b hab e => hab (num_inj e)) hi.nodup) (fun c hc => by
          obtain ⟨q, hq, rfl⟩ := List.mem_map.mp hc
          obtain ⟨k, hk, e⟩ := hi.occurs q hq
          rw [e]; exact h k hk)
      rw [List.length_map] at this
      omega
    · intro hm
      refine ⟨palette.map num, by rw [List.length_map]; exact hm, fun k hk => ?_⟩
      obtain ⟨c, hc, e⟩ := hi.same k hk
      exact List.mem_map.mpr ⟨c, List.mem_of_getElem? hc, e⟩
  have h1 : 1 ≤ palette.length := by
    obtain ⟨c, hc, -⟩ := hi.same 0 hn
    have := (List.getElem?_eq_some_iff.mp hc).1
    omega
  have hle := hi.le
  obtain ⟨hm, hd⟩ := paletteDepth_ok palette.length hle
  refine ⟨hm, (hw _).mpr hd, fun d' hd' h => ?_⟩
  rw [hw] at h
  unfold BitDepth.paletteBitDepth
  simp only [List.mem_cons, List.not_mem_nil, or_false] at hd'
  rcases hd' with rfl | rfl | rfl | rfl
  all_goals (repeat' split) <;> omega

theorem indexes_within {n : Nat} {p : Nat → Spec.Png.Rgba} {indexed : List UInt8} {palette : List Palette.Rgba}
    (hi : Indexes p n indexed palette) : Within n 256 p := by
  refine ⟨palette.map num, by rw [List.length_map]; exact hi.le, fun k hk => ?_⟩
  obtain ⟨c, hc, e⟩ := hi.same k hk
  exact List.mem_map.mpr ⟨c, List.mem_of_getElem? hc, e⟩

theorem opaque_rgb (n : Nat) (data : List UInt8) : AllOpaque n (pixelOf 3 data) := fun _ _ => rfl

/-- The gray image has the least depth. -/
theorem gray_least {w h : Nat} (hd : Dims w h) {gray : List UInt8} (hl : gray.length = w * h) {p : Nat → Spec.Png.Rgba}
    (hp : ∀ k, k < w * h → (p k).r = byteAt gray k) :
    Oks (grayImage gray w) fun r => r.colour.toNat = 0 ∧
      Spec.Png.LeastDepth r.depth fun d => ∀ k, k < w * h → (p k).r < 2 ^ d := by
  obtain ⟨r, e, hr⟩ := (grayImage_fit hd hl).out
  have hc : r.colour = 0 := by
    unfold grayImage at e
    cases hpk : packSamples gray w ((BitDepth.reduceBitDepth gray .gray).getD 8) with
    | error x => simp [hpk] at e; cases e
    | ok q => simp [hpk] at e; cases e; rfl
  rw [e]
  refine Oks.ok ⟨by rw [hc]; rfl, hr.2.1.mem, fun k hk => ?_, fun d' hd' h => hr.2.1.least d' hd' fun k hk => ?_⟩
  · rw [hp k hk]; exact hr.2.1.lt k hk
  · rw [← hp k hk]; exact h k hk

theorem reduceType_chosen {data : List UInt8} {o : Options} (hd : Dims o.width o.height)
    (hl : data.length = o.width * o.height * o.colorType.bytesPerPixel)
    (hpal : o.colorType = .rgb ∨ o.colorType = .rgba → o.reducePalette = true →
      ¬ Within (o.width * o.height) 256 (pixelOf o.colorType.bytesPerPixel data)) :
    Oks (reduceType data o.width o.colorType o) fun r =>
      Chosen o (pixelOf o.colorType.bytesPerPixel data) r.colour.toNat r.depth := by
  unfold reduceType
  cases hr : o.reduceColorType with
  | false =>
    rw [if_neg (by decide)]
    exact Oks.ok ⟨fun _ => ⟨rfl, rfl⟩, fun hc hp h => absurd h (hpal hc hp), fun _ _ _ => ⟨rfl, rfl⟩,
      fun _ _ h => by rw [hr] at h; cases h⟩
  | true =>
    rw [if_pos rfl]
    have side : ∀ colour depth : Nat, ((o.colorType = .rgb ∨ o.colorType = .rgba) →
        (AllGray (o.width * o.height) (pixelOf o.colorType.bytesPerPixel data) → AllOpaque (o.width * o.height) (pixelOf o.colorType.bytesPerPixel data) →
          colour = 0 ∧ Spec.Png.LeastDepth depth fun d => ∀ k, k < o.width * o.height → (pixelOf o.colorType.bytesPerPixel data k).r < 2 ^ d) ∧
        (¬ AllGray (o.width * o.height) (pixelOf o.colorType.bytesPerPixel data) → AllOpaque (o.width * o.height) (pixelOf o.colorType.bytesPerPixel data) → colour = 2 ∧ depth = 8) ∧
        (AllGray (o.width * o.height) (pixelOf o.colorType.bytesPerPixel data) → ¬ AllOpaque (o.width * o.height) (pixelOf o.colorType.bytesPerPixel data) → colour = 4 ∧ depth = 8) ∧
        (¬ AllGray (o.width * o.height) (pixelOf o.colorType.bytesPerPixel data) → ¬ AllOpaque (o.width * o.height) (pixelOf o.colorType.bytesPerPixel data) → colour = 6 ∧ depth = 8)) →
        ((o.colorType = .gray ∨ o.colorType = .grayAlpha) → colour = o.colorType.pngColorType.toNat ∧ depth = 8) →
        Chosen o (pixelOf o.colorType.bytesPerPixel data) colour depth := fun colour depth h1 h2 =>
      ⟨h2, fun hc hp h => absurd h (hpal hc hp), fun _ _ h => (by rw [hr] at h; cases h), fun hc _ _ => h1 hc⟩
    cases hct : o.colorType with
    | gray =>
      rw [hct] at side
      exact Oks.ok (side (ColorType.gray.pngColorType.toNat) 8 (fun h => by simp at h) fun _ => ⟨rfl, rfl⟩)
    | grayAlpha =>
      rw [hct] at side
      exact Oks.ok (side (ColorType.grayAlpha.pngColorType.toNat) 8 (fun h => by simp at h) fun _ => ⟨rfl, rfl⟩)
    | rgb =>
      rw [hct] at hl side
      have hl : data.length = o.width * o.height * 3 := hl
      change Oks (reduceRgb data o.width) _
      unfold reduceRgb
      refine Oks.bind (allGray_ok hl) fun g hg => ?_
      cases g with
      | true =>
        rw [if_pos rfl]
        have hg : AllGray (o.width * o.height) (pixelOf 3 data) := hg.mp rfl
        obtain ⟨gray, e, hgl, hgb⟩ := highBytes_places (by decide) hl (places := [0]) (by decide)
        rw [e, ok_bind]
        have hgl' : gray.length = o.width * o.height := by rw [hgl]; simp
        refine (gray_least hd hgl' (p := pixelOf 3 data) fun k hk => ?_).mono fun r hr => side _ _ (fun _ => ?_) fun h => ?_
        · have := hgb k 0 (by decide) hk
          simpa [pixelOf] using this.symm
        · exact ⟨fun _ _ => hr, fun h => absurd hg h, fun _ h => absurd (opaque_rgb _ _) h, fun h => absurd hg h⟩
        · simp at h
      | false =>
        rw [if_neg (by decide)]
        have hg : ¬ AllGray (o.width * o.height) (pixelOf 3 data) := fun h => Bool.noConfusion (hg.mpr h)
        refine Oks.pure (side _ _ (fun _ => ?_) fun h => by simp at h)
        exact ⟨fun h => absurd h hg, fun _ _ => ⟨rfl, rfl⟩, fun h => absurd h hg, fun _ h => absurd (opaque_rgb _ _) h⟩
    | rgba =>
      rw [hct] at hl side
      have hl : data.length = o.width * o.height * 4 := hl
      change Oks (reduceRgba data o.width) _
      unfold reduceRgba
      refine Oks.bind (analyze_ok hl) fun r hrg => ?_
      obtain ⟨op, g⟩ := r
      obtain ⟨ho, hg⟩ := hrg
      dsimp only at ho hg ⊢
      have ho : op = true ↔ AllOpaque (o.width * o.height) (pixelOf 4 data) := ho
      have hg : g = true ↔ AllGray (o.width * o.height) (pixelOf 4 data) := hg
      cases op with
      | true =>
        have ho := ho.mp rfl
        cases g with
        | true =>
          have hg := hg.mp rfl
          rw [if_pos rfl]
          obtain ⟨gray, e, hgl, hgb⟩ := highBytes_places (by decide) hl (places := [0]) (by decide)
          rw [e, ok_bind]
          have hgl' : gray.length = o.width * o.height := by rw [hgl]; simp
          refine (gray_least hd hgl' (p := pixelOf 4 data) fun k hk => ?_).mono fun r hr => side _ _ (fun _ => ?_) fun h => ?_
          · have := hgb k 0 (by decide) hk
            simpa [pixelOf] using this.symm
          · exact ⟨fun _ _ => hr, fun h => absurd hg h, fun _ h => absurd ho h, fun h => absurd hg h⟩
          · simp at h
        | false =>
          have hg : ¬ AllGray (o.width * o.height) (pixelOf 4 data) := fun h => Bool.noConfusion (hg.mpr h)
          rw [if_neg (by decide), if_pos rfl]
          obtain ⟨rgb, e, -, -⟩ := highBytes_places (by decide) hl (places := [0, 1, 2]) (by decide)
          rw [e, ok_bind]
          refine Oks.pure (side _ _ (fun _ => ?_) fun h => by simp at h)
          exact ⟨fun h => absurd h hg, fun _ _ => ⟨rfl, rfl⟩, fun h => absurd h hg, fun _ h => absurd ho h⟩
      | false =>
        have ho : ¬ AllOpaque (o.width * o.height) (pixelOf 4 data) := fun h => Bool.noConfusion (ho.mpr h)
        rw [if_neg (by simp), if_neg (by decide)]
        cases g with
        | true =>
          have hg := hg.mp rfl
          rw [if_pos rfl]
          obtain ⟨ga, e, -, -⟩ := highBytes_places (by decide) hl (places := [0, 3]) (by decide)
          rw [e, ok_bind]
          refine Oks.pure (side _ _ (fun _ => ?_) fun h => by simp at h)
          exact ⟨fun _ h => absurd h ho, fun h => absurd hg h, fun _ _ => ⟨rfl, rfl⟩, fun h => absurd hg h⟩
        | false =>
          have hg : ¬ AllGray (o.width * o.height) (pixelOf 4 data) := fun h => Bool.noConfusion (hg.mpr h)
          rw [if_neg (by decide)]
          refine Oks.pure (side _ _ (fun _ => ?_) fun h => by simp at h)
          exact ⟨fun h => absurd h hg, fun _ h => absurd h ho, fun h => absurd h hg, fun _ _ => ⟨rfl, rfl⟩⟩

theorem prepare_chosen {data : List UInt8} {o : Options} (hd : Dims o.width o.height)
    (hl : data.length = o.width * o.height * o.colorType.bytesPerPixel) (hK : o.width * o.height < 2 ^ 30)
    {q : Reduced × List UInt8} (e : prepare data o = .ok q) :
    Chosen o (pixelOf o.colorType.bytesPerPixel data) q.1.colour.toNat q.1.depth := by
  suffices h : Oks (reduce data o.width o.height o.colorType o) fun r =>
      Chosen o (pixelOf o.colorType.bytesPerPixel data) r.colour.toNat r.depth by
    obtain ⟨r, er, hr⟩ := h.out
    unfold prepare at e
    rw [er, ok_bind] at e
    cases ea : optimizeAlpha r.data r.effective o.optimizeAlpha with
    | error x => rw [ea] at e; cases e
    | ok d => rw [ea] at e; cases e; exact hr
  unfold reduce
  by_cases hg : o.colorType = .gray ∧ o.reduceColorType = true
  · rw [if_pos hg]
    refine Oks.ok ⟨fun _ => ⟨by rw [hg.1]; rfl, rfl⟩, fun h => ?_, fun h => ?_, fun h => ?_⟩ <;>
      (rw [hg.1] at h; simp at h)
  · rw [if_neg hg]
    by_cases hp : o.reducePalette = true
    · rw [if_pos hp]
      by_cases hct : o.colorType = .rgb ∨ o.colorType = .rgba
      · refine Oks.bind (buildPalette_ok hct hl hK) fun q hq => ?_
        cases q with
        | none =>
          refine reduceType_chosen hd hl fun _ _ h => ?_
          obtain ⟨l, h1, h2⟩ := within_num (fun k _ => pixel_num hct data k) h
          have := hq l h2
          omega
        | some q =>
          obtain ⟨indexed, palette⟩ := q
          have hq : Indexes _ _ indexed palette := hq
          obtain ⟨r, er, hr⟩ := (indexedImage_fit hd hq).out
          dsimp only
          rw [er]
          have hn := Nat.mul_pos hd.w0 hd.h0
          have hc : r.colour.toNat = 3 := by rw [(hr.2.2.2.colours palette hr.2.1).1]; rfl
          refine Oks.ok ⟨fun h => ?_, fun _ _ _ => ⟨hc, ?_⟩, fun _ h => absurd ⟨hp, indexes_within hq⟩ h,
            fun _ h => absurd ⟨hp, indexes_within hq⟩ h⟩
          · rcases hct with e | e <;> (rw [e] at h; simp at h)
          · rw [hr.2.2.1]; exact palette_least hn hq
      · have e : Palette.buildPalette data o.colorType o.width o.height = .ok none := by
          unfold Palette.buildPalette
          cases hc : o.colorType <;> simp [hc] at hct ⊢
        rw [e, ok_bind]
        exact reduceType_chosen hd hl fun h => absurd h hct
    · rw [if_neg hp]
      exact reduceType_chosen hd hl fun _ h => absurd h hp

end Pixo.Png
