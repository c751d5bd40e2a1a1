import Verif.Proof.PngPixels
/-
`convert_to_pixels` yields the colours that the PNG specification gives the samples.
-/
namespace Pixo.PngDecode
open Spec Spec.Png
open Pixo.Filter (getD_eq getChecked_getD)
open Pixo.MatchLength (slice)

theorem mapM_ok {α β : Type} {f : α → R β} {g : α → β} : ∀ (l : List α), (∀ a ∈ l, f a = .ok (g a)) →
    l.mapM f = .ok (l.map g)
  | [], _ => rfl
  | a :: l, h => by
    rw [List.mapM_cons, h a List.mem_cons_self, ok_bind, mapM_ok l (fun b hb => h b (List.mem_cons_of_mem _ hb)),
      ok_bind]
    rfl

/-- Sixteen bit samples keep their high bytes. -/
theorem highBytes_ok {c n : Nat} (hc : 0 < c) {places : List Nat} (hp : places = (List.range c).map (2 * ·))
    {raw : List UInt8} (hl : raw.length = n * (2 * c)) :
    ∃ px, highBytes (2 * c) places raw = .ok px ∧ px.length = n * c ∧
      ∀ k, k < n * c → byteAt px k = byteAt raw (2 * k) := by
  have hn : raw.length / (2 * c) = n := by rw [hl, Nat.mul_div_cancel _ (by omega)]
  have e : (chunksExact (2 * c) raw).mapM (fun ch => places.mapM (getChecked ch))
      = .ok ((chunksExact (2 * c) raw).map (fun ch => places.map (fun j => ch.getD j 0))) := by
    apply mapM_ok
    intro ch hch
    apply mapM_ok
    intro j hj
    apply getChecked_getD
    unfold chunksExact at hch
    rw [hn] at hch
    simp only [List.mem_map, List.mem_range] at hch
    obtain ⟨i, hi, rfl⟩ := hch
    rw [hp] at hj
    simp only [List.mem_map, List.mem_range] at hj
    obtain ⟨j', hj', rfl⟩ := hj
    have := Nat.mul_le_mul_right (2 * c) (show i + 1 ≤ n from hi)
    rw [Nat.succ_mul] at this
    simp; omega
  unfold highBytes
  rw [e, ok_bind]
  have pl : places.length = c := by rw [hp]; simp
  have hlen : ∀ a ∈ (chunksExact (2 * c) raw).map (fun ch => places.map (fun j => ch.getD j 0)), a.length = c := by
    intro a ha
    simp only [List.mem_map] at ha
    obtain ⟨ch, _, rfl⟩ := ha
    simp [pl]
  have cl : (chunksExact (2 * c) raw).length = n := by unfold chunksExact; simp [hn]
  refine ⟨_, rfl, ?_, ?_⟩
  · rw [flatten_eq_flatMap, flatMap_length (f := id) _ hlen]; simp [cl]
  · intro k hk
    have hq : k / c < n := by rw [Nat.div_lt_iff_lt_mul hc]; exact hk
    have hr : k % c < c := Nat.mod_lt _ hc
    have hk' := Nat.div_add_mod k c
    have g := flatten_get hlen (k / c) (k % c) hr
    rw [Nat.mul_comm (k / c), hk', List.getElem?_map, List.getElem?_eq_getElem (l := chunksExact (2 * c) raw) (by omega)] at g
    simp only [Option.map_some, Option.bind_some, List.getElem?_map] at g
    have hplace : places[k % c]? = some (2 * (k % c)) := by rw [hp]; simp [hr]
    rw [hplace] at g
    have hch : (chunksExact (2 * c) raw)[k / c]'(by omega) = (raw.drop (k / c * (2 * c))).take (2 * c) := by
      unfold chunksExact; simp
    rw [hch, Option.map_some] at g
    rw [byteAt_eq g]
    have hm : k / c * (2 * c) + 2 * (k % c) = 2 * k := by
      rw [Nat.mul_left_comm, ← Nat.mul_add, Nat.mul_comm (k / c), hk']
    unfold byteAt
    congr 1
    simp only [List.getD]
    rw [List.getElem?_take_of_lt (by omega), List.getElem?_drop, hm]

/-- The header fields the decoder reads. -/
structure Matches (ih : Ihdr) (h : Header) : Prop where
  width : ih.width = h.width
  height : ih.height = h.height
  depth : ih.depth = h.depth
  kind : Kind.ofU8 (UInt8.ofNat h.colour) = .ok ih.kind

theorem Matches.kinds {ih : Ihdr} {h : Header} (m : Matches ih h) (ok : h.Ok) :
    h.colour = 0 ∧ ih.kind = .gray ∧ h.depth ∈ [1, 2, 4, 8, 16] ∨ h.colour = 2 ∧ ih.kind = .rgb ∧ h.depth ∈ [8, 16] ∨
    h.colour = 3 ∧ ih.kind = .indexed ∧ h.depth ∈ [1, 2, 4, 8] ∨
    h.colour = 4 ∧ ih.kind = .grayAlpha ∧ h.depth ∈ [8, 16] ∨ h.colour = 6 ∧ ih.kind = .rgba ∧ h.depth ∈ [8, 16] := by
  have k := m.kind
  obtain ⟨-, -, -, -, ok⟩ := ok
  rcases ok with ⟨c, d⟩ | ⟨c, d⟩ | ⟨c, d⟩ | ⟨c, d⟩ | ⟨c, d⟩ <;> rw [c] at k <;> have k := Except.ok.inj k
  · exact Or.inl ⟨c, k.symm, d⟩
  · exact Or.inr (Or.inl ⟨c, k.symm, d⟩)
  · exact Or.inr (Or.inr (Or.inl ⟨c, k.symm, d⟩))
  · exact Or.inr (Or.inr (Or.inr (Or.inl ⟨c, k.symm, d⟩)))
  · exact Or.inr (Or.inr (Or.inr (Or.inr ⟨c, k.symm, d⟩)))

theorem ceil8_eq (n : Nat) : ceil8 n = (n + 7) / 8 := rfl

theorem layout_eq {ih : Ihdr} {h : Header} (m : Matches ih h) (ok : h.Ok) : layout ih = (h.bpp, h.rowBytes) := by
  unfold layout Header.bpp Header.rowBytes
  rw [m.width, m.depth]
  rcases m.kinds ok with ⟨c, k, d⟩ | ⟨c, k, d⟩ | ⟨c, k, d⟩ | ⟨c, k, d⟩ | ⟨c, k, d⟩ <;> rw [c, k] <;>
    simp only [List.mem_cons, List.not_mem_nil, or_false] at d <;> simp only [samples, ceil8_eq]
  · rcases d with d | d | d | d | d <;> rw [d] <;> simp
  · rcases d with d | d <;> rw [d] <;> refine Prod.ext ?_ ?_ <;> show _ = _ <;> simp only <;> omega
  · rcases d with d | d | d | d <;> rw [d] <;> simp
  · rcases d with d | d <;> rw [d] <;> refine Prod.ext ?_ ?_ <;> show _ = _ <;> simp only <;> omega
  · rcases d with d | d <;> rw [d] <;> refine Prod.ext ?_ ?_ <;> show _ = _ <;> simp only <;> omega

theorem scanlineBytes_eq {ih : Ihdr} {h : Header} (m : Matches ih h) (ok : h.Ok) : scanlineBytes ih = h.rowBytes := by
  unfold scanlineBytes Header.rowBytes
  rw [m.width, m.depth]
  rcases m.kinds ok with ⟨c, k, d⟩ | ⟨c, k, d⟩ | ⟨c, k, d⟩ | ⟨c, k, d⟩ | ⟨c, k, d⟩ <;> rw [c, k] <;>
    simp only [List.mem_cons, List.not_mem_nil, or_false] at d <;> simp only [samples, ceil8_eq]
  · rw [Nat.mul_one]
  · rcases d with d | d <;> rw [d] <;> omega
  · rw [Nat.mul_one]
  · rcases d with d | d <;> rw [d] <;> omega
  · rcases d with d | d <;> rw [d] <;> omega

/-- The buffer holds, pixel by pixel, the colours of the scanlines. -/
def Shows (h : Header) (plte trns : List UInt8) (rows : List (List UInt8)) (ch : Nat) (px : List UInt8) : Prop :=
  px.length = h.width * h.height * ch ∧
  ∀ y x (hy : y < rows.length), x < h.width → pixelOf ch px (y * h.width + x) = pixelAt h plte trns rows[y] x

theorem to8_8 {s : Nat} : to8 8 s = s := by unfold to8; rw [if_neg (by decide)]; omega

/-- Pixels from a sample buffer: `c` channels, each sample the 8-bit value of the scanline's. -/
theorem shows_of_samples {h : Header} {plte trns : List UInt8} {rows : List (List UInt8)} {px : List UInt8}
    {c : Nat} (hc : c = samples h.colour) (hcol : h.colour ∈ [0, 2, 4, 6])
    (hl : px.length = h.width * h.height * c)
    (hs : ∀ y j (hy : y < rows.length), j < h.width * c →
      byteAt px (y * (h.width * c) + j) = to8 h.depth (sampleAt h.depth rows[y] j)) :
    Shows h plte trns rows c px := by
  refine ⟨hl, ?_⟩
  intro y x hy hx
  have hb : ∀ j, j < c → byteAt px ((y * h.width + x) * c + j) =
      to8 h.depth (sampleAt h.depth rows[y] (x * samples h.colour + j)) := by
    intro j hj
    have h1 := Nat.mul_le_mul_right c (show x + 1 ≤ h.width from hx)
    rw [Nat.succ_mul] at h1
    rw [← hs y _ hy (by rw [← hc]; omega), ← hc]
    congr 1
    rw [Nat.add_mul, Nat.mul_assoc]; omega
  simp only [List.mem_cons, List.not_mem_nil, or_false] at hcol
  unfold pixelOf pixelAt
  rcases hcol with e | e | e | e <;> rw [e] at hc <;> simp only [samples] at hc <;> subst hc <;> rw [e] <;> rw [e] at hb <;>
    simp only
  · rw [hb 0 (by decide)]
  · rw [hb 0 (by decide), hb 1 (by decide), hb 2 (by decide)]
  · rw [hb 0 (by decide), hb 1 (by decide)]
  · rw [hb 0 (by decide), hb 1 (by decide), hb 2 (by decide), hb 3 (by decide)]

section
variable {h : Header} {plte trns : List UInt8} {rows : List (List UInt8)} {raw : List UInt8}

theorem shows_8 (hrows : rows.length = h.height) (hcol : h.colour ∈ [0, 2, 4, 6]) (hd : h.depth = 8)
    (hr : RowsOk raw rows h.rowBytes) : Shows h plte trns rows (samples h.colour) raw := by
  have hsb : h.rowBytes = h.width * samples h.colour := by unfold Header.rowBytes; rw [hd]; omega
  refine shows_of_samples rfl hcol ?_ ?_
  · rw [hr.length, hrows, hsb, Nat.mul_left_comm, Nat.mul_assoc, ← Nat.mul_left_comm]
  · intro y j hy hj
    have hrl := hr.len _ (List.getElem_mem hy)
    rw [← hsb, hr.byte hy (by omega), hd, to8_8, sampleAt_8 (by omega)]

theorem shows_16 (hrows : rows.length = h.height) (hcol : h.colour ∈ [0, 2, 4, 6]) (hd : h.depth = 16)
    (hr : RowsOk raw rows h.rowBytes) {places : List Nat}
    (hp : places = (List.range (samples h.colour)).map (2 * ·)) :
    ∃ px, highBytes (2 * samples h.colour) places raw = .ok px ∧
      Shows h plte trns rows (samples h.colour) px := by
  have hsb : h.rowBytes = 2 * (h.width * samples h.colour) := by unfold Header.rowBytes; rw [hd]; omega
  have hs0 : 0 < samples h.colour := by unfold samples; split <;> decide
  have hl : raw.length = h.width * h.height * (2 * samples h.colour) := by
    rw [hr.length, hrows, hsb]
    simp only [Nat.mul_assoc, Nat.mul_left_comm]
  obtain ⟨px, e, pl, pb⟩ := highBytes_ok hs0 hp hl
  refine ⟨px, e, shows_of_samples rfl hcol pl ?_⟩
  intro y j hy hj
  have hrl := hr.len _ (List.getElem_mem hy)
  have hlt : y * (h.width * samples h.colour) + j < h.width * h.height * samples h.colour := by
    have := Nat.mul_le_mul_right (h.width * samples h.colour) (show y + 1 ≤ h.height by omega)
    rw [Nat.succ_mul] at this
    calc _ < h.height * (h.width * samples h.colour) := by omega
      _ = _ := by rw [← Nat.mul_assoc, Nat.mul_comm h.height]
  rw [pb _ hlt, hd, sampleAt_16 (by omega)]
  have := hr.byte hy (j := 2 * j) (by omega)
  rw [show 2 * (y * (h.width * samples h.colour) + j) = y * h.rowBytes + 2 * j by rw [hsb, Nat.mul_left_comm y 2, Nat.mul_add],
    this]
  have b := Filter.byteAt_lt rows[y] (2 * j + 1)
  unfold to8
  rw [if_pos rfl]; omega

theorem shows_sub (hrows : rows.length = h.height) (hcol : h.colour = 0) (hd : h.depth = 1 ∨ h.depth = 2 ∨ h.depth = 4)
    (hr : RowsOk raw rows h.rowBytes) :
    ∃ px, unpackGray raw h.width h.height h.depth = .ok px ∧ Shows h plte trns rows 1 px := by
  have hsb : h.rowBytes = ceil8 (h.width * h.depth) := by unfold Header.rowBytes; rw [hcol]; simp [samples, ceil8]
  rw [hsb] at hr
  obtain ⟨idx, e, il, ig⟩ := unpackRows_get (d := h.depth) (by simp; omega) hr
  unfold unpackGray
  rw [← hrows, e, ok_bind]
  refine ⟨_, rfl, shows_of_samples (by rw [hcol]; rfl) (by simp [hcol]) ?_ ?_⟩
  · rw [List.length_map, il, hrows, Nat.mul_one, Nat.mul_comm]
  · intro y j hy hj
    rw [Nat.mul_one] at hj ⊢
    have : (idx.map (scaleTo8 · h.depth))[y * h.width + j]?
        = some (scaleTo8 (UInt8.ofNat (sampleAt h.depth rows[y] j)) h.depth) := by
      rw [List.getElem?_map, ig y j hy hj]; rfl
    rw [byteAt_eq this, scaleTo8_eq hd (sampleAt_lt _ _ _)]

/-! ### Palettes -/

/-- Entry `i` of a PLTE chunk. -/
def entry (d : List UInt8) (i : Nat) : UInt8 × UInt8 × UInt8 :=
  (d.getD (3 * i) 0, d.getD (3 * i + 1) 0, d.getD (3 * i + 2) 0)

theorem paletteLoop_ok {d : List UInt8} : ∀ (n i : Nat), (i + n) * 3 ≤ d.length →
    paletteLoop d i n = .ok ((List.range' i n).map (entry d))
  | 0, _, _ => rfl
  | n + 1, i, h => by
    rw [paletteLoop, getChecked_getD (by omega), ok_bind, getChecked_getD (by omega), ok_bind,
      getChecked_getD (by omega), ok_bind, paletteLoop_ok n (i + 1) (by omega), ok_bind, List.range'_succ]
    simp [entry, Nat.mul_comm i 3, Pure.pure, Except.pure]

/-- The decoder's palette of a PLTE chunk. -/
def paletteOf (d : List UInt8) : List (UInt8 × UInt8 × UInt8) := (List.range' 0 (d.length / 3)).map (entry d)

theorem parsePalette_ok {d : List UInt8} (h : d.length % 3 = 0) : parsePalette d = .ok (paletteOf d) := by
  unfold parsePalette
  rw [if_neg (by omega), paletteLoop_ok _ _ (by omega)]; rfl

theorem paletteOf_get (d : List UInt8) (i : Nat) :
    (paletteOf d)[i]? = if i < d.length / 3 then some (entry d i) else none := by
  unfold paletteOf
  rw [List.getElem?_map]
  split
  · rename_i h; rw [List.getElem?_range' h]; simp
  · rename_i h; rw [List.getElem?_eq_none (by simp; omega)]; rfl

theorem byteAt_none {l : List UInt8} {i : Nat} (h : l.length ≤ i) : byteAt l i = 0 := by
  unfold byteAt; simp [List.getD, List.getElem?_eq_none h]

theorem uint8_small {n : Nat} (h : n < 256) : (UInt8.ofNat n).toNat = n := by
  rw [UInt8.toNat_ofNat']; omega

theorem hasAlpha_false {t : List UInt8} (h : hasAlpha (some t) = false) (i : Nat) (hi : i < t.length) :
    byteAt t i = 255 := by
  unfold hasAlpha at h
  simp only [List.any_eq_false, decide_eq_true_eq, Decidable.not_not] at h
  have := h t[i] (List.getElem_mem hi)
  unfold byteAt
  rw [getD_eq _ _ hi, this]; rfl

theorem expandRgba_get (d t : List UInt8) (hd : d.length % 3 = 0)
    (idx : UInt8) : ∃ r g b a, expandRgba (paletteOf d) t idx = [r, g, b, a] ∧
      (⟨r.toNat, g.toNat, b.toNat, a.toNat⟩ : Rgba) = paletteAt d (t.take (d.length / 3)) idx.toNat := by
  unfold expandRgba paletteAt
  rw [paletteOf_get]
  by_cases c : idx.toNat < d.length / 3
  · rw [if_pos c]
    refine ⟨_, _, _, _, rfl, ?_⟩
    simp only [byteAt, Rgba.mk.injEq, true_and]
    by_cases c2 : idx.toNat < t.length
    · rw [if_pos (by rw [List.length_take]; omega), getD_eq _ _ c2, getD_eq _ _ (by rw [List.length_take]; omega),
        List.getElem_take]
    · rw [if_neg (by rw [List.length_take]; omega)]; simp [List.getD, List.getElem?_eq_none (Nat.le_of_not_lt c2)]
  · rw [if_neg c]
    refine ⟨_, _, _, _, rfl, ?_⟩
    rw [byteAt_none (by omega), byteAt_none (by omega), byteAt_none (by omega),
      if_neg (by rw [List.length_take]; omega)]
    rfl

theorem expandRgb_get (d : List UInt8) {t : List UInt8} (hd : d.length % 3 = 0)
    (ha : ∀ i, i < t.length → byteAt t i = 255)
    (idx : UInt8) : ∃ r g b, expandRgb (paletteOf d) idx = [r, g, b] ∧
      (⟨r.toNat, g.toNat, b.toNat, 255⟩ : Rgba) = paletteAt d t idx.toNat := by
  unfold expandRgb paletteAt
  rw [paletteOf_get]
  have al : (if idx.toNat < t.length then byteAt t idx.toNat else 255) = 255 := by
    split
    · rename_i h; exact ha _ h
    · rfl
  rw [al]
  by_cases c : idx.toNat < d.length / 3
  · rw [if_pos c]
    exact ⟨_, _, _, rfl, rfl⟩
  · rw [if_neg c]
    refine ⟨_, _, _, rfl, ?_⟩
    rw [byteAt_none (by omega), byteAt_none (by omega), byteAt_none (by omega)]
    rfl

/-- `n` bytes per index. -/
theorem flatMap_bytes {f : UInt8 → List UInt8} {m : Nat} (hf : ∀ a, (f a).length = m) {idx : List UInt8} {k : Nat}
    {v : UInt8} (hk : idx[k]? = some v) {j : Nat} (hj : j < m) :
    byteAt (idx.flatMap f) (k * m + j) = byteAt (f v) j := by
  have := flatMap_get idx (fun a _ => hf a) k j hj
  rw [hk, Option.bind_some] at this
  simp only [byteAt, List.getD, this]

theorem shows_indexed {ih : Ihdr} (hm : Matches ih h) (hrows : rows.length = h.height) (hcol : h.colour = 3)
    (hd : h.depth ∈ [1, 2, 4, 8]) (hr : RowsOk raw rows h.rowBytes) (hk : ih.kind = .indexed)
    {t : Option (List UInt8)} (hp : plte.length % 3 = 0) :
    ∃ px, convertIndexed ih raw (paletteOf plte) t = .ok px ∧
      Shows h plte ((t.getD []).take (plte.length / 3)) rows (outputType ih t).bytesPerPixel px := by
  have hsb : h.rowBytes = ceil8 (h.width * h.depth) := by unfold Header.rowBytes; rw [hcol]; simp [samples, ceil8]
  rw [hsb] at hr
  obtain ⟨idx, e, il, ig⟩ := unpackRows_get hd hr
  have pix : ∀ y x (hy : y < rows.length), pixelAt h plte ((t.getD []).take (plte.length / 3)) rows[y] x
      = paletteAt plte ((t.getD []).take (plte.length / 3)) (sampleAt h.depth rows[y] x) := by
    intro y x hy; unfold pixelAt; rw [hcol]; rfl
  have slt : ∀ y x (hy : y < rows.length), sampleAt h.depth rows[y] x < 256 := by
    intro y x hy
    refine Nat.lt_of_lt_of_le (sampleAt_lt _ _ _) ?_
    simp only [List.mem_cons, List.not_mem_nil, or_false] at hd
    rcases hd with d | d | d | d <;> rw [d] <;> decide
  unfold convertIndexed unpackIndices outputType
  rw [hm.width, hm.height, hm.depth, ← hrows, e, ok_bind, hk]
  by_cases c : hasAlpha t
  · rw [if_pos c]
    simp only [if_pos c, ColorType.bytesPerPixel]
    have len4 : ∀ a, (expandRgba (paletteOf plte) (t.getD []) a).length = 4 := by
      intro a; obtain ⟨r, g, b, al, e, -⟩ := expandRgba_get plte (t.getD []) hp a; rw [e]; rfl
    refine ⟨_, rfl, ?_, ?_⟩
    · rw [flatMap_length _ (fun a _ => len4 a), il, hrows, Nat.mul_comm h.height]
    · intro y x hy hx
      rw [pix y x hy]
      obtain ⟨r, g, b, al, e, ep⟩ := expandRgba_get plte (t.getD []) hp (UInt8.ofNat (sampleAt h.depth rows[y] x))
      rw [uint8_small (slt y x hy)] at ep
      rw [← ep]
      unfold pixelOf
      simp only
      rw [flatMap_bytes len4 (ig y x hy hx) (j := 0) (by decide), flatMap_bytes len4 (ig y x hy hx) (j := 1) (by decide),
        flatMap_bytes len4 (ig y x hy hx) (j := 2) (by decide), flatMap_bytes len4 (ig y x hy hx) (j := 3) (by decide), e]
      rfl
  · rw [if_neg c]
    simp only [if_neg c, ColorType.bytesPerPixel]
    have ha : ∀ i, i < ((t.getD []).take (plte.length / 3)).length →
        byteAt ((t.getD []).take (plte.length / 3)) i = 255 := by
      intro i hi
      cases t with
      | none => simp at hi
      | some t =>
        simp only [Option.getD_some] at hi ⊢
        have hi' := hi
        rw [List.length_take] at hi'
        have := hasAlpha_false (t := t) (by simpa using c) i (by omega)
        unfold byteAt at this ⊢
        rw [getD_eq _ _ hi, List.getElem_take, ← getD_eq _ 0, this]
    have len3 : ∀ a, (expandRgb (paletteOf plte) a).length = 3 := by
      intro a; obtain ⟨r, g, b, e, -⟩ := expandRgb_get plte hp ha a; rw [e]; rfl
    refine ⟨_, rfl, ?_, ?_⟩
    · rw [flatMap_length _ (fun a _ => len3 a), il, hrows, Nat.mul_comm h.height]
    · intro y x hy hx
      rw [pix y x hy]
      obtain ⟨r, g, b, e, ep⟩ := expandRgb_get plte hp ha (UInt8.ofNat (sampleAt h.depth rows[y] x))
      rw [uint8_small (slt y x hy)] at ep
      rw [← ep]
      unfold pixelOf
      simp only
      rw [flatMap_bytes len3 (ig y x hy hx) (j := 0) (by decide), flatMap_bytes len3 (ig y x hy hx) (j := 1) (by decide),
        flatMap_bytes len3 (ig y x hy hx) (j := 2) (by decide), e]
      rfl

end

/-- Conversion of the unfiltered rows; `t` is the part of the transparency table that belongs to the palette. -/
theorem convert_loose {ih : Ihdr} {h : Header} (m : Matches ih h) (ok : h.Ok) {plte trns : Option (List UInt8)}
    {t : List UInt8} (whole : ∀ p, plte = some p → p.length % 3 = 0) (needed : h.colour = 3 → plte ≠ none)
    (ht : h.colour = 3 → t = (trns.getD []).take ((plte.getD []).length / 3))
    {rows : List (List UInt8)} (hrows : rows.length = h.height) {raw : List UInt8}
    (hr : RowsOk raw rows h.rowBytes) :
    ∃ px, convert ih raw (plte.map paletteOf) trns = .ok px ∧
      Shows h (plte.getD []) t rows (outputType ih trns).bytesPerPixel px := by
  unfold convert
  rcases m.kinds ok with ⟨c, k, d⟩ | ⟨c, k, d⟩ | ⟨c, k, d⟩ | ⟨c, k, d⟩ | ⟨c, k, d⟩ <;>
    simp only [List.mem_cons, List.not_mem_nil, or_false] at d
  · have ho : (outputType ih trns).bytesPerPixel = samples h.colour := by unfold outputType; rw [k, c]; rfl
    rw [k, ho, m.depth]
    simp only
    by_cases d8 : h.depth = 8
    · rw [if_pos d8]; exact ⟨_, rfl, shows_8 hrows (by simp [c]) d8 hr⟩
    rw [if_neg d8]
    by_cases d16 : h.depth = 16
    · rw [if_pos d16]
      have := shows_16 (plte := plte.getD []) (trns := t) hrows (by simp [c]) d16 hr (places := [0]) (by rw [c]; rfl)
      rw [show 2 * samples h.colour = 2 by rw [c]; rfl] at this
      exact this
    · rw [if_neg d16, m.width, m.height, show samples h.colour = 1 by rw [c]; rfl]
      exact shows_sub hrows c (by omega) hr
  · have ho : (outputType ih trns).bytesPerPixel = samples h.colour := by unfold outputType; rw [k, c]; rfl
    rw [k, ho, m.depth]
    simp only
    by_cases d8 : h.depth = 8
    · rw [if_pos d8]; exact ⟨_, rfl, shows_8 hrows (by simp [c]) d8 hr⟩
    · rw [if_neg d8]
      have := shows_16 (plte := plte.getD []) (trns := t) hrows (by simp [c]) (by omega) hr (places := [0, 2, 4]) (by rw [c]; rfl)
      rw [show 2 * samples h.colour = 6 by rw [c]; rfl] at this
      exact this
  · rw [k]
    simp only
    obtain ⟨p, hpl⟩ : ∃ p, plte = some p := by
      cases plte with
      | none => exact absurd rfl (needed c)
      | some p => exact ⟨p, rfl⟩
    subst hpl
    simp only [Option.map_some]
    rw [ht c]
    exact shows_indexed m hrows c (by simpa using d) hr k (whole p rfl)
  · have ho : (outputType ih trns).bytesPerPixel = samples h.colour := by unfold outputType; rw [k, c]; rfl
    rw [k, ho, m.depth]
    simp only
    by_cases d8 : h.depth = 8
    · rw [if_pos d8]; exact ⟨_, rfl, shows_8 hrows (by simp [c]) d8 hr⟩
    · rw [if_neg d8]
      have := shows_16 (plte := plte.getD []) (trns := t) hrows (by simp [c]) (by omega) hr (places := [0, 2]) (by rw [c]; rfl)
      rw [show 2 * samples h.colour = 4 by rw [c]; rfl] at this
      exact this
  · have ho : (outputType ih trns).bytesPerPixel = samples h.colour := by unfold outputType; rw [k, c]; rfl
    rw [k, ho, m.depth]
    simp only
    by_cases d8 : h.depth = 8
    · rw [if_pos d8]; exact ⟨_, rfl, shows_8 hrows (by simp [c]) d8 hr⟩
    · rw [if_neg d8]
      have := shows_16 (plte := plte.getD []) (trns := t) hrows (by simp [c]) (by omega) hr (places := [0, 2, 4, 6]) (by rw [c]; rfl)
      rw [show 2 * samples h.colour = 8 by rw [c]; rfl] at this
      exact this

/-- Conversion of the unfiltered rows, with a proper palette. -/
theorem convert_ok {ih : Ihdr} {h : Header} (m : Matches ih h) (ok : h.Ok) {plte trns : Option (List UInt8)}
    (hp : PaletteOk h plte trns) {rows : List (List UInt8)} (hrows : rows.length = h.height) {raw : List UInt8}
    (hr : RowsOk raw rows h.rowBytes) :
    ∃ px, convert ih raw (plte.map paletteOf) trns = .ok px ∧
      Shows h (plte.getD []) (trns.getD []) rows (outputType ih trns).bytesPerPixel px :=
  convert_loose m ok hp.whole hp.needed
    (fun c => (List.take_of_length_le (by have := hp.trns c; omega)).symm) hrows hr

end Pixo.PngDecode
