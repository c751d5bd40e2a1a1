import Verif.Model.PngDecode32
import Verif.Proof.PngDecode
import Verif.Props.PngDecode
import Verif.Proof.PngSound
/-
C106: decoding PNG on machines with a `usize` of 32 bits.
-/
namespace Pixo.Props.PngDecode32
open Pixo Pixo.PngDecode Pixo.PngDecode32
open Pixo.Resize32 (w32 slice32 alloc32)
open Pixo.MatchLength (slice)
open Spec.Png (be32)

theorem w32_id {n : Nat} (h : n < 2 ^ 32) : w32 n = n := Nat.mod_eq_of_lt h

theorem bind_parts {α β : Type} {x : R α} {f : α → R β} {b : β} (h : (x >>= f) = .ok b) : ∃ a, x = .ok a ∧ f a = .ok b := by
  cases x with
  | error e => cases h
  | ok a => exact ⟨a, rfl, h⟩

/-- The first result is the second, or a panic of something that does not fit. -/
def Agree {α : Type} (fits : Prop) (x y : R α) : Prop := x = y ∨ (x = .error .panic ∧ ¬ fits)

theorem Agree.refl {α : Type} {fits : Prop} (x : R α) : Agree fits x x := Or.inl rfl

theorem Agree.bind {α β : Type} {fits : Prop} {x y : R α} {f g : α → R β} (h : Agree fits x y)
    (hf : ∀ a, y = .ok a → Agree fits (f a) (g a)) : Agree fits (x >>= f) (y >>= g) := by
  rcases h with rfl | ⟨rfl, hn⟩
  · cases hx : x with
    | error e => exact Or.inl rfl
    | ok a => rw [ok_bind, ok_bind]; exact hf a hx
  · exact Or.inr ⟨rfl, hn⟩

theorem Agree.alloc {α : Type} {fits : Prop} {n : Nat} {f : Unit → R α} {y : R α} (hn : fits → n < 2 ^ 31) (h : Agree fits (f ()) y) :
    Agree fits (alloc32 n >>= f) y := by
  unfold alloc32
  split
  · exact h
  · rename_i hge
    exact Or.inr ⟨rfl, fun hf => hge (hn hf)⟩

theorem slice32_eq {data : List UInt8} {a n : Nat} (h : a + n < 2 ^ 32) : slice32 data a n = slice data a n := by
  unfold slice32 slice
  rw [w32_id h, show a + n - a = n by omega]
  by_cases hl : a + n ≤ data.length
  · rw [if_pos ⟨by omega, hl⟩, if_pos hl]
  · rw [if_neg (fun h => hl h.2), if_neg hl]

theorem rowLoop32_eq {data : List UInt8} {bpp sb : Nat} : ∀ (n y : Nat) (prev : List UInt8), (y + n) * (1 + sb) < 2 ^ 32 →
    rowLoop32 data bpp sb y n prev = rowLoop data bpp sb y n prev
  | 0, _, _, _ => rfl
  | n + 1, y, prev, h => by
    have h1 : (y + 1) * (1 + sb) ≤ (y + (n + 1)) * (1 + sb) := Nat.mul_le_mul_right _ (by omega)
    rw [Nat.add_mul, Nat.one_mul] at h1
    rw [rowLoop32, rowLoop, w32_id (n := 1 + sb) (by omega), w32_id (n := y * (1 + sb)) (by omega), w32_id (by omega), slice32_eq (by omega)]
    congr 1
    funext ft
    congr 1
    funext rd
    congr 1
    funext row
    rw [rowLoop32_eq n (y + 1) row (by rw [show y + 1 + n = y + (n + 1) by omega]; exact h)]

theorem unpackRows32_eq {data : List UInt8} {w d rb : Nat} : ∀ (n row : Nat), (row + n) * rb < 2 ^ 32 → row + n < 2 ^ 32 →
    unpackRows32 data w d rb row n = unpackRows data w d rb row n
  | 0, _, _, _ => rfl
  | n + 1, row, h, hn => by
    have h1 : (row + 1) * rb ≤ (row + (n + 1)) * rb := Nat.mul_le_mul_right _ (by omega)
    have e : (row + 1) * rb = row * rb + rb := by rw [Nat.add_mul, Nat.one_mul]
    rw [unpackRows32, unpackRows, w32_id (n := row + 1) (by omega), w32_id (n := row * rb) (by omega), w32_id (n := (row + 1) * rb) (by omega),
      unpackRows32_eq n (row + 1) (by rw [show row + 1 + n = row + (n + 1) by omega]; exact h) (by omega), e]
    unfold slice
    by_cases hl : row * rb + rb ≤ data.length
    · rw [if_pos ⟨by omega, hl⟩, if_pos hl, ok_bind, show row * rb + rb - row * rb = rb by omega]
    · rw [if_neg (fun h => hl h.2), if_neg hl]
      rfl

theorem unpackRow_le (p : List UInt8) (w d : Nat) : (unpackRow p w d).length ≤ w := by
  unfold unpackRow
  rw [List.length_take]
  exact Nat.min_le_left _ _

theorem unpackRows_le {data : List UInt8} {w d rb : Nat} : ∀ (n row : Nat) (r : List UInt8), unpackRows data w d rb row n = .ok r → r.length ≤ n * w
  | 0, _, r, h => by cases h; simp
  | n + 1, row, r, h => by
    rw [unpackRows] at h
    obtain ⟨rd, _, h⟩ := bind_parts h
    obtain ⟨rest, hr, h⟩ := bind_parts h
    cases h
    have := unpackRows_le n (row + 1) rest hr
    have := unpackRow_le rd w d
    rw [List.length_append, Nat.succ_mul]
    omega

theorem flatMap_len {α : Type} (f : α → List UInt8) (k : Nat) (h : ∀ a, (f a).length = k) (l : List α) : (l.flatMap f).length = l.length * k := by
  induction l with
  | nil => simp
  | cons a l ih => rw [List.flatMap_cons, List.length_append, ih, h, List.length_cons, Nat.succ_mul]; omega

theorem depth_le {ih : Ihdr} (v : Valid ih) : ih.depth ≤ 16 := by
  have := v.depth
  unfold validDepth at this
  cases hk : ih.kind <;> rw [hk] at this <;> simp at this <;> omega

/-- The scanlines with their filter bytes, and the pixels, are less than `2^31` bytes each. -/
def FitsIhdr (h : Ihdr) (t : Option (List UInt8)) : Prop :=
  (1 + (layout h).2) * h.height < 2 ^ 31 ∧ h.width * h.height * (outputType h t).bytesPerPixel < 2 ^ 31

theorem fits_area {h : Ihdr} {t : Option (List UInt8)} (hf : FitsIhdr h t) : h.width * h.height < 2 ^ 31 := by
  have h1 := hf.2
  have h2 : h.width * h.height * 1 ≤ h.width * h.height * (outputType h t).bytesPerPixel :=
    Nat.mul_le_mul_left _ (by cases outputType h t <;> decide)
  omega

theorem width_depth {h : Ihdr} (v : Valid h) : h.width * h.depth ≤ 2 ^ 24 * 16 := Nat.mul_le_mul v.w (depth_le v)

theorem scanline_same {h : Ihdr} (v : Valid h) : scanlineBytes32 h = scanlineBytes h := by
  have h1 := width_depth v
  have h2 := v.w
  have h3 : ∀ k, k ≤ 4 → w32 (w32 (h.width * k) * h.depth) = h.width * k * h.depth := by
    intro k hk
    have : h.width * k * h.depth ≤ 2 ^ 24 * 4 * 16 := Nat.mul_le_mul (Nat.mul_le_mul h2 hk) (depth_le v)
    have : h.width * k ≤ 2 ^ 24 * 4 := Nat.mul_le_mul h2 hk
    rw [w32_id (n := h.width * k) (by omega), w32_id (by omega)]
  unfold scanlineBytes32 scanlineBytes
  cases h.kind <;> simp only
  · rw [w32_id (by omega)]
  · rw [h3 3 (by omega)]
  · rw [w32_id (by omega)]
  · rw [h3 2 (by omega)]
  · rw [h3 4 (by omega)]

theorem layout_same {h : Ihdr} (v : Valid h) : layout32 h = layout h := by
  have h1 := width_depth v
  have hd := depth_le v
  have h3 : ∀ k, k ≤ 4 → w32 (k * h.depth) = k * h.depth ∧ w32 (h.width * (k * h.depth / 8)) = h.width * (k * h.depth / 8) := by
    intro k hk
    have a : k * h.depth ≤ 4 * 16 := Nat.mul_le_mul hk hd
    have b : h.width * (k * h.depth / 8) ≤ 2 ^ 24 * 8 := Nat.mul_le_mul v.w (by omega)
    exact ⟨w32_id (by omega), w32_id (by omega)⟩
  unfold layout32 layout
  cases h.kind <;> simp only
  · rw [w32_id (by omega)]
  · rw [(h3 3 (by omega)).1, (h3 3 (by omega)).2]
  · rw [w32_id (by omega)]
  · rw [(h3 2 (by omega)).1, (h3 2 (by omega)).2]
  · rw [(h3 4 (by omega)).1, (h3 4 (by omega)).2]

theorem layout_le {h : Ihdr} (v : Valid h) : (layout h).2 ≤ 8 * h.width := by
  have hd := depth_le v
  have h1 : h.width * h.depth ≤ h.width * 16 := Nat.mul_le_mul_left _ hd
  have h3 : ∀ k, k ≤ 4 → h.width * (k * h.depth / 8) ≤ 8 * h.width := by
    intro k hk
    have a : k * h.depth ≤ 4 * 16 := Nat.mul_le_mul hk hd
    rw [Nat.mul_comm 8]
    exact Nat.mul_le_mul_left _ (by omega)
  unfold layout ceil8
  cases h.kind <;> simp only
  · omega
  · exact h3 3 (by omega)
  · omega
  · exact h3 2 (by omega)
  · exact h3 4 (by omega)

theorem scanline_layout {h : Ihdr} (v : Valid h) : scanlineBytes h = (layout h).2 := by
  rw [layout_eq (headerOf_matches h) v.ok, scanlineBytes_eq (headerOf_matches h) v.ok]

theorem unpack_agree {h : Ihdr} {t : Option (List UInt8)} (v : Valid h) {raw : List UInt8} (hr : h.height * ceil8 (h.width * h.depth) < 2 ^ 32) :
    Agree (FitsIhdr h t) (unpack32 raw h.width h.height h.depth) (unpackRows raw h.width h.depth (ceil8 (h.width * h.depth)) 0 h.height) := by
  have h1 := width_depth v
  have h2 := v.h
  unfold unpack32
  refine Agree.alloc (fun hf => ?_) ?_
  · have := fits_area hf
    rw [w32_id (by omega)]
    omega
  · rw [w32_id (n := h.width * h.depth) (by omega), unpackRows32_eq _ _ (by rw [Nat.zero_add]; exact hr) (by omega)]
    cases hx : unpackRows raw h.width h.depth (ceil8 (h.width * h.depth)) 0 h.height with
    | error e => exact Or.inl rfl
    | ok s =>
      rw [ok_bind]
      refine Agree.alloc (fun hf => ?_) (Agree.refl _)
      have := fits_area hf
      have := unpackRows_le _ _ _ hx
      rw [Nat.mul_comm] at this
      omega

theorem convert_agree {h : Ihdr} (v : Valid h) {raw : List UInt8} (hr : h.height * (layout h).2 < 2 ^ 32)
    (p : Option (List (UInt8 × UInt8 × UInt8))) (t : Option (List UInt8)) :
    Agree (FitsIhdr h t) (convert32 h raw p t) (convert h raw p t) := by
  unfold convert32 convert
  cases hk : h.kind <;> simp only
  · split
    · exact Agree.refl _
    split
    · exact Agree.refl _
    · unfold unpackGray
      refine Agree.bind (unpack_agree v ?_) fun s _ => Agree.refl _
      simpa [layout, hk] using hr
  · exact Agree.refl _
  · cases p with
    | none => exact Agree.refl _
    | some p =>
      simp only
      unfold convertIndexed32 convertIndexed unpackIndices
      refine Agree.bind (unpack_agree v ?_) fun s hs => ?_
      · simpa [layout, hk] using hr
      · have hl := unpackRows_le _ _ _ hs
        rw [Nat.mul_comm] at hl
        split
        · rename_i ha
          have hch : (outputType h t).bytesPerPixel = 4 := by
            unfold outputType
            rw [hk]
            simp only
            rw [if_pos ha]
            rfl
          refine Agree.alloc (fun hf => ?_) (Agree.alloc (fun hf => ?_) (Agree.refl _))
          · have := hf.2
            rw [hch] at this
            rw [w32_id (n := h.width * h.height) (by omega), w32_id (by omega)]
            exact this
          · have := hf.2
            rw [hch] at this
            rw [flatMap_len _ 4 (expandRgba_length _ _)]
            omega
        · rename_i ha
          have hch : (outputType h t).bytesPerPixel = 3 := by
            unfold outputType
            rw [hk]
            simp only
            rw [if_neg ha]
            rfl
          refine Agree.alloc (fun hf => ?_) (Agree.alloc (fun hf => ?_) (Agree.refl _))
          · have := hf.2
            rw [hch] at this
            rw [w32_id (n := h.width * h.height) (by omega), w32_id (by omega)]
            exact this
          · have := hf.2
            rw [hch] at this
            rw [flatMap_len _ 3 (expandRgb_length _)]
            omega
  · exact Agree.refl _
  · exact Agree.refl _

theorem reconstruct_agree {h : Ihdr} (v : Valid h) {raw : List UInt8} (hr : h.height * (1 + (layout h).2) < 2 ^ 32)
    (p : Option (List (UInt8 × UInt8 × UInt8))) (t : Option (List UInt8)) :
    Agree (FitsIhdr h t) (reconstruct32 h raw p t) (reconstruct h raw p t) := by
  have hle := layout_le v
  have hw := v.w
  have h0 := v.h0
  have hsb : h.height * (layout h).2 ≤ h.height * (1 + (layout h).2) := Nat.mul_le_mul_left _ (by omega)
  unfold reconstruct32 reconstruct
  rw [layout_same v]
  generalize hlay : layout h = lay at *
  obtain ⟨bpp, sb⟩ := lay
  simp only at *
  rw [w32_id (n := 1 + sb) (by omega), w32_id hr]
  split
  · exact Agree.refl _
  · refine Agree.alloc (fun _ => by omega) (Agree.alloc (fun hf => ?_) ?_)
    · rw [w32_id (by omega)]
      have := hf.1
      rw [hlay, Nat.mul_comm] at this
      exact Nat.lt_of_le_of_lt hsb this
    · rw [rowLoop32_eq _ _ _ (by rw [Nat.zero_add]; exact hr)]
      refine Agree.bind (Agree.refl _) fun raw _ => convert_agree v ?_ p t
      rw [hlay]
      exact Nat.lt_of_le_of_lt hsb hr

theorem expected_same {h : Ihdr} (v : Valid h) :
    expectedSize h = .ok ((1 + (layout h).2) * h.height) ∧
    expectedSize32 h = if (1 + (layout h).2) * h.height < 2 ^ 32 then .ok ((1 + (layout h).2) * h.height) else .error .invalid := by
  have hle := layout_le v
  have hw := v.w
  constructor
  · rw [expectedSize_ok v, layout_eq (headerOf_matches h) v.ok]
  · unfold expectedSize32
    rw [scanline_same v, scanline_layout v, w32_id (by omega)]

theorem finish_agree (adler : List UInt8 → Nat) (c : Chunks) (h : Ihdr) (hc : c.ihdr = some h) :
    Agree (FitsIhdr h c.trns) (finish32 adler c) (finish adler c) ∨ (finish32 adler c = .error .invalid ∧ ¬ FitsIhdr h c.trns) := by
  unfold finish32 finish
  rw [hc]
  simp only
  rcases validate_cases h with ⟨ev, v, -⟩ | ⟨e, ev, -⟩
  · rw [ev, ok_bind, ok_bind]
    obtain ⟨e1, e2⟩ := expected_same v
    split
    · exact Or.inl (Agree.refl _)
    · rw [e1, e2, ok_bind]
      by_cases hlt : (1 + (layout h).2) * h.height < 2 ^ 32
      · rw [if_pos hlt, ok_bind]
        have hrest : Agree (FitsIhdr h c.trns) (Inflate.inflateZlib adler c.idat (some ((1 + (layout h).2) * h.height)) >>= fun raw =>
              reconstruct32 h raw c.palette c.trns >>= fun pixels => pure ⟨h.width, h.height, pixels, outputType h c.trns⟩)
            (Inflate.inflateZlib adler c.idat (some ((1 + (layout h).2) * h.height)) >>= fun raw =>
              reconstruct h raw c.palette c.trns >>= fun pixels => pure (⟨h.width, h.height, pixels, outputType h c.trns⟩ : PngImage)) :=
          Agree.bind (Agree.refl _) fun raw _ => Agree.bind (reconstruct_agree v (by rw [Nat.mul_comm]; exact hlt) _ _) fun _ _ => Agree.refl _
        cases hr : Inflate.reserve c.idat (some ((1 + (layout h).2) * h.height)) with
        | none => exact Or.inl hrest
        | some n =>
          have := inflate_reserve_some hr
          exact Or.inl (Agree.alloc (fun hf => this ▸ hf.1) hrest)
      · rw [if_neg hlt]
        exact Or.inr ⟨rfl, fun hf => hlt (Nat.lt_trans hf.1 (by decide))⟩
  · rw [ev]
    exact Or.inl (Agree.refl _)

theorem alloc32_ok {α : Type} {n : Nat} {f : Unit → R α} {b : α} (h : (alloc32 n >>= f) = .ok b) : n < 2 ^ 31 ∧ f () = .ok b := by
  unfold alloc32 at h
  split at h
  · rename_i hn
    exact ⟨hn, h⟩
  · cases h

theorem reserve_of_ok {sum : List UInt8 → Nat} {data out : List UInt8} {n : Nat} (h : Inflate.inflateZlib sum data (some n) = .ok out) :
    Inflate.reserve data (some n) = some n := by
  unfold Inflate.inflateZlib at h
  unfold Inflate.reserve
  split at h
  · split at h
    · cases h
    · rename_i h1
      rw [if_neg h1]
      split at h
      · cases h
      · rename_i h2
        rw [if_neg h2]
        split at h
        · cases h
        · rename_i h3
          rw [if_neg h3]
          split at h
          · cases h
          · rename_i h4
            rw [if_neg h4]
            rfl
  · cases h

/-- At eight bits or more a sample, the scanlines have no fewer bytes than the pixels. -/
theorem pixels_le {h : Ihdr} (t : Option (List UInt8)) (hd : 8 ≤ h.depth) (hk : h.kind ≠ .indexed) :
    h.width * h.height * (outputType h t).bytesPerPixel ≤ h.height * (layout h).2 := by
  rw [Nat.mul_comm h.width, Nat.mul_assoc]
  refine Nat.mul_le_mul_left _ ?_
  have hw : ∀ k, h.width * k ≤ h.width * (k * h.depth / 8) := fun k => Nat.mul_le_mul_left _ (by
    have : k * 8 ≤ k * h.depth := Nat.mul_le_mul_left _ hd
    omega)
  have h8 : h.width * 8 ≤ h.width * h.depth := Nat.mul_le_mul_left _ hd
  unfold outputType layout ceil8
  cases hk' : h.kind <;> simp only [ColorType.bytesPerPixel]
  · omega
  · exact hw 3
  · exact absurd hk' hk
  · exact hw 2
  · exact hw 4

/-- What is made with 32 bits fits. -/
theorem finish_fits {sum : List UInt8 → Nat} {c : Chunks} {h : Ihdr} (hc : c.ihdr = some h) {img : PngImage} (hok : finish32 sum c = .ok img)
    (hlen : img.pixels.length = h.width * h.height * (outputType h c.trns).bytesPerPixel) : FitsIhdr h c.trns := by
  unfold finish32 at hok
  rw [hc] at hok
  simp only at hok
  rcases validate_cases h with ⟨ev, v, -⟩ | ⟨e, ev, -⟩
  · rw [ev, ok_bind] at hok
    split at hok
    · cases hok
    · obtain ⟨-, e2⟩ := expected_same v
      rw [e2] at hok
      split at hok
      · rename_i hlt
        rw [ok_bind] at hok
        have hboth : ∃ raw, (1 + (layout h).2) * h.height < 2 ^ 31 ∧ (reconstruct32 h raw c.palette c.trns >>= fun pixels =>
            pure (⟨h.width, h.height, pixels, outputType h c.trns⟩ : PngImage)) = .ok img := by
          split at hok
          · rename_i n hres
            obtain ⟨hn, hok⟩ := alloc32_ok hok
            obtain ⟨raw, hz, hok⟩ := bind_parts hok
            rw [inflate_reserve_some hres] at hn
            exact ⟨raw, hn, hok⟩
          · rename_i hres
            rw [ok_bind] at hok
            obtain ⟨raw, hz, hok⟩ := bind_parts hok
            rw [reserve_of_ok hz] at hres
            cases hres
        obtain ⟨raw, h1, hok⟩ := hboth
        refine ⟨h1, ?_⟩
        obtain ⟨px, hrec, hok⟩ := bind_parts hok
        cases hok
        simp only at hlen
        have h2 : h.height * (layout h).2 < 2 ^ 31 := by
          rw [Nat.mul_comm]
          exact Nat.lt_of_le_of_lt (Nat.mul_le_mul_right _ (by omega)) h1
        by_cases hsmall : 8 ≤ h.depth ∧ h.kind ≠ .indexed
        · exact Nat.lt_of_le_of_lt (pixels_le _ hsmall.1 hsmall.2) h2
        · rw [← hlen]
          unfold reconstruct32 at hrec
          simp only at hrec
          split at hrec
          · cases hrec
          · obtain ⟨-, hrec⟩ := alloc32_ok hrec
            obtain ⟨-, hrec⟩ := alloc32_ok hrec
            obtain ⟨flat, -, hrec⟩ := bind_parts hrec
            unfold convert32 at hrec
            cases hk : h.kind <;> rw [hk] at hrec <;> simp only at hrec
            · rw [if_neg (by intro e; exact hsmall ⟨by omega, by rw [hk]; simp⟩),
                if_neg (by intro e; exact hsmall ⟨by omega, by rw [hk]; simp⟩)] at hrec
              obtain ⟨s, hs, hrec⟩ := bind_parts hrec
              cases hrec
              unfold unpack32 at hs
              obtain ⟨-, hs⟩ := alloc32_ok hs
              obtain ⟨s', -, hs⟩ := bind_parts hs
              obtain ⟨hlt, hs⟩ := alloc32_ok hs
              cases hs
              rw [List.length_map]
              exact hlt
            · have := v.depth
              unfold validDepth at this
              rw [hk] at this
              simp at this
              exact absurd ⟨by omega, by rw [hk]; simp⟩ hsmall
            · split at hrec
              · unfold convertIndexed32 at hrec
                obtain ⟨s, -, hrec⟩ := bind_parts hrec
                split at hrec
                · obtain ⟨-, hrec⟩ := alloc32_ok hrec
                  obtain ⟨hlt, hrec⟩ := alloc32_ok hrec
                  cases hrec
                  exact hlt
                · obtain ⟨-, hrec⟩ := alloc32_ok hrec
                  obtain ⟨hlt, hrec⟩ := alloc32_ok hrec
                  cases hrec
                  exact hlt
              · cases hrec
            · have := v.depth
              unfold validDepth at this
              rw [hk] at this
              simp at this
              exact absurd ⟨by omega, by rw [hk]; simp⟩ hsmall
            · have := v.depth
              unfold validDepth at this
              rw [hk] at this
              simp at this
              exact absurd ⟨by omega, by rw [hk]; simp⟩ hsmall
      · cases hok
  · rw [ev] at hok
    cases hok

/-- A chunk whose length does not fit is an error with 64 bits and a panic with 32; all else is the same. -/
theorem chunk_cases (data : List UInt8) (hd : data.length < 2 ^ 31) : ∀ (fuel pos : Nat) (c : Chunks), pos ≤ data.length →
    chunkLoop32 data fuel pos c = chunkLoop data fuel pos c ∨
      (chunkLoop32 data fuel pos c = .error .panic ∧ chunkLoop data fuel pos c = .error .invalid)
  | 0, _, _, _ => Or.inl rfl
  | fuel + 1, pos, c, hp => by
    rw [chunkLoop32, chunkLoop, w32_id (n := pos + 12) (by omega)]
    by_cases h12 : pos + 12 ≤ data.length
    · rw [if_pos h12, if_pos h12]
      obtain ⟨len, el, hlen⟩ := readBe32_eq (data := data) (pos := pos) (by omega)
      rw [el, ok_bind, ok_bind, w32_id (n := pos + 4) (by omega), slice32_eq (by omega), (slice_safe (by omega)).1, ok_bind, ok_bind,
        w32_id (n := pos + 8) (by omega)]
      simp only
      by_cases hbig : pos + 8 + len + 4 < 2 ^ 32
      · rw [w32_id (n := pos + 8 + len) (by omega), w32_id hbig]
        by_cases hl : pos + 8 + len + 4 > data.length
        · rw [if_pos hl, if_pos hl]
          exact Or.inl rfl
        · rw [if_neg hl, if_neg hl, slice32_eq (by omega), (slice_safe (by omega)).1, ok_bind, ok_bind]
          obtain ⟨crc, ec, -⟩ := readBe32_eq (data := data) (pos := pos + 8 + len) (by omega)
          rw [ec, ok_bind, ok_bind]
          split
          · exact Or.inl rfl
          split
          · exact Or.inl rfl
          · cases ha : c.add ((data.drop (pos + 4)).take 4) ((data.drop (pos + 8)).take len) with
            | error e => exact Or.inl rfl
            | ok c' =>
              rw [ok_bind, ok_bind]
              exact chunk_cases data hd fuel _ c' (by omega)
      · have hbad : slice32 data (pos + 8) len = .error .panic := by
          unfold slice32
          rw [if_neg]
          unfold w32
          omega
        refine Or.inr ⟨?_, ?_⟩
        · rw [if_neg (by unfold w32; omega), hbad]
          rfl
        · rw [if_pos (by omega)]
    · rw [if_neg h12, if_neg h12]
      exact Or.inl rfl

/-! ## C106 -/

/-- The image, at eight bytes for each pixel and one for each row (the most its scanlines can have), is less than `2^31` bytes. -/
def Fits (img : PngImage) : Prop := img.height * (8 * img.width + 1) < 2 ^ 31

/-- C106: no file of less than `2^31` bytes is decoded to another image with 32 bits: what is decoded is what is decoded with 64 bits. -/
theorem C106_never_wrong (adler : List UInt8 → Nat) (data : List UInt8) (hd : data.length < 2 ^ 31) (img : PngImage)
    (h : decodePng32 adler data = .ok img) : decodePng adler data = .ok img := by
  unfold decodePng32 at h
  unfold decodePng
  split at h
  · cases h
  · rename_i hs
    rw [if_neg hs]
    obtain ⟨c, hc, h⟩ := bind_parts h
    rcases chunk_cases data hd (data.length + 1) 8 ⟨none, [], none, none⟩ (by omega) with e | ⟨e, -⟩
    · rw [← e, hc, ok_bind]
      cases hi : c.ihdr with
      | none =>
        unfold finish32 at h
        rw [hi] at h
        cases h
      | some ih =>
        rcases finish_agree adler c ih hi with (e | ⟨e, -⟩) | ⟨e, -⟩
        · rw [← e, h]
        · rw [e] at h; cases h
        · rw [e] at h; cases h
    · rw [e] at hc
      cases hc

/-- C106: every file of less than `2^31` bytes that is decoded with 64 bits is decoded to the same image if that fits. -/
theorem C106_same (adler : List UInt8 → Nat) (data : List UInt8) (hd : data.length < 2 ^ 31) (img : PngImage)
    (h : decodePng adler data = .ok img) (hf : Fits img) : decodePng32 adler data = .ok img := by
  unfold decodePng at h
  unfold decodePng32
  split at h
  · cases h
  · rename_i hs
    rw [if_neg hs]
    obtain ⟨c, hc, h⟩ := bind_parts h
    rcases chunk_cases data hd (data.length + 1) 8 ⟨none, [], none, none⟩ (by omega) with e | ⟨-, e⟩
    · rw [e, hc, ok_bind]
      cases hi : c.ihdr with
      | none =>
        unfold finish at h
        rw [hi] at h
        cases h
      | some ih =>
        have hfi : FitsIhdr ih c.trns := by
          have h' := h
          unfold finish at h'
          rw [hi] at h'
          simp only at h'
          obtain ⟨u, hv, h'⟩ := bind_parts h'
          split at h'
          · cases h'
          · obtain ⟨_, _, h'⟩ := bind_parts h'
            obtain ⟨_, _, h'⟩ := bind_parts h'
            obtain ⟨_, _, h'⟩ := bind_parts h'
            cases h'
            rcases validate_cases ih with ⟨-, v, -⟩ | ⟨e, ev, -⟩
            · unfold Fits at hf
              simp only at hf
              have h1 := layout_le v
              constructor
              · rw [Nat.mul_comm]
                exact Nat.lt_of_le_of_lt (Nat.mul_le_mul_left _ (by omega)) hf
              · have h2 : ih.width * ih.height * (outputType ih c.trns).bytesPerPixel ≤ ih.width * ih.height * 8 :=
                  Nat.mul_le_mul_left _ (by cases outputType ih c.trns <;> decide)
                have : ih.height * (8 * ih.width + 1) = ih.width * ih.height * 8 + ih.height := by
                  rw [Nat.mul_add, Nat.mul_one, Nat.mul_left_comm, Nat.mul_comm ih.height, Nat.mul_comm 8]
                omega
            · rw [ev] at hv
              cases hv
        rcases finish_agree adler c ih hi with (e | ⟨-, e⟩) | ⟨-, e⟩
        · rw [e, h]
        · exact absurd hfi e
        · exact absurd hfi e
    · rw [e] at hc
      cases hc

open Spec.Png (Framed Header dataOf IHDR IDAT) in
/-- The header of a file that is decoded, and the size of its image. -/
theorem decoded_header {sum : List UInt8 → Nat} {data : List UInt8} {img : PngImage} (h : decodePng sum data = .ok img) :
    ∃ c ih cs fin tail, chunkLoop data (data.length + 1) 8 ⟨none, [], none, none⟩ = .ok c ∧ finish sum c = .ok img ∧ c.ihdr = some ih ∧ Valid ih ∧
      Framed data cs fin tail ∧ (dataOf IHDR cs).getLast? = some (headerOf ih).bytes ∧
      img.pixels.length = ih.width * ih.height * (outputType ih c.trns).bytesPerPixel := by
  unfold decodePng at h
  split at h
  · cases h
  rename_i h8
  have hlen : 8 ≤ data.length := by
    rcases Nat.lt_or_ge data.length 8 with hh | hh
    · exact absurd (Or.inl hh) h8
    · exact hh
  have hsig : data.take 8 = Spec.Png.signature := Classical.byContradiction fun hn => h8 (Or.inr hn)
  obtain ⟨st, hc, h⟩ := bind_parts h
  obtain ⟨cs, fin, tail, c1, c2, c3, c4, c5⟩ := chunkLoop_sound _ _ _ _ hlen hc
  obtain ⟨p, hst⟩ := (addAll_iff _ _ _).1 c5
  obtain ⟨r1, r2, r3⟩ := addAny_rest cs
  rw [← hst] at r1 r2 r3
  obtain ⟨p1, p2⟩ := (passes_iff cs).1 p
  obtain ⟨ih, rows, scan, f1, f2, f3, f4, v, f5, f6, f7, f8, f9⟩ := finish_sound h r2
    (fun d hd => p2 d (List.mem_of_getLast? hd))
  have hh : (dataOf IHDR cs).getLast? = some (headerOf ih).bytes := by
    rw [r1] at f1
    cases hg : (dataOf IHDR cs).getLast? with
    | none => rw [hg] at f1; cases f1
    | some d =>
      rw [hg, Option.bind_some] at f1
      cases hp : parseIhdr d with
      | error e => rw [hp] at f1; cases f1
      | ok ih' =>
        rw [hp] at f1
        cases f1
        rw [parseIhdr_bytes hp f2 f3 f4]
  rw [r1] at f1
  refine ⟨st, ih, cs, fin, tail, hc, h, by rw [r1]; exact f1, v, ⟨?_, c2, c3, c4⟩, hh, ?_⟩
  · rw [List.append_assoc, ← c1, ← hsig, List.take_append_drop]
  · rw [f9.length, f9.wide, f9.high, f9.planes, outputType_channels (headerOf_matches ih) v.ok]
    rfl

open Spec.Png (Header) in
theorem header_unique {a b : Header} (ha : a.Ok) (hb : b.Ok) (h : a.bytes = b.bytes) : a = b := by
  unfold Header.bytes at h
  have l : ∀ n, (be32 n).length = 4 := fun n => rfl
  rw [List.append_assoc, List.append_assoc] at h
  obtain ⟨h1, h⟩ := List.append_inj h (by rw [l, l])
  obtain ⟨h2, h⟩ := List.append_inj h (by rw [l, l])
  have e1 := be32_inj (by have := ha.2.1; omega) (by have := hb.2.1; omega) h1
  have e2 := be32_inj (by have := ha.2.2.2.1; omega) (by have := hb.2.2.2.1; omega) h2
  simp only [List.cons.injEq, and_true] at h
  have small : ∀ c : Header, c.Ok → c.depth < 256 ∧ c.colour < 256 := by
    rintro c ⟨-, -, -, -, h⟩
    simp only [List.mem_cons, List.not_mem_nil, or_false] at h
    omega
  have inj : ∀ m n : Nat, m < 256 → n < 256 → UInt8.ofNat m = UInt8.ofNat n → m = n := by
    intro m n hm hn e
    have := congrArg UInt8.toNat e
    rwa [UInt8.toNat_ofNat', UInt8.toNat_ofNat', Nat.mod_eq_of_lt hm, Nat.mod_eq_of_lt hn] at this
  have e3 := inj _ _ (small a ha).1 (small b hb).1 h.1
  have e4 := inj _ _ (small a ha).2 (small b hb).2 h.2
  cases a
  cases b
  simp only at e1 e2 e3 e4
  rw [e1, e2, e3, e4]

open Spec.Png (Framed Header dataOf IHDR) in
/-- C106, exactly what is decoded with 32 bits, for files of less than `2^31` bytes: what is decoded with 64 bits, to less than `2^31` bytes, from
scanlines that with their filter bytes are less than `2^31` bytes. -/
theorem C106_exact (adler : List UInt8 → Nat) (data : List UInt8) (hd : data.length < 2 ^ 31) (img : PngImage) :
    decodePng32 adler data = .ok img ↔
      decodePng adler data = .ok img ∧ img.pixels.length < 2 ^ 31 ∧
      ∃ cs fin tail h, Framed data cs fin tail ∧ Header.Ok h ∧ (dataOf IHDR cs).getLast? = some h.bytes ∧ h.height * (1 + h.rowBytes) < 2 ^ 31 := by
  have run : ∀ c, chunkLoop data (data.length + 1) 8 ⟨none, [], none, none⟩ = .ok c → decodePng adler data = .ok img →
      decodePng32 adler data = finish32 adler c := by
    intro c hc h
    unfold decodePng at h
    unfold decodePng32
    split at h
    · cases h
    · rename_i hs
      rw [if_neg hs]
      rcases chunk_cases data hd (data.length + 1) 8 ⟨none, [], none, none⟩ (by omega) with e | ⟨-, e⟩
      · rw [e, hc, ok_bind]
      · rw [e] at hc
        cases hc
  constructor
  · intro h
    have h64 := C106_never_wrong adler data hd img h
    obtain ⟨c, ih, cs, fin, tail, hc, hfin, hi, v, hfr, hlast, hlen⟩ := decoded_header h64
    rw [run c hc h64] at h
    obtain ⟨f1, f2⟩ := finish_fits hi h hlen
    refine ⟨h64, by rw [hlen]; exact f2, cs, fin, tail, headerOf ih, hfr, v.ok, hlast, ?_⟩
    rw [layout_eq (headerOf_matches ih) v.ok, Nat.mul_comm] at f1
    exact f1
  · rintro ⟨h64, hpx, cs', fin', tail', h', hfr', hok', hlast', hsize⟩
    obtain ⟨c, ih, cs, fin, tail, hc, hfin, hi, v, hfr, hlast, hlen⟩ := decoded_header h64
    rw [run c hc h64]
    obtain ⟨e, -, -⟩ := framed_unique hfr hfr'
    rw [← e, hlast] at hlast'
    have eh := header_unique v.ok hok' (Option.some.inj hlast')
    have hf : FitsIhdr ih c.trns := by
      refine ⟨?_, by rw [← hlen]; exact hpx⟩
      rw [layout_eq (headerOf_matches ih) v.ok, Nat.mul_comm]
      rw [← eh] at hsize
      exact hsize
    rcases finish_agree adler c ih hi with (e | ⟨-, e⟩) | ⟨-, e⟩
    · rw [e, hfin]
    · exact absurd hf e
    · exact absurd hf e

/-- C106 fails: every file of 20 to `2^31 - 1` bytes whose first length is among the last 20 of 32 bits is an error with 64 bits, and a panic
with 32, where the end of the chunk wraps around. -/
theorem C106_panic (adler : List UInt8 → Nat) (rest : List UInt8) (length : Nat) (hl : 2 ^ 32 - 20 ≤ length ∧ length < 2 ^ 32)
    (hr : 8 ≤ rest.length ∧ rest.length < 2 ^ 31 - 12) :
    decodePng adler (signature ++ be32 length ++ rest) = .error .invalid ∧
    decodePng32 adler (signature ++ be32 length ++ rest) = .error .panic := by
  generalize hdata : signature ++ be32 length ++ rest = data
  have hlen : data.length = 12 + rest.length := by
    rw [← hdata, List.length_append, List.length_append]
    rfl
  have hsig : ¬ (data.length < 8 ∨ data.take 8 ≠ signature) := by
    rintro (h | h)
    · omega
    · apply h
      rw [← hdata]
      rfl
  have hb : readBe32 data 8 = .ok length := by
    refine readBe32_drop (pre := []) (post := rest) (pos := 8) ?_ hl.2 rfl
    rw [← hdata]
    rfl
  unfold decodePng decodePng32
  rw [if_neg hsig, if_neg hsig]
  constructor
  · rw [chunkLoop, if_pos (by omega), hb, ok_bind, (slice_safe (by omega)).1, ok_bind]
    simp only
    rw [if_pos (by omega)]
    rfl
  · have hbad : slice32 data 16 length = .error .panic := by
      unfold slice32
      rw [if_neg]
      unfold w32
      omega
    rw [chunkLoop32, if_pos (by unfold w32; omega), hb, ok_bind, w32_id (by omega), slice32_eq (by omega), (slice_safe (by omega)).1, ok_bind]
    simp only
    rw [if_neg (by unfold w32; omega), w32_id (by omega), hbad]
    rfl

/-- C106 fails for a file of 20 bytes. -/
theorem C106_violation : ∃ data : List UInt8, data.length = 20 ∧ decodePng Spec.adler32 data = .error .invalid ∧
    decodePng32 Spec.adler32 data = .error .panic :=
  ⟨signature ++ be32 (2 ^ 32 - 1) ++ List.replicate 8 0, by decide, C106_panic _ _ _ (by decide) (by decide)⟩

/-- The hypotheses of `C106_same` and `C106_never_wrong` hold: an image of two by two pixels. -/
example : decodePng32 Spec.adler32 tinyPng = .ok ⟨2, 2, [10, 200, 7, 16], .gray⟩ ∧ Fits ⟨2, 2, [10, 200, 7, 16], .gray⟩ := by
  have hf : Fits ⟨2, 2, [10, 200, 7, 16], .gray⟩ := by unfold Fits; decide
  exact ⟨C106_same _ _ (by decide) _ (by decide +kernel) hf, hf⟩

/-- The conditions of `C106_exact` hold for it. -/
example : ∃ cs fin tail h, Spec.Png.Framed tinyPng cs fin tail ∧ Spec.Png.Header.Ok h ∧
    (Spec.Png.dataOf Spec.Png.IHDR cs).getLast? = some h.bytes ∧ h.height * (1 + h.rowBytes) < 2 ^ 31 :=
  ((C106_exact Spec.adler32 tinyPng (by decide) ⟨2, 2, [10, 200, 7, 16], .gray⟩).1 (by decide +kernel)).2.2

end Pixo.Props.PngDecode32
