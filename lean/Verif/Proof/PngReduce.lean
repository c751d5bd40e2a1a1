import Verif.Proof.PngStored
import Verif.Proof.PngChunks
/-
Colour type reduction and alpha optimisation, pixel by pixel.
-/
namespace Pixo.Png
open Spec Spec.Png
open Pixo.PngDecode (chunksExact highBytes ceil8 flatMap_get flatMap_length flatten_get to8_8)
open Pixo.Palette (getD_lt getChecked_ok)

/-- A colour of the encoder as numbers. -/
def num (c : Palette.Rgba) : Spec.Png.Rgba := ⟨c.1.toNat, c.2.1.toNat, c.2.2.1.toNat, c.2.2.2.toNat⟩

theorem num_inj {c d : Palette.Rgba} (h : num c = num d) : c = d := by
  obtain ⟨a1, a2, a3, a4⟩ := c
  obtain ⟨b1, b2, b3, b4⟩ := d
  simp only [num, Spec.Png.Rgba.mk.injEq, UInt8.toNat_inj] at h
  obtain ⟨rfl, rfl, rfl, rfl⟩ := h
  rfl

/-- The colours of an image. -/
theorem pixels_ok {ct : ColorType} (hct : ct = .rgb ∨ ct = .rgba) {data : List UInt8} {n : Nat}
    (hl : data.length = n * ct.bytesPerPixel) :
    ∃ px, Palette.pixels data ct = .ok px ∧ px.length = n ∧
      ∀ k (hk : k < px.length), num px[k] = pixelOf ct.bytesPerPixel data k := by
  rcases hct with rfl | rfl
  · refine ⟨(List.range n).map fun i => (data.getD (i * 3) 0, data.getD (i * 3 + 1) 0, data.getD (i * 3 + 2) 0, 255),
      ?_, by simp, ?_⟩
    · unfold Palette.pixels
      dsimp only
      rw [chunksExact_eq (k := 3) (n := n) (by decide) hl, List.mapM_map]
      exact Palette.mapM_ok _ fun i _ => rfl
    · intro k hk; simp [num, pixelOf, ColorType.bytesPerPixel, byteAt]
  · refine ⟨(List.range n).map fun i => (data.getD (i * 4) 0, data.getD (i * 4 + 1) 0, data.getD (i * 4 + 2) 0,
      data.getD (i * 4 + 3) 0), ?_, by simp, ?_⟩
    · unfold Palette.pixels
      dsimp only
      rw [chunksExact_eq (k := 4) (n := n) (by decide) hl, List.mapM_map]
      exact Palette.mapM_ok _ fun i _ => rfl
    · intro k hk; simp [num, pixelOf, ColorType.bytesPerPixel, byteAt]

/-- What `build_palette` promises. -/
structure Indexes (p : Nat → Spec.Png.Rgba) (n : Nat) (indexed : List UInt8) (palette : List Palette.Rgba) : Prop where
  len : indexed.length = n
  nodup : palette.Nodup
  le : palette.length ≤ 256
  occurs : ∀ c ∈ palette, ∃ k, k < n ∧ num c = p k
  same : ∀ k, k < n → ∃ c, palette[(indexed.getD k 0).toNat]? = some c ∧ num c = p k

theorem buildPalette_ok {ct : ColorType} (hct : ct = .rgb ∨ ct = .rgba) {data : List UInt8} {w h : Nat}
    (hl : data.length = w * h * ct.bytesPerPixel) (hK : w * h < 2 ^ 30) :
    Oks (Palette.buildPalette data ct w h) fun r =>
      match r with
      | none => ∀ l : List Palette.Rgba,
          (∀ k, k < w * h → ∃ c ∈ l, num c = pixelOf ct.bytesPerPixel data k) → 256 < l.length
      | some r => Indexes (pixelOf ct.bytesPerPixel data) (w * h) r.1 r.2 := by
  obtain ⟨px, e, hpl, hpx⟩ := pixels_ok hct hl
  have e2 : Palette.buildPalette data ct w h = Palette.paletteOfKeys (px.map Palette.key) w h := by
    unfold Palette.buildPalette
    rcases hct with rfl | rfl <;> (dsimp only; rw [e]; rfl)
  rw [e2]
  refine (Palette.paletteOfKeys_ok hpl hK).mono fun r hr => ?_
  cases r with
  | none =>
    dsimp only at hr ⊢
    intro l hl
    refine hr l fun c hc => ?_
    obtain ⟨k, hk, rfl⟩ := List.mem_iff_getElem.mp hc
    obtain ⟨d, hd, he⟩ := hl k (by omega)
    rw [← hpx k hk] at he
    rw [← num_inj he]; exact hd
  | some r =>
    dsimp only at hr ⊢
    refine ⟨by rw [hr.len, hpl], hr.nodup, hr.le, fun c hc => ?_, fun k hk => ?_⟩
    · obtain ⟨k, hk, rfl⟩ := List.mem_iff_getElem.mp ((hr.occurs c).mp hc)
      exact ⟨k, by omega, hpx k hk⟩
    · have hk' : k < px.length := by omega
      refine ⟨px[k], ?_, hpx k hk'⟩
      rw [hr.same k hk', List.getElem?_eq_getElem hk']

/-! ### Analysis -/

/-- Equal red, green and blue. -/
def Gray (c : List UInt8) : Prop := c.getD 0 0 = c.getD 1 0 ∧ c.getD 1 0 = c.getD 2 0

instance (c : List UInt8) : Decidable (Gray c) := inferInstanceAs (Decidable (_ ∧ _))

/-- Alpha 255. -/
def Solid (c : List UInt8) : Prop := c.getD 3 0 = 255

instance (c : List UInt8) : Decidable (Solid c) := inferInstanceAs (Decidable (_ = _))

theorem isGray_eq {c : List UInt8} (h : 3 ≤ c.length) : isGray c = .ok (decide (Gray c)) := by
  unfold isGray
  rw [getChecked_ok 0 (by omega), ok_bind, getChecked_ok 0 (by omega), ok_bind, getChecked_ok 0 (by omega), ok_bind]
  exact congrArg Except.ok (Bool.decide_and ..).symm

theorem grayLoop_ok : ∀ (cs : List (List UInt8)), (∀ c ∈ cs, c.length = 3) →
    Oks (grayLoop cs) fun b => b = true ↔ ∀ c ∈ cs, Gray c
  | [], _ => Oks.ok (by simp)
  | c :: cs, h => by
    rw [grayLoop, isGray_eq (by rw [h c List.mem_cons_self]; omega), ok_bind]
    by_cases hc : Gray c
    · rw [if_pos (by simpa using hc)]
      refine (grayLoop_ok cs fun d hd => h d (List.mem_cons_of_mem _ hd)).mono fun b hb => ?_
      rw [hb, List.forall_mem_cons]
      simp [hc]
    · rw [if_neg (by simpa using hc)]
      refine Oks.pure ?_
      rw [List.forall_mem_cons]
      simp [hc]

theorem analyzeLoop_ok : ∀ (cs : List (List UInt8)) (o g : Bool), (∀ c ∈ cs, c.length = 4) →
    Oks (analyzeLoop cs o g) fun r =>
      (r.1 = true ↔ o = true ∧ ∀ c ∈ cs, Solid c) ∧ (r.2 = true ↔ g = true ∧ ∀ c ∈ cs, Gray c)
  | [], o, g, _ => Oks.ok (by simp)
  | c :: cs, o, g, h => by
    have hl := h c List.mem_cons_self
    have ih := fun o g => analyzeLoop_ok cs o g fun d hd => h d (List.mem_cons_of_mem _ hd)
    rw [analyzeLoop, getChecked_ok 0 (by omega), ok_bind, isGray_eq (by omega), ok_bind]
    simp only [List.forall_mem_cons]
    rw [show decide (c.getD 3 0 = 255) = decide (Solid c) from rfl]
    by_cases h3 : Solid c
    · by_cases hg : Gray c
      · simp only [decide_eq_true h3, decide_eq_true hg, Bool.and_true]
        cases o <;> cases g
        · rw [if_pos (by decide)]; exact Oks.pure (by simp)
        · rw [if_neg (by decide)]; exact (ih false true).mono fun r hr => by rw [hr.1, hr.2]; simp [h3, hg]
        · rw [if_neg (by decide)]; exact (ih true false).mono fun r hr => by rw [hr.1, hr.2]; simp [h3, hg]
        · rw [if_neg (by decide)]; exact (ih true true).mono fun r hr => by rw [hr.1, hr.2]; simp [h3, hg]
      · simp only [decide_eq_true h3, decide_eq_false hg, Bool.and_true, Bool.and_false]
        cases o
        · rw [if_pos (by decide)]; exact Oks.pure (by simp [hg])
        · rw [if_neg (by decide)]; exact (ih true false).mono fun r hr => by rw [hr.1, hr.2]; simp [h3, hg]
    · by_cases hg : Gray c
      · simp only [decide_eq_false h3, decide_eq_true hg, Bool.and_true, Bool.and_false]
        cases g
        · rw [if_pos (by decide)]; exact Oks.pure (by simp [h3])
        · rw [if_neg (by decide)]; exact (ih false true).mono fun r hr => by rw [hr.1, hr.2]; simp [h3, hg]
      · simp only [decide_eq_false h3, decide_eq_false hg, Bool.and_false]
        rw [if_pos (by decide)]; exact Oks.pure (by simp [h3, hg])

theorem mem_chunks {k n : Nat} (hk : 0 < k) {data : List UInt8} (hl : data.length = n * k) {P : List UInt8 → Prop} :
    (∀ c ∈ chunksExact k data, P c) ↔ ∀ i, i < n → P ((List.range k).map fun j => data.getD (i * k + j) 0) := by
  rw [chunksExact_eq hk hl]
  constructor
  · intro h i hi; exact h _ (List.mem_map.mpr ⟨i, List.mem_range.mpr hi, rfl⟩)
  · intro h c hc
    obtain ⟨i, hi, rfl⟩ := List.mem_map.mp hc
    exact h i (List.mem_range.mp hi)

/-- The pixel is gray. -/
def GrayPixel (c : Spec.Png.Rgba) : Prop := c.r = c.g ∧ c.g = c.b

theorem allGray_ok {data : List UInt8} {n : Nat} (hl : data.length = n * 3) :
    Oks (allGrayRgb data) fun b => b = true ↔ ∀ k, k < n → GrayPixel (pixelOf 3 data k) := by
  unfold allGrayRgb
  refine (grayLoop_ok _ ((mem_chunks (by decide) hl).mpr fun i _ => rfl)).mono fun b hb => ?_
  rw [hb, mem_chunks (by decide) hl]
  refine forall_congr' fun k => forall_congr' fun _ => ?_
  exact and_congr UInt8.toNat_inj.symm UInt8.toNat_inj.symm

theorem analyze_ok {data : List UInt8} {n : Nat} (hl : data.length = n * 4) :
    Oks (analyzeRgba data) fun r => (r.1 = true ↔ ∀ k, k < n → (pixelOf 4 data k).a = 255) ∧
      (r.2 = true ↔ ∀ k, k < n → GrayPixel (pixelOf 4 data k)) := by
  unfold analyzeRgba
  refine (analyzeLoop_ok _ true true ((mem_chunks (by decide) hl).mpr fun i _ => rfl)).mono fun b hb => ?_
  rw [hb.1, hb.2, mem_chunks (by decide) hl, mem_chunks (by decide) hl]
  refine ⟨?_, ?_⟩
  · simp only [true_and]
    refine forall_congr' fun k => forall_congr' fun _ => ?_
    exact UInt8.toNat_inj.symm
  · simp only [true_and]
    refine forall_congr' fun k => forall_congr' fun _ => ?_
    exact and_congr UInt8.toNat_inj.symm UInt8.toNat_inj.symm

/-! ### Alpha -/

theorem mapChunks_ok {k n : Nat} (hk : 0 < k) {data : List UInt8} (hl : data.length = n * k)
    {f : List UInt8 → R (List UInt8)} {g : Nat → Nat → UInt8}
    (hf : ∀ i, i < n → f ((List.range k).map fun j => data.getD (i * k + j) 0) = .ok ((List.range k).map (g i))) :
    ∃ out, mapChunks k f data = .ok out ∧ out.length = n * k ∧
      ∀ i j, i < n → j < k → byteAt out (i * k + j) = (g i j).toNat := by
  have e : (chunksExact k data).mapM f = .ok ((List.range n).map fun i => (List.range k).map (g i)) := by
    rw [chunksExact_eq hk hl, List.mapM_map]
    exact Palette.mapM_ok _ fun i hi => hf i (List.mem_range.mp hi)
  have hlen : ∀ a ∈ (List.range n).map (fun i => (List.range k).map (g i)), a.length = k := by
    intro a ha
    obtain ⟨i, -, rfl⟩ := List.mem_map.mp ha
    simp
  have hd : data.drop (data.length / k * k) = [] := by
    rw [hl, Nat.mul_div_cancel _ hk, ← hl]; simp
  refine ⟨((List.range n).map fun i => (List.range k).map (g i)).flatten, ?_, ?_, ?_⟩
  · unfold mapChunks; rw [e, ok_bind, hd, List.append_nil]; rfl
  · rw [PngDecode.flatten_eq_flatMap, flatMap_length (f := id) _ hlen]; simp
  · intro i j hi hj
    have := flatten_get hlen i j hj
    rw [List.getElem?_map, List.getElem?_range hi, Option.map_some, Option.bind_some, List.getElem?_map,
      List.getElem?_range hj, Option.map_some] at this
    exact PngDecode.byteAt_eq this

/-- An invisible pixel cleared, any other kept. -/
def cleared (c : Spec.Png.Rgba) : Spec.Png.Rgba := if c.a = 0 then ⟨0, 0, 0, 0⟩ else c

theorem clear2 (a b : UInt8) : clearPixel 1 [a, b] = .ok (if b = 0 then [0, 0] else [a, b]) := by
  by_cases h : b = 0
  · subst h; rfl
  · show (if b = 0 then _ else _) = _
    rw [if_neg h, if_neg h]; rfl

theorem clear4 (a b c d : UInt8) :
    clearPixel 3 [a, b, c, d] = .ok (if d = 0 then [0, 0, 0, 0] else [a, b, c, d]) := by
  by_cases h : d = 0
  · subst h; rfl
  · show (if d = 0 then _ else _) = _
    rw [if_neg h, if_neg h]; rfl

theorem optimizeAlpha_ok {ct : ColorType} {data : List UInt8} {n : Nat} (hl : data.length = n * ct.bytesPerPixel)
    (on : Bool) : ∃ out, optimizeAlpha data ct on = .ok out ∧ out.length = data.length ∧
      ∀ k, k < n → pixelOf ct.bytesPerPixel out k =
        if on then cleared (pixelOf ct.bytesPerPixel data k) else pixelOf ct.bytesPerPixel data k := by
  unfold optimizeAlpha
  cases on with
  | false => exact ⟨data, rfl, rfl, fun k hk => rfl⟩
  | true =>
    rw [if_pos rfl]
    cases ct with
    | gray =>
      refine ⟨data, rfl, rfl, fun k hk => ?_⟩
      rw [if_pos rfl]; exact (if_neg (show ¬ (255 : Nat) = 0 by decide)).symm
    | rgb =>
      refine ⟨data, rfl, rfl, fun k hk => ?_⟩
      rw [if_pos rfl]; exact (if_neg (show ¬ (255 : Nat) = 0 by decide)).symm
    | grayAlpha =>
      obtain ⟨out, e, ho, hb⟩ := mapChunks_ok (k := 2) (f := clearPixel 1) (by decide) hl
        (g := fun i j => if data.getD (i * 2 + 1) 0 = 0 then 0 else data.getD (i * 2 + j) 0) (fun i hi => by
          show clearPixel 1 [data.getD (i * 2) 0, data.getD (i * 2 + 1) 0] = .ok [_, _]
          rw [clear2]
          by_cases hb : data.getD (i * 2 + 1) 0 = 0
          · simp only [if_pos hb]
          · simp only [if_neg hb]; rfl)
      refine ⟨out, e, by rw [ho, hl]; rfl, fun k hk => ?_⟩
      rw [if_pos rfl]
      show pixelOf 2 out k = cleared (pixelOf 2 data k)
      have h0 := hb k 0 hk (by decide)
      have h1 := hb k 1 hk (by decide)
      by_cases hz : data.getD (k * 2 + 1) 0 = 0
      · simp only [if_pos hz] at h0 h1
        have ha : (pixelOf 2 data k).a = 0 := congrArg UInt8.toNat hz
        unfold cleared
        rw [if_pos ha]
        simp only [pixelOf, h0, h1]; rfl
      · simp only [if_neg hz] at h0 h1
        have ha : (pixelOf 2 data k).a ≠ 0 := fun h => hz (UInt8.toNat_inj.mp h)
        unfold cleared
        rw [if_neg ha]
        simp only [pixelOf, h0, h1]; rfl
    | rgba =>
      obtain ⟨out, e, ho, hb⟩ := mapChunks_ok (k := 4) (f := clearPixel 3) (by decide) hl
        (g := fun i j => if data.getD (i * 4 + 3) 0 = 0 then 0 else data.getD (i * 4 + j) 0) (fun i hi => by
          show clearPixel 3 [data.getD (i * 4) 0, data.getD (i * 4 + 1) 0, data.getD (i * 4 + 2) 0,
            data.getD (i * 4 + 3) 0] = .ok [_, _, _, _]
          rw [clear4]
          by_cases hb : data.getD (i * 4 + 3) 0 = 0
          · simp only [if_pos hb]
          · simp only [if_neg hb]; rfl)
      refine ⟨out, e, by rw [ho, hl]; rfl, fun k hk => ?_⟩
      rw [if_pos rfl]
      show pixelOf 4 out k = cleared (pixelOf 4 data k)
      have h0 := hb k 0 hk (by decide)
      have h1 := hb k 1 hk (by decide)
      have h2 := hb k 2 hk (by decide)
      have h3 := hb k 3 hk (by decide)
      by_cases hz : data.getD (k * 4 + 3) 0 = 0
      · simp only [if_pos hz] at h0 h1 h2 h3
        have ha : (pixelOf 4 data k).a = 0 := congrArg UInt8.toNat hz
        unfold cleared
        rw [if_pos ha]
        simp only [pixelOf, h0, h1, h2, h3]; rfl
      · simp only [if_neg hz] at h0 h1 h2 h3
        have ha : (pixelOf 4 data k).a ≠ 0 := fun h => hz (UInt8.toNat_inj.mp h)
        unfold cleared
        rw [if_neg ha]
        simp only [pixelOf, h0, h1, h2, h3]; rfl

/-! ### Gray depth -/

theorem maxByte_le {m : Nat} (data : List UInt8) : BitDepth.maxByte data ≤ m ↔ ∀ v ∈ data, v.toNat ≤ m := by
  unfold BitDepth.maxByte
  have gen : ∀ (l : List UInt8) (a : Nat),
      l.foldl (fun m b => max m b.toNat) a ≤ m ↔ a ≤ m ∧ ∀ v ∈ l, v.toNat ≤ m := by
    intro l
    induction l with
    | nil => intro a; simp
    | cons v l ih => intro a; rw [List.foldl_cons, ih, List.forall_mem_cons, Nat.max_le, and_assoc]
  rw [gen]; simp

/-- The depth is the least that holds all samples. -/
structure LeastDepth (d n : Nat) (v : Nat → Nat) : Prop where
  mem : d ∈ [1, 2, 4, 8]
  lt : ∀ k, k < n → v k < 2 ^ d
  least : ∀ d' ∈ [1, 2, 4, 8], (∀ k, k < n → v k < 2 ^ d') → d ≤ d'

theorem grayDepth_ok {gray : List UInt8} (hne : gray ≠ []) :
    LeastDepth ((BitDepth.reduceBitDepth gray .gray).getD 8) gray.length (byteAt gray) := by
  have hv : ∀ m, (∀ k, k < gray.length → byteAt gray k < m + 1) ↔ BitDepth.maxByte gray ≤ m := by
    intro m
    rw [maxByte_le]
    constructor
    · intro h v hv
      obtain ⟨k, hk, rfl⟩ := List.mem_iff_getElem.mp hv
      have := h k hk
      unfold byteAt at this
      rw [getD_lt hk] at this; omega
    · intro h k hk
      unfold byteAt
      rw [getD_lt hk]
      have := h _ (List.getElem_mem hk); omega
  have h255 : BitDepth.maxByte gray ≤ 255 := (maxByte_le gray).mpr fun v _ => by have := v.toNat_lt; omega
  have e1 := hv 1
  have e2 := hv 3
  have e4 := hv 15
  have e8 := hv 255
  unfold BitDepth.reduceBitDepth BitDepth.reduceGray
  dsimp only
  rw [if_neg (by simpa using hne)]
  have bound : ∀ d d' : Nat, d' ∈ [1, 2, 4, 8] → (∀ k, k < gray.length → byteAt gray k < 2 ^ d') →
      (d' = 1 → BitDepth.maxByte gray ≤ 1) ∧ (d' = 2 → BitDepth.maxByte gray ≤ 3) ∧
      (d' = 4 → BitDepth.maxByte gray ≤ 15) := by
    intro d d' _ h
    refine ⟨fun e => ?_, fun e => ?_, fun e => ?_⟩
    · subst e; exact e1.mp h
    · subst e; exact e2.mp h
    · subst e; exact e4.mp h
  by_cases h1 : BitDepth.maxByte gray ≤ 1
  · rw [if_pos h1]
    refine ⟨by simp, e1.mpr h1, fun d' hd' h => ?_⟩
    simp at hd' ⊢; omega
  · rw [if_neg h1]
    by_cases h2 : BitDepth.maxByte gray ≤ 3
    · rw [if_pos h2]
      refine ⟨by simp, e2.mpr h2, fun d' hd' h => ?_⟩
      have := bound 0 d' hd' h
      simp at hd' ⊢; omega
    · rw [if_neg h2]
      by_cases h4 : BitDepth.maxByte gray ≤ 15
      · rw [if_pos h4]
        refine ⟨by simp, e4.mpr h4, fun d' hd' h => ?_⟩
        have := bound 0 d' hd' h
        simp at hd' ⊢; omega
      · rw [if_neg h4]
        refine ⟨by simp, e8.mpr h255, fun d' hd' h => ?_⟩
        have := bound 0 d' hd' h
        simp at hd' ⊢; omega

/-! ### The reduced image -/

/-- The header of a reduced image. -/
def headerOf (w h : Nat) (r : Reduced) : Header := ⟨w, h, r.depth, r.colour.toNat⟩

/-- PLTE of a reduced image. -/
def plteOf (p : Option (List Palette.Rgba)) : Option (List UInt8) :=
  p.map fun p => plteBytes (p.map fun c => (c.1, c.2.1, c.2.2.1))

/-- tRNS of a reduced image. -/
def trnsOf (p : Option (List Palette.Rgba)) : Option (List UInt8) :=
  p.bind fun p => if p.any (fun c => c.2.2.2 != 255) then some (p.map fun c => c.2.2.2) else none

/-- The reduced image `r`, with the samples `raw`, is a valid description of the colours `f`. -/
structure Fit (w h : Nat) (r : Reduced) (raw : List UInt8) (f : Nat → Spec.Png.Rgba) : Prop where
  ok : (headerOf w h r).Ok
  pal : PaletteOk (headerOf w h r) (plteOf r.palette) (trnsOf r.palette)
  stored : Stored w h (headerOf w h r) ((plteOf r.palette).getD []) ((trnsOf r.palette).getD []) raw f
  rb : rowBytes w r = (headerOf w h r).rowBytes
  bpp : r.bpp = (headerOf w h r).bpp
  d8 : r.depth ≤ 8
  colours : ∀ p, r.palette = some p → r.colour = 3 ∧ 1 ≤ p.length ∧ p.length ≤ 2 ^ r.depth

/-- Sizes the format allows. -/
structure Dims (w h : Nat) : Prop where
  w0 : 0 < w
  h0 : 0 < h
  w1 : w < 2 ^ 31
  h1 : h < 2 ^ 31

theorem Stored.congr {w h : Nat} {hd : Header} {plte trns raw : List UInt8} {f g : Nat → Spec.Png.Rgba}
    (hs : Stored w h hd plte trns raw f) (he : ∀ k, k < w * h → f k = g k) : Stored w h hd plte trns raw g :=
  ⟨hs.len, fun y x hy hx => by rw [hs.pix y x hy hx]; exact he _ (Palette.place_lt hx hy)⟩

theorem Fit.congr {w h : Nat} {r : Reduced} {raw : List UInt8} {f g : Nat → Spec.Png.Rgba} (hf : Fit w h r raw f)
    (he : ∀ k, k < w * h → f k = g k) : Fit w h r raw g :=
  ⟨hf.ok, hf.pal, hf.stored.congr he, hf.rb, hf.bpp, hf.d8, hf.colours⟩

theorem colour_facts (ct : ColorType) : (ct.pngColorType.toNat = 0 ∨ ct.pngColorType.toNat = 2 ∨
    ct.pngColorType.toNat = 4 ∨ ct.pngColorType.toNat = 6) ∧ samples ct.pngColorType.toNat = ct.bytesPerPixel := by
  cases ct <;> decide

/-- An image kept in 8-bit samples. -/
theorem asIs_fit {w h : Nat} (hd : Dims w h) {d raw : List UInt8} {ct : ColorType}
    (hl : raw.length = w * h * ct.bytesPerPixel) :
    Fit w h (asIs d ct) raw (pixelOf ct.bytesPerPixel raw) := by
  obtain ⟨hc, hs⟩ := colour_facts ct
  refine ⟨⟨hd.w0, hd.w1, hd.h0, hd.h1, ?_⟩, ⟨fun p hp => (by cases hp), fun h => ?_, fun _ => Nat.le_refl 0⟩,
    stored_8 hl, ?_, ?_, Nat.le_refl 8, fun p hp => (by cases hp)⟩
  · have h8 : (8 : Nat) ∈ [1, 2, 4, 8, 16] := by decide
    have h8' : (8 : Nat) ∈ [8, 16] := by decide
    rcases hc with e | e | e | e
    · exact .inl ⟨e, h8⟩
    · exact .inr (.inl ⟨e, h8'⟩)
    · exact .inr (.inr (.inr (.inl ⟨e, h8'⟩)))
    · exact .inr (.inr (.inr (.inr ⟨e, h8'⟩)))
  · exfalso
    have : ct.pngColorType.toNat = 3 := h
    omega
  · show (if (8 : Nat) < 8 then ceil8 (w * 8) else w * ct.bytesPerPixel) = (w * samples ct.pngColorType.toNat * 8 + 7) / 8
    rw [if_neg (by decide), hs]; omega
  · show ct.bytesPerPixel = (samples ct.pngColorType.toNat * 8 + 7) / 8
    rw [hs]; omega

/-- The gray image with values `v` at depth `d`. -/
def grayOf (d : Nat) (v : Nat → Nat) (k : Nat) : Spec.Png.Rgba := ⟨to8 d (v k), to8 d (v k), to8 d (v k), 255⟩

theorem grayImage_fit {w h : Nat} (hd : Dims w h) {gray : List UInt8} (hl : gray.length = w * h) :
    Oks (grayImage gray w) fun r => r.effective = .gray ∧ LeastDepth r.depth (w * h) (byteAt gray) ∧
      Fit w h r r.data (grayOf r.depth (byteAt gray)) := by
  have hne : gray ≠ [] := by
    intro e; subst e
    have := Nat.mul_pos hd.w0 hd.h0
    simp at hl; omega
  have hdep := grayDepth_ok hne
  rw [hl] at hdep
  unfold grayImage
  dsimp only
  generalize (BitDepth.reduceBitDepth gray .gray).getD 8 = d at hdep
  refine Oks.bind (packed_ok hd.w0 hd.h0 hdep.mem hl) fun raw hraw => Oks.pure ⟨rfl, hdep, ?_⟩
  have hm := hdep.mem
  simp only [List.mem_cons, List.not_mem_nil, or_false] at hm
  have hrb : ceil8 (w * d) = (⟨w, h, d, 0⟩ : Header).rowBytes := by
    show (w * d + 7) / 8 = (w * 1 * d + 7) / 8; rw [Nat.mul_one]
  refine ⟨⟨hd.w0, hd.w1, hd.h0, hd.h1, ?_⟩, ⟨fun p hp => (by cases hp), fun h => ?_, fun _ => Nat.le_refl 0⟩, ⟨?_, ?_⟩, ?_, ?_,
    show d ≤ 8 by omega, fun p hp => (by cases hp)⟩
  · left
    refine ⟨rfl, ?_⟩
    show d ∈ _
    simp; omega
  · exact absurd (show (0 : Nat) = 3 from h) (by decide)
  · show raw.length = h * (⟨w, h, d, 0⟩ : Header).rowBytes
    rw [← hrb]; exact hraw.1
  · intro y x hy hx
    show pixelAt ⟨w, h, d, 0⟩ [] [] (rowAt raw (⟨w, h, d, 0⟩ : Header).rowBytes y) x = _
    rw [← hrb]
    have e := hraw.2 y x hy hx
    have hlt := hdep.lt (y * w + x) (Palette.place_lt hx hy)
    rw [Nat.mod_eq_of_lt hlt] at e
    simp only [pixelAt, samples, Nat.mul_one, Nat.add_zero, e, grayOf]
  · show (if d < 8 then ceil8 (w * d) else w * max (ceil8 d) 1) = (⟨w, h, d, 0⟩ : Header).rowBytes
    rw [← hrb]
    unfold ceil8
    rcases hm with rfl | rfl | rfl | rfl <;> simp <;> omega
  · show max (ceil8 d) 1 = (1 * d + 7) / 8
    rcases hm with rfl | rfl | rfl | rfl <;> decide

theorem plteBytes_get {p : List Palette.Rgba} {i : Nat} {c : Palette.Rgba} (hi : p[i]? = some c) :
    byteAt (plteBytes (p.map fun c => (c.1, c.2.1, c.2.2.1))) (3 * i) = c.1.toNat ∧
    byteAt (plteBytes (p.map fun c => (c.1, c.2.1, c.2.2.1))) (3 * i + 1) = c.2.1.toNat ∧
    byteAt (plteBytes (p.map fun c => (c.1, c.2.1, c.2.2.1))) (3 * i + 2) = c.2.2.1.toNat := by
  unfold plteBytes
  have g := fun j hj => flatMap_get (m := 3) (f := fun c : UInt8 × UInt8 × UInt8 => [c.1, c.2.1, c.2.2])
    (p.map fun c => (c.1, c.2.1, c.2.2.1)) (fun a _ => rfl) i j hj
  have h0 := g 0 (by decide)
  have h1 := g 1 (by decide)
  have h2 := g 2 (by decide)
  rw [List.getElem?_map, hi] at h0 h1 h2
  rw [Nat.mul_comm i 3] at h0 h1 h2
  exact ⟨PngDecode.byteAt_eq h0, PngDecode.byteAt_eq h1, PngDecode.byteAt_eq h2⟩

theorem plteBytes_length (p : List (UInt8 × UInt8 × UInt8)) : (plteBytes p).length = p.length * 3 := by
  unfold plteBytes
  exact flatMap_length (m := 3) p fun a _ => rfl

/-- The palette chunks give entry `i` its colour. -/
theorem paletteAt_eq {p : List Palette.Rgba} {i : Nat} {c : Palette.Rgba} (hi : p[i]? = some c) :
    paletteAt ((plteOf (some p)).getD []) ((trnsOf (some p)).getD []) i = num c := by
  have hlt : i < p.length := (List.getElem?_eq_some_iff.mp hi).1
  obtain ⟨h0, h1, h2⟩ := plteBytes_get hi
  unfold paletteAt
  have ep : (plteOf (some p)).getD [] = plteBytes (p.map fun c => (c.1, c.2.1, c.2.2.1)) := rfl
  rw [ep, h0, h1, h2]
  unfold num
  congr 1
  unfold trnsOf
  rw [Option.bind_some]
  by_cases ha : p.any (fun c => c.2.2.2 != 255) = true
  · rw [if_pos ha, Option.getD_some, List.length_map, if_pos hlt]
    refine PngDecode.byteAt_eq ?_
    rw [List.getElem?_map, hi]; rfl
  · rw [if_neg ha, Option.getD_none, if_neg (by simp)]
    have hm := List.mem_of_getElem? hi
    rw [Bool.not_eq_true, List.any_eq_false] at ha
    have := ha c hm
    simp at this
    rw [this]; rfl

theorem paletteDepth_ok (n : Nat) (h : n ≤ 256) :
    BitDepth.paletteBitDepth n ∈ [1, 2, 4, 8] ∧ n ≤ 2 ^ BitDepth.paletteBitDepth n := by
  unfold BitDepth.paletteBitDepth
  repeat' split
  all_goals simp <;> omega

/-- PLTE and tRNS lengths. -/
theorem palette_ok (hd : Header) (p : List Palette.Rgba) : PaletteOk hd (plteOf (some p)) (trnsOf (some p)) := by
  refine ⟨fun q hq => ?_, fun _ h => ?_, fun _ => ?_⟩
  · cases hq; rw [plteBytes_length]; omega
  · cases h
  · show _ ≤ (plteBytes _).length
    rw [plteBytes_length]
    unfold trnsOf
    rw [Option.bind_some]
    split <;> simp

theorem indexedImage_fit {w h : Nat} (hd : Dims w h) {f : Nat → Spec.Png.Rgba} {indexed : List UInt8}
    {palette : List Palette.Rgba} (hi : Indexes f (w * h) indexed palette) :
    Oks (indexedImage indexed palette w) fun r => r.effective = .rgb ∧ r.palette = some palette ∧
      r.depth = BitDepth.paletteBitDepth palette.length ∧ Fit w h r r.data f := by
  have hdep := paletteDepth_ok palette.length hi.le
  unfold indexedImage
  dsimp only
  generalize BitDepth.paletteBitDepth palette.length = d at hdep
  refine Oks.bind (packed_ok hd.w0 hd.h0 hdep.1 hi.len) fun raw hraw => Oks.pure ⟨rfl, rfl, rfl, ?_⟩
  have hm := hdep.1
  simp only [List.mem_cons, List.not_mem_nil, or_false] at hm
  have hrb : ceil8 (w * d) = (⟨w, h, d, 3⟩ : Header).rowBytes := by
    show (w * d + 7) / 8 = (w * 1 * d + 7) / 8; rw [Nat.mul_one]
  refine ⟨⟨hd.w0, hd.w1, hd.h0, hd.h1, ?_⟩, palette_ok _ _, ⟨?_, ?_⟩, ?_, ?_, show d ≤ 8 by omega,
    fun p hp => ?_⟩
  · right; right; left
    refine ⟨rfl, ?_⟩
    show d ∈ _
    simp; omega
  · show raw.length = h * (⟨w, h, d, 3⟩ : Header).rowBytes
    rw [← hrb]; exact hraw.1
  · intro y x hy hx
    show pixelAt ⟨w, h, d, 3⟩ _ _ (rowAt raw (⟨w, h, d, 3⟩ : Header).rowBytes y) x = _
    rw [← hrb]
    have e := hraw.2 y x hy hx
    obtain ⟨c, hc, hn⟩ := hi.same (y * w + x) (Palette.place_lt hx hy)
    have hlt := (List.getElem?_eq_some_iff.mp hc).1
    rw [Nat.mod_eq_of_lt (by unfold byteAt; omega)] at e
    simp only [pixelAt, e]
    rw [← hn]
    exact paletteAt_eq hc
  · show (if d < 8 then ceil8 (w * d) else w * max (ceil8 d) 1) = (⟨w, h, d, 3⟩ : Header).rowBytes
    rw [← hrb]
    unfold ceil8
    rcases hm with rfl | rfl | rfl | rfl <;> simp <;> omega
  · show max (ceil8 d) 1 = (1 * d + 7) / 8
    rcases hm with rfl | rfl | rfl | rfl <;> decide
  · cases hp
    obtain ⟨c, hc, -⟩ := hi.same 0 (Nat.mul_pos hd.w0 hd.h0)
    have := (List.getElem?_eq_some_iff.mp hc).1
    exact ⟨rfl, by omega, hdep.2⟩

/-! ### The whole reduction -/

/-- Reduction and alpha optimisation together. -/
def prepare (data : List UInt8) (o : Options) : R (Reduced × List UInt8) := do
  let r ← reduce data o.width o.height o.colorType o
  let d ← optimizeAlpha r.data r.effective o.optimizeAlpha
  return (r, d)

/-- An image whose samples lose their scale: gray and opaque, given in colour, reduced to gray but
not to a palette, with values that fit 4 bits. -/
structure Dimmed (n : Nat) (p f : Nat → Spec.Png.Rgba) (o : Options) (d : Nat) (v : Nat → Nat) : Prop where
  reduce : o.reduceColorType = true
  palette : o.reducePalette = false
  colour : o.colorType = .rgb ∨ o.colorType = .rgba
  gray : ∀ k, k < n → p k = ⟨v k, v k, v k, 255⟩
  depth : LeastDepth d n v
  small : d < 8
  get : ∀ k, k < n → f k = grayOf d v k

/-- When that happens: all pixels are opaque grays below 16. -/
def Dark (n : Nat) (p : Nat → Spec.Png.Rgba) (o : Options) : Prop :=
  o.reduceColorType = true ∧ o.reducePalette = false ∧ (o.colorType = .rgb ∨ o.colorType = .rgba) ∧
    ∀ k, k < n → ∃ v, v < 16 ∧ p k = ⟨v, v, v, 255⟩

/-- The colours stored: those given, up to clearing of invisible pixels, or a dimmed image. -/
def Keeps (n : Nat) (p f : Nat → Spec.Png.Rgba) (o : Options) : Prop :=
  (¬ Dark n p o ∧ ∀ k, k < n → f k = p k ∨ o.optimizeAlpha = true ∧ f k = cleared (p k)) ∨ ∃ d v, Dimmed n p f o d v

/-- The outcome of the reduction. -/
def Prepared (w h : Nat) (p : Nat → Spec.Png.Rgba) (o : Options) (q : Reduced × List UInt8) : Prop :=
  ∃ f, Fit w h q.1 q.2 f ∧ Keeps (w * h) p f o

theorem asIs_prepared {w h : Nat} (hd : Dims w h) {d : List UInt8} {ct : ColorType} {p : Nat → Spec.Png.Rgba}
    {o : Options} (hnd : ¬ Dark (w * h) p o) (hl : d.length = w * h * ct.bytesPerPixel)
    (hp : ∀ k, k < w * h → pixelOf ct.bytesPerPixel d k = p k) :
    Oks (optimizeAlpha (asIs d ct).data (asIs d ct).effective o.optimizeAlpha) fun raw =>
      Prepared w h p o (asIs d ct, raw) := by
  obtain ⟨out, e, ho, hb⟩ := optimizeAlpha_ok hl o.optimizeAlpha
  have e' : optimizeAlpha (asIs d ct).data (asIs d ct).effective o.optimizeAlpha = .ok out := e
  rw [e']
  refine Oks.ok ⟨_, asIs_fit hd (by rw [ho, hl]), .inl ⟨hnd, fun k hk => ?_⟩⟩
  rw [hb k hk, hp k hk]
  cases hon : o.optimizeAlpha
  · exact .inl rfl
  · exact .inr ⟨rfl, rfl⟩

theorem optimizeAlpha_gray (data : List UInt8) (on : Bool) : optimizeAlpha data .gray on = .ok data := by
  unfold optimizeAlpha; split <;> rfl

theorem optimizeAlpha_rgb (data : List UInt8) (on : Bool) : optimizeAlpha data .rgb on = .ok data := by
  unfold optimizeAlpha; split <;> rfl

theorem gray_prepared {w h : Nat} (hd : Dims w h) {gray : List UInt8} {p : Nat → Spec.Png.Rgba}
    {o : Options} (hl : gray.length = w * h) (hr : o.reduceColorType = true) (hpal : o.reducePalette = false)
    (hct : o.colorType = .rgb ∨ o.colorType = .rgba)
    (hp : ∀ k, k < w * h → p k = ⟨byteAt gray k, byteAt gray k, byteAt gray k, 255⟩) :
    Oks (grayImage gray w) fun r => Oks (optimizeAlpha r.data r.effective o.optimizeAlpha) fun raw =>
      Prepared w h p o (r, raw) := by
  refine (grayImage_fit hd hl).mono fun r hr1 => ?_
  rw [hr1.1, optimizeAlpha_gray]
  refine Oks.ok ⟨_, hr1.2.2, ?_⟩
  by_cases h8 : r.depth < 8
  · exact .inr ⟨r.depth, byteAt gray, hr, hpal, hct, hp, hr1.2.1, h8, fun _ _ => rfl⟩
  · left
    refine ⟨fun hdk => h8 (Nat.lt_of_le_of_lt (hr1.2.1.least 4 (by decide) fun k hk => ?_) (by decide)), fun k hk => ?_⟩
    · obtain ⟨v, hv, e⟩ := hdk.2.2.2 k hk
      rw [hp k hk] at e
      rw [(Spec.Png.Rgba.mk.inj e).1]; exact hv
    left
    have : r.depth = 8 := by
      have := hr1.2.1.mem
      simp only [List.mem_cons, List.not_mem_nil, or_false] at this; omega
    rw [hp k hk, this]
    simp only [grayOf, to8_8]

theorem pixelOf_gray3 {data : List UInt8} {k : Nat} (hg : GrayPixel (pixelOf 3 data k)) :
    pixelOf 3 data k = ⟨byteAt data (k * 3), byteAt data (k * 3), byteAt data (k * 3), 255⟩ := by
  obtain ⟨h1, h2⟩ := hg
  simp only [pixelOf, Nat.add_zero] at h1 h2 ⊢
  rw [← h2, ← h1]

theorem pixelOf_gray4 {data : List UInt8} {k : Nat} (hg : GrayPixel (pixelOf 4 data k)) :
    pixelOf 4 data k = ⟨byteAt data (k * 4), byteAt data (k * 4), byteAt data (k * 4), byteAt data (k * 4 + 3)⟩ := by
  obtain ⟨h1, h2⟩ := hg
  simp only [pixelOf, Nat.add_zero] at h1 h2 ⊢
  rw [← h2, ← h1]

/-- Gray opaque images have at most 256 colours. -/
theorem gray_colours {n : Nat} {p : Nat → Spec.Png.Rgba} (h : ∀ k, k < n → ∃ v : UInt8, p k = ⟨v.toNat, v.toNat, v.toNat, 255⟩) :
    ∃ l : List Palette.Rgba, l.length = 256 ∧ ∀ k, k < n → ∃ c ∈ l, num c = p k := by
  refine ⟨(List.range 256).map fun v => (UInt8.ofNat v, UInt8.ofNat v, UInt8.ofNat v, 255), ?_, fun k hk => ?_⟩
  · rw [List.length_map, List.length_range]
  · obtain ⟨v, hv⟩ := h k hk
    refine ⟨(v, v, v, 255), List.mem_map.mpr ⟨v.toNat, List.mem_range.mpr v.toNat_lt, ?_⟩, hv.symm⟩
    rw [UInt8.ofNat_toNat]

theorem dark_gray {n : Nat} {p : Nat → Spec.Png.Rgba} {o : Options} (h : Dark n p o) :
    ∀ k, k < n → GrayPixel (p k) := by
  intro k hk
  obtain ⟨v, -, e⟩ := h.2.2.2 k hk
  rw [e]; exact ⟨rfl, rfl⟩

theorem dark_opaque {n : Nat} {p : Nat → Spec.Png.Rgba} {o : Options} (h : Dark n p o) :
    ∀ k, k < n → (p k).a = 255 := by
  intro k hk
  obtain ⟨v, -, e⟩ := h.2.2.2 k hk
  rw [e]

theorem reduceRgb_prepared {w h : Nat} (hd : Dims w h) {data : List UInt8} {o : Options} (hct : o.colorType = .rgb)
    (hl : data.length = w * h * 3) (hr : o.reduceColorType = true)
    (hpal : o.reducePalette = true → ∀ l : List Palette.Rgba,
      (∀ k, k < w * h → ∃ c ∈ l, num c = pixelOf 3 data k) → 256 < l.length) :
    Oks (reduceRgb data w) fun r => Oks (optimizeAlpha r.data r.effective o.optimizeAlpha) fun raw =>
      Prepared w h (pixelOf 3 data) o (r, raw) := by
  unfold reduceRgb
  refine Oks.bind (allGray_ok hl) fun g hg => ?_
  by_cases hb : g = true
  · rw [if_pos hb]
    rw [hb] at hg
    have hg := hg.mp rfl
    obtain ⟨gray, e, hgl, hgb⟩ := highBytes_places (by decide) hl (places := [0]) (by decide)
    rw [e, ok_bind]
    have hgl' : gray.length = w * h := by rw [hgl]; simp
    have hv : ∀ k, k < w * h → byteAt gray k = byteAt data (k * 3) := by
      intro k hk
      have := hgb k 0 (by decide) hk
      simpa using this
    refine gray_prepared hd hgl' hr ?_ (.inl hct) fun k hk => ?_
    · cases hp : o.reducePalette with
      | false => rfl
      | true =>
        exfalso
        obtain ⟨l, hl1, hl2⟩ := gray_colours (n := w * h) (p := pixelOf 3 data) fun k hk => by
          exact ⟨data.getD (k * 3) 0, pixelOf_gray3 (hg k hk)⟩
        have := hpal hp l hl2
        omega
    · rw [pixelOf_gray3 (hg k hk), hv k hk]
  · rw [if_neg hb]
    refine Oks.pure (asIs_prepared hd (ct := .rgb) (fun hdk => hb (hg.mpr (dark_gray hdk))) hl fun k _ => rfl)

theorem reduceRgba_prepared {w h : Nat} (hd : Dims w h) {data : List UInt8} {o : Options} (hct : o.colorType = .rgba)
    (hl : data.length = w * h * 4) (hr : o.reduceColorType = true)
    (hpal : o.reducePalette = true → ∀ l : List Palette.Rgba,
      (∀ k, k < w * h → ∃ c ∈ l, num c = pixelOf 4 data k) → 256 < l.length) :
    Oks (reduceRgba data w) fun r => Oks (optimizeAlpha r.data r.effective o.optimizeAlpha) fun raw =>
      Prepared w h (pixelOf 4 data) o (r, raw) := by
  unfold reduceRgba
  refine Oks.bind (analyze_ok hl) fun r hrg => ?_
  obtain ⟨op, g⟩ := r
  obtain ⟨ho, hg⟩ := hrg
  dsimp only at ho hg ⊢
  cases op with
  | true =>
    have ho := ho.mp rfl
    cases g with
    | true =>
      have hg := hg.mp rfl
      rw [if_pos rfl]
      obtain ⟨gray, e, hgl, hgb⟩ := highBytes_places (by decide) hl (places := [0]) (by decide)
      rw [e, ok_bind]
      have hgl' : gray.length = w * h := by rw [hgl]; simp
      have hv : ∀ k, k < w * h → byteAt gray k = byteAt data (k * 4) := by
        intro k hk
        have := hgb k 0 (by decide) hk
        simpa using this
      have hpix : ∀ k, k < w * h → pixelOf 4 data k
          = ⟨byteAt data (k * 4), byteAt data (k * 4), byteAt data (k * 4), 255⟩ := by
        intro k hk
        have ha := ho k hk
        rw [pixelOf_gray4 (hg k hk)] at ha ⊢
        dsimp only at ha
        rw [ha]
      refine gray_prepared hd hgl' hr ?_ (.inr hct) fun k hk => ?_
      · cases hp : o.reducePalette with
        | false => rfl
        | true =>
          exfalso
          obtain ⟨l, hl1, hl2⟩ := gray_colours (n := w * h) (p := pixelOf 4 data) fun k hk =>
            ⟨data.getD (k * 4) 0, hpix k hk⟩
          have := hpal hp l hl2
          omega
      · rw [hpix k hk, hv k hk]
    | false =>
      rw [if_neg (by decide), if_pos rfl]
      obtain ⟨rgb, e, hgl, hgb⟩ := highBytes_places (by decide) hl (places := [0, 1, 2]) (by decide)
      rw [e, ok_bind]
      refine Oks.pure (asIs_prepared hd (ct := .rgb) (fun hdk => Bool.noConfusion (hg.mpr (dark_gray hdk))) hgl fun k hk => ?_)
      have h0 := hgb k 0 (by decide) hk
      have h1 := hgb k 1 (by decide) hk
      have h2 := hgb k 2 (by decide) hk
      have ha := ho k hk
      simp only [List.length_cons, List.length_nil, List.getElem_cons_zero, List.getElem_cons_succ, Nat.add_zero,
        Nat.zero_add, Nat.reduceAdd] at h0 h1 h2
      simp only [pixelOf, Nat.add_zero] at ha
      simp only [pixelOf, ColorType.bytesPerPixel, Nat.add_zero, h0, h1, h2, ha]
  | false =>
    rw [if_neg (by simp), if_neg (by decide)]
    cases g with
    | true =>
      have hg := hg.mp rfl
      rw [if_pos rfl]
      obtain ⟨ga, e, hgl, hgb⟩ := highBytes_places (by decide) hl (places := [0, 3]) (by decide)
      rw [e, ok_bind]
      refine Oks.pure (asIs_prepared hd (ct := .grayAlpha) (fun hdk => Bool.noConfusion (ho.mpr (dark_opaque hdk))) hgl fun k hk => ?_)
      have h0 := hgb k 0 (by decide) hk
      have h1 := hgb k 1 (by decide) hk
      simp only [List.length_cons, List.length_nil, List.getElem_cons_zero, List.getElem_cons_succ, Nat.add_zero,
        Nat.zero_add, Nat.reduceAdd] at h0 h1
      rw [pixelOf_gray4 (hg k hk)]
      simp only [pixelOf, ColorType.bytesPerPixel, Nat.add_zero, h0, h1]
    | false =>
      rw [if_neg (by decide)]
      exact Oks.pure (asIs_prepared hd (ct := .rgba) (fun hdk => Bool.noConfusion (ho.mpr (dark_opaque hdk))) hl fun k _ => rfl)

theorem reduceType_prepared {w h : Nat} (hd : Dims w h) {data : List UInt8} {o : Options}
    (hl : data.length = w * h * o.colorType.bytesPerPixel)
    (hpal : o.colorType = .rgb ∨ o.colorType = .rgba → o.reducePalette = true → ∀ l : List Palette.Rgba,
      (∀ k, k < w * h → ∃ c ∈ l, num c = pixelOf o.colorType.bytesPerPixel data k) → 256 < l.length) :
    Oks (reduceType data w o.colorType o) fun r => Oks (optimizeAlpha r.data r.effective o.optimizeAlpha) fun raw =>
      Prepared w h (pixelOf o.colorType.bytesPerPixel data) o (r, raw) := by
  unfold reduceType
  by_cases hr : o.reduceColorType = true
  · rw [if_pos hr]
    cases hct : o.colorType with
    | rgb =>
      rw [hct] at hl hpal
      exact reduceRgb_prepared hd hct hl hr (hpal (.inl rfl))
    | rgba =>
      rw [hct] at hl hpal
      exact reduceRgba_prepared hd hct hl hr (hpal (.inr rfl))
    | gray =>
      rw [hct] at hl
      exact Oks.ok (asIs_prepared hd (ct := .gray) (fun hdk => by have := hdk.2.2.1; rw [hct] at this; simp at this) hl fun k _ => rfl)
    | grayAlpha =>
      rw [hct] at hl
      exact Oks.ok (asIs_prepared hd (ct := .grayAlpha) (fun hdk => by have := hdk.2.2.1; rw [hct] at this; simp at this) hl fun k _ => rfl)
  · rw [if_neg hr]
    exact Oks.ok (asIs_prepared hd (fun hdk => hr hdk.1) hl fun k _ => rfl)

/-- The reduction keeps the colours. -/
theorem prepare_ok {data : List UInt8} {o : Options} (hd : Dims o.width o.height)
    (hl : data.length = o.width * o.height * o.colorType.bytesPerPixel) (hK : o.width * o.height < 2 ^ 30) :
    Oks (prepare data o) (Prepared o.width o.height (pixelOf o.colorType.bytesPerPixel data) o) := by
  unfold prepare
  suffices h : Oks (reduce data o.width o.height o.colorType o) fun r =>
      Oks (optimizeAlpha r.data r.effective o.optimizeAlpha) fun raw =>
        Prepared o.width o.height (pixelOf o.colorType.bytesPerPixel data) o (r, raw) by
    exact Oks.bind h fun r hr => Oks.bind hr fun d hd => Oks.pure hd
  unfold reduce
  by_cases hg : o.colorType = .gray ∧ o.reduceColorType = true
  · rw [if_pos hg]
    refine Oks.ok ?_
    rw [hg.1] at hl ⊢
    exact asIs_prepared hd (ct := .gray) (fun hdk => by have := hdk.2.2.1; rw [hg.1] at this; simp at this) hl fun k _ => rfl
  · rw [if_neg hg]
    by_cases hp : o.reducePalette = true
    · rw [if_pos hp]
      by_cases hct : o.colorType = .rgb ∨ o.colorType = .rgba
      · refine Oks.bind (buildPalette_ok hct hl hK) fun q hq => ?_
        cases q with
        | none => exact reduceType_prepared hd hl fun _ _ => hq
        | some q =>
          obtain ⟨indexed, palette⟩ := q
          refine (indexedImage_fit hd hq).mono fun r hr => ?_
          rw [hr.1, optimizeAlpha_rgb]
          exact Oks.ok ⟨_, hr.2.2.2, .inl ⟨fun hdk => (by have := hdk.2.1; rw [hp] at this; cases this), fun k _ => .inl rfl⟩⟩
      · have e : Palette.buildPalette data o.colorType o.width o.height = .ok none := by
          unfold Palette.buildPalette
          cases hc : o.colorType <;> simp [hc] at hct ⊢
        rw [e, ok_bind]
        exact reduceType_prepared hd hl fun h => absurd h hct
    · rw [if_neg hp]
      exact reduceType_prepared hd hl fun _ h => absurd h hp

end Pixo.Png
