import Verif.Model.Png
import Verif.Proof.BitPack
import Verif.Proof.Palette
import Verif.Proof.PngConvert
import Verif.Proof.MatchLength
/-
How an image is stored in scanlines: 8-bit samples, packed gray samples, packed indices.
-/
namespace Pixo.Png
open Spec Spec.Png
open Pixo.PngDecode (chunksExact highBytes ceil8 flatMap_get flatMap_length flatten_get RowsOk to8_8)
open Pixo.BitDepth (SubByte packRows packRow packRow_length packRow_sample packRows_eq)
open Pixo.Palette (getD_lt)
open Pixo.MatchLength (slice slice_ok)


/-! ### Chunks of `k` bytes -/

theorem take_eq_range {l : List UInt8} {k : Nat} (h : k ≤ l.length) :
    l.take k = (List.range k).map fun j => l.getD j 0 := by
  refine List.ext_getElem (by simp; omega) fun i h1 h2 => ?_
  rw [List.length_map, List.length_range] at h2
  rw [List.getElem_take, List.getElem_map, List.getElem_range, getD_lt (by omega)]

theorem getD_drop (l : List UInt8) (a j : Nat) : (l.drop a).getD j 0 = l.getD (a + j) 0 := by
  simp [List.getD]

theorem getD_take {l : List UInt8} {n j : Nat} (h : j < n) : (l.take n).getD j 0 = l.getD j 0 := by
  simp [List.getD, h]

/-- The chunks, byte by byte. -/
theorem chunksExact_eq {k n : Nat} (hk : 0 < k) {data : List UInt8} (hl : data.length = n * k) :
    chunksExact k data = (List.range n).map fun i => (List.range k).map fun j => data.getD (i * k + j) 0 := by
  unfold chunksExact
  rw [hl, Nat.mul_div_cancel _ hk]
  refine List.map_congr_left fun i hi => ?_
  rw [List.mem_range] at hi
  have : (i + 1) * k ≤ n * k := Nat.mul_le_mul_right k hi
  rw [Nat.succ_mul] at this
  rw [take_eq_range (by rw [List.length_drop]; omega)]
  simp only [getD_drop]

/-- Selected bytes of every chunk. -/
theorem highBytes_places {k n : Nat} (hk : 0 < k) {data : List UInt8} (hl : data.length = n * k) {places : List Nat}
    (hp : ∀ p ∈ places, p < k) :
    ∃ out, highBytes k places data = .ok out ∧ out.length = n * places.length ∧
      ∀ i j (hj : j < places.length), i < n → byteAt out (i * places.length + j) = byteAt data (i * k + places[j]) := by
  have e : (chunksExact k data).mapM (fun ch => places.mapM (getChecked ch))
      = .ok ((List.range n).map fun i => places.map fun p => data.getD (i * k + p) 0) := by
    rw [chunksExact_eq hk hl]
    have : ((List.range n).map fun i => (List.range k).map fun j => data.getD (i * k + j) 0).mapM
        (fun ch => places.mapM (getChecked ch)) = (List.range n).mapM (fun i =>
          places.mapM (getChecked ((List.range k).map fun j => data.getD (i * k + j) 0))) := by
      simp only [List.mapM_map]; rfl
    rw [this]
    refine Palette.mapM_ok _ fun i _ => Palette.mapM_ok _ fun p hpp => ?_
    rw [Palette.getChecked_ok 0 (by simpa using hp p hpp), getD_lt (by simpa using hp p hpp)]
    simp
  have hlen : ∀ a ∈ (List.range n).map (fun i => places.map fun p => data.getD (i * k + p) 0),
      a.length = places.length := by
    intro a ha
    obtain ⟨i, -, rfl⟩ := List.mem_map.mp ha
    simp
  refine ⟨_, by unfold highBytes; rw [e]; rfl, ?_, ?_⟩
  · rw [PngDecode.flatten_eq_flatMap, flatMap_length (f := id) _ hlen]; simp
  · intro i j hj hi
    have := flatten_get hlen i j hj
    rw [List.getElem?_map, List.getElem?_range hi, Option.map_some, Option.bind_some, List.getElem?_map,
      List.getElem?_eq_getElem hj, Option.map_some] at this
    unfold byteAt
    rw [List.getD, this]; rfl

/-! ### Rows -/

/-- Row `y` of a buffer. -/
def rowAt (raw : List UInt8) (rb y : Nat) : List UInt8 := (raw.drop (y * rb)).take rb

theorem rowAt_length {raw : List UInt8} {rb h y : Nat} (hl : raw.length = h * rb) (hy : y < h) :
    (rowAt raw rb y).length = rb := by
  have : (y + 1) * rb ≤ h * rb := Nat.mul_le_mul_right rb hy
  rw [Nat.succ_mul] at this
  unfold rowAt
  rw [List.length_take, List.length_drop]; omega

theorem byteAt_row {raw : List UInt8} {rb y j : Nat} (hj : j < rb) :
    byteAt (rowAt raw rb y) j = byteAt raw (y * rb + j) := by
  unfold byteAt rowAt
  rw [getD_take hj, getD_drop]

/-- `raw` holds `h` scanlines of the kind `hd`, and pixel `x` of line `y` has the colour
`f (y * w + x)`. -/
structure Stored (w h : Nat) (hd : Header) (plte trns : List UInt8) (raw : List UInt8) (f : Nat → Spec.Png.Rgba) :
    Prop where
  len : raw.length = h * hd.rowBytes
  pix : ∀ y x, y < h → x < w → pixelAt hd plte trns (rowAt raw hd.rowBytes y) x = f (y * w + x)

/-- 8-bit samples are stored as they are. -/
theorem stored_8 {w h : Nat} {ct : ColorType} {data : List UInt8} (hl : data.length = w * h * ct.bytesPerPixel) :
    Stored w h ⟨w, h, 8, ct.pngColorType.toNat⟩ [] [] data (pixelOf ct.bytesPerPixel data) := by
  have hrb : (⟨w, h, 8, ct.pngColorType.toNat⟩ : Header).rowBytes = w * ct.bytesPerPixel := by
    unfold Header.rowBytes
    have : samples ct.pngColorType.toNat = ct.bytesPerPixel := by cases ct <;> rfl
    dsimp only
    rw [this]; omega
  refine ⟨by rw [hrb, hl, Nat.mul_comm w h, Nat.mul_assoc], fun y x hy hx => ?_⟩
  rw [hrb]
  have hb : ∀ j, j < ct.bytesPerPixel →
      sampleAt 8 (rowAt data (w * ct.bytesPerPixel) y) (x * ct.bytesPerPixel + j)
        = byteAt data ((y * w + x) * ct.bytesPerPixel + j) := by
    intro j hj
    have : (x + 1) * ct.bytesPerPixel ≤ w * ct.bytesPerPixel := Nat.mul_le_mul_right _ hx
    rw [Nat.succ_mul] at this
    rw [PngDecode.sampleAt_8 (by
      rw [rowAt_length (h := h) (by rw [hl, Nat.mul_comm w h, Nat.mul_assoc]) hy]; omega), byteAt_row (by omega)]
    congr 1
    rw [Nat.add_mul, Nat.mul_assoc]; omega
  cases ct
  · have h0 := hb 0 (by decide)
    simp only [ColorType.bytesPerPixel] at h0 ⊢
    simp only [pixelAt, pixelOf, ColorType.pngColorType, UInt8.reduceToNat, samples, to8_8, h0]
  · have h0 := hb 0 (by decide)
    have h1 := hb 1 (by decide)
    simp only [ColorType.bytesPerPixel] at h0 h1 ⊢
    simp only [pixelAt, pixelOf, ColorType.pngColorType, UInt8.reduceToNat, samples, to8_8, h0, h1]
  · have h0 := hb 0 (by decide)
    have h1 := hb 1 (by decide)
    have h2 := hb 2 (by decide)
    simp only [ColorType.bytesPerPixel] at h0 h1 h2 ⊢
    simp only [pixelAt, pixelOf, ColorType.pngColorType, UInt8.reduceToNat, samples, to8_8, h0, h1, h2]
  · have h0 := hb 0 (by decide)
    have h1 := hb 1 (by decide)
    have h2 := hb 2 (by decide)
    have h3 := hb 3 (by decide)
    simp only [ColorType.bytesPerPixel] at h0 h1 h2 h3 ⊢
    simp only [pixelAt, pixelOf, ColorType.pngColorType, UInt8.reduceToNat, samples, to8_8, h0, h1, h2, h3]

/-! ### Packed samples -/

/-- The packing step of the reduction. -/
theorem packed_ok {w h d : Nat} (hw : 0 < w) (hh : 0 < h) (hd : d ∈ [1, 2, 4, 8]) {data : List UInt8}
    (hl : data.length = w * h) :
    Oks (packSamples data w d) fun raw =>
      raw.length = h * ceil8 (w * d) ∧
      ∀ y x, y < h → x < w → sampleAt d (rowAt raw (ceil8 (w * d)) y) x = byteAt data (y * w + x) % 2 ^ d := by
  unfold packSamples
  by_cases h8 : d < 8
  · have hs : SubByte d := by
      simp only [List.mem_cons, List.not_mem_nil, or_false] at hd
      unfold SubByte; omega
    rw [if_pos h8, packRows_eq hw hh (by rw [hl, Nat.mul_comm]) hs]
    refine Oks.ok ?_
    generalize hr : ((List.range h).map fun y => packRow d ((data.drop (y * w)).take w) 0 0) = rows
    have hrl : rows.length = h := by rw [← hr]; simp
    have hrow : ∀ y, (hy : y < rows.length) → rows[y] = packRow d (rowAt data w y) 0 0 := by
      intro y hy; simp only [← hr, List.getElem_map, List.getElem_range]; rfl
    have hro : RowsOk rows.flatten rows (ceil8 (w * d)) := by
      refine ⟨rfl, fun r hr => ?_⟩
      obtain ⟨y, hy, rfl⟩ := List.mem_iff_getElem.mp hr
      rw [hrow y hy, packRow_length hs, rowAt_length (h := h) (by rw [hl, Nat.mul_comm]) (by omega)]
    refine ⟨by rw [hro.length, hrl], fun y x hy hx => ?_⟩
    have hsl := hro.slice (y := y) (by omega)
    have hle : y * ceil8 (w * d) + ceil8 (w * d) ≤ rows.flatten.length := by
      rw [hro.length, hrl]
      have := Nat.mul_le_mul_right (ceil8 (w * d)) (show y + 1 ≤ h from hy)
      rw [Nat.succ_mul] at this; exact this
    rw [slice_ok hle] at hsl
    have e : rowAt rows.flatten (ceil8 (w * d)) y = packRow d (rowAt data w y) 0 0 := by
      rw [← hrow y (by omega)]; exact Except.ok.inj hsl
    have hxl : x < (rowAt data w y).length := by
      rw [rowAt_length (h := h) (by rw [hl, Nat.mul_comm]) hy]; exact hx
    rw [e, packRow_sample hs hxl]
    have := byteAt_row (raw := data) (y := y) hx
    unfold byteAt at this ⊢
    rw [← this, getD_lt hxl]
  · have : d = 8 := by
      simp only [List.mem_cons, List.not_mem_nil, or_false] at hd; omega
    subst this
    rw [if_neg (by decide)]
    have hc : ceil8 (w * 8) = w := by unfold ceil8; omega
    rw [hc]
    refine Oks.ok ⟨by rw [hl, Nat.mul_comm], fun y x hy hx => ?_⟩
    rw [PngDecode.sampleAt_8 (by rw [rowAt_length (h := h) (by rw [hl, Nat.mul_comm]) hy]; exact hx), byteAt_row hx]
    have := (data.getD (y * w + x) 0).toNat_lt
    unfold byteAt
    omega

end Pixo.Png
