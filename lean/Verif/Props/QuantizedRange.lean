import Verif.Props.Means
import Verif.Props.PngEncode
/-
C121: what a quantized PNG shows keeps to the range of the pixels.
-/
namespace Pixo.Props
open Spec Spec.Png
open Pixo.Png (Options Valid Small encode encodeWith Env)
open Pixo.Props.Means (IsMean image_kept isMean_between isMean_same)
open Pixo.Deflate (Pool)

theorem quantize_colour {data : List UInt8} {o : Options} (h : Png.shouldQuantize data o = .ok true) : o.colorType = .rgb ∨ o.colorType = .rgba := by
  have key : Png.isColour o.colorType = true → o.colorType = .rgb ∨ o.colorType = .rgba := by
    cases o.colorType <;> decide
  unfold Png.shouldQuantize at h
  split at h
  · cases h
  · injection h with h
    exact key h
  · split at h
    · rename_i hc
      exact key hc
    · cases h

/-- What is true of all pixels and kept by means is true of the colours shown. -/
theorem quantized_kept {P : Palette.Rgba → Prop} (hP : ∀ (l : List Quantize.ColorCount) p, (∀ c ∈ l, P c.rgba) → IsMean l p → P p)
    {pool : Pool} (hp : PHistory pool) (env : Png.Env) (data : List UInt8) (o : Options)
    (hv : Valid data o) (hs : Small o.width o.height) (he : Sane env o.height)
    (hq : Png.shouldQuantize data o = .ok true)
    (hall : ∀ k, k < o.width * o.height → ∀ c, Png.num c = given data o k → P c) :
    ∃ out pool' img, encode env pool data o = .ok (out, pool') ∧ Reads env.deflate.level out o.width o.height img ∧
      ∀ k, k < o.width * o.height → ∃ c, shown img k = Png.num c ∧ P c := by
  have hct := quantize_colour hq
  have hd : Png.Dims o.width o.height := ⟨hv.w0, hv.h0, by have := hv.w1; omega, by have := hv.h1; omega⟩
  have hpos := Nat.mul_pos hd.w0 hd.h0
  have hpx := hs.pixels
  have e1 : encode env pool data o = Png.encodeQuantized env pool [] data o := by
    unfold encode encodeWith
    rw [Png.checkInput_ok hv, ok_bind, hq, ok_bind, if_pos rfl]
  obtain ⟨q, eq, hq, -⟩ := (Quantize.quantizeImage_ok env.quantize hct hv.len hpos hpx (m := min o.quantization.maxColors 256)
    (by omega) o.quantization.dithering).out
  have hk := image_kept hP env.quantize hct data (o.width * o.height) hv.len hpos (by omega)
    (fun k hk => hall k hk _ (Png.num_pixelAt hct k)) o.quantization.dithering eq
  have h1 := hq.one
  have h2 := hq.le
  obtain ⟨⟨out, pool'⟩, e, hW, -⟩ := (Png.encodeIndexedInto_ok (sumOk env.deflate.level) he.ok hp.ok [] hd hs hq.len
    (palette := q.1.map fun c => (c.1, c.2.1, c.2.2.1)) (transparency := Png.trimTransparency (q.1.map fun c => c.2.2.2))
    (by rw [List.length_map]; exact h1) (by rw [List.length_map]; omega)
    (by rw [List.length_map]; exact Nat.le_trans (Png.trim_length _) (by simp)) o).out
  obtain ⟨img, hR, hsh⟩ := wrote_reads hv.w1 hv.h1 hW
  refine ⟨out, pool', img, ?_, hR, fun k hk' => ?_⟩
  · rw [e1]
    unfold Png.encodeQuantized
    rw [eq, ok_bind]
    exact e
  · have hk2 : k < q.2.length := by rw [hq.len]; exact hk'
    have hlt := hq.lt _ (List.getElem_mem hk2)
    refine ⟨q.1[q.2[k].toNat], ?_, hk _ (List.getElem_mem hlt)⟩
    rw [hsh k hk']
    unfold Png.indexColour byteAt
    rw [Palette.getD_lt hk2]
    exact Png.quantized_colour (List.getElem?_eq_getElem hlt)

/-- C121: in every channel, what a quantized PNG shows keeps to the range of the pixels given. -/
theorem C121_range {pool : Pool} (hp : PHistory pool) (env : Png.Env) (data : List UInt8) (o : Options)
    (hv : Valid data o) (hs : Small o.width o.height) (he : Sane env o.height)
    (hq : Png.shouldQuantize data o = .ok true) (lo hi : Rgba)
    (hall : ∀ k, k < o.width * o.height →
      lo.r ≤ (given data o k).r ∧ (given data o k).r ≤ hi.r ∧ lo.g ≤ (given data o k).g ∧ (given data o k).g ≤ hi.g ∧
      lo.b ≤ (given data o k).b ∧ (given data o k).b ≤ hi.b ∧ lo.a ≤ (given data o k).a ∧ (given data o k).a ≤ hi.a) :
    ∃ out pool' img, encode env pool data o = .ok (out, pool') ∧ Reads env.deflate.level out o.width o.height img ∧
      ∀ k, k < o.width * o.height →
        lo.r ≤ (shown img k).r ∧ (shown img k).r ≤ hi.r ∧ lo.g ≤ (shown img k).g ∧ (shown img k).g ≤ hi.g ∧
        lo.b ≤ (shown img k).b ∧ (shown img k).b ≤ hi.b ∧ lo.a ≤ (shown img k).a ∧ (shown img k).a ≤ hi.a := by
  obtain ⟨out, pool', img, e, hR, h⟩ := quantized_kept (P := fun c => (lo.r ≤ c.1.toNat ∧ c.1.toNat ≤ hi.r) ∧ (lo.g ≤ c.2.1.toNat ∧ c.2.1.toNat ≤ hi.g) ∧
    (lo.b ≤ c.2.2.1.toNat ∧ c.2.2.1.toNat ≤ hi.b) ∧ (lo.a ≤ c.2.2.2.toNat ∧ c.2.2.2.toNat ≤ hi.a))
    (fun l p hl hm => ⟨isMean_between hm (f := fun c => c.1.toNat) (by simp) fun c hc => (hl c hc).1,
      isMean_between hm (f := fun c => c.2.1.toNat) (by simp) fun c hc => (hl c hc).2.1,
      isMean_between hm (f := fun c => c.2.2.1.toNat) (by simp) fun c hc => (hl c hc).2.2.1,
      isMean_between hm (f := fun c => c.2.2.2.toNat) (by simp) fun c hc => (hl c hc).2.2.2⟩)
    hp env data o hv hs he hq (fun k hk c hc => by
      have h := hall k hk
      rw [← hc] at h
      exact ⟨⟨h.1, h.2.1⟩, ⟨h.2.2.1, h.2.2.2.1⟩, ⟨h.2.2.2.2.1, h.2.2.2.2.2.1⟩, h.2.2.2.2.2.2⟩)
  refine ⟨out, pool', img, e, hR, fun k hk => ?_⟩
  obtain ⟨c, hc, ⟨a1, a2⟩, ⟨b1, b2⟩, ⟨c1, c2⟩, d⟩ := h k hk
  rw [hc]
  exact ⟨a1, a2, b1, b2, c1, c2, d⟩

/-- C121: a quantized opaque image is shown opaque. -/
theorem C121_opaque {pool : Pool} (hp : PHistory pool) (env : Png.Env) (data : List UInt8) (o : Options)
    (hv : Valid data o) (hs : Small o.width o.height) (he : Sane env o.height)
    (hq : Png.shouldQuantize data o = .ok true)
    (hall : ∀ k, k < o.width * o.height → (given data o k).a = 255) :
    ∃ out pool' img, encode env pool data o = .ok (out, pool') ∧ Reads env.deflate.level out o.width o.height img ∧
      ∀ k, k < o.width * o.height → (shown img k).a = 255 := by
  obtain ⟨out, pool', img, e, hR, h⟩ := quantized_kept (P := fun c => 255 ≤ c.2.2.2.toNat ∧ c.2.2.2.toNat ≤ 255)
    (fun l p hl hm => isMean_between hm (f := fun c => c.2.2.2.toNat) (by simp) hl)
    hp env data o hv hs he hq (fun k hk c hc => by
      have h := hall k hk
      rw [← hc] at h
      exact ⟨Nat.le_of_eq h.symm, Nat.le_of_eq h⟩)
  refine ⟨out, pool', img, e, hR, fun k hk => ?_⟩
  obtain ⟨c, hc, h1, h2⟩ := h k hk
  rw [hc]
  exact Nat.le_antisymm h2 h1

/-- C121: a quantized grey image is shown grey. -/
theorem C121_grey {pool : Pool} (hp : PHistory pool) (env : Png.Env) (data : List UInt8) (o : Options)
    (hv : Valid data o) (hs : Small o.width o.height) (he : Sane env o.height)
    (hq : Png.shouldQuantize data o = .ok true)
    (hall : ∀ k, k < o.width * o.height → (given data o k).r = (given data o k).g ∧ (given data o k).g = (given data o k).b) :
    ∃ out pool' img, encode env pool data o = .ok (out, pool') ∧ Reads env.deflate.level out o.width o.height img ∧
      ∀ k, k < o.width * o.height → (shown img k).r = (shown img k).g ∧ (shown img k).g = (shown img k).b := by
  obtain ⟨out, pool', img, e, hR, h⟩ := quantized_kept (P := fun c => c.1.toNat = c.2.1.toNat ∧ c.2.1.toNat = c.2.2.1.toNat)
    (fun l p hl hm => ⟨isMean_same hm (f := fun c => c.1.toNat) (g := fun c => c.2.1.toNat) (by simp) (by simp) fun c hc => (hl c hc).1,
      isMean_same hm (f := fun c => c.2.1.toNat) (g := fun c => c.2.2.1.toNat) (by simp) (by simp) fun c hc => (hl c hc).2⟩)
    hp env data o hv hs he hq (fun k hk c hc => by
      have h := hall k hk
      rw [← hc] at h
      exact h)
  refine ⟨out, pool', img, e, hR, fun k hk => ?_⟩
  obtain ⟨c, hc, h⟩ := h k hk
  rw [hc]
  exact h

/-- C121: an image of one colour is shown as it is, whatever its size. -/
theorem C121_plain {pool : Pool} (hp : PHistory pool) (env : Png.Env) (data : List UInt8) (o : Options)
    (hv : Valid data o) (hs : Small o.width o.height) (he : Sane env o.height)
    (hq : Png.shouldQuantize data o = .ok true) (c : Rgba) (hall : ∀ k, k < o.width * o.height → given data o k = c) :
    ∃ out pool' img, encode env pool data o = .ok (out, pool') ∧ Reads env.deflate.level out o.width o.height img ∧
      ∀ k, k < o.width * o.height → shown img k = c := by
  obtain ⟨out, pool', img, e, hR, h⟩ := C121_range hp env data o hv hs he hq c c (fun k hk => by
    rw [hall k hk]
    exact ⟨Nat.le_refl _, Nat.le_refl _, Nat.le_refl _, Nat.le_refl _, Nat.le_refl _, Nat.le_refl _, Nat.le_refl _, Nat.le_refl _⟩)
  refine ⟨out, pool', img, e, hR, fun k hk => ?_⟩
  obtain ⟨a1, a2, b1, b2, c1, c2, d1, d2⟩ := h k hk
  generalize shown img k = s at *
  obtain ⟨r, g, b, a⟩ := s
  obtain ⟨r', g', b', a'⟩ := c
  dsimp only at *
  rw [Nat.le_antisymm a2 a1, Nat.le_antisymm b2 b1, Nat.le_antisymm c2 c1, Nat.le_antisymm d2 d1]

/-- Two greys in one entry. -/
def greyOptions : Options := { redOptions with quantization := ⟨.force, 1, false⟩ }

example : Valid [10, 10, 10, 21, 21, 21] greyOptions ∧ Small greyOptions.width greyOptions.height ∧
    Png.shouldQuantize [10, 10, 10, 21, 21, 21] greyOptions = .ok true ∧
    ∀ k, k < greyOptions.width * greyOptions.height → (given [10, 10, 10, 21, 21, 21] greyOptions k).r = (given [10, 10, 10, 21, 21, 21] greyOptions k).g ∧
      (given [10, 10, 10, 21, 21, 21] greyOptions k).g = (given [10, 10, 10, 21, 21, 21] greyOptions k).b :=
  ⟨⟨by decide, by decide, by decide, by decide, by decide, by decide⟩, by unfold Small; decide, by decide, by decide⟩

example : Quantize.quantizeImage ⟨id, fun _ => (0, 0, 0)⟩ [10, 10, 10, 21, 21, 21] .rgb 1 false = .ok ([(15, 15, 15, 255)], [0, 0]) := by decide +kernel

end Pixo.Props
