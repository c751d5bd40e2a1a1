import Verif.Props.Jpeg
import Verif.Proof.JpegSamples
import Verif.Proof.DctReal
/-
C50: what a baseline file codes are the quantized DCT coefficients of the image.
-/
namespace Pixo.Props
open Pixo.Jpeg (Options QuantTables)
open Spec.T81

/-- The pixel at `(x, y)` as `Y`, `Cb`, `Cr`; beyond the right and the bottom the last column and row go
on. (What the conversion computes is C42.) -/
def yccOf (data : List UInt8) (o : Options) (x y : Nat) : UInt8 × UInt8 × UInt8 :=
  let i := min y (o.height - 1) * o.width + min x (o.width - 1)
  if o.colorType = .gray then (data.getD i 0, 128, 128)
  else rgbToYcbcr (data.getD (3 * i) 0) (data.getD (3 * i + 1) 0) (data.getD (3 * i + 2) 0)

/-- Component 0, 1 or 2. -/
def component (c : Nat) (p : UInt8 × UInt8 × UInt8) : Int :=
  if c = 0 then p.1.toNat else if c = 1 then p.2.1.toNat else p.2.2.toNat

/-- The sample at `(x, y)` of component `c`, before the level shift: a pixel, or in the subsampled
components of 4:2:0 the mean of two by two pixels. -/
noncomputable def sampleOf (data : List UInt8) (o : Options) (c x y : Nat) : ℝ :=
  if c = 0 ∨ o.colorType = .gray ∨ o.subsampling = .s444 then component c (yccOf data o x y)
  else (component c (yccOf data o (2 * x) (2 * y)) + component c (yccOf data o (2 * x + 1) (2 * y)) +
    component c (yccOf data o (2 * x) (2 * y + 1)) + component c (yccOf data o (2 * x + 1) (2 * y + 1))) / 4

theorem sample4_eq (data : List UInt8) (o : Options) (c x y : Nat) :
    ((Jpeg.sample4 data o.width o.height o.colorType o.subsampling c x y : Int) : ℝ) = 4 * sampleOf data o c x y := by
  unfold Jpeg.sample4 sampleOf
  have h : ∀ x y, Jpeg.compAt data o.width o.height o.colorType c x y = component c (yccOf data o x y) :=
    fun _ _ => rfl
  split
  · rw [h]; push_cast; ring
  · rw [h, h, h, h]; push_cast; ring

theorem comp_range (c : Nat) (p : UInt8 × UInt8 × UInt8) : 0 ≤ Jpeg.comp c p ∧ Jpeg.comp c p ≤ 255 := by
  have h1 := p.1.toNat_lt
  have h2 := p.2.1.toNat_lt
  have h3 := p.2.2.toNat_lt
  unfold Jpeg.comp
  split
  · omega
  · split <;> omega

theorem sample4_range (data : List UInt8) (w h : Nat) (color : ColorType) (sub : Jpeg.Subsampling) (c x y : Nat) :
    0 ≤ Jpeg.sample4 data w h color sub c x y ∧ Jpeg.sample4 data w h color sub c x y ≤ 1020 := by
  unfold Jpeg.sample4 Jpeg.compAt
  split
  · have := comp_range c (Jpeg.yccAt data w h color x y); omega
  · have h1 := comp_range c (Jpeg.yccAt data w h color (2 * x) (2 * y))
    have h2 := comp_range c (Jpeg.yccAt data w h color (2 * x + 1) (2 * y))
    have h3 := comp_range c (Jpeg.yccAt data w h color (2 * x) (2 * y + 1))
    have h4 := comp_range c (Jpeg.yccAt data w h color (2 * x + 1) (2 * y + 1))
    omega

theorem blockSamples_samples (data : List UInt8) (w h : Nat) (color : ColorType) (sub : Jpeg.Subsampling) (c x y : Nat) :
    Jpeg.Samples (Jpeg.blockSamples data w h color sub c x y) := by
  intro i hi
  unfold Jpeg.blockSamples
  rw [Jpeg.getD_map_range 64 _ i 0 hi]
  have := sample4_range data w h color sub c (x + i % 8) (y + i / 8)
  unfold Jpeg.smLo Jpeg.smHi
  omega

theorem fdct_congr {s t : Nat → Nat → ℝ} (h : ∀ y < 8, ∀ x < 8, s y x = t y x) (v u : Nat) : fdct s v u = fdct t v u := by
  unfold fdct
  congr 1
  apply Finset.sum_congr rfl
  intro x hx
  apply Finset.sum_congr rfl
  intro y hy
  rw [h y (Finset.mem_range.1 hy) x (Finset.mem_range.1 hx)]

theorem realBlock_eq (data : List UInt8) (o : Options) (c x y : Nat) (yy xx : Nat) (hy : yy < 8) (hx : xx < 8) :
    Jpeg.realBlock (Jpeg.blockSamples data o.width o.height o.colorType o.subsampling c x y) yy xx =
      sampleOf data o c (x + xx) (y + yy) - 128 := by
  unfold Jpeg.realBlock Jpeg.blockSamples
  rw [Jpeg.getD_map_range 64 _ _ 0 (by omega), show (yy * 8 + xx) % 8 = xx by omega,
    show (yy * 8 + xx) / 8 = yy by omega]
  push_cast
  rw [sample4_eq]
  ring

/-- Quantization in reals. -/
theorem quantize_real (b : List Int) (table : List Nat) (ht : Jpeg.TableRange table) (hb : Jpeg.Samples b)
    (i : Nat) (hi : i < 64) :
    |(((Jpeg.quantizeBlock (Jpeg.dct2d b) table).getD i 0 : Int) : ℝ) * ((table.getD i 1 : Nat) : ℝ) -
      (((Jpeg.dct2d b).getD i 0 : Int) : ℝ) / 2 ^ 149| ≤ ((table.getD i 1 : Nat) : ℝ) * (1 / 2 + 1 / 4096) := by
  have hr := Jpeg.quantizeBlock_range b table ht hb i hi
  unfold Jpeg.quantizeBlock at *
  rw [Jpeg.getD_map_range 64 _ i 0 hi] at *
  have hd := Jpeg.dct2d_range b hb i hi
  obtain ⟨t1, t2⟩ := ht i hi
  generalize (Jpeg.dct2d b).getD i 0 = x at *
  generalize table.getD i 1 = q at *
  have hx : -(2 ^ 162) < x ∧ x < 2 ^ 162 := by
    by_cases h0 : i = 0
    · have := hd.2 h0; omega
    · have := hd.1 h0; omega
  have hn := Jpeg.div_near (x := x) t1 t2 hx
  generalize F32.div x (F32.ofInt q) = D at *
  have hround : 2 * D ≤ 2 * (F32.round D * 2 ^ 149) + 2 ^ 149 ∧ 2 * (F32.round D * 2 ^ 149) ≤ 2 * D + 2 ^ 149 := by
    unfold F32.round F32.one
    split <;> omega
  have hi16 : F32.toI16 (F32.round D) = F32.round D := by
    have : -1024 ≤ F32.toI16 (F32.round D) ∧ F32.toI16 (F32.round D) ≤ 1021 := by
      by_cases h0 : i = 0
      · exact hr.2 h0
      · have := hr.1 h0; omega
    unfold F32.toI16 at *
    omega
  rw [hi16]
  generalize F32.round D = n at *
  have a1 : (2 : ℝ) * D ≤ 2 * (n * 2 ^ 149) + 2 ^ 149 := by exact_mod_cast hround.1
  have a2 : (2 : ℝ) * (n * 2 ^ 149) ≤ 2 * D + 2 ^ 149 := by exact_mod_cast hround.2
  have b1 : (2 : ℝ) * (D * q) ≤ 2 * x + q * 2 ^ 138 := by exact_mod_cast hn.1
  have b2 : (2 : ℝ) * x ≤ 2 * (D * q) + q * 2 ^ 138 := by exact_mod_cast hn.2
  have hq : (0 : ℝ) ≤ q := Nat.cast_nonneg q
  have a1' := mul_le_mul_of_nonneg_right a1 hq
  have a2' := mul_le_mul_of_nonneg_right a2 hq
  have e : (n : ℝ) * q - x / 2 ^ 149 = (n * q * 2 ^ 149 - x) / 2 ^ 149 := by
    rw [sub_div, mul_div_cancel_right₀ _ (by positivity)]
  rw [e, abs_div, abs_of_pos (show (0 : ℝ) < 2 ^ 149 by positivity), div_le_iff₀ (by positivity), abs_le]
  constructor <;> nlinarith

theorem zigzag_lt (z : Nat) (h : z < 64) : zigzag.getD z 0 < 64 := by
  have : ∀ z ∈ List.range 64, zigzag.getD z 0 < 64 := by decide +kernel
  exact this z (by simpa using h)

/-- The table of component `c` as the file has it. -/
theorem quantFor_getD (o : Options) (c z : Nat) (hc : c < (frameFor o).comps.length) (hz : z < 64) :
    ((quantFor o).getD c []).getD z 0 =
      (Jpeg.tableFor (QuantTables.withQuality o.quality) c).getD (zigzag.getD z 0) 0 := by
  have hl : zigzag.length = 64 := by decide +kernel
  have hm : ∀ (t : List Nat), (zigzag.map (fun i => t.getD i 0)).getD z 0 = t.getD (zigzag.getD z 0) 0 := by
    intro t
    simp only [List.getD_eq_getElem?_getD, List.getElem?_map, List.getElem?_eq_getElem (hl ▸ hz), Option.map_some,
      Option.getD_some]
  unfold quantFor Jpeg.tableFor
  unfold frameFor at hc
  by_cases hg : o.colorType = .gray
  · simp only [hg, if_true, List.length_cons, List.length_nil] at *
    obtain rfl : c = 0 := by omega
    exact hm _
  · simp only [if_neg hg] at *
    have : c < 3 := by split at hc <;> exact hc
    have hcase : c = 0 ∨ c = 1 ∨ c = 2 := by omega
    rcases hcase with rfl | rfl | rfl
    · exact hm _
    · exact hm _
    · exact hm _

theorem blocksAt_comp (f : Frame) (k : Nat) (p : Nat × Nat × Nat) (h : p ∈ blocksAt f k) : p.1 < f.comps.length := by
  unfold blocksAt at h
  obtain ⟨⟨c, i⟩, hc, hp⟩ := List.mem_flatMap.mp h
  obtain ⟨b, _, rfl⟩ := List.mem_map.mp hp
  have := List.snd_lt_of_mem_zipIdx hc
  simpa using this

/-- **C50**. Whatever reads the file as T.81 prescribes gets, for every block, coefficients that times the
quantization steps in the file are the DCT of the image's samples at the place of that block, up to half a
step, the error of the division (a 4096th of a step) and the error of the transform (a twentieth). -/
theorem C50_coefficients (data : List UInt8) (o : Options) (hv : JpegValid data o)
    (hp : o.progressive = false) (file : List UInt8) (henc : Jpeg.encode data o = .ok file)
    (f : Frame) (quant : List (List Nat)) (mcus : List (List (Nat × List Int))) (hread : Reads file f quant mcus) :
    mcus.length = mcuCount f ∧
    ∀ (k : Nat) (m : List (Nat × List Int)), mcus[k]? = some m → m.map (·.1) = (blocksAt f k).map (·.1) ∧
    ∀ (j c : Nat) (zz : List Int) (c' x y : Nat), m[j]? = some (c, zz) → (blocksAt f k)[j]? = some (c', x, y) →
    zz.length = 64 ∧ ∀ z < 64,
      |((zz.getD z 0 : Int) : ℝ) * (((quant.getD c []).getD z 0 : Nat) : ℝ) -
        fdct (fun yy xx => sampleOf data o c (x + xx) (y + yy) - 128) (zigzag.getD z 0 / 8) (zigzag.getD z 0 % 8)| ≤
      (((quant.getD c []).getD z 0 : Nat) : ℝ) * (1 / 2 + 1 / 4096) + 1 / 20 := by
  obtain ⟨file', mcus0, e1, e2, _, huniq⟩ := C29_lossless data o hv hp
  rw [henc] at e1
  injection e1 with e1
  subst e1
  obtain ⟨rfl, rfl, rfl⟩ := huniq f quant mcus hread
  obtain ⟨hb, _⟩ := Jpeg.validate_baseline hv.validate
  have hm := Jpeg.mcus_eq hb
  unfold blocksOf at e2
  rw [e2] at hm
  injection hm with hm
  have hfr : (Jpeg.Ctx.of data o (QuantTables.withQuality o.quality)).frame = frameFor o := rfl
  rw [hfr] at hm
  subst hm
  refine ⟨by simp [zigzagged], ?_⟩
  intro k m hk
  unfold zigzagged at hk
  rw [List.getElem?_map, List.getElem?_map] at hk
  have hkl : k < mcuCount (frameFor o) := by
    rcases Nat.lt_or_ge k (mcuCount (frameFor o)) with h | h
    · exact h
    · rw [List.getElem?_eq_none (by simpa using h)] at hk; cases hk
  rw [List.getElem?_range hkl] at hk
  simp only [Option.map_some, Option.some.injEq] at hk
  subst hk
  refine ⟨by simp [List.map_map, Function.comp_def], ?_⟩
  intro j c zz c' x y hj hj'
  have hmem := List.mem_of_getElem? hj'
  rw [List.getElem?_map, List.getElem?_map, hj'] at hj
  simp only [Option.map_some, Option.some.injEq, Prod.mk.injEq] at hj
  obtain ⟨rfl, rfl⟩ := hj
  refine ⟨by unfold toZigzag; rw [List.length_map]; decide +kernel, ?_⟩
  intro z hz
  have hc : c' < (frameFor o).comps.length := blocksAt_comp _ _ _ hmem
  rw [quantFor_getD o c' z hc hz]
  have hl : zigzag.length = 64 := by decide +kernel
  have hzz : ∀ b : List Int, (toZigzag b).getD z 0 = b.getD (zigzag.getD z 0) 0 := by
    intro b
    unfold toZigzag
    simp only [List.getD_eq_getElem?_getD, List.getElem?_map, List.getElem?_eq_getElem (hl ▸ hz), Option.map_some,
      Option.getD_some]
  rw [hzz]
  have hi := zigzag_lt z hz
  generalize zigzag.getD z 0 = i at *
  have hct : Jpeg.TableRange (Jpeg.tableFor (QuantTables.withQuality o.quality) c') := by
    unfold Jpeg.tableFor
    split
    · exact hb.lum
    · exact hb.chrom
  have hb' : (Jpeg.Ctx.of data o (QuantTables.withQuality o.quality)).blockAt c' x y =
      Jpeg.quantizeBlock (Jpeg.dct2d (Jpeg.blockSamples data o.width o.height o.colorType o.subsampling c' x y))
        (Jpeg.tableFor (QuantTables.withQuality o.quality) c') := rfl
  rw [hb']
  have hs := blockSamples_samples data o.width o.height o.colorType o.subsampling c' x y
  have h1 := quantize_real _ _ hct hs i hi
  have h2 := Jpeg.dct2d_fdct _ hs (i / 8) (i % 8) (by omega) (by omega)
  rw [show i / 8 * 8 + i % 8 = i by omega] at h2
  rw [fdct_congr (fun yy hy xx hx => realBlock_eq data o c' x y yy xx hy hx)] at h2
  have htl : (Jpeg.tableFor (QuantTables.withQuality o.quality) c').length = 64 := by
    obtain ⟨g1, g2⟩ := C33_tables o.quality
    unfold Jpeg.tableFor
    split
    · exact g1.length
    · exact g2.length
  have htd : (Jpeg.tableFor (QuantTables.withQuality o.quality) c').getD i 1 =
      (Jpeg.tableFor (QuantTables.withQuality o.quality) c').getD i 0 := by
    simp only [List.getD_eq_getElem?_getD, List.getElem?_eq_getElem (htl ▸ hi), Option.getD_some]
  rw [htd] at h1
  exact (abs_sub_le _ _ _).trans (add_le_add h1 h2)

/-- The file of the example codes the transform of its two pixels, repeated. -/
example : ∃ file mcus, Jpeg.encode [0, 255] jpegOptions = .ok file ∧
    Reads file ⟨1, 2, [⟨1, 1, 1, 0⟩]⟩ (quantFor jpegOptions) mcus ∧ mcus.length = 1 ∧
    blocksAt ⟨1, 2, [⟨1, 1, 1, 0⟩]⟩ 0 = [(0, 0, 0)] :=
  let ⟨file, mcus, h, _, r, _⟩ := C29_lossless [0, 255] jpegOptions jpegOptions_valid rfl
  ⟨file, zigzagged mcus, h, r,
    (C50_coefficients _ _ jpegOptions_valid rfl file h _ _ _ r).1.trans (by decide), by decide⟩

end Pixo.Props
