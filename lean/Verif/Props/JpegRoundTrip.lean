import Verif.Props.JpegImage
import Verif.Props.Idct
import Verif.Proof.JpegDecodeFile
/-
C30: the JPEG decoder on files of the JPEG encoder.
-/
namespace Pixo.Props
open Pixo.Jpeg (Options QuantTables)
open Pixo.JpegDecode (Image decodeJpeg toRgb)
open Spec.T81

/-! ### Dequantization -/

theorem foldl_set_other (pos : Nat → Nat) (g : Nat → Int) (l : List Nat) (init : List Int) (p : Nat) (h : ∀ i ∈ l, pos i ≠ p) :
    (l.foldl (fun r i => r.set (pos i) (g i)) init).getD p 0 = init.getD p 0 := by
  induction l generalizing init with
  | nil => rfl
  | cons a l ih =>
    rw [List.foldl_cons, ih _ (fun i hi => h i (List.mem_cons_of_mem _ hi)), List.getD_eq_getElem?_getD,
      List.getElem?_set_ne (h a (List.mem_cons_self ..)), ← List.getD_eq_getElem?_getD]

theorem foldl_set_getD (pos : Nat → Nat) (g : Nat → Int) (l : List Nat) (hl : l.Pairwise (fun i j => pos i ≠ pos j))
    (init : List Int) (z : Nat) (hz : z ∈ l) (hp : pos z < init.length) :
    (l.foldl (fun r i => r.set (pos i) (g i)) init).getD (pos z) 0 = g z := by
  induction l generalizing init with
  | nil => cases hz
  | cons a l ih =>
    obtain ⟨h1, h2⟩ := List.pairwise_cons.1 hl
    rw [List.foldl_cons]
    rcases List.mem_cons.1 hz with rfl | hz
    · rw [foldl_set_other _ _ _ _ _ (fun i hi => (h1 i hi).symm), List.getD_eq_getElem?_getD,
        List.getElem?_set_self hp]
      rfl
    · exact ih h2 _ hz (by simpa using hp)

/-- Dequantization puts coefficient number `z` into its place of the zigzag path. -/
theorem dequantize_getD (zz : List Int) (q : List Nat) (z : Nat) (hz : z < 64) :
    (Idct.dequantize zz q).getD (zigzag.getD z 0) 0 = zz.getD z 0 * (q.getD z 0 : Int) := by
  have key : ∀ z ∈ List.range 64, Idct.unzigzag.getD z 0 = zigzag.getD z 0 := by decide +kernel
  rw [← key z (by simpa using hz)]
  unfold Idct.dequantize
  refine foldl_set_getD (fun i => Idct.unzigzag.getD i 0) (fun i => zz.getD i 0 * (q.getD i 0 : Int)) (List.range 64)
    (by decide +kernel) _ z (by simpa using hz) ?_
  rw [List.length_replicate, key z (by simpa using hz)]
  exact zigzag_lt z hz

/-- Every place is on the zigzag path. -/
theorem zigzag_onto (i : Nat) (hi : i < 64) : ∃ z < 64, zigzag.getD z 0 = i := by
  have : ∀ i ∈ List.range 64, ∃ z ∈ List.range 64, zigzag.getD z 0 = i := by decide +kernel
  obtain ⟨z, hz, e⟩ := this i (by simpa using hi)
  exact ⟨z, by simpa using hz, e⟩

/-! ### The places of the blocks -/

/-- The blocks of the MCUs cover the components: with `rows` rows of MCUs, every sample lies in the block
of an MCU that starts at the next multiples of eight to the left and above. -/
theorem blocksAt_cover (f : Frame) (rows : Nat) (hr : mcuCount f = mcusPerRow f * rows) (i : Nat) (c : Component)
    (hc : f.comps[i]? = some c) (X Y : Nat) (hX : X < 8 * (mcusPerRow f * c.h)) (hY : Y < 8 * (rows * c.v)) :
    ∃ k j : Nat, k < mcuCount f ∧ (blocksAt f k)[j]? = some (i, X / 8 * 8, Y / 8 * 8) := by
  have hx : X / 8 < mcusPerRow f * c.h := by omega
  have hy : Y / 8 < rows * c.v := by omega
  have hh : 0 < c.h := Nat.pos_of_ne_zero (fun h => by rw [h, Nat.mul_zero] at hx; omega)
  have hv : 0 < c.v := Nat.pos_of_ne_zero (fun h => by rw [h, Nat.mul_zero] at hy; omega)
  have hmx : X / 8 / c.h < mcusPerRow f := (Nat.div_lt_iff_lt_mul hh).2 hx
  have hmy : Y / 8 / c.v < rows := (Nat.div_lt_iff_lt_mul hv).2 hy
  have hcols : 0 < mcusPerRow f := Nat.lt_of_le_of_lt (Nat.zero_le _) hmx
  refine ⟨Y / 8 / c.v * mcusPerRow f + X / 8 / c.h, ?_⟩
  have hk1 : (Y / 8 / c.v * mcusPerRow f + X / 8 / c.h) % mcusPerRow f = X / 8 / c.h := by
    rw [Nat.mul_comm, Nat.mul_add_mod, Nat.mod_eq_of_lt hmx]
  have hk2 : (Y / 8 / c.v * mcusPerRow f + X / 8 / c.h) / mcusPerRow f = Y / 8 / c.v := by
    rw [Nat.mul_comm, Nat.mul_add_div hcols, Nat.div_eq_of_lt hmx, Nat.add_zero]
  have hmem : (i, X / 8 * 8, Y / 8 * 8) ∈ blocksAt f (Y / 8 / c.v * mcusPerRow f + X / 8 / c.h) := by
    unfold blocksAt
    refine List.mem_flatMap.2 ⟨(c, i), List.mk_mem_zipIdx_iff_getElem?.2 hc, List.mem_map.2
      ⟨Y / 8 % c.v * c.h + X / 8 % c.h, ?_, ?_⟩⟩
    · rw [List.mem_range]
      have h1 := Nat.mod_lt (Y / 8) hv
      have h2 := Nat.mod_lt (X / 8) hh
      have h3 := Nat.mul_le_mul_right c.h h1
      rw [Nat.succ_mul, Nat.mul_comm c.v] at h3
      omega
    · rw [hk1, hk2, Nat.mul_comm (Y / 8 % c.v), Nat.mul_add_mod, Nat.mod_eq_of_lt (Nat.mod_lt _ hh), Nat.mul_add_div hh,
        Nat.div_eq_of_lt (Nat.mod_lt _ hh), Nat.add_zero]
      have h1 := Nat.div_add_mod (X / 8) c.h
      have h2 := Nat.div_add_mod (Y / 8) c.v
      rw [Nat.mul_comm] at h1 h2
      rw [h1, h2, Nat.mul_comm 8, Nat.mul_comm 8]
  obtain ⟨j, hj⟩ := List.getElem?_of_mem hmem
  refine ⟨j, ?_, hj⟩
  rw [hr]
  have := Nat.mul_le_mul_right (mcusPerRow f) hmy
  rw [Nat.succ_mul, Nat.mul_comm rows] at this
  omega

/-! ### The size of the coefficients -/

theorem fdct_bound (s : Nat → Nat → ℝ) (b : ℝ) (hb : 0 ≤ b) (h : ∀ y < 8, ∀ x < 8, |s y x| ≤ b) (v u : Nat) :
    |fdct s v u| ≤ 16 * b := by
  rw [Jpeg.fdct_eq]
  have lip : ∀ (d : Nat → ℝ) (c : ℝ) (k : Nat), 0 ≤ c → (∀ i < 8, |d i| ≤ c) →
      |∑ i ∈ Finset.range 8, Jpeg.kern k i * d i| ≤ 4 * c := by
    intro d c k hc hd
    refine (Finset.abs_sum_le_sum_abs _ _).trans ?_
    refine (Finset.sum_le_sum (g := fun _ => 1 / 2 * c) fun i hi => ?_).trans (by simp; linarith)
    rw [abs_mul]
    exact mul_le_mul (Jpeg.kern_abs _ _) (hd _ (Finset.mem_range.1 hi)) (abs_nonneg _) (by norm_num)
  refine (lip _ (4 * b) v (by linarith) (fun y hy => lip _ b u hb (fun x hx => h y hy x hx))).trans (by linarith)

theorem sampleOf_range (data : List UInt8) (o : Options) (c x y : Nat) : 0 ≤ sampleOf data o c x y ∧ sampleOf data o c x y ≤ 255 := by
  have h1 := sample4_eq data o c x y
  obtain ⟨h2, h3⟩ := sample4_range data o.width o.height o.colorType o.subsampling c x y
  have h2' : (0 : ℝ) ≤ ((Jpeg.sample4 data o.width o.height o.colorType o.subsampling c x y : Int) : ℝ) := by exact_mod_cast h2
  have h3' : ((Jpeg.sample4 data o.width o.height o.colorType o.subsampling c x y : Int) : ℝ) ≤ 1020 := by exact_mod_cast h3
  constructor <;> linarith

theorem quantFor_le (o : Options) (c z : Nat) (hc : c < (frameFor o).comps.length) (hz : z < 64) :
    ((quantFor o).getD c []).getD z 0 ≤ 255 := by
  rw [quantFor_getD o c z hc hz]
  have hi := zigzag_lt z hz
  obtain ⟨h1, h2⟩ := C33_tables o.quality
  unfold Jpeg.tableFor
  have key : ∀ t : List Nat, (∀ v ∈ t, 1 ≤ v ∧ v ≤ 255) → ∀ i, t.getD i 0 ≤ 255 := by
    intro t ht i
    rw [List.getD_eq_getElem?_getD]
    cases h : t[i]? with
    | none => exact Nat.zero_le _
    | some v => exact (ht v (List.mem_of_getElem? h)).2
  split
  · exact key _ h1.range _
  · exact key _ h2.range _

/-- The dequantized coefficients of a file are near the transform of the image. -/
theorem dequantized_near (data : List UInt8) (o : Options) (hv : JpegValid data o) (hp : o.progressive = false)
    (file : List UInt8) (henc : Jpeg.encode data o = .ok file) (f : Frame) (quant : List (List Nat))
    (mcus : List (List (Nat × List Int))) (hread : Reads file f quant mcus)
    (k : Nat) (m : List (Nat × List Int)) (hk : mcus[k]? = some m) (j c : Nat) (zz : List Int) (c' x y : Nat)
    (hj : m[j]? = some (c, zz)) (hj' : (blocksAt f k)[j]? = some (c', x, y)) (Q : Nat) (hQ : Q ≤ 255)
    (hq : ∀ z < 64, (quant.getD c []).getD z 0 ≤ Q) :
    (∀ v < 8, ∀ u < 8, |((Idct.dequantize zz (quant.getD c [])).getD (8 * v + u) 0 : ℝ) -
      fdct (fun yy xx => sampleOf data o c (x + xx) (y + yy) - 128) v u| ≤ Q * (1 / 2 + 1 / 4096) + 1 / 20) ∧
    ∀ i < 64, ((Idct.dequantize zz (quant.getD c [])).getD i 0).natAbs ≤ 2176 := by
  obtain ⟨_, h2⟩ := (C50_coefficients data o hv hp file henc f quant mcus hread).2 k m hk
  obtain ⟨hl, hn⟩ := h2 j c zz c' x y hj hj'
  have key : ∀ v < 8, ∀ u < 8, |((Idct.dequantize zz (quant.getD c [])).getD (8 * v + u) 0 : ℝ) -
      fdct (fun yy xx => sampleOf data o c (x + xx) (y + yy) - 128) v u| ≤ Q * (1 / 2 + 1 / 4096) + 1 / 20 := by
    intro v hv u hu
    obtain ⟨z, hz, e⟩ := zigzag_onto (8 * v + u) (by omega)
    have := hn z hz
    rw [← e, dequantize_getD _ _ _ hz]
    rw [e, show (8 * v + u) / 8 = v by omega, show (8 * v + u) % 8 = u by omega] at this
    have hqz : (((quant.getD c []).getD z 0 : Nat) : ℝ) ≤ Q := by exact_mod_cast hq z hz
    push_cast
    exact this.trans (by nlinarith)
  refine ⟨key, ?_⟩
  intro i hi
  have h1 := key (i / 8) (by omega) (i % 8) (by omega)
  rw [show 8 * (i / 8) + i % 8 = i by omega] at h1
  have h2 := fdct_bound (fun yy xx => sampleOf data o c (x + xx) (y + yy) - 128) 128 (by norm_num) (fun yy _ xx _ => by
    have := sampleOf_range data o c (x + xx) (y + yy)
    rw [abs_le]; constructor <;> linarith [this.1, this.2]) (i / 8) (i % 8)
  have hQ' : (Q : ℝ) ≤ 255 := by exact_mod_cast hQ
  generalize (Idct.dequantize zz (quant.getD c [])).getD i 0 = d at *
  rw [abs_le] at h1 h2
  have a1 : (d : ℝ) < 2177 := by linarith [h1.2, h2.2]
  have a2 : (-2177 : ℝ) < d := by linarith [h1.1, h2.1]
  have b1 : d < 2177 := by exact_mod_cast a1
  have b2 : -2177 < d := by exact_mod_cast a2
  omega

/-! ### C30 -/

/-- The image with the samples `planes c y x`: gray samples as they are, colours converted, and with 4:2:0
every sample of the second and third component repeated two by two times. -/
def ImageOf (o : Options) (planes : Nat → Nat → Nat → UInt8) (img : Image) : Prop :=
  img.width = o.width ∧ img.height = o.height ∧ img.colorType = o.colorType ∧
  (o.colorType = .gray → img.pixels.length = o.height * o.width ∧
    ∀ Y < o.height, ∀ X < o.width, img.pixels.getD (Y * o.width + X) 0 = planes 0 Y X) ∧
  (o.colorType = .rgb → img.pixels.length = o.height * (o.width * 3) ∧
    ∀ Y < o.height, ∀ X < o.width, ∀ ch < 3, img.pixels.getD (3 * (Y * o.width + X) + ch) 0 =
      (let n := if o.subsampling = .s444 then 1 else 2
       toRgb (planes 0 Y X).toNat (planes 1 (Y / n) (X / n)).toNat (planes 2 (Y / n) (X / n)).toNat).getD ch 0)

/-- C30 for files without restart intervals, in any build: the decoder accepts every such file the encoder
writes and shows, for each block that T.81 finds in the file, the inverse transform of the dequantized
coefficients, in the place of the block. (`blocksAt_cover`: the blocks are everywhere. C32: what the inverse
transform computes. C50: what the coefficients are.)

Missing for C30: files with restart intervals, on which the decoder fails (`C30_violation`). -/
theorem C30_partial (ck : Bool) (data : List UInt8) (o : Options) (hv : JpegValid data o) (hp : o.progressive = false)
    (hri : o.restartInterval = none) (file : List UInt8) (henc : Jpeg.encode data o = .ok file) (f : Frame)
    (quant : List (List Nat)) (mcus : List (List (Nat × List Int))) (hread : Reads file f quant mcus) :
    ∃ img planes, decodeJpeg ck file = .ok img ∧ ImageOf o planes img ∧
      ∀ (k : Nat) (m : List (Nat × List Int)) (j c : Nat) (zz : List Int) (c' x y : Nat), mcus[k]? = some m →
        m[j]? = some (c, zz) → (blocksAt f k)[j]? = some (c', x, y) →
        ∃ px, Idct.idct ck (Idct.dequantize zz (quant.getD c [])) = .ok px ∧
          ∀ yy < 8, ∀ xx < 8, planes c (y + yy) (x + xx) = px.getD (8 * yy + xx) 0 := by
  have hnear := dequantized_near data o hv hp file henc f quant mcus hread
  obtain ⟨hcount, hshape⟩ := C50_coefficients data o hv hp file henc f quant mcus hread
  obtain ⟨mcus0, t, scan, e1, hm, hl, ht, hc, hstd, hscan, e⟩ := Jpeg.encodeBody_baseline data o hv.validate hp
  have hw : o.width < 65536 := by have := hv.width; omega
  have hh : o.height < 65536 := by have := hv.height; omega
  have hfile : file = Jpeg.header o (QuantTables.withQuality o.quality) t 0xFFC0 ++
      Jpeg.sos o.colorType ++ (scan ++ Jpeg.eoi) := by
    rw [Jpeg.encode, Jpeg.encodeInto, hv.validate] at henc
    simp only at henc
    rw [e] at henc
    injection henc with henc
    rw [← henc]
    simp only [List.append_assoc]
  obtain ⟨file', mcus1, e2, e3, hr0, huniq⟩ := C29_lossless data o hv hp
  rw [henc] at e2
  injection e2 with e2
  subst e2
  obtain ⟨rfl, rfl, rfl⟩ := huniq f quant mcus hread
  unfold blocksOf at e3
  rw [e1] at e3
  injection e3 with e3
  subst e3
  rw [zigzagged_eq] at *
  rw [hri] at hscan
  have hseg : Segment t.spec (mcus0.map Jpeg.zzMcu).flatten scan := hscan
  generalize hM : mcus0.map Jpeg.zzMcu = M at *
  have hdec := JpegDecode.decodeJpeg_file ck o (QuantTables.withQuality o.quality) t (scan ++ Jpeg.eoi)
    (Jpeg.withQuality_length _) ht hw hh (fun i h => by rw [hri] at h; cases h)
  rw [← hfile, hri] at hdec
  obtain ⟨g1, g2⟩ := C33_tables o.quality
  have hcl : (frameFor o).comps.length = (JpegDecode.scanComps o.colorType o.subsampling).length := by
    have := congrArg List.length (JpegDecode.same_file o)
    rw [List.length_map, List.length_map] at this
    exact this.symm
  -- the samples of a block
  have hpx : ∀ (k : Nat) (m : List (Nat × List Int)) (j c : Nat) (zz : List Int), M[k]? = some m → m[j]? = some (c, zz) →
      ∃ x y, (blocksAt (frameFor o) k)[j]? = some (c, x, y) ∧ c < (frameFor o).comps.length ∧
      ∃ px, Idct.idct ck (Idct.dequantize zz ((quantFor o).getD c [])) = .ok px := by
    intro k m j c zz hk hj
    have hs := (hshape k m hk).1
    have h1 : ((blocksAt (frameFor o) k).map (·.1))[j]? = some c := by
      rw [← hs, List.getElem?_map, hj]; rfl
    rw [List.getElem?_map] at h1
    obtain ⟨⟨c0, x, y⟩, h2, h3⟩ := Option.map_eq_some_iff.1 h1
    simp only at h3
    subst h3
    have hcc := blocksAt_comp _ _ _ (List.mem_of_getElem? h2)
    obtain ⟨_, hb⟩ := hnear k m hk j c0 zz c0 x y hj h2 255 (by decide) (fun z hz => quantFor_le o c0 z hcc hz)
    obtain ⟨px, hx, _⟩ := idct_samples (ck := ck) (b := 2176) (by decide) hb
    exact ⟨x, y, h2, hcc, px, hx⟩
  let px : Nat → List Int → List UInt8 := fun c zz =>
    ((Idct.idct ck (Idct.dequantize zz ((quantFor o).getD c []))).toOption).getD []
  have hpxok : ∀ c zz p, Idct.idct ck (Idct.dequantize zz ((quantFor o).getD c [])) = .ok p → px c zz = p := by
    intro c zz p h
    show ((Idct.idct ck (Idct.dequantize zz ((quantFor o).getD c []))).toOption).getD [] = p
    rw [h]; rfl
  have hquant : ∀ i, i < (frameFor o).comps.length → ∃ c,
      (JpegDecode.scanComps o.colorType o.subsampling)[i]? = some c ∧
      ([(QuantTables.withQuality o.quality).luminance.map UInt8.toNat,
        (QuantTables.withQuality o.quality).chrominance.map UInt8.toNat, List.replicate 64 0,
        List.replicate 64 0] : List (List Nat))[c.quant]? = some ((quantFor o).getD i []) := by
    intro i hi
    rw [hcl] at hi
    rw [g1.file, g2.file]
    unfold JpegDecode.scanComps at hi ⊢
    unfold quantFor
    by_cases hg : o.colorType = .gray
    · simp only [if_pos hg] at hi ⊢
      match i, hi with
      | 0, _ => exact ⟨_, rfl, rfl⟩
    · simp only [if_neg hg] at hi ⊢
      by_cases hs : o.subsampling = .s444
      · simp only [if_pos hs] at hi ⊢
        match i, hi with
        | 0, _ => exact ⟨_, rfl, rfl⟩
        | 1, _ => exact ⟨_, rfl, rfl⟩
        | 2, _ => exact ⟨_, rfl, rfl⟩
      · simp only [if_neg hs] at hi ⊢
        match i, hi with
        | 0, _ => exact ⟨_, rfl, rfl⟩
        | 1, _ => exact ⟨_, rfl, rfl⟩
        | 2, _ => exact ⟨_, rfl, rfl⟩
  have hblocks : ∀ b ∈ M.flatten, JpegDecode.BlockOk ck (JpegDecode.fileState o (QuantTables.withQuality o.quality) t 0) px b := by
    rintro ⟨c, zz⟩ hb
    obtain ⟨m, hmem, hbm⟩ := List.mem_flatten.1 hb
    obtain ⟨k, hk⟩ := List.getElem?_of_mem hmem
    obtain ⟨j, hj⟩ := List.getElem?_of_mem hbm
    obtain ⟨x, y, _, hcc, p, hp'⟩ := hpx k m j c zz hk hj
    refine ⟨?_, ?_⟩
    · rw [← hM] at hmem
      obtain ⟨m0, hm0, rfl⟩ := List.mem_map.1 hmem
      obtain ⟨b0, hb0, hbe⟩ := List.mem_map.1 hbm
      have := ((hm m0 hm0).1 b0 hb0).2.dc
      simp only [Prod.mk.injEq] at hbe
      rw [hbe.2] at this
      simp only
      omega
    · obtain ⟨cc, h1, h2⟩ := hquant c hcc
      refine ⟨cc, _, h1, h2, ?_⟩
      rw [hpxok c zz p hp']
      exact hp'
  obtain ⟨img, planes, d1, d2, d3, d4, d5, d6, d7⟩ := JpegDecode.decodeScan_file ck o (QuantTables.withQuality o.quality) t ht
    hv.color px M scan hseg hcount (fun k m hk => (hshape k m hk).1) hblocks
  refine ⟨img, planes, hdec.trans d1, ⟨d2, d3, d4, d6, ?_⟩, ?_⟩
  · intro hg
    obtain ⟨a1, a2⟩ := d7 hg
    refine ⟨a1, fun Y hY X hX ch hch => ?_⟩
    rw [a2 Y hY X hX ch hch]
    have : JpegDecode.maxOf o.colorType o.subsampling = if o.subsampling = .s444 then 1 else 2 := by
      unfold JpegDecode.maxOf; rw [hg]; rfl
    rw [this]
  · intro k m j c zz c' x y hk hj hj'
    obtain ⟨x', y', h1, hcc, p, hp'⟩ := hpx k m j c zz hk hj
    rw [h1] at hj'
    injection hj' with hj'
    simp only [Prod.mk.injEq] at hj'
    obtain ⟨rfl, rfl, rfl⟩ := hj'
    refine ⟨p, hp', fun yy hy xx hx => ?_⟩
    rw [d5 k m j c zz c x' y' hk hj h1 yy hy xx hx, hpxok c zz p hp']

/-- The mean of the four samples at `(X, Y)` and its mirror images within its block. -/
noncomputable def mirrored (s : Nat → Nat → ℝ) (Y X : Nat) : ℝ :=
  let X' := X / 8 * 8 + (7 - X % 8)
  let Y' := Y / 8 * 8 + (7 - Y % 8)
  1 / 4 * (s X Y + s X' Y + s X Y' + s X' Y')

theorem frameFor_rows (o : Options) :
    mcuCount (frameFor o) = mcusPerRow (frameFor o) *
      ceilDiv o.height (8 * if o.colorType = .gray ∨ o.subsampling = .s444 then 1 else 2) := by
  unfold frameFor mcuCount mcusPerRow
  by_cases hg : o.colorType = .gray
  · simp only [if_pos hg, hg, true_or, if_true]
  · simp only [if_neg hg, hg, false_or]
    by_cases hs : o.subsampling = .s444
    · simp only [if_pos hs]; rfl
    · simp only [if_neg hs]; rfl

/-- C30 and C32 together: what comes out of the decoder for what went into the encoder, for every baseline
file without restart intervals, with steps of at most `Q` in the quantization tables. It is not the image,
but the image whose every block is averaged with its mirror images. -/
theorem C30_mirror_partial (ck : Bool) (data : List UInt8) (o : Options) (hv : JpegValid data o) (hp : o.progressive = false)
    (hri : o.restartInterval = none) (file : List UInt8) (henc : Jpeg.encode data o = .ok file) (Q : Nat) (hQ : Q ≤ 255)
    (hq : ∀ c < (frameFor o).comps.length, ∀ z < 64, ((quantFor o).getD c []).getD z 0 ≤ Q) :
    ∃ img planes, decodeJpeg ck file = .ok img ∧ ImageOf o planes img ∧
      ∀ (c : Nat) (comp : Component) (X Y : Nat), (frameFor o).comps[c]? = some comp →
        X < 8 * (mcusPerRow (frameFor o) * comp.h) →
        Y < 8 * (ceilDiv o.height (8 * if o.colorType = .gray ∨ o.subsampling = .s444 then 1 else 2) * comp.v) →
        |((planes c Y X).toNat : ℝ) - mirrored (sampleOf data o c) Y X| ≤ 3 / 5 + 2 + 4 * (Q * (1 / 2 + 1 / 4096) + 1 / 20) := by
  obtain ⟨file', mcus, e2, e3, hread, _⟩ := C29_lossless data o hv hp
  rw [henc] at e2
  injection e2 with e2
  subst e2
  obtain ⟨img, planes, h1, h2, h3⟩ := C30_partial ck data o hv hp hri file henc _ _ _ hread
  obtain ⟨hcount, hshape⟩ := C50_coefficients data o hv hp file henc _ _ _ hread
  refine ⟨img, planes, h1, h2, ?_⟩
  intro c comp X Y hc hX hY
  obtain ⟨k, j, hk, hj⟩ := blocksAt_cover (frameFor o) _ (frameFor_rows o) c comp hc X Y hX hY
  rw [← hcount] at hk
  have hm := List.getElem?_eq_getElem hk
  generalize (zigzagged mcus)[k] = m at hm
  have hs := (hshape k m hm).1
  have hmj : (m.map (·.1))[j]? = some c := by rw [hs, List.getElem?_map, hj]; rfl
  rw [List.getElem?_map] at hmj
  obtain ⟨⟨c0, zz⟩, hmz, h4⟩ := Option.map_eq_some_iff.1 hmj
  simp only at h4
  subst h4
  obtain ⟨px, hpx, hpl⟩ := h3 k m j c0 zz c0 _ _ hm hmz hj
  have hcc : c0 < (frameFor o).comps.length := (List.getElem?_eq_some_iff.1 hc).1
  obtain ⟨hnear, hb⟩ := dequantized_near data o hv hp file henc _ _ _ hread k m hm j c0 zz c0 _ _ hmz hj Q hQ (hq c0 hcc)
  obtain ⟨px', hpx', hmir⟩ := C32_mirror ck _ 2176 (by decide) hb _ _ hnear
  rw [hpx] at hpx'
  injection hpx' with hpx'
  subst hpx'
  have h5 := hmir (Y % 8) (by omega) (X % 8) (by omega)
  have h6 := hpl (Y % 8) (by omega) (X % 8) (by omega)
  rw [show Y / 8 * 8 + Y % 8 = Y by omega, show X / 8 * 8 + X % 8 = X by omega] at h6
  rw [← h6] at h5
  rw [show X / 8 * 8 + X % 8 = X by omega, show Y / 8 * 8 + Y % 8 = Y by omega] at h5
  have e : clampLevel (128 + 1 / 4 * (sampleOf data o c0 X Y - 128 + (sampleOf data o c0 (X / 8 * 8 + (7 - X % 8)) Y - 128) +
      (sampleOf data o c0 X (Y / 8 * 8 + (7 - Y % 8)) - 128) +
      (sampleOf data o c0 (X / 8 * 8 + (7 - X % 8)) (Y / 8 * 8 + (7 - Y % 8)) - 128))) =
      mirrored (sampleOf data o c0) Y X := by
    unfold mirrored clampLevel
    have r1 := sampleOf_range data o c0 X Y
    have r2 := sampleOf_range data o c0 (X / 8 * 8 + (7 - X % 8)) Y
    have r3 := sampleOf_range data o c0 X (Y / 8 * 8 + (7 - Y % 8))
    have r4 := sampleOf_range data o c0 (X / 8 * 8 + (7 - X % 8)) (Y / 8 * 8 + (7 - Y % 8))
    simp only
    rw [max_eq_left (by linarith [r1.1, r2.1, r3.1, r4.1]), min_eq_left (by linarith [r1.2, r2.2, r3.2, r4.2])]
    ring
  rw [e] at h5
  refine h5.trans ?_
  have : ((2176 : Nat) : ℝ) / 1100 ≤ 2 := by norm_num
  linarith

/-- The same for gray images, by their pixels. -/
theorem C30_gray_partial (ck : Bool) (data : List UInt8) (o : Options) (hv : JpegValid data o) (hp : o.progressive = false)
    (hri : o.restartInterval = none) (hg : o.colorType = .gray) (file : List UInt8) (henc : Jpeg.encode data o = .ok file)
    (Q : Nat) (hQ : Q ≤ 255) (hq : ∀ z < 64, ((quantFor o).getD 0 []).getD z 0 ≤ Q) :
    ∃ img, decodeJpeg ck file = .ok img ∧ img.width = o.width ∧ img.height = o.height ∧ img.colorType = .gray ∧
      img.pixels.length = data.length ∧ ∀ Y < o.height, ∀ X < o.width,
        |((img.pixels.getD (Y * o.width + X) 0).toNat : ℝ) - mirrored (fun x y =>
            ((data.getD (min y (o.height - 1) * o.width + min x (o.width - 1)) 0).toNat : ℝ)) Y X| ≤
          3 / 5 + 2 + 4 * (Q * (1 / 2 + 1 / 4096) + 1 / 20) := by
  have hcomps : (frameFor o).comps = [⟨1, 1, 1, 0⟩] := by unfold frameFor; simp only [if_pos hg]
  obtain ⟨img, planes, h1, ⟨h2, h3, h4, h5, _⟩, h6⟩ := C30_mirror_partial ck data o hv hp hri file henc Q hQ (fun c hc z hz => by
    rw [hcomps] at hc
    obtain rfl : c = 0 := by simpa using hc
    exact hq z hz)
  obtain ⟨a1, a2⟩ := h5 hg
  refine ⟨img, h1, h2, h3, h4.trans hg, ?_, ?_⟩
  · rw [a1, hv.length, hg, if_neg (by decide), Nat.mul_one, Nat.mul_comm]
  intro Y hY X hX
  rw [a2 Y hY X hX]
  have hle : ∀ a, a ≤ 8 * ceilDiv a 8 := fun a => by unfold ceilDiv; omega
  have hcols : mcusPerRow (frameFor o) = ceilDiv o.width 8 := by unfold mcusPerRow; rw [hcomps]; rfl
  have := h6 0 ⟨1, 1, 1, 0⟩ X Y (by rw [hcomps]; rfl) (by rw [hcols]; have := hle o.width; simp only; omega)
    (by rw [if_pos (Or.inl hg)]; have := hle o.height; simp only [Nat.mul_one]; omega)
  have e : sampleOf data o 0 = fun x y => ((data.getD (min y (o.height - 1) * o.width + min x (o.width - 1)) 0).toNat : ℝ) := by
    funext x y
    unfold sampleOf component yccOf
    simp [hg]
  rw [e] at this
  exact this

/-- The hypotheses are met; at quality 50 the steps are at most 121. -/
example : ∃ file img, Jpeg.encode [0, 255] jpegOptions = .ok file ∧ decodeJpeg true file = .ok img ∧ img.pixels.length = 2 := by
  obtain ⟨file, mcus, h, _, _, _⟩ := C29_lossless [0, 255] jpegOptions jpegOptions_valid rfl
  obtain ⟨img, h1, _, _, _, h2, _⟩ := C30_gray_partial true _ _ jpegOptions_valid rfl rfl rfl file h 121 (by decide)
    (by decide +kernel)
  exact ⟨file, img, h, h1, h2⟩

/-- C30 fails with restart intervals: a gray image of two blocks, all 128, with a restart interval of one MCU.
In the file all coefficients are zero, which makes 128 everywhere; the decoder says all is black. Without the
restart interval it gives the image back. -/
theorem C30_violation : ∃ o file img, JpegValid (List.replicate 128 128) o ∧ o.progressive = false ∧ o.restartInterval = some 1 ∧
    Jpeg.encode (List.replicate 128 128) o = .ok file ∧
    Reads file (frameFor o) (quantFor o) [[(0, List.replicate 64 0)], [(0, List.replicate 64 0)]] ∧
    (∀ q, Idct.idct false (Idct.dequantize (List.replicate 64 0) q) = .ok (List.replicate 64 128)) ∧
    decodeJpeg false file = .ok img ∧ img.pixels = List.replicate 128 0 ∧
    ∃ file' img', Jpeg.encode (List.replicate 128 128) { o with restartInterval := none } = .ok file' ∧
      decodeJpeg false file' = .ok img' ∧ img'.pixels = List.replicate 128 128 := by
  have ok_of : ∀ {α : Type} {x : R α} {a : α}, x.toOption = some a → x = .ok a := by
    intro α x a h
    cases x with
    | ok b => exact congrArg Except.ok (Option.some.inj h)
    | error e => cases h
  let o : Options := ⟨16, 8, .gray, 50, .s444, some 1, false, false, false⟩
  have hv : JpegValid (List.replicate 128 128) o := by
    refine ⟨by decide, fun i h => ?_, by decide, by decide, by decide, by rw [List.length_replicate]; decide⟩
    injection h with h; subst h; decide
  obtain ⟨file, mcus, h1, h2, h3, _⟩ := C29_lossless (List.replicate 128 128) o hv rfl
  have hm : zigzagged mcus = [[(0, List.replicate 64 0)], [(0, List.replicate 64 0)]] := by
    have : (blocksOf (List.replicate 128 128) o).toOption.map zigzagged =
        some [[(0, List.replicate 64 0)], [(0, List.replicate 64 0)]] := by decide +kernel
    rw [h2] at this
    exact Option.some.inj this
  rw [hm] at h3
  have hd : ((Jpeg.encode (List.replicate 128 128) o).bind (decodeJpeg false)).toOption =
      some ⟨16, 8, List.replicate 128 0, .gray⟩ := by decide +kernel
  rw [h1] at hd
  have hd' : ((Jpeg.encode (List.replicate 128 128) { o with restartInterval := none }).bind (decodeJpeg false)).toOption =
      some ⟨16, 8, List.replicate 128 128, .gray⟩ := by decide +kernel
  obtain ⟨file', g1, g2⟩ : ∃ file', Jpeg.encode (List.replicate 128 128) { o with restartInterval := none } = .ok file' ∧
      decodeJpeg false file' = .ok ⟨16, 8, List.replicate 128 128, .gray⟩ := by
    have := ok_of hd'
    cases h : Jpeg.encode (List.replicate 128 128) { o with restartInterval := none } with
    | ok file' => rw [h] at this; exact ⟨file', rfl, this⟩
    | error e => rw [h] at this; cases this
  refine ⟨o, file, _, hv, rfl, rfl, h1, h3, ?_, ok_of hd, rfl, file', _, g1, g2, rfl⟩
  intro q
  have hz : Idct.dequantize (List.replicate 64 0) q = List.replicate 64 0 := by
    unfold Idct.dequantize
    generalize List.range 64 = l
    induction l with
    | nil => rfl
    | cons a l ih =>
      rw [List.foldl_cons]
      have : (List.replicate 64 (0 : Int)).set (Idct.unzigzag.getD a 0)
          ((List.replicate 64 (0 : Int)).getD a 0 * (q.getD a 0 : Int)) = List.replicate 64 0 := by
        have h0 : (List.replicate 64 (0 : Int)).getD a 0 = 0 := by
          rw [List.getD_eq_getElem?_getD, List.getElem?_replicate]; split <;> rfl
        rw [h0, Int.zero_mul]
        apply List.ext_getElem?
        intro i
        rw [List.getElem?_set, List.length_replicate, List.getElem?_replicate]
        split
        · rename_i h; subst h; rfl
        · rfl
      rw [this]; exact ih
  rw [hz]
  exact ok_of (by decide +kernel)

/-! ### C54 -/

/-- The colour of `Y`, `Cb`, `Cr` (ITU-T T.871, 7): channel 0 is red, 1 green and 2 blue. -/
noncomputable def jfifColour (y cb cr : ℝ) (ch : Nat) : ℝ :=
  if ch = 0 then y + 1.402 * (cr - 128)
  else if ch = 1 then y - 0.344136 * (cb - 128) - 0.714136 * (cr - 128)
  else y + 1.772 * (cb - 128)

theorem clampByte_real (v : Int) : ((JpegDecode.clampByte v).toNat : ℝ) = clampLevel (v : ℝ) := by
  unfold JpegDecode.clampByte clampLevel
  have h : ((UInt8.ofNat (min (max v 0) 255).toNat).toNat : Int) = min (max v 0) 255 := by
    rw [UInt8.toNat_ofNat']
    omega
  have h2 : (((UInt8.ofNat (min (max v 0) 255).toNat).toNat : Int) : ℝ) = ((min (max v 0) 255 : Int) : ℝ) := by rw [h]
  push_cast at h2
  exact h2

/-- **C54**. The decoder's colours are those of T.871 to within 6/5 of a level, for all samples. -/
theorem C54_colour (y cb cr : UInt8) (ch : Nat) (hch : ch < 3) :
    |(((toRgb y.toNat cb.toNat cr.toNat).getD ch 0).toNat : ℝ) - clampLevel (jfifColour y.toNat cb.toNat cr.toNat ch)| ≤ 6 / 5 := by
  have h2 := cb.toNat_lt
  have h3 := cr.toNat_lt
  generalize cb.toNat = b at *
  generalize cr.toNat = r at *
  generalize y.toNat = Y at *
  have b1 : (b : ℝ) ≤ 255 := by exact_mod_cast (by omega : b ≤ 255)
  have b0 : (0 : ℝ) ≤ b := Nat.cast_nonneg b
  have r1 : (r : ℝ) ≤ 255 := by exact_mod_cast (by omega : r ≤ 255)
  have r0 : (0 : ℝ) ≤ r := Nat.cast_nonneg r
  have fl : ∀ a : Int, ((a / 2 ^ 8 : Int) : ℝ) * 256 ≤ a ∧ (a : ℝ) < ((a / 2 ^ 8 : Int) : ℝ) * 256 + 256 := by
    intro a
    have h1 : a / 2 ^ 8 * 256 ≤ a := by omega
    have h2 : a < a / 2 ^ 8 * 256 + 256 := by omega
    exact ⟨by exact_mod_cast h1, by exact_mod_cast h2⟩
  unfold toRgb jfifColour
  have hc : ch = 0 ∨ ch = 1 ∨ ch = 2 := by omega
  rcases hc with rfl | rfl | rfl
  · simp only [List.getD_cons_zero, if_true]
    rw [clampByte_real]
    refine (Idct.clampLevel_lip _ _).trans ?_
    have := fl (((r : Int) - 128) * 359)
    push_cast at this ⊢
    rw [abs_le]
    constructor <;> linarith [this.1, this.2]
  · simp only [List.getD_cons_succ, List.getD_cons_zero, if_neg (show ¬(1 = 0) by decide), if_true]
    rw [clampByte_real]
    refine (Idct.clampLevel_lip _ _).trans ?_
    have := fl (((b : Int) - 128) * 88 + ((r : Int) - 128) * 183)
    push_cast at this ⊢
    rw [abs_le]
    constructor <;> linarith [this.1, this.2]
  · simp only [List.getD_cons_succ, List.getD_cons_zero, if_neg (show ¬(2 = 0) by decide), if_neg (show ¬(2 = 1) by decide)]
    rw [clampByte_real]
    refine (Idct.clampLevel_lip _ _).trans ?_
    have := fl (((b : Int) - 128) * 454)
    push_cast at this ⊢
    rw [abs_le]
    constructor <;> linarith [this.1, this.2]

/-- **C54**, gray: without chroma all channels are the luma, exactly. -/
theorem C54_neutral (y : UInt8) : toRgb y.toNat 128 128 = [y, y, y] := by
  have h : ∀ n < 256, toRgb (n : Nat) 128 128 = [UInt8.ofNat n, UInt8.ofNat n, UInt8.ofNat n] := by decide +kernel
  have := h y.toNat y.toNat_lt
  simpa using this

/-- Pure red, of which the decoder makes nearly that. -/
example : toRgb 76 85 255 = [254, 0, 0] := by decide +kernel

end Pixo.Props
