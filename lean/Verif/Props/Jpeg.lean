import Verif.Proof.JpegFile
import Verif.Spec.T81AnnexK
/-
C27 (validation), C28 (no accidental markers), C29 (lossless entropy coding), C33 (quantization
tables), C34 (Huffman tables), C35 (file structure), C42 (colour conversion), for baseline files.
-/
namespace Pixo.Props
open Pixo.Jpeg (Options Subsampling QuantTables)
open Spec.T81

/-- What the JPEG encoder accepts; `restart_interval` is a `u16`. -/
structure JpegValid (data : List UInt8) (o : Options) : Prop where
  quality : 1 ≤ o.quality ∧ o.quality ≤ 100
  interval : ∀ i, o.restartInterval = some i → 1 ≤ i ∧ i < 65536
  width : 1 ≤ o.width ∧ o.width ≤ 65535
  height : 1 ≤ o.height ∧ o.height ≤ 65535
  color : o.colorType = .rgb ∨ o.colorType = .gray
  length : data.length = o.width * o.height * (if o.colorType = .rgb then 3 else 1)

/-- A two pixel gray image. -/
def jpegOptions : Options := ⟨2, 1, .gray, 50, .s444, none, false, false, false⟩

theorem jpegOptions_valid : JpegValid [0, 255] jpegOptions :=
  ⟨by decide, fun i h => (Option.some_ne_none i h.symm).elim, by decide, by decide, by decide, by decide⟩

theorem JpegValid.validate {data : List UInt8} {o : Options} (h : JpegValid data o) :
    Jpeg.validate data o = .ok () := by
  have h1 := h.quality
  have h2 := h.interval
  have h3 := h.width
  have h4 := h.height
  have h5 := h.color
  have h6 := h.length
  unfold Jpeg.validate Jpeg.maxDimension
  rw [if_neg (by omega), if_neg (fun e => by have := h2 0 e; omega), if_neg (by omega), if_neg (by omega),
    if_neg (fun e => h5.elim e.1 e.2)]
  simp only
  rw [if_neg (fun e => e h6)]

theorem JpegValid.of_validate {data : List UInt8} {o : Options} (h : Jpeg.validate data o = .ok ())
    (hi : ∀ i, o.restartInterval = some i → i < 65536) : JpegValid data o := by
  obtain ⟨b, h1, h2, h3⟩ := Jpeg.validate_baseline h
  refine ⟨⟨h2, h3⟩, fun i e => ⟨?_, hi i e⟩, ⟨b.w, b.wmax⟩, ⟨b.h, b.hmax⟩, b.color, b.len⟩
  rcases Nat.eq_zero_or_pos i with rfl | h
  · exact absurd e h1
  · exact h

/-! ## C33 -/

/-- Bits of the claim about one table: entries in 1..255, the entries the file holds are the zigzag of
the table the coefficients are divided by. -/
structure QuantTableOk (natural : List Nat) (file : List UInt8) : Prop where
  length : natural.length = 64
  range : ∀ v ∈ natural, 1 ≤ v ∧ v ≤ 255
  file : file.map UInt8.toNat = zigzag.map (fun i => natural.getD i 0)

theorem zigzag_eq : Jpeg.zigzag = zigzag := by decide +kernel

theorem toZigzag_eq (b : List Int) : Jpeg.zigzagReorder b = toZigzag b := by
  unfold Jpeg.zigzagReorder toZigzag
  rw [← zigzag_eq]
  have h : Jpeg.zigzag = (List.range 64).map (fun i => Jpeg.zigzag.getD i 0) := by decide +kernel
  conv => rhs; rw [h]
  rw [List.map_map]; rfl

theorem scaled_file (s : Nat) (std : List Nat) :
    ((List.range 64).map (fun i => UInt8.ofNat (Jpeg.scaled s (std.getD (Jpeg.zigzag.getD i 0) 0)))).map UInt8.toNat =
      zigzag.map (fun i => ((List.range 64).map (fun i => Jpeg.scaled s (std.getD i 0))).getD i 0) := by
  rw [← zigzag_eq]
  have h : Jpeg.zigzag = (List.range 64).map (fun i => Jpeg.zigzag.getD i 0) := by decide +kernel
  conv => rhs; rw [h]
  rw [List.map_map, List.map_map]
  apply List.map_congr_left
  intro i hi
  rw [List.mem_range] at hi
  simp only [Function.comp]
  rw [Jpeg.getD_map_range 64 _ _ 0 (Jpeg.zigzag_pos i hi).1]
  have := Jpeg.scaled_range s (std.getD (Jpeg.zigzag.getD i 0) 0)
  simp only [UInt8.toNat_ofNat']
  omega

/-- **C33**, range and layout: for every quality. -/
theorem C33_tables (q : Nat) :
    QuantTableOk (QuantTables.withQuality q).luminanceTable (QuantTables.withQuality q).luminance ∧
    QuantTableOk (QuantTables.withQuality q).chrominanceTable (QuantTables.withQuality q).chrominance := by
  constructor
  · refine ⟨by simp [QuantTables.withQuality], ?_, scaled_file _ _⟩
    intro v hv
    obtain ⟨i, _, rfl⟩ := List.mem_map.mp hv
    exact Jpeg.scaled_range _ _
  · refine ⟨by simp [QuantTables.withQuality], ?_, scaled_file _ _⟩
    intro v hv
    obtain ⟨i, _, rfl⟩ := List.mem_map.mp hv
    exact Jpeg.scaled_range _ _

theorem scale_antitone {q r : Nat} (h : q ≤ r) : Jpeg.scale r ≤ Jpeg.scale q := by
  unfold Jpeg.scale
  simp only
  have h1 : max 1 (min 100 q) ≤ max 1 (min 100 r) := by omega
  have h2 : 1 ≤ max 1 (min 100 q) := by omega
  have h3 : max 1 (min 100 r) ≤ 100 := by omega
  generalize max 1 (min 100 q) = a at *
  generalize max 1 (min 100 r) = b at *
  by_cases hb : b < 50
  · rw [if_pos hb, if_pos (by omega)]
    exact Nat.div_le_div_left h1 (by omega)
  · rw [if_neg hb]
    by_cases ha : a < 50
    · rw [if_pos ha]
      have : 5000 / 50 ≤ 5000 / a := Nat.div_le_div_left (by omega) (by omega)
      omega
    · rw [if_neg ha]; omega

theorem scaled_mono {s r : Nat} (h : s ≤ r) (e : Nat) : Jpeg.scaled s e ≤ Jpeg.scaled r e := by
  have h1 : e * s ≤ e * r := Nat.mul_le_mul_left e h
  have h2 : (e * s + 50) / 100 ≤ (e * r + 50) / 100 := Nat.div_le_div_right (by omega)
  unfold Jpeg.scaled
  omega

/-- **C33**, monotony: a higher quality never divides by more. -/
theorem C33_monotone {q r : Nat} (h : q ≤ r) (i : Nat) :
    (QuantTables.withQuality r).luminanceTable.getD i 0 ≤ (QuantTables.withQuality q).luminanceTable.getD i 0 ∧
    (QuantTables.withQuality r).chrominanceTable.getD i 0 ≤ (QuantTables.withQuality q).chrominanceTable.getD i 0 := by
  have hs := scale_antitone h
  by_cases hi : i < 64
  · simp only [QuantTables.withQuality]
    rw [Jpeg.getD_map_range 64 _ _ 0 hi, Jpeg.getD_map_range 64 _ _ 0 hi, Jpeg.getD_map_range 64 _ _ 0 hi,
      Jpeg.getD_map_range 64 _ _ 0 hi]
    exact ⟨scaled_mono hs _, scaled_mono hs _⟩
  · simp [QuantTables.withQuality, List.getD, List.getElem?_eq_none, Nat.le_of_not_lt hi]

/-- **C33** at quality 50 (the tables of annex K, K.1 and K.2), and at 100. -/
theorem C33_ends :
    (QuantTables.withQuality 50).luminanceTable = quantK1.flatten ∧
    (QuantTables.withQuality 50).chrominanceTable = quantK2.flatten ∧
    (QuantTables.withQuality 100).luminanceTable = List.replicate 64 1 ∧
    (QuantTables.withQuality 100).chrominanceTable = List.replicate 64 1 := by decide +kernel

/-- The usual scale factor of a quality, in percent. -/
def qualityPercent (q : Nat) : Nat := if q < 50 then 5000 / q else 200 - 2 * q

/-- **C33**, the entries: those of annex K scaled by the quality, to nearest, within 1..255. -/
theorem C33_entries (q : Nat) (h1 : 1 ≤ q) (h2 : q ≤ 100) :
    (QuantTables.withQuality q).luminanceTable =
      quantK1.flatten.map (fun e => max 1 (min 255 ((e * qualityPercent q + 50) / 100))) ∧
    (QuantTables.withQuality q).chrominanceTable =
      quantK2.flatten.map (fun e => max 1 (min 255 ((e * qualityPercent q + 50) / 100))) := by
  have hs : Jpeg.scale q = qualityPercent q := by
    unfold Jpeg.scale qualityPercent
    rw [show max 1 (min 100 q) = q by omega]
  have h3 : quantK1.flatten = (List.range 64).map (fun i => Jpeg.stdLuminance.getD i 0) := by decide +kernel
  have h4 : quantK2.flatten = (List.range 64).map (fun i => Jpeg.stdChrominance.getD i 0) := by decide +kernel
  rw [h3, h4, List.map_map, List.map_map]
  unfold QuantTables.withQuality
  simp only [hs]
  exact ⟨rfl, rfl⟩

/-- The zigzag order is that of T.81, and goes through every position once. -/
theorem C33_zigzag : Jpeg.zigzag = zigzag ∧ zigzag.length = 64 ∧ zigzag.Nodup ∧ ∀ i < 64, i ∈ zigzag := by
  decide +kernel

example : (QuantTables.withQuality 10).luminanceTable.getD 0 0 = 80 ∧
    (QuantTables.withQuality 90).luminanceTable.getD 0 0 = 3 := by decide +kernel

/-! ## C42 -/

/-- The weighted sum of BT.601, times 1000. -/
def luma1000 (r g b : UInt8) : Int := 299 * r.toNat + 587 * g.toNat + 114 * b.toNat

theorem clampU8_val (x : Int) : ((clampU8 x).toNat : Int) = max 0 (min 255 x) := by
  unfold clampU8
  by_cases h : x < 0
  · rw [if_pos h]; simp; omega
  · rw [if_neg h]
    by_cases h2 : x > 255
    · rw [if_pos h2]; simp; omega
    · rw [if_neg h2, UInt8.toNat_ofNat', Nat.mod_eq_of_lt (by omega)]; omega

/-- **C42**. Every value is less than one from the exact one, where `Y` is the weighted sum,
`1.772 (Cb - 128) = B - Y` and `1.402 (Cr - 128) = R - Y`. -/
theorem C42_near (r g b : UInt8) :
    (1000 * ((rgbToYcbcr r g b).1.toNat : Int) - luma1000 r g b).natAbs < 1000 ∧
    (1772 * (((rgbToYcbcr r g b).2.1.toNat : Int) - 128) - (1000 * b.toNat - luma1000 r g b)).natAbs < 1772 ∧
    (1402 * (((rgbToYcbcr r g b).2.2.toNat : Int) - 128) - (1000 * r.toNat - luma1000 r g b)).natAbs < 1402 := by
  have hr := r.toNat_lt
  have hg := g.toNat_lt
  have hb := b.toNat_lt
  unfold rgbToYcbcr luma1000
  simp only [clampU8_val]
  generalize r.toNat = r at *
  generalize g.toNat = g at *
  generalize b.toNat = b at *
  omega

/-- **C42**, grays. -/
theorem C42_gray (v : UInt8) : rgbToYcbcr v v v = (v, 128, 128) := by
  have hv := v.toNat_lt
  unfold rgbToYcbcr clampU8
  simp only
  have e1 : (77 * (v.toNat : Int) + 150 * v.toNat + 29 * v.toNat + 128) / 256 = v.toNat := by omega
  have e2 : (-43 * (v.toNat : Int) - 85 * v.toNat + 128 * v.toNat + 128) / 256 + 128 = 128 := by omega
  have e3 : (128 * (v.toNat : Int) - 107 * v.toNat - 21 * v.toNat + 128) / 256 + 128 = 128 := by omega
  rw [e1, e2, e3, if_neg (by omega), if_neg (by omega), if_neg (by omega), if_neg (by omega)]
  simp

/-- **C42**, intermediates: the 32 bit computations do not overflow, and only chroma ever needs to be
clamped, by one. -/
theorem C42_fits (r g b : UInt8) :
    0 ≤ (77 * (r.toNat : Int) + 150 * g.toNat + 29 * b.toNat + 128) / 256 ∧
    (77 * (r.toNat : Int) + 150 * g.toNat + 29 * b.toNat + 128) / 256 ≤ 255 ∧
    0 ≤ (-43 * (r.toNat : Int) - 85 * g.toNat + 128 * b.toNat + 128) / 256 + 128 ∧
    (-43 * (r.toNat : Int) - 85 * g.toNat + 128 * b.toNat + 128) / 256 + 128 ≤ 256 ∧
    0 ≤ (128 * (r.toNat : Int) - 107 * g.toNat - 21 * b.toNat + 128) / 256 + 128 ∧
    (128 * (r.toNat : Int) - 107 * g.toNat - 21 * b.toNat + 128) / 256 + 128 ≤ 256 := by
  have hr := r.toNat_lt
  have hg := g.toNat_lt
  have hb := b.toNat_lt
  omega

example : rgbToYcbcr 0 0 255 = (29, 107 + 148, 107) := by decide +kernel

/-! ## C27 -/

/-- **C27**. The checks, in order; on a failed check the buffer is as before. -/
theorem C27_errors (buffer data : List UInt8) (o : Options) :
    let out := Jpeg.encodeInto buffer data o
    let quality := 1 ≤ o.quality ∧ o.quality ≤ 100
    let interval := o.restartInterval ≠ some 0
    let nonzero := 1 ≤ o.width ∧ 1 ≤ o.height
    let small := o.width ≤ 65535 ∧ o.height ≤ 65535
    let color := o.colorType = .rgb ∨ o.colorType = .gray
    let expected := o.width * o.height * (if o.colorType = .rgb then 3 else 1)
    (¬quality → out = (.error (.quality o.quality), buffer)) ∧
    (quality → ¬interval → out = (.error (.restart 0), buffer)) ∧
    (quality → interval → ¬nonzero → out = (.error (.dimensions o.width o.height), buffer)) ∧
    (quality → interval → nonzero → ¬small → out = (.error (.tooLarge o.width o.height 65535), buffer)) ∧
    (quality → interval → nonzero → small → ¬color → out = (.error .colorType, buffer)) ∧
    (quality → interval → nonzero → small → color → data.length ≠ expected →
      out = (.error (.dataLength expected data.length), buffer)) := by
  simp only
  unfold Jpeg.encodeInto Jpeg.validate Jpeg.maxDimension
  refine ⟨fun h => ?_, fun h h2 => ?_, fun h h2 h3 => ?_, fun h h2 h3 h4 => ?_, fun h h2 h3 h4 h5 => ?_,
    fun h h2 h3 h4 h5 h6 => ?_⟩
  · rw [if_pos (by omega)]
  · rw [if_neg (by omega), if_pos (Decidable.not_not.mp h2)]
  · rw [if_neg (by omega), if_neg h2, if_pos (by omega)]
  · rw [if_neg (by omega), if_neg h2, if_neg (by omega), if_pos (by omega)]
  · rw [if_neg (by omega), if_neg h2, if_neg (by omega), if_neg (by omega),
      if_pos (by constructor <;> intro e <;> simp [e] at h5)]
  · rw [if_neg (by omega), if_neg h2, if_neg (by omega), if_neg (by omega), if_neg (fun e => h5.elim e.1 e.2)]
    simp only
    rw [if_pos h6]

/-- **C27** for baseline files: the encoder succeeds exactly on valid input, whatever the buffer
held, and never panics. -/
theorem C27_baseline (buffer data : List UInt8) (o : Options) (hp : o.progressive = false)
    (hi : ∀ i, o.restartInterval = some i → i < 65536) :
    (JpegValid data o → ∃ file, Jpeg.encode data o = .ok file ∧
      Jpeg.encodeInto buffer data o = (.ok (), file)) ∧
    (¬JpegValid data o → ∃ e, e ≠ .panic ∧ Jpeg.encode data o = .error e ∧
      Jpeg.encodeInto buffer data o = (.error e, buffer)) := by
  constructor
  · intro h
    obtain ⟨_, _, _, _, _, _, _, _, _, _, e⟩ := Jpeg.encodeBody_baseline data o h.validate hp
    generalize Jpeg.header o _ _ 0xFFC0 ++ _ ++ _ ++ _ = file at e
    refine ⟨file, ?_, ?_⟩
    · rw [Jpeg.encode, Jpeg.encodeInto, h.validate]
      simp only
      rw [e]
    · rw [Jpeg.encodeInto, h.validate]
      simp only
      rw [e]
  · intro h
    have hne : ∀ u, Jpeg.validate data o ≠ .ok u := fun u e => h (JpegValid.of_validate e hi)
    have hnp : Jpeg.validate data o ≠ .error .panic := by
      unfold Jpeg.validate
      simp only
      generalize o.width * o.height * (if o.colorType = .rgb then 3 else 1) = n
      intro e
      split at e
      · cases e
      · split at e
        · cases e
        · split at e
          · cases e
          · split at e
            · cases e
            · split at e
              · cases e
              · split at e
                · cases e
                · cases e
    cases e : Jpeg.validate data o with
    | ok u => exact absurd e (hne u)
    | error x =>
      refine ⟨x, fun hx => hnp (by rw [e, hx]), ?_, ?_⟩
      · simp only [Jpeg.encode, Jpeg.encodeInto, e]
      · simp only [Jpeg.encodeInto, e]

example : ∃ file, Jpeg.encodeInto [1, 2, 3] [0, 255] jpegOptions = (.ok (), file) :=
  let ⟨f, h⟩ := (C27_baseline _ _ _ rfl (fun i h => (Option.some_ne_none i h.symm).elim)).1 jpegOptions_valid
  ⟨f, h.2⟩

/-! ## C29, C35 -/

/-- The frame header an image is to have. -/
def frameFor (o : Options) : Frame :=
  ⟨o.height, o.width, if o.colorType = .gray then [⟨1, 1, 1, 0⟩]
    else if o.subsampling = .s444 then [⟨1, 1, 1, 0⟩, ⟨2, 1, 1, 1⟩, ⟨3, 1, 1, 1⟩]
    else [⟨1, 2, 2, 0⟩, ⟨2, 1, 1, 1⟩, ⟨3, 1, 1, 1⟩]⟩

/-- The quantization tables a file is to have, in zigzag order, one per component. -/
def quantFor (o : Options) : List (List Nat) :=
  let q := QuantTables.withQuality o.quality
  let y := zigzag.map (fun i => q.luminanceTable.getD i 0)
  let c := zigzag.map (fun i => q.chrominanceTable.getD i 0)
  if o.colorType = .gray then [y] else [y, c, c]

/-- The quantized blocks of an image. -/
def blocksOf (data : List UInt8) (o : Options) : R (List (List (Nat × List Int))) :=
  (Jpeg.Ctx.of data o (QuantTables.withQuality o.quality)).mcus

/-- MCUs with their blocks in zigzag order. -/
def zigzagged (mcus : List (List (Nat × List Int))) : List (List (Nat × List Int)) :=
  mcus.map (fun m => m.map (fun p => (p.1, toZigzag p.2)))

theorem zigzagged_eq (mcus : List Jpeg.Mcu) : zigzagged mcus = mcus.map Jpeg.zzMcu := by
  unfold zigzagged
  apply List.map_congr_left
  intro m _
  unfold Jpeg.zzMcu
  apply List.map_congr_left
  intro p _
  rw [toZigzag_eq]

theorem quantFor_eq (o : Options) (t : Jpeg.HuffTables) :
    (frameFor o).comps.mapM (fun c => quantOf c.tq (Jpeg.fileSegs o (QuantTables.withQuality o.quality) t)) =
      some (quantFor o) := by
  obtain ⟨h1, h2⟩ := Jpeg.quantOf_file o (QuantTables.withQuality o.quality) t (Jpeg.withQuality_length _)
  obtain ⟨h3, h4⟩ := C33_tables o.quality
  rw [h3.file] at h1
  rw [h4.file] at h2
  unfold frameFor quantFor
  by_cases hg : o.colorType = .gray
  · simp [hg, h1]
  · simp only [if_neg hg]
    by_cases hs : o.subsampling = .s444
    · simp only [if_pos hs]; simp [h1, h2]
    · simp only [if_neg hs]; simp [h1, h2]

theorem spec_legal {t : Jpeg.HuffTables} (h : Jpeg.TablesOk t) : t.spec.Legal := by
  intro c
  unfold Jpeg.HuffTables.spec
  simp only
  exact ⟨(h.get _ _).legal, (h.get _ _).legal⟩

/-- What is known about the tables a reader of the file has. -/
theorem reader_tables {o : Options} {q : QuantTables} {t : Jpeg.HuffTables} (ht : Jpeg.TablesOk t)
    {sel : List (Nat × Nat × Nat)} (hs : scanOf (Jpeg.fileSegs o q t) = some sel) {ts : Tables}
    (h : ∀ i s, sel[i]? = some s → huffOf 0 s.2.1 (Jpeg.fileSegs o q t) = some (ts.dc i) ∧
      huffOf 1 s.2.2 (Jpeg.fileSegs o q t) = some (ts.ac i)) :
    ∀ c ∈ Jpeg.mcuShape o.colorType o.subsampling, ts.dc c = t.spec.dc c ∧ ts.ac c = t.spec.ac c := by
  obtain ⟨h1, h2, h3, h4⟩ := Jpeg.huffOf_file o q t ht
  rw [Jpeg.scanOf_file] at hs
  injection hs with hs
  subst hs
  have e0 : t.spec.dc 0 = t.dcLum.spec ∧ t.spec.ac 0 = t.acLum.spec := ⟨rfl, rfl⟩
  have e1 : ∀ c, c ≠ 0 → t.spec.dc c = t.dcChrom.spec ∧ t.spec.ac c = t.acChrom.spec := fun c hc => by
    unfold Jpeg.HuffTables.spec; simp only [hc, decide_false]; exact ⟨rfl, rfl⟩
  by_cases hg : o.colorType = .gray
  · rw [if_pos hg] at h
    intro c hc
    rw [Jpeg.mcuShape, if_pos hg] at hc
    obtain rfl := List.mem_singleton.mp hc
    have := h 0 _ rfl
    simp only [h1, h3, Option.some.injEq] at this
    rw [e0.1, e0.2, ← this.1, ← this.2]; exact ⟨rfl, rfl⟩
  · rw [if_neg hg] at h
    have a0 := h 0 _ rfl
    have a1 := h 1 _ rfl
    have a2 := h 2 _ rfl
    simp only [h1, h2, h3, h4, Option.some.injEq] at a0 a1 a2
    have key : ∀ c, c = 0 ∨ c = 1 ∨ c = 2 → ts.dc c = t.spec.dc c ∧ ts.ac c = t.spec.ac c := by
      rintro c (rfl | rfl | rfl)
      · rw [e0.1, e0.2, ← a0.1, ← a0.2]; exact ⟨rfl, rfl⟩
      · rw [(e1 1 (by decide)).1, (e1 1 (by decide)).2, ← a1.1, ← a1.2]; exact ⟨rfl, rfl⟩
      · rw [(e1 2 (by decide)).1, (e1 2 (by decide)).2, ← a2.1, ← a2.2]; exact ⟨rfl, rfl⟩
    intro c hc
    apply key
    unfold Jpeg.mcuShape at hc
    rw [if_neg hg] at hc
    split at hc <;> simp at hc <;> omega

/-- **C29** and **C35**. Every valid image is written as a baseline file of T.81 with the right frame
header and quantization tables, whose scan codes exactly the quantized blocks. Conversely whatever
reads the file as T.81 prescribes gets this frame, these tables and these blocks. -/
theorem C29_lossless (data : List UInt8) (o : Options) (hv : JpegValid data o)
    (hp : o.progressive = false) :
    ∃ file mcus, Jpeg.encode data o = .ok file ∧ blocksOf data o = .ok mcus ∧
      Reads file (frameFor o) (quantFor o) (zigzagged mcus) ∧
      ∀ f quant mcus', Reads file f quant mcus' →
        f = frameFor o ∧ quant = quantFor o ∧ mcus' = zigzagged mcus := by
  obtain ⟨mcus, t, scan, e1, hm, hl, ht, hc, hstd, hscan, e⟩ := Jpeg.encodeBody_baseline data o hv.validate hp
  have hw : o.width < 65536 := by have := hv.width; omega
  have hh : o.height < 65536 := by have := hv.height; omega
  have henc : Jpeg.encode data o = .ok (Jpeg.header o (QuantTables.withQuality o.quality) t 0xFFC0 ++
      Jpeg.sos o.colorType ++ (scan ++ Jpeg.eoi)) := by
    rw [Jpeg.encode, Jpeg.encodeInto, hv.validate]
    simp only
    rw [e]
    simp only [List.append_assoc]
  generalize hfile : Jpeg.header o (QuantTables.withQuality o.quality) t 0xFFC0 ++
      Jpeg.sos o.colorType ++ (scan ++ Jpeg.eoi) = file at henc
  have hlen : 10 ≤ file.length := by
    rw [← hfile]; unfold Jpeg.header
    have : Jpeg.app0.length = 18 := by decide
    simp only [List.length_append, this]; omega
  obtain ⟨body, hb, hwalk⟩ := Jpeg.walk_file o (QuantTables.withQuality o.quality) t (scan ++ Jpeg.eoi)
    file.length (Jpeg.withQuality_length _) ht hw hh hlen
  rw [hfile] at hb
  have hfr : frameOf (Jpeg.fileSegs o (QuantTables.withQuality o.quality) t) = some (frameFor o) :=
    Jpeg.frameOf_file o _ t hw hh
  have hsc := Jpeg.scanOf_file o (QuantTables.withQuality o.quality) t
  have hiv := Jpeg.intervalOf_file o (QuantTables.withQuality o.quality) t
    (fun e => by have := (hv.interval 0 e).1; omega) (fun i e => (hv.interval i e).2)
  have hshape := Jpeg.shape_file o mcus data (QuantTables.withQuality o.quality) (fun m x => (hm m x).2) hl
  refine ⟨file, mcus, henc, e1, ?_, ?_⟩
  · refine ⟨body, _, _, scan, _, t.spec, hb, hwalk, hfr, quantFor_eq o t, hsc, ?_, ?_, ?_, ?_, rfl⟩
    · unfold frameFor
      by_cases hg : o.colorType = .gray
      · simp only [if_pos hg]; rfl
      · simp only [if_neg hg]
        by_cases hs : o.subsampling = .s444
        · simp only [if_pos hs]; rfl
        · simp only [if_neg hs]; rfl
    · intro i s hs
      obtain ⟨h1, h2, h3, h4⟩ := Jpeg.huffOf_file o (QuantTables.withQuality o.quality) t ht
      by_cases hg : o.colorType = .gray
      · rw [if_pos hg] at hs
        match i, hs with
        | 0, hs => injection hs with hs; subst hs; exact ⟨h1, h3⟩
      · rw [if_neg hg] at hs
        match i, hs with
        | 0, hs => injection hs with hs; subst hs; exact ⟨h1, h3⟩
        | 1, hs => injection hs with hs; subst hs; exact ⟨h2, h4⟩
        | 2, hs => injection hs with hs; subst hs; exact ⟨h2, h4⟩
    · rw [zigzagged_eq]; exact hshape
    · rw [hiv, zigzagged_eq]; exact hscan
  · rintro f quant mcus' ⟨body', segs, dat, scan', sel, ts, g1, g2, g3, g4, g5, g6, g7, g8, g9, g10⟩
    have hbody : body' = body := List.append_cancel_left (g1.symm.trans hb)
    subst hbody
    rw [hwalk] at g2
    injection g2 with g2
    injection g2 with g2 g2'
    subst g2
    subst g2'
    rw [hfr] at g3
    injection g3 with g3
    subst g3
    rw [quantFor_eq] at g4
    injection g4 with g4
    refine ⟨rfl, g4.symm, ?_⟩
    have hscan' : scan' = scan := (List.append_cancel_right g10).symm
    subst hscan'
    rw [hiv] at g9
    have hts := reader_tables ht g5 g7
    have hsh : shape mcus' = shape (mcus.map Jpeg.zzMcu) := by
      rw [hshape]; exact g8
    have g9' : Scan t.spec o.restartInterval mcus' scan' := by
      refine Jpeg.Scan_congr g9 ?_
      intro m hmem c hcm
      apply hts
      have hin : m.map (·.1) ∈ shape mcus' := List.mem_map_of_mem (f := fun m => m.map (·.1)) hmem
      rw [hsh] at hin
      obtain ⟨z, hz, ez⟩ := List.mem_map.mp hin
      obtain ⟨y, hy, rfl⟩ := List.mem_map.mp hz
      rw [← (hm y hy).2]
      rw [← ez] at hcm
      simpa [Jpeg.zzMcu] using hcm
    rw [zigzagged_eq]
    exact (Scan_unique (spec_legal ht) g9' hscan hsh (Or.inl rfl) (Or.inl rfl) rfl).1

/-- A file with the options of the example is read. -/
example : ∃ file mcus, Jpeg.encode [0, 255] jpegOptions = .ok file ∧
    Reads file ⟨1, 2, [⟨1, 1, 1, 0⟩]⟩ (quantFor jpegOptions) mcus :=
  let ⟨file, mcus, h, _, r, _⟩ := C29_lossless [0, 255] jpegOptions jpegOptions_valid rfl
  ⟨file, zigzagged mcus, h, r⟩

/-- **C29**, the entropy coder by itself: whatever the blocks, as long as their coefficients are in the
baseline range (DC -1024..1023, AC -1023..1023), with the standard or the optimized tables, what is
written is a scan of T.81 holding these blocks, and nothing else. -/
theorem C29_scan (o : Options) (mcus : List (List (Nat × List Int)))
    (hm : ∀ m ∈ mcus, m.length ≤ 6 ∧ ∀ p ∈ m, p.1 < 3 ∧ (-1024 ≤ (toZigzag p.2).headD 0 ∧ (toZigzag p.2).headD 0 ≤ 1023) ∧
      ∀ v ∈ (toZigzag p.2).drop 1, v.natAbs < 1024)
    (hne : mcus ≠ []) (hn : mcus.length < 2 ^ 32) (hi : o.restartInterval ≠ some 0) :
    ∃ t bytes, Jpeg.chooseTables o mcus mcus.length = .ok t ∧
      Jpeg.encodeScan t mcus o.restartInterval mcus.length = .ok bytes ∧ t.spec.Legal ∧
      Scan t.spec o.restartInterval (zigzagged mcus) bytes ∧
      ∀ mcus', shape mcus' = shape mcus → Scan t.spec o.restartInterval mcus' bytes → mcus' = zigzagged mcus := by
  have hr : ∀ m ∈ mcus, Jpeg.McuRange m := fun m h p hp => by
    obtain ⟨a, b, c⟩ := (hm m h).2 p hp
    rw [← toZigzag_eq] at b c
    exact ⟨a, b, c⟩
  obtain ⟨t, e, ht, hc, _⟩ := Jpeg.chooseTables_ok o mcus mcus.length hr (fun m h => (hm m h).1) hn
  obtain ⟨bytes, eb, hs⟩ := Jpeg.encodeScan_spec ht mcus o.restartInterval mcus.length hr hne hi rfl hn hc
  refine ⟨t, bytes, e, eb, spec_legal ht, by rw [zigzagged_eq]; exact hs, ?_⟩
  intro mcus' hsh h'
  rw [zigzagged_eq]
  refine (Scan_unique (spec_legal ht) h' hs ?_ (Or.inl rfl) (Or.inl rfl) rfl).1
  rw [hsh]
  simp [shape, Jpeg.zzMcu]

example : ∃ t bytes, Jpeg.chooseTables { jpegOptions with optimizeHuffman := true } [[(0, [5, -3])]] 1 = .ok t ∧
    Jpeg.encodeScan t [[(0, [5, -3])]] none 1 = .ok bytes :=
  let ⟨t, b, h1, h2, _⟩ := C29_scan { jpegOptions with optimizeHuffman := true } [[(0, [5, -3])]]
    (by
      intro m h
      obtain rfl := List.mem_singleton.mp h
      refine ⟨by decide, ?_⟩
      intro p hp
      obtain rfl := List.mem_singleton.mp hp
      decide +kernel) (by decide) (by decide) (by decide)
  ⟨t, b, h1, h2⟩

/-! ## C34 -/

/-- No code word is the beginning of another. -/
def PrefixFree (t : Table) : Prop :=
  ∀ a b w v r, t.HasCode a w → t.HasCode b v → v = w ++ r → a = b ∧ r = []

theorem legal_prefixFree {t : Table} (h : t.Legal) : PrefixFree t := by
  intro a b w v r ha hb e
  obtain ⟨h1, h2, h3⟩ := HasCode_unique h ha hb (r := r) (q := []) (by rw [e]; simp)
  exact ⟨h1, h3⟩

theorem legal_words {t : Table} (h : t.Legal) {s : Nat} {w : List Bool} (hc : t.HasCode s w) :
    w.length ≤ 16 ∧ false ∈ w := by
  obtain ⟨k, code, size, h1, h2, rfl⟩ := hc
  have hf := h.fits _ (List.mem_of_getElem? h2)
  simp only at hf
  constructor
  · rw [Spec.bitsMSB_length]
    exact Jpeg.codes_size_le h.bits_length h2
  · exact Jpeg.bitsMSB_has_zero hf

/-- **C34**. The Huffman tables of the file, as its DHT segments describe them, are legal, prefix
free, of words of at most sixteen bits, never all ones, and the scan is coded with them. Without
optimization they are those of annex K. -/
theorem C34_tables (data : List UInt8) (o : Options) (hv : JpegValid data o)
    (hp : o.progressive = false) :
    ∃ file body segs rest, Jpeg.encode data o = .ok file ∧ file = [0xFF, 0xD8] ++ body ∧
      walk 0xDA file.length body = some (segs, rest) ∧
      ∀ cls < 2, ∀ id < 2, ∃ t, huffOf cls id segs = some t ∧ t.Legal ∧ PrefixFree t ∧
        (∀ s w, t.HasCode s w → w.length ≤ 16 ∧ false ∈ w) ∧
        (o.optimizeHuffman = false → t = huffK cls id) := by
  obtain ⟨mcus, t, scan, e1, hm, hl, ht, hc, hstd, hscan, e⟩ := Jpeg.encodeBody_baseline data o hv.validate hp
  have hw : o.width < 65536 := by have := hv.width; omega
  have hh : o.height < 65536 := by have := hv.height; omega
  have henc : Jpeg.encode data o = .ok (Jpeg.header o (QuantTables.withQuality o.quality) t 0xFFC0 ++
      Jpeg.sos o.colorType ++ (scan ++ Jpeg.eoi)) := by
    rw [Jpeg.encode, Jpeg.encodeInto, hv.validate]
    simp only
    rw [e]
    simp only [List.append_assoc]
  generalize hfile : Jpeg.header o (QuantTables.withQuality o.quality) t 0xFFC0 ++
      Jpeg.sos o.colorType ++ (scan ++ Jpeg.eoi) = file at henc
  have hlen : 10 ≤ file.length := by
    rw [← hfile]; unfold Jpeg.header
    have : Jpeg.app0.length = 18 := by decide
    simp only [List.length_append, this]; omega
  obtain ⟨body, hb, hwalk⟩ := Jpeg.walk_file o (QuantTables.withQuality o.quality) t (scan ++ Jpeg.eoi)
    file.length (Jpeg.withQuality_length _) ht hw hh hlen
  rw [hfile] at hb
  refine ⟨file, body, _, _, henc, hb, hwalk, ?_⟩
  obtain ⟨h1, h2, h3, h4⟩ := Jpeg.huffOf_file o (QuantTables.withQuality o.quality) t ht
  have key : ∀ {t : Table}, t.Legal → PrefixFree t ∧ (∀ s w, t.HasCode s w → w.length ≤ 16 ∧ false ∈ w) :=
    fun h => ⟨legal_prefixFree h, fun s w hc => legal_words h hc⟩
  have hst : o.optimizeHuffman = false → t.dcLum.spec = huffK 0 0 ∧ t.dcChrom.spec = huffK 0 1 ∧
      t.acLum.spec = huffK 1 0 ∧ t.acChrom.spec = huffK 1 1 := by
    intro ho
    obtain ⟨t', e', _, b1, v1, b2, v2, b3, v3, b4, v4⟩ := Jpeg.std_spec
    rw [hstd ho] at e'
    injection e' with e'
    subst e'
    unfold Jpeg.Table.spec
    rw [b1, v1, b2, v2, b3, v3, b4, v4]
    refine ⟨?_, ?_, ?_, ?_⟩ <;> (rw [Table.mk.injEq]; decide +kernel)
  intro cls hcl id hid
  match cls, id, hcl, hid with
  | 0, 0, _, _ => exact ⟨_, h1, ht.dcLum.legal, (key ht.dcLum.legal).1, (key ht.dcLum.legal).2, fun ho => (hst ho).1⟩
  | 0, 1, _, _ => exact ⟨_, h2, ht.dcChrom.legal, (key ht.dcChrom.legal).1, (key ht.dcChrom.legal).2, fun ho => (hst ho).2.1⟩
  | 1, 0, _, _ => exact ⟨_, h3, ht.acLum.legal, (key ht.acLum.legal).1, (key ht.acLum.legal).2, fun ho => (hst ho).2.2.1⟩
  | 1, 1, _, _ => exact ⟨_, h4, ht.acChrom.legal, (key ht.acChrom.legal).1, (key ht.acChrom.legal).2, fun ho => (hst ho).2.2.2⟩

/-! ## C28 -/

theorem markers_stuff (raw r : List UInt8) : markers (Spec.stuff raw ++ r) = markers r := by
  induction raw with
  | nil => rfl
  | cons b bs ih =>
    rw [stuff_cons]
    by_cases hb : b = 0xFF
    · subst hb
      simp only [if_true, List.cons_append, List.nil_append, List.append_assoc]
      rw [markers, if_pos rfl, ih]
    · rw [if_neg hb]
      simp only [List.cons_append, List.nil_append, List.append_assoc]
      rw [markers, ih]
      intro x rest h1 _
      exact hb h1

theorem markers_restarts {ts : Tables} {ri m : Nat} {mcus : List (List (Nat × List Int))} {bytes r : List UInt8}
    (hri : 0 < ri) (h : Restarts ts ri m mcus bytes) :
    markers (bytes ++ r) = (List.range ((mcus.length - 1) / ri)).map (fun i => UInt8.ofNat (0xD0 + (m + i) % 8)) ++
      markers r := by
  induction h with
  | last h1 h2 h3 =>
    obtain ⟨raw, bits, rfl, _⟩ := h3
    rename_i mcus _
    have hl : mcus.length ≠ 0 := fun e => h2 (List.length_eq_zero_iff.mp e)
    rw [markers_stuff, Nat.div_eq_of_lt (by omega)]
    rfl
  | more h1 h2 h3 ih =>
    rename_i m mcus rest bytes more
    obtain ⟨raw, bits, rfl, _⟩ := h2
    have hl : rest.length ≠ 0 := fun e => Restarts_ne_nil h3 (List.length_eq_zero_iff.mp e)
    have hn : (mcus ++ rest).length - 1 = rest.length - 1 + ri := by simp; omega
    rw [hn, Nat.add_div_right _ hri, List.append_assoc, List.append_assoc, markers_stuff, List.range_succ_eq_map]
    have h0 : UInt8.ofNat (0xD0 + m % 8) ≠ 0 := by
      intro e
      have := congrArg UInt8.toNat e
      rw [UInt8.toNat_ofNat', Nat.mod_eq_of_lt (by omega)] at this
      simp at this
    rw [List.cons_append, List.cons_append, List.nil_append, markers, if_neg h0, ih]
    simp only [List.map_cons, List.map_map, List.cons_append, Nat.add_zero]
    congr 2
    apply List.map_congr_left
    intro i _
    simp only [Function.comp]
    rw [show m + 1 + i = m + i.succ by omega]

/-- **C28**, baseline. In the data of the scan the only markers are the restart markers, counting
0..7 again and again, one between any two intervals; then comes EOI. -/
theorem C28_markers (data : List UInt8) (o : Options) (hv : JpegValid data o)
    (hp : o.progressive = false) :
    ∃ file body segs scan, Jpeg.encode data o = .ok file ∧ file = [0xFF, 0xD8] ++ body ∧
      walk 0xDA file.length body = some (segs, scan ++ [0xFF, 0xD9]) ∧
      markers scan = (match o.restartInterval with
        | none => []
        | some ri => (List.range ((mcuCount (frameFor o) - 1) / ri)).map (fun i => UInt8.ofNat (0xD0 + i % 8))) ∧
      markers (scan ++ [0xFF, 0xD9]) = markers scan ++ [0xD9] := by
  obtain ⟨file, mcus, henc, _, ⟨body, segs, dat, scan, sel, ts, g1, g2, g3, g4, g5, g6, g7, g8, g9, g10⟩, _⟩ :=
    C29_lossless data o hv hp
  obtain ⟨mcus', t, scan', e1, hm, hl, ht, hc, hstd, hscan, e⟩ := Jpeg.encodeBody_baseline data o hv.validate hp
  have hw : o.width < 65536 := by have := hv.width; omega
  have hh : o.height < 65536 := by have := hv.height; omega
  have henc' : Jpeg.encode data o = .ok (Jpeg.header o (QuantTables.withQuality o.quality) t 0xFFC0 ++
      Jpeg.sos o.colorType ++ (scan' ++ Jpeg.eoi)) := by
    rw [Jpeg.encode, Jpeg.encodeInto, hv.validate]
    simp only
    rw [e]
    simp only [List.append_assoc]
  have hlen : 10 ≤ file.length := by
    rw [henc] at henc'
    injection henc' with henc'
    rw [henc']; unfold Jpeg.header
    have : Jpeg.app0.length = 18 := by decide
    simp only [List.length_append, this]; omega
  obtain ⟨body', hb, hwalk⟩ := Jpeg.walk_file o (QuantTables.withQuality o.quality) t (scan' ++ Jpeg.eoi)
    file.length (Jpeg.withQuality_length _) ht hw hh hlen
  rw [henc] at henc'
  injection henc' with henc'
  rw [← henc', g1] at hb
  have hbody : body = body' := List.append_cancel_left hb
  subst hbody
  rw [hwalk] at g2
  injection g2 with g2
  injection g2 with g2 g2'
  have hiv := Jpeg.intervalOf_file o (QuantTables.withQuality o.quality) t
    (fun e => by have := (hv.interval 0 e).1; omega) (fun i e => (hv.interval i e).2)
  rw [← g2, hiv] at g9
  have hcount : (zigzagged mcus).length = mcuCount (frameFor o) := by
    have := congrArg List.length g8
    simpa using this
  refine ⟨file, body, segs, scan, henc, g1, ?_, ?_⟩
  · rw [hwalk, g2, g2', g10]
  · cases hr : o.restartInterval with
    | none =>
      rw [hr] at g9
      obtain ⟨raw, bits, rfl, _⟩ := g9
      have h1 := markers_stuff raw []
      rw [List.append_nil] at h1
      refine ⟨h1, ?_⟩
      rw [markers_stuff, h1]; rfl
    | some ri =>
      rw [hr] at g9
      have hri := (hv.interval ri hr).1
      have h1 := markers_restarts (r := []) hri g9
      have h2 := markers_restarts (r := [0xFF, 0xD9]) hri g9
      rw [List.append_nil, hcount] at h1
      rw [hcount] at h2
      simp only [Nat.zero_add] at h1 h2
      refine ⟨by rw [h1]; exact List.append_nil _, ?_⟩
      rw [h2, h1]
      simp only [markers, List.append_nil]
      rfl

example : markers [0xFF, 0x00, 0x12, 0xFF, 0xD3, 0x55, 0xFF, 0xD9] = [0xD3, 0xD9] := by decide +kernel

/-! ## C35 -/

/-- **C35**. The segments of a file, as found by their lengths, are in this order: APP0, two of DQT,
SOF0, four of DHT, DRI if there is an interval, SOS; then come the scan and EOI. -/
theorem C35_structure (data : List UInt8) (o : Options) (hv : JpegValid data o)
    (hp : o.progressive = false) :
    ∃ file body segs scan, Jpeg.encode data o = .ok file ∧ file = [0xFF, 0xD8] ++ body ∧
      walk 0xDA file.length body = some (segs, scan ++ [0xFF, 0xD9]) ∧
      segs.map (·.1) = [0xE0, 0xDB, 0xDB, 0xC0, 0xC4, 0xC4, 0xC4, 0xC4] ++
        (if o.restartInterval = none then [] else [0xDD]) ++ [0xDA] ∧
      frameOf segs = some (frameFor o) ∧ intervalOf segs = o.restartInterval := by
  obtain ⟨mcus', t, scan', e1, hm, hl, ht, hc, hstd, hscan, e⟩ := Jpeg.encodeBody_baseline data o hv.validate hp
  have hw : o.width < 65536 := by have := hv.width; omega
  have hh : o.height < 65536 := by have := hv.height; omega
  have henc : Jpeg.encode data o = .ok (Jpeg.header o (QuantTables.withQuality o.quality) t 0xFFC0 ++
      Jpeg.sos o.colorType ++ (scan' ++ Jpeg.eoi)) := by
    rw [Jpeg.encode, Jpeg.encodeInto, hv.validate]
    simp only
    rw [e]
    simp only [List.append_assoc]
  generalize hfile : Jpeg.header o (QuantTables.withQuality o.quality) t 0xFFC0 ++
      Jpeg.sos o.colorType ++ (scan' ++ Jpeg.eoi) = file at henc
  have hlen : 10 ≤ file.length := by
    rw [← hfile]; unfold Jpeg.header
    have : Jpeg.app0.length = 18 := by decide
    simp only [List.length_append, this]; omega
  obtain ⟨body, hb, hwalk⟩ := Jpeg.walk_file o (QuantTables.withQuality o.quality) t (scan' ++ Jpeg.eoi)
    file.length (Jpeg.withQuality_length _) ht hw hh hlen
  rw [hfile] at hb
  refine ⟨file, body, _, scan', henc, hb, hwalk, ?_, Jpeg.frameOf_file o _ t hw hh,
    Jpeg.intervalOf_file o (QuantTables.withQuality o.quality) t
      (fun e => by have := (hv.interval 0 e).1; omega) (fun i e => (hv.interval i e).2)⟩
  unfold Jpeg.fileSegs
  cases o.restartInterval <;> rfl

example : walk 0xDA 3 [0xFF, 0xDD, 0, 4, 0, 9, 0xFF, 0xDA, 0, 2, 7] = some ([(0xDD, [0, 9]), (0xDA, [])], [7]) := by
  decide +kernel

end Pixo.Props
