import Verif.Props.JpegProgressive
/-
C31 for the tables a file has, also optimized ones: what can and what cannot be read.
-/
namespace Pixo.Props
open Pixo.Jpeg (Options Subsampling QuantTables)
open Spec.T81

/-- Block `k` of component `i` of an image as in a baseline file, in zigzag order. -/
def baseImage (data : List UInt8) (o : Options) (i k : Nat) : List Int :=
  toZigzag (Jpeg.baseBlock data o i (8 * (k % ceilDiv o.width 8)) (8 * (k / ceilDiv o.width 8)))

/-- `tl` and `tc` are the AC tables 0 and 1 of a file. -/
def AcTables (file : List UInt8) (tl tc : Table) : Prop :=
  ∃ body segs rest, file = [0xFF, 0xD8] ++ body ∧ walk 0xDA file.length body = some (segs, rest) ∧
    huffOf 1 0 segs = some tl ∧ huffOf 1 1 segs = some tc

theorem toZigzag_length (b : List Int) : (toZigzag b).length = 64 := by
  unfold toZigzag
  rw [List.length_map]
  decide +kernel

theorem stat_ac (data : List UInt8) (o : Options) (hc : o.colorType = .rgb) (hs : o.subsampling = .s444)
    (interval : Option Nat) (total count : Nat) (prev : List Int) (lum : Bool) (s : Nat) :
    (false, lum, s) ∈ Jpeg.scanSyms interval total (Jpeg.statMcus data o) count prev ↔
      ∃ i < 3, ∃ k < ceilDiv o.width 8 * ceilDiv o.height 8, decide (i = 0) = lum ∧
        BandSymbol (bandOf 1 63 (baseImage data o i k)) s := by
  rw [Jpeg.scanSyms_ac]
  have hf : (Jpeg.Ctx.of data o (QuantTables.withQuality o.quality)).frame =
      ⟨o.height, o.width, [⟨1, 1, 1, 0⟩, ⟨2, 1, 1, 1⟩, ⟨3, 1, 1, 1⟩]⟩ := by
    unfold Jpeg.Ctx.frame Jpeg.fileFrame Jpeg.Ctx.of
    simp only [hc, hs]
    rfl
  have hm : mcusPerRow (Jpeg.Ctx.of data o (QuantTables.withQuality o.quality)).frame = ceilDiv o.width 8 := by rw [hf]; rfl
  have hn : mcuCount (Jpeg.Ctx.of data o (QuantTables.withQuality o.quality)).frame =
      ceilDiv o.width 8 * ceilDiv o.height 8 := by rw [hf]; rfl
  have hb : ∀ j, blocksAt (Jpeg.Ctx.of data o (QuantTables.withQuality o.quality)).frame j =
      (List.range 3).map (fun i => (i, 8 * (j % ceilDiv o.width 8), 8 * (j / ceilDiv o.width 8))) := by
    intro j
    unfold blocksAt
    rw [hm, hf]
    simp [List.zipIdx, List.range, List.range.loop]
  unfold Jpeg.statMcus
  simp only [hn, hb]
  constructor
  · rintro ⟨m, hm, p, hp, e, hx⟩
    obtain ⟨k, hk, rfl⟩ := List.mem_map.mp hm
    rw [List.map_map] at hp
    obtain ⟨i, hi, rfl⟩ := List.mem_map.mp hp
    refine ⟨i, by simpa using hi, k, by simpa using hk, e, ?_⟩
    unfold baseImage
    rw [← Jpeg.mem_acSyms_band _ (toZigzag_length _), ← toZigzag_eq]
    exact hx
  · rintro ⟨i, hi, k, hk, e, hx⟩
    refine ⟨_, List.mem_map.mpr ⟨k, by simpa using hk, rfl⟩, ?_⟩
    rw [List.map_map]
    refine ⟨_, List.mem_map.mpr ⟨i, by simpa using hi, rfl⟩, e, ?_⟩
    unfold baseImage at hx
    rw [← Jpeg.mem_acSyms_band _ (toZigzag_length _), ← toZigzag_eq] at hx
    exact hx

theorem acSyms_ne_nil (l : List Int) (run : Nat) (h : l ≠ [] ∨ 0 < run) : Jpeg.acSyms l run ≠ [] := by
  induction l generalizing run with
  | nil =>
    rw [Jpeg.acSyms, if_pos (by rcases h with h | h; exact absurd rfl h; exact h)]
    simp
  | cons v vs ih =>
    rw [Jpeg.acSyms]
    split
    · exact ih _ (Or.inr (by omega))
    · simp

/-- Every block has a symbol. -/
theorem bandSymbol_exists (zz : List Int) (hl : zz.length = 64) : ∃ s, BandSymbol (bandOf 1 63 zz) s := by
  have := acSyms_ne_nil (zz.drop 1) 0 (Or.inl (by
    intro e
    have := congrArg List.length e
    simp [hl] at this))
  obtain ⟨s, hs⟩ := List.exists_mem_of_ne_nil _ this
  exact ⟨s, (Jpeg.mem_acSyms_band zz hl s).mp hs⟩

/-- With at most 16 symbols for the first component's AC coefficients optimized tables are made. -/
theorem stat_fit {data : List UInt8} {o : Options} (hv : JpegValid data o) (hs : Prog444 o)
    (hb : (Jpeg.progCtx data o).Baseline) {t : Jpeg.HuffTables} (hst : StatTables data o t)
    (l : List Nat) (hl : l.length ≤ 16)
    (hcov : ∀ k < ceilDiv o.width 8 * ceilDiv o.height 8, ∀ s, BandSymbol (bandOf 1 63 (baseImage data o 0 k)) s → s ∈ l) :
    ¬Jpeg.Unfit (Jpeg.scanSyms o.restartInterval (Jpeg.statMcus data o).length (Jpeg.statMcus data o) 0 [0, 0, 0]) := by
  have hpos : 1 ≤ ceilDiv o.width 8 * ceilDiv o.height 8 :=
    Nat.mul_pos (ceilDiv_pos hv.width.1) (ceilDiv_pos hv.height.1)
  rintro (h | h | h)
  · have hlen := (blocks_444 data o hs.color hs.subsampling 0 (by decide)).1
    have hne : (Jpeg.dcSyms 0 (((Jpeg.progCtx data o).blocks 0).map (fun b => b.headD 0))) ≠ [] := by
      cases hbl : (Jpeg.progCtx data o).blocks 0 with
      | nil => rw [hbl, List.length_nil] at hlen; omega
      | cons b l => simp [Jpeg.dcSyms]
    obtain ⟨k, hk⟩ := List.exists_mem_of_ne_nil _ hne
    rw [← Jpeg.statMcus_dcs hb] at hk
    refine h k (Jpeg.scanSyms_dc o.restartInterval (Jpeg.statMcus data o).length 0 (by decide) (Jpeg.statMcus data o) 0
      [0, 0, 0] (fun m h p hp => (hst.range m h p hp).1) rfl ?_ k hk)
    intro c h1 h2
    exact Jpeg.restartDue_none (fun i hi => (statMcus_length data o hs.color).trans (hs.interval i hi)) h1
  · obtain ⟨s, hx⟩ := bandSymbol_exists (baseImage data o 0 0) (toZigzag_length _)
    exact h s ((stat_ac data o hs.color hs.subsampling _ _ _ _ _ _).mpr ⟨0, by decide, 0, hpos, rfl, hx⟩)
  · have := h l (fun v hv => by
      obtain ⟨i, _, k, hk, e, hx⟩ := (stat_ac data o hs.color hs.subsampling _ _ _ _ _ _).mp hv
      have : i = 0 := by simpa using e
      subst this
      exact hcov k hk v hx)
    omega

theorem base_codes {data : List UInt8} {o : Options} (hb : (Jpeg.progCtx data o).Baseline) (i x y : Nat)
    (hi : i < (frameFor o).comps.length) :
    CodesBlock data { o with trellisQuant := false } i x y (toZigzag (Jpeg.baseBlock data o i x y)) := by
  refine blockAt_codes (data := data) (o := { o with trellisQuant := false }) ?_ i x y hi
  have hq : Jpeg.QuantOk (fun d t => .ok (Jpeg.quantizeBlock d t)) := Jpeg.quantizeBlock_ok
  exact ⟨hb.w, hb.h, hb.wmax, hb.hmax, hb.color, hb.len, hb.lum, hb.chrom, hq⟩

theorem covered_any {data : List UInt8} {o : Options} (hs : Prog444 o)
    (hb : (Jpeg.progCtx data o).Baseline) {t : Jpeg.HuffTables} (hst : StatTables data o t)
    (hn : ∀ s ∈ progScript, s.2.1 ≠ 0 →
      ¬HasRun (imageBlock data o s.1) (ceilDiv o.width 8 * ceilDiv o.height 8) s.2.1 s.2.2 ∧
      ∀ k < ceilDiv o.width 8 * ceilDiv o.height 8, ∀ v, BandSymbol (bandOf s.2.1 s.2.2 (imageBlock data o s.1 k)) v →
        v ∈ (if s.1 = 0 then t.acLum else t.acChrom).vals)
    (s : Jpeg.ScanSpec) (hps : s ∈ Jpeg.script) : Jpeg.Covered t s ((Jpeg.progCtx data o).blocks s.component) := by
  obtain ⟨_, _, _, h3, hcase⟩ := Jpeg.script_cases hps
  obtain ⟨c, e1, e2, e3, e4, e5⟩ := blockCount_444 o hs.color hs.subsampling _ h3
  unfold Jpeg.Covered
  by_cases h0 : s.ss = 0
  · rw [if_pos h0]
    exact Jpeg.dc_covered hb (fun i hi => (statMcus_length data o hs.color).trans (hs.interval i hi)) hst.range hst.covers hps
  · rw [if_neg h0]
    have hac : Jpeg.AcSpec s := by
      rcases hcase with hc | hc
      · exact absurd hc.1 h0
      · exact hc
    obtain ⟨hrun, hsym⟩ := hn (s.component, s.ss, s.se) (progScript_mem hps) h0
    have htab : t.get false (Jpeg.lumOf s) = if s.component = 0 then t.acLum else t.acChrom := by
      unfold Jpeg.HuffTables.get Jpeg.lumOf
      by_cases hz : s.component = 0 <;> simp [hz]
    have hmem : ∀ b ∈ ((Jpeg.progCtx data o).blocks s.component).map (Jpeg.bandAt s),
        ∃ k < ceilDiv o.width 8 * ceilDiv o.height 8, b = bandOf s.ss s.se (imageBlock data o s.component k) := by
      intro b hbm
      rw [bands_444 data o hs.color hs.subsampling s h3, e5] at hbm
      obtain ⟨k, hk, rfl⟩ := List.mem_map.mp hbm
      exact ⟨k, by simpa using hk, rfl⟩
    refine Jpeg.bandSyms_each _ _ 0 (Or.inl rfl) ?_ ?_ ?_ ?_
    · rw [noRun_444 data o hs.color hs.subsampling s h3, e5]
      exact hrun
    · intro b hbm
      obtain ⟨x, hx, rfl⟩ := List.mem_map.mp hbm
      have h5 := Jpeg.bandAt_length hac x
      have h6 := hac.le
      intro e
      rw [e] at h5
      simp at h5
      omega
    · intro b hbm v hv
      obtain ⟨k, hk, rfl⟩ := hmem b hbm
      rw [htab]
      exact hsym k hk v (Or.inl ((Jpeg.mem_coefSyms _ 0 v).mp hv))
    · intro b hbm hl
      obtain ⟨k, hk, rfl⟩ := hmem b hbm
      rw [htab]
      exact hsym k hk 0 (Or.inr ⟨rfl, hl⟩)

/-- **C31** for RGB images without subsampling, whatever the tables. The file codes, for every block of every
component, the quantized DCT coefficients (`blocks`). Its AC tables have codes for the symbols of these blocks in a
baseline file (`base`, without trellis quantization); an optimized table for the first component (there is one if there
are at most 16 symbols) has no others. If there is no run of two ends of band and the symbols of all bands have codes,
reading the file as T.81 prescribes gives exactly `blocks`. If the symbol of some coefficient in its band has no code, it does not. -/
theorem C31_tables (data : List UInt8) (o : Options) (hv : JpegValid data o) (hs : Prog444 o) :
    ∃ (file : List UInt8) (blocks base : Nat → Nat → List Int) (tl tc : Table), Jpeg.encode data o = .ok file ∧
      (∀ i < 3, ∀ k < ceilDiv o.width 8 * ceilDiv o.height 8,
        CodesBlock data o i (8 * (k % ceilDiv o.width 8)) (8 * (k / ceilDiv o.width 8)) (blocks i k)) ∧
      (∀ i < 3, ∀ k < ceilDiv o.width 8 * ceilDiv o.height 8,
        CodesBlock data { o with trellisQuant := false } i (8 * (k % ceilDiv o.width 8)) (8 * (k / ceilDiv o.width 8)) (base i k)) ∧
      (o.trellisQuant = false → base = blocks) ∧
      AcTables file tl tc ∧
      (∀ i < 3, ∀ k < ceilDiv o.width 8 * ceilDiv o.height 8, ∀ s, BandSymbol (bandOf 1 63 (base i k)) s →
        s ∈ (if i = 0 then tl else tc).vals) ∧
      (o.optimizeHuffman = true → ∀ l : List Nat, l.length ≤ 16 →
        (∀ k < ceilDiv o.width 8 * ceilDiv o.height 8, ∀ s, BandSymbol (bandOf 1 63 (base 0 k)) s → s ∈ l) →
        ∀ s ∈ tl.vals, ∃ k < ceilDiv o.width 8 * ceilDiv o.height 8, BandSymbol (bandOf 1 63 (base 0 k)) s) ∧
      ((∀ s ∈ progScript, s.2.1 ≠ 0 →
          ¬HasRun (blocks s.1) (ceilDiv o.width 8 * ceilDiv o.height 8) s.2.1 s.2.2 ∧
          ∀ k < ceilDiv o.width 8 * ceilDiv o.height 8, ∀ v, BandSymbol (bandOf s.2.1 s.2.2 (blocks s.1 k)) v →
            v ∈ (if s.1 = 0 then tl else tc).vals) →
        ReadsProg file (frameFor o) (quantFor o) (progData (frameFor o) blocks) ∧
        ∀ f quant out, ReadsProg file f quant out →
          f = frameFor o ∧ quant = quantFor o ∧ out = progData (frameFor o) blocks) ∧
      (∀ s ∈ progScript, s.2.1 ≠ 0 → ∀ k < ceilDiv o.width 8 * ceilDiv o.height 8, ∀ v,
        CoefSymbol (bandOf s.2.1 s.2.2 (blocks s.1 k)) v → v ∉ (if s.1 = 0 then tl else tc).vals →
        ∀ f quant, ¬ReadsProg file f quant (progData (frameFor o) blocks)) := by
  obtain ⟨hb, t, r, ht, _, hr, henc, _, hd, hst⟩ := encode_progressive hv hs.progressive
  have hcomp : (frameFor o).comps.length = 3 := by
    unfold frameFor
    rw [if_neg (by rw [hs.color]; decide), if_pos hs.subsampling]
    rfl
  have hif : ∀ i : Nat, (if i = 0 then t.acLum.spec else t.acChrom.spec) = (if i = 0 then t.acLum else t.acChrom).spec := by
    intro i; split <;> rfl
  refine ⟨_, imageBlock data o, baseImage data o, t.acLum.spec, t.acChrom.spec, henc, ?_, ?_, ?_, ?_, ?_, ?_, ?_, ?_⟩
  · intro i hi k _
    exact blockAt_codes hb _ _ _ (by omega)
  · intro i hi k _
    exact base_codes hb _ _ _ (by omega)
  · intro htr
    funext i k
    unfold baseImage imageBlock Jpeg.baseBlock Jpeg.progCtx Jpeg.Ctx.progressive
    rw [htr]
    rfl
  · have hw : o.width < 65536 := by have := hv.width; omega
    have hh : o.height < 65536 := by have := hv.height; omega
    cases r with
    | nil => exact absurd hr (by decide)
    | cons a l =>
      obtain ⟨s, raw⟩ := a
      obtain ⟨body, e, hwalk, hlen⟩ := Jpeg.progFile_walk ht (Jpeg.withQuality_length o.quality) hw hh s raw l
      refine ⟨body, _, _, e, hwalk _ (by rw [e]; simp; omega), ?_, ?_⟩
      · exact Jpeg.huffOf_prog o _ t _ ht [] false true
      · exact Jpeg.huffOf_prog o _ t _ ht [] false false
  · intro i hi k hk s hx
    have := hst.covers _ ((stat_ac data o hs.color hs.subsampling _ _ _ _ (decide (i = 0)) s).mpr ⟨i, hi, k, hk, rfl, hx⟩)
    rw [hif]
    by_cases h0 : i = 0
    · subst h0; exact this
    · rw [decide_eq_false h0] at this
      rw [if_neg h0]
      exact this
  · intro hopt l hl hcov s hx
    rcases hst.exact hopt with h | h
    · exact absurd h (stat_fit hv hs hb hst l hl hcov)
    · obtain ⟨i, _, k, hk, e, hx⟩ := (stat_ac data o hs.color hs.subsampling _ _ _ _ _ _).mp ((h s).mp hx)
      have : i = 0 := by simpa using e
      subst this
      exact ⟨k, hk, hx⟩
  · intro hn
    have hread := reads_444 hv hs ht hr hd (covered_any hs hb hst (fun s hs h0 => by
      have := hn s hs h0
      rw [hif] at this
      exact this))
    refine ⟨hread, fun f quant out h => ?_⟩
    obtain ⟨e1, e2, e3⟩ := ReadsProg_unique h hread
    exact ⟨e1, e2, e3⟩
  · intro s hsm h0 k hk v hv' hnot f quant h
    rw [hif] at hnot
    have hsc : progScript = Jpeg.script.map (fun s => (s.component, s.ss, s.se)) := by decide
    rw [hsc] at hsm
    obtain ⟨s, hsm', rfl⟩ := List.mem_map.mp hsm
    obtain ⟨_, _, _, h3, _⟩ := Jpeg.script_cases hsm'
    obtain ⟨raw, _, raw', bits, e1, e2, e3⟩ := scans_444 hv hs ht hr h s hsm'
    rw [if_neg h0] at e3
    obtain ⟨_, _, e3⟩ := e3
    have := (Jpeg.acFirst_needs e3).2 (bandOf s.ss s.se (imageBlock data o s.component k)) (by
      obtain ⟨_, _, _, _, _, e5⟩ := blockCount_444 o hs.color hs.subsampling _ h3
      rw [bands_444 data o hs.color hs.subsampling s h3, e5]
      exact List.mem_map_of_mem (by simpa using hk)) v ((Jpeg.mem_coefSyms _ 0 v).mpr hv')
    apply hnot
    unfold Jpeg.HuffTables.get Jpeg.lumOf at this
    by_cases hz : s.component = 0
    · rw [if_pos hz]; simpa [hz] using this
    · rw [if_neg hz]; simpa [hz] using this

theorem zero_symbol {n s : Nat} (h : BandSymbol (List.replicate n 0) s) : s = 0 := by
  rcases h with ⟨pre, r, v, post, e, hv, _⟩ | h
  · have : v ∈ List.replicate n (0 : Int) := by rw [e]; simp
    exact absurd (List.eq_of_mem_replicate this) hv
  · exact h.1

/-- A mid-gray block with optimized tables is read as it is. -/
example : ∃ file, Jpeg.encode (List.replicate 192 128) { progOptions 8 8 .rgb .s444 with optimizeHuffman := true } = .ok file ∧
    ReadsProg file (frameFor (progOptions 8 8 .rgb .s444)) (quantFor (progOptions 8 8 .rgb .s444))
      (progData (frameFor (progOptions 8 8 .rgb .s444)) (fun _ _ => List.replicate 64 0)) := by
  let o : Options := { progOptions 8 8 .rgb .s444 with optimizeHuffman := true }
  have hv : JpegValid (List.replicate 192 128) o :=
    ⟨by decide, fun i h => (Option.some_ne_none i h.symm).elim, by decide, by decide, by decide, List.length_replicate⟩
  have hs : Prog444 o := ⟨rfl, rfl, rfl, fun i h => (Option.some_ne_none i h.symm).elim⟩
  obtain ⟨file, blocks, base, tl, tc, e, h1, _, h3, _, h5, _, h7, _⟩ := C31_tables _ o hv hs
  have h3 := h3 rfl
  subst h3
  have hone : ceilDiv o.width 8 * ceilDiv o.height 8 = 1 := by decide
  rw [hone] at h1 h5 h7
  have hz : ∀ i < 3, base i 0 = List.replicate 64 0 := fun i hi =>
    codes_midgray 192 o rfl rfl rfl rfl (by decide) (by decide) i hi _ _ _ (h1 i hi 0 (by decide))
  refine ⟨file, e, ?_⟩
  have hsame : progData (frameFor o) (fun _ _ => List.replicate 64 0) = progData (frameFor o) base := by
    apply progData_congr
    intro i hi k hk
    obtain ⟨_, _, _, _, _, e5⟩ := blockCount_444 o rfl rfl i hi
    rw [e5, hone] at hk
    have : k = 0 := by omega
    subst this
    exact (hz i hi).symm
  change ReadsProg file (frameFor o) (quantFor o) (progData (frameFor o) _)
  rw [hsame]
  refine (h7 ?_).1
  intro s hsm h0
  refine ⟨fun ⟨k, hk, _⟩ => by omega, ?_⟩
  intro k hk v hx
  have : k = 0 := by omega
  subst this
  have hc : s.1 < 3 := by
    revert hsm; unfold progScript; intro hsm
    simp only [List.mem_cons, List.not_mem_nil, or_false] at hsm
    rcases hsm with rfl | rfl | rfl | rfl | rfl | rfl | rfl <;> decide
  rw [hz _ hc] at hx
  have hb : bandOf s.2.1 s.2.2 (List.replicate 64 0) = List.replicate (min (s.2.2 + 1 - s.2.1) (64 - s.2.1)) (0 : Int) := by
    unfold bandOf
    rw [List.drop_replicate, List.take_replicate]
  rw [hb] at hx
  rw [zero_symbol hx]
  exact h5 _ hc 0 (by decide) 0 (Or.inr ⟨rfl, by rw [hz _ hc]; decide⟩)

/-- The slowest preset: 4:2:0, optimized tables, trellis quantization. One block cannot be read. -/
example : ∃ file, Jpeg.encode [1, 2, 3] ⟨1, 1, .rgb, 85, .s420, none, true, true, true⟩ = .ok file ∧
    ∀ f quant out, ¬ReadsProg file f quant out := by
  obtain ⟨file, _, e, _, h⟩ := C31_subsampled [1, 2, 3] ⟨1, 1, .rgb, 85, .s420, none, true, true, true⟩
    ⟨by decide, fun i h => (Option.some_ne_none i h.symm).elim, by decide, by decide, by decide, rfl⟩ rfl rfl rfl
  exact ⟨file, e, fun f quant out hr => absurd (h f quant out hr).1 (by decide)⟩

/-! ### A file with optimized tables that cannot be read -/

theorem margin_real (P : Nat) (P' : ℝ) (hP : (0 : ℝ) < P') (e : (P : ℝ) = P') (X b : Int) (q : Nat) (hq : 1 ≤ q)
    (h : 40960 * (X - b * q * (P : Int)).natAbs < P * (20470 * q - 4096)) :
    (40960 : ℝ) * |(X : ℝ) / P' - (b : ℝ) * q| < 20470 * q - 4096 := by
  have h4 : (40960 * |X - b * (q : Int) * (P : Int)| : Int) < (P : Int) * (20470 * (q : Int) - 4096) := by
    have : (4096 : Nat) ≤ 20470 * q := by omega
    zify [this] at h
    exact h
  have h5 : ((40960 : ℝ) * |(X : ℝ) - b * q * P|) < P * (20470 * q - 4096) := by exact_mod_cast h4
  rw [e] at h5
  have h6 : (X : ℝ) / P' - b * q = (X - b * q * P') / P' := by field_simp
  rw [h6, abs_div, abs_of_pos hP, ← mul_div_assoc, div_lt_iff₀ hP]
  linarith

/-- The coefficients of a block are determined by `CodesBlock` (without trellis quantization) if the DCT
coefficients computed are not too close to the middle between two multiples of the quantization steps. -/
theorem codes_determined {data : List UInt8} {o : Options} (htr : o.trellisQuant = false) (c x y : Nat)
    (hc : c < (frameFor o).comps.length) (e : List Int) (he : e.length = 64)
    (hm : ∀ z < 64,
      40960 * ((Jpeg.dct2d (Jpeg.blockSamples data o.width o.height o.colorType o.subsampling c x y)).getD (zigzag.getD z 0) 0 -
        e.getD z 0 * ((Jpeg.tableFor (QuantTables.withQuality o.quality) c).getD (zigzag.getD z 0) 0 : Nat) * 2 ^ 149).natAbs <
      2 ^ 149 * (20470 * ((Jpeg.tableFor (QuantTables.withQuality o.quality) c).getD (zigzag.getD z 0) 0 : Nat) - 4096))
    (zz : List Int) (h : CodesBlock data o c x y zz) : zz = e := by
  obtain ⟨hl, h⟩ := h
  apply List.ext_getElem (by rw [hl, he])
  intro z hz _
  have hz' : z < 64 := by omega
  have h1 := (h z hz').resolve_left (fun h => by rw [htr] at h; exact absurd h.1 (by decide))
  rw [if_neg (fun h => by rw [htr] at h; exact absurd h.1 (by decide)), quantFor_getD o c z hc hz'] at h1
  have hi := zigzag_lt z hz'
  have h2 := Jpeg.dct2d_fdct _ (blockSamples_samples data o.width o.height o.colorType o.subsampling c x y)
    (zigzag.getD z 0 / 8) (zigzag.getD z 0 % 8) (by omega) (by omega)
  rw [show zigzag.getD z 0 / 8 * 8 + zigzag.getD z 0 % 8 = zigzag.getD z 0 by omega,
    fdct_congr (fun yy hy xx hx => realBlock_eq data o c x y yy xx hy hx)] at h2
  have h3 := hm z hz'
  have e1 : zz[z] = zz.getD z 0 := by rw [List.getD_eq_getElem?_getD, List.getElem?_eq_getElem hz]; rfl
  have e2 : e[z] = e.getD z 0 := by rw [List.getD_eq_getElem?_getD, List.getElem?_eq_getElem (by omega)]; rfl
  rw [e1, e2]
  generalize zz.getD z 0 = a at *
  generalize e.getD z 0 = b at *
  generalize (Jpeg.tableFor (QuantTables.withQuality o.quality) c).getD (zigzag.getD z 0) 0 = q at *
  generalize (Jpeg.dct2d _).getD (zigzag.getD z 0) 0 = X at *
  generalize fdct _ _ _ = F at *
  have hq : 1 ≤ q := by
    rcases Nat.eq_zero_or_pos q with rfl | h
    · simp at h3
    · exact h
  have h3' : (40960 : ℝ) * |(X : ℝ) / 2 ^ 149 - (b : ℝ) * q| < 20470 * q - 4096 :=
    margin_real (2 ^ 149) (2 ^ 149) (by positivity) (by norm_num) X b q hq (by exact h3)
  have hqr : (1 : ℝ) ≤ q := by exact_mod_cast hq
  have key : |((a - b : Int) : ℝ) * q| < q := by
    have : ((a - b : Int) : ℝ) * q = (a * q - F) + (-((X : ℝ) / 2 ^ 149 - F)) + ((X : ℝ) / 2 ^ 149 - b * q) := by
      push_cast; ring
    rw [this]
    have t1 := abs_add_le ((a : ℝ) * q - F + (-((X : ℝ) / 2 ^ 149 - F))) ((X : ℝ) / 2 ^ 149 - b * q)
    have t2 := abs_add_le ((a : ℝ) * q - F) (-((X : ℝ) / 2 ^ 149 - F))
    rw [abs_neg] at t2
    linarith
  rw [abs_mul, abs_of_pos (by linarith : (0 : ℝ) < q)] at key
  have : |((a - b : Int) : ℝ)| < 1 := by
    by_contra hx
    rw [not_lt] at hx
    have := mul_le_mul_of_nonneg_right hx (by linarith : (0 : ℝ) ≤ q)
    linarith
  have : |a - b| < 1 := by exact_mod_cast this
  have := Int.abs_lt_one_iff.mp this
  clear h3 hm h
  omega

/-- A gray pattern of 8 by 8: one coefficient at 1, one at 12 in zigzag order. -/
def pattern : List UInt8 :=
  [137, 132, 126, 122, 121, 124, 129, 133, 133, 131, 128, 126, 125, 126, 128, 129, 127, 128, 130, 131, 130, 128, 125, 123,
   123, 127, 132, 135, 134, 130, 124, 119, 123, 127, 132, 135, 134, 130, 124, 119, 127, 128, 130, 131, 130, 128, 125, 123,
   133, 131, 128, 126, 125, 126, 128, 129, 137, 132, 126, 122, 121, 124, 129, 133].flatMap (fun g => [g, g, g])

def patternOptions : Options := { progOptions 8 8 .rgb .s444 with optimizeHuffman := true }

/-- Its coefficients. -/
def patternBlock (i : Nat) : List Int :=
  if i = 0 then [0, 1] ++ List.replicate 10 0 ++ 2 :: List.replicate 51 0 else List.replicate 64 0

theorem pattern_codes (i : Nat) (hi : i < 3) (zz : List Int) (h : CodesBlock pattern patternOptions i 0 0 zz) :
    zz = patternBlock i := by
  have hi' : i = 0 ∨ i = 1 ∨ i = 2 := by omega
  rcases hi' with rfl | rfl | rfl <;>
    exact codes_determined rfl _ 0 0 (by decide) _ (by decide) (by decide +kernel) zz h

/-- **C31** fails with optimized tables: the file of a single block has no code for a coefficient in its second band
(a run of one zero, size 2), since in a baseline file it comes after ten zeros. No reading of the file gives the
coefficients of the image. -/
theorem C31_optimized_violated : ∃ data o file, JpegValid data o ∧ Prog444 o ∧ o.optimizeHuffman = true ∧
    ceilDiv o.width 8 * ceilDiv o.height 8 = 1 ∧ Jpeg.encode data o = .ok file ∧
    ∀ f quant (blocks : Nat → Nat → List Int), (∀ i < 3, CodesBlock data o i 0 0 (blocks i 0)) →
      ¬ReadsProg file f quant (progData (frameFor o) blocks) := by
  have hv : JpegValid pattern patternOptions :=
    ⟨by decide, fun i h => (Option.some_ne_none i h.symm).elim, by decide, by decide, by decide, by decide +kernel⟩
  have hs : Prog444 patternOptions := ⟨rfl, rfl, rfl, fun i h => (Option.some_ne_none i h.symm).elim⟩
  obtain ⟨file, blocks, base, tl, tc, e, h1, _, h3, _, _, h6, _, h8⟩ := C31_tables pattern patternOptions hv hs
  have h3 := h3 rfl
  subst h3
  refine ⟨pattern, patternOptions, file, hv, hs, rfl, by decide, e, ?_⟩
  intro f quant blocks' hb hread
  have hone : ceilDiv patternOptions.width 8 * ceilDiv patternOptions.height 8 = 1 := by decide
  rw [hone] at h1 h6 h8
  have hbase : base 0 0 = patternBlock 0 := pattern_codes 0 (by decide) _ (h1 0 (by decide) 0 (by decide))
  have hsame : progData (frameFor patternOptions) blocks' = progData (frameFor patternOptions) base := by
    apply progData_congr
    intro i hi k hk
    obtain ⟨_, _, _, _, _, e5⟩ := blockCount_444 patternOptions rfl rfl i hi
    rw [e5, hone] at hk
    have : k = 0 := by omega
    subst this
    rw [pattern_codes i hi _ (hb i hi), pattern_codes i hi _ (h1 i hi 0 (by decide))]
  rw [hsame] at hread
  refine h8 (0, 11, 63) (by decide) (by decide) 0 (by decide) 18 ?_ ?_ f quant hread
  · change CoefSymbol (bandOf 11 63 (base 0 0)) 18
    rw [hbase, show bandOf 11 63 (patternBlock 0) = List.replicate 0 0 ++ bandOf 11 63 (patternBlock 0) from rfl,
      ← Jpeg.mem_coefSyms]
    decide +kernel
  · rw [if_pos rfl]
    intro hmem
    have hsym : ∀ s, BandSymbol (bandOf 1 63 (base 0 0)) s → s ∈ [1, 162, 0] := by
      intro s hx
      rw [hbase, ← Jpeg.mem_acSyms_band _ (by decide)] at hx
      have : Jpeg.acSyms ((patternBlock 0).drop 1) 0 = [1, 162, 0] := by decide +kernel
      rwa [this] at hx
    obtain ⟨k, hk, hx⟩ := h6 rfl [1, 162, 0] (by decide) (fun k hk s hx => by
      have : k = 0 := by omega
      subst this
      exact hsym s hx) 18 hmem
    have : k = 0 := by omega
    subst this
    exact absurd (hsym 18 hx) (by decide)

end Pixo.Props
