import Verif.Props.JpegProgressive
import Verif.Proof.JpegProgZero
/-
C31 for images without color.
-/
namespace Pixo.Props
open Pixo.Jpeg (Options Subsampling QuantTables)
open Spec.T81

/-- Red, green and blue are equal in every pixel. -/
def Achromatic (data : List UInt8) : Prop :=
  ∀ i, 3 * i + 2 < data.length → data.getD (3 * i) 0 = data.getD (3 * i + 1) 0 ∧ data.getD (3 * i + 1) 0 = data.getD (3 * i + 2) 0

theorem ycbcr_gray (g : UInt8) : (rgbToYcbcr g g g).2 = (128, 128) := by
  have h : ∀ n < 256, (rgbToYcbcr (UInt8.ofNat n) (UInt8.ofNat n) (UInt8.ofNat n)).2 = (128, 128) := by decide +kernel
  have := h g.toNat g.toNat_lt
  rwa [UInt8.ofNat_toNat] at this

theorem sample_achromatic {data : List UInt8} {o : Options} (hv : JpegValid data o) (hc : o.colorType = .rgb)
    (hs : o.subsampling = .s444) (ha : Achromatic data) (c : Nat) (hc1 : 1 ≤ c) (x y : Nat) :
    sampleOf data o c x y = 128 := by
  unfold sampleOf yccOf
  rw [if_pos (Or.inr (Or.inr hs)), if_neg (by rw [hc]; decide)]
  have hlen := hv.length
  rw [if_pos hc] at hlen
  have hi : min y (o.height - 1) * o.width + min x (o.width - 1) < o.width * o.height := by
    have hw := hv.width
    have hh := hv.height
    have h1 : min y (o.height - 1) ≤ o.height - 1 := Nat.min_le_right ..
    have h2 : min x (o.width - 1) ≤ o.width - 1 := Nat.min_le_right ..
    have h3 := Nat.mul_le_mul_right o.width h1
    have h4 : (o.height - 1) * o.width + o.width = o.width * o.height := by
      rw [← Nat.succ_mul, show (o.height - 1).succ = o.height by omega, Nat.mul_comm]
    omega
  generalize min y (o.height - 1) * o.width + min x (o.width - 1) = i at *
  obtain ⟨e1, e2⟩ := ha i (by omega)
  rw [← e2, ← e1]
  have := ycbcr_gray (data.getD (3 * i) 0)
  generalize rgbToYcbcr _ _ _ = p at *
  obtain ⟨a, b⟩ := p
  simp only at this
  subst this
  unfold component
  have h128 : (UInt8.toNat 128 : Int) = 128 := by decide
  rw [if_neg (by omega)]
  simp only [h128, ite_self]
  norm_num

/-- **C31** fails for every RGB image of more than one block with a component for chrominance that has no AC
coefficients (standard tables): its file does not say what the image's coefficients are. -/
theorem C31_flat (data : List UInt8) (o : Options) (hv : JpegValid data o) (hs : ProgSimple o)
    (h2 : 2 ≤ ceilDiv o.width 8 * ceilDiv o.height 8) :
    ∃ (file : List UInt8) (blocks : Nat → Nat → List Int), Jpeg.encode data o = .ok file ∧
      (∀ i < 3, ∀ k < ceilDiv o.width 8 * ceilDiv o.height 8,
        CodesBlock data o i (8 * (k % ceilDiv o.width 8)) (8 * (k / ceilDiv o.width 8)) (blocks i k)) ∧
      ∀ c, c = 1 ∨ c = 2 →
        (∀ k < ceilDiv o.width 8 * ceilDiv o.height 8, ∀ v ∈ (blocks c k).drop 1, v = 0) →
        ∀ f quant blocks', (∀ k < ceilDiv o.width 8 * ceilDiv o.height 8, ∀ v ∈ (blocks' c k).drop 1, v = 0) →
          ¬ReadsProg file f quant (progData (frameFor o) blocks') := by
  obtain ⟨hb, t, r, ht, hstd, hr, henc, _, hd, _⟩ := encode_progressive hv hs.progressive
  have hstd := hstd hs.tables
  refine ⟨_, imageBlock data o, henc, ?_, ?_⟩
  · intro i hi k _
    apply blockAt_codes hb
    unfold frameFor
    rw [if_neg (by rw [hs.color]; decide), if_pos hs.subsampling]
    exact hi
  · intro c hc hz f quant blocks' hz' h
    have hsm : (⟨c, 1, 63, 0, 0⟩ : Jpeg.ScanSpec) ∈ Jpeg.script := by
      rcases hc with rfl | rfl <;> decide
    have hc3 : c < 3 := by omega
    obtain ⟨raw, hmem, hseg⟩ := scans_read hv ht hr h _ hsm
    obtain ⟨he, _⟩ := hd _ hmem
    obtain ⟨_, _, _, _, _, hcnt⟩ := blockCount_444 o hs.color hs.subsampling c hc3
    have hl : Jpeg.lumOf (⟨c, 1, 63, 0, 0⟩ : Jpeg.ScanSpec) = false := by
      rcases hc with rfl | rfl <;> rfl
    have hlen := (blocks_444 data o hs.color hs.subsampling c hc3).1
    have hbands := bands_444 data o hs.color hs.subsampling (⟨c, 1, 63, 0, 0⟩ : Jpeg.ScanSpec) hc3
    rw [hl] at hseg
    have hzero : ∀ (B : Nat → List Int), (∀ k < ceilDiv o.width 8 * ceilDiv o.height 8, ∀ v ∈ (B k).drop 1, v = 0) →
        ∀ b ∈ (List.range (blockCount (frameFor o) c)).map (fun k => bandOf 1 63 (B k)), ∀ v ∈ b, v = 0 := by
      intro B hB b hbm v hv
      obtain ⟨k, hk, rfl⟩ := List.mem_map.mp hbm
      rw [hcnt, List.mem_range] at hk
      exact hB k hk v (List.mem_of_mem_take hv)
    refine Jpeg.run_zeros ht hstd hsm ⟨rfl, (by decide : 1 ≤ 1), (by decide : 1 ≤ 63), (by decide : 63 ≤ 63)⟩ hl _ ?_ ?_ he _ _ ?_ (hzero _ hz') hseg
    · intro b hbm
      rw [trim_nil_iff]
      have : Jpeg.bandAt (⟨c, 1, 63, 0, 0⟩ : Jpeg.ScanSpec) b ∈ ((Jpeg.progCtx data o).blocks c).map (Jpeg.bandAt ⟨c, 1, 63, 0, 0⟩) :=
        List.mem_map_of_mem hbm
      rw [hbands] at this
      exact hzero _ hz _ this
    · rw [hlen]; exact h2
    · rw [List.length_map, List.length_range, hcnt, hlen]

/-- **C31** fails for every RGB image of more than one block whose pixels are gray (standard tables, no trellis
quantization): its file does not say what the image's coefficients are. -/
theorem C31_achromatic (data : List UInt8) (o : Options) (hv : JpegValid data o) (hs : ProgSimple o)
    (htr : o.trellisQuant = false) (ha : Achromatic data) (h2 : 2 ≤ ceilDiv o.width 8 * ceilDiv o.height 8) :
    ∃ file, Jpeg.encode data o = .ok file ∧ ∀ f quant blocks,
      (∀ i < 3, ∀ k < ceilDiv o.width 8 * ceilDiv o.height 8,
        CodesBlock data o i (8 * (k % ceilDiv o.width 8)) (8 * (k / ceilDiv o.width 8)) (blocks i k)) →
      ¬ReadsProg file f quant (progData (frameFor o) blocks) := by
  obtain ⟨file, blocks', henc, hcodes, hbad⟩ := C31_flat data o hv hs h2
  refine ⟨file, henc, fun f quant blocks hb => ?_⟩
  have hflat := codes_flat data o hs.color hs.subsampling htr 1 (by decide)
    (sample_achromatic hv hs.color hs.subsampling ha 1 (by decide))
  have hz : ∀ l : List Int, l = List.replicate 64 0 → ∀ v ∈ l.drop 1, v = 0 := by
    rintro l rfl v hv
    exact (List.mem_replicate.mp (List.mem_of_mem_drop hv)).2
  exact hbad 1 (Or.inl rfl) (fun k hk => hz _ (hflat _ _ _ (hcodes 1 (by decide) k hk))) f quant blocks
    (fun k hk => hz _ (hflat _ _ _ (hb 1 (by decide) k hk)))

/-! ### Examples -/

/-- A ramp from black to white of 256 by 8. -/
def grayRamp : List UInt8 := (List.range 6144).map (fun i => UInt8.ofNat (i / 3 % 256))

theorem grayRamp_achromatic : Achromatic grayRamp := by
  intro i hi
  have hl : grayRamp.length = 6144 := by unfold grayRamp; rw [List.length_map, List.length_range]
  rw [hl] at hi
  have hg : ∀ j < 6144, grayRamp.getD j 0 = UInt8.ofNat (j / 3 % 256) := by
    intro j hj
    unfold grayRamp
    rw [List.getD_eq_getElem?_getD, List.getElem?_map, List.getElem?_range hj]
    rfl
  rw [hg _ (by omega), hg _ (by omega), hg _ (by omega), show (3 * i + 1) / 3 = 3 * i / 3 by omega,
    show (3 * i + 2) / 3 = 3 * i / 3 by omega]
  exact ⟨rfl, rfl⟩

/-- The file of the ramp cannot be read with its coefficients, and it has some. -/
example : ∃ file blocks, Jpeg.encode grayRamp (progOptions 256 8 .rgb .s444) = .ok file ∧
    (∀ i < 3, ∀ k < 32, CodesBlock grayRamp (progOptions 256 8 .rgb .s444) i (8 * (k % 32)) (8 * (k / 32)) (blocks i k)) ∧
    ∀ f quant, ¬ReadsProg file f quant (progData (frameFor (progOptions 256 8 .rgb .s444)) blocks) := by
  have hv := progOptions_valid 256 8 .rgb .s444 (Or.inl rfl) (by omega) (by omega) grayRamp (by
    unfold grayRamp; rw [List.length_map, List.length_range]; decide)
  obtain ⟨file, e, h⟩ := C31_achromatic grayRamp (progOptions 256 8 .rgb .s444) hv (progOptions_simple 256 8) rfl grayRamp_achromatic
    (by decide)
  obtain ⟨file', blocks, e', hb, _⟩ := C31_partial grayRamp _ hv (progOptions_simple 256 8)
  have : file = file' := by rw [e] at e'; injection e'
  subst this
  exact ⟨file, blocks, e, hb, fun f quant => h f quant blocks hb⟩

end Pixo.Props
