import Verif.Proof.JpegSize
import Verif.Props.Jpeg
/-
C89: the size of baseline JPEG files is bounded by the number of blocks.
-/
namespace Pixo.Props
open Spec Spec.T81
open Pixo.Jpeg (Options QuantTables)

/-- The most bytes before and after the scan: SOI 2, APP0 18, two DQT of 69, SOF0 19, DHT of 21 + 12 for DC and 21 + 256
for AC twice each, DRI 6, SOS 14, EOI 2. -/
def aroundScan : Nat := 2 + 18 + 2 * 69 + 19 + 2 * (21 + 12) + 2 * (21 + 256) + 6 + 14 + 2

/-- The most bits of a block: a code of 16 bits and 11 more for DC, 16 and 10 more for each AC coefficient. -/
def blockBits : Nat := (16 + 11) + 63 * (16 + 10)

/-- The blocks in the scan of a frame. -/
def blocksInScan (f : Frame) : Nat := mcuCount f * (mcuShape f).length

/-- The most bytes of the scan of `n` blocks in one segment: padded to bytes, each of which may need stuffing. -/
def oneSegment (n : Nat) : Nat := 2 * ((blockBits * n + 7) / 8)

theorem nodup_length {n : Nat} {l : List Nat} (hn : l.Nodup) (h : ∀ v ∈ l, v < n) : l.length ≤ n := by
  have := List.Nodup.length_le_of_subset (l₁ := l) (l₂ := List.range n) hn (fun x hx => by simpa using h x hx)
  simpa using this

theorem dhtTable_size {n id : Nat} {t : Pixo.Jpeg.Table} (h : Jpeg.TableOk n t) :
    (Jpeg.dhtTable id t).length ≤ 21 + n := by
  have h1 := nodup_length h.legal.vals_nodup h.lt
  have h2 : t.bits.length = 16 := h.legal.bits_length
  change t.vals.length ≤ n at h1
  unfold Jpeg.dhtTable
  simp only [List.length_append, List.length_map, h2, Jpeg.be16, List.length_cons, List.length_nil]
  omega

theorem around_size (o : Options) (q : QuantTables) (t : Jpeg.HuffTables)
    (hq : q.luminance.length = 64 ∧ q.chrominance.length = 64) (ht : Jpeg.TablesOk t) :
    (Jpeg.header o q t 0xFFC0).length + (Jpeg.sos o.colorType).length + Jpeg.eoi.length ≤ aroundScan := by
  have h1 := dhtTable_size (id := 0x00) ht.dcLum
  have h2 := dhtTable_size (id := 0x01) ht.dcChrom
  have h3 := dhtTable_size (id := 0x10) ht.acLum
  have h4 := dhtTable_size (id := 0x11) ht.acChrom
  have h5 : (Jpeg.dri o.restartInterval).length ≤ 6 := by
    cases o.restartInterval <;> simp [Jpeg.dri, Jpeg.be16]
  have h6 : (Jpeg.sos o.colorType).length ≤ 14 := by
    unfold Jpeg.sos
    by_cases hg : o.colorType = .gray <;> simp [hg, Jpeg.be16]
  have h7 : (Jpeg.sof 0xFFC0 o.width o.height o.colorType o.subsampling).length ≤ 19 := by
    unfold Jpeg.sof
    by_cases hg : o.colorType = .gray <;> simp [hg, Jpeg.be16]
  have h8 : Jpeg.app0.length = 18 := by decide
  have h9 : Jpeg.soi.length = 2 := by decide
  have h10 : Jpeg.eoi.length = 2 := by decide
  have h11 : (Jpeg.dqt q).length = 138 := by
    unfold Jpeg.dqt
    simp only [List.length_append, hq.1, hq.2, Jpeg.be16, List.length_cons, List.length_nil]
  unfold Jpeg.header Jpeg.dht aroundScan
  simp only [List.length_append, h8, h9, h10, h11]
  omega

theorem flatten_shape {ls : List (List (Nat × List Int))} {n : Nat} {s : List Nat}
    (h : ls.map (fun m => m.map (·.1)) = List.replicate n s) : ls.flatten.length = n * s.length := by
  have h1 := congrArg (fun l => l.flatten.length) h
  rw [← List.map_flatten, List.length_map] at h1
  rw [h1]
  induction n with
  | zero => simp
  | succ n ih =>
    rw [List.replicate_succ, List.flatten_cons, List.length_append, Nat.succ_mul]
    have : (List.replicate n s).flatten.length = n * s.length := by simp
    omega

/-- C89 without restart markers: the header, and one segment of the longest blocks. -/
theorem C89_size (data : List UInt8) (o : Options) (hv : JpegValid data o) (hp : o.progressive = false)
    (hr : o.restartInterval = none) :
    ∃ file, Jpeg.encode data o = .ok file ∧ file.length ≤ aroundScan + oneSegment (blocksInScan (frameFor o)) := by
  obtain ⟨mcus, t, scan, e1, hm, hl, ht, hc, hstd, hscan, e⟩ := Jpeg.encodeBody_baseline data o hv.validate hp
  have henc : Jpeg.encode data o = .ok (Jpeg.header o (QuantTables.withQuality o.quality) t 0xFFC0 ++
      Jpeg.sos o.colorType ++ scan ++ Jpeg.eoi) := by
    rw [Jpeg.encode, Jpeg.encodeInto, hv.validate]
    simp only
    rw [e]
  have hshape := flatten_shape (Jpeg.shape_file o mcus data (QuantTables.withQuality o.quality) (fun m x => (hm m x).2) hl)
  have ha := around_size o (QuantTables.withQuality o.quality) t (Jpeg.withQuality_length _) ht
  rw [hr] at hscan
  have hs := Jpeg.segment_length (fun c => (spec_legal ht c).1.bits_length) (fun c => (spec_legal ht c).2.bits_length) hscan
  refine ⟨_, henc, ?_⟩
  rw [hshape] at hs
  change _ ≤ oneSegment (blocksInScan (frameFor o)) at hs
  simp only [List.length_append]
  omega

/-- C89 with or without restart markers: at most 420 bytes for each block. -/
theorem C89_restarts (data : List UInt8) (o : Options) (hv : JpegValid data o) (hp : o.progressive = false) :
    ∃ file, Jpeg.encode data o = .ok file ∧ file.length ≤ aroundScan + 420 * blocksInScan (frameFor o) := by
  obtain ⟨mcus, t, scan, e1, hm, hl, ht, hc, hstd, hscan, e⟩ := Jpeg.encodeBody_baseline data o hv.validate hp
  have henc : Jpeg.encode data o = .ok (Jpeg.header o (QuantTables.withQuality o.quality) t 0xFFC0 ++
      Jpeg.sos o.colorType ++ scan ++ Jpeg.eoi) := by
    rw [Jpeg.encode, Jpeg.encodeInto, hv.validate]
    simp only
    rw [e]
  have hsh := Jpeg.shape_file o mcus data (QuantTables.withQuality o.quality) (fun m x => (hm m x).2) hl
  have hshape := flatten_shape hsh
  have ha := around_size o (QuantTables.withQuality o.quality) t (Jpeg.withQuality_length _) ht
  have hpos : 1 ≤ blocksInScan (frameFor o) := by
    unfold blocksInScan
    refine Nat.mul_pos ?_ ?_
    · have h1 := congrArg List.length hsh
      have h2 := hv.width
      have h3 := hv.height
      unfold frameFor mcuCount ceilDiv
      by_cases hg : o.colorType = .gray
      · simp only [hg, if_true]
        exact Nat.mul_pos (by omega) (by omega)
      · simp only [hg, if_false]
        by_cases hs : o.subsampling = .s444
        · simp only [hs, if_true]; exact Nat.mul_pos (by simp; omega) (by simp; omega)
        · simp only [hs, if_false]; exact Nat.mul_pos (by simp; omega) (by simp; omega)
    · unfold frameFor mcuShape
      by_cases hg : o.colorType = .gray
      · simp only [hg, if_true]; decide
      · simp only [hg, if_false]
        by_cases hs : o.subsampling = .s444
        · simp only [hs, if_true]; decide
        · simp only [hs, if_false]; decide
  refine ⟨_, henc, ?_⟩
  have hs : scan.length ≤ 420 * blocksInScan (frameFor o) := by
    unfold Scan at hscan
    split at hscan
    · have h1 := Jpeg.segment_length (fun c => (spec_legal ht c).1.bits_length) (fun c => (spec_legal ht c).2.bits_length) hscan
      rw [hshape] at h1
      change _ ≤ oneSegment (blocksInScan (frameFor o)) at h1
      unfold oneSegment blockBits at h1
      omega
    · rename_i ri hri
      have h1 := Jpeg.restarts_length (fun c => (spec_legal ht c).1.bits_length)
        (fun c => (spec_legal ht c).2.bits_length) hscan (hv.interval ri hri).1 (by
          intro x hx h0
          have h2 : x.map (·.1) ∈ (mcus.map Jpeg.zzMcu).map (fun m => m.map (·.1)) := List.mem_map.mpr ⟨x, hx, rfl⟩
          have h3 : (mcus.map Jpeg.zzMcu).map (fun m => m.map (·.1)) = _ := hsh
          rw [h3] at h2
          have h4 := (List.mem_replicate.mp h2).2
          rw [h0] at h4
          have h5 := congrArg List.length h4
          unfold blocksInScan at hpos
          have h6 : 0 < (mcuShape (frameFor o)).length := Nat.pos_of_mul_pos_left hpos
          change 0 = (mcuShape (frameFor o)).length at h5
          omega)
      rw [hshape] at h1
      exact h1
  simp only [List.length_append]
  omega

/-- A file of a 2x1 gray image has at most 1237 bytes. -/
example : JpegValid [0, 255] jpegOptions ∧ aroundScan + oneSegment (blocksInScan (frameFor jpegOptions)) = 1237 :=
  ⟨jpegOptions_valid, by decide⟩

end Pixo.Props
