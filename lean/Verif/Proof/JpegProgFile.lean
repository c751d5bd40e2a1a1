import Verif.Proof.JpegProg
import Verif.Proof.JpegFile
import Verif.Proof.JpegTrellis
import Verif.Proof.JpegSamples
/-
The segments and scans of a progressive file.
-/
namespace Pixo.Jpeg
open Pixo Spec Spec.T81

/-! ### Scans -/

/-- Parameters of a scan header. -/
def progParams (s : ScanSpec) : List UInt8 :=
  [1, UInt8.ofNat (s.component + 1), if s.component = 0 then 0x00 else 0x11, UInt8.ofNat s.ss, UInt8.ofNat s.se, 0]

/-- The table of a component. -/
def lumOf (s : ScanSpec) : Bool := decide (s.component = 0)

theorem sosProgressive_eq {s : ScanSpec} (h : s ∈ script) : sosProgressive s = segment 0xDA (progParams s) := by
  have : ∀ s ∈ script, sosProgressive s = segment 0xDA (progParams s) := by decide +kernel
  exact this s h

theorem script_cases {s : ScanSpec} (h : s ∈ script) : s.al = 0 ∧ s.ss ≤ 63 ∧ s.se ≤ 63 ∧ s.component < 3 ∧
    ((s.ss = 0 ∧ s.se = 0) ∨ AcSpec s) := by
  have : ∀ s ∈ script, s.al = 0 ∧ s.ss ≤ 63 ∧ s.se ≤ 63 ∧ s.component < 3 ∧
      ((s.ss = 0 ∧ s.se = 0) ∨ (s.al = 0 ∧ 1 ≤ s.ss ∧ s.ss ≤ s.se ∧ s.se ≤ 63)) := by decide +kernel
  obtain ⟨h1, h2, h3, h4, h5⟩ := this s h
  exact ⟨h1, h2, h3, h4, h5.imp id (fun h => ⟨h.1, h.2.1, h.2.2.1, h.2.2.2⟩)⟩

theorem bandAt_dc {s : ScanSpec} (h : s.ss = 0 ∧ s.se = 0) (b : List Int) : bandAt s b = [b.headD 0] := by
  unfold bandAt bandOf
  rw [h.1, h.2]
  have : zigzagReorder b = b.getD 0 0 :: (zigzagReorder b).drop 1 := rfl
  rw [this]
  cases b <;> rfl

/-- The symbols of a scan all have codes. -/
def Covered (t : HuffTables) (s : ScanSpec) (coeffs : List (List Int)) : Prop :=
  if s.ss = 0 then ∀ k ∈ dcSyms 0 (coeffs.map (fun b => b.headD 0)), k ∈ (t.get true (lumOf s)).vals
  else ∀ k ∈ bandSyms (coeffs.map (bandAt s)) 0, k ∈ (t.get false (lumOf s)).vals

/-- What is known about the bytes of a scan: their bits, padded. If the tables have codes for all symbols the
bits code the bands. If some end of band has no code and four zero bits cannot follow where it was to be, they do not. -/
def ScanBits (t : HuffTables) (coeffs : List (List Int)) (s : ScanSpec) (raw : List UInt8) : Prop :=
  ∃ bits, bytesMSB raw = bits ++ List.replicate (padLen bits.length) true ∧
      (Covered t s coeffs → BandSegment (t.get true (lumOf s)).spec (t.get false (lumOf s)).spec s.ss s.se
        (coeffs.map (bandAt s)) (stuff raw)) ∧
      (s.ss = 0 → Covered t s coeffs →
        DcFirst (t.get true (lumOf s)).spec 0 (coeffs.map (fun b => b.headD 0)) bits) ∧
      (s.ss ≠ 0 → (∀ k, k = 0xF0 ∨ (k < 256 ∧ 1 ≤ k % 16 ∧ k % 16 ≤ 10) → k ∈ (t.get false (lumOf s)).vals) →
        (∀ n bands tl, 0 < n → ¬ Begins (t.get false (lumOf s)).spec (s.se + 1 - s.ss) (List.replicate n 0) bands
          (List.replicate 4 false ++ tl)) →
        ¬ Covered t s coeffs → ∀ rest,
        ¬ Begins (t.get false (lumOf s)).spec (s.se + 1 - s.ss) [] (coeffs.map (bandAt s)) (bits ++ rest))

/-- The same of the bytes the encoder writes. -/
def ScanData (t : HuffTables) (coeffs : List (List Int)) (s : ScanSpec) (raw : List UInt8) : Prop :=
  encodeProgScan t coeffs s = .ok (segment 0xDA (progParams s) ++ stuff raw) ∧ ScanBits t coeffs s raw

/-- A scan: its header, then stuffed bytes of the bits. If the tables have codes for all symbols the bits
code the bands. -/
theorem encodeProgScan_spec {t : HuffTables} (h : TablesOk t) {s : ScanSpec} (hs : s ∈ script)
    (coeffs : List (List Int)) (hb : ∀ b ∈ coeffs, BlockRange (zigzagReorder b)) :
    ∃ raw, encodeProgScan t coeffs s = .ok (segment 0xDA (progParams s) ++ stuff raw) ∧ ScanBits t coeffs s raw := by
  obtain ⟨hal, _, _, _, hcase⟩ := script_cases hs
  rw [encodeProgScan, sosProgressive_eq hs]
  have hlum : ∀ w, (decide (s.component = 0)) = w → lumOf s = w := fun w h => h
  rcases hcase with h0 | hac
  · rw [if_pos h0]
    obtain ⟨w, bits, e, hem, hdc⟩ := dcScanBlocks_spec h hal (lumOf s) coeffs hb {} 0 (by decide)
    obtain ⟨raw, er, hraw⟩ := (hem [] [] (BitWriterMsb.holds_new [])).flush
    change dcScanBlocks t s (decide (s.component = 0)) coeffs {} 0 = _ at e
    rw [e, ok_bind]
    refine ⟨raw, ?_, bits, by simpa using hraw, ?_, ?_, fun hne => absurd h0.1 hne⟩
    · change Except.ok (_ ++ w.flush.buffer) = _
      rw [er]; rfl
    · intro hc
      rw [Covered, if_pos h0.1] at hc
      refine ⟨raw, bits, rfl, by simpa using hraw, ?_⟩
      rw [if_pos h0.1]
      refine ⟨h0.2, _, ?_, hdc hc⟩
      rw [List.map_map]
      exact List.map_congr_left (fun b _ => bandAt_dc h0 b)
    · intro _ hc
      rw [Covered, if_pos h0.1] at hc
      exact hdc hc
  · have hss := hac.ss
    rw [if_neg (by omega)]
    obtain ⟨w, bits, e, hem, hgood, hbad⟩ := acScanBlocks_spec h hac (lumOf s) coeffs hb {} 0 (by decide)
    obtain ⟨raw, er, hraw⟩ := (hem [] [] (BitWriterMsb.holds_new [])).flush
    change acScanBlocks t s (decide (s.component = 0)) coeffs {} 0 = _ at e
    rw [e, ok_bind]
    refine ⟨raw, ?_, bits, by simpa using hraw, ?_, fun hne => absurd hne (by omega), ?_⟩
    · change Except.ok (_ ++ w.flush.buffer) = _
      rw [er]; rfl
    · intro hc
      rw [Covered, if_neg (by omega)] at hc
      refine ⟨raw, bits, rfl, by simpa using hraw, ?_⟩
      rw [if_neg (by omega)]
      exact ⟨hac.le, hac.se, (hgood hc).1 rfl⟩
    · intro _ hcov hnb hnc rest
      rw [Covered, if_neg (by omega)] at hnc
      refine (hbad hcov hnb ?_ rest).1 rfl
      apply Classical.byContradiction
      intro hne
      apply hnc
      intro k hk
      apply Classical.byContradiction
      intro hk2
      exact hne ⟨k, hk, hk2⟩

/-! ### Segments -/

/-- All segments of a progressive file up to the first scan. -/
def progSegs (o : Options) (q : QuantTables) (t : HuffTables) (p : List UInt8) : List (UInt8 × List UInt8) :=
  [(0xE0, app0Params), (0xDB, 0 :: q.luminance), (0xDB, 1 :: q.chrominance),
    (0xC2, sofParams o.width o.height o.colorType o.subsampling),
    (0xC4, dhtParams 0x00 t.dcLum), (0xC4, dhtParams 0x01 t.dcChrom),
    (0xC4, dhtParams 0x10 t.acLum), (0xC4, dhtParams 0x11 t.acChrom)] ++
  driSegs o.restartInterval ++ [(0xDA, p)]

theorem sof2_eq (w h : Nat) (color : ColorType) (sub : Subsampling) (hw : w < 65536) (hh : h < 65536) :
    sof 0xFFC2 w h color sub = segment 0xC2 (sofParams w h color sub) := by
  unfold sof segment sofParams
  rw [Nat.mod_eq_of_lt hw, Nat.mod_eq_of_lt hh]
  simp only [be16_eq]
  by_cases hg : color = .gray
  · simp only [hg, if_true]; simp [Spec.T81.be16]
  · simp only [if_neg hg]; simp [Spec.T81.be16]

/-- Walking a progressive file by the lengths of its segments reaches the first scan. -/
theorem walk_prog (o : Options) (q : QuantTables) (t : HuffTables) (p data : List UInt8)
    (hq : q.luminance.length = 64 ∧ q.chrominance.length = 64) (ht : TablesOk t)
    (hw : o.width < 65536) (hh : o.height < 65536) (hp : p.length + 2 < 65536) :
    ∃ body, header o q t 0xFFC2 ++ segment 0xDA p ++ data = [0xFF, 0xD8] ++ body ∧ 10 ≤ body.length ∧
      ∀ fuel, 10 ≤ fuel → Spec.T81.walk 0xDA fuel body = some (progSegs o q t p, data) := by
  obtain ⟨d1, l1⟩ := dhtTable_eq ht.dcLum 0x00
  obtain ⟨d2, l2⟩ := dhtTable_eq ht.dcChrom 0x01
  obtain ⟨d3, l3⟩ := dhtTable_eq ht.acLum 0x10
  obtain ⟨d4, l4⟩ := dhtTable_eq ht.acChrom 0x11
  refine ⟨app0 ++ dqt q ++ sof 0xFFC2 o.width o.height o.colorType o.subsampling ++ dht t ++
    dri o.restartInterval ++ segment 0xDA p ++ data, ?_, ?_, ?_⟩
  · unfold header
    simp only [List.append_assoc]
    rfl
  · have : app0.length = 18 := by decide +kernel
    simp only [List.length_append]
    omega
  · intro fuel hf
    obtain ⟨fuel, rfl⟩ : ∃ k, fuel = k + 10 := ⟨fuel - 10, by omega⟩
    rw [app0_eq, dqt_eq q hq.1 hq.2, sof2_eq _ _ _ _ hw hh, dht, d1, d2, d3, d4]
    simp only [List.append_assoc]
    rw [walk_next _ (by decide) (by decide), walk_next _ (by decide) (by simp [hq.1]),
      walk_next _ (by decide) (by simp [hq.2]), walk_next _ (by decide) (sofParams_length _ _ _ _),
      walk_next _ (by decide) l1, walk_next _ (by decide) l2, walk_next _ (by decide) l3,
      walk_next _ (by decide) l4]
    unfold progSegs
    cases o.restartInterval with
    | none =>
      rw [dri, List.nil_append, walk_stop _ hp]
      rfl
    | some i =>
      have : dri (some i) = segment 0xDD (Spec.T81.be16 i) := by
        simp only [dri, be16_eq]; simp [segment, Spec.T81.be16]
      rw [this, walk_next _ (by decide) (by simp [Spec.T81.be16]), walk_stop _ hp]
      rfl

theorem progFrameOf_file (o : Options) (q : QuantTables) (t : HuffTables) (p : List UInt8) (hw : o.width < 65536)
    (hh : o.height < 65536) :
    progFrameOf (progSegs o q t p) = some (fileFrame o.width o.height o.colorType o.subsampling) := by
  unfold progFrameOf progSegs
  simp [List.findSome?, frame_sof _ _ _ _ hw hh]

theorem quantOf_prog (o : Options) (q : QuantTables) (t : HuffTables) (p : List UInt8)
    (hq : q.luminance.length = 64 ∧ q.chrominance.length = 64) :
    quantOf 0 (progSegs o q t p) = some (q.luminance.map UInt8.toNat) ∧
    quantOf 1 (progSegs o q t p) = some (q.chrominance.map UInt8.toNat) := by
  unfold quantOf progSegs
  simp [List.findSome?, hq.1, hq.2]

/-- Scan headers define no tables. -/
theorem huffOf_scans (cls id : Nat) (ds : List (List UInt8)) (segs : List (UInt8 × List UInt8)) :
    huffOf cls id (ds.map (fun p => ((0xDA : UInt8), p)) ++ segs) = huffOf cls id segs := by
  induction ds with
  | nil => rfl
  | cons d ds ih =>
    rw [← ih]
    simp [huffOf]

theorem intervalOf_scans (ds : List (List UInt8)) (segs : List (UInt8 × List UInt8)) :
    intervalOf (ds.map (fun p => ((0xDA : UInt8), p)) ++ segs) = intervalOf segs := by
  induction ds with
  | nil => rfl
  | cons d ds ih =>
    rw [← ih]
    simp [intervalOf]

theorem huffOf_prog (o : Options) (q : QuantTables) (t : HuffTables) (p : List UInt8) (ht : TablesOk t)
    (ds : List (List UInt8)) (dc lum : Bool) :
    huffOf (if dc then 0 else 1) (if lum then 0 else 1) (ds.map (fun p => ((0xDA : UInt8), p)) ++ progSegs o q t p) =
      some (t.get dc lum).spec := by
  rw [huffOf_scans]
  have r1 := dht_read ht.dcLum 0x00
  have r2 := dht_read ht.dcChrom 0x01
  have r3 := dht_read ht.acLum 0x10
  have r4 := dht_read ht.acChrom 0x11
  have b1 := dht_length ht.dcLum
  have b2 := dht_length ht.dcChrom
  have b3 := dht_length ht.acLum
  have b4 := dht_length ht.acChrom
  have hd : ∀ (id : Nat) (t : Pixo.Jpeg.Table), (dhtParams id t).head? = some (UInt8.ofNat id) :=
    fun _ _ => rfl
  unfold huffOf progSegs
  simp only [List.findSome?, List.cons_append, List.nil_append, r1.1, r1.2, r2.1, r2.2, r3.1, r3.2, r4.1, r4.2, hd]
  cases dc <;> cases lum <;>
    simp [b1.1, b2.1, b3.1, b4.1, b1.2.1, b2.2.1, b3.2.1, b4.2.1] <;> rfl

theorem intervalOf_prog (o : Options) (q : QuantTables) (t : HuffTables) (p : List UInt8)
    (h0 : o.restartInterval ≠ some 0) (h : ∀ i, o.restartInterval = some i → i < 65536) (ds : List (List UInt8)) :
    intervalOf (ds.map (fun p => ((0xDA : UInt8), p)) ++ progSegs o q t p) = o.restartInterval := by
  rw [intervalOf_scans]
  unfold intervalOf progSegs
  cases hr : o.restartInterval with
  | none => simp [List.findSome?, driSegs]
  | some i =>
    have e := be16_val (h i hr)
    simp [List.findSome?, driSegs, Spec.T81.be16]
    simp at e
    have hi : i ≠ 0 := by rintro rfl; exact h0 hr
    exact ⟨by omega, e⟩

/-! ### The scans of a file -/

/-- Scans and end of image. -/
def scanBytes : List (ScanSpec × List UInt8) → List UInt8
  | [] => [0xFF, 0xD9]
  | (s, raw) :: l => segment 0xDA (progParams s) ++ (stuff raw ++ scanBytes l)

theorem scanBytes_marker (l : List (ScanSpec × List UInt8)) :
    ∃ x xs, scanBytes l = 0xFF :: x :: xs ∧ x ≠ 0 ∧ ∀ m, x ≠ UInt8.ofNat (0xD0 + m % 8) := by
  have key : ∀ x : UInt8, 0xD8 ≤ x.toNat → x ≠ 0 ∧ ∀ m, x ≠ UInt8.ofNat (0xD0 + m % 8) := by
    intro x hx
    refine ⟨fun h => by rw [h] at hx; simp at hx, fun m h => ?_⟩
    rw [h, UInt8.toNat_ofNat', Nat.mod_eq_of_lt (by omega)] at hx
    omega
  cases l with
  | nil => exact ⟨0xD9, [], rfl, key _ (by decide)⟩
  | cons a l => exact ⟨0xDA, _, rfl, key _ (by decide)⟩

theorem params_read {s : ScanSpec} (hs : s ∈ script) :
    (UInt8.ofNat (s.component + 1)).toNat = s.component + 1 ∧ (UInt8.ofNat s.ss).toNat = s.ss ∧
    (UInt8.ofNat s.se).toNat = s.se ∧
    (if s.component = 0 then (0x00 : UInt8) else 0x11).toNat / 16 = (if lumOf s then 0 else 1) ∧
    (if s.component = 0 then (0x00 : UInt8) else 0x11).toNat % 16 = (if lumOf s then 0 else 1) := by
  have : ∀ s ∈ script, (UInt8.ofNat (s.component + 1)).toNat = s.component + 1 ∧ (UInt8.ofNat s.ss).toNat = s.ss ∧
    (UInt8.ofNat s.se).toNat = s.se ∧
    (if s.component = 0 then (0x00 : UInt8) else 0x11).toNat / 16 = (if lumOf s then 0 else 1) ∧
    (if s.component = 0 then (0x00 : UInt8) else 0x11).toNat % 16 = (if lumOf s then 0 else 1) := by decide +kernel
  exact this s hs

/-- Segments seen so far: scan headers and the segments before the first scan. -/
def Seen (o : Options) (q : QuantTables) (t : HuffTables) (segs : List (UInt8 × List UInt8)) : Prop :=
  ∃ (ds : List (List UInt8)) (p : List UInt8), segs = ds.map (fun p => ((0xDA : UInt8), p)) ++ progSegs o q t p

theorem Seen.huff {o : Options} {q : QuantTables} {t : HuffTables} {segs} (h : Seen o q t segs) (ht : TablesOk t)
    {s : ScanSpec} (hs : s ∈ script) :
    huffOf 0 ((if s.component = 0 then (0x00 : UInt8) else 0x11).toNat / 16) segs = some (t.get true (lumOf s)).spec ∧
    huffOf 1 ((if s.component = 0 then (0x00 : UInt8) else 0x11).toNat % 16) segs = some (t.get false (lumOf s)).spec := by
  obtain ⟨ds, p, rfl⟩ := h
  obtain ⟨_, _, _, e1, e2⟩ := params_read hs
  rw [e1, e2]
  exact ⟨huffOf_prog o q t p ht ds true (lumOf s), huffOf_prog o q t p ht ds false (lumOf s)⟩

/-- One scan read. -/
theorem scan_step {o : Options} {q : QuantTables} {t : HuffTables} (ht : TablesOk t) {f : Frame} {segs more data}
    {s : ScanSpec} (hs : s ∈ script) {raw : List UInt8} {l : List (ScanSpec × List UInt8)}
    (hw : Spec.T81.walk 0xDA data.length data = some (more, stuff raw ++ scanBytes l))
    (hl : more.getLast? = some (0xDA, progParams s)) (hseen : Seen o q t (more ++ segs))
    (hi : intervalOf (more ++ segs) = o.restartInterval) {c : Component} {bands : List (List Int)} {out}
    (hc : f.comps[s.component]? = some c) (hid : c.id = s.component + 1)
    (hlen : bands.length = blocksWide f c * blocksHigh f c)
    (hb : BandScan (t.get true (lumOf s)).spec (t.get false (lumOf s)).spec o.restartInterval s.ss s.se bands (stuff raw))
    (hrest : Scans f (more ++ segs) (scanBytes l) out) :
    Scans f segs data (⟨s.component, s.ss, s.se, bands⟩ :: out) := by
  obtain ⟨r1, r2, r3, _⟩ := params_read hs
  obtain ⟨hd, ha⟩ := hseen.huff ht hs
  obtain ⟨x, xs, ex, hx, _⟩ := scanBytes_marker l
  have := Scans.scan (f := f) hw hl hc (by rw [r1]; exact hid) hd ha (ht.get true _).legal (ht.get false _).legal hlen
    (by rw [r2, r3, hi]; exact hb) rfl ⟨x, xs, ex, hx⟩ hrest
  rw [r2, r3] at this
  exact this

/-- What reading one scan means. -/
theorem scan_inv {o : Options} {q : QuantTables} {t : HuffTables} (ht : TablesOk t) {f : Frame} {segs more data}
    {s : ScanSpec} (hs : s ∈ script) {raw : List UInt8} {l : List (ScanSpec × List UInt8)}
    (hw : Spec.T81.walk 0xDA data.length data = some (more, stuff raw ++ scanBytes l))
    (hl : more.getLast? = some (0xDA, progParams s)) (hseen : Seen o q t (more ++ segs))
    (hi : intervalOf (more ++ segs) = o.restartInterval) {out} (h : Scans f segs data out) :
    ∃ i c bands out', out = ⟨i, s.ss, s.se, bands⟩ :: out' ∧ f.comps[i]? = some c ∧ c.id = s.component + 1 ∧
      bands.length = blocksWide f c * blocksHigh f c ∧
      BandSegment (t.get true (lumOf s)).spec (t.get false (lumOf s)).spec s.ss s.se bands (stuff raw) ∧
      (∀ ri, o.restartInterval = some ri → bands.length ≤ ri) ∧ Scans f (more ++ segs) (scanBytes l) out' := by
  obtain ⟨r1, r2, r3, _⟩ := params_read hs
  obtain ⟨hd, ha⟩ := hseen.huff ht hs
  obtain ⟨x, xs, ex, hx, hrst⟩ := scanBytes_marker l
  cases h with
  | eoi => rw [walk_eoi] at hw; cases hw
  | scan hw' hl' hc hid hdc hac ld la hlen hb he hm hrest =>
    rename_i more' rest' bytes tail id' tabs' ss' se' i c dc ac bands out'
    rw [hw] at hw'
    injection hw' with hw'
    injection hw' with e1 e2
    subst e1
    rw [hl] at hl'
    injection hl' with hl'
    injection hl' with _ hl'
    unfold progParams at hl'
    simp only [List.cons.injEq, and_true, true_and] at hl'
    obtain ⟨rfl, rfl, rfl, rfl⟩ := hl'
    rw [hd] at hdc
    rw [ha] at hac
    injection hdc with hdc
    injection hac with hac
    subst hdc
    subst hac
    rw [r2, r3, hi] at hb
    rw [r1] at hid
    rw [← e2] at he
    have hmk : AtMarker (scanBytes l) := Or.inr ⟨x, xs, ex, hx⟩
    have key : ∃ raw', bytes = stuff raw' ∧ BandSegment (t.get true (lumOf s)).spec (t.get false (lumOf s)).spec
        s.ss s.se bands bytes ∧ (∀ ri, o.restartInterval = some ri → bands.length ≤ ri) := by
      cases hr : o.restartInterval with
      | none =>
        rw [hr] at hb
        obtain ⟨raw', bits, e, h⟩ := hb
        exact ⟨raw', e, ⟨raw', bits, e, h⟩, fun ri h => by cases h⟩
      | some ri =>
        rw [hr] at hb
        change BandRestarts _ _ _ _ _ _ _ _ at hb
        cases hb with
        | last h1 h2 h3 =>
          obtain ⟨raw', bits, e, h⟩ := h3
          refine ⟨raw', e, ⟨raw', bits, e, h⟩, fun ri' h => ?_⟩
          injection h with h
          subst h
          exact h1
        | more h1 h2 h3 =>
          obtain ⟨raw', bits, e, h⟩ := h2
          subst e
          simp only [List.append_assoc, List.cons_append, List.nil_append] at he
          obtain ⟨_, h5⟩ := stuff_unique hmk (rst_marker 0 _) he
          rw [ex] at h5
          injection h5 with _ h5
          injection h5 with h5
          exact absurd h5 (hrst 0)
    obtain ⟨raw', rfl, hseg, hri⟩ := key
    obtain ⟨rfl, rfl⟩ := stuff_unique hmk (Or.inr hm) he
    exact ⟨_, _, _, _, by rw [r2, r3], hc, hid, hlen, hseg, hri, hrest⟩

theorem walk_scan (s : ScanSpec) (raw : List UInt8) (l : List (ScanSpec × List UInt8)) :
    Spec.T81.walk 0xDA (scanBytes ((s, raw) :: l)).length (scanBytes ((s, raw) :: l)) =
      some ([(0xDA, progParams s)], stuff raw ++ scanBytes l) := by
  have : (scanBytes ((s, raw) :: l)).length = (scanBytes ((s, raw) :: l)).length - 1 + 1 := by
    have : 0 < (scanBytes ((s, raw) :: l)).length := by simp [scanBytes, segment]
    omega
  rw [this]
  exact walk_stop _ (by simp [progParams])

/-- What the scans are to say. -/
def expected (coeffs : Nat → List (List Int)) (l : List ScanSpec) : List BandData :=
  l.map (fun s => ⟨s.component, s.ss, s.se, (coeffs s.component).map (bandAt s)⟩)

/-- A scan that can be read. -/
def ScanOk (o : Options) (t : HuffTables) (f : Frame) (coeffs : Nat → List (List Int)) (p : ScanSpec × List UInt8) : Prop :=
  p.1 ∈ script ∧ ∃ c, f.comps[p.1.component]? = some c ∧ c.id = p.1.component + 1 ∧
    (coeffs p.1.component).length = blocksWide f c * blocksHigh f c ∧
    BandScan (t.get true (lumOf p.1)).spec (t.get false (lumOf p.1)).spec o.restartInterval p.1.ss p.1.se
      ((coeffs p.1.component).map (bandAt p.1)) (stuff p.2)

theorem Seen.cons {o : Options} {q : QuantTables} {t : HuffTables} {segs} (h : Seen o q t segs) (p : List UInt8) :
    Seen o q t ([(0xDA, p)] ++ segs) := by
  obtain ⟨ds, p', rfl⟩ := h
  exact ⟨p :: ds, p', rfl⟩

theorem Seen.interval {o : Options} {q : QuantTables} {t : HuffTables} {segs} (h : Seen o q t segs)
    (h0 : o.restartInterval ≠ some 0) (hi : ∀ i, o.restartInterval = some i → i < 65536) :
    intervalOf segs = o.restartInterval := by
  obtain ⟨ds, p, rfl⟩ := h
  exact intervalOf_prog o q t p h0 hi ds

theorem scans_intro {o : Options} {q : QuantTables} {t : HuffTables} (ht : TablesOk t) (h0 : o.restartInterval ≠ some 0)
    (hi : ∀ i, o.restartInterval = some i → i < 65536) {f : Frame} {coeffs : Nat → List (List Int)}
    (l : List (ScanSpec × List UInt8)) (hl : ∀ p ∈ l, ScanOk o t f coeffs p) (segs) (hs : Seen o q t segs) :
    Scans f segs (scanBytes l) (expected coeffs (l.map (·.1))) := by
  induction l generalizing segs with
  | nil => exact Scans.eoi
  | cons a l ih =>
    obtain ⟨s, raw⟩ := a
    obtain ⟨h1, c, h2, h3, h4, h5⟩ := hl (s, raw) (by simp)
    have hs' := hs.cons (progParams s)
    exact scan_step ht h1 (walk_scan s raw l) rfl hs' (hs'.interval h0 hi) h2 h3 (by simpa using h4) h5
      (ih (fun p hp => hl p (List.mem_cons_of_mem _ hp)) _ hs')

/-- A progressive file. -/
def progFile (o : Options) (q : QuantTables) (t : HuffTables) (l : List (ScanSpec × List UInt8)) : List UInt8 :=
  header o q t 0xFFC2 ++ scanBytes l

/-- Reading a file with at least one scan. -/
theorem progFile_walk {o : Options} {q : QuantTables} {t : HuffTables} (ht : TablesOk t)
    (hq : q.luminance.length = 64 ∧ q.chrominance.length = 64)
    (hw : o.width < 65536) (hh : o.height < 65536) (s : ScanSpec) (raw : List UInt8) (l : List (ScanSpec × List UInt8)) :
    ∃ body, progFile o q t ((s, raw) :: l) = [0xFF, 0xD8] ++ body ∧
      (∀ fuel, 10 ≤ fuel → Spec.T81.walk 0xDA fuel body = some (progSegs o q t (progParams s), stuff raw ++ scanBytes l)) ∧
      10 ≤ body.length := by
  obtain ⟨body, e, hlen, hwalk⟩ := walk_prog o q t (progParams s) (stuff raw ++ scanBytes l) hq ht hw hh (by simp [progParams])
  refine ⟨body, ?_, hwalk, hlen⟩
  rw [← e, progFile, scanBytes, List.append_assoc]

theorem seen_first (o : Options) (q : QuantTables) (t : HuffTables) (p : List UInt8) : Seen o q t (progSegs o q t p ++ []) :=
  ⟨[], p, by simp⟩

theorem progSegs_last (o : Options) (q : QuantTables) (t : HuffTables) (p : List UInt8) :
    (progSegs o q t p).getLast? = some (0xDA, p) := by
  unfold progSegs
  rw [List.getLast?_append]; rfl

/-- Files whose scans can be read. -/
theorem readsProg_intro {o : Options} {q : QuantTables} {t : HuffTables} (ht : TablesOk t)
    (hq : q.luminance.length = 64 ∧ q.chrominance.length = 64) (hw : o.width < 65536) (hh : o.height < 65536)
    (h0 : o.restartInterval ≠ some 0) (hi : ∀ i, o.restartInterval = some i → i < 65536)
    (coeffs : Nat → List (List Int)) (l : List (ScanSpec × List UInt8)) (hne : l ≠ [])
    (hl : ∀ p ∈ l, ScanOk o t (fileFrame o.width o.height o.colorType o.subsampling) coeffs p)
    (quant : List (List Nat)) (hquant : ∀ p, (fileFrame o.width o.height o.colorType o.subsampling).comps.mapM
      (fun c => quantOf c.tq (progSegs o q t p)) = some quant)
    (hn : ((fileFrame o.width o.height o.colorType o.subsampling).comps.map (·.id)).Nodup) :
    ReadsProg (progFile o q t l) (fileFrame o.width o.height o.colorType o.subsampling) quant
      (expected coeffs (l.map (·.1))) := by
  cases l with
  | nil => exact absurd rfl hne
  | cons a l =>
    obtain ⟨s, raw⟩ := a
    obtain ⟨body, e, hwalk, hlen⟩ := progFile_walk ht hq hw hh s raw l
    obtain ⟨h1, c, h2, h3, h4, h5⟩ := hl (s, raw) (by simp)
    have hs := seen_first o q t (progParams s)
    refine ⟨body, _, _, e, hwalk _ (by rw [e]; simp; omega), progFrameOf_file o q t _ hw hh, hquant _, hn, ?_⟩
    exact scan_step ht h1 (hwalk _ hlen) (progSegs_last o q t _) hs (hs.interval h0 hi) h2 h3 (by simpa using h4) h5
      (scans_intro ht h0 hi l (fun p hp => hl p (List.mem_cons_of_mem _ hp)) _ hs)

/-- What reading a file means, its scans read one after the other. -/
theorem readsProg_inv {o : Options} {q : QuantTables} {t : HuffTables} (ht : TablesOk t)
    (hq : q.luminance.length = 64 ∧ q.chrominance.length = 64) (hw : o.width < 65536) (hh : o.height < 65536)
    (h0 : o.restartInterval ≠ some 0) (hi : ∀ i, o.restartInterval = some i → i < 65536)
    {s : ScanSpec} (hs : s ∈ script) {raw : List UInt8} {l : List (ScanSpec × List UInt8)} {f : Frame}
    {quant : List (List Nat)} {out : List BandData} (h : ReadsProg (progFile o q t ((s, raw) :: l)) f quant out) :
    f = fileFrame o.width o.height o.colorType o.subsampling ∧
    ∃ i c bands out' segs, Seen o q t segs ∧ out = ⟨i, s.ss, s.se, bands⟩ :: out' ∧ f.comps[i]? = some c ∧
      c.id = s.component + 1 ∧ bands.length = blocksWide f c * blocksHigh f c ∧
      BandSegment (t.get true (lumOf s)).spec (t.get false (lumOf s)).spec s.ss s.se bands (stuff raw) ∧
      (∀ ri, o.restartInterval = some ri → bands.length ≤ ri) ∧ Scans f segs (scanBytes l) out' := by
  obtain ⟨body, e, hwalk, hlen⟩ := progFile_walk ht hq hw hh s raw l
  obtain ⟨body', segs, rest, e1, e2, e3, _, _, e6⟩ := h
  rw [e1] at e
  have := List.append_cancel_left e
  subst this
  rw [hwalk _ (by rw [e1]; simp; omega)] at e2
  injection e2 with e2
  injection e2 with e2 _
  subst e2
  rw [progFrameOf_file o q t _ hw hh] at e3
  injection e3 with e3
  have hseen := seen_first o q t (progParams s)
  obtain ⟨i, c, bands, out', g1, g2⟩ := scan_inv ht hs (hwalk _ hlen) (progSegs_last o q t _) hseen
    (hseen.interval h0 hi) e6
  exact ⟨e3.symm, i, c, bands, out', _, hseen, g1, g2⟩

/-- The same for a later scan. -/
theorem scans_inv {o : Options} {q : QuantTables} {t : HuffTables} (ht : TablesOk t)
    (h0 : o.restartInterval ≠ some 0) (hi : ∀ i, o.restartInterval = some i → i < 65536)
    {s : ScanSpec} (hs : s ∈ script) {raw : List UInt8} {l : List (ScanSpec × List UInt8)} {f : Frame}
    {segs} (hseen : Seen o q t segs) {out : List BandData} (h : Scans f segs (scanBytes ((s, raw) :: l)) out) :
    ∃ i c bands out' segs, Seen o q t segs ∧ out = ⟨i, s.ss, s.se, bands⟩ :: out' ∧ f.comps[i]? = some c ∧
      c.id = s.component + 1 ∧ bands.length = blocksWide f c * blocksHigh f c ∧
      BandSegment (t.get true (lumOf s)).spec (t.get false (lumOf s)).spec s.ss s.se bands (stuff raw) ∧
      (∀ ri, o.restartInterval = some ri → bands.length ≤ ri) ∧ Scans f segs (scanBytes l) out' := by
  have hs' := hseen.cons (progParams s)
  obtain ⟨i, c, bands, out', g⟩ := scan_inv ht hs (walk_scan s raw l) rfl hs' (hs'.interval h0 hi) h
  exact ⟨i, c, bands, out', _, hs', g⟩

/-! ### The encoder -/

/-- The blocks of a component, MCU by MCU. -/
def Ctx.blocks (c : Ctx) (k : Nat) : List (List Int) :=
  (List.range (mcuCount c.frame)).flatMap (fun j =>
    ((blocksAt c.frame j).filter (fun p => decide (p.1 = k))).map (fun p => c.blockAt p.1 p.2.1 p.2.2))

theorem allCoefficients_eq {c : Ctx} (hb : c.Baseline) : allCoefficients c = .ok (c.blocks 0, c.blocks 1, c.blocks 2) := by
  have key : ∀ k, ((List.range (mcuCount c.frame)).map (fun k =>
      (blocksAt c.frame k).map (fun p => (p.1, c.blockAt p.1 p.2.1 p.2.2)))).flatMap
        (fun m => (m.filter (·.1 = k)).map (·.2)) = c.blocks k := by
    intro k
    unfold Ctx.blocks
    rw [List.flatMap_map]
    congr 1
    funext j
    rw [List.filter_map, List.map_map]
    rfl
  rw [allCoefficients, mcus_eq hb, ok_bind]
  simp only [key]
  rfl

theorem blocks_range {c : Ctx} (hb : c.Baseline) (k : Nat) : ∀ b ∈ c.blocks k, BlockRange (zigzagReorder b) := by
  intro b h
  obtain ⟨j, _, h⟩ := List.mem_flatMap.mp h
  obtain ⟨p, _, rfl⟩ := List.mem_map.mp h
  exact (blockAt_eq hb _ _ _).2

theorem scans_ok {t : HuffTables} (ht : TablesOk t) (coeffs : Nat → List (List Int))
    (hc : ∀ k, ∀ b ∈ coeffs k, BlockRange (zigzagReorder b)) (l : List ScanSpec) (hl : ∀ s ∈ l, s ∈ script) :
    ∃ r : List (ScanSpec × List UInt8), r.map (·.1) = l ∧
      l.mapM (fun s => encodeProgScan t (coeffs s.component) s) =
        .ok (r.map (fun p => segment 0xDA (progParams p.1) ++ stuff p.2)) ∧
      ∀ p ∈ r, ScanData t (coeffs p.1.component) p.1 p.2 := by
  induction l with
  | nil => exact ⟨[], rfl, rfl, fun p hp => by cases hp⟩
  | cons s l ih =>
    obtain ⟨r, e1, e2, e3⟩ := ih (fun x hx => hl x (List.mem_cons_of_mem _ hx))
    obtain ⟨raw, e4, e5⟩ := encodeProgScan_spec ht (hl s (by simp)) (coeffs s.component) (hc _)
    refine ⟨(s, raw) :: r, by simp [e1], ?_, ?_⟩
    · rw [List.mapM_cons, e4, ok_bind, e2, ok_bind]; rfl
    · intro p hp
      rcases List.mem_cons.mp hp with rfl | hp
      · exact ⟨e4, e5⟩
      · exact e3 p hp

theorem scanBytes_eq (r : List (ScanSpec × List UInt8)) :
    scanBytes r = (r.map (fun p => segment 0xDA (progParams p.1) ++ stuff p.2)).flatten ++ [0xFF, 0xD9] := by
  induction r with
  | nil => rfl
  | cons a r ih =>
    obtain ⟨s, raw⟩ := a
    rw [scanBytes, ih]
    simp only [List.map_cons, List.flatten_cons, List.append_assoc]

/-- The context of a progressive image. -/
def progCtx (data : List UInt8) (o : Options) : Ctx :=
  (Ctx.of data o (QuantTables.withQuality o.quality)).progressive o

theorem component_eq (f : Nat → List (List Int)) {s : ScanSpec} (hs : s ∈ script) :
    component (f 0) (f 1) (f 2) s.component = f s.component := by
  obtain ⟨_, _, _, h, _⟩ := script_cases hs
  unfold component
  by_cases h0 : s.component = 0
  · rw [if_pos h0, h0]
  · rw [if_neg h0]
    by_cases h1 : s.component = 1
    · rw [if_pos h1, h1]
    · rw [if_neg h1, show s.component = 2 by omega]

/-- The MCUs of an image as in a baseline file: their symbols are what optimized tables are made from. -/
def statMcus (data : List UInt8) (o : Options) : List Mcu :=
  let c := Ctx.of data o (QuantTables.withQuality o.quality)
  (List.range (mcuCount c.frame)).map (fun k => (blocksAt c.frame k).map (fun p => (p.1, c.blockAt p.1 p.2.1 p.2.2)))

theorem encodeBody_progressive (data : List UInt8) (o : Options) (h : validate data o = .ok ())
    (hp : o.progressive = true) :
    (progCtx data o).Baseline ∧ ∃ t r, TablesOk t ∧ (o.optimizeHuffman = false → HuffTables.std = .ok t) ∧
      r.map (·.1) = script ∧ encodeBody data o = .ok (progFile o (QuantTables.withQuality o.quality) t r) ∧
      (∀ p ∈ r, ScanData t ((progCtx data o).blocks p.1.component) p.1 p.2) ∧
      (∀ m ∈ statMcus data o, McuRange m) ∧
      Covers t (scanSyms o.restartInterval (statMcus data o).length (statMcus data o) 0 [0, 0, 0]) ∧
      (o.optimizeHuffman = true → Unfit (scanSyms o.restartInterval (statMcus data o).length (statMcus data o) 0 [0, 0, 0]) ∨
        ∀ v, v ∈ t.acLum.vals ↔
          (false, true, v) ∈ scanSyms o.restartInterval (statMcus data o).length (statMcus data o) 0 [0, 0, 0]) := by
  obtain ⟨hb, hri, _⟩ := validate_baseline h
  have hpb : (progCtx data o).Baseline := progressive_quantOk hb
  refine ⟨hpb, ?_⟩
  obtain ⟨ht1, ht2, ht3⟩ := total_eq hb
  obtain ⟨mcus, e, hl, hm⟩ := mcus_ok hb
  have hst : mcus = statMcus data o := by
    have := mcus_eq hb
    rw [e] at this
    injection this
  have h6 : McuSize mcus := by
    intro m hmem
    have := mcuShape_length o.colorType o.subsampling
    have h2 := congrArg List.length (hm m hmem).2
    rw [List.length_map] at h2
    change m.length = (mcuShape o.colorType o.subsampling).length at h2
    omega
  obtain ⟨t, et, hok, hcov, hno, hopt⟩ := chooseTables_ok o mcus mcus.length (fun m x => (hm m x).1) h6 (by omega)
  obtain ⟨r, e1, e2, e3⟩ := scans_ok hok (progCtx data o).blocks (blocks_range hpb) script (fun _ h => h)
  refine ⟨t, r, hok, hno, e1, ?_, e3, hst ▸ (fun m hx => (hm m hx).1), hst ▸ hcov, hst ▸ hopt⟩
  · have hs : encodeProgressive (progCtx data o) t =
        .ok (r.map (fun p => segment 0xDA (progParams p.1) ++ stuff p.2)).flatten := by
      rw [encodeProgressive, allCoefficients_eq hpb, ok_bind]
      simp only
      have : script.mapM (fun s => encodeProgScan t (component ((progCtx data o).blocks 0) ((progCtx data o).blocks 1)
          ((progCtx data o).blocks 2) s.component) s) =
          script.mapM (fun s => encodeProgScan t ((progCtx data o).blocks s.component) s) := by
        have hcong : ∀ l : List ScanSpec, (∀ s ∈ l, s ∈ script) →
            l.mapM (fun s => encodeProgScan t (component ((progCtx data o).blocks 0) ((progCtx data o).blocks 1)
              ((progCtx data o).blocks 2) s.component) s) =
            l.mapM (fun s => encodeProgScan t ((progCtx data o).blocks s.component) s) := by
          intro l
          induction l with
          | nil => intro _; rfl
          | cons s l ih =>
            intro hl
            rw [List.mapM_cons, List.mapM_cons, ih (fun x hx => hl x (List.mem_cons_of_mem _ hx)),
              component_eq _ (hl s (by simp))]
        exact hcong script (fun _ h => h)
      rw [this, e2]; rfl
    unfold encodeBody
    simp only
    unfold progCtx at hs
    rw [ht1, ← hl, e, ok_bind, et, ok_bind, if_pos hp, hs, ok_bind]
    unfold progFile
    rw [scanBytes_eq, ← List.append_assoc]
    rfl

end Pixo.Jpeg
