import Verif.Proof.JpegMcus
/-
The headers of a baseline file, read by their lengths.
-/
namespace Pixo.Jpeg
open Pixo Spec.T81

theorem be16_eq (v : Nat) : Pixo.Jpeg.be16 v = Spec.T81.be16 v := by
  unfold Pixo.Jpeg.be16 Spec.T81.be16
  congr 2
  apply UInt8.toNat_inj.mp
  simp

theorem be16_val {v : Nat} (h : v < 65536) :
    256 * (UInt8.ofNat (v / 256)).toNat + (UInt8.ofNat (v % 256)).toNat = v := by
  simp only [UInt8.toNat_ofNat']
  omega

theorem walk_next {stop m : UInt8} {p rest : List UInt8} (fuel : Nat) (hm : m ≠ stop) (hp : p.length + 2 < 65536) :
    Spec.T81.walk stop (fuel + 1) (segment m p ++ rest) = (Spec.T81.walk stop fuel rest).map (fun x => ((m, p) :: x.1, x.2)) := by
  have e : segment m p ++ rest = 0xFF :: m :: UInt8.ofNat ((p.length + 2) / 256) ::
      UInt8.ofNat ((p.length + 2) % 256) :: (p ++ rest) := by
    simp [segment, Spec.T81.be16]
  rw [e, Spec.T81.walk]
  rw [be16_val hp, if_neg (by simp), if_neg hm, Nat.add_sub_cancel, List.drop_left, List.take_left]

theorem walk_stop {m : UInt8} {p rest : List UInt8} (fuel : Nat) (hp : p.length + 2 < 65536) :
    Spec.T81.walk m (fuel + 1) (segment m p ++ rest) = some ([(m, p)], rest) := by
  have e : segment m p ++ rest = 0xFF :: m :: UInt8.ofNat ((p.length + 2) / 256) ::
      UInt8.ofNat ((p.length + 2) % 256) :: (p ++ rest) := by
    simp [segment, Spec.T81.be16]
  rw [e, Spec.T81.walk]
  simp only
  rw [be16_val hp, if_neg (by simp), if_pos trivial, Nat.add_sub_cancel, List.drop_left, List.take_left]

/-! ### Code words -/

theorem codesFrom_size {code size : Nat} {l : List Nat} {c : Nat × Nat} (h : c ∈ codesFrom code size l) :
    c.2 ∈ l := by
  induction l generalizing code size with
  | nil => cases h
  | cons s rest ih =>
    rw [codesFrom] at h
    rcases List.mem_cons.mp h with rfl | h
    · simp
    · exact List.mem_cons_of_mem _ (ih h)

theorem codes_size_le {bits : List Nat} (hb : bits.length = 16) {k code size : Nat}
    (h : (codes bits)[k]? = some (code, size)) : size ≤ 16 := by
  have h1 := codesFrom_size (List.mem_of_getElem? h)
  simp only [sizes, List.mem_flatMap] at h1
  obtain ⟨⟨n, i⟩, h2, h3⟩ := h1
  have h4 := (List.mem_replicate.mp h3).2
  have := List.mem_zipIdx h2
  omega

theorem bitsMSB_has_zero {code size : Nat} (h : code + 1 < 2 ^ size) : false ∈ Spec.bitsMSB code size := by
  induction size generalizing code with
  | zero => omega
  | succ n ih =>
    rw [Spec.bitsMSB_succ, List.mem_append]
    by_cases hb : code % 2 = 1
    · left
      apply ih
      rw [Nat.pow_succ] at h
      omega
    · right
      simp [hb]

/-! ### The segments of a file -/

/-- Parameters of the APP0 segment. -/
def app0Params : List UInt8 := [0x4A, 0x46, 0x49, 0x46, 0, 1, 1, 0, 0, 1, 0, 1, 0, 0]

/-- Parameters of the frame header. -/
def sofParams (w h : Nat) (color : ColorType) (sub : Subsampling) : List UInt8 :=
  8 :: Spec.T81.be16 h ++ Spec.T81.be16 w ++
    (if color = .gray then [1, 1, 0x11, 0]
     else [3, 1, if sub = .s444 then 0x11 else 0x22, 0, 2, 0x11, 1, 3, 0x11, 1])

/-- Parameters of a DHT segment. -/
def dhtParams (id : Nat) (t : Pixo.Jpeg.Table) : List UInt8 :=
  UInt8.ofNat id :: (t.bits.map UInt8.ofNat ++ t.vals.map UInt8.ofNat)

/-- Parameters of the scan header. -/
def sosParams (color : ColorType) : List UInt8 :=
  if color = .gray then [1, 1, 0x00, 0, 63, 0] else [3, 1, 0x00, 2, 0x11, 3, 0x11, 0, 63, 0]

/-- The restart interval segment. -/
def driSegs : Option Nat → List (UInt8 × List UInt8)
  | none => []
  | some i => [(0xDD, Spec.T81.be16 i)]

/-- All segments of a baseline file up to the scan. -/
def fileSegs (o : Options) (q : QuantTables) (t : HuffTables) : List (UInt8 × List UInt8) :=
  [(0xE0, app0Params), (0xDB, 0 :: q.luminance), (0xDB, 1 :: q.chrominance),
    (0xC0, sofParams o.width o.height o.colorType o.subsampling),
    (0xC4, dhtParams 0x00 t.dcLum), (0xC4, dhtParams 0x01 t.dcChrom),
    (0xC4, dhtParams 0x10 t.acLum), (0xC4, dhtParams 0x11 t.acChrom)] ++
  driSegs o.restartInterval ++ [(0xDA, sosParams o.colorType)]

theorem app0_eq : app0 = segment 0xE0 app0Params := by decide +kernel

theorem dqt_eq (q : QuantTables) (h1 : q.luminance.length = 64) (h2 : q.chrominance.length = 64) :
    dqt q = segment 0xDB (0 :: q.luminance) ++ segment 0xDB (1 :: q.chrominance) := by
  unfold dqt segment
  simp only [List.length_cons, h1, h2, be16_eq]
  simp [Spec.T81.be16]

theorem sof_eq (w h : Nat) (color : ColorType) (sub : Subsampling) (hw : w < 65536) (hh : h < 65536) :
    sof 0xFFC0 w h color sub = segment 0xC0 (sofParams w h color sub) := by
  unfold sof segment sofParams
  rw [Nat.mod_eq_of_lt hw, Nat.mod_eq_of_lt hh]
  simp only [be16_eq]
  by_cases hg : color = .gray
  · simp only [hg, if_true]; simp [Spec.T81.be16]
  · simp only [if_neg hg]; simp [Spec.T81.be16]

theorem dht_length {n : Nat} {t : Pixo.Jpeg.Table} (h : TableOk n t) :
    t.bits.length = 16 ∧ t.vals.length = t.bits.sum ∧ t.vals.length ≤ 256 ∧ (∀ b ∈ t.bits, b < 256) ∧
      (∀ v ∈ t.vals, v < 256) := by
  have hl := h.legal
  refine ⟨hl.bits_length, hl.vals_length, ?_, fun b hb => by have := hl.bits_le b hb; omega, hl.vals_lt⟩
  have := List.Nodup.length_le_of_subset (l₁ := t.vals) (l₂ := List.range 256) hl.vals_nodup
    (fun x hx => by simpa using hl.vals_lt x hx)
  simpa using this

theorem dhtTable_eq {n : Nat} {t : Pixo.Jpeg.Table} (h : TableOk n t) (id : Nat) :
    dhtTable id t = segment 0xC4 (dhtParams id t) ∧ (dhtParams id t).length + 2 < 65536 := by
  obtain ⟨h1, h2, h3, _⟩ := dht_length h
  have hlen : (dhtParams id t).length = 17 + t.vals.length := by
    simp [dhtParams, h1]; omega
  refine ⟨?_, by omega⟩
  unfold dhtTable segment
  rw [hlen, be16_eq, be16_eq, Nat.mod_eq_of_lt (by omega),
    show 2 + 1 + 16 + t.vals.length = 17 + t.vals.length + 2 by omega]
  simp [dhtParams, Spec.T81.be16]

theorem sos_eq (color : ColorType) : sos color = segment 0xDA (sosParams color) := by
  unfold sos segment sosParams
  by_cases hg : color = .gray
  · simp only [hg, if_true, be16_eq]; simp [Spec.T81.be16]
  · simp only [if_neg hg, be16_eq]; simp [Spec.T81.be16]

theorem withQuality_length (q : Nat) : (QuantTables.withQuality q).luminance.length = 64 ∧
    (QuantTables.withQuality q).chrominance.length = 64 := by
  simp [QuantTables.withQuality]

theorem sofParams_length (w h color sub) : (sofParams w h color sub).length + 2 < 65536 := by
  unfold sofParams; split <;> simp [Spec.T81.be16]

theorem sosParams_length (color) : (sosParams color).length + 2 < 65536 := by
  unfold sosParams; split <;> simp

/-- Walking a baseline file by the lengths of its segments reaches the scan. -/
theorem walk_file (o : Options) (q : QuantTables) (t : HuffTables) (data : List UInt8) (fuel : Nat)
    (hq : q.luminance.length = 64 ∧ q.chrominance.length = 64) (ht : TablesOk t)
    (hw : o.width < 65536) (hh : o.height < 65536) (hf : 10 ≤ fuel) :
    ∃ body, header o q t 0xFFC0 ++ sos o.colorType ++ data = [0xFF, 0xD8] ++ body ∧
      Spec.T81.walk 0xDA fuel body = some (fileSegs o q t, data) := by
  obtain ⟨d1, l1⟩ := dhtTable_eq ht.dcLum 0x00
  obtain ⟨d2, l2⟩ := dhtTable_eq ht.dcChrom 0x01
  obtain ⟨d3, l3⟩ := dhtTable_eq ht.acLum 0x10
  obtain ⟨d4, l4⟩ := dhtTable_eq ht.acChrom 0x11
  obtain ⟨fuel, rfl⟩ : ∃ k, fuel = k + 10 := ⟨fuel - 10, by omega⟩
  refine ⟨app0 ++ dqt q ++ sof 0xFFC0 o.width o.height o.colorType o.subsampling ++ dht t ++
    dri o.restartInterval ++ sos o.colorType ++ data, ?_, ?_⟩
  · unfold header
    simp only [List.append_assoc]
    rfl
  · rw [app0_eq, dqt_eq q hq.1 hq.2, sof_eq _ _ _ _ hw hh, sos_eq, dht, d1, d2, d3, d4]
    simp only [List.append_assoc]
    rw [walk_next _ (by decide) (by decide), walk_next _ (by decide) (by simp [hq.1]),
      walk_next _ (by decide) (by simp [hq.2]), walk_next _ (by decide) (sofParams_length _ _ _ _),
      walk_next _ (by decide) l1, walk_next _ (by decide) l2, walk_next _ (by decide) l3,
      walk_next _ (by decide) l4]
    unfold fileSegs
    cases o.restartInterval with
    | none =>
      rw [dri, List.nil_append, walk_stop _ (sosParams_length _)]
      rfl
    | some i =>
      have : dri (some i) = segment 0xDD (Spec.T81.be16 i) := by
        simp only [dri, be16_eq]; simp [segment, Spec.T81.be16]
      rw [this, walk_next _ (by decide) (by simp [Spec.T81.be16]), walk_stop _ (sosParams_length _)]
      rfl

/-! ### What the segments say -/

/-- The frame of a file. -/
def fileFrame (w h : Nat) (color : ColorType) (sub : Subsampling) : Frame :=
  ⟨h, w, if color = .gray then [⟨1, 1, 1, 0⟩]
    else if sub = .s444 then [⟨1, 1, 1, 0⟩, ⟨2, 1, 1, 1⟩, ⟨3, 1, 1, 1⟩]
    else [⟨1, 2, 2, 0⟩, ⟨2, 1, 1, 1⟩, ⟨3, 1, 1, 1⟩]⟩

theorem frame_sof (w h : Nat) (color : ColorType) (sub : Subsampling) (hw : w < 65536) (hh : h < 65536) :
    frame (sofParams w h color sub) = some (fileFrame w h color sub) := by
  have e1 := be16_val hw
  have e2 := be16_val hh
  unfold sofParams fileFrame
  by_cases hg : color = .gray
  · simp only [hg, if_true]
    simp only [Spec.T81.be16, List.cons_append, List.nil_append, frame, e1, e2]
    rfl
  · simp only [if_neg hg]
    by_cases hs : sub = .s444
    · simp only [hs, if_true]
      simp only [Spec.T81.be16, List.cons_append, List.nil_append, frame, e1, e2]
      rfl
    · simp only [if_neg hs]
      simp only [Spec.T81.be16, List.cons_append, List.nil_append, frame, e1, e2]
      rfl

theorem frameOf_file (o : Options) (q : QuantTables) (t : HuffTables) (hw : o.width < 65536)
    (hh : o.height < 65536) :
    frameOf (fileSegs o q t) = some (fileFrame o.width o.height o.colorType o.subsampling) := by
  unfold frameOf fileSegs
  simp [List.findSome?, frame_sof _ _ _ _ hw hh]

theorem map_toNat {l : List Nat} (h : ∀ v ∈ l, v < 256) : (l.map UInt8.ofNat).map UInt8.toNat = l := by
  rw [List.map_map]
  conv => rhs; rw [← List.map_id l]
  apply List.map_congr_left
  intro v hv
  simp only [Function.comp, UInt8.toNat_ofNat', id]
  exact Nat.mod_eq_of_lt (h v hv)

theorem dht_read {n : Nat} {t : Pixo.Jpeg.Table} (h : TableOk n t) (id : Nat) :
    (((dhtParams id t).drop 1).take 16).map UInt8.toNat = t.bits ∧
    ((dhtParams id t).drop 17).map UInt8.toNat = t.vals := by
  obtain ⟨h1, h2, h3, h4, h5⟩ := dht_length h
  unfold dhtParams
  constructor
  · rw [List.drop_succ_cons, List.drop_zero, List.take_left' (by simpa using h1), map_toNat h4]
  · rw [List.drop_succ_cons, List.drop_left' (by simpa using h1), map_toNat h5]

theorem huffOf_file (o : Options) (q : QuantTables) (t : HuffTables) (ht : TablesOk t) :
    huffOf 0 0 (fileSegs o q t) = some t.dcLum.spec ∧ huffOf 0 1 (fileSegs o q t) = some t.dcChrom.spec ∧
    huffOf 1 0 (fileSegs o q t) = some t.acLum.spec ∧ huffOf 1 1 (fileSegs o q t) = some t.acChrom.spec := by
  have r1 := dht_read ht.dcLum 0x00
  have r2 := dht_read ht.dcChrom 0x01
  have r3 := dht_read ht.acLum 0x10
  have r4 := dht_read ht.acChrom 0x11
  have b1 := dht_length ht.dcLum
  have b2 := dht_length ht.dcChrom
  have b3 := dht_length ht.acLum
  have b4 := dht_length ht.acChrom
  have hd : ∀ (id : Nat) (t : Pixo.Jpeg.Table), (dhtParams id t).head? = some (UInt8.ofNat id) :=
    fun _ _ => rfl
  unfold huffOf fileSegs
  simp only [List.findSome?, List.cons_append, List.nil_append, r1.1, r1.2, r2.1, r2.2, r3.1, r3.2, r4.1, r4.2, hd]
  simp [b1.1, b2.1, b3.1, b4.1, b1.2.1, b2.2.1, b3.2.1, b4.2.1]
  exact ⟨rfl, rfl, rfl, rfl⟩

theorem quantOf_file (o : Options) (q : QuantTables) (t : HuffTables)
    (hq : q.luminance.length = 64 ∧ q.chrominance.length = 64) :
    quantOf 0 (fileSegs o q t) = some (q.luminance.map UInt8.toNat) ∧
    quantOf 1 (fileSegs o q t) = some (q.chrominance.map UInt8.toNat) := by
  unfold quantOf fileSegs
  simp [List.findSome?, hq.1, hq.2]

theorem scanOf_file (o : Options) (q : QuantTables) (t : HuffTables) :
    scanOf (fileSegs o q t) = some (if o.colorType = .gray then [(1, 0, 0)]
      else [(1, 0, 0), (2, 1, 1), (3, 1, 1)]) := by
  unfold scanOf fileSegs sosParams
  by_cases hg : o.colorType = .gray
  · simp only [if_pos hg]
    cases o.restartInterval <;> rfl
  · simp only [if_neg hg]
    cases o.restartInterval <;> rfl

theorem intervalOf_file (o : Options) (q : QuantTables) (t : HuffTables) (h0 : o.restartInterval ≠ some 0)
    (h : ∀ i, o.restartInterval = some i → i < 65536) : intervalOf (fileSegs o q t) = o.restartInterval := by
  unfold intervalOf fileSegs
  cases hr : o.restartInterval with
  | none => simp [List.findSome?, driSegs]
  | some i =>
    have e := be16_val (h i hr)
    simp [List.findSome?, driSegs, Spec.T81.be16]
    simp at e
    have hi : i ≠ 0 := by rintro rfl; exact h0 hr
    exact ⟨by omega, e⟩

/-! ### The coefficients -/

theorem shape_file (o : Options) (mcus : List Mcu) (data : List UInt8) (q : QuantTables)
    (hm : ∀ m ∈ mcus, m.map (·.1) = mcuShape o.colorType o.subsampling)
    (hl : mcus.length = (coords o.width o.height (Ctx.of data o q).step).length) :
    shape (mcus.map zzMcu) = List.replicate (mcuCount (fileFrame o.width o.height o.colorType o.subsampling))
      (Spec.T81.mcuShape (fileFrame o.width o.height o.colorType o.subsampling)) := by
  have e1 : mcuCount (fileFrame o.width o.height o.colorType o.subsampling) = mcus.length := by
    rw [hl, coords_length]
    unfold mcuCount fileFrame Ctx.step Ctx.of
    by_cases hg : o.colorType = .gray
    · simp only [hg, if_true]; rfl
    · simp only [if_neg hg]
      by_cases hs : o.subsampling = .s444
      · simp only [hs, if_true]; rfl
      · simp only [if_neg hs]; rfl
  have e2 : Spec.T81.mcuShape (fileFrame o.width o.height o.colorType o.subsampling) =
      mcuShape o.colorType o.subsampling := by
    unfold Spec.T81.mcuShape fileFrame mcuShape
    by_cases hg : o.colorType = .gray
    · simp only [hg, if_true]
    · simp only [if_neg hg]
      by_cases hs : o.subsampling = .s444
      · simp only [hs, if_true]; rfl
      · simp only [if_neg hs]; rfl
  rw [e1, e2, List.eq_replicate_iff]
  refine ⟨by simp [shape], ?_⟩
  intro b hb
  simp only [shape, List.map_map, List.mem_map] at hb
  obtain ⟨m, hmem, rfl⟩ := hb
  rw [← hm m hmem]
  simp [zzMcu]

theorem Blocks_congr {ts us : Tables} {pred : Nat → Int} {bs : List (Nat × List Int)} {bits : List Bool}
    (h : Blocks ts pred bs bits) (he : ∀ c ∈ bs.map (·.1), ts.dc c = us.dc c ∧ ts.ac c = us.ac c) :
    Blocks us pred bs bits := by
  induction h with
  | nil => exact .nil
  | cons hb _ ih =>
    refine .cons ?_ (ih (fun c hc => he c (by simp at hc ⊢; exact Or.inr hc)))
    obtain ⟨e1, e2⟩ := he _ (by simp; exact Or.inl rfl)
    rw [← e1, ← e2]; exact hb

theorem Segment_congr {ts us : Tables} {bs : List (Nat × List Int)} {bytes : List UInt8}
    (h : Segment ts bs bytes) (he : ∀ c ∈ bs.map (·.1), ts.dc c = us.dc c ∧ ts.ac c = us.ac c) :
    Segment us bs bytes := by
  obtain ⟨raw, bits, h1, h2, h3⟩ := h
  exact ⟨raw, bits, h1, h2, Blocks_congr h3 he⟩

theorem Scan_congr {ts us : Tables} {interval : Option Nat} {mcus : List (List (Nat × List Int))}
    {bytes : List UInt8} (h : Scan ts interval mcus bytes)
    (he : ∀ m ∈ mcus, ∀ c ∈ m.map (·.1), ts.dc c = us.dc c ∧ ts.ac c = us.ac c) :
    Scan us interval mcus bytes := by
  have key : ∀ mcus : List (List (Nat × List Int)),
      (∀ m ∈ mcus, ∀ c ∈ m.map (·.1), ts.dc c = us.dc c ∧ ts.ac c = us.ac c) →
      ∀ c ∈ mcus.flatten.map (·.1), ts.dc c = us.dc c ∧ ts.ac c = us.ac c := by
    intro mcus he c hc
    obtain ⟨p, hp, rfl⟩ := List.mem_map.mp hc
    obtain ⟨m, hm, hp⟩ := List.mem_flatten.mp hp
    exact he m hm _ (List.mem_map_of_mem hp)
  cases interval with
  | none => exact Segment_congr h (key _ he)
  | some ri =>
    have h' : Restarts ts ri 0 mcus bytes := h
    show Restarts us ri 0 mcus bytes
    generalize 0 = k at h' ⊢
    clear h
    induction h' with
    | last a b c => exact .last a b (Segment_congr c (key _ he))
    | more a b _ ih =>
      exact .more a (Segment_congr b (key _ (fun m hm => he m (by simp [hm])))) (ih (fun m hm => he m (by simp [hm])))

end Pixo.Jpeg
