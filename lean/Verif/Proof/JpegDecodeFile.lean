import Verif.Proof.JpegDecodeImage
import Verif.Proof.JpegFile
/-
The headers the JPEG encoder writes, read by the JPEG decoder.
-/
namespace Pixo.JpegDecode
open Pixo Pixo.Idct Spec Pixo.Jpeg

theorem readMarker_segment (m : UInt8) (p rest : List UInt8) (hm : m ≠ 0xFF) (hd : ¬(0xD0 ≤ m ∧ m ≤ 0xD9))
    (hp : p.length + 2 < 65536) : readMarker (T81.segment m p ++ rest) = .ok (m, p, rest) := by
  have e : T81.segment m p ++ rest = 0xFF :: m :: UInt8.ofNat ((p.length + 2) / 256) ::
      UInt8.ofNat ((p.length + 2) % 256) :: (p ++ rest) := by
    simp [T81.segment, T81.be16]
  have hb : JpegDecode.be16 (UInt8.ofNat ((p.length + 2) / 256)) (UInt8.ofNat ((p.length + 2) % 256)) = p.length + 2 :=
    be16_val hp
  unfold readMarker
  rw [e, List.dropWhile_cons_of_neg (by decide), List.dropWhile_cons_of_pos (by decide),
    List.dropWhile_cons_of_neg (by simpa using hm)]
  simp only [if_neg hd, hb]
  rw [if_neg (by simp), Nat.add_sub_cancel, List.drop_left, List.take_left]

theorem setChecked_lt {α : Type} {l : List α} {i : Nat} (v : α) (h : i < l.length) : setChecked l i v = .ok (l.set i v) := by
  unfold setChecked; rw [if_pos h]

theorem parseDqt_one (id : UInt8) (table : List UInt8) (s : State) (hid : id.toNat < 4) (hl : table.length = 64)
    (hs : s.quant.length = 4) (fuel : Nat) :
    parseDqt (fuel + 1) (id :: table) s = .ok { s with quant := s.quant.set id.toNat (table.map UInt8.toNat) } := by
  have h1 : (id.toNat >>> 4) &&& 0x0F = 0 ∧ id.toNat &&& 0x0F = id.toNat := by
    have : id.toNat = 0 ∨ id.toNat = 1 ∨ id.toNat = 2 ∨ id.toNat = 3 := by omega
    rcases this with h | h | h | h <;> rw [h] <;> decide
  rw [parseDqt]
  simp only [h1.1, h1.2]
  rw [if_neg (by omega), if_pos trivial, if_neg (by omega), takeChecked_ok (by omega), ok_bind, setChecked_lt _ (by omega), ok_bind,
    List.drop_eq_nil_of_le (by omega), List.take_of_length_le (by omega)]
  cases fuel <;> rfl

theorem parseDht_one {n : Nat} {t : Pixo.Jpeg.Table} (h : TableOk n t) (cls id : Nat) (hc : cls < 2) (hid : id < 4) (s : State)
    (hd : s.dc.length = 4) (ha : s.ac.length = 4) (fuel : Nat) :
    parseDht (fuel + 1) (dhtParams (16 * cls + id) t) s = .ok (if cls = 0
      then { s with dc := s.dc.set id (Huff.build t.bits t.vals) }
      else { s with ac := s.ac.set id (Huff.build t.bits t.vals) }) := by
  obtain ⟨h1, h2, h3, h4, h5⟩ := dht_length h
  have hx : ((UInt8.ofNat (16 * cls + id)).toNat >>> 4) &&& 0x0F = cls ∧
      (UInt8.ofNat (16 * cls + id)).toNat &&& 0x0F = id := by
    have c1 : cls = 0 ∨ cls = 1 := by omega
    have c2 : id = 0 ∨ id = 1 ∨ id = 2 ∨ id = 3 := by omega
    rcases c1 with rfl | rfl <;> rcases c2 with rfl | rfl | rfl | rfl <;> decide
  have hn : ∀ f s, parseDht f [] s = .ok s := fun f s => by cases f <;> rfl
  unfold dhtParams
  rw [parseDht]
  simp only [hx.1, hx.2]
  rw [if_neg (by omega), if_neg (by simp [h1]), takeChecked_ok (by simp [h1]), ok_bind]
  rw [List.take_left' (by simpa using h1), List.drop_left' (by simpa using h1),
    map_toNat h4, if_neg (by simp; omega), takeChecked_ok (by simp; omega), ok_bind, List.take_of_length_le (by simp; omega), map_toNat h5,
    List.drop_eq_nil_of_le (by simp; omega)]
  by_cases hcl : cls = 0
  · rw [if_pos hcl, if_pos hcl, setChecked_lt _ (by omega), ok_bind, hn]
  · rw [if_neg hcl, if_neg hcl, setChecked_lt _ (by omega), ok_bind, hn]

/-- The components after the frame header. -/
def sofComps (color : ColorType) (sub : Subsampling) : List Component :=
  if color = .gray then [⟨1, 1, 0, 0, 0⟩]
  else if sub = .s444 then [⟨1, 1, 0, 0, 0⟩, ⟨1, 1, 1, 0, 0⟩, ⟨1, 1, 1, 0, 0⟩]
  else [⟨2, 2, 0, 0, 0⟩, ⟨1, 1, 1, 0, 0⟩, ⟨1, 1, 1, 0, 0⟩]

/-- The components after the scan header. -/
def scanComps (color : ColorType) (sub : Subsampling) : List Component :=
  if color = .gray then [⟨1, 1, 0, 0, 0⟩]
  else if sub = .s444 then [⟨1, 1, 0, 0, 0⟩, ⟨1, 1, 1, 1, 1⟩, ⟨1, 1, 1, 1, 1⟩]
  else [⟨2, 2, 0, 0, 0⟩, ⟨1, 1, 1, 1, 1⟩, ⟨1, 1, 1, 1, 1⟩]

/-- The largest sampling factor. -/
def maxOf (color : ColorType) (sub : Subsampling) : Nat := if color = .gray then 1 else if sub = .s444 then 1 else 2

theorem parseSof0_file (w h : Nat) (color : ColorType) (sub : Subsampling) (hw : w < 65536) (hh : h < 65536) (s : State)
    (hs : s.maxH = 1 ∧ s.maxV = 1) :
    parseSof0 (sofParams w h color sub) s = .ok ⟨w, h, sofComps color sub, s.quant, s.dc, s.ac, s.restart,
      maxOf color sub, maxOf color sub⟩ := by
  have e1 : JpegDecode.be16 (UInt8.ofNat (w / 256)) (UInt8.ofNat (w % 256)) = w := be16_val hw
  have e2 : JpegDecode.be16 (UInt8.ofNat (h / 256)) (UInt8.ofNat (h % 256)) = h := be16_val hh
  obtain ⟨w0, h0, c0, q0, d0, a0, r0, mh, mv⟩ := s
  obtain ⟨rfl, rfl⟩ := hs
  unfold sofParams sofComps maxOf
  simp only [T81.be16]
  generalize UInt8.ofNat (w / 256) = wh at *
  generalize UInt8.ofNat (w % 256) = wl at *
  generalize UInt8.ofNat (h / 256) = hh at *
  generalize UInt8.ofNat (h % 256) = hl at *
  subst e1 e2
  by_cases hg : color = .gray
  · simp only [if_pos hg]; rfl
  · simp only [if_neg hg]
    by_cases hsub : sub = .s444
    · simp only [if_pos hsub]; rfl
    · simp only [if_neg hsub]; rfl

theorem parseSos_file (color : ColorType) (sub : Subsampling) (s : State) (hs : s.components = sofComps color sub) :
    parseSos (sosParams color) s = .ok { s with components := scanComps color sub } := by
  obtain ⟨w0, h0, c0, q0, d0, a0, r0, mh, mv⟩ := s
  simp only at hs
  subst hs
  unfold sosParams sofComps scanComps
  by_cases hg : color = .gray
  · simp only [if_pos hg]; rfl
  · simp only [if_neg hg]
    by_cases hsub : sub = .s444
    · simp only [if_pos hsub]; rfl
    · simp only [if_neg hsub]; rfl

/-- The state of the decoder at the scan. -/
def fileState (o : Options) (q : QuantTables) (t : HuffTables) (ri : Nat) : State where
  width := o.width
  height := o.height
  components := scanComps o.colorType o.subsampling
  quant := [q.luminance.map UInt8.toNat, q.chrominance.map UInt8.toNat, List.replicate 64 0, List.replicate 64 0]
  dc := [Huff.build t.dcLum.bits t.dcLum.vals, Huff.build t.dcChrom.bits t.dcChrom.vals, Huff.empty, Huff.empty]
  ac := [Huff.build t.acLum.bits t.acLum.vals, Huff.build t.acChrom.bits t.acChrom.vals, Huff.empty, Huff.empty]
  restart := ri
  maxH := maxOf o.colorType o.subsampling
  maxV := maxOf o.colorType o.subsampling

theorem loop_segment (ck : Bool) (fuel : Nat) (s : State) (m : UInt8) (p rest : List UInt8) (hm : m ≠ 0xFF)
    (hd : ¬(0xD0 ≤ m ∧ m ≤ 0xD9)) (hp : p.length + 2 < 65536) :
    markerLoop ck (fuel + 1) s (T81.segment m p ++ rest) =
    if m = 0xC0 then do
      let s ← parseSof0 p s
      markerLoop ck fuel s rest
    else if m = 0xC2 then .error .unsupported
    else if m = 0xC4 then do
      let s ← parseDht p.length p s
      markerLoop ck fuel s rest
    else if m = 0xDB then do
      let s ← parseDqt p.length p s
      markerLoop ck fuel s rest
    else if m = 0xDD then do
      let s ← parseDri p s
      markerLoop ck fuel s rest
    else if m = 0xDA then do
      let s ← parseSos p s
      decodeScan ck s rest
    else if m = 0xD9 then .error .invalid
    else markerLoop ck fuel s rest := by
  rw [markerLoop, readMarker_segment m p rest hm hd hp, ok_bind]

theorem loop_dqt (ck : Bool) (fuel : Nat) (s s' : State) (p rest : List UInt8) (hp : p.length + 2 < 65536)
    (h : parseDqt p.length p s = .ok s') :
    markerLoop ck (fuel + 1) s (T81.segment 0xDB p ++ rest) = markerLoop ck fuel s' rest := by
  rw [loop_segment ck _ _ _ _ _ (by decide) (by decide) hp, if_neg (by decide), if_neg (by decide), if_neg (by decide),
    if_pos rfl, h, ok_bind]

theorem loop_dht (ck : Bool) (fuel : Nat) (s s' : State) (p rest : List UInt8) (hp : p.length + 2 < 65536)
    (h : parseDht p.length p s = .ok s') :
    markerLoop ck (fuel + 1) s (T81.segment 0xC4 p ++ rest) = markerLoop ck fuel s' rest := by
  rw [loop_segment ck _ _ _ _ _ (by decide) (by decide) hp, if_neg (by decide), if_neg (by decide),
    if_pos rfl, h, ok_bind]

theorem loop_sof (ck : Bool) (fuel : Nat) (s s' : State) (p rest : List UInt8) (hp : p.length + 2 < 65536)
    (h : parseSof0 p s = .ok s') :
    markerLoop ck (fuel + 1) s (T81.segment 0xC0 p ++ rest) = markerLoop ck fuel s' rest := by
  rw [loop_segment ck _ _ _ _ _ (by decide) (by decide) hp, if_pos rfl, h, ok_bind]

theorem loop_dri (ck : Bool) (fuel : Nat) (s s' : State) (p rest : List UInt8) (hp : p.length + 2 < 65536)
    (h : parseDri p s = .ok s') :
    markerLoop ck (fuel + 1) s (T81.segment 0xDD p ++ rest) = markerLoop ck fuel s' rest := by
  rw [loop_segment ck _ _ _ _ _ (by decide) (by decide) hp, if_neg (by decide), if_neg (by decide), if_neg (by decide),
    if_neg (by decide), if_pos rfl, h, ok_bind]

theorem loop_sos (ck : Bool) (fuel : Nat) (s s' : State) (p rest : List UInt8) (hp : p.length + 2 < 65536)
    (h : parseSos p s = .ok s') :
    markerLoop ck (fuel + 1) s (T81.segment 0xDA p ++ rest) = decodeScan ck s' rest := by
  rw [loop_segment ck _ _ _ _ _ (by decide) (by decide) hp, if_neg (by decide), if_neg (by decide), if_neg (by decide),
    if_neg (by decide), if_neg (by decide), if_pos rfl, h, ok_bind]

theorem loop_app (ck : Bool) (fuel : Nat) (s : State) (p rest : List UInt8) (hp : p.length + 2 < 65536) :
    markerLoop ck (fuel + 1) s (T81.segment 0xE0 p ++ rest) = markerLoop ck fuel s rest := by
  rw [loop_segment ck _ _ _ _ _ (by decide) (by decide) hp, if_neg (by decide), if_neg (by decide), if_neg (by decide),
    if_neg (by decide), if_neg (by decide), if_neg (by decide), if_neg (by decide)]

theorem parseDc {n : Nat} {t : Pixo.Jpeg.Table} (h : TableOk n t) (id : Nat) (hid : id < 4) (s : State)
    (hd : s.dc.length = 4) (ha : s.ac.length = 4) :
    parseDht (dhtParams id t).length (dhtParams id t) s = .ok { s with dc := s.dc.set id (Huff.build t.bits t.vals) } := by
  have h1 := parseDht_one h 0 id (by decide) hid s hd ha
  rw [if_pos rfl, Nat.mul_zero, Nat.zero_add] at h1
  exact h1 _

theorem parseAc {n : Nat} {t : Pixo.Jpeg.Table} (h : TableOk n t) (id : Nat) (hid : id < 4) (s : State)
    (hd : s.dc.length = 4) (ha : s.ac.length = 4) :
    parseDht (dhtParams (16 + id) t).length (dhtParams (16 + id) t) s =
      .ok { s with ac := s.ac.set id (Huff.build t.bits t.vals) } := by
  have h1 := parseDht_one h 1 id (by decide) hid s hd ha
  rw [if_neg (by decide), Nat.mul_one] at h1
  exact h1 _

/-- The headers of a file, with or without a restart interval, are read right. -/
theorem decodeJpeg_file (ck : Bool) (o : Options) (q : QuantTables) (t : HuffTables) (data : List UInt8)
    (hq : q.luminance.length = 64 ∧ q.chrominance.length = 64) (ht : TablesOk t)
    (hw : o.width < 65536) (hh : o.height < 65536) (hri : ∀ i, o.restartInterval = some i → i < 65536) :
    decodeJpeg ck (header o q t 0xFFC0 ++ sos o.colorType ++ data) =
      decodeScan ck (fileState o q t (o.restartInterval.getD 0)) data := by
  obtain ⟨d1, l1⟩ := dhtTable_eq ht.dcLum 0x00
  obtain ⟨d2, l2⟩ := dhtTable_eq ht.dcChrom 0x01
  obtain ⟨d3, l3⟩ := dhtTable_eq ht.acLum 0x10
  obtain ⟨d4, l4⟩ := dhtTable_eq ht.acChrom 0x11
  have e : header o q t 0xFFC0 ++ sos o.colorType ++ data = 0xFF :: 0xD8 :: (app0 ++ dqt q ++
      sof 0xFFC0 o.width o.height o.colorType o.subsampling ++ dht t ++
      dri o.restartInterval ++ sos o.colorType ++ data) := by
    unfold header
    simp only [List.append_assoc]
    rfl
  rw [e, decodeJpeg]
  have hlen : ∃ f, (app0 ++ dqt q ++ sof 0xFFC0 o.width o.height o.colorType o.subsampling ++ dht t ++
      dri o.restartInterval ++ sos o.colorType ++ data).length + 1 = f + 10 := by
    have : app0.length = 18 := by decide
    simp only [List.length_append, this]
    refine ⟨_, (Nat.sub_add_cancel ?_).symm⟩
    omega
  obtain ⟨f, hf⟩ := hlen
  rw [hf, app0_eq, dqt_eq q hq.1 hq.2, sof_eq _ _ _ _ hw hh, sos_eq, dht, d1, d2, d3, d4]
  simp only [List.append_assoc]
  have h0 : ({} : State) = ⟨0, 0, [], [List.replicate 64 0, List.replicate 64 0, List.replicate 64 0, List.replicate 64 0],
    [Huff.empty, Huff.empty, Huff.empty, Huff.empty], [Huff.empty, Huff.empty, Huff.empty, Huff.empty], 0, 1, 1⟩ := rfl
  unfold fileState
  rw [h0]
  generalize Huff.empty = he
  generalize List.replicate 64 0 = qe
  rw [loop_app ck _ _ _ _ (by decide)]
  rw [loop_dqt ck _ _ _ _ _ (by simp [hq.1]) (parseDqt_one 0 _ _ (by decide) hq.1 rfl _)]
  rw [loop_dqt ck _ _ _ _ _ (by simp [hq.2]) (parseDqt_one 1 _ _ (by decide) hq.2 rfl _)]
  rw [loop_sof ck _ _ _ _ _ (sofParams_length _ _ _ _) (parseSof0_file _ _ _ _ hw hh _ ⟨rfl, rfl⟩)]
  rw [loop_dht ck _ _ _ _ _ l1 (parseDc ht.dcLum 0 (by decide) _ rfl rfl)]
  rw [loop_dht ck _ _ _ _ _ l2 (parseDc ht.dcChrom 1 (by decide) _ rfl rfl)]
  rw [loop_dht ck _ _ _ _ _ l3 (parseAc ht.acLum 0 (by decide) _ rfl rfl)]
  rw [loop_dht ck _ _ _ _ _ l4 (parseAc ht.acChrom 1 (by decide) _ rfl rfl)]
  simp only [List.set_cons_zero, List.set_cons_succ]
  cases hr : o.restartInterval with
  | none =>
    rw [dri, List.nil_append, loop_sos ck _ _ _ _ _ (sosParams_length _) (parseSos_file o.colorType o.subsampling _ rfl)]
    rfl
  | some i =>
    have : dri (some i) = T81.segment 0xDD (T81.be16 i) := by
      simp only [dri, Jpeg.be16_eq]; simp [T81.segment, T81.be16]
    have hb : JpegDecode.be16 (UInt8.ofNat (i / 256)) (UInt8.ofNat (i % 256)) = i := be16_val (hri i hr)
    have hdri : ∀ s, parseDri (T81.be16 i) s = .ok { s with restart := i } := fun s => by
      rw [T81.be16, parseDri, hb]
    rw [this, loop_dri ck _ _ _ _ _ (by simp [T81.be16]) (hdri _),
      loop_sos ck _ _ _ _ _ (sosParams_length _) (parseSos_file o.colorType o.subsampling _ rfl)]
    rfl

/-! ### The scan of a file -/

theorem zip_flatten_mem {α β : Type} (l : List (List α)) (r : List (List β)) (hl : l.map List.length = r.map List.length)
    (k j : Nat) (a : List α) (b : List β) (x : α) (y : β) (ha : l[k]? = some a) (hb : r[k]? = some b)
    (hx : a[j]? = some x) (hy : b[j]? = some y) : (x, y) ∈ l.flatten.zip r.flatten := by
  induction l generalizing r k with
  | nil => simp at ha
  | cons a0 l ih =>
    cases r with
    | nil => simp at hb
    | cons b0 r =>
      simp only [List.map_cons, List.cons.injEq] at hl
      rw [List.flatten_cons, List.flatten_cons, List.zip_append hl.1, List.mem_append]
      cases k with
      | zero =>
        simp only [List.getElem?_cons_zero, Option.some.injEq] at ha hb
        subst ha hb
        left
        refine List.mem_of_getElem? (i := j) ?_
        rw [List.getElem?_zip_eq_some]
        exact ⟨hx, hy⟩
      | succ k =>
        simp only [List.getElem?_cons_succ] at ha hb
        exact Or.inr (ih r hl.2 k ha hb)

theorem has_file (o : Options) (q : QuantTables) (t : HuffTables) (ht : TablesOk t) : Has (fileState o q t 0) t.spec := by
  intro i c hc
  refine ⟨(ht.get _ _).legal, (ht.get _ _).legal, ?_⟩
  unfold fileState at *
  simp only at hc ⊢
  unfold scanComps at hc
  have key0 : (⟨t.dcLum.bits, t.dcLum.vals⟩ : T81.Table) = t.spec.dc 0 := rfl
  split at hc
  · match i, hc with
    | 0, hc => injection hc with hc; subst hc; exact ⟨rfl, rfl⟩
  · split at hc
    · match i, hc with
      | 0, hc => injection hc with hc; subst hc; exact ⟨rfl, rfl⟩
      | 1, hc => injection hc with hc; subst hc; exact ⟨rfl, rfl⟩
      | 2, hc => injection hc with hc; subst hc; exact ⟨rfl, rfl⟩
    · match i, hc with
      | 0, hc => injection hc with hc; subst hc; exact ⟨rfl, rfl⟩
      | 1, hc => injection hc with hc; subst hc; exact ⟨rfl, rfl⟩
      | 2, hc => injection hc with hc; subst hc; exact ⟨rfl, rfl⟩

theorem same_file (o : Options) : (scanComps o.colorType o.subsampling).map (fun c => (c.h, c.v)) =
    (fileFrame o.width o.height o.colorType o.subsampling).comps.map (fun c => (c.h, c.v)) := by
  unfold scanComps fileFrame
  by_cases hg : o.colorType = .gray
  · simp only [if_pos hg]; rfl
  · simp only [if_neg hg]
    by_cases hs : o.subsampling = .s444
    · simp only [if_pos hs]; rfl
    · simp only [if_neg hs]; rfl

theorem grid_file (o : Options) :
    T81.mcusPerRow (fileFrame o.width o.height o.colorType o.subsampling) =
      divCeil o.width (maxOf o.colorType o.subsampling * 8) ∧
    T81.mcuCount (fileFrame o.width o.height o.colorType o.subsampling) =
      divCeil o.width (maxOf o.colorType o.subsampling * 8) * divCeil o.height (maxOf o.colorType o.subsampling * 8) := by
  unfold maxOf fileFrame T81.mcusPerRow T81.mcuCount
  by_cases hg : o.colorType = .gray
  · simp only [if_pos hg]; exact ⟨rfl, rfl⟩
  · simp only [if_neg hg]
    by_cases hs : o.subsampling = .s444
    · simp only [if_pos hs]; exact ⟨rfl, rfl⟩
    · simp only [if_neg hs]; exact ⟨rfl, rfl⟩

theorem le_divCeil (a b : Nat) (hb : 0 < b) : a ≤ divCeil a b * b := by
  unfold divCeil
  have h1 := Nat.div_add_mod (a + b - 1) b
  have h2 := Nat.mod_lt (a + b - 1) hb
  rw [Nat.mul_comm] at h1
  omega

theorem blocksAt_mod (f : T81.Frame) (k : Nat) (c x y : Nat) (h : (c, x, y) ∈ T81.blocksAt f k) :
    x / 8 * 8 = x ∧ y / 8 * 8 = y := by
  unfold T81.blocksAt at h
  obtain ⟨p, _, hp⟩ := List.mem_flatMap.1 h
  obtain ⟨b, _, he⟩ := List.mem_map.1 hp
  simp only [Prod.mk.injEq] at he
  omega

theorem decodeScan_file (ck : Bool) (o : Options) (q : QuantTables) (t : HuffTables) (ht : TablesOk t)
    (hcol : o.colorType = .rgb ∨ o.colorType = .gray) (px : Nat → List Int → List UInt8)
    (mcus : List (List (Nat × List Int))) (bytes : List UInt8) (hseg : T81.Segment t.spec mcus.flatten bytes)
    (hlen : mcus.length = T81.mcuCount (fileFrame o.width o.height o.colorType o.subsampling))
    (hsh : ∀ (k : Nat) (m : List (Nat × List Int)), mcus[k]? = some m → m.map (·.1) =
      (T81.blocksAt (fileFrame o.width o.height o.colorType o.subsampling) k).map (·.1))
    (hb : ∀ b ∈ mcus.flatten, BlockOk ck (fileState o q t 0) px b) :
    ∃ (img : Image) (planes : Nat → Nat → Nat → UInt8),
      decodeScan ck (fileState o q t 0) (bytes ++ [0xFF, 0xD9]) = .ok img ∧
      img.width = o.width ∧ img.height = o.height ∧ img.colorType = o.colorType ∧
      (∀ (k : Nat) (m : List (Nat × List Int)) (j c : Nat) (zz : List Int) (c' x y : Nat), mcus[k]? = some m →
        m[j]? = some (c, zz) →
        (T81.blocksAt (fileFrame o.width o.height o.colorType o.subsampling) k)[j]? = some (c', x, y) →
        ∀ yy < 8, ∀ xx < 8, planes c' (y + yy) (x + xx) = (px c zz).getD (8 * yy + xx) 0) ∧
      (o.colorType = .gray → img.pixels.length = o.height * o.width ∧
        ∀ Y < o.height, ∀ X < o.width, img.pixels.getD (Y * o.width + X) 0 = planes 0 Y X) ∧
      (o.colorType = .rgb → img.pixels.length = o.height * (o.width * 3) ∧
        ∀ Y < o.height, ∀ X < o.width, ∀ ch < 3, img.pixels.getD (3 * (Y * o.width + X) + ch) 0 =
          (toRgb (planes 0 Y X).toNat
            (planes 1 (Y / maxOf o.colorType o.subsampling) (X / maxOf o.colorType o.subsampling)).toNat
            (planes 2 (Y / maxOf o.colorType o.subsampling) (X / maxOf o.colorType o.subsampling)).toNat).getD ch 0) := by
  obtain ⟨hg1, hg2⟩ := grid_file o
  have hsame := same_file o
  have hgrid := fun k => blocksAt_grid (fileFrame o.width o.height o.colorType o.subsampling) k
  have hmod := fun k => blocksAt_mod (fileFrame o.width o.height o.colorType o.subsampling) k
  have hcol' : o.colorType = .gray ∧ scanComps o.colorType o.subsampling = [⟨1, 1, 0, 0, 0⟩] ∧ maxOf o.colorType o.subsampling = 1 ∨
      o.colorType = .rgb ∧ ∃ m, (m = 1 ∨ m = 2) ∧ maxOf o.colorType o.subsampling = m ∧
        scanComps o.colorType o.subsampling = [⟨m, m, 0, 0, 0⟩, ⟨1, 1, 1, 1, 1⟩, ⟨1, 1, 1, 1, 1⟩] := by
    unfold scanComps maxOf
    rcases hcol with h | h
    · right
      refine ⟨h, ?_⟩
      rw [h]
      by_cases hs : o.subsampling = .s444
      · exact ⟨1, Or.inl rfl, by rw [if_neg (by decide), if_pos hs], by rw [if_neg (by decide), if_pos hs]⟩
      · exact ⟨2, Or.inr rfl, by rw [if_neg (by decide), if_neg hs], by rw [if_neg (by decide), if_neg hs]⟩
    · left; rw [h]; exact ⟨rfl, rfl, rfl⟩
  have hhas := has_file o q t ht
  generalize hF : fileFrame o.width o.height o.colorType o.subsampling = F at *
  generalize hC : divCeil o.width (maxOf o.colorType o.subsampling * 8) = cols at *
  generalize hR : divCeil o.height (maxOf o.colorType o.subsampling * 8) = rows at *
  have hlens : ((List.range (cols * rows)).map (fun k => gridOf ((scanComps o.colorType o.subsampling).map (fun c => (c.h, c.v)))
      (k % cols) (k / cols))).map List.length = mcus.map List.length := by
    apply List.ext_getElem?
    intro k
    rw [List.getElem?_map, List.getElem?_map, List.getElem?_map]
    by_cases hk : k < cols * rows
    · rw [List.getElem?_range hk, List.getElem?_eq_getElem (by omega)]
      have := congrArg List.length (hsh k _ (List.getElem?_eq_getElem (by omega)))
      rw [List.length_map, List.length_map] at this
      simp only [Option.map_some, this, hsame, ← hg1, ← hgrid, List.length_map]
    · rw [List.getElem?_eq_none (by rw [List.length_range]; omega), List.getElem?_eq_none (by omega)]
      rfl
  have hpos : (places ((fileState o q t 0).components.map (fun c => (c.h, c.v))) cols (cols * rows)).map (·.1) =
      mcus.flatten.map (·.1) := by
    unfold places
    rw [List.flatMap_def, List.map_flatten, List.map_flatten, List.map_map]
    congr 1
    apply List.ext_getElem?
    intro k
    rw [List.getElem?_map, List.getElem?_map]
    by_cases hk : k < cols * rows
    · rw [List.getElem?_range hk, List.getElem?_eq_getElem (by omega)]
      simp only [Option.map_some, Option.some.injEq]
      rw [hsh k _ (List.getElem?_eq_getElem (by omega))]
      show (gridOf ((scanComps o.colorType o.subsampling).map (fun c => (c.h, c.v))) (k % cols) (k / cols)).map (·.1) = _
      rw [hsame, ← hg1, ← hgrid, List.map_map]
      rfl
    · rw [List.getElem?_eq_none (by rw [List.length_range]; omega), List.getElem?_eq_none (by omega)]
      rfl
  obtain ⟨st, e, hd, hpl, hsamp⟩ := mcuLoop_spec ck (fileState o q t 0) t.spec hhas px cols rows (Or.inl rfl) mcus.flatten bytes hseg hb
    hpos
  have hend : (bytes ++ [0xFF, 0xD9]).take (entropyEnd (bytes ++ [0xFF, 0xD9])) = bytes := by
    obtain ⟨raw, _, rfl, _⟩ := hseg
    rw [entropyEnd_stuff, List.take_left]
  have hscan : decodeScan ck (fileState o q t 0) (bytes ++ [0xFF, 0xD9]) = (if (scanComps o.colorType o.subsampling).length = 1 then do
      let c ← getChecked (scanComps o.colorType o.subsampling) 0
      let d ← getChecked st.data 0
      return ⟨o.width, o.height, grayPixels d (cols * c.h * 8) o.width o.height, .gray⟩
    else do
      let pixels ← rgbPixels st.data o.width o.height (scanComps o.colorType o.subsampling) (maxOf o.colorType o.subsampling)
        (maxOf o.colorType o.subsampling)
      return ⟨o.width, o.height, pixels, .rgb⟩) := by
    unfold decodeScan
    rw [hend]
    have hC' : divCeil (fileState o q t 0).width ((fileState o q t 0).maxH * 8) = cols := hC
    have hR' : divCeil (fileState o q t 0).height ((fileState o q t 0).maxV * 8) = rows := hR
    rw [hC', hR']
    simp only
    rw [e, ok_bind]
    rfl
  have hplanes : ∀ (k : Nat) (m : List (Nat × List Int)) (j c : Nat) (zz : List Int) (c' x y : Nat), mcus[k]? = some m →
        m[j]? = some (c, zz) → (T81.blocksAt F k)[j]? = some (c', x, y) →
        ∀ yy < 8, ∀ xx < 8, sampleAt (scanComps o.colorType o.subsampling) cols st.data c' (y + yy) (x + xx) =
          (px c zz).getD (8 * yy + xx) 0 := by
    intro k m j c zz c' x y hk hj hj' yy hy xx hx
    obtain ⟨m1, m2⟩ := hmod k c' x y (List.mem_of_getElem? hj')
    have hkl : k < cols * rows := by
      have := (List.getElem?_eq_some_iff.1 hk).1
      omega
    have hz := zip_flatten_mem _ mcus hlens k j _ m (c', x / 8, y / 8) (c, zz)
      (by rw [List.getElem?_map, List.getElem?_range hkl]; rfl) hk
      (by simp only []; rw [hsame, ← hg1, ← hgrid, List.getElem?_map, hj']; rfl) hj
    have := hsamp c' (x / 8) (y / 8) (c, zz) (by unfold places; rw [List.flatMap_def]; exact hz) yy hy xx hx
    rw [m1, m2] at this
    exact this
  have hwle : o.width ≤ cols * (maxOf o.colorType o.subsampling * 8) := by
    rw [← hC]; apply le_divCeil; unfold maxOf; split <;> (try split) <;> decide
  have hhle : o.height ≤ rows * (maxOf o.colorType o.subsampling * 8) := by
    rw [← hR]; apply le_divCeil; unfold maxOf; split <;> (try split) <;> decide
  rcases hcol' with ⟨hg, hc, hm⟩ | ⟨hg, m, hm, hmx, hc⟩
  · have hd1 : st.data.length = 1 := by rw [hd]; show (scanComps o.colorType o.subsampling).length = 1; rw [hc]; rfl
    obtain ⟨d, hdd⟩ : ∃ d, st.data = [d] := by
      match h : st.data with
      | [d] => exact ⟨d, rfl⟩
      | [] => rw [h] at hd1; cases hd1
      | _ :: _ :: _ => rw [h] at hd1; simp at hd1
    refine ⟨⟨o.width, o.height, grayPixels d (cols * 1 * 8) o.width o.height, .gray⟩,
      sampleAt (scanComps o.colorType o.subsampling) cols st.data, ?_, rfl, rfl, hg.symm, hplanes, ?_, ?_⟩
    · rw [hscan, if_pos (by rw [hc]; rfl), hc, hdd]; rfl
    · intro _
      refine ⟨?_, ?_⟩
      · simp only [grayPixels, List.flatMap_def]
        rw [Resize.flatten_length _ o.width _ (fun i _ => by simp)]
      · intro Y hY X hX
        simp only
        rw [grayPixels_getD _ _ _ _ _ _ hY hX, sampleAt, hdd, hc]
        rfl
    · intro h; rw [hg] at h; cases h
  · have hd3 : st.data.length = 3 := by rw [hd]; show (scanComps o.colorType o.subsampling).length = 3; rw [hc]; rfl
    obtain ⟨d0, d1, d2, hdd⟩ : ∃ d0 d1 d2, st.data = [d0, d1, d2] := by
      match h : st.data with
      | [d0, d1, d2] => exact ⟨d0, d1, d2, rfl⟩
      | [] => rw [h] at hd3; simp at hd3
      | [_] => rw [h] at hd3; simp at hd3
      | [_, _] => rw [h] at hd3; simp at hd3
      | _ :: _ :: _ :: _ :: _ => rw [h] at hd3; simp at hd3
    have l1 : d1.length = cols * 1 * 8 * (rows * 1 * 8) := by
      have := hpl 1 ⟨1, 1, 1, 1, 1⟩ (by show (scanComps o.colorType o.subsampling)[1]? = _; rw [hc]; rfl)
      rw [hdd] at this; exact this
    have l2 : d2.length = cols * 1 * 8 * (rows * 1 * 8) := by
      have := hpl 2 ⟨1, 1, 1, 1, 1⟩ (by show (scanComps o.colorType o.subsampling)[2]? = _; rw [hc]; rfl)
      rw [hdd] at this; exact this
    have hpx := rgbPixels_eq d0 d1 d2 o.width o.height ⟨m, m, 0, 0, 0⟩ ⟨1, 1, 1, 1, 1⟩ ⟨1, 1, 1, 1, 1⟩ m m m m m m
      ⟨by decide, by simp⟩ ⟨by decide, by simp⟩ ⟨by decide, by simp⟩ ⟨by decide, by simp⟩ (by omega) (by omega) (by omega) (by omega)
    rw [← hmx, hC, hmx] at hpx
    rw [hmx] at hwle hhle
    obtain ⟨P, hP⟩ : ∃ P, rgbPixels [d0, d1, d2] o.width o.height
      [⟨m, m, 0, 0, 0⟩, ⟨1, 1, 1, 1, 1⟩, ⟨1, 1, 1, 1, 1⟩] m m = .ok P := ⟨_, hpx⟩
    rw [hP] at hpx
    injection hpx with hpx
    refine ⟨⟨o.width, o.height, P, .rgb⟩, sampleAt (scanComps o.colorType o.subsampling) cols st.data,
      ?_, rfl, rfl, hg.symm, hplanes, ?_, ?_⟩
    · rw [hscan, if_neg (by rw [hc]; simp), hmx, hc, hdd, hP]; rfl
    · intro h; rw [hg] at h; cases h
    · intro _
      refine ⟨?_, ?_⟩
      · simp only
        rw [hpx, Resize.flatten_length _ (o.width * 3) _ (fun i _ => Resize.flatten_length _ 3 _ (fun j _ => rfl))]
      · intro Y hY X hX ch hch
        simp only
        rw [hpx, rgb_getD _ _ _ (fun _ _ => rfl) Y X ch hY hX hch]
        have hidx : Y / m * (cols * 1 * 8) + X / m < cols * 1 * 8 * (rows * 1 * 8) := by
          have hm0 : 0 < m := by omega
          have hx : X / m < cols * 8 := (Nat.div_lt_iff_lt_mul hm0).2 (by
            rw [Nat.mul_assoc, Nat.mul_comm 8]; omega)
          have hy : Y / m < rows * 8 := (Nat.div_lt_iff_lt_mul hm0).2 (by
            rw [Nat.mul_assoc, Nat.mul_comm 8]; omega)
          rw [Nat.mul_one, Nat.mul_one, Nat.mul_comm (cols * 8)]
          have := Nat.mul_le_mul_right (cols * 8) hy
          rw [Nat.succ_mul] at this
          omega
        have e1 : d1.getD (Y / m * (cols * 1 * 8) + X / m) 128 = d1.getD (Y / m * (cols * 1 * 8) + X / m) 0 := by
          simp only [List.getD_eq_getElem?_getD]
          rw [List.getElem?_eq_getElem (by rw [l1]; exact hidx)]
          rfl
        have e2 : d2.getD (Y / m * (cols * 1 * 8) + X / m) 128 = d2.getD (Y / m * (cols * 1 * 8) + X / m) 0 := by
          simp only [List.getD_eq_getElem?_getD]
          rw [List.getElem?_eq_getElem (by rw [l2]; exact hidx)]
          rfl
        rw [e1, e2]
        simp only [sampleAt, hdd, hc, hmx]
        rfl

end Pixo.JpegDecode
