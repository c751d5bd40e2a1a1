import Verif.Proof.JpegDecodeAnyScan
import Verif.Props.Idct
import Verif.Props.JpegDecode
/-
C64: the JPEG decoder on baseline files of any encoder.
-/
namespace Pixo.Props
open Pixo Spec Spec.T81
open Pixo.JpegDecode (Image decodeJpeg toRgb)

/-- The image shows the blocks of a baseline file: there are samples of the components such that every block
has the inverse transform of its dequantized coefficients (C32) in the place T.81 says, and every pixel is that
of the samples which cover it, gray ones as they are and colours converted (C54). -/
def Shows (ck : Bool) (f : Frame) (quant : List (List Nat)) (mcus : List (List (Nat × List Int))) (img : Image) : Prop :=
  img.width = f.width ∧ img.height = f.height ∧ ∃ planes : Nat → Nat → Nat → UInt8,
    (∀ (k : Nat) (m : List (Nat × List Int)) (j c : Nat) (zz : List Int) (c' x y : Nat), mcus[k]? = some m →
      m[j]? = some (c, zz) → (placesAt f k)[j]? = some (c', x, y) →
      ∃ px, Idct.idct ck (Idct.dequantize zz (quant.getD c [])) = .ok px ∧
        ∀ yy < 8, ∀ xx < 8, planes c' (y + yy) (x + xx) = px.getD (8 * yy + xx) 0) ∧
    (f.comps.length = 1 → img.colorType = .gray ∧ img.pixels.length = f.height * f.width ∧
      ∀ Y < f.height, ∀ X < f.width, img.pixels.getD (Y * f.width + X) 0 = covering f planes 0 Y X) ∧
    (f.comps.length = 3 → img.colorType = .rgb ∧ img.pixels.length = f.height * (f.width * 3) ∧
      ∀ Y < f.height, ∀ X < f.width, ∀ ch < 3, img.pixels.getD (3 * (Y * f.width + X) + ch) 0 =
        (toRgb (covering f planes 0 Y X).toNat (covering f planes 1 Y X).toNat (covering f planes 2 Y X).toNat).getD ch 0)

theorem scan_segment {ts : Tables} {interval n : Nat} {mcus : List (List (Nat × List Int))} {scan : List UInt8}
    (h : Scan ts (if interval = 0 then none else some interval) mcus scan) (hn : mcus.length = n)
    (hri : interval = 0 ∨ n ≤ interval) : T81.Segment ts mcus.flatten scan := by
  by_cases h0 : interval = 0
  · rw [if_pos h0] at h; exact h
  · rw [if_neg h0] at h
    have h : Restarts ts interval 0 mcus scan := h
    have ne : ∀ {m mcus bytes}, Restarts ts interval m mcus bytes → 0 < mcus.length := by
      intro m mcus bytes h
      cases h with
      | last _ h => exact List.length_pos_of_ne_nil h
      | more h _ _ => rw [List.length_append]; omega
    cases h with
    | last _ _ h => exact h
    | more h1 _ h3 =>
      have := ne h3
      rw [List.length_append] at hn
      omega

theorem placesAt_plain {f : Frame} (h : f.Plain) (k : Nat) : placesAt f k = blocksAt f k := by
  unfold placesAt
  rcases h with ⟨c, h, h1, h2⟩ | ⟨c0, c1, c2, h, -⟩
  · rw [h]
    unfold blocksAt mcusPerRow
    rw [h]
    simp [List.zipIdx, h1, h2, List.range_succ]
  · rw [h]

theorem blocksAt_shape {f : Frame} (h : f.Plain) (k : Nat) : (blocksAt f k).map (·.1) = mcuShape f := by
  have key : (blocksAt f k).map (·.1) = f.comps.zipIdx.flatMap (fun (c, i) => List.replicate (c.h * c.v) i) := by
    unfold blocksAt
    rw [List.map_flatMap]
    simp only [List.flatMap_def]
    congr 1
    apply List.map_congr_left
    rintro ⟨c, i⟩ _
    simp only [List.map_map]
    apply List.ext_getElem
    · simp
    · intro n h1 h2; simp
  rw [key]
  unfold mcuShape
  rcases h with ⟨c, h, h1, h2⟩ | ⟨c0, c1, c2, h, -⟩
  · rw [h]; simp [h1, h2, List.zipIdx]
  · rw [h]

theorem mapM_some_getElem {α β : Type} {g : α → Option β} {l : List α} {r : List β} (h : l.mapM g = some r) :
    r.length = l.length ∧ ∀ (i : Nat) (a : α), l[i]? = some a → ∃ b, r[i]? = some b ∧ g a = some b := by
  induction l generalizing r with
  | nil =>
    rw [List.mapM_nil] at h
    injection h with h
    subst h
    exact ⟨rfl, fun i a h => by simp at h⟩
  | cons x l ih =>
    rw [List.mapM_cons] at h
    obtain ⟨b, h1, h2⟩ := Option.bind_eq_some_iff.1 h
    obtain ⟨r', h3, h4⟩ := Option.bind_eq_some_iff.1 h2
    injection h4 with h4
    subst h4
    obtain ⟨i1, i2⟩ := ih h3
    refine ⟨by simp [i1], fun i a hi => ?_⟩
    cases i with
    | zero =>
      simp only [List.getElem?_cons_zero, Option.some.injEq] at hi
      subst hi
      exact ⟨b, rfl, h1⟩
    | succ i =>
      rw [List.getElem?_cons_succ] at hi ⊢
      exact i2 i a hi

/-- C64 for frames of one component with factors 1 or three components whose first has the largest factors,
the others dividing them, and scans without restart markers, in any build: the decoder accepts every such file
and shows its blocks. (A checked build needs dequantized coefficients of at most 4096, since its inverse
transform could overflow on larger ones.)

Missing for C64: other sampling factors, for which it fails (`C64_gray_violated`, `C64_luma_violated`,
`C64_ratio_violated`), and restart markers (`C30_violation`). -/
theorem C64_partial (ck : Bool) (file : List UInt8) (f : Frame) (quant : List (List Nat)) (interval : Nat)
    (mcus : List (List (Nat × List Int))) (h : Baseline file f quant interval mcus) (hf : f.Plain)
    (hri : interval = 0 ∨ mcuCount f ≤ interval)
    (hb : ck = true → ∀ b ∈ mcus.flatten, ∀ i < 64, ((Idct.dequantize b.2 (quant.getD b.1 [])).getD i 0).natAbs ≤ 4096) :
    ∃ img, decodeJpeg ck file = .ok img ∧ Shows ck f quant mcus img := by
  obtain ⟨⟨body, l, d, hdr, data, env, sel, ts, scan, tail, rfl, hsegs, hmisc, hsos, hfr, hint, hq, hsel, hids, htabs, hscan,
    rfl⟩, hcount, hfirst⟩ := h
  have hlen : mcus.length = mcuCount f := by simpa using congrArg List.length hcount
  have hseg := scan_segment hscan hlen hri
  have hn : f.comps.length = 1 ∨ f.comps.length = 3 := by
    rcases hf with ⟨c, h, -⟩ | ⟨c0, c1, c2, h, -⟩ <;> rw [h] <;> simp
  -- the headers
  obtain ⟨fuel, s, e1, hs, hfuel⟩ := JpegDecode.loop_miscs ck hsegs hmisc hfr hn {}
    ⟨⟨rfl, rfl, rfl, (fun _ _ h => by cases h), (fun _ _ h => by cases h), (fun _ _ h => by cases h)⟩, rfl, (fun _ => ⟨rfl, rfl⟩),
      (fun _ h => by cases h)⟩ (body.length + 1) (by omega)
  obtain ⟨s1, s2, s3, s4, s5, hleg⟩ := hs.some f hfr
  obtain ⟨fuel, rfl⟩ : ∃ g, fuel = g + 1 := ⟨fuel - 1, by omega⟩
  have hsl : sel.length = f.comps.length := by simpa using congrArg List.length hids
  have hid4 : ∀ x ∈ sel, x.2.1 < 4 ∧ x.2.2 < 4 := by
    intro x hx
    obtain ⟨i, hi⟩ := List.getElem?_of_mem hx
    obtain ⟨t1, t2⟩ := htabs i x hi
    have h1 := (List.getElem?_eq_some_iff.1 (hs.tables.dc _ _ t1).2).1
    have h2 := (List.getElem?_eq_some_iff.1 (hs.tables.ac _ _ t2).2).1
    rw [hs.tables.dcLen] at h1
    rw [hs.tables.acLen] at h2
    exact ⟨h1, h2⟩
  have hdec : decodeJpeg ck (0xFF :: 0xD8 :: body) = JpegDecode.decodeScan ck
      { s with components := s.components.zipWith JpegDecode.ofSos sel } (scan ++ 0xFF :: 0xD9 :: tail) := by
    rw [decodeJpeg, e1, JpegDecode.loop_step ck fuel s hsos, if_neg (by decide), if_neg (by decide), if_neg (by decide),
      if_neg (by decide), if_neg (by decide), if_pos rfl, JpegDecode.parseSos_any hsel hid4 s (by rw [s3]; simp [hsl]), ok_bind]
  generalize hS : ({ s with components := s.components.zipWith JpegDecode.ofSos sel } : JpegDecode.State) = S at hdec
  have hcomp : ∀ (i : Nat) c, S.components[i]? = some c → ∃ k x, f.comps[i]? = some k ∧ sel[i]? = some x ∧
      c = ⟨k.h, k.v, k.tq, x.2.1, x.2.2⟩ := by
    intro i c hc
    rw [← hS] at hc
    simp only [List.getElem?_zipWith, s3, List.getElem?_map] at hc
    cases hk : f.comps[i]? with
    | none => rw [hk] at hc; simp at hc
    | some k =>
      cases hx : sel[i]? with
      | none => rw [hk, hx] at hc; simp at hc
      | some x =>
        rw [hk, hx] at hc
        simp only [Option.map_some, Option.some.injEq] at hc
        exact ⟨k, x, rfl, rfl, hc.symm⟩
  have hcomp' : ∀ (i : Nat) k, f.comps[i]? = some k → ∃ c, S.components[i]? = some c ∧ c.quant = k.tq := by
    intro i k hk
    have hi := (List.getElem?_eq_some_iff.1 hk).1
    have hx := List.getElem?_eq_getElem (show i < sel.length by omega)
    rw [← hS]
    simp only [List.getElem?_zipWith, s3, List.getElem?_map, hk, hx, Option.map_some]
    exact ⟨_, rfl, rfl⟩
  have hhas : JpegDecode.Has S ts := by
    intro i c hc
    obtain ⟨k, x, h1, h2, rfl⟩ := hcomp i c hc
    obtain ⟨t1, t2⟩ := htabs i x h2
    have g1 := hs.tables.dc _ _ t1
    have g2 := hs.tables.ac _ _ t2
    rw [← hS]
    exact ⟨g1.1, g2.1, g1.2, g2.2⟩
  have hsame : S.components.map (fun c => (c.h, c.v)) = f.comps.map (fun c => (c.h, c.v)) := by
    apply List.ext_getElem?
    intro i
    rw [List.getElem?_map, List.getElem?_map]
    cases hk : f.comps[i]? with
    | none =>
      cases hc : S.components[i]? with
      | none => rfl
      | some c =>
        obtain ⟨k, x, h1, -⟩ := hcomp i c hc
        rw [h1] at hk; cases hk
    | some k =>
      obtain ⟨c, hc, -⟩ := hcomp' i k hk
      obtain ⟨k', x, h1, -, rfl⟩ := hcomp i c hc
      rw [h1] at hk
      injection hk with hk
      subst hk
      rw [hc]
      rfl
  -- the blocks
  obtain ⟨hql, hqs⟩ := mapM_some_getElem hq
  have hshape : ∀ (k : Nat) (m : List (Nat × List Int)), mcus[k]? = some m → m.map (·.1) = mcuShape f := by
    intro k m hk
    have : (mcus.map (fun m => m.map (·.1)))[k]? = some (m.map (·.1)) := by rw [List.getElem?_map, hk]; rfl
    rw [hcount, List.getElem?_replicate] at this
    split at this
    · injection this with this; exact this.symm
    · cases this
  have hidct : ∀ b ∈ mcus.flatten, ∃ px, Idct.idct ck (Idct.dequantize b.2 (quant.getD b.1 [])) = .ok px := by
    intro b hbm
    cases ck with
    | false =>
      have h := JpegDecode.idct_ok (Idct.dequantize b.2 (quant.getD b.1 []))
      unfold Oks at h
      obtain ⟨px, h, -⟩ := h
      exact ⟨px, h⟩
    | true =>
      obtain ⟨px, h, -⟩ := idct_samples (ck := true) (Nat.le_refl 4096) (hb rfl b hbm)
      exact ⟨px, h⟩
  let px : Nat → List Int → List UInt8 := fun c zz => ((Idct.idct ck (Idct.dequantize zz (quant.getD c []))).toOption).getD []
  have hpxok : ∀ c zz p, Idct.idct ck (Idct.dequantize zz (quant.getD c [])) = .ok p → px c zz = p := by
    intro c zz p h
    show ((Idct.idct ck (Idct.dequantize zz (quant.getD c []))).toOption).getD [] = p
    rw [h]; rfl
  have hblocks : ∀ b ∈ mcus.flatten, JpegDecode.BlockOk ck S px b := by
    rintro ⟨c, zz⟩ hbm
    refine ⟨hfirst _ hbm, ?_⟩
    obtain ⟨m, hm, hbm'⟩ := List.mem_flatten.1 hbm
    obtain ⟨k, hk⟩ := List.getElem?_of_mem hm
    have hcm : c ∈ (blocksAt f k).map (·.1) := by
      rw [blocksAt_shape hf, ← hshape k m hk]
      exact List.mem_map.2 ⟨_, hbm', rfl⟩
    obtain ⟨⟨c0, x, y⟩, hmem, rfl⟩ := List.mem_map.1 hcm
    have hcl : c0 < f.comps.length := by
      unfold blocksAt at hmem
      obtain ⟨⟨k, i⟩, h1, h2⟩ := List.mem_flatMap.1 hmem
      obtain ⟨b, -, h3⟩ := List.mem_map.1 h2
      simp only [Prod.mk.injEq] at h3
      have := (List.getElem?_eq_some_iff.1 (List.mk_mem_zipIdx_iff_getElem?.1 h1)).1
      omega
    obtain ⟨cc, hc, hcq⟩ := hcomp' c0 _ (List.getElem?_eq_getElem hcl)
    obtain ⟨q, hq1, hq2⟩ := hqs c0 _ (List.getElem?_eq_getElem hcl)
    have hq3 : quant.getD c0 [] = q := by rw [List.getD_eq_getElem?_getD, hq1]; rfl
    refine ⟨cc, q, hc, ?_, ?_⟩
    · rw [← hS, hcq]; exact hs.tables.quant _ _ hq2
    · obtain ⟨p, hp⟩ := hidct (c0, zz) hbm
      simp only at hp ⊢
      rw [hpxok _ _ _ hp, ← hq3]
      exact hp
  obtain ⟨img, planes, d1, d2, d3, d4, d5, d6⟩ := JpegDecode.decodeScan_any ck S f ts hhas (by rw [← hS]; exact s1)
    (by rw [← hS]; exact s2) hsame (by rw [← hS]; exact s4) (by rw [← hS]; exact s5)
    (by rw [← hS]; simp only; rw [hs.interval, hint]; exact hri) hf px mcus scan tail hseg hlen
    (fun k m hk => by rw [blocksAt_shape hf]; exact hshape k m hk) hblocks
  refine ⟨img, hdec.trans d1, d2, d3, planes, ?_, d5, d6⟩
  intro k m j c zz c' x y hk hj hj'
  rw [placesAt_plain hf] at hj'
  obtain ⟨p, hp⟩ := hidct (c, zz) (List.mem_flatten.2 ⟨m, List.mem_of_getElem? hk, List.mem_of_getElem? hj⟩)
  refine ⟨p, hp, fun yy hy xx hx => ?_⟩
  rw [d4 k m j c zz c' x y hk hj hj' yy hy xx hx, hpxok _ _ _ hp]

/-! ### Files -/

/-- A DC table with codes 0 and 10 for the values 0 and 2. -/
def smallDc : Table := ⟨[1, 1, 0, 0, 0, 0, 0, 0, 0, 0, 0, 0, 0, 0, 0, 0], [0, 2]⟩

/-- An AC table with the code 0 for the value 0. -/
def smallAc : Table := ⟨[1, 0, 0, 0, 0, 0, 0, 0, 0, 0, 0, 0, 0, 0, 0, 0], [0]⟩

/-- A file with a comment, a quantization table of sixteen bits and number 3 with all entries 64, DC table 1
and AC table 2. -/
def smallFile (sof sos data : List UInt8) : List UInt8 :=
  0xFF :: 0xD8 :: (segment 0xFE [0x70, 0xFF, 0xD9] ++ (segment 0xDB (0x13 :: (List.replicate 64 64).flatMap be16) ++
    (segment 0xC4 ([0x01, 1, 1, 0, 0, 0, 0, 0, 0, 0, 0, 0, 0, 0, 0, 0, 0, 0, 2] ++
      [0x12, 1, 0, 0, 0, 0, 0, 0, 0, 0, 0, 0, 0, 0, 0, 0, 0, 0]) ++
    (segment 0xC0 sof ++ (segment 0xDA sos ++ data)))))

theorem segment_reads (m : UInt8) (p rest : List UInt8) (hm : m ≠ 0xFF) (hd : ¬(0xD0 ≤ m ∧ m ≤ 0xD9))
    (hp : p.length + 2 < 65536) : Markers.Segment (segment m p ++ rest) m p rest :=
  (C36_markers _ _ _ _).1 (JpegDecode.readMarker_segment m p rest hm hd hp)

theorem smallFile_baseline (sof sos scan tail : List UInt8) (f : Frame) (sel : List (Nat × Nat × Nat))
    (mcus : List (List (Nat × List Int))) (h1 : T81.frame sof = some f) (h2 : f.Legal)
    (h3 : f.comps.mapM (fun c => if c.tq = 3 then some (List.replicate 64 64) else none) = some quant)
    (h4 : scanHeader sos = some sel) (h5 : sel.map (·.1) = f.comps.map (·.id)) (h6 : ∀ s ∈ sel, s.2 = (1, 2))
    (h7 : T81.Segment ⟨fun _ => smallDc, fun _ => smallAc⟩ mcus.flatten scan)
    (h8 : mcus.map (fun m => m.map (·.1)) = List.replicate (mcuCount f) (mcuShape f))
    (h9 : ∀ b ∈ mcus.flatten, -32768 ≤ b.2.headD 0 ∧ b.2.headD 0 < 32768)
    (h10 : sof.length + 2 < 65536) (h11 : sos.length + 2 < 65536) :
    Baseline (smallFile sof sos (scan ++ 0xFF :: 0xD9 :: tail)) f quant 0 mcus := by
  have legalD : smallDc.Legal := ⟨by decide, by decide, by decide, by decide, by decide, by decide⟩
  have legalA : smallAc.Legal := ⟨by decide, by decide, by decide, by decide, by decide, by decide⟩
  have hdqt : Dqt (0x13 :: (List.replicate 64 64).flatMap be16) Env.start
      { Env.start with quant := put Env.start.quant 3 (List.replicate 64 64) } :=
    Dqt.sixteen (tq := 3) (entries := List.replicate 64 64) (rest := []) (by decide) (by decide) (by decide) .done
  have hdht : ∀ e : Env, Dht ([0x01, 1, 1, 0, 0, 0, 0, 0, 0, 0, 0, 0, 0, 0, 0, 0, 0, 0, 2] ++
      [0x12, 1, 0, 0, 0, 0, 0, 0, 0, 0, 0, 0, 0, 0, 0, 0, 0, 0]) e
      { e with
        dc := put e.dc 1 smallDc
        ac := put e.ac 2 smallAc } := fun e =>
    Dht.dc (th := 1) (counts := [1, 1, 0, 0, 0, 0, 0, 0, 0, 0, 0, 0, 0, 0, 0, 0]) (vals := [0, 2])
      (rest := [0x12, 1, 0, 0, 0, 0, 0, 0, 0, 0, 0, 0, 0, 0, 0, 0, 0, 0]) (by decide) legalD
      (Dht.ac (th := 2) (counts := [1, 0, 0, 0, 0, 0, 0, 0, 0, 0, 0, 0, 0, 0, 0, 0]) (vals := [0]) (rest := [])
        (by decide) legalA .done)
  refine ⟨⟨_, _, _, sos, _, _, sel, ⟨fun _ => smallDc, fun _ => smallAc⟩, scan, tail, rfl,
    .cons (segment_reads 0xFE _ _ (by decide) (by decide) (by decide))
      (.cons (segment_reads 0xDB _ _ (by decide) (by decide) (by decide +kernel))
        (.cons (segment_reads 0xC4 _ _ (by decide) (by decide) (by decide))
          (.cons (segment_reads 0xC0 sof _ (by decide) (by decide) h10) (.nil _)))),
    .step (.other (.inr rfl)) (.step (.dqt hdqt) (.step (.dht (hdht _)) (.step (.sof rfl h1 h2) .done))),
    segment_reads 0xDA sos _ (by decide) (by decide) h11, rfl, rfl, h3, h4, h5, ?_, h7, rfl⟩, h8, h9⟩
  intro i s hs
  rw [h6 s (List.mem_of_getElem? hs)]
  exact ⟨rfl, rfl⟩

/-- A block without a difference to the one before and without AC coefficients. -/
theorem small_same {p : Int} (h : p = 0) : Block smallDc smallAc p (List.replicate 64 0) [false, false] := by
  subst h
  exact .mk (d := 0) (acs := List.replicate 63 0) (dbits := [false]) (abits := [false]) (by decide)
    (.zero ⟨0, 0, 1, by decide, by decide, by decide⟩) (.eob (by decide) ⟨0, 0, 1, by decide, by decide, by decide⟩)

/-- A block brighter by 2 than the one before. -/
theorem small_more {p : Int} (h : p = 0) :
    Block smallDc smallAc p (2 :: List.replicate 63 0) [true, false, true, false, false] := by
  subst h
  exact .mk (d := 2) (acs := List.replicate 63 0) (dbits := [true, false, true, false]) (abits := [false]) (by decide)
    (.bits (n := 2) (v := 2) (word := [true, false]) (by decide) (by decide) (by decide)
      ⟨1, 2, 2, by decide, by decide, by decide⟩)
    (.eob (by decide) ⟨0, 0, 1, by decide, by decide, by decide⟩)

/-- C64 fails for one component with other sampling factors: T.81 takes the blocks row by row whatever the
factors (A.2.2), but the decoder takes them in groups by the factors (decode/jpeg.rs:488-489, 524-529). This
file of two equal blocks, 8 pixels wide and 16 high, with factors 2 by 2, gets a black lower half. Such files are
common: many encoders give a gray component factors of 2. -/
theorem C64_gray_violated : ∃ file f quant mcus img, Baseline file f quant 0 mcus ∧ f.comps.length = 1 ∧
    decodeJpeg false file = .ok img ∧ ¬ Shows false f quant mcus img := by
  have hB := smallFile_baseline (quant := [List.replicate 64 64]) [8, 0, 16, 0, 8, 1, 1, 0x22, 3] [1, 1, 0x12, 0, 63, 0] [0x0F] []
    ⟨16, 8, [⟨1, 2, 2, 3⟩]⟩ [(1, 1, 2)] [[(0, List.replicate 64 0)], [(0, List.replicate 64 0)]] (by decide) (by unfold Frame.Legal; decide)
    (by decide) (by decide) (by decide) (by decide)
    ⟨[0x0F], [false, false] ++ ([false, false] ++ []), by decide, by decide, .cons (small_same rfl) (.cons (small_same rfl) .nil)⟩
    (by decide) (by decide) (by decide) (by decide)
  have hd : ∃ img, decodeJpeg false (smallFile [8, 0, 16, 0, 8, 1, 1, 0x22, 3] [1, 1, 0x12, 0, 63, 0] ([0x0F] ++ 0xFF :: 0xD9 :: [])) =
      .ok img ∧ img.pixels.getD 64 0 = 0 := by
    have : (decodeJpeg false (smallFile [8, 0, 16, 0, 8, 1, 1, 0x22, 3] [1, 1, 0x12, 0, 63, 0] ([0x0F] ++ 0xFF :: 0xD9 :: []))).toOption.map
        (fun img => img.pixels.getD 64 0) = some 0 := by decide +kernel
    revert this
    cases decodeJpeg false (smallFile [8, 0, 16, 0, 8, 1, 1, 0x22, 3] [1, 1, 0x12, 0, 63, 0] ([0x0F] ++ 0xFF :: 0xD9 :: [])) with
    | error e => intro h; cases h
    | ok img => intro h; exact ⟨img, rfl, by simpa [Except.toOption] using h⟩
  obtain ⟨img, hd, hp⟩ := hd
  refine ⟨_, _, _, _, img, hB, rfl, hd, ?_⟩
  rintro ⟨-, -, planes, h1, h2, -⟩
  obtain ⟨px, h3, h4⟩ := h1 1 _ 0 0 (List.replicate 64 0) 0 0 8 rfl rfl (by decide)
  have h5 : Idct.idct false (Idct.dequantize (List.replicate 64 0) (List.replicate 64 64)) = .ok (List.replicate 64 128) := by
    decide +kernel
  have h6 : px = List.replicate 64 128 := by
    have := h3.symm.trans h5
    injection this
  have h7 := (h2 rfl).2.2 8 (by decide) 0 (by decide)
  have h8 := h4 0 (by decide) 0 (by decide)
  rw [h6] at h8
  have h9 : img.pixels.getD 64 0 = planes 0 8 0 := h7
  rw [hp, h8] at h9
  exact absurd h9 (by decide)

/-- Three components, 16 by 16 pixels, of which the second has factors 2. -/
def lumaSof : List UInt8 := [8, 0, 16, 0, 16, 3, 1, 0x11, 3, 2, 0x22, 3, 3, 0x11, 3]

/-- A frame header with factors 3, 2 and 1 across, 24 by 8 pixels. -/
def ratioSof : List UInt8 := [8, 0, 8, 0, 24, 3, 1, 0x31, 3, 2, 0x21, 3, 3, 0x11, 3]

/-- A usual frame header with factors 2, 1 and 1 across, 16 by 8 pixels. -/
def plainSof : List UInt8 := [8, 0, 8, 0, 16, 3, 1, 0x21, 3, 2, 0x11, 3, 3, 0x11, 3]

/-- The scan header for three components. -/
def threeSos : List UInt8 := [3, 1, 0x12, 2, 0x12, 3, 0x12, 0, 63, 0]

theorem pixels_of {x : R Image} {g : List UInt8 → UInt8} {v : UInt8} (h : x.toOption.map (fun img => g img.pixels) = some v) :
    ∃ img, x = .ok img ∧ g img.pixels = v := by
  cases x with
  | error e => cases h
  | ok img => exact ⟨img, rfl, by simpa [Except.toOption] using h⟩

theorem idct_zero : Idct.idct false (Idct.dequantize (List.replicate 64 0) (List.replicate 64 64)) =
    .ok (List.replicate 64 128) := by decide +kernel

theorem idct_zero_px {px : List UInt8} (h : Idct.idct false (Idct.dequantize (List.replicate 64 0) (List.replicate 64 64)) = .ok px) :
    px = List.replicate 64 128 := by
  have := h.symm.trans idct_zero
  injection this

theorem plain_baseline : Baseline (smallFile plainSof threeSos ([0x28, 0x1F] ++ 0xFF :: 0xD9 :: [1, 2, 3]))
    ⟨8, 16, [⟨1, 2, 1, 3⟩, ⟨2, 1, 1, 3⟩, ⟨3, 1, 1, 3⟩]⟩ (List.replicate 3 (List.replicate 64 64)) 0
    [[(0, List.replicate 64 0), (0, 2 :: List.replicate 63 0), (1, List.replicate 64 0), (2, List.replicate 64 0)]] :=
  smallFile_baseline plainSof threeSos [0x28, 0x1F] [1, 2, 3] _ [(1, 1, 2), (2, 1, 2), (3, 1, 2)] _ (by decide)
    (by unfold Frame.Legal; decide) (by decide) (by decide) (by decide) (by decide)
    ⟨[0x28, 0x1F], [false, false] ++ ([true, false, true, false, false] ++ ([false, false] ++ ([false, false] ++ []))), by decide,
      by decide, .cons (small_same rfl) (.cons (small_more rfl) (.cons (small_same rfl) (.cons (small_same rfl) .nil)))⟩
    (by decide) (by decide) (by decide) (by decide)

/-- The hypotheses of C64_partial hold for a colour file with shared tables, and what it says of the pixels. -/
example : ∃ img, decodeJpeg true (smallFile plainSof threeSos ([0x28, 0x1F] ++ 0xFF :: 0xD9 :: [1, 2, 3])) = .ok img ∧
    Shows true ⟨8, 16, [⟨1, 2, 1, 3⟩, ⟨2, 1, 1, 3⟩, ⟨3, 1, 1, 3⟩]⟩ (List.replicate 3 (List.replicate 64 64))
      [[(0, List.replicate 64 0), (0, 2 :: List.replicate 63 0), (1, List.replicate 64 0), (2, List.replicate 64 0)]] img :=
  C64_partial true _ _ _ _ _ plain_baseline (Or.inr ⟨_, _, _, rfl, by decide, by decide, by decide, by decide, by decide, by decide⟩)
    (Or.inl rfl) (fun _ => by decide +kernel)

example : (decodeJpeg true (smallFile plainSof threeSos ([0x28, 0x1F] ++ 0xFF :: 0xD9 :: [1, 2, 3]))).toOption.map
    (fun img => (img.pixels.drop 21).take 6) = some [128, 128, 128, 144, 144, 144] := by decide +kernel

/-- C64 fails when the first component has not the largest factors: the decoder reads the first component at
the position of the pixel without scaling it (decode/jpeg.rs:700, 711). This file has every sample 128, but the
lower part of the picture is not gray. -/
theorem C64_luma_violated : ∃ file f quant mcus img, Baseline file f quant 0 mcus ∧ f.comps.length = 3 ∧
    decodeJpeg false file = .ok img ∧ ¬ Shows false f quant mcus img := by
  have hB := smallFile_baseline (quant := List.replicate 3 (List.replicate 64 64)) lumaSof threeSos [0x00, 0x0F] []
    ⟨16, 16, [⟨1, 1, 1, 3⟩, ⟨2, 2, 2, 3⟩, ⟨3, 1, 1, 3⟩]⟩ [(1, 1, 2), (2, 1, 2), (3, 1, 2)]
    [[(0, List.replicate 64 0), (1, List.replicate 64 0), (1, List.replicate 64 0), (1, List.replicate 64 0),
      (1, List.replicate 64 0), (2, List.replicate 64 0)]] (by decide) (by unfold Frame.Legal; decide)
    (by decide) (by decide) (by decide) (by decide)
    ⟨[0x00, 0x0F], [false, false] ++ ([false, false] ++ ([false, false] ++ ([false, false] ++ ([false, false] ++
      ([false, false] ++ []))))), by decide, by decide, .cons (small_same rfl) (.cons (small_same rfl) (.cons (small_same rfl)
      (.cons (small_same rfl) (.cons (small_same rfl) (.cons (small_same rfl) .nil)))))⟩
    (by decide) (by decide) (by decide) (by decide)
  obtain ⟨img, hd, hp⟩ := pixels_of (g := fun p => p.getD 240 0) (v := 0)
    (x := decodeJpeg false (smallFile lumaSof threeSos ([0x00, 0x0F] ++ 0xFF :: 0xD9 :: []))) (by decide +kernel)
  refine ⟨_, _, _, _, img, hB, rfl, hd, ?_⟩
  rintro ⟨-, -, planes, h1, -, h2⟩
  obtain ⟨px, h3, h4⟩ := h1 0 _ 0 0 (List.replicate 64 0) 0 0 0 rfl rfl (by decide)
  obtain ⟨px1, h31, h41⟩ := h1 0 _ 1 1 (List.replicate 64 0) 1 0 0 rfl rfl (by decide)
  obtain ⟨px2, h32, h42⟩ := h1 0 _ 5 2 (List.replicate 64 0) 2 0 0 rfl rfl (by decide)
  have h5 := (h2 rfl).2.2 5 (by decide) 0 (by decide) 0 (by decide)
  have e0 : planes 0 2 0 = 128 := by rw [h4 2 (by decide) 0 (by decide), idct_zero_px h3]; decide
  have e1 : planes 1 5 0 = 128 := by rw [h41 5 (by decide) 0 (by decide), idct_zero_px h31]; decide
  have e2 : planes 2 2 0 = 128 := by rw [h42 2 (by decide) 0 (by decide), idct_zero_px h32]; decide
  have h6 : img.pixels.getD 240 0 = (toRgb (planes 0 2 0).toNat (planes 1 5 0).toNat (planes 2 2 0).toNat).getD 0 0 := h5
  rw [e0, e1, e2] at h6
  exact absurd (hp.symm.trans h6) (by decide +kernel)

/-- C64 fails when factors do not divide those of the first component: the decoder divides positions by the
rounded quotient of the factors (decode/jpeg.rs:704-717). In this file the second block of the second
component shows at column 8, where T.81 has the first. -/
theorem C64_ratio_violated : ∃ file f quant mcus img, Baseline file f quant 0 mcus ∧ f.comps.length = 3 ∧
    decodeJpeg false file = .ok img ∧ ¬ Shows false f quant mcus img := by
  have hB := smallFile_baseline (quant := List.replicate 3 (List.replicate 64 64)) ratioSof threeSos [0x00, 0xA1] []
    ⟨8, 24, [⟨1, 3, 1, 3⟩, ⟨2, 2, 1, 3⟩, ⟨3, 1, 1, 3⟩]⟩ [(1, 1, 2), (2, 1, 2), (3, 1, 2)]
    [[(0, List.replicate 64 0), (0, List.replicate 64 0), (0, List.replicate 64 0), (1, List.replicate 64 0),
      (1, 2 :: List.replicate 63 0), (2, List.replicate 64 0)]] (by decide) (by unfold Frame.Legal; decide)
    (by decide) (by decide) (by decide) (by decide)
    ⟨[0x00, 0xA1], [false, false] ++ ([false, false] ++ ([false, false] ++ ([false, false] ++ ([true, false, true, false, false] ++
      ([false, false] ++ []))))), by decide, by decide, .cons (small_same rfl) (.cons (small_same rfl) (.cons (small_same rfl)
      (.cons (small_same rfl) (.cons (small_more rfl) (.cons (small_same rfl) .nil)))))⟩
    (by decide) (by decide) (by decide) (by decide)
  obtain ⟨img, hd, hp⟩ := pixels_of (g := fun p => p.getD 26 0) (v := 156)
    (x := decodeJpeg false (smallFile ratioSof threeSos ([0x00, 0xA1] ++ 0xFF :: 0xD9 :: []))) (by decide +kernel)
  refine ⟨_, _, _, _, img, hB, rfl, hd, ?_⟩
  rintro ⟨-, -, planes, h1, -, h2⟩
  obtain ⟨px, h3, h4⟩ := h1 0 _ 1 0 (List.replicate 64 0) 0 8 0 rfl rfl (by decide)
  obtain ⟨px1, h31, h41⟩ := h1 0 _ 3 1 (List.replicate 64 0) 1 0 0 rfl rfl (by decide)
  obtain ⟨px2, h32, h42⟩ := h1 0 _ 5 2 (List.replicate 64 0) 2 0 0 rfl rfl (by decide)
  have h5 := (h2 rfl).2.2 0 (by decide) 8 (by decide) 2 (by decide)
  have e0 : planes 0 0 8 = 128 := by rw [h4 0 (by decide) 0 (by decide), idct_zero_px h3]; decide
  have e1 : planes 1 0 5 = 128 := by rw [h41 0 (by decide) 5 (by decide), idct_zero_px h31]; decide
  have e2 : planes 2 0 2 = 128 := by rw [h42 0 (by decide) 2 (by decide), idct_zero_px h32]; decide
  have h6 : img.pixels.getD 26 0 = (toRgb (planes 0 0 8).toNat (planes 1 0 5).toNat (planes 2 0 2).toNat).getD 2 0 := h5
  rw [e0, e1, e2] at h6
  exact absurd (hp.symm.trans h6) (by decide +kernel)

end Pixo.Props
