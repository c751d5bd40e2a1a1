import Verif.Props.JpegDecode32
/-
C112, continued: which images are decoded with 32 bits.
-/
namespace Pixo.Props.JpegDecode32
open Pixo Pixo.JpegDecode Pixo.JpegDecode32 Pixo.Idct Spec.Markers

/-! ### Sampling factors of a file -/

/-- The sampling factors in a frame header (T.81 B.2.2): for each of the components, whose number is in the sixth byte, four bits each. -/
def factors (seg : List UInt8) : List (Nat × Nat) :=
  (List.range (seg.getD 5 0).toNat).map (fun k => ((seg.getD (6 + k * 3 + 1) 0).toNat / 16, (seg.getD (6 + k * 3 + 1) 0).toNat % 16))

/-- The sampling factors in the last frame header (marker C0) of the segments, `fs` if there is none. -/
def lastFactors (fs : List (Nat × Nat)) (l : List (UInt8 × List UInt8)) : List (Nat × Nat) :=
  l.foldl (fun fs p => if p.1 = 0xC0 then factors p.2 else fs) fs

/-- The largest sampling factors of all frame headers, at least `m`. (The decoder does not forget those of a frame header when it meets another.) -/
def largest (m : Nat × Nat) (l : List (UInt8 × List UInt8)) : Nat × Nat :=
  l.foldl (fun m p => if p.1 = 0xC0 then (factors p.2).foldl (fun m f => (max m.1 f.1, max m.2 f.2)) m else m) m

/-- The number of samples a decoder keeps for a component with the factors `f`, in an image of `w` by `h` pixels. -/
def samples (w h : Nat) (m f : Nat × Nat) : Nat := (w + 8 * m.1 - 1) / (8 * m.1) * f.1 * 8 * ((h + 8 * m.2 - 1) / (8 * m.2) * f.2 * 8)

/-! ### What the decoder keeps of them -/

/-- The factors of the state are those. -/
structure Has (s : State) (fs : List (Nat × Nat)) (m : Nat × Nat) : Prop where
  fs : s.components.map (fun c => (c.h, c.v)) = fs
  m : (s.maxH, s.maxV) = m

theorem Has.of_eq {s s' : State} {fs : List (Nat × Nat)} {m : Nat × Nat} (h : Has s fs m) (h1 : s'.components = s.components)
    (h2 : s'.maxH = s.maxH) (h3 : s'.maxV = s.maxV) : Has s' fs m := ⟨by rw [h1, h.fs], by rw [h2, h3, h.m]⟩

theorem parseDht_has {fs : List (Nat × Nat)} {m : Nat × Nat} : ∀ (fuel : Nat) (seg : List UInt8) (s s' : State), Has s fs m →
    parseDht fuel seg s = .ok s' → Has s' fs m
  | _, [], _, _, hs, h => by
    rw [parseDht.eq_def] at h
    cases h
    exact hs
  | 0, _ :: _, _, _, _, h => by cases h
  | fuel + 1, info :: rest, s, s', hs, h => by
    rw [parseDht] at h
    simp only at h
    split at h
    · cases h
    · split at h
      · cases h
      · obtain ⟨bits, -, h⟩ := bind_parts h
        split at h
        · cases h
        · obtain ⟨values, -, h⟩ := bind_parts h
          split at h
          · obtain ⟨t, -, h⟩ := bind_parts h
            refine parseDht_has fuel _ _ _ ?_ h
            exact hs.of_eq rfl rfl rfl
          · obtain ⟨t, -, h⟩ := bind_parts h
            refine parseDht_has fuel _ _ _ ?_ h
            exact hs.of_eq rfl rfl rfl

theorem parseDqt_has {fs : List (Nat × Nat)} {m : Nat × Nat} : ∀ (fuel : Nat) (seg : List UInt8) (s s' : State), Has s fs m →
    parseDqt fuel seg s = .ok s' → Has s' fs m
  | _, [], _, _, hs, h => by
    rw [parseDqt.eq_def] at h
    cases h
    exact hs
  | 0, _ :: _, _, _, _, h => by cases h
  | fuel + 1, info :: rest, s, s', hs, h => by
    rw [parseDqt] at h
    split at h
    · cases h
    · split at h
      · split at h
        · cases h
        · obtain ⟨bytes, -, h⟩ := bind_parts h
          obtain ⟨q, -, h⟩ := bind_parts h
          refine parseDqt_has fuel _ _ _ ?_ h
          exact hs.of_eq rfl rfl rfl
      · split at h
        · cases h
        · obtain ⟨bytes, -, h⟩ := bind_parts h
          obtain ⟨q, -, h⟩ := bind_parts h
          refine parseDqt_has fuel _ _ _ ?_ h
          exact hs.of_eq rfl rfl rfl

theorem parseDri_has {fs : List (Nat × Nat)} {m : Nat × Nat} {seg : List UInt8} {s s' : State} (hs : Has s fs m) (h : parseDri seg s = .ok s') :
    Has s' fs m := by
  unfold parseDri at h
  split at h
  · cases h
    exact hs.of_eq rfl rfl rfl
  · cases h

theorem get_ok {α : Type} {l : List α} {i : Nat} {a : α} (h : getChecked l i = .ok a) : l[i]? = some a := by
  unfold getChecked at h
  cases hi : l[i]? with
  | none =>
    rw [hi] at h
    cases h
  | some b =>
    rw [hi] at h
    cases h
    rfl

theorem get_ok_getD {l : List UInt8} {i : Nat} {a : UInt8} (h : getChecked l i = .ok a) : l.getD i 0 = a := by
  rw [List.getD_eq_getElem?_getD, get_ok h]
  rfl

theorem sos_keeps {seg : List UInt8} : ∀ (n i : Nat) (cs cs' : List Component), sosComponents seg n i cs = .ok cs' →
    cs'.map (fun c => (c.h, c.v)) = cs.map (fun c => (c.h, c.v))
  | 0, _, _, _, h => by cases h; rfl
  | n + 1, i, cs, cs', h => by
    rw [sosComponents] at h
    simp only at h
    split at h
    · cases h
    · obtain ⟨t, -, h⟩ := bind_parts h
      split at h
      · cases h
      · split at h
        · cases h
        · obtain ⟨c, hc, h⟩ := bind_parts h
          rw [sos_keeps n _ _ _ h, List.map_set]
          refine List.ext_getElem? fun j => ?_
          rw [List.getElem?_set]
          split
          · rename_i hij
            subst hij
            have := get_ok hc
            rw [List.getElem?_map, this]
            split
            · rfl
            · rename_i hlt
              rw [List.length_map] at hlt
              exact absurd (List.getElem?_eq_some_iff.1 this).1 hlt
          · rfl

theorem parseSos_has {fs : List (Nat × Nat)} {m : Nat × Nat} {seg : List UInt8} {s s' : State} (hs : Has s fs m) (h : parseSos seg s = .ok s') :
    Has s' fs m := by
  unfold parseSos at h
  split at h
  · cases h
  · split at h
    · cases h
    · obtain ⟨cs, hc, h⟩ := bind_parts h
      cases h
      exact ⟨by rw [← hs.fs]; exact sos_keeps _ _ _ _ hc, hs.m⟩

theorem nibble (n : Nat) (h : n < 256) : (n >>> 4) &&& 15 = n / 16 := by
  rw [Nat.shiftRight_eq_div_pow, show 15 = 2 ^ 4 - 1 from rfl, Nat.and_two_pow_sub_one_eq_mod, Nat.mod_eq_of_lt (by omega)]

theorem sofComponents_has {seg : List UInt8} : ∀ (n i : Nat) (s s' : State), sofComponents seg n i s = .ok s' →
    Has s' (s.components.map (fun c => (c.h, c.v)) ++
      (List.range' i n).map (fun k => ((seg.getD (6 + k * 3 + 1) 0).toNat / 16, (seg.getD (6 + k * 3 + 1) 0).toNat % 16)))
      (((List.range' i n).map (fun k => ((seg.getD (6 + k * 3 + 1) 0).toNat / 16, (seg.getD (6 + k * 3 + 1) 0).toNat % 16))).foldl
        (fun m f => (max m.1 f.1, max m.2 f.2)) (s.maxH, s.maxV))
  | 0, _, _, _, h => by
    cases h
    exact ⟨by simp, rfl⟩
  | n + 1, i, s, s', h => by
    rw [sofComponents] at h
    simp only at h
    obtain ⟨sm, hsm, h⟩ := bind_parts h
    split at h
    · cases h
    · obtain ⟨tq, -, h⟩ := bind_parts h
      split at h
      · cases h
      · have ih := sofComponents_has n (i + 1) _ s' h
        have hsm := get_ok_getD hsm
        have h1 : (sm.toNat >>> 4) &&& 15 = sm.toNat / 16 := nibble _ sm.toNat_lt
        have h2 : sm.toNat &&& 15 = sm.toNat % 16 := Nat.and_two_pow_sub_one_eq_mod sm.toNat 4
        rw [List.range'_succ, List.map_cons, hsm, List.foldl_cons]
        simp only [h1, h2, List.map_append, List.append_assoc, List.map_cons, List.map_nil, List.cons_append, List.nil_append] at ih ⊢
        exact ih

theorem parseSof0_has {fs : List (Nat × Nat)} {m : Nat × Nat} {seg : List UInt8} {s s' : State} (hs : Has s fs m) (h : parseSof0 seg s = .ok s') :
    Has s' (factors seg) ((factors seg).foldl (fun m f => (max m.1 f.1, max m.2 f.2)) m) := by
  unfold parseSof0 at h
  split at h
  · cases h
  · obtain ⟨p, -, h⟩ := bind_parts h
    split at h
    · cases h
    · obtain ⟨a, -, h⟩ := bind_parts h
      obtain ⟨b, -, h⟩ := bind_parts h
      obtain ⟨c, -, h⟩ := bind_parts h
      obtain ⟨d, -, h⟩ := bind_parts h
      obtain ⟨n, hn, h⟩ := bind_parts h
      simp only at h
      split at h
      · cases h
      · split at h
        · cases h
        · have := sofComponents_has _ _ _ _ h
          unfold factors
          rw [get_ok_getD hn, List.range_eq_range', ← hs.m]
          simpa using this

/-! ### The scan the decoder comes to -/

theorem reached {d' : List UInt8} {sos rest : List UInt8} (hd : Segment d' 0xDA sos rest) : ∀ (fuel : Nat) (l : List (UInt8 × List UInt8)) (s : State)
    (d : List UInt8) (fs : List (Nat × Nat)) (m : Nat × Nat) (i : Image), s.Good → Small s → Has s fs m → Segments d l d' → (∀ p ∈ l, p.1 ≠ 0xDA) →
    markerLoop false fuel s d = .ok i →
    ∃ s' : State, s'.Good ∧ Small s' ∧ Has s' (lastFactors fs l) (largest m l) ∧ markerLoop32 fuel s d = decodeScan32 s' rest ∧
      decodeScan false s' rest = .ok i
  | 0, _, _, _, _, _, _, _, _, _, _, _, h => by cases h
  | fuel + 1, [], s, d, fs, m, i, hs, hsm, hh, hl, hda, h => by
    cases hl
    rw [markerLoop32]
    rw [markerLoop] at h
    rw [(C36_markers _ _ _ _).2 hd, ok_bind] at h ⊢
    simp only at h ⊢
    rw [if_neg (by decide), if_neg (by decide), if_neg (by decide), if_neg (by decide), if_neg (by decide), if_pos trivial] at h ⊢
    obtain ⟨s', h1, h2⟩ := bind_parts h
    refine ⟨s', ((parseSos_safe sos s hs).of_ok h1).1, parseSos_small hsm h1, parseSos_has hh h1, ?_, h2⟩
    rw [h1, ok_bind]
  | fuel + 1, (mk, seg) :: l, s, d, fs, m, i, hs, hsm, hh, hl, hda, h => by
    cases hl with
    | cons hseg hl =>
      rw [markerLoop32]
      rw [markerLoop] at h
      rw [(C36_markers _ _ _ _).2 hseg, ok_bind] at h ⊢
      simp only at h ⊢
      have hda' : ∀ p ∈ l, p.1 ≠ 0xDA := fun p hp => hda p (by simp [hp])
      have hmk : mk ≠ 0xDA := hda (mk, seg) (by simp)
      have step : lastFactors fs ((mk, seg) :: l) = lastFactors (if mk = 0xC0 then factors seg else fs) l := rfl
      have step' : largest m ((mk, seg) :: l) =
        largest (if mk = 0xC0 then (factors seg).foldl (fun m f => (max m.1 f.1, max m.2 f.2)) m else m) l := rfl
      rw [step, step']
      by_cases h1 : mk = 0xC0
      · rw [if_pos h1] at h ⊢
        rw [if_pos h1, if_pos h1]
        obtain ⟨s', e, h⟩ := bind_parts h
        rw [e, ok_bind]
        exact reached hd fuel l s' _ _ _ i ((parseSof0_safe seg s hs).of_ok e).1 (parseSof0_small hsm e) (parseSof0_has hh e) hl hda' h
      rw [if_neg h1] at h ⊢
      rw [if_neg h1, if_neg h1]
      by_cases h2 : mk = 0xC2
      · rw [if_pos h2] at h
        cases h
      rw [if_neg h2] at h ⊢
      by_cases h3 : mk = 0xC4
      · rw [if_pos h3] at h ⊢
        obtain ⟨s', e, h⟩ := bind_parts h
        rw [e, ok_bind]
        exact reached hd fuel l s' _ _ _ i ((parseDht_safe _ seg s hs (Nat.le_refl _)).of_ok e).1 (parseDht_small _ _ _ _ hsm e)
          (parseDht_has _ _ _ _ hh e) hl hda' h
      rw [if_neg h3] at h ⊢
      by_cases h4 : mk = 0xDB
      · rw [if_pos h4] at h ⊢
        obtain ⟨s', e, h⟩ := bind_parts h
        rw [e, ok_bind]
        exact reached hd fuel l s' _ _ _ i ((parseDqt_safe _ seg s hs (Nat.le_refl _)).of_ok e).1 (parseDqt_small _ _ _ _ hsm e)
          (parseDqt_has _ _ _ _ hh e) hl hda' h
      rw [if_neg h4] at h ⊢
      by_cases h5 : mk = 0xDD
      · rw [if_pos h5] at h ⊢
        obtain ⟨s', e, h⟩ := bind_parts h
        rw [e, ok_bind]
        exact reached hd fuel l s' _ _ _ i ((parseDri_safe seg s hs).of_ok e).1 (parseDri_small hsm e) (parseDri_has hh e) hl hda' h
      rw [if_neg h5, if_neg hmk] at h ⊢
      by_cases h6 : mk = 0xD9
      · rw [if_pos h6] at h
        cases h
      rw [if_neg h6] at h ⊢
      exact reached hd fuel l s _ _ _ i hs hsm hh hl hda' h

/-! ## C112, exactly -/

/-- C112: an image that is decoded with 64 bits is decoded with 32 bits exactly if its pixels are less than `2^31` bytes and its samples, two bytes
each, are less than `2^31` bytes for each component. Otherwise there is a panic. -/
theorem C112_exact (body : List UInt8) (i : Image) (l : List (UInt8 × List UInt8)) (d sos rest : List UInt8) (hl : Segments body l d)
    (hda : ∀ p ∈ l, p.1 ≠ 0xDA) (hd : Segment d 0xDA sos rest) (h : decodeJpeg false (0xFF :: 0xD8 :: body) = .ok i) :
    decodeJpeg32 (0xFF :: 0xD8 :: body) =
      if i.pixels.length < 2 ^ 31 ∧ ∀ f ∈ lastFactors [] l, 2 * samples i.width i.height (largest (1, 1) l) f < 2 ^ 31 then .ok i
      else .error .panic := by
  unfold decodeJpeg at h
  unfold decodeJpeg32
  simp only at h ⊢
  obtain ⟨s, hs, hsm, hh, e, h⟩ := reached hd _ l {} body [] (1, 1) i start_good ⟨by decide, by decide, by decide, by decide⟩ ⟨rfl, rfl⟩ hl hda h
  rw [e]
  have h0 : s.components ≠ [] := by
    intro h0
    rw [decodeScan_empty hs h0] at h
    cases h
  have hok := decodeScan_ok hs h0 rest
  unfold Oks at hok
  obtain ⟨i', hi, hsz, h1, h2, h3⟩ := hok
  rw [h] at hi
  cases hi
  have hlen : i.pixels.length = bytesOf s := by
    unfold bytesOf
    rcases hsz with ⟨hc, hl⟩ | ⟨hc, hl⟩
    · rw [if_pos (h3.1 hc), hl, h1, h2]
    · rw [if_neg (fun h => by rw [h3.2 h] at hc; cases hc), hl, h1, h2]
  have hpl : ∀ c : Component, samples i.width i.height (largest (1, 1) l) (c.h, c.v) =
      plane (divCeil s.width (s.maxH * 8)) (divCeil s.height (s.maxV * 8)) c := by
    intro c
    unfold samples plane divCeil
    rw [← hh.m, h1, h2, Nat.mul_comm 8, Nat.mul_comm 8]
  rw [hlen, ← hh.fs]
  split
  · rename_i hc
    rw [scan_same hs hsm rest (fun c hc' => ?_) hc.1, h]
    have := hc.2 (c.h, c.v) (List.mem_map.2 ⟨c, hc', rfl⟩)
    rw [hpl] at this
    omega
  · rename_i hc
    by_cases hb : bytesOf s < 2 ^ 31
    · have : ∃ c ∈ s.components, 2 ^ 30 ≤ plane (divCeil s.width (s.maxH * 8)) (divCeil s.height (s.maxV * 8)) c := by
        refine Classical.byContradiction fun hn => hc ⟨hb, fun f hf => ?_⟩
        obtain ⟨c, hc', rfl⟩ := List.mem_map.1 hf
        rw [hpl]
        rcases Nat.lt_or_ge (plane (divCeil s.width (s.maxH * 8)) (divCeil s.height (s.maxV * 8)) c) (2 ^ 30) with h | h
        · omega
        · exact absurd ⟨c, hc', h⟩ hn
      obtain ⟨c, hc', hp⟩ := this
      exact scan_plane hs hsm rest hb hc' hp
    · exact scan_panic hs rest (by omega)

/-- Factors of a frame header with factors 2 by 1, 1 by 1 and 1 by 1, and the samples of an image of 17 by 9 pixels. -/
example : factors [8, 0, 9, 0, 17, 3, 1, 0x21, 0, 2, 0x11, 0, 3, 0x11, 0] = [(2, 1), (1, 1), (1, 1)] ∧
    largest (1, 1) [(0xC0, [8, 0, 9, 0, 17, 3, 1, 0x21, 0, 2, 0x11, 0, 3, 0x11, 0])] = (2, 1) ∧ samples 17 9 (2, 1) (2, 1) = 32 * 16 ∧
    samples 17 9 (2, 1) (1, 1) = 16 * 16 := by decide

/-- A file of 22 bytes which says that the image has 32768 by 32768 pixels. -/
def half : List UInt8 := [0xFF, 0xC0, 0, 11, 8, 0x80, 0, 0x80, 0, 1, 1, 0x11, 0, 0xFF, 0xDA, 0, 5, 1, 1, 0]

theorem half_segments : Segments half [(0xC0, [8, 0x80, 0, 0x80, 0, 1, 1, 0x11, 0])] [0xFF, 0xDA, 0, 5, 1, 1, 0] :=
  Segments.cons (Spec.Markers.Segment.params [] 1 0xC0 0 11 [8, 0x80, 0, 0x80, 0, 1, 1, 0x11, 0] _ (by decide) (by decide) (by decide)
    (by unfold Standalone; decide) (by decide)) (Segments.nil _)

theorem half_legible : UpToScan (0xFF :: 0xD8 :: half) [] :=
  ⟨_, [(0xC0, [8, 0x80, 0, 0x80, 0, 1, 1, 0x11, 0])], [0xFF, 0xDA, 0, 5, 1, 1, 0], [1, 1, 0], 1, rfl, half_segments,
    (by
      intro p hp
      rw [List.mem_singleton] at hp
      subst hp
      exact ⟨by simp, by simp, by simp, fun _ => ⟨1, 0x80, 0, 0x80, 0, 1, [1, 0x11, 0], rfl, rfl, Or.inl rfl, by decide, by decide,
        by decide, trivial⟩, by simp, by simp, by simp⟩),
    ⟨[], _, [], rfl, by simp, 0x80, 0, 0x80, 0, 1, [1, 0x11, 0], rfl, rfl, Or.inl rfl, by decide, by decide, by decide, trivial⟩,
    bomb_scan, 1, [1, 0], rfl, rfl, by decide, by decide, trivial⟩

/-- C112, violated by an image of `2^30` bytes, which would have room: the samples are kept in two bytes each. -/
theorem C112_half : ∃ i, decodeJpeg false (0xFF :: 0xD8 :: half) = .ok i ∧ i.pixels.length = 2 ^ 30 ∧
    decodeJpeg32 (0xFF :: 0xD8 :: half) = .error .panic := by
  obtain ⟨i, hi, hz⟩ := C94_cut _ half_legible
  rcases C36_partial (0xFF :: 0xD8 :: half) with ⟨k, b1, b7, body, l, d, seg, rest, b2, b3, b4, b5, b6⟩ | b | b | ⟨b, _⟩
  · rw [hi] at b1
    cases b1
    have e : half = body := List.tail_eq_of_cons_eq (List.tail_eq_of_cons_eq b2)
    subst e
    obtain ⟨rfl, rfl⟩ := segments_unique b3 half_segments b4 bomb_scan b5 (by simp)
    have f : FrameOf [(0xC0, [8, 0x80, 0, 0x80, 0, 1, 1, 0x11, 0])] 32768 32768 True :=
      ⟨[], 0x80, 0, 0x80, 0, 1, [1, 0x11, 0], [], rfl, by simp, by decide, by decide, by decide⟩
    obtain ⟨hw, hh, hg⟩ := frameOf_unique b6 f
    have hp := hz (hg.2 trivial)
    rw [hw, hh] at hp
    refine ⟨i, hi, by rw [hp, List.length_replicate]; decide, ?_⟩
    rw [C112_exact half i _ _ _ _ half_segments (by simp) bomb_scan hi, if_neg]
    intro hc
    have := hc.2 (1, 1) (by decide)
    rw [hw, hh] at this
    revert this
    decide
  · rw [hi] at b; cases b
  · rw [hi] at b; cases b
  · rw [hi] at b; cases b

end Pixo.Props.JpegDecode32
