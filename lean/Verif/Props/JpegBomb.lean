import Verif.Props.JpegAccept
import Verif.Props.JpegBaseline
import Verif.Proof.JpegCodes
/-
Property C95: the size of the image the JPEG decoder gives, against the size of the file.
-/
namespace Pixo.Props
open Pixo Spec Spec.T81
open Pixo.JpegDecode (Image decodeJpeg)
open Spec.Markers (Segments FrameOf UpToScan Standalone LastFrame)

/-! ### A block takes two bits -/

theorem hasCode_length {t : Table} {symbol : Nat} {word : List Bool} (h : t.HasCode symbol word) : 1 ≤ word.length := by
  obtain ⟨k, code, size, _, h2, rfl⟩ := h
  have hs : size ∈ sizes t.bits := by
    rw [← Jpeg.codesFrom_snd 0 0 (sizes t.bits)]
    exact List.mem_map.2 ⟨(code, size), List.mem_of_getElem? h2, rfl⟩
  have := Jpeg.sizesAt_ge 0 t.bits size (Jpeg.sizes_eq t.bits ▸ hs)
  rw [show (bitsMSB code size).length = size from by simp [bitsMSB]]
  omega

theorem dc_length {t : Table} {d : Int} {bits : List Bool} (h : Dc t d bits) : 1 ≤ bits.length := by
  cases h with
  | zero h => exact hasCode_length h
  | bits _ _ _ h =>
    have := hasCode_length h
    rw [List.length_append]
    omega

theorem ac_length {t : Table} {acs : List Int} {bits : List Bool} (h : Ac t acs bits) (hn : acs ≠ []) : 1 ≤ bits.length := by
  cases h with
  | done => exact absurd rfl hn
  | eob _ h => exact hasCode_length h
  | zrl h _ =>
    have := hasCode_length h
    rw [List.length_append]
    omega
  | coef _ _ _ _ h _ =>
    have := hasCode_length h
    rw [List.length_append, List.length_append]
    omega

theorem block_length {dc ac : Table} {pred : Int} {block : List Int} {bits : List Bool} (h : Block dc ac pred block bits) :
    2 ≤ bits.length := by
  cases h with
  | mk hl hd ha =>
    rw [List.length_append]
    have h1 := dc_length hd
    have h2 := ac_length ha (by rintro rfl; simp at hl)
    omega

theorem blocks_length {ts : Tables} {pred : Nat → Int} {blocks : List (Nat × List Int)} {bits : List Bool}
    (h : Blocks ts pred blocks bits) : 2 * blocks.length ≤ bits.length := by
  induction h with
  | nil => simp
  | cons hb _ ih =>
    have := block_length hb
    rw [List.length_append, List.length_cons]
    omega

theorem stuff_length_ge (l : List UInt8) : l.length ≤ (stuff l).length := by
  unfold stuff
  induction l with
  | nil => simp
  | cons b l ih =>
    rw [List.flatMap_cons, List.length_append, List.length_cons]
    have : 1 ≤ (if b = 0xFF then [0xFF, 0] else [b] : List UInt8).length := by split <;> simp
    omega

theorem segment_size {ts : Tables} {blocks : List (Nat × List Int)} {bytes : List UInt8} (h : T81.Segment ts blocks bytes) :
    blocks.length ≤ 4 * bytes.length := by
  obtain ⟨raw, bits, rfl, h1, h2⟩ := h
  have := blocks_length h2
  have h3 := congrArg List.length h1
  rw [bytesMSB_length, List.length_append] at h3
  have := stuff_length_ge raw
  omega

theorem restarts_size {ts : Tables} {ri m : Nat} {mcus : List (List (Nat × List Int))} {bytes : List UInt8}
    (h : Restarts ts ri m mcus bytes) : mcus.flatten.length ≤ 4 * bytes.length := by
  induction h with
  | last _ _ h => exact segment_size h
  | more _ h _ ih =>
    have := segment_size h
    rw [List.flatten_append, List.length_append, List.length_append, List.length_append]
    omega

theorem scan_size {ts : Tables} {interval : Option Nat} {mcus : List (List (Nat × List Int))} {bytes : List UInt8}
    (h : Scan ts interval mcus bytes) : mcus.flatten.length ≤ 4 * bytes.length := by
  cases interval with
  | none => exact segment_size h
  | some ri => exact restarts_size h

/-! ### Pixels and blocks -/

theorem ceilDiv_covers (a b : Nat) (hb : 0 < b) : a ≤ ceilDiv a b * b := by
  unfold ceilDiv
  have := Nat.div_add_mod (a + b - 1) b
  have := Nat.mod_lt (a + b - 1) hb
  rw [Nat.mul_comm]
  omega

theorem foldr_max_mem (l : List Nat) (h : l ≠ []) : l.foldr max 0 ∈ l := by
  induction l with
  | nil => exact absurd rfl h
  | cons a l ih =>
    rw [List.foldr_cons]
    by_cases hl : l = []
    · subst hl; simp
    · have := ih hl
      rcases Nat.le_total a (l.foldr max 0) with h | h
      · rw [Nat.max_eq_right h]; exact List.mem_cons_of_mem _ this
      · rw [Nat.max_eq_left h]; exact List.mem_cons_self

/-- With one component every block has 64 pixels. -/
theorem pixels_blocks_gray (f : Frame) (h : f.comps.length = 1) : f.width * f.height ≤ 64 * (mcuCount f * (mcuShape f).length) := by
  obtain ⟨c, h⟩ := List.length_eq_one_iff.1 h
  unfold mcuCount mcuShape
  rw [h]
  simp only [List.length_singleton, Nat.mul_one]
  have := Nat.mul_le_mul (ceilDiv_covers f.width 8 (by omega)) (ceilDiv_covers f.height 8 (by omega))
  calc _ ≤ _ := this
    _ = 64 * (ceilDiv f.width 8 * ceilDiv f.height 8) := by
      generalize ceilDiv f.width 8 = a
      generalize ceilDiv f.height 8 = b
      rw [show a * 8 * (b * 8) = 8 * 8 * (a * b) from by ac_rfl]

/-- The pixels of an image are at most 256 for every block: with one component there are 64, and with
several an MCU has as many blocks as the largest horizontal factor at least, and the vertical factors are
at most 4. -/
theorem pixels_blocks (f : Frame) (h0 : f.comps ≠ []) (hl : f.Legal) :
    f.width * f.height ≤ 256 * (mcuCount f * (mcuShape f).length) := by
  have area : ∀ a b : Nat, 0 < a → 0 < b → f.width * f.height ≤ ceilDiv f.width a * ceilDiv f.height b * (a * b) := by
    intro a b ha hb
    have := Nat.mul_le_mul (ceilDiv_covers f.width a ha) (ceilDiv_covers f.height b hb)
    calc _ ≤ _ := this
      _ = _ := by ac_rfl
  by_cases h1 : ∃ c, f.comps = [c]
  · obtain ⟨c, h1⟩ := h1
    unfold mcuCount mcuShape
    rw [h1]
    simp only [List.length_singleton, Nat.mul_one]
    have := area 8 8 (by omega) (by omega)
    omega
  · have e1 : mcuCount f = ceilDiv f.width (8 * (f.comps.map (·.h)).foldr max 0) * ceilDiv f.height (8 * (f.comps.map (·.v)).foldr max 0) := by
      unfold mcuCount
      split
      · rename_i c h; exact absurd ⟨c, h⟩ h1
      · rfl
    have e2 : mcuShape f = f.comps.zipIdx.flatMap (fun (c, i) => List.replicate (c.h * c.v) i) := by
      unfold mcuShape
      split
      · rename_i c h; exact absurd ⟨c, h⟩ h1
      · rfl
    obtain ⟨c, hc, hh⟩ := List.mem_map.1 (foldr_max_mem (f.comps.map (·.h)) (by simpa using h0))
    obtain ⟨d, hd, hv⟩ := List.mem_map.1 (foldr_max_mem (f.comps.map (·.v)) (by simpa using h0))
    have gc := hl c hc
    have gd := hl d hd
    have e3 : c.h ≤ (mcuShape f).length := by
      rw [e2]
      obtain ⟨k, hk, rfl⟩ := List.mem_iff_getElem.1 hc
      have hm : (f.comps[k], k) ∈ f.comps.zipIdx := by
        rw [List.mem_zipIdx_iff_getElem?]
        simp [hk]
      have hs : (List.replicate (f.comps[k].h * f.comps[k].v) k).Sublist
          (f.comps.zipIdx.flatMap (fun (c, i) => List.replicate (c.h * c.v) i)) := by
        rw [List.flatMap_def]
        exact List.sublist_flatten_of_mem (List.mem_map.2 ⟨_, hm, rfl⟩)
      have := hs.length_le
      rw [List.length_replicate] at this
      exact Nat.le_trans (Nat.le_mul_of_pos_right _ (by omega)) this
    have := area (8 * c.h) (8 * d.v) (by omega) (by omega)
    rw [e1, ← hh, ← hv]
    refine Nat.le_trans this ?_
    generalize ceilDiv f.width (8 * c.h) * ceilDiv f.height (8 * d.v) = k
    have h2 : 8 * c.h * (8 * d.v) ≤ 256 * (mcuShape f).length := by
      have := Nat.mul_le_mul e3 gd.2.2.2.1
      calc 8 * c.h * (8 * d.v) = 64 * (c.h * d.v) := by ac_rfl
        _ ≤ 64 * ((mcuShape f).length * 4) := Nat.mul_le_mul_left _ this
        _ = _ := by omega
    calc k * (8 * c.h * (8 * d.v)) ≤ k * (256 * (mcuShape f).length) := Nat.mul_le_mul_left _ h2
      _ = _ := by ac_rfl

theorem flatten_shape_length {α : Type} {mcus : List (List (Nat × α))} {n : Nat} {shape : List Nat}
    (h : mcus.map (fun m => m.map (·.1)) = List.replicate n shape) : mcus.flatten.length = n * shape.length := by
  have : (mcus.map (fun m => m.map (·.1))).flatten.length = mcus.flatten.length := by
    clear h
    induction mcus with
    | nil => rfl
    | cons m ms ih => simp only [List.map_cons, List.flatten_cons, List.length_append, List.length_map, ih]
  rw [← this, h]
  simp

/-- The frame of a baseline file is that of its last frame header. -/
theorem miscs_last {pre post : List (UInt8 × List UInt8)} {seg : List UInt8} {e e' : T81.Env}
    (h : Miscs (pre ++ (0xC0, seg) :: post) e e') {f : Frame} (hf : e'.frame = some f) (hp : ∀ p ∈ post, p.1 ≠ 0xC0) :
    T81.frame seg = some f := by
  have after : ∀ {l e e'}, Miscs l e e' → (∀ p ∈ l, p.1 ≠ 0xC0) → e'.frame = e.frame := by
    intro l e e' h hl
    induction h with
    | done => rfl
    | step a _ ih =>
      rw [ih (fun p hp => hl p (by simp [hp]))]
      have dqt : ∀ {seg : List UInt8} {e e' : T81.Env}, Dqt seg e e' → e'.frame = e.frame := by
        intro seg e e' h
        induction h with
        | done => rfl
        | eight _ _ _ ih => exact ih
        | sixteen _ _ _ _ ih => exact ih
      have dht : ∀ {seg : List UInt8} {e e' : T81.Env}, Dht seg e e' → e'.frame = e.frame := by
        intro seg e e' h
        induction h with
        | done => rfl
        | dc _ _ _ ih => exact ih
        | ac _ _ _ ih => exact ih
      cases a with
      | dqt h => exact dqt h
      | dht h => exact dht h
      | dri => rfl
      | sof _ _ _ => exact absurd rfl (hl _ List.mem_cons_self)
      | other _ => rfl
  induction pre generalizing e with
  | nil =>
    cases h with
    | step a b =>
      have := after b hp
      cases a with
      | sof _ hx _ =>
        rw [hf] at this
        have := Option.some.inj this
        subst this
        exact hx
      | other hx => exact absurd hx (by decide)
  | cons p pre ih =>
    cases h with
    | step a b => exact ih b

theorem frame_says {h1 h0 w1 w0 n : UInt8} {tail : List UInt8} {f : Frame}
    (h : T81.frame (8 :: h1 :: h0 :: w1 :: w0 :: n :: tail) = some f) :
    256 * w1.toNat + w0.toNat = f.width ∧ 256 * h1.toNat + h0.toNat = f.height ∧ n.toNat = f.comps.length := by
  unfold frame at h
  simp only at h
  cases hc : T81.components tail with
  | none => rw [hc] at h; cases h
  | some cs =>
    rw [hc] at h
    simp only [Option.bind_some] at h
    split at h
    · rename_i hn
      cases h
      exact ⟨rfl, rfl, hn.symm⟩
    · cases h

theorem miscs_frameOf {l : List (UInt8 × List UInt8)} {e e' : T81.Env} (h : Miscs l e e') {f : Frame} (hf : e'.frame = some f)
    {w v : Nat} {g : Prop} (hl : FrameOf l w v g) : w = f.width ∧ v = f.height ∧ (g ↔ f.comps.length = 1) := by
  obtain ⟨pre, h1, h0, w1, w0, n, tail, post, rfl, hp, rfl, rfl, hg⟩ := hl
  obtain ⟨a, b, c⟩ := frame_says (miscs_last h hf hp)
  exact ⟨a, b, by rw [← c]; exact hg⟩

theorem miscs_count {l : List (UInt8 × List UInt8)} {e e' : T81.Env} (h : Miscs l e e') {f : Frame} (hf : e'.frame = some f)
    {n : Nat} (hl : LastFrame l n) : f.comps.length = n ∧ (n = 1 ∨ n = 3) := by
  obtain ⟨pre, seg, post, rfl, hp, h1, h0, w1, w0, b, tail, rfl, hb, hn, _⟩ := hl
  obtain ⟨_, _, c⟩ := frame_says (miscs_last h hf hp)
  exact ⟨by rw [← c, hb], hn⟩

theorem miscs_legal {l : List (UInt8 × List UInt8)} {e e' : T81.Env} (h : Miscs l e e') (he : ∀ f, e.frame = some f → f.Legal)
    (f : Frame) (hf : e'.frame = some f) : f.Legal := by
  induction h with
  | done => exact he f hf
  | step a _ ih =>
    refine ih ?_ hf
    have dqt : ∀ {seg : List UInt8} {e e' : T81.Env}, Dqt seg e e' → e'.frame = e.frame := by
      intro seg e e' h
      induction h with
      | done => rfl
      | eight _ _ _ ih => exact ih
      | sixteen _ _ _ _ ih => exact ih
    have dht : ∀ {seg : List UInt8} {e e' : T81.Env}, Dht seg e e' → e'.frame = e.frame := by
      intro seg e e' h
      induction h with
      | done => rfl
      | dc _ _ _ ih => exact ih
      | ac _ _ _ ih => exact ih
    cases a with
    | dqt h => rw [dqt h]; exact he
    | dht h => rw [dht h]; exact he
    | dri => exact he
    | sof _ _ hl =>
      intro f hf
      cases hf
      exact hl
    | other _ => exact he

theorem frameOf_bytes {l : List (UInt8 × List UInt8)} {w h : Nat} {g : Prop} (hf : FrameOf l w h g) : w ≤ 65535 ∧ h ≤ 65535 := by
  obtain ⟨_, h1, h0, w1, w0, _, _, _, _, _, rfl, rfl, _⟩ := hf
  have := h1.toNat_lt
  have := h0.toNat_lt
  have := w1.toNat_lt
  have := w0.toNat_lt
  omega

theorem segments_shorter {d : List UInt8} {l : List (UInt8 × List UInt8)} {rest : List UInt8} (h : Segments d l rest) :
    rest.length ≤ d.length := by
  induction h with
  | nil => exact Nat.le_refl _
  | cons a _ ih =>
    have := segment_length a
    omega

/-- C95 for baseline files: a grayscale image has at most 256 pixels for every byte of its file, and an image
in colour at most 1024, in 3072 bytes. And whatever the file, there are no more than 65535 by 65535 pixels.

Missing for C95: files which are no baseline files (`C95_violation`). -/
theorem C95_partial (data : List UInt8) (i : Image) (h : decodeJpeg false data = .ok i) :
    i.pixels.length ≤ 3 * (65535 * 65535) ∧
    ∀ f quant interval mcus, Baseline data f quant interval mcus →
      (i.colorType = .gray → i.pixels.length ≤ 256 * data.length) ∧ i.pixels.length ≤ 3072 * data.length := by
  rcases C36_partial data with ⟨k, b1, b7, body, l, d, seg, rest, b2, b3, b4, b5, b6⟩ | b | b | ⟨b, _⟩
  · rw [h] at b1
    cases b1
    have hlen : i.pixels.length ≤ 3 * (i.width * i.height) ∧ (i.colorType = .gray → i.pixels.length = i.width * i.height) := by
      rcases b7 with ⟨_, b7⟩ | ⟨b0, b7⟩
      · exact ⟨by omega, fun _ => b7⟩
      · exact ⟨by omega, fun hg => by rw [hg] at b0; cases b0⟩
    constructor
    · have := frameOf_bytes b6
      have := Nat.mul_le_mul this.1 this.2
      omega
    · intro f quant interval mcus hb
      obtain ⟨⟨body', l', d', hdr, dat, env, sel, ts, scan, tail, e, a1, a2, a3, a4, _, _, _, _, _, a9, a10⟩, a11, _⟩ := hb
      rw [b2] at e
      cases e
      have hm : ∀ {l e e'}, T81.Miscs l e e' → ∀ p ∈ l, p.1 ≠ 0xDA := by
        intro l e e' h
        induction h with
        | done => simp
        | step a _ ih =>
          intro p hp
          rcases List.mem_cons.1 hp with rfl | hp
          · cases a with
            | other hx =>
              simp only
              rintro rfl
              revert hx
              decide
            | _ => simp
          · exact ih p hp
      obtain ⟨rfl, rfl⟩ := segments_unique b3 a1 b4 a3 b5 (hm a2)
      obtain ⟨_, _, rfl⟩ := segment_unique b4 a3
      obtain ⟨hw, hh, hg⟩ := miscs_frameOf a2 a4 b6
      have hsize := scan_size a9
      rw [flatten_shape_length a11] at hsize
      have hscan : scan.length ≤ data.length := by
        have h1 := segments_shorter b3
        have h2 := segment_length b4
        rw [a10, List.length_append] at h2
        rw [b2]
        simp only [List.length_cons]
        omega
      have hleg := miscs_legal a2 (by intro f hf; cases hf) f a4
      have hne : f.comps ≠ [] := by
        intro h0
        obtain ⟨_, hu⟩ := (C94_partial data).1 ⟨i, h⟩
        obtain ⟨body2, l2, d2, seg2, n2, e2, c1, c2, c3, c4, c5⟩ := hu
        rw [b2] at e2
        cases e2
        obtain ⟨rfl, rfl⟩ := segments_unique b3 c1 b4 c4 b5 (fun p hp => (c2 p hp).2.1)
        have := miscs_count a2 a4 c3
        rw [h0, List.length_nil] at this
        omega
      constructor
      · intro hgray
        have := pixels_blocks_gray f (hg.1 hgray)
        rw [hlen.2 hgray, hw, hh]
        omega
      · have := pixels_blocks f hne hleg
        refine Nat.le_trans hlen.1 ?_
        rw [hw, hh]
        omega
  · rw [h] at b; cases b
  · rw [h] at b; cases b
  · rw [h] at b; cases b

/-- A baseline file for which the bound holds. -/
example : ∃ data i f quant mcus, decodeJpeg false data = .ok i ∧ Baseline data f quant 0 mcus ∧ i.pixels.length ≤ 3072 * data.length := by
  have : (decodeJpeg false (smallFile plainSof threeSos ([0x28, 0x1F] ++ 0xFF :: 0xD9 :: [1, 2, 3]))).toOption.isSome = true := by
    decide +kernel
  cases h : decodeJpeg false (smallFile plainSof threeSos ([0x28, 0x1F] ++ 0xFF :: 0xD9 :: [1, 2, 3])) with
  | ok i => exact ⟨_, i, _, _, _, h, plain_baseline, ((C95_partial _ i h).2 _ _ _ _ plain_baseline).2⟩
  | error e => rw [h] at this; cases this

/-- A file of 22 bytes which says that the image has 65535 by 65535 pixels: frame header, scan header and
nothing else. -/
def bomb : List UInt8 := [0xFF, 0xD8, 0xFF, 0xC0, 0, 11, 8, 0xFF, 0xFF, 0xFF, 0xFF, 1, 1, 0x11, 0, 0xFF, 0xDA, 0, 5, 1, 1, 0]

theorem bomb_segments : Segments (bomb.drop 2) [(0xC0, [8, 0xFF, 0xFF, 0xFF, 0xFF, 1, 1, 0x11, 0])] [0xFF, 0xDA, 0, 5, 1, 1, 0] :=
  Segments.cons (Markers.Segment.params [] 1 0xC0 0 11 [8, 0xFF, 0xFF, 0xFF, 0xFF, 1, 1, 0x11, 0] _ (by decide) (by decide) (by decide)
    (by unfold Standalone; decide) (by decide)) (Segments.nil _)

theorem bomb_scan : Markers.Segment [0xFF, 0xDA, 0, 5, 1, 1, 0] 0xDA [1, 1, 0] [] :=
  Markers.Segment.params [] 1 0xDA 0 5 [1, 1, 0] [] (by decide) (by decide) (by decide) (by unfold Standalone; decide) (by decide)

theorem bomb_legible : UpToScan bomb [] :=
  ⟨_, [(0xC0, [8, 0xFF, 0xFF, 0xFF, 0xFF, 1, 1, 0x11, 0])], [0xFF, 0xDA, 0, 5, 1, 1, 0], [1, 1, 0], 1, rfl, bomb_segments,
    (by
      intro p hp
      rw [List.mem_singleton] at hp
      subst hp
      exact ⟨by simp, by simp, by simp, fun _ => ⟨1, 0xFF, 0xFF, 0xFF, 0xFF, 1, [1, 0x11, 0], rfl, rfl, Or.inl rfl, by decide, by decide,
        by decide, trivial⟩, by simp, by simp, by simp⟩),
    ⟨[], _, [], rfl, by simp, 0xFF, 0xFF, 0xFF, 0xFF, 1, [1, 0x11, 0], rfl, rfl, Or.inl rfl, by decide, by decide, by decide, trivial⟩,
    bomb_scan, 1, [1, 0], rfl, rfl, by decide, by decide, trivial⟩

/-- C95 fails: a file of 22 bytes gives more than four thousand million black pixels, 2^27 for every byte. -/
theorem C95_violation : ∃ (data : List UInt8) (i : Image), data.length = 22 ∧ decodeJpeg false data = .ok i ∧
    i.width = 65535 ∧ i.height = 65535 ∧ i.pixels = List.replicate (65535 * 65535) 0 ∧ 2 ^ 27 * data.length < i.pixels.length := by
  obtain ⟨i, hi, hz⟩ := C94_cut _ bomb_legible
  rcases C36_partial bomb with ⟨k, b1, b7, body, l, d, seg, rest, b2, b3, b4, b5, b6⟩ | b | b | ⟨b, _⟩
  · rw [hi] at b1
    cases b1
    have e : body = bomb.drop 2 := by rw [b2]; rfl
    subst e
    obtain ⟨rfl, rfl⟩ := segments_unique b3 bomb_segments b4 bomb_scan b5 (by simp)
    have f : FrameOf [(0xC0, [8, 0xFF, 0xFF, 0xFF, 0xFF, 1, 1, 0x11, 0])] 65535 65535 True :=
      ⟨[], 0xFF, 0xFF, 0xFF, 0xFF, 1, [1, 0x11, 0], [], rfl, by simp, by decide, by decide, by decide⟩
    obtain ⟨hw, hh, hg⟩ := frameOf_unique b6 f
    have hp := hz (hg.2 trivial)
    rw [hw, hh] at hp
    refine ⟨bomb, i, rfl, hi, hw, hh, hp, ?_⟩
    rw [hp, List.length_replicate]
    decide
  · rw [hi] at b; cases b
  · rw [hi] at b; cases b
  · rw [hi] at b; cases b

end Pixo.Props
