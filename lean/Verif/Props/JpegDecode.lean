import Verif.Proof.Checked
import Verif.Proof.JpegDecodeSafe
import Verif.Spec.T81Markers
/-
Properties of the JPEG decoder (src/decode/jpeg.rs).
-/
namespace Pixo.Props
open Pixo Pixo.JpegDecode Spec.Markers

theorem dropWhile_stop {α : Type} {p : α → Bool} {l : List α} {a : α} {t : List α} (h : l.dropWhile p = a :: t) :
    p a = false ∧ l = l.takeWhile p ++ a :: t := by
  refine ⟨?_, ?_⟩
  · have := List.head?_dropWhile_not p l
    rw [h] at this
    simpa using this
  · rw [← h, List.takeWhile_append_dropWhile]

theorem mem_takeWhile {α : Type} {p : α → Bool} {l : List α} {a : α} (h : a ∈ l.takeWhile p) : p a = true := by
  induction l with
  | nil => simp at h
  | cons b l ih =>
    rw [List.takeWhile_cons] at h
    split at h
    · rcases List.mem_cons.1 h with rfl | h
      · assumption
      · exact ih h
    · simp at h

theorem skip_marker {junk : List UInt8} {fill : Nat} {m : UInt8} {rest : List UInt8} (hj : 0xFF ∉ junk) (hf : 0 < fill)
    (hm : m ≠ 0xFF) :
    ((junk ++ List.replicate fill 0xFF ++ m :: rest).dropWhile (· ≠ 0xFF)).dropWhile (· = 0xFF) = m :: rest := by
  have h1 : (junk ++ List.replicate fill 0xFF ++ m :: rest).dropWhile (· ≠ 0xFF) = List.replicate fill 0xFF ++ m :: rest := by
    rw [List.append_assoc, List.dropWhile_append_of_pos (fun x hx => by simp; rintro rfl; exact hj hx)]
    cases fill with
    | zero => omega
    | succ n => rw [List.replicate_succ, List.cons_append, List.dropWhile_cons_of_neg (by decide)]
  rw [h1, List.dropWhile_append_of_pos (fun x hx => by rw [List.eq_of_mem_replicate hx]; decide),
    List.dropWhile_cons_of_neg (by simpa using hm)]

theorem marker_found {d : List UInt8} {m : UInt8} {rest : List UInt8}
    (h : (d.dropWhile (· ≠ 0xFF)).dropWhile (· = 0xFF) = m :: rest) :
    ∃ junk fill, 0xFF ∉ junk ∧ 0 < fill ∧ m ≠ 0xFF ∧ d = junk ++ List.replicate fill 0xFF ++ m :: rest := by
  obtain ⟨h1, h2⟩ := dropWhile_stop h
  have h3 : (d.dropWhile (· ≠ 0xFF)).takeWhile (· = 0xFF) =
      List.replicate ((d.dropWhile (· ≠ 0xFF)).takeWhile (· = 0xFF)).length 0xFF :=
    List.eq_replicate_of_mem (fun b hb => by simpa using mem_takeWhile hb)
  refine ⟨d.takeWhile (· ≠ 0xFF), ((d.dropWhile (· ≠ 0xFF)).takeWhile (· = 0xFF)).length, ?_, ?_, by simpa using h1, ?_⟩
  · intro hc; have := mem_takeWhile hc; simp at this
  · cases h4 : d.dropWhile (· ≠ 0xFF) with
    | nil => rw [h4] at h; simp at h
    | cons a t =>
      have := (dropWhile_stop h4).1
      have ha : a = 0xFF := by simpa using this
      rw [List.takeWhile_cons_of_pos (by simpa using ha)]; simp
  · rw [← h3, List.append_assoc, ← h2, List.takeWhile_append_dropWhile]

/-- C36: the markers read are those of the file. -/
theorem C36_markers (d : List UInt8) (m : UInt8) (seg rest : List UInt8) :
    readMarker d = .ok (m, seg, rest) ↔ Segment d m seg rest := by
  constructor
  · intro h
    unfold readMarker at h
    split at h
    · cases h
    · rename_i mk t ht
      obtain ⟨junk, fill, h1, h2, h3, h4⟩ := marker_found ht
      subst h4
      split at h
      · rename_i hs
        cases h
        exact Segment.bare junk fill _ _ h1 h2 h3 hs
      · rename_i hs
        split at h
        · rename_i hi lo t'
          simp only at h
          split at h
          · cases h
          · rename_i hlen
            cases h
            have := Segment.params junk fill m hi lo (t'.take (be16 hi lo - 2)) (t'.drop (be16 hi lo - 2)) h1 h2 h3 hs
              (by rw [List.length_take]; unfold be16 at *; omega)
            rwa [List.take_append_drop] at this
        · cases h
  · intro h
    cases h with
    | bare junk fill _ _ h1 h2 h3 hs =>
      unfold readMarker
      rw [skip_marker h1 h2 h3]
      simp only
      exact if_pos hs
    | params junk fill _ hi lo _ _ h1 h2 h3 hs hl =>
      unfold readMarker
      rw [skip_marker h1 h2 h3]
      simp only
      rw [if_neg (show ¬((0xD0 : UInt8) ≤ m ∧ m ≤ 0xD9) from hs), if_neg (by unfold be16; rw [List.length_append]; omega)]
      have : be16 hi lo - 2 = seg.length := by unfold be16; omega
      rw [this, List.take_left', List.drop_left'] <;> rfl

example : Segment [7, 0xFF, 0xFF, 0xDA, 0, 3, 0, 9] 0xDA [0] [9] :=
  Segment.params [7] 2 0xDA 0 3 [0] [9] (by decide) (by decide) (by decide) (by unfold Standalone; decide) (by decide)

theorem segment_length {d : List UInt8} {m : UInt8} {seg rest : List UInt8} (h : Segment d m seg rest) :
    rest.length < d.length := by
  cases h <;> simp <;> omega

theorem readMarker_safe (d : List UInt8) :
    Safe (readMarker d) (fun p => Segment d p.1 p.2.1 p.2.2) := by
  cases h : readMarker d with
  | ok p => exact Safe.ok ((C36_markers d p.1 p.2.1 p.2.2).1 h)
  | error e =>
    unfold readMarker at h
    split at h
    · cases h; exact Safe.invalid
    · split at h
      · cases h
      · split at h
        · simp only at h
          split at h
          · cases h; exact Safe.invalid
          · cases h
        · cases h; exact Safe.invalid

/-- The last frame header among the segments `l`, if any, else the state, gives the size of the image and
whether it is gray. -/
def SizeFrom (s : State) (l : List (UInt8 × List UInt8)) (i : Image) : Prop :=
  FrameOf l i.width i.height (i.colorType = .gray) ∨
  ((∀ p ∈ l, p.1 ≠ 0xC0) ∧ i.width = s.width ∧ i.height = s.height ∧ (i.colorType = .gray ↔ s.components.length = 1))

/-- What the decoder of a release build may do with the state `s` before the bytes `d`. -/
def Outcome (s : State) (d : List UInt8) (x : R Image) : Prop :=
  Safe x (fun i => i.Sized ∧ ∃ l d' seg rest, Segments d l d' ∧ Segment d' 0xDA seg rest ∧
    (∀ p ∈ l, p.1 ≠ 0xDA) ∧ (s.components = [] → ∃ p ∈ l, p.1 = 0xC0) ∧ SizeFrom s l i) ∨
  (x = .error .panic ∧ s.components = [] ∧ ∃ l d' seg rest, Segments d l d' ∧
    Segment d' 0xDA (0 :: seg) rest ∧ ∀ p ∈ l, p.1 ≠ 0xC0 ∧ p.1 ≠ 0xC2 ∧ p.1 ≠ 0xDA ∧ p.1 ≠ 0xD9)

theorem Outcome.step {s s' : State} {d : List UInt8} {m : UInt8} {seg d' : List UInt8} {x : R Image}
    (h : Segment d m seg d') (hm : m ≠ 0xC0 ∧ m ≠ 0xC2 ∧ m ≠ 0xDA ∧ m ≠ 0xD9)
    (hc : s'.components = s.components ∧ s'.width = s.width ∧ s'.height = s.height)
    (ho : Outcome s' d' x) : Outcome s d x := by
  rcases ho with ho | ⟨h1, h2, l, d2, sg, rest, h3, h4, h5⟩
  · refine Or.inl (ho.mono ?_)
    rintro i ⟨h1, l, d2, sg, rest, h3, h4, h7, h6, h5⟩
    refine ⟨h1, (m, seg) :: l, d2, sg, rest, Segments.cons h h3, h4, ?_, ?_, ?_⟩
    · intro p hp
      rcases List.mem_cons.1 hp with rfl | hp
      · exact hm.2.2.1
      · exact h7 p hp
    · rw [← hc.1]
      intro h0
      obtain ⟨p, hp, hp'⟩ := h6 h0
      exact ⟨p, by simp [hp], hp'⟩
    · rcases h5 with ⟨pre, h1', h0, w1, w0, n, tail, post, rfl, h5⟩ | ⟨a, b, c, e⟩
      · exact Or.inl ⟨(m, seg) :: pre, h1', h0, w1, w0, n, tail, post, rfl, h5⟩
      · refine Or.inr ⟨?_, by rw [b, hc.2.1], by rw [c, hc.2.2], by rw [e, hc.1]⟩
        intro p hp
        rcases List.mem_cons.1 hp with rfl | hp
        · exact hm.1
        · exact a p hp
  · refine Or.inr ⟨h1, by rw [← hc.1]; exact h2, (m, seg) :: l, d2, sg, rest, Segments.cons h h3, h4, ?_⟩
    intro p hp
    rcases List.mem_cons.1 hp with rfl | hp
    · exact hm
    · exact h5 p hp

theorem outcome_bind {α : Type} {s : State} {d : List UInt8} {x : R α} {P : α → Prop} {f : α → R Image} (hx : Safe x P)
    (hf : ∀ a, P a → Outcome s d (f a)) : Outcome s d (x >>= f) := by
  cases x with
  | ok a =>
    have : P a := by simpa [Safe] using hx
    exact hf a this
  | error e =>
    refine Or.inl ?_
    show Safe (.error e : R Image) _
    simpa [Safe] using hx

theorem decodeScan_empty {s : State} (hs : s.Good) (h : s.components = []) (rest : List UInt8) :
    decodeScan false s rest = .error .panic := by
  unfold decodeScan
  simp only
  obtain ⟨st, h1, h2⟩ := (mcuLoop_ok hs (divCeil s.width (s.maxH * 8)) ((List.range (divCeil s.height (s.maxV * 8))).flatMap
    (fun my => (List.range (divCeil s.width (s.maxH * 8))).map (fun mx => (mx, my)))) 0
    (st := ⟨⟨rest.take (entropyEnd rest), 0, 0, 0⟩, s.components.map (fun _ => 0), s.components.map (fun c =>
      List.replicate (divCeil s.width (s.maxH * 8) * c.h * 8 * (divCeil s.height (s.maxV * 8) * c.v * 8)) (0 : UInt8))⟩)
    ⟨Nat.zero_le _, by simp, by simp⟩).out
  rw [h1, ok_bind, if_neg (by rw [h]; decide)]
  unfold rgbPixels
  rw [h]
  rfl

theorem markerLoop_outcome (fuel : Nat) (s : State) (d : List UInt8) (hs : s.Good) (hf : d.length < fuel) :
    Outcome s d (markerLoop false fuel s d) := by
  induction fuel generalizing s d with
  | zero => omega
  | succ fuel ih =>
    unfold markerLoop
    refine outcome_bind (readMarker_safe d) ?_
    rintro ⟨m, seg, d'⟩ hm
    simp only at hm ⊢
    have hl := segment_length hm
    split
    · refine outcome_bind (parseSof0_safe seg s hs) fun s' hs' => ?_
      obtain ⟨hg, hne, h1, h0, w1, w0, n, tail, rfl, hh, hw, hn⟩ := hs'
      rcases ih s' d' hg (by omega) with h | ⟨_, h, _⟩
      · refine Or.inl (h.mono ?_)
        rintro i ⟨a, l, d2, sg, rest, h3, h4, h7, h6, h5⟩
        rename_i hc0
        refine ⟨a, (m, _) :: l, d2, sg, rest, Segments.cons hm h3, h4, fun p hp => ?_, fun _ => ⟨_, List.mem_cons_self, hc0⟩, Or.inl ?_⟩
        · rcases List.mem_cons.1 hp with rfl | hp
          · subst hc0; simp
          · exact h7 p hp
        subst hc0
        rcases h5 with ⟨pre, h1', h0', w1', w0', n', tail', post, rfl, h5⟩ | ⟨a, b, c, e⟩
        · exact ⟨_ :: pre, h1', h0', w1', w0', n', tail', post, rfl, h5⟩
        · exact ⟨[], h1, h0, w1, w0, n, tail, l, rfl, a, by rw [b, hw], by rw [c, hh], by rw [e, hn]⟩
      · exact absurd h hne
    · split
      · exact Or.inl Safe.unsupported
      · split
        · refine outcome_bind (parseDht_safe _ seg s hs (by omega)) fun s' hs' => ?_
          exact (ih s' d' hs'.1 (by omega)).step hm (by subst_vars; decide) hs'.2
        · split
          · refine outcome_bind (parseDqt_safe _ seg s hs (by omega)) fun s' hs' => ?_
            exact (ih s' d' hs'.1 (by omega)).step hm (by subst_vars; decide) hs'.2
          · split
            · refine outcome_bind (parseDri_safe seg s hs) fun s' hs' => ?_
              exact (ih s' d' hs'.1 (by omega)).step hm (by subst_vars; decide) hs'.2
            · split
              · rename_i hda
                subst hda
                refine outcome_bind (parseSos_safe seg s hs) fun s' hs' => ?_
                by_cases h0 : s.components = []
                · have h1 : s'.components = [] := List.length_eq_zero_iff.1 (by rw [hs'.2.1, h0]; rfl)
                  refine Or.inr ⟨decodeScan_empty hs'.1 h1 d', h0, [], d, seg.tail, d', Segments.nil d, ?_, by simp⟩
                  have := hs'.2.2.2.2 h0
                  cases seg with
                  | nil => simp at this
                  | cons a t =>
                    rw [List.head?_cons] at this
                    injection this with this
                    subst this
                    exact hm
                · have h1 : s'.components ≠ [] := by
                    intro h
                    have := hs'.2.1
                    rw [h, List.length_nil] at this
                    exact h0 (List.length_eq_zero_iff.1 this.symm)
                  refine Or.inl ((decodeScan_ok hs'.1 h1 d').safe.mono fun i hi => ?_)
                  refine ⟨hi.1, [], d, seg, d', Segments.nil d, hm, by simp, fun h => absurd h h0, Or.inr ⟨by simp, ?_, ?_, ?_⟩⟩
                  · rw [hi.2.1, hs'.2.2.1]
                  · rw [hi.2.2.1, hs'.2.2.2.1]
                  · rw [hi.2.2.2, hs'.2.1]
              · split
                · exact Or.inl Safe.invalid
                · exact (ih s d' hs (by omega)).step hm ⟨by assumption, by assumption, by assumption, by assumption⟩ ⟨rfl, rfl, rfl⟩

theorem start_good : State.Good {} where
  quant := List.length_replicate
  dc := ⟨List.length_replicate, fun t ht => List.eq_of_mem_replicate ht ▸ empty_good⟩
  ac := ⟨List.length_replicate, fun t ht => List.eq_of_mem_replicate ht ▸ empty_good⟩
  comps := by simp
  count := Or.inl rfl

/-- C36 for builds without overflow checks, but for one kind of file: every byte string gives an image
with as many bytes as its size says, that of the last frame header before the first scan, or an error
saying that the file is invalid or unsupported; or the file has a scan header without components and no
frame header before it.

Missing for C36: in that last case the decoder panics (`C36_violation`), as it does in builds with
overflow checks for further files (`C36_violation_checked`). -/
theorem C36_partial (data : List UInt8) :
    (∃ i, decodeJpeg false data = .ok i ∧
      ((i.colorType = .gray ∧ i.pixels.length = i.width * i.height) ∨
        (i.colorType = .rgb ∧ i.pixels.length = i.width * i.height * 3)) ∧
      ∃ body l d seg rest, data = 0xFF :: 0xD8 :: body ∧ Segments body l d ∧ Segment d 0xDA seg rest ∧
        (∀ p ∈ l, p.1 ≠ 0xDA) ∧ FrameOf l i.width i.height (i.colorType = .gray)) ∨
    decodeJpeg false data = .error .invalid ∨ decodeJpeg false data = .error .unsupported ∨
    (decodeJpeg false data = .error .panic ∧ HeaderlessScan data) := by
  unfold decodeJpeg
  split
  · rename_i rest
    rcases markerLoop_outcome (rest.length + 1) {} rest start_good (by omega) with h | ⟨h1, _, l, d, seg, r, h2, h3, h4⟩
    · cases hx : markerLoop false (rest.length + 1) {} rest with
      | ok i =>
        rw [hx] at h
        unfold Safe at h
        obtain ⟨h1, l, d, seg, r, h2, h3, h6, h4, h5⟩ := h
        refine Or.inl ⟨i, rfl, h1, rest, l, d, seg, r, rfl, h2, h3, h6, ?_⟩
        rcases h5 with h5 | ⟨h5, _⟩
        · exact h5
        · obtain ⟨p, hp, hp'⟩ := h4 rfl
          exact absurd hp' (h5 p hp)
      | error e =>
        rw [hx] at h
        unfold Safe at h
        rcases h with rfl | rfl
        · exact Or.inr (Or.inl rfl)
        · exact Or.inr (Or.inr (Or.inl rfl))
    · exact Or.inr (Or.inr (Or.inr ⟨h1, rest, l, d, seg, r, rfl, h2, h3, h4⟩))
  · exact Or.inr (Or.inl rfl)

theorem markerLoop_skip {d d' : List UInt8} {l : List (UInt8 × List UInt8)} (h : Segments d l d')
    (hl : ∀ p ∈ l, p.1 ≠ 0xC0 ∧ p.1 ≠ 0xC2 ∧ p.1 ≠ 0xC4 ∧ p.1 ≠ 0xDB ∧ p.1 ≠ 0xDD ∧ p.1 ≠ 0xDA ∧ p.1 ≠ 0xD9)
    (ck : Bool) (s : State) (fuel : Nat) (hf : d.length < fuel) :
    ∃ fuel', d'.length < fuel' ∧ markerLoop ck fuel s d = markerLoop ck fuel' s d' := by
  induction h generalizing fuel with
  | nil => exact ⟨fuel, hf, rfl⟩
  | @cons d m seg d' l rest hs ht ih =>
    cases fuel with
    | zero => omega
    | succ fuel =>
      have := segment_length hs
      obtain ⟨f, h1, h2⟩ := ih (fun p hp => hl p (by simp [hp])) fuel (by omega)
      obtain ⟨a1, a2, a3, a4, a5, a6, a7⟩ := hl (m, seg) (by simp)
      refine ⟨f, h1, ?_⟩
      rw [← h2, markerLoop, (C36_markers _ _ _ _).2 hs]
      show (if m = 0xC0 then _ else _) = _
      rw [if_neg a1, if_neg a2, if_neg a3, if_neg a4, if_neg a5, if_neg a6, if_neg a7]

/-- C36: a file may make the decoder panic: any file whose first segment of consequence is a scan header
with no component. -/
theorem C36_violation_family (body : List UInt8) (l : List (UInt8 × List UInt8)) (d seg rest : List UInt8)
    (h : Segments body l d) (hd : Segment d 0xDA (0 :: seg) rest)
    (hl : ∀ p ∈ l, p.1 ≠ 0xC0 ∧ p.1 ≠ 0xC2 ∧ p.1 ≠ 0xC4 ∧ p.1 ≠ 0xDB ∧ p.1 ≠ 0xDD ∧ p.1 ≠ 0xDA ∧ p.1 ≠ 0xD9) :
    decodeJpeg false (0xFF :: 0xD8 :: body) = .error .panic := by
  show markerLoop false (body.length + 1) {} body = _
  obtain ⟨f, h1, h2⟩ := markerLoop_skip h hl false {} (body.length + 1) (by omega)
  rw [h2]
  cases f with
  | zero => omega
  | succ f =>
    rw [markerLoop, (C36_markers _ _ _ _).2 hd]
    show (parseSos (0 :: seg) {} >>= fun s => decodeScan false s rest) = _
    have : parseSos (0 :: seg) {} = .ok {} := rfl
    rw [this]
    exact decodeScan_empty start_good rfl rest

/-- C36 fails: the shortest such file. -/
theorem C36_violation : ∃ data, decodeJpeg false data = .error .panic :=
  ⟨[0xFF, 0xD8, 0xFF, 0xDA, 0, 3, 0], C36_violation_family [0xFF, 0xDA, 0, 3, 0] [] _ [] [] (Segments.nil _)
    (Segment.params [] 1 0xDA 0 3 [0] [] (by decide) (by decide) (by decide) (by unfold Standalone; decide) (by decide)) (by simp)⟩

/-- Whether the result is a panic. -/
def isPanic {α : Type} : R α → Bool
  | .error .panic => true
  | _ => false

theorem eq_panic {α : Type} {x : R α} (h : isPanic x = true) : x = .error .panic := by
  match x, h with
  | .error .panic, _ => rfl

/-- A gray image of eight by eight whose first difference has 26 bits. -/
def category26 : List UInt8 :=
  [0xFF, 0xD8, 0xFF, 0xC0, 0, 11, 8, 0, 8, 0, 8, 1, 1, 0x11, 0,
   0xFF, 0xC4, 0, 20, 0, 1, 0, 0, 0, 0, 0, 0, 0, 0, 0, 0, 0, 0, 0, 0, 0, 26,
   0xFF, 0xDA, 0, 8, 1, 1, 0, 0, 63, 0, 0x55, 0x55, 0x55, 0x55, 0x55]

/-- C36 fails in builds with overflow checks for a file with a frame header: the reader asserts that no
more than 25 bits are asked for. -/
theorem C36_violation_checked : decodeJpeg true category26 = .error .panic ∧ ¬HeaderlessScan category26 ∧
    ∃ i, decodeJpeg false category26 = .ok i := by
  refine ⟨eq_panic (by decide +kernel), ?_, ?_⟩
  · rintro ⟨body, l, d, seg, rest, h1, h2, h3, h4⟩
    have h1 : body = category26.drop 2 := by rw [h1]; rfl
    have h0 : ∀ m sg r, Segment body m sg r → m = 0xC0 := by
      intro m sg r h
      have := (C36_markers _ _ _ _).2 h
      rw [h1] at this
      have hr : (readMarker (category26.drop 2)).toOption.map (·.1) = some 0xC0 := by decide +kernel
      rw [this] at hr
      exact Option.some.inj hr
    cases h2 with
    | nil => exact absurd (h0 _ _ _ h3) (by decide)
    | cons hs _ => exact (h4 _ List.mem_cons_self).1 (h0 _ _ _ hs)
  · have : (decodeJpeg false category26).toOption.isSome = true := by decide +kernel
    cases h : decodeJpeg false category26 with
    | ok i => exact ⟨i, rfl⟩
    | error e => rw [h] at this; cases this

/-- C36 in builds with overflow checks: they give what builds without give, or panic. -/
theorem C36_checked_partial (data : List UInt8) :
    decodeJpeg true data = decodeJpeg false data ∨ decodeJpeg true data = .error .panic :=
  decodeJpeg_orPanic data

/-- A file for which they give the same. -/
example : decodeJpeg true (category26.set 36 2) = decodeJpeg false (category26.set 36 2) ∧
    ∃ i, decodeJpeg true (category26.set 36 2) = .ok i := by
  have : (decodeJpeg true (category26.set 36 2)).toOption.isSome = true := by decide +kernel
  cases h : decodeJpeg true (category26.set 36 2) with
  | ok i =>
    refine ⟨?_, i, rfl⟩
    rcases C36_checked_partial (category26.set 36 2) with h' | h'
    · rw [← h', h]
    · rw [h] at h'; cases h'
  | error e => rw [h] at this; cases this

end Pixo.Props
