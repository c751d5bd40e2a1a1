import Verif.Proof.PngConvert
import Verif.Proof.InflateTotal
import Verif.Proof.DeflateTop
import Verif.Proof.Crc32
/-
`decode_png`: total on every byte string, correct on every non-interlaced PNG file.
-/
namespace Pixo.PngDecode
open Spec Spec.Png
open Pixo.Filter (getD_eq getChecked_getD)
open Pixo.MatchLength (slice)

/-! ### Totality -/

theorem readBe32_eq {data : List UInt8} {pos : Nat} (h : pos + 4 ≤ data.length) :
    ∃ v, readBe32 data pos = .ok v ∧ v < 2 ^ 32 := by
  unfold readBe32
  rw [getChecked_getD (by omega), ok_bind, getChecked_getD (by omega), ok_bind, getChecked_getD (by omega), ok_bind,
    getChecked_getD (by omega), ok_bind]
  refine ⟨_, rfl, ?_⟩
  have a := (data.getD pos 0).toNat_lt
  have b := (data.getD (pos + 1) 0).toNat_lt
  have c := (data.getD (pos + 2) 0).toNat_lt
  have d := (data.getD (pos + 3) 0).toNat_lt
  omega

theorem kind_safe (v : UInt8) : Safe (Kind.ofU8 v) (fun _ => True) := by
  unfold Kind.ofU8
  split
  · exact Safe.ok trivial
  split
  · exact Safe.ok trivial
  split
  · exact Safe.ok trivial
  split
  · exact Safe.ok trivial
  split
  · exact Safe.ok trivial
  · exact Safe.invalid

theorem parseIhdr_safe (d : List UInt8) : Safe (parseIhdr d) (fun _ => True) := by
  unfold parseIhdr
  split
  · exact Safe.invalid
  · rename_i h
    have h : d.length = 13 := by omega
    obtain ⟨w, ew, -⟩ := readBe32_eq (data := d) (pos := 0) (by omega)
    obtain ⟨hh, eh, -⟩ := readBe32_eq (data := d) (pos := 4) (by omega)
    rw [ew, ok_bind, eh, ok_bind, getChecked_getD (by omega), ok_bind, getChecked_getD (by omega), ok_bind]
    refine Safe.bind (kind_safe _) ?_
    intro k _
    rw [getChecked_getD (by omega), ok_bind, getChecked_getD (by omega), ok_bind, getChecked_getD (by omega), ok_bind]
    exact Safe.pure trivial

theorem add_safe (c : Chunks) (ty d : List UInt8) : Safe (c.add ty d) (fun _ => True) := by
  unfold Chunks.add
  split
  · exact Safe.bind (parseIhdr_safe d) (fun _ _ => Safe.pure trivial)
  split
  · unfold parsePalette
    refine Safe.bind (P := fun _ => True) ?_ (fun _ _ => Safe.pure trivial)
    split
    · exact Safe.invalid
    · rw [paletteLoop_ok _ _ (by omega)]; exact Safe.ok trivial
  split
  · exact Safe.ok trivial
  split
  · exact Safe.ok trivial
  · exact Safe.ok trivial

theorem chunkLoop_safe (data : List UInt8) : ∀ (fuel pos : Nat) (c : Chunks), 0 < fuel → data.length < fuel + pos →
    Safe (chunkLoop data fuel pos c) (fun _ => True)
  | 0, _, _, h0, _ => absurd h0 (by decide)
  | fuel + 1, pos, c, _, h => by
    rw [chunkLoop]
    split
    · rename_i hp
      obtain ⟨len, el, -⟩ := readBe32_eq (data := data) (pos := pos) (by omega)
      rw [el, ok_bind, (slice_safe (by omega)).1, ok_bind]
      simp only
      split
      · exact Safe.invalid
      · rename_i hl
        obtain ⟨crc, ec, -⟩ := readBe32_eq (data := data) (pos := pos + 8 + len) (by omega)
        rw [(slice_safe (by omega)).1, ok_bind, ec, ok_bind]
        split
        · exact Safe.invalid
        split
        · exact Safe.ok trivial
        · exact Safe.bind (add_safe _ _ _) (fun c _ => chunkLoop_safe data fuel _ c (by omega) (by omega))
    · exact Safe.invalid

/-- The header of an accepted IHDR, in the terms of the specification. -/
def headerOf (ih : Ihdr) : Header :=
  ⟨ih.width, ih.height, ih.depth,
    match ih.kind with
    | .gray => 0
    | .rgb => 2
    | .indexed => 3
    | .grayAlpha => 4
    | .rgba => 6⟩

theorem headerOf_matches (ih : Ihdr) : Matches ih (headerOf ih) := by
  refine ⟨rfl, rfl, rfl, ?_⟩
  unfold headerOf
  cases ih.kind <;> rfl

/-- What validation guarantees. -/
structure Valid (ih : Ihdr) : Prop where
  w0 : 0 < ih.width
  h0 : 0 < ih.height
  w : ih.width ≤ 2 ^ 24
  h : ih.height ≤ 2 ^ 24
  depth : validDepth ih = true

theorem Valid.ok {ih : Ihdr} (v : Valid ih) : (headerOf ih).Ok := by
  have hd := v.depth
  have h1 := v.w
  have h2 := v.h
  refine ⟨v.w0, ?_, v.h0, ?_, ?_⟩
  · show ih.width < _; omega
  · show ih.height < _; omega
  unfold validDepth at hd
  unfold headerOf
  cases hk : ih.kind <;> rw [hk] at hd <;> simp only [decide_eq_true_eq] at hd <;> simp only
  · exact Or.inl ⟨trivial, hd⟩
  · exact Or.inr (Or.inl ⟨trivial, hd⟩)
  · exact Or.inr (Or.inr (Or.inl ⟨trivial, hd⟩))
  · exact Or.inr (Or.inr (Or.inr (Or.inl ⟨trivial, hd⟩)))
  · exact Or.inr (Or.inr (Or.inr (Or.inr ⟨trivial, hd⟩)))

/-- Any buffer of the right size is made of rows. -/
theorem rowsOk_of_length {raw : List UInt8} {n sb : Nat} (h : raw.length = n * sb) :
    RowsOk raw (Filter.rowsOf raw sb n) sb ∧ (Filter.rowsOf raw sb n).length = n := by
  refine ⟨⟨(Filter.rowsOf_flatten h).symm, ?_⟩, by simp [Filter.rowsOf]⟩
  intro r hr
  unfold Filter.rowsOf at hr
  simp only [List.mem_map, List.mem_range'_1] at hr
  obtain ⟨k, hk, rfl⟩ := hr
  exact (Filter.slice_row h (by omega)).2

theorem expandRgba_length (p : List (UInt8 × UInt8 × UInt8)) (t : List UInt8) (i : UInt8) :
    (expandRgba p t i).length = 4 := by
  unfold expandRgba; split <;> rfl

theorem expandRgb_length (p : List (UInt8 × UInt8 × UInt8)) (i : UInt8) : (expandRgb p i).length = 3 := by
  unfold expandRgb; split <;> rfl

theorem convert_safe {ih : Ihdr} (v : Valid ih) {raw : List UInt8}
    (hl : raw.length = ih.height * (headerOf ih).rowBytes) (p : Option (List (UInt8 × UInt8 × UInt8)))
    (t : Option (List UInt8)) :
    Safe (convert ih raw p t) (fun px => px.length = ih.width * ih.height * (outputType ih t).bytesPerPixel) := by
  obtain ⟨hr, hrl⟩ := rowsOk_of_length hl
  have other : ih.kind ≠ .indexed →
      Safe (convert ih raw p t) (fun px => px.length = ih.width * ih.height * (outputType ih t).bytesPerPixel) := by
    intro hk
    have e1 : convert ih raw p t = convert ih raw ((none : Option (List UInt8)).map paletteOf) none := by
      unfold convert
      cases hk' : ih.kind <;> first | rfl | exact absurd hk' hk
    have e2 : outputType ih t = outputType ih none := by
      unfold outputType
      cases hk' : ih.kind <;> first | rfl | exact absurd hk' hk
    have hc : (headerOf ih).colour ≠ 3 := by
      unfold headerOf; cases hk' : ih.kind <;> first | exact absurd hk' hk | simp
    obtain ⟨px, e, hs⟩ := convert_ok (plte := none) (trns := none) (headerOf_matches ih) v.ok
      ⟨by simp, fun h => absurd h hc, fun h => absurd h hc⟩ hrl hr
    rw [e1, e2, e]
    exact Safe.ok hs.1
  by_cases hk : ih.kind = .indexed
  · unfold convert
    rw [hk]
    simp only
    cases p with
    | none => exact Safe.invalid
    | some p =>
      simp only
      have hd : ih.depth ∈ [1, 2, 4, 8] := by
        have := v.depth
        unfold validDepth at this
        rw [hk] at this
        simpa using this
      have hsb : (headerOf ih).rowBytes = ceil8 (ih.width * ih.depth) := by
        unfold Header.rowBytes headerOf; rw [hk]; simp [samples, ceil8]
      rw [hsb] at hr hl hrl
      obtain ⟨idx, e, il, -⟩ := unpackRows_get hd hr
      rw [hrl] at e il
      unfold convertIndexed unpackIndices outputType
      rw [e, ok_bind, hk]
      by_cases c : hasAlpha t
      · rw [if_pos c]
        simp only [if_pos c, ColorType.bytesPerPixel]
        refine Safe.pure ?_
        rw [flatMap_length _ (fun a _ => expandRgba_length _ _ a), il, Nat.mul_comm ih.height]
      · rw [if_neg c]
        simp only [if_neg c, ColorType.bytesPerPixel]
        refine Safe.pure ?_
        rw [flatMap_length _ (fun a _ => expandRgb_length _ a), il, Nat.mul_comm ih.height]
  · exact other hk

theorem reconstruct_safe {ih : Ihdr} (v : Valid ih) (data : List UInt8) (p : Option (List (UInt8 × UInt8 × UInt8)))
    (t : Option (List UInt8)) :
    Safe (reconstruct ih data p t) (fun px => px.length = ih.width * ih.height * (outputType ih t).bytesPerPixel) := by
  unfold reconstruct
  rw [layout_eq (headerOf_matches ih) v.ok]
  simp only
  split
  · exact Safe.invalid
  · rename_i hd
    refine Safe.bind (rowLoop_safe _ _ _ (by rw [Nat.zero_add]; omega) (by simp)) ?_
    intro raw hl
    exact convert_safe v hl p t

theorem expectedSize_ok {ih : Ihdr} (v : Valid ih) :
    expectedSize ih = .ok ((1 + (headerOf ih).rowBytes) * ih.height) := by
  unfold expectedSize
  rw [scanlineBytes_eq (headerOf_matches ih) v.ok]
  simp only
  rw [if_pos]
  have hb : 1 + (headerOf ih).rowBytes ≤ 2 ^ 32 := by
    have h1 := v.w
    unfold Header.rowBytes
    have hs : samples (headerOf ih).colour ≤ 4 := by unfold samples; split <;> omega
    have hd : (headerOf ih).depth ≤ 16 := by
      have := v.depth
      unfold validDepth at this
      show ih.depth ≤ 16
      cases hk : ih.kind <;> rw [hk] at this <;> simp at this <;> omega
    have : (headerOf ih).width * samples (headerOf ih).colour * (headerOf ih).depth ≤ 2 ^ 24 * 4 * 16 :=
      Nat.mul_le_mul (Nat.mul_le_mul h1 hs) hd
    omega
  have h2 := v.h
  calc _ ≤ 2 ^ 32 * 2 ^ 24 := Nat.mul_le_mul hb h2
    _ < 2 ^ 64 := by decide

/-- The errors of the decoder. -/
def DecodeErr (e : Err) : Prop :=
  e = .invalid ∨ e = .unsupported ∨ (∃ w h, e = .dimensions w h ∧ (w = 0 ∨ h = 0)) ∨
    ∃ w h, e = .tooLarge w h (2 ^ 24) ∧ (2 ^ 24 < w ∨ 2 ^ 24 < h)

theorem validate_cases (ih : Ihdr) : (validate ih = .ok () ∧ Valid ih ∧ ih.compression = 0 ∧ ih.filter = 0 ∧ ih.interlace = 0) ∨
    ∃ e, validate ih = .error e ∧ DecodeErr e := by
  unfold validate
  by_cases c1 : ih.width = 0 ∨ ih.height = 0
  · rw [if_pos c1]
    exact Or.inr ⟨_, rfl, Or.inr (Or.inr (Or.inl ⟨_, _, rfl, c1⟩))⟩
  rw [if_neg c1]
  by_cases c2 : ih.width > maxDimension ∨ ih.height > maxDimension
  · rw [if_pos c2]
    exact Or.inr ⟨_, rfl, Or.inr (Or.inr (Or.inr ⟨_, _, rfl, c2⟩))⟩
  rw [if_neg c2]
  by_cases c3 : ih.compression ≠ 0
  · rw [if_pos c3]; exact Or.inr ⟨_, rfl, Or.inl rfl⟩
  rw [if_neg c3]
  by_cases c4 : ih.filter ≠ 0
  · rw [if_pos c4]; exact Or.inr ⟨_, rfl, Or.inl rfl⟩
  rw [if_neg c4]
  by_cases c5 : ih.interlace ≠ 0
  · rw [if_pos c5]; exact Or.inr ⟨_, rfl, Or.inr (Or.inl rfl)⟩
  rw [if_neg c5]
  by_cases c6 : validDepth ih = true
  · rw [if_pos c6]
    unfold maxDimension at c2
    refine Or.inl ⟨rfl, ⟨by omega, by omega, by omega, by omega, c6⟩, ?_, ?_, ?_⟩
    · simpa using c3
    · simpa using c4
    · simpa using c5
  · rw [if_neg c6]; exact Or.inr ⟨_, rfl, Or.inl rfl⟩

/-- The size of the pixel buffer, and the limits on the dimensions. -/
def ImageOk (img : PngImage) : Prop :=
  img.pixels.length = img.width * img.height * img.colorType.bytesPerPixel ∧
  0 < img.width ∧ img.width ≤ 2 ^ 24 ∧ 0 < img.height ∧ img.height ≤ 2 ^ 24

theorem decodePng_total (adler : List UInt8 → Nat) (data : List UInt8) :
    (∃ img, decodePng adler data = .ok img ∧ ImageOk img) ∨
      ∃ e, decodePng adler data = .error e ∧ DecodeErr e := by
  have conv : ∀ {x : R PngImage}, Safe x ImageOk → (∃ img, x = .ok img ∧ ImageOk img) ∨ ∃ e, x = .error e ∧ DecodeErr e := by
    intro x h
    unfold Safe at h
    cases x with
    | ok a => exact Or.inl ⟨a, rfl, h⟩
    | error e => exact Or.inr ⟨e, rfl, h.elim Or.inl (fun h => Or.inr (Or.inl h))⟩
  unfold decodePng
  split
  · exact Or.inr ⟨_, rfl, Or.inl rfl⟩
  rcases hc : chunkLoop data (data.length + 1) 8 ⟨none, [], none, none⟩ with e | c
  · have := chunkLoop_safe data (data.length + 1) 8 ⟨none, [], none, none⟩ (by omega) (by omega)
    rw [hc] at this
    unfold Safe at this
    refine Or.inr ⟨e, rfl, ?_⟩
    rcases this with h | h
    · exact Or.inl h
    · exact Or.inr (Or.inl h)
  rw [ok_bind]
  unfold finish
  split
  · exact Or.inr ⟨_, rfl, Or.inl rfl⟩
  · rename_i ih _
    rcases validate_cases ih with ⟨ev, v, -⟩ | ⟨e, ev, he⟩
    · rw [ev, ok_bind]
      apply conv
      split
      · exact Safe.invalid
      rw [expectedSize_ok v, ok_bind]
      refine Safe.bind (Inflate.inflateZlib_safe adler c.idat _) ?_
      intro raw _
      refine Safe.bind (reconstruct_safe v raw _ _) ?_
      intro px hpx
      exact Safe.pure ⟨hpx, v.w0, v.w, v.h0, v.h⟩
    · rw [ev]; exact Or.inr ⟨e, rfl, he⟩

/-! ### Files -/

theorem getChecked_at (pre : List UInt8) (x : UInt8) (post : List UInt8) :
    getChecked (pre ++ x :: post) pre.length = .ok x := by
  unfold getChecked; simp

theorem getChecked_drop {data l : List UInt8} {pos : Nat} (h : data.drop pos = l) {i : Nat} (hi : i < l.length) :
    getChecked data (pos + i) = .ok (l.getD i 0) := by
  have : data[pos + i]? = l[i]? := by rw [← h, List.getElem?_drop]
  unfold getChecked
  rw [this, List.getElem?_eq_getElem hi, getD_eq _ _ hi]

theorem slice_drop {data pre l post : List UInt8} {pos : Nat} (h : data.drop pos = pre ++ l ++ post) {a : Nat}
    (ha : a = pos + pre.length) (hp : l ≠ [] ∨ pos + pre.length ≤ data.length) : slice data a l.length = .ok l := by
  subst ha
  have hd : data.drop (pos + pre.length) = l ++ post := by
    rw [← List.drop_drop, h, List.append_assoc, List.drop_left' rfl]
  have hl : data.length - (pos + pre.length) = l.length + post.length := by
    have := congrArg List.length hd
    simpa using this
  unfold slice
  rw [if_pos, hd]
  · simp
  · rcases hp with hp | hp
    · have := List.length_pos_iff.2 hp
      omega
    · omega

theorem readBe32_drop {data pre post : List UInt8} {n pos : Nat} (h : data.drop pos = pre ++ be32 n ++ post)
    (hn : n < 2 ^ 32) {a : Nat} (ha : a = pos + pre.length) : readBe32 data a = .ok n := by
  subst ha
  have hd : data.drop (pos + pre.length) = be32 n ++ post := by
    rw [← List.drop_drop, h, List.append_assoc, List.drop_left' rfl]
  unfold readBe32
  have h0 := getChecked_drop (i := 0) hd (by simp [be32])
  rw [Nat.add_zero] at h0
  rw [h0, ok_bind, getChecked_drop (i := 1) hd (by simp [be32]), ok_bind,
    getChecked_drop (i := 2) hd (by simp [be32]), ok_bind, getChecked_drop (i := 3) hd (by simp [be32]), ok_bind]
  simp only [be32, List.cons_append, List.getD_cons_zero, List.getD_cons_succ, UInt8.toNat_ofNat', Pure.pure, Except.pure]
  congr 1
  simp only [show (2 : Nat) ^ 8 = 256 from rfl]
  omega

theorem be32_length (n : Nat) : (be32 n).length = 4 := rfl

theorem chunk_length' {c : Chunk} (h : c.ty.length = 4) : c.bytes.length = 12 + c.data.length := by
  unfold Chunk.bytes
  simp only [List.length_append, be32_length, h]; omega

theorem chunk_length {c : Chunk} (h : c.Ok) : c.bytes.length = 12 + c.data.length := chunk_length' h.1

/-- One round of the chunk loop. -/
theorem chunkLoop_step' {data post : List UInt8} {c : Chunk} (hty : c.ty.length = 4) (hlen : c.data.length < 2 ^ 32)
    {pos : Nat} (h : data.drop pos = c.bytes ++ post) (fuel : Nat) (st : Chunks) :
    chunkLoop data (fuel + 1) pos st =
      if c.ty = tyIEND then .ok st
      else st.add c.ty c.data >>= fun st => chunkLoop data fuel (pos + c.bytes.length) st := by
  have hl := chunk_length' hty
  have hdl : data.length - pos = 12 + c.data.length + post.length := by
    have := congrArg List.length h
    rw [List.length_drop, List.length_append, hl] at this; exact this
  have f1 : data.drop pos = [] ++ be32 c.data.length ++ (c.ty ++ c.data ++ be32 (Spec.crc32 (c.ty ++ c.data)).toNat ++ post) := by
    rw [h]; simp [Chunk.bytes]
  have f2 : data.drop pos = be32 c.data.length ++ c.ty ++ (c.data ++ be32 (Spec.crc32 (c.ty ++ c.data)).toNat ++ post) := by
    rw [h]; simp [Chunk.bytes]
  have f3 : data.drop pos = (be32 c.data.length ++ c.ty) ++ c.data ++ (be32 (Spec.crc32 (c.ty ++ c.data)).toNat ++ post) := by
    rw [h]; simp [Chunk.bytes]
  have f4 : data.drop pos = (be32 c.data.length ++ c.ty ++ c.data) ++ be32 (Spec.crc32 (c.ty ++ c.data)).toNat ++ post := by
    rw [h]; simp [Chunk.bytes]
  have r1 : readBe32 data pos = .ok c.data.length := readBe32_drop f1 hlen (by simp)
  have r2 : slice data (pos + 4) 4 = .ok c.ty := by
    have := slice_drop f2 (a := pos + 4) rfl (Or.inr (by rw [be32_length]; omega))
    rwa [hty] at this
  have r3 : slice data (pos + 8) c.data.length = .ok c.data := by
    refine slice_drop f3 ?_ (Or.inr ?_)
    · rw [List.length_append, be32_length, hty]
    · rw [List.length_append, be32_length, hty]; omega
  have r4 : readBe32 data (pos + 8 + c.data.length) = .ok (Spec.crc32 (c.ty ++ c.data)).toNat := by
    refine readBe32_drop f4 (BitVec.isLt _) ?_
    rw [List.length_append, List.length_append, be32_length, hty]; omega
  rw [chunkLoop, if_pos (by omega), r1, ok_bind, r2, ok_bind]
  simp only
  rw [if_neg (by omega), r3, ok_bind, r4, ok_bind, Crc.crc32_spec, if_neg (by simp), hl,
    show pos + 8 + c.data.length + 4 = pos + (12 + c.data.length) by omega]

theorem chunkLoop_step {data post : List UInt8} {c : Chunk} (hc : c.Ok) {pos : Nat}
    (h : data.drop pos = c.bytes ++ post) (fuel : Nat) (st : Chunks) :
    chunkLoop data (fuel + 1) pos st =
      if c.ty = tyIEND then .ok st
      else st.add c.ty c.data >>= fun st => chunkLoop data fuel (pos + c.bytes.length) st :=
  chunkLoop_step' hc.1 (by have := hc.2; omega) h fuel st

/-- Effect of a chunk that is neither IHDR nor IEND on the state. -/
def addSpec (st : Chunks) (c : Chunk) : Chunks :=
  if c.ty = PLTE then { st with palette := some (paletteOf c.data) }
  else if c.ty = tRNS then { st with trns := some c.data }
  else if c.ty = IDAT then { st with idat := st.idat ++ c.data }
  else st

theorem add_spec {st : Chunks} {c : Chunk} (h1 : c.ty ≠ IHDR) (hp : c.ty = PLTE → c.data.length % 3 = 0) :
    st.add c.ty c.data = .ok (addSpec st c) := by
  unfold Chunks.add addSpec
  rw [if_neg (show c.ty ≠ tyIHDR from h1)]
  by_cases c1 : c.ty = PLTE
  · rw [if_pos (show c.ty = tyPLTE from c1), if_pos c1, parsePalette_ok (hp c1), ok_bind]; rfl
  rw [if_neg (show ¬ c.ty = tyPLTE from c1), if_neg c1]
  by_cases c2 : c.ty = tRNS
  · rw [if_pos (show c.ty = tyTRNS from c2), if_pos c2]
  rw [if_neg (show ¬ c.ty = tyTRNS from c2), if_neg c2]
  by_cases c3 : c.ty = IDAT
  · rw [if_pos (show c.ty = tyIDAT from c3), if_pos c3]
  rw [if_neg (show ¬ c.ty = tyIDAT from c3), if_neg c3]

theorem chunkLoop_ok {data tail : List UInt8} : ∀ (cs : List Chunk) (pos fuel : Nat) (st : Chunks),
    (∀ c ∈ cs, c.Ok ∧ c.ty ≠ IHDR ∧ c.ty ≠ IEND ∧ (c.ty = PLTE → c.data.length % 3 = 0)) →
    data.drop pos = stream (cs ++ [⟨IEND, []⟩]) ++ tail → data.length < fuel + pos →
    chunkLoop data fuel pos st = .ok (cs.foldl addSpec st)
  | [], pos, fuel, st, _, h, hf => by
    have h' : data.drop pos = (⟨IEND, []⟩ : Chunk).bytes ++ tail := by rw [h]; simp [stream]
    have ok : (⟨IEND, []⟩ : Chunk).Ok := ⟨rfl, by decide⟩
    obtain ⟨fuel, rfl⟩ : ∃ f, fuel = f + 1 := by
      have := congrArg List.length h'
      rw [List.length_drop, List.length_append, chunk_length ok] at this
      exact ⟨fuel - 1, by omega⟩
    rw [chunkLoop_step ok h', if_pos (by decide)]
    rfl
  | c :: cs, pos, fuel, st, hc, h, hf => by
    obtain ⟨ok, n1, n2, hp⟩ := hc c List.mem_cons_self
    have h' : data.drop pos = c.bytes ++ (stream (cs ++ [⟨IEND, []⟩]) ++ tail) := by
      rw [h]; simp [stream]
    have hl : data.length - pos = 12 + c.data.length + (stream (cs ++ [⟨IEND, []⟩]) ++ tail).length := by
      have := congrArg List.length h'
      rw [List.length_drop, List.length_append, chunk_length ok] at this
      exact this
    obtain ⟨fuel, rfl⟩ : ∃ f, fuel = f + 1 := ⟨fuel - 1, by omega⟩
    rw [chunkLoop_step ok h', if_neg (show c.ty ≠ tyIEND from n2), add_spec n1 hp, ok_bind, List.foldl_cons]
    refine chunkLoop_ok (tail := tail) cs _ fuel _ (fun d hd => hc d (List.mem_cons_of_mem _ hd)) ?_ ?_
    · rw [← List.drop_drop, h', List.drop_left' rfl]
    · rw [chunk_length ok]; omega

theorem foldl_addSpec : ∀ (cs : List Chunk) (st : Chunks),
    (cs.foldl addSpec st).ihdr = st.ihdr ∧
    (cs.foldl addSpec st).idat = st.idat ++ (dataOf IDAT cs).flatten ∧
    (cs.foldl addSpec st).palette = (match (dataOf PLTE cs).getLast? with
      | some d => some (paletteOf d)
      | none => st.palette) ∧
    (cs.foldl addSpec st).trns = (match (dataOf tRNS cs).getLast? with
      | some d => some d
      | none => st.trns)
  | [], st => by simp [dataOf]
  | c :: cs, st => by
    obtain ⟨h1, h2, h3, h4⟩ := foldl_addSpec cs (addSpec st c)
    rw [List.foldl_cons]
    have dcons : ∀ ty, dataOf ty (c :: cs) = if c.ty = ty then c.data :: dataOf ty cs else dataOf ty cs := by
      intro ty; unfold dataOf; rw [List.filter_cons]; split <;> simp_all
    refine ⟨?_, ?_, ?_, ?_⟩
    · rw [h1]; unfold addSpec; split <;> (try rfl); split <;> (try rfl); split <;> rfl
    · rw [h2, dcons]
      unfold addSpec
      by_cases c1 : c.ty = PLTE
      · rw [if_pos c1, if_neg (by rw [c1]; decide)]
      rw [if_neg c1]
      by_cases c2 : c.ty = tRNS
      · rw [if_pos c2, if_neg (by rw [c2]; decide)]
      rw [if_neg c2]
      by_cases c3 : c.ty = IDAT
      · rw [if_pos c3, if_pos c3]; simp
      · rw [if_neg c3, if_neg c3]
    · rw [h3, dcons]
      unfold addSpec
      by_cases c1 : c.ty = PLTE
      · rw [if_pos c1, if_pos c1]
        cases hh : dataOf PLTE cs with
        | nil => simp
        | cons a l => rw [List.getLast?_cons_cons]; cases hg : (a :: l).getLast? <;> simp at hg ⊢
      rw [if_neg c1, if_neg c1]
      by_cases c2 : c.ty = tRNS
      · rw [if_pos c2]
      rw [if_neg c2]
      by_cases c3 : c.ty = IDAT
      · rw [if_pos c3]
      · rw [if_neg c3]
    · rw [h4, dcons]
      unfold addSpec
      by_cases c2 : c.ty = tRNS
      · rw [if_pos c2, if_neg (by rw [c2]; decide), if_pos c2]
        cases hh : dataOf tRNS cs with
        | nil => simp
        | cons a l => rw [List.getLast?_cons_cons]; cases hg : (a :: l).getLast? <;> simp at hg ⊢
      rw [if_neg c2, if_neg c2]
      by_cases c1 : c.ty = PLTE
      · rw [if_pos c1]
      rw [if_neg c1]
      by_cases c3 : c.ty = IDAT
      · rw [if_pos c3]
      · rw [if_neg c3]

theorem parseIhdr_ok {h : Header} (ok : h.Ok) : ∃ ih, parseIhdr h.bytes = .ok ih ∧ Matches ih h ∧
    ih.compression = 0 ∧ ih.filter = 0 ∧ ih.interlace = 0 := by
  have hb : h.bytes.length = 13 := rfl
  obtain ⟨-, w, -, hh, dc⟩ := ok
  have e1 : readBe32 h.bytes 0 = .ok h.width :=
    readBe32_drop (data := h.bytes) (pre := []) (pos := 0) (post := be32 h.height ++ [UInt8.ofNat h.depth, UInt8.ofNat h.colour, 0, 0, 0])
      (by simp [Header.bytes]) (by omega) rfl
  have e2 : readBe32 h.bytes 4 = .ok h.height :=
    readBe32_drop (data := h.bytes) (pre := be32 h.width) (pos := 0) (post := [UInt8.ofNat h.depth, UInt8.ofNat h.colour, 0, 0, 0])
      (by simp [Header.bytes]) (by omega) rfl
  have hd : h.depth < 256 := by
    have : ∀ d ∈ [1, 2, 4, 8, 16], d < 256 := by decide
    have h2 : ∀ d ∈ [8, 16], d < 256 := by decide
    have h3 : ∀ d ∈ [1, 2, 4, 8], d < 256 := by decide
    rcases dc with ⟨-, d⟩ | ⟨-, d⟩ | ⟨-, d⟩ | ⟨-, d⟩ | ⟨-, d⟩
    · exact this _ d
    · exact h2 _ d
    · exact h3 _ d
    · exact h2 _ d
    · exact h2 _ d
  obtain ⟨k, hk⟩ : ∃ k, Kind.ofU8 (UInt8.ofNat h.colour) = .ok k := by
    rcases dc with ⟨c, d⟩ | ⟨c, d⟩ | ⟨c, d⟩ | ⟨c, d⟩ | ⟨c, d⟩ <;> rw [c] <;> exact ⟨_, rfl⟩
  refine ⟨⟨h.width, h.height, h.depth, k, 0, 0, 0⟩, ?_, ⟨rfl, rfl, rfl, hk⟩, rfl, rfl, rfl⟩
  unfold parseIhdr
  rw [if_neg (by omega), e1, ok_bind, e2, ok_bind]
  rw [show getChecked h.bytes 8 = .ok (UInt8.ofNat h.depth) from rfl, ok_bind,
    show getChecked h.bytes 9 = .ok (UInt8.ofNat h.colour) from rfl, ok_bind, hk, ok_bind,
    show getChecked h.bytes 10 = .ok 0 from rfl, ok_bind, show getChecked h.bytes 11 = .ok 0 from rfl, ok_bind,
    show getChecked h.bytes 12 = .ok 0 from rfl, ok_bind, uint8_small hd]
  rfl

theorem scanlines_length {bpp sb : Nat} {prev : List UInt8} {rows : List (List UInt8)} {bytes : List UInt8}
    (h : Scanlines bpp sb prev rows bytes) : bytes.length = rows.length * (1 + sb) ∧ ∀ r ∈ rows, r.length = sb := by
  induction h with
  | nil => simp
  | @cons prev raw ft filt rows bytes hn hf _ ih =>
    constructor
    · rw [List.length_append, List.length_cons, hf.2.1, hn, ih.1, List.length_cons, Nat.succ_mul]; omega
    · intro r hr
      rcases List.mem_cons.1 hr with rfl | hr
      · exact hn
      · exact ih.2 r hr

/-- Every file within the size limit is decoded to the colours of its scanlines; bytes after
IEND are ignored. -/
theorem decodePng_ok {sum : List UInt8 → Nat} {h : Header} {plte trns : Option (List UInt8)}
    {rows : List (List UInt8)} {bytes : List UInt8} (hf : File sum h plte trns rows bytes) (tail : List UInt8)
    (hw : h.width ≤ 2 ^ 24) (hh : h.height ≤ 2 ^ 24) :
    ∃ img, decodePng sum (bytes ++ tail) = .ok img ∧ img.width = h.width ∧ img.height = h.height ∧
      Shows h (plte.getD []) (trns.getD []) rows img.colorType.bytesPerPixel img.pixels ∧
      ∃ ih, Matches ih h ∧ img.colorType = outputType ih trns := by
  obtain ⟨ok, pok, hrows, cs, scan, hcs, rfl, hplte, htrns, hz, hscan⟩ := hf
  obtain ⟨ih, ep, m, i1, i2, i3⟩ := parseIhdr_ok ok
  have hok : (⟨IHDR, h.bytes⟩ : Chunk).Ok := ⟨rfl, by show (13 : Nat) < _; decide⟩
  generalize hd : Png.signature ++ stream (⟨IHDR, h.bytes⟩ :: cs ++ [⟨IEND, []⟩]) ++ tail = data
  have hd8 : data.drop 8 = (⟨IHDR, h.bytes⟩ : Chunk).bytes ++ (stream (cs ++ [⟨IEND, []⟩]) ++ tail) := by
    rw [← hd, List.append_assoc, List.drop_left' (l₁ := Png.signature) (i := 8) rfl]; simp [stream]
  have hlen : data.length = 8 + (25 + (stream (cs ++ [⟨IEND, []⟩]) ++ tail).length) := by
    rw [← hd, List.append_assoc, List.length_append]
    have : (stream (⟨IHDR, h.bytes⟩ :: cs ++ [⟨IEND, []⟩]) ++ tail)
        = (⟨IHDR, h.bytes⟩ : Chunk).bytes ++ (stream (cs ++ [⟨IEND, []⟩]) ++ tail) := by simp [stream]
    rw [this, List.length_append, chunk_length hok]; rfl
  have hsig : data.take 8 = signature := by rw [← hd, List.append_assoc, List.take_left' (l₁ := Png.signature) (i := 8) rfl]; rfl
  have hpl : ∀ c ∈ cs, c.ty = PLTE → c.data.length % 3 = 0 := by
    intro c hc ht
    have : c.data ∈ dataOf PLTE cs := by
      unfold dataOf
      exact List.mem_map.2 ⟨c, List.mem_filter.2 ⟨hc, by simpa using ht⟩, rfl⟩
    rw [hplte] at this
    cases plte with
    | none => simp at this
    | some p => rw [Option.toList_some, List.mem_singleton] at this; rw [this]; exact pok.whole p rfl
  unfold decodePng
  rw [if_neg (by rw [hsig]; simp; omega), chunkLoop_step hok hd8, if_neg (show ¬ IHDR = tyIEND by decide)]
  have ea : (⟨none, [], none, none⟩ : Chunks).add IHDR h.bytes = .ok ⟨some ih, [], none, none⟩ := by
    unfold Chunks.add; rw [if_pos (by decide), ep, ok_bind]; rfl
  simp only
  rw [ea, ok_bind, chunkLoop_ok (tail := tail) cs _ _ _ (fun c hc => ⟨(hcs c hc).1, (hcs c hc).2.1, (hcs c hc).2.2, hpl c hc⟩)
    (by rw [← List.drop_drop, hd8, List.drop_left' rfl]) (by rw [chunk_length hok]; omega), ok_bind]
  obtain ⟨f1, f2, f3, f4⟩ := foldl_addSpec cs ⟨some ih, [], none, none⟩
  have g3 : (cs.foldl addSpec ⟨some ih, [], none, none⟩).palette = plte.map paletteOf := by
    rw [f3, hplte]; cases plte <;> rfl
  have g4 : (cs.foldl addSpec ⟨some ih, [], none, none⟩).trns = trns := by
    rw [f4, htrns]; cases trns <;> rfl
  have g2 : (cs.foldl addSpec ⟨some ih, [], none, none⟩).idat = (dataOf IDAT cs).flatten := by
    rw [f2]; simp
  have hidat : (dataOf IDAT cs).flatten ≠ [] := by
    obtain ⟨cmf, flg, body, tr, e, -⟩ := hz
    rw [e]; simp
  have v : Valid ih := by
    refine ⟨by rw [m.width]; exact ok.1, by rw [m.height]; exact ok.2.2.1, by rw [m.width]; exact hw,
      by rw [m.height]; exact hh, ?_⟩
    unfold validDepth
    rw [m.depth]
    rcases m.kinds ok with ⟨c, k, d⟩ | ⟨c, k, d⟩ | ⟨c, k, d⟩ | ⟨c, k, d⟩ | ⟨c, k, d⟩ <;> rw [k] <;> simpa using d
  have ev : validate ih = .ok () := by
    rcases validate_cases ih with ⟨e, -⟩ | ⟨e, ee, he⟩
    · exact e
    · exfalso
      unfold validate at ee
      have h1 := v.w0; have h2 := v.h0; have h3 := v.w; have h4 := v.h
      rw [if_neg (by omega), if_neg (by unfold maxDimension; omega), if_neg (by simp [i1]), if_neg (by simp [i2]),
        if_neg (by simp [i3]), if_pos v.depth] at ee
      cases ee
  have hsl := scanlines_length hscan
  have es : expectedSize ih = .ok scan.length := by
    unfold expectedSize
    have := expectedSize_ok v
    unfold expectedSize at this
    simp only at this ⊢
    split at this
    · rename_i c
      rw [if_pos c, scanlineBytes_eq m ok, hsl.1, hrows, m.height, Nat.mul_comm]
    · cases this
  have hbpp : 0 < h.bpp := by
    have := layout_eq m ok
    unfold Header.bpp
    have hs : 0 < samples h.colour := by unfold samples; split <;> decide
    have hd0 : 0 < h.depth := by
      rcases m.kinds ok with ⟨c, k, d⟩ | ⟨c, k, d⟩ | ⟨c, k, d⟩ | ⟨c, k, d⟩ | ⟨c, k, d⟩ <;> simp at d <;> omega
    have := Nat.mul_pos hs hd0
    omega
  obtain ⟨px, epx, hpx⟩ := convert_ok (trns := trns) m ok pok hrows (raw := rows.flatten) ⟨rfl, hsl.2⟩
  have er : reconstruct ih scan (plte.map paletteOf) trns = .ok px := by
    unfold reconstruct
    rw [layout_eq m ok]
    simp only
    rw [if_neg (by rw [hsl.1, hrows, m.height]; omega), m.height, ← hrows,
      rowLoop_ok hbpp hscan 0 (by simp) (by simp), ok_bind, epx]
  unfold finish
  rw [f1]
  simp only
  rw [ev, ok_bind, g2, if_neg hidat, es, ok_bind, Deflate.inflateZlib_spec hz (some scan.length) (by simp), ok_bind,
    g3, g4, er, ok_bind]
  exact ⟨_, rfl, m.width, m.height, hpx, ih, m, rfl⟩

/-! ### Reserved memory -/

theorem inflate_reserve_some {data : List UInt8} {e n : Nat} (h : Inflate.reserve data (some e) = some n) : n = e := by
  unfold Inflate.reserve at h
  split at h
  · split at h
    · cases h
    · split at h
      · cases h
      · split at h
        · cases h
        · split at h
          · cases h
          · simpa using h.symm
  · cases h

theorem reserve_le {data : List UInt8} {n : Nat} (h : reserve data = some n) : n ≤ 2 ^ 52 := by
  unfold reserve at h
  split at h
  · cases h
  split at h
  · rename_i ih idat p t _
    split at h
    · rename_i size hv hs
      rw [inflate_reserve_some h]
      rcases validate_cases ih with ⟨-, v, -⟩ | ⟨e, he, -⟩
      · have hb : scanlineBytes ih ≤ ih.width * 8 + 1 := by
          have := v.depth
          unfold validDepth at this
          unfold scanlineBytes ceil8
          split <;> rename_i hk <;> rw [hk] at this <;> simp at this
          all_goals first
            | (rcases this with h | h | h | h | h <;> rw [h] <;> omega)
            | (rcases this with h | h | h | h <;> rw [h] <;> omega)
            | (rcases this with h | h <;> rw [h] <;> omega)
        have hw := v.w
        have hh := v.h
        unfold expectedSize at hs
        simp only at hs
        split at hs
        · cases hs
          calc (1 + scanlineBytes ih) * ih.height ≤ (2 ^ 28) * 2 ^ 24 := Nat.mul_le_mul (by omega) hh
            _ = 2 ^ 52 := by decide
        · cases hs
      · rw [hv] at he; cases he
    · cases h
  · cases h

end Pixo.PngDecode
