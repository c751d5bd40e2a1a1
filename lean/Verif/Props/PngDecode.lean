import Verif.Proof.PngDecode
import Verif.Proof.FilterRows
import Verif.Props.Checksums
/-
C12 (filters are inverted by the decoder), C16 (the decoder is total), C25 (parallel filtering),
C40 (accelerated filters), C47 (the decoder reads every non-interlaced file), C48 (memory the
decoder asks for).
-/
namespace Pixo.Props
open Spec Spec.Png
open Pixo.Filter (Strategy Schedule)

/-! ## C12 -/

/-- Every row task runs, in any order. -/
def FairSchedule (sched : Schedule) (height : Nat) : Prop :=
  ∀ order, sched = some order → ∀ y, y ∈ order ↔ y < height

/-- C12: for every strategy, instruction set and schedule the filtered image unfilters to the
original bytes. `rowBytes` may be any number of bytes that holds at least one pixel. -/
theorem C12_filter_roundtrip (lv : Simd.Level) (sched : Schedule) (data : List UInt8)
    (width height rowBytes bpp : Nat) (st : Strategy) (hb : 0 < bpp) (hr : bpp ≤ rowBytes)
    (hd : data.length = height * rowBytes) (hs : FairSchedule sched height) :
    ∃ out, Filter.applyFilters lv sched data width height rowBytes bpp st = .ok out ∧
      out.length = height * (1 + rowBytes) ∧
      PngDecode.rowLoop out bpp rowBytes 0 height (List.replicate rowBytes 0) = .ok data := by
  obtain ⟨out, e, h⟩ := (Filter.applyFilters_ok lv sched width hr hd st hs).out
  have hl : (Filter.rowsOf data rowBytes height).length = height := by simp [Filter.rowsOf]
  have hlen := (PngDecode.scanlines_length h).1
  rw [hl] at hlen
  refine ⟨out, e, hlen, ?_⟩
  have := PngDecode.rowLoop_ok (data := out) hb h 0 (by simp) (by simp)
  rw [hl, Filter.rowsOf_flatten hd] at this
  exact this

/-- C12, the format: the filtered image consists of one filter byte and `rowBytes` bytes per row,
related to the image as the PNG specification demands. -/
theorem C12_filter_format (lv : Simd.Level) (sched : Schedule) (data : List UInt8)
    (width height rowBytes bpp : Nat) (st : Strategy) (hr : bpp ≤ rowBytes)
    (hd : data.length = height * rowBytes) (hs : FairSchedule sched height) :
    ∃ out rows, Filter.applyFilters lv sched data width height rowBytes bpp st = .ok out ∧
      rows.flatten = data ∧ rows.length = height ∧
      Scanlines bpp rowBytes (List.replicate rowBytes 0) rows out := by
  obtain ⟨out, e, h⟩ := (Filter.applyFilters_ok lv sched width hr hd st hs).out
  exact ⟨out, _, e, Filter.rowsOf_flatten hd, by simp [Filter.rowsOf], h⟩

/-- The unfilter loop inverts every valid sequence of scanlines, whoever filtered them. -/
theorem C12_unfilter (bpp n : Nat) (hb : 0 < bpp) (rows : List (List UInt8)) (bytes : List UInt8)
    (h : Scanlines bpp n (List.replicate n 0) rows bytes) :
    PngDecode.rowLoop bytes bpp n 0 rows.length (List.replicate n 0) = .ok rows.flatten :=
  PngDecode.rowLoop_ok hb h 0 (by simp) (by simp)

example : FairSchedule (some [2, 0, 1]) 3 := by
  intro order h y
  cases h
  simp; omega

/-- Two RGB rows of two pixels with the Paeth filter. -/
example : Filter.applyFilters .neon none [1, 2, 3, 4, 5, 6, 9, 8, 7, 6, 5, 4] 2 2 6 3 .paeth
      = .ok [4, 1, 2, 3, 3, 3, 3, 4, 8, 6, 4, 253, 253, 253] ∧
    PngDecode.rowLoop [4, 1, 2, 3, 3, 3, 3, 4, 8, 6, 4, 253, 253, 253] 3 6 0 2 (List.replicate 6 0)
      = .ok [1, 2, 3, 4, 5, 6, 9, 8, 7, 6, 5, 4] := by decide +kernel

/-! ## C16 -/

/-- The errors `decode_png` returns: `InvalidDecode`, `UnsupportedDecode`, `InvalidDimensions`,
`ImageTooLarge`. -/
def DecodeError : Err → Prop
  | .invalid => True
  | .unsupported => True
  | .dimensions _ _ => True
  | .tooLarge _ _ _ => True
  | _ => False

/-- C16: on every byte string `decode_png` terminates without a panic; it either reports an
error or yields an image whose buffer has exactly the right size. `adler` stands for the checksum
in use, whatever its result. -/
theorem C16_decoder_total (adler : List UInt8 → Nat) (data : List UInt8) :
    (∃ img, PngDecode.decodePng adler data = .ok img ∧
      img.pixels.length = img.width * img.height * img.colorType.bytesPerPixel ∧
      0 < img.width ∧ img.width ≤ 2 ^ 24 ∧ 0 < img.height ∧ img.height ≤ 2 ^ 24) ∨
    ∃ e, PngDecode.decodePng adler data = .error e ∧ DecodeError e := by
  rcases PngDecode.decodePng_total adler data with ⟨img, e, h⟩ | ⟨e, he, h⟩
  · exact Or.inl ⟨img, e, h⟩
  · refine Or.inr ⟨e, he, ?_⟩
    rcases h with rfl | rfl | ⟨_, _, rfl, _⟩ | ⟨_, _, rfl, _⟩ <;> trivial

/-- A gray image of two by two pixels in a stored block, the second row filtered with Sub. -/
def tinyPng : List UInt8 :=
  [137, 80, 78, 71, 13, 10, 26, 10, 0, 0, 0, 13, 73, 72, 68, 82, 0, 0, 0, 2, 0, 0, 0, 2, 8, 0, 0, 0, 0, 87, 221, 82,
   248, 0, 0, 0, 17, 73, 68, 65, 84, 120, 1, 1, 6, 0, 249, 255, 0, 10, 200, 1, 7, 9, 3, 114, 0, 228, 183, 246, 163,
   14, 0, 0, 0, 0, 73, 69, 78, 68, 174, 66, 96, 130]

example : PngDecode.decodePng Spec.adler32 tinyPng = .ok ⟨2, 2, [10, 200, 7, 16], .gray⟩ := by
  decide +kernel

/-- A damaged byte is noticed. -/
example : PngDecode.decodePng Spec.adler32 (tinyPng.set 50 11) = .error .invalid := by
  decide +kernel

/-! ## C25, filtering -/

/-- C25, partial: with every strategy but `AdaptiveFast` the output does not depend on the
schedule. Missing: `AdaptiveFast`, where the property fails (`C25_violation`). -/
theorem C25_filter_partial (lv : Simd.Level) (sched : Schedule) (data : List UInt8)
    (width height rowBytes bpp : Nat) (st : Strategy) (hr : bpp ≤ rowBytes)
    (hd : data.length = height * rowBytes) (hs : FairSchedule sched height) (hst : st ≠ .adaptiveFast) :
    Filter.applyFilters lv sched data width height rowBytes bpp st
      = Filter.applyFilters lv none data width height rowBytes bpp st :=
  Filter.applyFilters_par lv sched width hr hd hs hst

/-- C25: with every strategy, also `AdaptiveFast`, two schedules give the same output. -/
theorem C25_schedules (lv : Simd.Level) (order order' : List Nat) (data : List UInt8)
    (width height rowBytes bpp : Nat) (st : Strategy) (hr : bpp ≤ rowBytes)
    (hd : data.length = height * rowBytes) (hs : FairSchedule (some order) height)
    (hs' : FairSchedule (some order') height) :
    Filter.applyFilters lv (some order) data width height rowBytes bpp st
      = Filter.applyFilters lv (some order') data width height rowBytes bpp st :=
  Filter.applyFilters_sched lv order order' width hr hd st (hs order rfl) (hs' order' rfl)

/-- A black row above 32 gray ones, of 125 pixels. -/
def fastWitness : List UInt8 := List.replicate 125 0 ++ List.replicate 4000 50

/-- The byte at `i` of a result. -/
def byteOf (r : R (List UInt8)) (i : Nat) : Option UInt8 :=
  match r with
  | .ok l => l[i]?
  | .error _ => none

theorem fastWitness_par : byteOf (Filter.applyFilters .scalar (some (List.range 33)) fastWitness 125 33 125 1
    .adaptiveFast) 252 = some 2 := by decide +kernel

theorem fastWitness_seq : byteOf (Filter.applyFilters .scalar none fastWitness 125 33 125 1 .adaptiveFast) 252
    = some 1 := by decide +kernel

/-- C25 fails for `AdaptiveFast`: the sequential loop repeats the filter of the row before, the
parallel one chooses for every row. -/
theorem C25_violation : ∃ data : List UInt8, data.length = 33 * 125 ∧
    Filter.applyFilters .scalar (some (List.range 33)) data 125 33 125 1 .adaptiveFast
      ≠ Filter.applyFilters .scalar none data 125 33 125 1 .adaptiveFast := by
  have h1 := fastWitness_par
  have h2 := fastWitness_seq
  have hl : fastWitness.length = 33 * 125 := by
    unfold fastWitness; rw [List.length_append, List.length_replicate, List.length_replicate]
  generalize fastWitness = w at h1 h2 hl
  refine ⟨w, hl, fun h => ?_⟩
  rw [h, h2] at h1
  exact absurd h1 (by decide)

/-! ## C40, filters -/

/-- C40: on rows of at least one pixel every instruction set computes the filters of the PNG
specification; `prev` may be longer than the row. -/
theorem C40_filters (lv : Simd.Level) (row prev : List UInt8) (bpp : Nat) (hp : row.length ≤ prev.length)
    (hr : bpp ≤ row.length) :
    (∃ o, Filter.filterSub lv row bpp = .ok o ∧ Filtered bpp prev row 1 o) ∧
    (∃ o, Filter.filterUp lv row prev = .ok o ∧ Filtered bpp prev row 2 o) ∧
    (∃ o, Filter.filterAverage lv row prev bpp = .ok o ∧ Filtered bpp prev row 3 o) ∧
    (∃ o, Filter.filterPaeth lv row prev bpp = .ok o ∧ Filtered bpp prev row 4 o) :=
  ⟨⟨_, Filter.filterSub_ok lv prev hr, Filter.refRow_filtered (by decide) row prev bpp⟩,
   ⟨_, Filter.filterUp_ok lv bpp hp, Filter.refRow_filtered (by decide) row prev bpp⟩,
   ⟨_, Filter.filterAverage_ok lv bpp hp, Filter.refRow_filtered (by decide) row prev bpp⟩,
   ⟨_, Filter.filterPaeth_ok lv bpp hp, Filter.refRow_filtered (by decide) row prev bpp⟩⟩

/-- C40: the instruction sets agree. -/
theorem C40_filters_agree (lv lv' : Simd.Level) (row prev : List UInt8) (bpp : Nat)
    (hp : row.length ≤ prev.length) (hr : bpp ≤ row.length) :
    Filter.filterSub lv row bpp = Filter.filterSub lv' row bpp ∧
    Filter.filterUp lv row prev = Filter.filterUp lv' row prev ∧
    Filter.filterAverage lv row prev bpp = Filter.filterAverage lv' row prev bpp ∧
    Filter.filterPaeth lv row prev bpp = Filter.filterPaeth lv' row prev bpp := by
  refine ⟨?_, ?_, ?_, ?_⟩
  · rw [Filter.filterSub_ok lv prev hr, Filter.filterSub_ok lv' prev hr]
  · rw [Filter.filterUp_ok lv bpp hp, Filter.filterUp_ok lv' bpp hp]
  · rw [Filter.filterAverage_ok lv bpp hp, Filter.filterAverage_ok lv' bpp hp]
  · rw [Filter.filterPaeth_ok lv bpp hp, Filter.filterPaeth_ok lv' bpp hp]

/-- C40: up, average and Paeth agree on rows of any length; so does sub, except on SSE2. -/
theorem C40_filters_any_length (lv lv' : Simd.Level) (row prev : List UInt8) (bpp : Nat)
    (hp : row.length ≤ prev.length) :
    Filter.filterUp lv row prev = Filter.filterUp lv' row prev ∧
    Filter.filterAverage lv row prev bpp = Filter.filterAverage lv' row prev bpp ∧
    Filter.filterPaeth lv row prev bpp = Filter.filterPaeth lv' row prev bpp ∧
    Filter.filterSub .avx2 row bpp = Filter.filterSub .scalar row bpp ∧
    Filter.filterSub .neon row bpp = Filter.filterSub .scalar row bpp := by
  refine ⟨?_, ?_, ?_, ?_, ?_⟩
  · rw [Filter.filterUp_ok lv bpp hp, Filter.filterUp_ok lv' bpp hp]
  · rw [Filter.filterAverage_ok lv bpp hp, Filter.filterAverage_ok lv' bpp hp]
  · rw [Filter.filterPaeth_ok lv bpp hp, Filter.filterPaeth_ok lv' bpp hp]
  · show Filter.subWide 32 row bpp = Filter.subScalar row bpp
    rw [Filter.subWide_ok (by decide) row prev bpp, Filter.subScalar_ok row prev bpp]
  · show Filter.subWide 16 row bpp = Filter.subScalar row bpp
    rw [Filter.subWide_ok (by decide) row prev bpp, Filter.subScalar_ok row prev bpp]

/-- C40 fails for sub on SSE2: it panics on a row shorter than a pixel. -/
theorem C40_sub_violation : ∃ (row : List UInt8) (bpp : Nat),
    Filter.filterSub .sse2 row bpp = .error .panic ∧ Filter.filterSub .scalar row bpp = .ok row :=
  ⟨[7], 3, by decide, by decide⟩

/-- C40: the SSE2 and AVX2 Paeth filters that the dispatcher does not use are right too. -/
theorem C40_paeth_unused (row prev : List UInt8) (bpp : Nat) (hp : row.length ≤ prev.length) :
    Filter.paethWide 16 Filter.paethX86 (Filter.paethFirstX86 row prev) row prev bpp
      = Filter.paethScalar row prev bpp ∧
    Filter.paethWide 32 Filter.paethX86 (Filter.paethFirstX86 row prev) row prev bpp
      = Filter.paethScalar row prev bpp := by
  rw [Filter.paethScalar_ok bpp hp]
  exact ⟨Filter.paethWide_ok (by decide) (fun _ _ _ => Filter.paethX86_eq (m := 8) (by decide)) hp
      (fun i h hb => Filter.paethFirstX86_ok h hb hp),
    Filter.paethWide_ok (by decide) (fun _ _ _ => Filter.paethX86_eq (m := 16) (by decide)) hp
      (fun i h hb => Filter.paethFirstX86_ok h hb hp)⟩

/-- C40: every instruction set computes the sum of the magnitudes of the bytes read as signed. -/
theorem C40_score (lv : Simd.Level) (l : List UInt8) :
    Filter.scoreFilter lv l = (l.map fun b => (BitVec.ofNat 8 b.toNat).toInt.natAbs).sum := by
  rw [Filter.scoreFilter_eq]
  unfold Filter.scoreScalar
  congr 1
  apply List.map_congr_left
  intro b _
  have : ∀ k : Fin 256, Filter.absI8 (UInt8.ofNat k.val) = (BitVec.ofNat 8 (UInt8.ofNat k.val).toNat).toInt.natAbs := by
    decide +kernel
  have h := this ⟨b.toNat, b.toNat_lt⟩
  simpa using h

/-- C40: whole images come out the same on every CPU. -/
theorem C40_apply_filters (lv lv' : Simd.Level) (sched : Schedule) (data : List UInt8)
    (width height rowBytes bpp : Nat) (st : Strategy) (hr : bpp ≤ rowBytes)
    (hd : data.length = height * rowBytes) (hs : FairSchedule sched height) :
    Filter.applyFilters lv sched data width height rowBytes bpp st
      = Filter.applyFilters lv' sched data width height rowBytes bpp st :=
  Filter.applyFilters_level lv lv' sched width hr hd st hs

example : Filter.filterSub .avx2 [200, 1, 2, 9, 255, 7] 3 = .ok [200, 1, 2, 65, 254, 5] ∧
    Filter.scoreFilter .sse2 [200, 1, 2, 65, 254, 5] = 56 + 1 + 2 + 65 + 2 + 5 := by decide +kernel

/-! ## C47 -/

/-- C47, partial: every non-interlaced PNG file within the size limit, whatever its filters, its
chunks and its zlib stream, and whatever follows it, is decoded to the colours that the PNG
specification assigns. Missing: files that use a transparent colour (`keyed`), where the
property fails (`C47_violation`), and interlaced files, which are refused. -/
theorem C47_decoder_correct_partial (sum : List UInt8 → Nat) (h : Header) (plte trns : Option (List UInt8))
    (rows : List (List UInt8)) (bytes tail : List UInt8) (hf : File sum h plte trns rows bytes)
    (hw : h.width ≤ 2 ^ 24) (hh : h.height ≤ 2 ^ 24)
    (hk : ∀ row ∈ rows, ∀ x, x < h.width → keyed h (trns.getD []) row x = false) :
    ∃ img, PngDecode.decodePng sum (bytes ++ tail) = .ok img ∧ img.width = h.width ∧ img.height = h.height ∧
      img.pixels.length = h.width * h.height * img.colorType.bytesPerPixel ∧
      ∀ y x (hy : y < rows.length), x < h.width →
        pixelOf img.colorType.bytesPerPixel img.pixels (y * h.width + x)
          = pixelKeyed h (plte.getD []) (trns.getD []) rows[y] x := by
  obtain ⟨img, e, w, ht, sh, -⟩ := PngDecode.decodePng_ok hf tail hw hh
  refine ⟨img, e, w, ht, sh.1, fun y x hy hx => ?_⟩
  unfold pixelKeyed
  rw [hk _ (List.getElem_mem _) x hx]
  exact sh.2 y x hy hx

/-- C47, in full for files without tRNS and for the colour types where tRNS means something else:
the condition on `keyed` holds by itself. -/
theorem C47_no_key (h : Header) (trns : Option (List UInt8)) (row : List UInt8) (x : Nat)
    (ht : trns = none ∨ h.colour = 3 ∨ h.colour = 4 ∨ h.colour = 6) : keyed h (trns.getD []) row x = false := by
  unfold keyed
  rcases ht with ht | ht | ht | ht <;> split <;> simp_all

/-- Rows stored without compression. -/
def storedScan : List UInt8 := [0, 10, 200, 0, 7, 9]

theorem storedScan_zlib : Rfc1950.ZlibWith Spec.adler32
    [120, 1, 1, 6, 0, 249, 255, 0, 10, 200, 0, 7, 9, 3, 111, 0, 227] storedScan := by
  have h1 : Rfc1951.Block true 1 _ _ := Rfc1951.Block.stored (List.replicate 5 false) storedScan (by decide)
    (by decide) (by decide)
  exact ⟨120, 1, [1, 6, 0, 249, 255, 0, 10, 200, 0, 7, 9], [3, 111, 0, 227], rfl, by decide, by decide, by decide,
    by decide, ⟨_, [], _, by decide +kernel, by decide, Rfc1951.Stream.last h1, by decide +kernel⟩, rfl,
    by decide +kernel⟩

theorem storedScan_lines : Scanlines 1 2 [0, 0] [[10, 200], [7, 9]] storedScan :=
  .cons (ft := 0) (filt := [10, 200]) rfl ⟨by decide, rfl, by decide⟩
    (.cons (ft := 0) (filt := [7, 9]) rfl ⟨by decide, rfl, by decide⟩ (.nil _))

/-- A gray image of two by two pixels, in which 200 is declared transparent. -/
def keyPng : List UInt8 :=
  [137, 80, 78, 71, 13, 10, 26, 10, 0, 0, 0, 13, 73, 72, 68, 82, 0, 0, 0, 2, 0, 0, 0, 2, 8, 0, 0, 0, 0, 87, 221, 82,
   248, 0, 0, 0, 2, 116, 82, 78, 83, 0, 200, 227, 44, 135, 186, 0, 0, 0, 17, 73, 68, 65, 84, 120, 1, 1, 6, 0, 249,
   255, 0, 10, 200, 0, 7, 9, 3, 111, 0, 227, 155, 27, 13, 58, 0, 0, 0, 0, 73, 69, 78, 68, 174, 66, 96, 130]

theorem keyPng_file : File Spec.adler32 ⟨2, 2, 8, 0⟩ none (some [0, 200]) [[10, 200], [7, 9]] keyPng := by
  refine ⟨by unfold Header.Ok; decide, ⟨fun _ h => (nomatch h), by decide, by decide⟩, rfl,
    [⟨tRNS, [0, 200]⟩, ⟨IDAT, [120, 1, 1, 6, 0, 249, 255, 0, 10, 200, 0, 7, 9, 3, 111, 0, 227]⟩], storedScan,
    ?_, by decide +kernel, by decide, by decide, ?_, storedScan_lines⟩
  · intro c hc
    simp only [List.mem_cons, List.not_mem_nil, or_false] at hc
    rcases hc with rfl | rfl <;> exact ⟨⟨rfl, by decide⟩, by decide, by decide⟩
  · exact storedScan_zlib

/-- With another transparent colour the hypothesis of `C47_decoder_correct_partial` holds. -/
example : ∀ x, x < 2 → keyed ⟨2, 2, 8, 0⟩ [0, 201] [10, 200] x = false := by decide +kernel

/-- C47 fails for images with a transparent colour: the decoder ignores it. -/
theorem C47_violation : ∃ (h : Header) (trns : List UInt8) (rows : List (List UInt8)) (bytes : List UInt8),
    File Spec.adler32 h none (some trns) rows bytes ∧ h.width ≤ 2 ^ 24 ∧ h.height ≤ 2 ^ 24 ∧
    ∃ img, PngDecode.decodePng Spec.adler32 bytes = .ok img ∧
      pixelOf img.colorType.bytesPerPixel img.pixels 1 = ⟨200, 200, 200, 255⟩ ∧
      pixelKeyed h [] trns (rows.getD 0 []) 1 = ⟨200, 200, 200, 0⟩ :=
  ⟨⟨2, 2, 8, 0⟩, [0, 200], [[10, 200], [7, 9]], keyPng, keyPng_file, by decide, by decide,
    ⟨2, 2, [10, 200, 7, 9], .gray⟩, by decide +kernel, by decide, by decide +kernel⟩

/-! ## C48 -/

/-- C48, partial: the decoder reserves at most 2^52 bytes for the scanlines. Missing: a bound in
terms of the input, which does not exist (`C48_violation`). -/
theorem C48_reserve_partial (data : List UInt8) (n : Nat) (h : PngDecode.reserve data = some n) : n ≤ 2 ^ 52 :=
  PngDecode.reserve_le h

/-- C48 fails: a file of 63 bytes makes the decoder reserve more than 2^51 bytes, so the memory
asked for is not within a factor of 2^45 of the input. -/
theorem C48_violation : ∃ data : List UInt8, data.length = 63 ∧
    ∃ n, PngDecode.reserve data = some n ∧ n > 2 ^ 51 ∧ n > 2 ^ 45 * data.length :=
  ⟨[137, 80, 78, 71, 13, 10, 26, 10, 0, 0, 0, 13, 73, 72, 68, 82, 1, 0, 0, 0, 1, 0, 0, 0, 16, 6, 0, 0, 0, 161, 246,
    109, 151, 0, 0, 0, 6, 73, 68, 65, 84, 120, 1, 0, 0, 0, 0, 234, 231, 191, 220, 0, 0, 0, 0, 73, 69, 78, 68, 174,
    66, 96, 130], rfl, 2 ^ 24 * (1 + 2 ^ 27), by decide +kernel, by decide, by decide⟩

end Pixo.Props
