import Verif.Proof.PngSound
/-
C85: what `decode_png` accepts.
-/
namespace Pixo.Props
open Spec Spec.Png Pixo Pixo.PngDecode

/-- The converse of C47: only PNG files are decoded (with anything after IEND). It does not hold, see `C85_fails`. -/
def C85_full : Prop := ∀ (sum : List UInt8 → Nat) (data : List UInt8) (img : PngImage), decodePng sum data = .ok img →
  ∃ bytes tail h plte trns rows, data = bytes ++ tail ∧ Proper sum h plte trns rows bytes

/-- What `inflate` accepts, in the terms of RFC 1951 (C84). -/
def deflated (body out : List UInt8) : Prop := Rfc1951.BeginsWith false body out ∨ Rfc1951.Faulty body

/-- C85, for every byte string: what `decode_png` accepts is a sequence of chunks with right checksums up to IEND; the
last IHDR is a proper header; the IDAT chunks hold a zlib stream of exactly the scanlines of the image, with allowed
filter types; and the result is the picture they make. Missing: the order and number of the chunks, chunks that a
reader must not skip, the window size, the indices. -/
theorem C85_partial (sum : List UInt8 → Nat) (data : List UInt8) (img : PngImage) (h : decodePng sum data = .ok img) :
    ∃ cs fin tail hd plte trns rows, Framed data cs fin tail ∧ Lenient sum deflated hd plte trns rows cs ∧
      Picture hd (plte.getD []) (trns.getD []) rows img.width img.height img.colorType.bytesPerPixel img.pixels := by
  obtain ⟨cs, fin, tail, hd, plte, trns, rows, h1, h2, h3⟩ := decodePng_sound h
  obtain ⟨scan, ⟨cmf, flg, body, tr, z1, z2, z3, z4, z5, z6⟩, hs⟩ := h2.idat
  exact ⟨cs, fin, tail, hd, plte, trns, rows, h1, { h2 with
    idat := ⟨scan, ⟨cmf, flg, body, tr, z1, z2, z3, z4, Inflate.inflate_sound z5, z6⟩, hs⟩ }, h3⟩

/-- C85: `decode_png` accepts exactly the lenient files whose compressed data `inflate` accepts, and gives exactly the
picture. -/
theorem C85_exact (sum : List UInt8 → Nat) (data : List UInt8) (img : PngImage) :
    decodePng sum data = .ok img ↔
      ∃ cs fin tail hd plte trns rows, Framed data cs fin tail ∧
        Lenient sum (fun b d => Inflate.inflate b = .ok d) hd plte trns rows cs ∧
        Picture hd (plte.getD []) (trns.getD []) rows img.width img.height img.colorType.bytesPerPixel img.pixels := by
  constructor
  · exact decodePng_sound
  · rintro ⟨cs, fin, tail, hd, plte, trns, rows, h1, h2, h3⟩
    obtain ⟨img', e, h4⟩ := decodePng_complete h1 h2
    rw [e, Picture.unique h2.lines h4 h3]

/-- C85: every lenient file with an RFC 1951 stream is decoded to its picture. -/
theorem C85_complete (sum : List UInt8 → Nat) (data : List UInt8) (cs : List Chunk) (fin tail : List UInt8) (hd : Header)
    (plte trns : Option (List UInt8)) (rows : List (List UInt8)) (h1 : Framed data cs fin tail)
    (h2 : Lenient sum (Rfc1951.BeginsWith false) hd plte trns rows cs) :
    ∃ img, decodePng sum data = .ok img ∧
      Picture hd (plte.getD []) (trns.getD []) rows img.width img.height img.colorType.bytesPerPixel img.pixels := by
  obtain ⟨scan, ⟨cmf, flg, body, tr, z1, z2, z3, z4, z5, z6⟩, hs⟩ := h2.idat
  exact decodePng_complete h1 { h2 with
    idat := ⟨scan, ⟨cmf, flg, body, tr, z1, z2, z3, z4, Inflate.inflate_spec z5, z6⟩, hs⟩ }

/-- C85: the chunks are the only ones the byte string can be cut into. -/
theorem C85_unique (data : List UInt8) (cs ds : List Chunk) (fin fin' x y : List UInt8) (h : Framed data cs fin x)
    (g : Framed data ds fin' y) : cs = ds ∧ fin = fin' ∧ x = y := framed_unique h g

/-! ### Files that are accepted and should not be -/

/-- A gray image of one pixel: its header, and its scanline in a stored block. -/
def onePixel : Chunk := ⟨IHDR, [0, 0, 0, 1, 0, 0, 0, 1, 8, 0, 0, 0, 0]⟩
def otherSize : Chunk := ⟨IHDR, [0, 0, 0, 9, 0, 0, 0, 0, 77, 6, 1, 2, 3]⟩
def indexedPixel : Chunk := ⟨IHDR, [0, 0, 0, 1, 0, 0, 0, 1, 8, 3, 0, 0, 0]⟩
def pixelData : Chunk := ⟨IDAT, [0x78, 0x01, 0x01, 0x02, 0x00, 0xFD, 0xFF, 0x00, 0x07, 0x00, 0x09, 0x00, 0x08]⟩
def wideData : Chunk := ⟨IDAT, [0x88, 0x1C, 0x01, 0x02, 0x00, 0xFD, 0xFF, 0x00, 0x07, 0x00, 0x09, 0x00, 0x08]⟩
def data1 : Chunk := ⟨IDAT, [0x78, 0x01, 0x01, 0x02, 0x00]⟩
def data2 : Chunk := ⟨IDAT, [0xFD, 0xFF, 0x00, 0x07, 0x00, 0x09, 0x00, 0x08]⟩
def textChunk : Chunk := ⟨tEXt, [65, 0, 66]⟩
def oneColour : Chunk := ⟨PLTE, [10, 20, 30]⟩
/-- A critical chunk that no specification knows. -/
def unknown : Chunk := ⟨[81, 82, 83, 84], [1, 2, 3]⟩

def file (cs : List Chunk) (fin : List UInt8) : List UInt8 := Png.signature ++ stream (cs ++ [⟨IEND, fin⟩])

/-- Conditions on chunks that are easy to check. -/
def Plain (cs : List Chunk) : Bool := cs.all fun c => c.ty.length = 4 && c.ty ≠ IEND && c.data.length < 2 ^ 32

theorem framed_file {cs : List Chunk} (h : Plain cs = true) {fin : List UInt8} (hf : fin.length < 2 ^ 32) :
    Framed (file cs fin) cs fin [] := by
  unfold Plain at h
  simp only [List.all_eq_true, Bool.and_eq_true, decide_eq_true_eq] at h
  exact ⟨by simp [file], fun c hc => (h c hc).1, fun c hc => (h c hc).2, hf⟩

/-- What a proper file with these chunks would satisfy. -/
theorem proper_chunks {sum : List UInt8 → Nat} {cs : List Chunk} {fin : List UInt8} (hp : Plain cs = true)
    (hf : fin.length < 2 ^ 32) {bytes tail : List UInt8} {h : Header} {plte trns : Option (List UInt8)}
    {rows : List (List UInt8)} (e : file cs fin = bytes ++ tail) (g : Proper sum h plte trns rows bytes) :
    fin = [] ∧ ∃ ds scan, cs = ⟨IHDR, h.bytes⟩ :: ds ∧ (∀ c ∈ ds, c.ty ≠ IHDR) ∧ Orderly h ds ∧
      Rfc1950.ZlibWith sum (dataOf IDAT ds).flatten scan ∧ dataOf PLTE ds = plte.toList ∧
      Scanlines h.bpp h.rowBytes (List.replicate h.rowBytes 0) rows scan ∧
      (h.colour = 3 → ∀ row ∈ rows, ∀ x, x < h.width → 3 * sampleAt h.depth row x < (plte.getD []).length) := by
  obtain ⟨⟨ok, pok, hrows, ds, scan, c1, c2, c3, c4, c5, c6⟩, ⟨ds', d1, d2, d3⟩, hi⟩ := g
  have h13 : h.bytes.length = 13 := rfl
  have mk : ∀ l : List Chunk, (∀ c ∈ l, c.Ok ∧ c.ty ≠ IHDR ∧ c.ty ≠ IEND) →
      bytes = Png.signature ++ stream (⟨IHDR, h.bytes⟩ :: l ++ [⟨IEND, []⟩]) →
      Framed (file cs fin) (⟨IHDR, h.bytes⟩ :: l) [] tail := by
    intro l hl hb
    refine ⟨by rw [e, hb], ?_, ?_, by decide⟩
    · intro c hc
      rcases List.mem_cons.1 hc with rfl | hc
      · exact ⟨rfl, show IHDR ≠ IEND by decide⟩
      · exact ⟨(hl c hc).1.1, (hl c hc).2.2⟩
    · intro c hc
      rcases List.mem_cons.1 hc with rfl | hc
      · show h.bytes.length < _; omega
      · have := (hl c hc).1.2; omega
  obtain ⟨u1, u2, -⟩ := framed_unique (framed_file hp hf) (mk ds c1 c2)
  obtain ⟨w1, -, -⟩ := framed_unique (framed_file hp hf) (mk ds' d2 d1)
  have hds : ds = ds' := by rw [u1] at w1; simpa using w1
  subst hds
  exact ⟨u2, ds, scan, u1, fun c hc => (c1 c hc).2.1, d3, c5, c3, c6, hi⟩

/-- Accepted, but no PNG file. -/
def Misread (data : List UInt8) (img : PngImage) : Prop :=
  decodePng Spec.adler32 data = .ok img ∧
  ¬ ∃ bytes tail h plte trns rows, data = bytes ++ tail ∧ Proper Spec.adler32 h plte trns rows bytes

def sevenGray : PngImage := ⟨1, 1, [7], .gray⟩

theorem late_header : Misread (file [pixelData, onePixel] []) sevenGray := by
  refine ⟨by decide +kernel, ?_⟩
  rintro ⟨bytes, tail, h, plte, trns, rows, e, g⟩
  obtain ⟨-, ds, -, e, -⟩ := proper_chunks (by decide) (by decide) e g
  have : IDAT = IHDR := congrArg Chunk.ty (List.cons.inj e).1
  exact absurd this (by decide)

theorem two_headers : Misread (file [otherSize, onePixel, pixelData] []) sevenGray := by
  refine ⟨by decide +kernel, ?_⟩
  rintro ⟨bytes, tail, h, plte, trns, rows, e, g⟩
  obtain ⟨-, ds, -, e, n, -⟩ := proper_chunks (by decide) (by decide) e g
  obtain ⟨-, rfl⟩ := List.cons.inj e
  exact n onePixel List.mem_cons_self rfl

theorem end_with_data : Misread (file [onePixel, pixelData] [1, 2, 3]) sevenGray := by
  refine ⟨by decide +kernel, ?_⟩
  rintro ⟨bytes, tail, h, plte, trns, rows, e, g⟩
  obtain ⟨e, -⟩ := proper_chunks (by decide) (by decide) e g
  exact absurd e (by decide)

theorem unknown_critical : Misread (file [onePixel, unknown, pixelData] []) sevenGray := by
  refine ⟨by decide +kernel, ?_⟩
  rintro ⟨bytes, tail, h, plte, trns, rows, e, g⟩
  obtain ⟨-, ds, -, e, -, o, -⟩ := proper_chunks (by decide) (by decide) e g
  obtain ⟨-, rfl⟩ := List.cons.inj e
  have := o.known unknown List.mem_cons_self (by decide)
  exact absurd this (by decide)

theorem split_data : Misread (file [onePixel, data1, textChunk, data2] []) sevenGray := by
  refine ⟨by decide +kernel, ?_⟩
  rintro ⟨bytes, tail, h, plte, trns, rows, e, g⟩
  obtain ⟨-, ds, -, e, -, o, -⟩ := proper_chunks (by decide) (by decide) e g
  obtain ⟨-, rfl⟩ := List.cons.inj e
  obtain ⟨a, b, c, e, hb, ha, hc, -⟩ := o.order
  have d1 : data1.ty = IDAT := rfl
  have t1 : textChunk.ty ≠ IDAT := by decide
  have d2 : data2.ty = IDAT := rfl
  cases a with
  | cons x a =>
    simp only [List.cons_append, List.cons.injEq] at e
    exact ha x List.mem_cons_self (by rw [← e.1]; exact d1)
  | nil =>
    cases b with
    | nil =>
      simp only [List.nil_append] at e
      exact (hc data1 (by rw [← e]; simp)).1 d1
    | cons x b =>
      simp only [List.nil_append, List.cons_append, List.cons.injEq] at e
      cases b with
      | nil =>
        simp only [List.nil_append] at e
        exact (hc data2 (by rw [← e.2]; simp)).1 d2
      | cons y b =>
        simp only [List.cons_append, List.cons.injEq] at e
        exact t1 (by rw [e.2.1]; exact hb y (by simp))

theorem gray_palette : Misread (file [onePixel, pixelData, oneColour] []) sevenGray := by
  refine ⟨by decide +kernel, ?_⟩
  rintro ⟨bytes, tail, h, plte, trns, rows, e, g⟩
  obtain ⟨-, ds, -, e, -, o, -⟩ := proper_chunks (by decide) (by decide) e g
  obtain ⟨e1, rfl⟩ := List.cons.inj e
  have hb : h.bytes.getD 9 0 = 0 := by
    have := congrArg Chunk.data e1
    simp only at this
    rw [← this]
    rfl
  have n := o.entries [10, 20, 30] (by decide)
  obtain ⟨⟨ok, -⟩, -⟩ := g
  obtain ⟨-, -, -, -, ok⟩ := ok
  have hb' : UInt8.ofNat h.colour = 0 := hb
  rcases ok with ⟨c, -⟩ | ⟨c, -⟩ | ⟨c, -⟩ | ⟨c, -⟩ | ⟨c, -⟩
  · exact n.2.2.2.1 c
  all_goals rw [c] at hb'; exact absurd hb' (by decide)

theorem large_window : Misread (file [onePixel, wideData] []) sevenGray := by
  refine ⟨by decide +kernel, ?_⟩
  rintro ⟨bytes, tail, h, plte, trns, rows, e, g⟩
  obtain ⟨-, ds, scan, e, -, -, z, -⟩ := proper_chunks (by decide) (by decide) e g
  obtain ⟨-, rfl⟩ := List.cons.inj e
  obtain ⟨cmf, flg, body, tr, z1, -, z2, -⟩ := z
  have : (0x88 : UInt8) = cmf := (List.cons.inj z1).1
  rw [← this] at z2
  exact absurd z2 (by decide)

/-- The header of the indexed pixel. -/
theorem indexed_header {h : Header} (ok : h.Ok) (e : [0, 0, 0, 1, 0, 0, 0, 1, 8, 3, 0, 0, 0] = h.bytes) :
    h = ⟨1, 1, 8, 3⟩ := by
  obtain ⟨ih, ep, m, -⟩ := parseIhdr_ok ok
  rw [← e] at ep
  cases ep
  obtain ⟨m1, m2, m3, m4⟩ := m
  have k := Matches.kinds ⟨m1, m2, m3, m4⟩ ok
  obtain ⟨w, ht, d, c⟩ := h
  simp only at m1 m2 m3 k
  subst m1 m2 m3
  rcases k with ⟨c, k, -⟩ | ⟨c, k, -⟩ | ⟨c, k, -⟩ | ⟨c, k, -⟩ | ⟨c, k, -⟩
  · cases k
  · cases k
  · rw [c]; rfl
  · cases k
  · cases k

theorem lost_index : Misread (file [indexedPixel, oneColour, pixelData] []) ⟨1, 1, [0, 0, 0], .rgb⟩ := by
  have hd : decodePng Spec.adler32 (file [indexedPixel, oneColour, pixelData] []) = .ok ⟨1, 1, [0, 0, 0], .rgb⟩ := by
    decide +kernel
  refine ⟨hd, ?_⟩
  rintro ⟨bytes, tail, h, plte, trns, rows, e, g⟩
  obtain ⟨-, ds, -, e1, -, -, -, hp, -, hi⟩ := proper_chunks (by decide) (by decide) e g
  obtain ⟨e2, rfl⟩ := List.cons.inj e1
  obtain ⟨hf, -⟩ := g
  have hh := indexed_header hf.1 (congrArg Chunk.data e2)
  subst hh
  have hpl : plte = some [10, 20, 30] := by
    have : [[10, 20, 30]] = plte.toList := hp
    cases plte with
    | none => cases this
    | some p => simpa using this.symm
  subst hpl
  obtain ⟨img, e3, -, -, ⟨-, sh⟩, -⟩ := decodePng_ok hf tail (by decide) (by decide)
  rw [← e, hd] at e3
  cases e3
  have hr : rows.length = 1 := hf.2.2.1
  have h0 : 0 < rows.length := by omega
  have s := sh 0 0 h0 (by decide)
  have i := hi rfl rows[0] (List.getElem_mem h0) 0 (by decide)
  have hz : sampleAt 8 rows[0] 0 = 0 := by
    simp only [Option.getD_some, List.length_cons, List.length_nil] at i; omega
  have t : pixelAt ⟨1, 1, 8, 3⟩ [10, 20, 30] (trns.getD []) rows[0] 0
      = paletteAt [10, 20, 30] (trns.getD []) (sampleAt 8 rows[0] 0) := rfl
  rw [show ((some [10, 20, 30] : Option (List UInt8)).getD []) = [10, 20, 30] from rfl, t, hz] at s
  have : (0 : Nat) = 10 := congrArg Rgba.r s
  omega

/-- C85 fails for each of these reasons: the header comes after the data; there are two headers, the first of which
makes no sense; IEND has data; a critical chunk is unknown; the image data is interrupted; a gray image has a palette,
after the data; the window is larger than allowed; a pixel has no palette entry, and comes out black. -/
theorem C85_fails :
    Misread (file [pixelData, onePixel] []) sevenGray ∧ Misread (file [otherSize, onePixel, pixelData] []) sevenGray ∧
    Misread (file [onePixel, pixelData] [1, 2, 3]) sevenGray ∧ Misread (file [onePixel, unknown, pixelData] []) sevenGray ∧
    Misread (file [onePixel, data1, textChunk, data2] []) sevenGray ∧
    Misread (file [onePixel, pixelData, oneColour] []) sevenGray ∧ Misread (file [onePixel, wideData] []) sevenGray ∧
    Misread (file [indexedPixel, oneColour, pixelData] []) ⟨1, 1, [0, 0, 0], .rgb⟩ :=
  ⟨late_header, two_headers, end_with_data, unknown_critical, split_data, gray_palette, large_window, lost_index⟩

theorem C85_full_fails : ¬ C85_full := fun h => late_header.2 (h _ _ _ late_header.1)

/-- A file that is accepted and keeps the rules, with other bytes after it. -/
example : decodePng Spec.adler32 (file [onePixel, textChunk, data1, data2] [] ++ [1, 2, 3]) = .ok sevenGray := by
  decide +kernel

example : Orderly ⟨1, 1, 8, 0⟩ [textChunk, data1, data2] := by
  refine ⟨by decide, ⟨[textChunk], [data1, data2], [], rfl, by decide, by decide, by decide, ?_⟩, by decide⟩
  intro a₁ x a₂ e hx
  cases a₁ with
  | nil =>
    obtain ⟨e1, e2⟩ := List.cons.inj e
    rw [← e1] at hx
    exact absurd hx (by decide)
  | cons y a₁ =>
    have := (List.cons.inj e).2
    simp at this

end Pixo.Props
