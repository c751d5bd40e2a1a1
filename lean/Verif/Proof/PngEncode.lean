import Verif.Proof.PngReduce
import Verif.Proof.PngChunks
import Verif.Proof.DeflateTop
import Verif.Proof.FilterRows
import Verif.Proof.Quantize
/-
The encoder's output is a PNG file that holds the reduced image.
-/
namespace Pixo.Png
open Spec Spec.Png
open Pixo.Filter (Strategy SchedOk rowsOf)
open Pixo.Deflate (Pool POk SumOk)

/-! ### Files -/

theorem dataOf_append (ty : List UInt8) (a b : List Chunk) : dataOf ty (a ++ b) = dataOf ty a ++ dataOf ty b := by
  simp [dataOf]

theorem dataOf_same (ty : List UInt8) (l : List (List UInt8)) : dataOf ty (l.map (Chunk.mk ty)) = l := by
  induction l with
  | nil => rfl
  | cons d l ih =>
    unfold dataOf at ih ⊢
    simp only [List.map_cons, List.filter_cons, decide_true, if_true]
    rw [ih]

theorem dataOf_other {ty ty' : List UInt8} (h : ty' ≠ ty) (l : List (List UInt8)) :
    dataOf ty (l.map (Chunk.mk ty')) = [] := by
  unfold dataOf
  rw [List.filter_eq_nil_iff.mpr]
  · rfl
  · intro c hc
    obtain ⟨d, -, rfl⟩ := List.mem_map.mp hc
    simpa using h

/-- The chunks between IHDR and IEND. -/
theorem tight_chunks {h : Header} {plte trns : Option (List UInt8)} (hp : PaletteOk h plte trns)
    (h1 : ∀ p, plte = some p → h.colour = 3 ∧ 3 ≤ p.length ∧ p.length ≤ 3 * 2 ^ h.depth)
    (h2 : plte = none → trns = none) (hd : h.depth ≤ 16) {idat : List (List UInt8)}
    (hi : ∀ d ∈ idat, d ≠ [] ∧ d.length < 2 ^ 31) :
    ∀ c ∈ paletteChunks plte trns ++ idat.map (Chunk.mk IDAT), c.Ok ∧ c.ty ≠ IHDR ∧ c.ty ≠ IEND ∧ isMeta c = false := by
  have h16 : 3 * 2 ^ h.depth ≤ 3 * 2 ^ 16 := Nat.mul_le_mul_left 3 (Nat.pow_le_pow_right (by decide) hd)
  intro c hc
  unfold paletteChunks at hc
  rw [List.mem_append, List.mem_append] at hc
  rcases hc with (hc | hc) | hc
  · obtain ⟨d, hd, rfl⟩ := List.mem_map.mp hc
    rw [Option.mem_toList] at hd
    obtain ⟨-, -, hl⟩ := h1 d hd
    exact ⟨⟨rfl, show d.length < 2 ^ 31 by omega⟩, show PLTE ≠ IHDR by decide, show PLTE ≠ IEND by decide, rfl⟩
  · obtain ⟨d, hd, rfl⟩ := List.mem_map.mp hc
    rw [Option.mem_toList] at hd
    have hd : trns = some d := hd
    match hpl : plte with
    | none => rw [h2 rfl] at hd; cases hd
    | some p =>
      obtain ⟨h3, -, hl⟩ := h1 p rfl
      have := hp.trns h3
      rw [hd] at this
      simp only [Option.getD_some] at this
      exact ⟨⟨rfl, show d.length < 2 ^ 31 by omega⟩, show tRNS ≠ IHDR by decide, show tRNS ≠ IEND by decide, rfl⟩
  · obtain ⟨d, hd, rfl⟩ := List.mem_map.mp hc
    exact ⟨⟨rfl, (hi d hd).2⟩, show IDAT ≠ IHDR by decide, show IDAT ≠ IEND by decide, rfl⟩

theorem depth_le {h : Header} (hok : h.Ok) : h.depth ≤ 16 := by
  obtain ⟨-, -, -, -, hc⟩ := hok
  simp only [List.mem_cons, List.not_mem_nil, or_false] at hc
  omega

section
variable {sum : List UInt8 → Nat} {h : Header} {plte trns : Option (List UInt8)} {rows : List (List UInt8)}
  {bytes : List UInt8}

theorem Tight_file (ht : Tight sum h plte trns rows bytes) : File sum h plte trns rows bytes := by
  obtain ⟨hok, hp, h1, h2, hr, idat, scan, -, hi, hb, hz, hs⟩ := ht
  refine ⟨hok, hp, hr, _, scan, fun c hc => ?_, hb, ?_, ?_, ?_, hs⟩
  · obtain ⟨a, b, c, -⟩ := tight_chunks hp h1 h2 (depth_le hok) hi c hc
    exact ⟨a, b, c⟩
  · rw [paletteChunks, dataOf_append, dataOf_append, dataOf_same, dataOf_other (by decide), dataOf_other (by decide),
      List.append_nil, List.append_nil]
  · rw [paletteChunks, dataOf_append, dataOf_append, dataOf_same, dataOf_other (by decide), dataOf_other (by decide),
      List.append_nil, List.nil_append]
  · rw [paletteChunks, dataOf_append, dataOf_append, dataOf_same, dataOf_other (by decide), dataOf_other (by decide),
      List.append_nil, List.nil_append]
    exact hz

/-- Stripping keeps such a file as it is. -/
theorem Tight_strip (ht : Tight sum h plte trns rows bytes) : stripMetadata bytes = .ok bytes := by
  obtain ⟨hok, hp, h1, h2, hr, idat, scan, -, hi, rfl, -, -⟩ := ht
  have hc := tight_chunks hp h1 h2 (depth_le hok) hi
  generalize hcs : paletteChunks plte trns ++ idat.map (Chunk.mk IDAT) = cs at hc ⊢
  have hall : ∀ c ∈ (⟨IHDR, h.bytes⟩ : Chunk) :: cs, c.Ok ∧ c.ty ≠ IEND := by
    intro c hm
    rcases List.mem_cons.mp hm with rfl | hm
    · exact ⟨⟨rfl, by simp [Header.bytes, Spec.Png.be32]⟩, show IHDR ≠ IEND by decide⟩
    · exact ⟨(hc c hm).1, (hc c hm).2.2.1⟩
  have hfil : ((⟨IHDR, h.bytes⟩ : Chunk) :: cs).filter (fun c => !isMeta c) = (⟨IHDR, h.bytes⟩ : Chunk) :: cs := by
    rw [List.filter_eq_self]
    intro c hm
    rcases List.mem_cons.mp hm with rfl | hm
    · rfl
    · rw [(hc c hm).2.2.2]; rfl
  have := stripMetadata_end (head := Spec.Png.signature) rfl hall (e := ⟨IEND, []⟩) ⟨rfl, by decide⟩ rfl []
  rw [List.append_nil, hfil] at this
  exact this

end

/-! ### Writing -/

theorem writeIhdr_eq (output : List UInt8) (h : Header) :
    writeIhdr output h.width h.height h.depth (UInt8.ofNat h.colour) = output ++ stream [⟨IHDR, h.bytes⟩] := by
  unfold writeIhdr
  rw [writeChunk_eq, be32_eq, be32_eq, stream_cons]
  simp [stream, Header.bytes, nIHDR, IHDR]

theorem writePalette_eq (output : List UInt8) (p : Option (List Palette.Rgba)) :
    writePalette output p = output ++ stream (paletteChunks (plteOf p) (trnsOf p)) := by
  cases p with
  | none => simp [writePalette, plteOf, trnsOf, paletteChunks, stream]
  | some p =>
    unfold writePalette plteOf trnsOf paletteChunks
    simp only [Option.map_some, Option.bind_some, Option.toList_some, List.map_cons, List.map_nil]
    split
    · rw [writeChunk_eq, writeChunk_eq, List.append_assoc]
      simp [stream, nPLTE, nTRNS, PLTE, tRNS]
    · rw [writeChunk_eq]
      simp [stream, nPLTE, PLTE]

theorem writeIndexedPalette_eq (output : List UInt8) (plte : List UInt8) (trns : Option (List UInt8)) :
    writeTrns (writeChunk output nPLTE plte) trns = output ++ stream (paletteChunks (some plte) trns) := by
  unfold writeTrns paletteChunks
  cases trns with
  | none => rw [writeChunk_eq]; simp [stream, nPLTE, PLTE]
  | some t =>
    simp only
    rw [writeChunk_eq, writeChunk_eq, List.append_assoc]
    simp [stream, nPLTE, nTRNS, PLTE, tRNS]

/-- Assumptions on what the model leaves open. -/
structure EnvOk (env : Env) (height : Nat) : Prop where
  log : Lz77.LogOk env.deflate.log2
  sched : SchedOk env.sched height

/-- Filtering, compressing and writing the data and the end. -/
def emit (env : Env) (pool : Pool) (output raw : List UInt8) (width height rb bpp : Nat) (st : Strategy) (o : Options) :
    R (List UInt8 × Pool) := do
  let filtered ← Filter.applyFilters env.deflate.level env.sched raw width height rb bpp st
  let (compressed, pool) ← compress env pool filtered o
  return (writeIend (writeIdat output compressed), pool)

section
variable {env : Env} {sum : List UInt8 → Nat} (ha : SumOk (Simd.adler32 env.deflate.level) sum)
include ha

theorem compress_ok (hlog : Lz77.LogOk env.deflate.log2) {pool : Pool} (hp : POk pool) {data : List UInt8} (o : Options)
    (hn : data.length + 2 < 2 ^ 30) :
    Oks (compress env pool data o) fun r => Rfc1950.ZlibWith sum r.1 data ∧ POk r.2 := by
  unfold compress
  split
  · exact Oks.bind (Deflate.deflateOptimalZlib_ok env.deflate hlog (by omega) ha 5) fun out ho => .pure ⟨ho.1, hp⟩
  · exact (Deflate.deflateZlibPacked_ok ha env.deflate hp data o.level (by omega)).mono fun r hr => ⟨hr.1.1, hr.2⟩

theorem emit_ok {hd : Header} (henv : EnvOk env hd.height) {pool : Pool} (hp : POk pool) (o : Options)
    (hok : hd.Ok) {plte trns : Option (List UInt8)} (hpal : PaletteOk hd plte trns)
    (h1 : ∀ p, plte = some p → hd.colour = 3 ∧ 3 ≤ p.length ∧ p.length ≤ 3 * 2 ^ hd.depth)
    (h2 : plte = none → trns = none) {raw : List UInt8} (hlen : raw.length = hd.height * hd.rowBytes)
    (hsz : hd.height * (1 + hd.rowBytes) + 2 < 2 ^ 30) (width : Nat) (st : Strategy) :
    Oks (emit env pool (Spec.Png.signature ++ stream (⟨IHDR, hd.bytes⟩ :: paletteChunks plte trns)) raw width hd.height
        hd.rowBytes hd.bpp st o)
      fun r => Tight sum hd plte trns (rowsOf raw hd.rowBytes hd.height) r.1 ∧ POk r.2 := by
  have hbpp : hd.bpp ≤ hd.rowBytes := by
    have hw := hok.1
    unfold Header.bpp Header.rowBytes
    have : samples hd.colour * hd.depth ≤ hd.width * samples hd.colour * hd.depth := by
      rw [Nat.mul_assoc]; exact Nat.le_mul_of_pos_left _ hw
    omega
  have hrl : (rowsOf raw hd.rowBytes hd.height).length = hd.height := by simp [rowsOf]
  unfold emit
  refine Oks.bind (Filter.applyFilters_ok env.deflate.level env.sched width hbpp hlen st henv.sched) fun scan hs => ?_
  have hsl := (PngDecode.scanlines_length hs).1
  rw [hrl] at hsl
  refine Oks.bind (compress_ok ha henv.log hp o (by rw [hsl]; exact hsz)) fun r hr => .pure ?_
  refine ⟨⟨hok, hpal, h1, h2, hrl, pieces (256 * 1024) r.1, scan, ?_, ?_, ?_, ?_, hs⟩, hr.2⟩
  · intro hnil
    have := pieces_flatten (n := 256 * 1024) (by decide) r.1
    rw [hnil] at this
    obtain ⟨a, b, c, d, e, -⟩ := hr.1
    rw [← this] at e
    cases e
  · intro d hd
    have h1 := pieces_le hd
    have h2 := pieces_pos (by decide) hd
    exact ⟨(by intro e; rw [e] at h2; exact absurd h2 (by decide)), by omega⟩
  · show writeIend (writeIdat _ _) = _
    unfold writeIend
    rw [writeChunk_eq, writeIdat_eq]
    simp only [stream, List.flatMap_append, List.flatMap_cons, List.flatMap_nil, List.append_assoc, List.append_nil,
      List.cons_append, nIEND, IEND]
  · rw [pieces_flatten (by decide)]; exact hr.1

end

/-! ### Decoding -/

/-- The decoded image shows the colours stored. -/
theorem Tight_decode {sum : List UInt8 → Nat} {hd : Header} {plte trns : Option (List UInt8)} {raw bytes : List UInt8}
    {f : Nat → Spec.Png.Rgba} (hw : hd.width ≤ 2 ^ 24) (hh : hd.height ≤ 2 ^ 24)
    (hs : Stored hd.width hd.height hd (plte.getD []) (trns.getD []) raw f)
    (ht : Tight sum hd plte trns (rowsOf raw hd.rowBytes hd.height) bytes) (tail : List UInt8) :
    ∃ img, PngDecode.decodePng sum (bytes ++ tail) = .ok img ∧ img.width = hd.width ∧ img.height = hd.height ∧
      img.pixels.length = hd.width * hd.height * img.colorType.bytesPerPixel ∧
      ∀ k, k < hd.width * hd.height → pixelOf img.colorType.bytesPerPixel img.pixels k = f k := by
  obtain ⟨img, e, ew, eh, hsh, -⟩ := PngDecode.decodePng_ok (Tight_file ht) tail hw hh
  refine ⟨img, e, ew, eh, hsh.1, fun k hk => ?_⟩
  have hwp : 0 < hd.width := by
    rcases Nat.eq_zero_or_pos hd.width with h | h
    · rw [h, Nat.zero_mul] at hk; cases hk
    · exact h
  have hy : k / hd.width < hd.height := Nat.div_lt_of_lt_mul hk
  have hx : k % hd.width < hd.width := Nat.mod_lt _ hwp
  have hy' : k / hd.width < (rowsOf raw hd.rowBytes hd.height).length := by simpa [rowsOf] using hy
  have h1 := hsh.2 _ _ hy' hx
  have h2 := hs.pix _ _ hy hx
  have hk' : k / hd.width * hd.width + k % hd.width = k := by rw [Nat.mul_comm]; exact Nat.div_add_mod _ _
  rw [hk'] at h1 h2
  rw [h1, ← h2]
  congr 1
  simp [rowsOf, rowAt]

/-! ### The encoders -/

/-- Sizes within the bounds of the model's arithmetic. -/
def Small (w h : Nat) : Prop := h * (1 + 4 * w) + 2 < 2 ^ 30

theorem Small.pixels {w h : Nat} (hs : Small w h) : w * h < 2 ^ 30 := by
  unfold Small at hs
  have : h * (1 + 4 * w) = h + 4 * (w * h) := by rw [Nat.mul_add, Nat.mul_one, Nat.mul_left_comm, Nat.mul_comm h w]
  omega

theorem rowBytes_le {hd : Header} (h8 : hd.depth ≤ 8) : hd.rowBytes ≤ 4 * hd.width := by
  unfold Header.rowBytes
  have h4 : samples hd.colour ≤ 4 := by unfold samples; split <;> decide
  have : samples hd.colour * hd.depth ≤ 4 * 8 := Nat.mul_le_mul h4 h8
  have : hd.width * (samples hd.colour * hd.depth) ≤ hd.width * 32 := Nat.mul_le_mul_left _ this
  rw [Nat.mul_assoc]
  omega

theorem Small.rows {hd : Header} (hs : Small hd.width hd.height) (h8 : hd.depth ≤ 8) :
    hd.height * (1 + hd.rowBytes) + 2 < 2 ^ 30 := by
  have : hd.height * (1 + hd.rowBytes) ≤ hd.height * (1 + 4 * hd.width) :=
    Nat.mul_le_mul_left _ (by have := rowBytes_le h8; omega)
  unfold Small at hs
  omega

/-- What the encoders leave: a tight file, and its colours. -/
def Wrote (sum : List UInt8 → Nat) (w h : Nat) (f : Nat → Spec.Png.Rgba) (bytes : List UInt8) : Prop :=
  ∃ hd plte trns raw, hd.width = w ∧ hd.height = h ∧ hd.depth ≤ 8 ∧
    Tight sum hd plte trns (rowsOf raw hd.rowBytes hd.height) bytes ∧
    Stored hd.width hd.height hd (plte.getD []) (trns.getD []) raw f

/-- The same under a given header. -/
def WroteAs (sum : List UInt8 → Nat) (hd : Header) (f : Nat → Spec.Png.Rgba) (bytes : List UInt8) : Prop :=
  ∃ plte trns raw, hd.depth ≤ 8 ∧ Tight sum hd plte trns (rowsOf raw hd.rowBytes hd.height) bytes ∧
    Stored hd.width hd.height hd (plte.getD []) (trns.getD []) raw f

theorem WroteAs.wrote {sum : List UInt8 → Nat} {hd : Header} {f : Nat → Spec.Png.Rgba} {bytes : List UInt8}
    (h : WroteAs sum hd f bytes) : Wrote sum hd.width hd.height f bytes := by
  obtain ⟨plte, trns, raw, h8, ht, hs⟩ := h
  exact ⟨hd, plte, trns, raw, rfl, rfl, h8, ht, hs⟩

section
variable {env : Env} {sum : List UInt8 → Nat} (ha : SumOk (Simd.adler32 env.deflate.level) sum)
include ha

/-- `writeImage` writes the image that `prepare` makes, under its header. -/
theorem writeImage_as {o : Options} (henv : EnvOk env o.height) {pool : Pool} (hp : POk pool) (output : List UInt8)
    {data : List UInt8} (hd : Dims o.width o.height) (hs : Small o.width o.height)
    (hl : data.length = o.width * o.height * o.colorType.bytesPerPixel) :
    Oks (writeImage env pool output data o) fun r =>
      (∃ q f, prepare data o = .ok q ∧ WroteAs sum (headerOf o.width o.height q.1) f r.1 ∧
        Keeps (o.width * o.height) (pixelOf o.colorType.bytesPerPixel data) f o) ∧ POk r.2 := by
  have e : writeImage env pool output data o = prepare data o >>= fun q =>
      emit env pool (writePalette (writeIhdr (clear output ++ signature) o.width o.height q.1.depth q.1.colour) q.1.palette)
        q.2 o.width o.height (rowBytes o.width q.1) q.1.bpp o.strategy o := by
    unfold writeImage prepare emit
    simp only [bind_assoc, pure_bind]
  rw [e]
  obtain ⟨q, eq, f, hf, hk⟩ := (prepare_ok hd hl hs.pixels).out
  rw [eq, ok_bind]
  have e1 : writePalette (writeIhdr (clear output ++ signature) o.width o.height q.1.depth q.1.colour) q.1.palette
      = Spec.Png.signature ++ stream (⟨IHDR, (headerOf o.width o.height q.1).bytes⟩ ::
          paletteChunks (plteOf q.1.palette) (trnsOf q.1.palette)) := by
    have := writeIhdr_eq (clear output ++ signature) (headerOf o.width o.height q.1)
    unfold headerOf at this
    simp only [UInt8.ofNat_toNat] at this
    rw [this, writePalette_eq]
    simp [clear, stream, signature, Spec.Png.signature, headerOf]
  rw [e1, hf.rb, hf.bpp]
  have h := emit_ok (hd := headerOf o.width o.height q.1) ha henv hp o hf.ok hf.pal (fun p hp => ?_) (fun hn => ?_) hf.stored.len
    (Small.rows hs hf.d8) o.width o.strategy
  · exact h.mono fun r hr => ⟨⟨q, f, rfl, ⟨_, _, _, hf.d8, hr.1, hf.stored⟩, hk⟩, hr.2⟩
  · unfold plteOf at hp
    obtain ⟨c, hc, rfl⟩ := Option.map_eq_some_iff.mp hp
    obtain ⟨h3, hl1, hl2⟩ := hf.colours c hc
    rw [plteBytes_length, List.length_map]
    exact ⟨(by show q.1.colour.toNat = 3; rw [h3]; rfl), by omega, by show _ ≤ 3 * 2 ^ q.1.depth; omega⟩
  · unfold plteOf at hn
    have : q.1.palette = none := by simpa using hn
    rw [this]; rfl

theorem encodePlain_as {o : Options} (henv : EnvOk env o.height) {pool : Pool} (hp : POk pool) (output : List UInt8)
    {data : List UInt8} (hd : Dims o.width o.height) (hs : Small o.width o.height)
    (hl : data.length = o.width * o.height * o.colorType.bytesPerPixel) :
    Oks (encodePlain env pool output data o) fun r =>
      (∃ q f, prepare data o = .ok q ∧ WroteAs sum (headerOf o.width o.height q.1) f r.1 ∧
        Keeps (o.width * o.height) (pixelOf o.colorType.bytesPerPixel data) f o) ∧ POk r.2 := by
  unfold encodePlain
  refine Oks.bind (writeImage_as ha henv hp output hd hs hl) fun r hr => ?_
  obtain ⟨⟨q, f, eq, hw, hk⟩, hp'⟩ := hr
  dsimp only
  split
  · have hw' := hw
    obtain ⟨_, _, _, _, ht, _⟩ := hw'
    rw [Tight_strip ht]
    exact Oks.pure ⟨⟨q, f, eq, hw, hk⟩, hp'⟩
  · exact Oks.pure ⟨⟨q, f, eq, hw, hk⟩, hp'⟩

theorem encodePlain_ok {o : Options} (henv : EnvOk env o.height) {pool : Pool} (hp : POk pool) (output : List UInt8)
    {data : List UInt8} (hd : Dims o.width o.height) (hs : Small o.width o.height)
    (hl : data.length = o.width * o.height * o.colorType.bytesPerPixel) :
    Oks (encodePlain env pool output data o) fun r =>
      (∃ f, Wrote sum o.width o.height f r.1 ∧ Keeps (o.width * o.height) (pixelOf o.colorType.bytesPerPixel data) f o) ∧
      POk r.2 :=
  (encodePlain_as ha henv hp output hd hs hl).mono fun _ ⟨⟨_, f, _, hw, hk⟩, hp'⟩ => ⟨⟨f, hw.wrote, hk⟩, hp'⟩

/-- The colours of an indexed image. -/
def indexColour (palette : List (UInt8 × UInt8 × UInt8)) (transparency : Option (List UInt8)) (data : List UInt8)
    (k : Nat) : Spec.Png.Rgba :=
  paletteAt (plteBytes palette) (transparency.getD []) (byteAt data k)

theorem writeIndexed_ok {w h : Nat} (henv : EnvOk env h) {pool : Pool} (hp : POk pool) (output : List UInt8)
    {data : List UInt8} (hd : Dims w h) (hs : Small w h) (hl : data.length = w * h)
    {palette : List (UInt8 × UInt8 × UInt8)} {transparency : Option (List UInt8)} (hp1 : 1 ≤ palette.length)
    (hp2 : palette.length ≤ 256) (ht : (transparency.getD []).length ≤ palette.length) (o : Options) :
    Oks (writeIndexed env pool output data w h palette transparency o) fun r =>
      Wrote sum w h (indexColour palette transparency data) r.1 ∧ POk r.2 := by
  have e : writeIndexed env pool output data w h palette transparency o =
      emit env pool (writeTrns (writeChunk (writeIhdr (clear output ++ signature) w h 8 3) nPLTE (plteBytes palette))
        transparency) data w h (w * 1) 1 (indexedStrategy o.strategy) o := rfl
  have hrb : (⟨w, h, 8, 3⟩ : Header).rowBytes = w * 1 := by
    show (w * 1 * 8 + 7) / 8 = w * 1; omega
  have hbpp : (⟨w, h, 8, 3⟩ : Header).bpp = 1 := show (1 * 8 + 7) / 8 = 1 by decide
  have e1 : writeTrns (writeChunk (writeIhdr (clear output ++ signature) w h 8 3) nPLTE (plteBytes palette)) transparency
      = Spec.Png.signature ++ stream (⟨IHDR, (⟨w, h, 8, 3⟩ : Header).bytes⟩ ::
          paletteChunks (some (plteBytes palette)) transparency) := by
    rw [writeIndexedPalette_eq]
    have := writeIhdr_eq (clear output ++ signature) ⟨w, h, 8, 3⟩
    simp only at this
    rw [show (3 : UInt8) = UInt8.ofNat 3 from rfl, this]
    simp [clear, stream, signature, Spec.Png.signature]
  rw [e, e1]
  have hm := emit_ok (hd := ⟨w, h, 8, 3⟩) (plte := some (plteBytes palette)) (trns := transparency) (raw := data) ha henv hp o
    ⟨hd.w0, hd.w1, hd.h0, hd.h1, .inr (.inr (.inl ⟨rfl, show 8 ∈ [1, 2, 4, 8] by decide⟩))⟩
    ⟨fun p hp => (by cases hp; rw [plteBytes_length]; omega), fun _ h => (by cases h),
      fun _ => (by show _ ≤ (plteBytes palette).length; rw [plteBytes_length]; omega)⟩
    (fun p hp => ?_) (fun hn => by cases hn) (by rw [hrb, hl, Nat.mul_one, Nat.mul_comm]) (Small.rows hs (Nat.le_refl 8))
    w (indexedStrategy o.strategy)
  · rw [hbpp] at hm
    rw [← hrb]
    refine hm.mono fun r hr => ⟨⟨⟨w, h, 8, 3⟩, _, _, _, rfl, rfl, Nat.le_refl 8, hr.1, ⟨?_, fun y x hy hx => ?_⟩⟩, hr.2⟩
    · rw [hrb, hl, Nat.mul_one, Nat.mul_comm]
    · have hx : x < w := hx
      show paletteAt _ _ (sampleAt 8 _ x) = _
      rw [PngDecode.sampleAt_8 (by rw [rowAt_length (h := h) (by rw [hrb, hl, Nat.mul_one, Nat.mul_comm]) hy, hrb]; omega)]
      unfold indexColour
      rw [byteAt_row (by rw [hrb]; omega), hrb, Nat.mul_one]
      rfl
  · cases hp
    rw [plteBytes_length]
    exact ⟨rfl, by omega, by show _ ≤ 3 * 2 ^ 8; omega⟩

end

/-! ### Quantized images -/

theorem foldl_last : ∀ (l : List UInt8) (i a : Nat), a ≤ i →
    a ≤ (l.zipIdx i).foldl (fun last p => if p.1 ≠ 255 then p.2 else last) a ∧
    ∀ j, (h : j < l.length) → l[j] ≠ 255 →
      i + j ≤ (l.zipIdx i).foldl (fun last p => if p.1 ≠ 255 then p.2 else last) a
  | [], _, _, _ => ⟨Nat.le_refl _, fun j h => absurd h (Nat.not_lt_zero _)⟩
  | x :: l, i, a, ha => by
    rw [List.zipIdx_cons, List.foldl_cons]
    have hle : (if (x, i).1 ≠ 255 then (x, i).2 else a) ≤ i + 1 ∧ a ≤ (if (x, i).1 ≠ 255 then (x, i).2 else a) := by
      split
      · exact ⟨Nat.le_succ i, ha⟩
      · exact ⟨Nat.le_trans ha (Nat.le_succ i), Nat.le_refl _⟩
    obtain ⟨h1, h2⟩ := foldl_last l (i + 1) _ hle.1
    refine ⟨Nat.le_trans hle.2 h1, fun j hj hne => ?_⟩
    cases j with
    | zero =>
      rw [List.getElem_cons_zero] at hne
      have e : (if (x, i).1 ≠ 255 then (x, i).2 else a) = i := if_pos hne
      rw [e] at h1 ⊢
      exact h1
    | succ j =>
      rw [List.getElem_cons_succ] at hne
      have := h2 j (by simpa using hj) hne
      omega

theorem trim_length (alpha : List UInt8) : ((trimTransparency alpha).getD []).length ≤ alpha.length := by
  unfold trimTransparency
  split
  · simp
  split
  · simp
  · dsimp only
    rw [Option.getD_some, List.length_take]; omega

/-- A trimmed table means the same. -/
theorem trim_ok {alpha : List UInt8} {i : Nat} (hi : i < alpha.length) :
    (if i < ((trimTransparency alpha).getD []).length then byteAt ((trimTransparency alpha).getD []) i else 255)
      = byteAt alpha i := by
  have hb : byteAt alpha i = alpha[i].toNat := by unfold byteAt; rw [Palette.getD_lt hi]
  unfold trimTransparency
  split
  · rename_i h
    have : alpha = [] := by simpa using h
    subst this; simp at hi
  split
  · rename_i h
    rw [List.all_eq_true] at h
    have := h alpha[i] (List.getElem_mem hi)
    rw [beq_iff_eq] at this
    rw [hb, this]; rfl
  · dsimp only
    rw [Option.getD_some, List.length_take]
    have hf := (foldl_last alpha 0 0 (Nat.le_refl 0)).2 i hi
    generalize (alpha.zipIdx 0).foldl _ 0 = last at hf ⊢
    by_cases h : i < last + 1
    · rw [if_pos (by omega)]
      unfold byteAt
      rw [getD_take h]
    · rw [if_neg (by omega), hb]
      by_cases hne : alpha[i] = 255
      · rw [hne]; rfl
      · have := hf hne; omega

theorem quantized_colour {palette : List Palette.Rgba} {i : Nat} {c : Palette.Rgba} (hi : palette[i]? = some c) :
    paletteAt (plteBytes (palette.map fun c => (c.1, c.2.1, c.2.2.1)))
      ((trimTransparency (palette.map fun c => c.2.2.2)).getD []) i = num c := by
  have hlt : i < palette.length := (List.getElem?_eq_some_iff.mp hi).1
  obtain ⟨h0, h1, h2⟩ := plteBytes_get hi
  unfold paletteAt
  rw [h0, h1, h2, trim_ok (by rw [List.length_map]; exact hlt)]
  unfold num
  congr 1
  apply PngDecode.byteAt_eq
  rw [List.getElem?_map, hi]; rfl

theorem num_pixelAt {data : List UInt8} {ct : ColorType} (hct : ct = .rgb ∨ ct = .rgba) (i : Nat) :
    num (Quantize.pixelAt data ct.bytesPerPixel i) = pixelOf ct.bytesPerPixel data i := by
  rcases hct with rfl | rfl <;> rfl

/-- The image stands for a quantized one: a palette `q.1` within the limit, an index into it for
every pixel; exact if the colours fit and the image is small enough to be sampled fully. -/
def Approximates (n m : Nat) (p f : Nat → Spec.Png.Rgba) : Prop :=
  ∃ palette : List Palette.Rgba, 1 ≤ palette.length ∧ palette.length ≤ max 1 m ∧
    (∀ k, k < n → ∃ c ∈ palette, f k = num c) ∧
    (n < 100000 → ∀ l : List Palette.Rgba, (∀ k, k < n → ∃ c ∈ l, num c = p k) → l.length ≤ m →
      ∀ k, k < n → f k = p k)

section
variable {env : Env} {sum : List UInt8 → Nat} (ha : SumOk (Simd.adler32 env.deflate.level) sum)
include ha

theorem encodeIndexedInto_ok {w h : Nat} (henv : EnvOk env h) {pool : Pool} (hp : POk pool) (output : List UInt8)
    {data : List UInt8} (hd : Dims w h) (hs : Small w h) (hl : data.length = w * h)
    {palette : List (UInt8 × UInt8 × UInt8)} {transparency : Option (List UInt8)} (hp1 : 1 ≤ palette.length)
    (hp2 : palette.length ≤ 256) (ht : (transparency.getD []).length ≤ palette.length) (o : Options) :
    Oks (encodeIndexedInto env pool output data w h palette transparency o) fun r =>
      Wrote sum w h (indexColour palette transparency data) r.1 ∧ POk r.2 := by
  have hpx := hs.pixels
  have e : checkIndexed data w h palette transparency = .ok () := by
    unfold checkIndexed checkLen expectedLen
    rw [if_neg (by omega), if_neg (by omega), if_pos ⟨by omega, by omega⟩, ok_bind, if_neg (by rw [hl]; simp)]
    rfl
  unfold encodeIndexedInto
  rw [e, ok_bind]
  exact writeIndexed_ok ha henv hp output hd hs hl hp1 hp2 ht o

theorem encodeQuantized_ok {o : Options} (henv : EnvOk env o.height) {pool : Pool} (hp : POk pool) (output : List UInt8)
    {data : List UInt8} (hd : Dims o.width o.height) (hs : Small o.width o.height)
    (hct : o.colorType = .rgb ∨ o.colorType = .rgba)
    (hl : data.length = o.width * o.height * o.colorType.bytesPerPixel) :
    Oks (encodeQuantized env pool output data o) fun r =>
      (∃ f, Wrote sum o.width o.height f r.1 ∧
        Approximates (o.width * o.height) (min o.quantization.maxColors 256) (pixelOf o.colorType.bytesPerPixel data) f) ∧
      POk r.2 := by
  unfold encodeQuantized
  have hpos := Nat.mul_pos hd.w0 hd.h0
  refine Oks.bind (Quantize.quantizeImage_ok env.quantize hct hl hpos hs.pixels (m := min o.quantization.maxColors 256)
    (by omega) o.quantization.dithering) fun q hq => ?_
  obtain ⟨hq, hex⟩ := hq
  have h1 := hq.one
  have h2 := hq.le
  refine (encodeIndexedInto_ok ha henv hp output hd hs hq.len (by rw [List.length_map]; exact h1)
    (by rw [List.length_map]; omega) (by rw [List.length_map]; exact Nat.le_trans (trim_length _) (by simp)) o).mono
    fun r hr => ⟨⟨_, hr.1, q.1, h1, h2, fun k hk => ?_, fun hn l hall hlm k hk => ?_⟩, hr.2⟩
  · have hk' : k < q.2.length := by rw [hq.len]; exact hk
    have hlt := hq.lt _ (List.getElem_mem hk')
    refine ⟨q.1[q.2[k].toNat], List.getElem_mem hlt, ?_⟩
    unfold indexColour byteAt
    rw [Palette.getD_lt hk']
    exact quantized_colour (List.getElem?_eq_getElem hlt)
  · have := hex hn l (fun i hi => by
      obtain ⟨c, hc, he⟩ := hall i hi
      rw [← num_pixelAt hct] at he
      rw [← num_inj he]; exact hc) hlm k hk
    rw [← num_pixelAt hct]
    exact quantized_colour this

/-! ### The whole encoder -/

/-- Input that the encoder accepts. -/
structure Valid (data : List UInt8) (o : Options) : Prop where
  level : 1 ≤ o.level ∧ o.level ≤ 9
  w0 : 0 < o.width
  h0 : 0 < o.height
  w1 : o.width ≤ 2 ^ 24
  h1 : o.height ≤ 2 ^ 24
  len : data.length = o.width * o.height * o.colorType.bytesPerPixel

omit ha in
theorem bytesPerPixel_le (ct : ColorType) : ct.bytesPerPixel ≤ 4 := by cases ct <;> decide

omit ha in
theorem checkInput_ok {data : List UInt8} {o : Options} (h : Valid data o) : checkInput data o = .ok () := by
  have hb := bytesPerPixel_le o.colorType
  have h1 : o.width * o.height ≤ 2 ^ 24 * 2 ^ 24 := Nat.mul_le_mul h.w1 h.h1
  have h2 : o.width * o.height * o.colorType.bytesPerPixel ≤ 2 ^ 24 * 2 ^ 24 * 4 := Nat.mul_le_mul h1 hb
  have := h.level
  have := h.w0
  have := h.h0
  have := h.w1
  have := h.h1
  unfold checkInput checkLen expectedLen maxDimension
  rw [if_neg (by omega), if_neg (by omega), if_neg (by omega), if_pos ⟨by omega, by omega⟩, ok_bind,
    if_neg (by rw [h.len]; simp)]
  rfl

omit ha in
theorem shouldQuantize_ok {data : List UInt8} {o : Options} (h : Valid data o) :
    Oks (shouldQuantize data o) fun q => q = true → o.quantization.mode ≠ .off ∧ (o.colorType = .rgb ∨ o.colorType = .rgba) := by
  have hc : isColour o.colorType = true → o.colorType = .rgb ∨ o.colorType = .rgba := by
    unfold isColour; cases o.colorType <;> simp
  unfold shouldQuantize
  cases hm : o.quantization.mode with
  | off => exact Oks.ok fun h => by cases h
  | force => exact Oks.ok fun h => ⟨by simp, hc h⟩
  | auto =>
    dsimp only
    by_cases hi : isColour o.colorType = true
    · rw [if_pos hi]
      refine (Quantize.shouldQuantizeAuto_ok (n := o.width * o.height) ?_ h.len _).mono fun _ _ _ => ⟨by simp, hc hi⟩
      rcases hc hi with e | e <;> rw [e] <;> simp [ColorType.bytesPerPixel]
    · rw [if_neg hi]; exact Oks.ok fun h => by cases h

/-- What the file holds, compared with the image given. -/
def Holds (o : Options) (p f : Nat → Spec.Png.Rgba) : Prop :=
  Keeps (o.width * o.height) p f o ∨
    o.quantization.mode ≠ .off ∧ (o.colorType = .rgb ∨ o.colorType = .rgba) ∧
      Approximates (o.width * o.height) (min o.quantization.maxColors 256) p f

theorem encodeWith_ok {data : List UInt8} {o : Options} (h : Valid data o) (henv : EnvOk env o.height) {pool : Pool}
    (hp : POk pool) (output : List UInt8) (hs : Small o.width o.height) :
    Oks (encodeWith env pool output data o) fun r =>
      (∃ f, Wrote sum o.width o.height f r.1 ∧ Holds o (pixelOf o.colorType.bytesPerPixel data) f) ∧ POk r.2 := by
  have hd : Dims o.width o.height := ⟨h.w0, h.h0, by have := h.w1; omega, by have := h.h1; omega⟩
  unfold encodeWith
  rw [checkInput_ok h, ok_bind]
  refine Oks.bind (shouldQuantize_ok h) fun q hq => ?_
  cases q with
  | false =>
    rw [if_neg (by decide)]
    exact (encodePlain_ok ha henv hp output hd hs h.len).mono fun r hr => ⟨hr.1.imp fun f hf => ⟨hf.1, .inl hf.2⟩, hr.2⟩
  | true =>
    obtain ⟨hm, hct⟩ := hq rfl
    rw [if_pos rfl]
    exact (encodeQuantized_ok ha henv hp output hd hs hct h.len).mono fun r hr =>
      ⟨hr.1.imp fun f hf => ⟨hf.1, .inr ⟨hm, hct, hf.2⟩⟩, hr.2⟩

/-- Without quantization, the header is that of the reduced image. -/
theorem encodeWith_as {data : List UInt8} {o : Options} (h : Valid data o) (henv : EnvOk env o.height) {pool : Pool}
    (hp : POk pool) (output : List UInt8) (hs : Small o.width o.height) (hq : o.quantization.mode = .off) :
    Oks (encodeWith env pool output data o) fun r =>
      ∃ q f, prepare data o = .ok q ∧ WroteAs sum (headerOf o.width o.height q.1) f r.1 ∧
        Keeps (o.width * o.height) (pixelOf o.colorType.bytesPerPixel data) f o := by
  have hd : Dims o.width o.height := ⟨h.w0, h.h0, by have := h.w1; omega, by have := h.h1; omega⟩
  unfold encodeWith
  rw [checkInput_ok h, ok_bind]
  refine Oks.bind (shouldQuantize_ok h) fun q hq' => ?_
  cases q with
  | false =>
    rw [if_neg (by decide)]
    exact (encodePlain_as ha henv hp output hd hs h.len).mono fun r hr => hr.1
  | true => exact absurd hq (hq' rfl).1

end

/-! ### Independence of the buffer and of the pool -/

theorem clear_eq (output : List UInt8) : clear output = [] := by simp [clear]

theorem encodeWith_buffer (env : Env) (pool : Pool) (output data : List UInt8) (o : Options) :
    encodeWith env pool output data o = encodeWith env pool [] data o := by
  unfold encodeWith encodePlain encodeQuantized encodeIndexedInto writeImage writeIndexed
  simp only [clear_eq]

end Pixo.Png
