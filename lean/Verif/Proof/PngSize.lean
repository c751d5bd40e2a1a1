import Verif.Proof.PngFormat
/-
The length of the files the PNG encoder writes.
-/
namespace Pixo.Png
open Spec Spec.Png
open Pixo.Deflate (Pool POk SumOk)
open Pixo.Filter (Strategy)
open Pixo.PngDecode (scanlines_length)

/-- The most bytes a zlib stream of `n` bytes has. -/
def zlibMost (n : Nat) : Nat := n + 5 * (n / 65535 + 1) + 6

/-- The most bytes that the data of `n` bytes of scanlines and the end have. -/
def dataMost (n : Nat) : Nat := zlibMost n + 12 * ((zlibMost n + 262143) / 262144) + 12

theorem zlibMost_mono {m n : Nat} (h : m ≤ n) : zlibMost m ≤ zlibMost n := by
  unfold zlibMost
  have := Nat.div_le_div_right (c := 65535) h
  omega

theorem dataMost_mono {m n : Nat} (h : m ≤ n) : dataMost m ≤ dataMost n := by
  unfold dataMost
  have := zlibMost_mono h
  have := Nat.div_le_div_right (c := 262144) (show zlibMost m + 262143 ≤ zlibMost n + 262143 by omega)
  omega

theorem be32_length (n : Nat) : (be32 n).length = 4 := rfl

theorem writeChunk_length (output ty data : List UInt8) :
    (writeChunk output ty data).length = output.length + ty.length + data.length + 8 := by
  unfold writeChunk
  simp only [List.length_append, be32_length]
  omega

theorem foldl_chunks (l : List (List UInt8)) (output : List UInt8) :
    (l.foldl (fun out piece => writeChunk out nIDAT piece) output).length = output.length + l.flatten.length + 12 * l.length := by
  induction l generalizing output with
  | nil => simp
  | cons a l ih =>
    rw [List.foldl_cons, ih, writeChunk_length, List.flatten_cons, List.length_append, List.length_cons,
      show nIDAT.length = 4 from rfl]
    omega

theorem writeIdat_length (output compressed : List UInt8) :
    (writeIdat output compressed).length = output.length + compressed.length + 12 * ((compressed.length + 262143) / 262144) := by
  unfold writeIdat
  rw [foldl_chunks, pieces_flatten (by decide)]
  unfold pieces
  rw [List.length_map, List.length_range]
  rfl

section
variable {env : Env} {sum : List UInt8 → Nat} (ha : SumOk (Simd.adler32 env.deflate.level) sum)
include ha

theorem compress_size (hlog : Lz77.LogOk env.deflate.log2) {pool : Pool} (hp : POk pool) {data : List UInt8} (o : Options)
    (hn : data.length + 2 < 2 ^ 30) : Oks (compress env pool data o) fun r => r.1.length ≤ zlibMost data.length := by
  unfold compress
  split
  · exact Oks.bind (Deflate.deflateOptimalZlib_ok env.deflate hlog (by omega) ha 5) fun out ho => .pure ho.2
  · exact (Deflate.deflateZlibPacked_ok ha env.deflate hp data o.level (by omega)).mono fun r hr => hr.1.2

theorem emit_size {h rb bpp : Nat} (henv : EnvOk env h) {pool : Pool} (hp : POk pool) (o : Options)
    {raw : List UInt8} (hbpp : bpp ≤ rb) (hlen : raw.length = h * rb) (hsz : h * (1 + rb) + 2 < 2 ^ 30)
    (output : List UInt8) (width : Nat) (st : Strategy) :
    Oks (emit env pool output raw width h rb bpp st o) fun r => r.1.length ≤ output.length + dataMost (h * (1 + rb)) := by
  unfold emit
  refine Oks.bind (Filter.applyFilters_ok env.deflate.level env.sched width hbpp hlen st henv.sched) fun scan hs => ?_
  have hsl := (scanlines_length hs).1
  rw [show (Filter.rowsOf raw rb h).length = h by simp [Filter.rowsOf]] at hsl
  refine Oks.bind (compress_size ha henv.log hp o (by rw [hsl]; exact hsz)) fun r hr => .pure ?_
  show (writeIend (writeIdat _ _)).length ≤ _
  unfold writeIend
  rw [writeChunk_length, writeIdat_length, ← hsl, show nIEND.length = 4 from rfl, List.length_nil]
  unfold dataMost
  have := Nat.div_le_div_right (c := 262144) (show r.1.length + 262143 ≤ zlibMost scan.length + 262143 by omega)
  omega

omit ha in
theorem writeIhdr_length (output : List UInt8) (w h d : Nat) (c : UInt8) :
    (writeIhdr output w h d c).length = output.length + 25 := by
  unfold writeIhdr
  rw [writeChunk_length]
  simp only [List.length_append, be32_length, List.length_cons, List.length_nil]
  rfl

omit ha in
theorem writePalette_length (output : List UInt8) {p : Option (List Palette.Rgba)} (h : ∀ c, p = some c → c.length ≤ 256) :
    (writePalette output p).length ≤ output.length + 1048 := by
  cases p with
  | none => show output.length ≤ _; omega
  | some c =>
    have := h c rfl
    unfold writePalette
    dsimp only
    split
    · rw [writeChunk_length, writeChunk_length, plteBytes_length, List.length_map, List.length_map,
        show nPLTE.length = 4 from rfl, show nTRNS.length = 4 from rfl]
      omega
    · rw [writeChunk_length, plteBytes_length, List.length_map, show nPLTE.length = 4 from rfl]
      omega

end

/-- The rows of the format chosen are no longer than those given. -/
theorem chosen_bits {o : Options} {p : Nat → Spec.Png.Rgba} {c d : Nat} (h : Chosen o p c d)
    (hop : o.colorType = .rgb → AllOpaque (o.width * o.height) p) :
    samples c * d ≤ o.colorType.bytesPerPixel * 8 := by
  have hd : ∀ {d : Nat} {P : Nat → Prop}, Spec.Png.LeastDepth d P → d ≤ 8 := fun {d P} h => by
    have := h.mem
    simp only [List.mem_cons, List.not_mem_nil, or_false] at this
    omega
  by_cases hct : o.colorType = .rgb ∨ o.colorType = .rgba
  · have hb : 3 ≤ o.colorType.bytesPerPixel := by rcases hct with e | e <;> rw [e] <;> decide
    by_cases hp : o.reducePalette = true ∧ Within (o.width * o.height) 256 p
    · obtain ⟨rfl, hl⟩ := h.palette hct hp.1 hp.2
      have := hd hl
      show 1 * d ≤ _
      omega
    · cases hr : o.reduceColorType with
      | false =>
        obtain ⟨rfl, rfl⟩ := h.kept hct hp hr
        rcases hct with e | e <;> rw [e] <;> decide
      | true =>
        obtain ⟨h1, h2, h3, h4⟩ := h.reduced hct hp hr
        by_cases hg : AllGray (o.width * o.height) p <;> by_cases hO : AllOpaque (o.width * o.height) p
        · obtain ⟨rfl, hl⟩ := h1 hg hO
          have := hd hl
          show 1 * d ≤ _
          omega
        · obtain ⟨rfl, rfl⟩ := h3 hg hO
          show 16 ≤ _
          omega
        · obtain ⟨rfl, rfl⟩ := h2 hg hO
          show 24 ≤ _
          omega
        · obtain ⟨rfl, rfl⟩ := h4 hg hO
          rcases hct with e | e
          · exact absurd (hop e) hO
          · rw [e]; decide
  · have hg : o.colorType = .gray ∨ o.colorType = .grayAlpha := by
      cases e : o.colorType <;> simp [e] at hct ⊢
    obtain ⟨rfl, rfl⟩ := h.gray hg
    rcases hg with e | e <;> rw [e] <;> decide

/-- The most bytes of a file with rows of `rb` bytes. -/
def fileMost (h rb : Nat) : Nat := 33 + 1048 + dataMost (h * (1 + rb))

section
variable {env : Env} {sum : List UInt8 → Nat} (ha : SumOk (Simd.adler32 env.deflate.level) sum)
include ha

theorem writeImage_size {o : Options} (henv : EnvOk env o.height) {pool : Pool} (hp : POk pool) (output : List UInt8)
    {data : List UInt8} (hd : Dims o.width o.height) (hs : Small o.width o.height)
    (hl : data.length = o.width * o.height * o.colorType.bytesPerPixel) :
    Oks (writeImage env pool output data o) fun r => r.1.length ≤ fileMost o.height (o.width * o.colorType.bytesPerPixel) := by
  have e : writeImage env pool output data o = prepare data o >>= fun q =>
      emit env pool (writePalette (writeIhdr (clear output ++ signature) o.width o.height q.1.depth q.1.colour) q.1.palette)
        q.2 o.width o.height (rowBytes o.width q.1) q.1.bpp o.strategy o := by
    unfold writeImage prepare emit
    simp only [bind_assoc, pure_bind]
  rw [e]
  obtain ⟨q, eq, f, hf, hk⟩ := (prepare_ok hd hl hs.pixels).out
  rw [eq, ok_bind]
  have hc := prepare_chosen hd hl hs.pixels eq
  have hb := chosen_bits hc (fun e => by rw [e]; exact opaque_rgb _ _)
  have hok := hf.ok
  have hbpp : (headerOf o.width o.height q.1).bpp ≤ (headerOf o.width o.height q.1).rowBytes := by
    have hw := hok.1
    unfold Header.bpp Header.rowBytes
    generalize headerOf o.width o.height q.1 = hd at hw
    have : samples hd.colour * hd.depth ≤ hd.width * samples hd.colour * hd.depth := by
      rw [Nat.mul_assoc]; exact Nat.le_mul_of_pos_left _ hw
    omega
  have hrow : (headerOf o.width o.height q.1).rowBytes ≤ o.width * o.colorType.bytesPerPixel := by
    show (o.width * samples q.1.colour.toNat * q.1.depth + 7) / 8 ≤ _
    have : o.width * (samples q.1.colour.toNat * q.1.depth) ≤ o.width * (o.colorType.bytesPerPixel * 8) :=
      Nat.mul_le_mul_left _ hb
    rw [← Nat.mul_assoc, ← Nat.mul_assoc] at this
    omega
  rw [hf.rb, hf.bpp]
  refine (emit_size ha henv hp o hbpp hf.stored.len (Small.rows (hd := headerOf o.width o.height q.1) hs hf.d8) _ o.width
    o.strategy).mono fun r hr => ?_
  refine Nat.le_trans hr ?_
  have h1 := writePalette_length (writeIhdr (clear output ++ signature) o.width o.height q.1.depth q.1.colour)
    (p := q.1.palette) (fun c hc => by
      obtain ⟨-, -, h2⟩ := hf.colours c hc
      have : 2 ^ q.1.depth ≤ 2 ^ 8 := Nat.pow_le_pow_right (by decide) hf.d8
      omega)
  rw [writeIhdr_length, List.length_append, show (clear output).length = 0 by simp [clear], show signature.length = 8 from rfl] at h1
  have h2 : dataMost (o.height * (1 + (headerOf o.width o.height q.1).rowBytes)) ≤
      dataMost (o.height * (1 + o.width * o.colorType.bytesPerPixel)) :=
    dataMost_mono (Nat.mul_le_mul_left _ (by omega))
  unfold fileMost
  omega

theorem encodePlain_size {o : Options} (henv : EnvOk env o.height) {pool : Pool} (hp : POk pool) (output : List UInt8)
    {data : List UInt8} (hd : Dims o.width o.height) (hs : Small o.width o.height)
    (hl : data.length = o.width * o.height * o.colorType.bytesPerPixel) :
    Oks (encodePlain env pool output data o) fun r => r.1.length ≤ fileMost o.height (o.width * o.colorType.bytesPerPixel) := by
  unfold encodePlain
  obtain ⟨r, er, hr⟩ := (writeImage_size ha henv hp output hd hs hl).out
  obtain ⟨r', er', ⟨q, f, eq, ⟨_, _, _, _, ht, _⟩, -⟩, -⟩ := (writeImage_as ha henv hp output hd hs hl).out
  rw [er] at er'
  cases er'
  rw [er, ok_bind]
  dsimp only
  split
  · rw [Tight_strip ht]
    exact Oks.pure hr
  · exact Oks.pure hr

theorem writeIndexed_size {w h : Nat} (henv : EnvOk env h) {pool : Pool} (hp : POk pool) (output : List UInt8)
    {data : List UInt8} (hd : Dims w h) (hs : Small w h) (hl : data.length = w * h)
    {palette : List (UInt8 × UInt8 × UInt8)} {transparency : Option (List UInt8)}
    (hp2 : palette.length ≤ 256) (ht : (transparency.getD []).length ≤ palette.length) (o : Options) :
    Oks (writeIndexed env pool output data w h palette transparency o) fun r => r.1.length ≤ fileMost h w := by
  have e : writeIndexed env pool output data w h palette transparency o =
      emit env pool (writeTrns (writeChunk (writeIhdr (clear output ++ signature) w h 8 3) nPLTE (plteBytes palette))
        transparency) data w h (w * 1) 1 (indexedStrategy o.strategy) o := rfl
  rw [e, Nat.mul_one]
  have hsz : h * (1 + w) + 2 < 2 ^ 30 := by
    have := hs
    unfold Small at this
    have : h * (1 + w) ≤ h * (1 + 4 * w) := Nat.mul_le_mul_left _ (by omega)
    omega
  refine (emit_size ha henv hp o hd.w0 (by rw [hl, Nat.mul_comm]) hsz _ w _).mono fun r hr => Nat.le_trans hr ?_
  have h1 : (writeTrns (writeChunk (writeIhdr (clear output ++ signature) w h 8 3) nPLTE (plteBytes palette)) transparency).length
      ≤ 33 + 1048 := by
    have h0 : (writeChunk (writeIhdr (clear output ++ signature) w h 8 3) nPLTE (plteBytes palette)).length ≤ 33 + 780 := by
      rw [writeChunk_length, writeIhdr_length, List.length_append, plteBytes_length,
        show (clear output).length = 0 by simp [clear], show signature.length = 8 from rfl, show nPLTE.length = 4 from rfl]
      omega
    unfold writeTrns
    cases transparency with
    | none => dsimp only; omega
    | some t =>
      have : t.length ≤ palette.length := ht
      dsimp only
      rw [writeChunk_length, show nTRNS.length = 4 from rfl]
      omega
  unfold fileMost
  omega

theorem encodeIndexedInto_size {w h : Nat} (henv : EnvOk env h) {pool : Pool} (hp : POk pool) (output : List UInt8)
    {data : List UInt8} (hd : Dims w h) (hs : Small w h) (hl : data.length = w * h)
    {palette : List (UInt8 × UInt8 × UInt8)} {transparency : Option (List UInt8)} (hp1 : 1 ≤ palette.length)
    (hp2 : palette.length ≤ 256) (ht : (transparency.getD []).length ≤ palette.length) (o : Options) :
    Oks (encodeIndexedInto env pool output data w h palette transparency o) fun r => r.1.length ≤ fileMost h w := by
  have hpx := hs.pixels
  have e : checkIndexed data w h palette transparency = .ok () := by
    unfold checkIndexed checkLen expectedLen
    rw [if_neg (by omega), if_neg (by omega), if_pos ⟨by omega, by omega⟩, ok_bind, if_neg (by rw [hl]; simp)]
    rfl
  unfold encodeIndexedInto
  rw [e, ok_bind]
  exact writeIndexed_size ha henv hp output hd hs hl hp2 ht o

omit ha in
theorem fileMost_mono {h m n : Nat} (hmn : m ≤ n) : fileMost h m ≤ fileMost h n := by
  have : dataMost (h * (1 + m)) ≤ dataMost (h * (1 + n)) := dataMost_mono (Nat.mul_le_mul_left _ (by omega))
  unfold fileMost
  omega

theorem encodeWith_size {data : List UInt8} {o : Options} (h : Valid data o) (henv : EnvOk env o.height) {pool : Pool}
    (hp : POk pool) (output : List UInt8) (hs : Small o.width o.height) :
    Oks (encodeWith env pool output data o) fun r => r.1.length ≤ fileMost o.height (o.width * o.colorType.bytesPerPixel) := by
  have hd : Dims o.width o.height := ⟨h.w0, h.h0, by have := h.w1; omega, by have := h.h1; omega⟩
  unfold encodeWith
  rw [checkInput_ok h, ok_bind]
  refine Oks.bind (shouldQuantize_ok h) fun q hq => ?_
  cases q with
  | false =>
    rw [if_neg (by decide)]
    exact encodePlain_size ha henv hp output hd hs h.len
  | true =>
    obtain ⟨hm, hct⟩ := hq rfl
    rw [if_pos rfl]
    unfold encodeQuantized
    have hpos := Nat.mul_pos hd.w0 hd.h0
    refine Oks.bind (Quantize.quantizeImage_ok env.quantize hct h.len hpos hs.pixels (m := min o.quantization.maxColors 256)
      (by omega) o.quantization.dithering) fun q hq => ?_
    obtain ⟨hq, -⟩ := hq
    have h1 := hq.one
    have h2 := hq.le
    refine (encodeIndexedInto_size ha henv hp output hd hs hq.len (by rw [List.length_map]; exact h1)
      (by rw [List.length_map]; omega) (by rw [List.length_map]; exact Nat.le_trans (trim_length _) (by simp)) o).mono
      fun r hr => Nat.le_trans hr (fileMost_mono (Nat.le_mul_of_pos_right _ ?_))
    rcases hct with e | e <;> rw [e] <;> decide

end

end Pixo.Png
