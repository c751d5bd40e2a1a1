import Verif.Proof.Pnm
/-
C46: what the command line tool reads from binary PGM and PPM files.
-/
namespace Pixo.Props
open Pixo.Cli
open Spec.Pnm (Kind WellFormed Strips Comments netpbm unix White Decimal IsSpace)

/-- The colour type of an image of a kind. -/
def kindColor : Kind → ColorType
  | .pgm => .gray
  | .ppm => .rgb

theorem magic_type (kind : Kind) : magicType kind.magic = .ok (kindColor kind) := by cases kind <;> decide

/-- Reading standard input is the same as reading a file: the comparison of the magic number with the
format found before never fails. -/
theorem C46_stdin (adler : List UInt8 → Nat) (ck : Bool) (data : List UInt8) :
    loadImageFromBytes adler ck data = loadImage adler ck data := by
  unfold loadImageFromBytes loadImage
  have key : ∀ (c : UInt8) (rest : List UInt8), isAsciiWhitespace c = false → c ≠ 35 →
      ∃ t, (readToken (0x50 :: c :: rest)).1 = 0x50 :: c :: t := by
    intro c rest h1 h2
    obtain ⟨t, e⟩ := readLoop_prefix false [0x50, c] rest
    refine ⟨t, ?_⟩
    unfold readToken
    rw [readLoop, if_neg (by decide), if_neg (by decide), if_neg (by decide), readLoop, if_neg (by decide),
      if_neg (by simpa using h2), if_neg (by rw [h1]; decide)]
    simpa using e
  cases hd : detectFormat data with
  | error e => rfl
  | ok f =>
    cases f with
    | png => rfl
    | jpeg => rfl
    | ppm =>
      show decodePnmFromBytes ck .ppm data = decodePnm ck data
      have hp : ∃ rest, data = 0x50 :: 0x36 :: rest := by
        unfold detectFormat at hd
        split at hd; · cases hd
        split at hd; · cases hd
        split at hd; · cases hd
        split at hd
        · rename_i h
          rw [List.isPrefixOf_iff_prefix] at h
          obtain ⟨r, e⟩ := h
          exact ⟨r, e.symm⟩
        · split at hd <;> cases hd
      obtain ⟨rest, rfl⟩ := hp
      obtain ⟨t, e⟩ := key 0x36 rest (by decide) (by decide)
      unfold decodePnmFromBytes decodePnm
      simp only [e]
      unfold magicType
      rw [if_neg (by simp)]
      by_cases ht : (0x50 : UInt8) :: 0x36 :: t = [0x50, 0x36]
      · rw [if_pos ht, ok_bind, ok_bind, if_neg (by simp [ht])]
      · rw [if_neg ht]; rfl
    | pgm =>
      show decodePnmFromBytes ck .pgm data = decodePnm ck data
      have hp : ∃ rest, data = 0x50 :: 0x35 :: rest := by
        unfold detectFormat at hd
        split at hd; · cases hd
        split at hd; · cases hd
        split at hd; · cases hd
        split at hd; · cases hd
        split at hd
        · rename_i h
          rw [List.isPrefixOf_iff_prefix] at h
          obtain ⟨r, e⟩ := h
          exact ⟨r, e.symm⟩
        · cases hd
      obtain ⟨rest, rfl⟩ := hp
      obtain ⟨t, e⟩ := key 0x35 rest (by decide) (by decide)
      unfold decodePnmFromBytes decodePnm
      simp only [e]
      unfold magicType
      by_cases ht : (0x50 : UInt8) :: 0x35 :: t = [0x50, 0x35]
      · rw [if_pos ht, ok_bind, ok_bind, if_neg (by simp [ht])]
      · rw [if_neg ht, if_neg (by simp)]; rfl

/-- The tokens of a well-formed file, read by the tool. -/
theorem load_wellFormed (adler : List UInt8 → Nat) (ck : Bool) {kind : Kind} {w h m : Nat} {text raster file : List UInt8}
    (hf : WellFormed unix kind w h m text raster file) (hw : w < 2 ^ 32) (hh : h < 2 ^ 32) :
    ∃ more, loadImage adler ck file =
      (if m ≠ 255 then .error .invalid
      else do
        let size ← expectedSize ck w h (kindColor kind).bytesPerPixel
        if (raster ++ more).length < size then .error .invalid
        else .ok ⟨w, h, (raster ++ more).take size, kindColor kind⟩) := by
  obtain ⟨r1, r2, r3, d1, d2, d3, more, e1, e2, e3, e4, hd1, hd2, hd3⟩ := header_tokens hf
  refine ⟨more, ?_⟩
  have hm : m < 2 ^ 32 := by have := hf.maxval_range; omega
  have hdec : decodePnm ck file = decodePnmRest ck (kindColor kind) r1 := by
    unfold decodePnm
    simp only [e1]
    rw [magic_type, ok_bind]
  have hl : loadImage adler ck file = decodePnm ck file := by
    unfold loadImage
    rw [wellFormed_detect hf]
    cases kind <;> rfl
  rw [hl, hdec]
  unfold decodePnmRest
  simp only [e2, e3, e4, parseU32_decimal hd1 hw, parseU32_decimal hd2 hh, parseU32_decimal hd3 hm, ok_bind]

/-- C46 (part): a file whose comments end with LF, with a maxval of 255, is read as the declared image
with the bytes of the raster, from a file and from standard input. The full statement has comments as in
Netpbm and any maxval; both fail, see below. -/
theorem C46_partial (adler : List UInt8 → Nat) (ck : Bool) (kind : Kind) (w h : Nat) (text raster file : List UInt8)
    (hf : WellFormed unix kind w h 255 text raster file) (hw : w < 2 ^ 32) (hh : h < 2 ^ 32) (hr : raster.length < 2 ^ 63) :
    loadImage adler ck file = .ok ⟨w, h, raster, kindColor kind⟩ ∧
      loadImageFromBytes adler ck file = .ok ⟨w, h, raster, kindColor kind⟩ := by
  rw [C46_stdin, and_self]
  obtain ⟨more, e⟩ := load_wellFormed adler ck hf hw hh
  have hb : (kindColor kind).bytesPerPixel = kind.samples := by cases kind <;> rfl
  have hs := hf.size
  rw [if_pos (by decide), Nat.mul_one] at hs
  have hsz : expectedSize ck w h (kindColor kind).bytesPerPixel = .ok raster.length := by
    unfold expectedSize
    rw [hb, ← hs, if_neg (fun h => by have := h.2; omega)]
    simp only []
    rw [Nat.mod_eq_of_lt (by omega), if_neg (by omega)]
  rw [e, if_neg (by decide), hsz, ok_bind, if_neg (by simp), List.take_left']
  rfl

/-- Without CR in the header, the two readings of comments agree. -/
theorem strips_netpbm {l t : List UInt8} (h : Strips netpbm l t) (hc : 13 ∉ l) : Strips unix l t := by
  induction h with
  | nil => exact .nil
  | byte hb _ ih => exact .byte hb (ih fun h => hc (by simp [h]))
  | @comment inner e l t hi he r ih =>
    refine .comment (fun b hb => (hi b hb).1) ?_ (ih fun h => hc (by simp [h]))
    rcases he with rfl | rfl
    · rfl
    · exact absurd (by simp) hc

/-- C46 as Netpbm defines comments, for headers without CR. -/
theorem C46_no_cr_partial (adler : List UInt8 → Nat) (ck : Bool) (kind : Kind) (w h : Nat) (text raster file : List UInt8)
    (hf : WellFormed netpbm kind w h 255 text raster file) (hc : 13 ∉ text) (hw : w < 2 ^ 32) (hh : h < 2 ^ 32)
    (hr : raster.length < 2 ^ 63) :
    loadImage adler ck file = .ok ⟨w, h, raster, kindColor kind⟩ := by
  refine (C46_partial adler ck kind w h text raster file ⟨?_, hf.width_pos, hf.height_pos, hf.maxval_range, hf.size⟩
    hw hh hr).1
  obtain ⟨t, del, more, w1, d1, w2, d2, w3, d3, e, h1, h2, h3⟩ := hf.parts
  exact ⟨t, del, more, w1, d1, w2, d2, w3, d3, e, h1, strips_netpbm h2 hc, h3⟩

/-- C46 fails for every maxval other than 255: such files are refused. -/
theorem C46_maxval (adler : List UInt8 → Nat) (ck : Bool) (kind : Kind) (w h m : Nat) (text raster file : List UInt8)
    (hf : WellFormed unix kind w h m text raster file) (hw : w < 2 ^ 32) (hh : h < 2 ^ 32) (hm : m ≠ 255) :
    loadImage adler ck file = .error .invalid := by
  obtain ⟨more, e⟩ := load_wellFormed adler ck hf hw hh
  rw [e, if_pos hm]

/-- `P5#a\n\n 2# b\n#c\n1 1\t255\n` and the raster `7 8 … ` of 21 bytes: a comment in the middle of a number. -/
def pgmText : List UInt8 := [35, 97, 10, 10, 32, 50, 35, 32, 98, 10, 35, 99, 10, 49, 32, 49, 9, 50, 53, 53]

def pgmRaster : List UInt8 := List.replicate 20 7 ++ [8]

theorem pgm_wellFormed (c : Comments) (hc : ∀ b : UInt8, b ≠ 10 → b ≠ 13 → c.inside b) (he : c.ends 10) :
    WellFormed c .pgm 21 1 255 pgmText pgmRaster ([80, 53] ++ pgmText ++ 10 :: (pgmRaster ++ [1, 2])) := by
  refine ⟨⟨_, 10, [1, 2], [10, 32], [50, 49], [32], [49], [9], [50, 53, 53], rfl, .inr (.inr (.inl rfl)), ?_, rfl,
    ⟨by decide, ?_⟩, ⟨by decide, ?_, rfl⟩, ⟨by decide, ?_⟩, ⟨by decide, ?_, rfl⟩, ⟨by decide, ?_⟩,
    ⟨by decide, ?_, rfl⟩⟩, by decide, by decide, by decide, rfl⟩
  · have i : ∀ l : List UInt8, 10 ∉ l → 13 ∉ l → ∀ b ∈ l, c.inside b := fun l h1 h2 b hb =>
      hc b (fun h => h1 (h ▸ hb)) (fun h => h2 (h ▸ hb))
    exact .comment (inner := [97]) (i _ (by decide) (by decide)) he (.byte (by decide) (.byte (by decide) (.byte (by decide)
      (.comment (inner := [32, 98]) (i _ (by decide) (by decide)) he (.comment (inner := [99]) (i _ (by decide) (by decide)) he
      (.byte (by decide) (.byte (by decide) (.byte (by decide) (.byte (by decide) (.byte (by decide) (.byte (by decide)
      (.byte (by decide) .nil))))))))))))
  all_goals
    simp only [List.mem_cons, List.not_mem_nil, or_false, forall_eq_or_imp, forall_eq, IsSpace, Spec.Pnm.IsDigit]
    decide

example : loadImage (fun _ => 0) true ([80, 53] ++ pgmText ++ 10 :: (pgmRaster ++ [1, 2])) =
    .ok ⟨21, 1, pgmRaster, .gray⟩ :=
  (C46_partial _ _ .pgm 21 1 pgmText pgmRaster _ (pgm_wellFormed _ (fun b h _ => h) rfl) (by decide) (by decide)
    (by decide)).1

/-- `P5#a\r1 1 255\n\7`: a comment ended by CR. -/
def crText : List UInt8 := [35, 97, 13, 32, 49, 32, 49, 32, 50, 53, 53]

/-- C46 is violated: a well-formed file with a comment that ends with CR is refused, because the tool
takes everything up to the next LF for the comment. -/
theorem C46_cr_violated : WellFormed netpbm .pgm 1 1 255 crText [7] ([80, 53] ++ crText ++ 10 :: [7]) ∧
    ∀ adler ck, loadImage adler ck ([80, 53] ++ crText ++ 10 :: [7]) = .error .invalid := by
  refine ⟨⟨⟨_, 10, [], [32], [49], [32], [49], [32], [50, 53, 53], rfl, .inr (.inr (.inl rfl)), ?_, rfl,
    ⟨by decide, ?_⟩, ⟨by decide, ?_, rfl⟩, ⟨by decide, ?_⟩, ⟨by decide, ?_, rfl⟩, ⟨by decide, ?_⟩,
    ⟨by decide, ?_, rfl⟩⟩, by decide, by decide, by decide, rfl⟩, fun _ ck => ?_⟩
  · exact .comment (inner := [97]) (by unfold netpbm; decide) (.inr rfl) (.byte (by decide) (.byte (by decide)
      (.byte (by decide) (.byte (by decide) (.byte (by decide) (.byte (by decide) (.byte (by decide)
      (.byte (by decide) .nil))))))))
  all_goals try
    simp only [List.mem_cons, List.not_mem_nil, or_false, forall_eq_or_imp, forall_eq, IsSpace, Spec.Pnm.IsDigit]
    decide
  rfl

/-- `P5 1 1 15\n\7`: a well-formed file that is refused for its maxval. -/
theorem C46_maxval_violated : WellFormed netpbm .pgm 1 1 15 [32, 49, 32, 49, 32, 49, 53] [7]
      ([80, 53] ++ [32, 49, 32, 49, 32, 49, 53] ++ 10 :: [7]) ∧
    ∀ adler ck, loadImage adler ck ([80, 53] ++ [32, 49, 32, 49, 32, 49, 53] ++ 10 :: [7]) = .error .invalid := by
  have key : ∀ c, WellFormed c .pgm 1 1 15 [32, 49, 32, 49, 32, 49, 53] [7]
      ([80, 53] ++ [32, 49, 32, 49, 32, 49, 53] ++ 10 :: [7]) := fun c => by
    refine ⟨⟨_, 10, [], [32], [49], [32], [49], [32], [49, 53], rfl, .inr (.inr (.inl rfl)), ?_, rfl,
      ⟨by decide, ?_⟩, ⟨by decide, ?_, rfl⟩, ⟨by decide, ?_⟩, ⟨by decide, ?_, rfl⟩, ⟨by decide, ?_⟩,
      ⟨by decide, ?_, rfl⟩⟩, by decide, by decide, by decide, rfl⟩
    · exact (.byte (by decide) (.byte (by decide) (.byte (by decide) (.byte (by decide) (.byte (by decide) (.byte (by decide)
        (.byte (by decide) .nil)))))))
    all_goals
      simp only [List.mem_cons, List.not_mem_nil, or_false, forall_eq_or_imp, forall_eq, IsSpace, Spec.Pnm.IsDigit]
      decide
  exact ⟨key _, fun adler ck => C46_maxval adler ck .pgm 1 1 15 _ [7] _ (key _) (by decide) (by decide) (by decide)⟩

/-! ### Every file -/

/-- A file that is taken for a PGM or PPM file. -/
def TakenForPnm (data : List UInt8) : Prop := detectFormat data = .ok .pgm ∨ detectFormat data = .ok .ppm

theorem taken_load (adler : List UInt8 → Nat) (ck : Bool) {data : List UInt8} (h : TakenForPnm data) :
    loadImage adler ck data = decodePnm ck data := by
  unfold loadImage
  rcases h with h | h <;> rw [h] <;> rfl

theorem parseDigits_lt {acc n : Nat} {l : List UInt8} (ha : acc < 2 ^ 32) (h : parseDigits acc l = some n) : n < 2 ^ 32 := by
  induction l generalizing acc with
  | nil => simp only [parseDigits, Option.some.injEq] at h; omega
  | cons b l ih =>
    unfold parseDigits at h
    simp only [] at h
    split at h
    · split at h
      · rename_i h2; exact ih h2 h
      · cases h
    · cases h

theorem parseU32_cases (t : List UInt8) : parseU32 t = .error .invalid ∨ ∃ n, parseU32 t = .ok n ∧ n < 2 ^ 32 := by
  unfold parseU32
  split
  · exact .inl rfl
  · cases h : parseDigits 0 (skipPlus t) with
    | none => exact .inl rfl
    | some n => exact .inr ⟨n, rfl, parseDigits_lt (by decide) h⟩

/-- What a file that is taken for a PGM or PPM file can give: an error; a panic, if the header declares
at least 2^63 bytes; or an image of the size the header declares (modulo 2^64 without checked arithmetic),
whose pixels are successive bytes of the file. -/
theorem pnm_cases (ck : Bool) (data : List UInt8) :
    decodePnm ck data = .error .invalid ∨
    ∃ w h ct, w < 2 ^ 32 ∧ h < 2 ^ 32 ∧ (ct = .gray ∨ ct = .rgb) ∧
      ((2 ^ 63 ≤ w * h * ct.bytesPerPixel ∧ decodePnm ck data = .error .panic) ∨
       ∃ pixels, decodePnm ck data = .ok ⟨w, h, pixels, ct⟩ ∧ pixels <:+: data ∧
        pixels.length = w * h * ct.bytesPerPixel % 2 ^ 64 ∧
        (ck = true → pixels.length = w * h * ct.bytesPerPixel)) := by
  unfold decodePnm
  simp only []
  have hm : magicType (readToken data).1 = .error .invalid ∨
      ∃ ct, magicType (readToken data).1 = .ok ct ∧ (ct = .gray ∨ ct = .rgb) := by
    unfold magicType
    split
    · exact .inr ⟨_, rfl, .inl rfl⟩
    · split
      · exact .inr ⟨_, rfl, .inr rfl⟩
      · exact .inl rfl
  rcases hm with hm | ⟨ct, hm, hct⟩
  · rw [hm]; exact .inl rfl
  rw [hm, ok_bind]
  have s1 := readLoop_suffix false [] data
  change (readToken data).2 <:+ data at s1
  generalize (readToken data).2 = d1 at s1 ⊢
  unfold decodePnmRest
  simp only []
  have s2 := readLoop_suffix false [] d1
  change (readToken d1).2 <:+ d1 at s2
  rcases parseU32_cases (readToken d1).1 with e | ⟨w, e, hw⟩
  · rw [e]; exact .inl rfl
  rw [e, ok_bind]
  generalize (readToken d1).2 = d2 at s2 ⊢
  have s3 := readLoop_suffix false [] d2
  change (readToken d2).2 <:+ d2 at s3
  rcases parseU32_cases (readToken d2).1 with e | ⟨h, e, hh⟩
  · rw [e]; exact .inl rfl
  rw [e, ok_bind]
  generalize (readToken d2).2 = d3 at s3 ⊢
  have s4 := readLoop_suffix false [] d3
  change (readToken d3).2 <:+ d3 at s4
  rcases parseU32_cases (readToken d3).1 with e | ⟨m, e, -⟩
  · rw [e]; exact .inl rfl
  rw [e, ok_bind]
  generalize (readToken d3).2 = d4 at s4 ⊢
  by_cases hm : m ≠ 255
  · rw [if_pos hm]; exact .inl rfl
  rw [if_neg hm]
  have hsize : (2 ^ 63 ≤ w * h * ct.bytesPerPixel ∧ expectedSize ck w h ct.bytesPerPixel = .error .panic) ∨
      (∃ n, expectedSize ck w h ct.bytesPerPixel = .ok n ∧ n = w * h * ct.bytesPerPixel % 2 ^ 64 ∧
        (ck = true → n = w * h * ct.bytesPerPixel)) := by
    unfold expectedSize
    generalize w * h * ct.bytesPerPixel = k
    by_cases h1 : ck = true ∧ 2 ^ 64 ≤ k
    · rw [if_pos h1]; exact .inl ⟨by omega, rfl⟩
    · rw [if_neg h1]
      simp only []
      by_cases h2 : 2 ^ 63 ≤ k % 2 ^ 64
      · rw [if_pos h2]; exact .inl ⟨by have := Nat.mod_le k (2 ^ 64); omega, rfl⟩
      · rw [if_neg h2]
        refine .inr ⟨_, rfl, rfl, fun hck => Nat.mod_eq_of_lt ?_⟩
        exact Nat.lt_of_not_le fun h => h1 ⟨hck, h⟩
  rcases hsize with ⟨h1, h2⟩ | ⟨n, h1, h2, h3⟩
  · rw [h2]
    exact .inr ⟨w, h, ct, hw, hh, hct, .inl ⟨h1, rfl⟩⟩
  · rw [h1, ok_bind]
    by_cases hl : d4.length < n
    · rw [if_pos hl]; exact .inl rfl
    · rw [if_neg hl]
      have hlen : (d4.take n).length = n := by rw [List.length_take]; omega
      refine .inr ⟨w, h, ct, hw, hh, hct, .inr ⟨_, rfl, ?_, by rw [hlen, h2], fun hck => by rw [hlen]; exact h3 hck⟩⟩
      exact (List.take_prefix n d4).isInfix.trans (((s4.trans s3).trans s2).trans s1).isInfix

/-- C46, for every file taken for a PGM or PPM file, well-formed or not: no endless loop, no panic unless
at least 2^63 bytes are declared, and with checked arithmetic as many bytes as declared, taken from the
file. -/
theorem C46_every_file (adler : List UInt8 → Nat) (ck : Bool) (data : List UInt8) (h : TakenForPnm data) :
    loadImage adler ck data = .error .invalid ∨
    ∃ w h ct, w < 2 ^ 32 ∧ h < 2 ^ 32 ∧ (ct = .gray ∨ ct = .rgb) ∧
      ((2 ^ 63 ≤ w * h * ct.bytesPerPixel ∧ loadImage adler ck data = .error .panic) ∨
       ∃ pixels, loadImage adler ck data = .ok ⟨w, h, pixels, ct⟩ ∧ pixels <:+: data ∧
        pixels.length = w * h * ct.bytesPerPixel % 2 ^ 64 ∧
        (ck = true → pixels.length = w * h * ct.bytesPerPixel)) := by
  rw [taken_load adler ck h]
  exact pnm_cases ck data

/-- `P6 2900561549 4239809835 255\n` and thirteen bytes. -/
def wrapFile : List UInt8 :=
  [80, 54, 32, 50, 57, 48, 48, 53, 54, 49, 53, 52, 57, 32, 52, 50, 51, 57, 56, 48, 57, 56, 51, 53, 32, 50, 53, 53, 10,
    1, 2, 3, 4, 5, 6, 7, 8, 9, 10, 11, 12, 13]

/-- Without checked arithmetic, a file of 42 bytes is read as an image of 2900561549 by 4239809835 pixels:
the size in bytes is 13 modulo 2^64. With checked arithmetic the same file causes a panic. -/
theorem C46_wrap_violated : TakenForPnm wrapFile ∧
    (∀ adler, loadImage adler false wrapFile =
      .ok ⟨2900561549, 4239809835, [1, 2, 3, 4, 5, 6, 7, 8, 9, 10, 11, 12, 13], .rgb⟩) ∧
    ∀ adler, loadImage adler true wrapFile = .error .panic := by
  have h : TakenForPnm wrapFile := .inr (by decide)
  refine ⟨h, fun adler => ?_, fun adler => ?_⟩
  · rw [taken_load adler _ h]; decide +kernel
  · rw [taken_load adler _ h]; decide +kernel

end Pixo.Props
