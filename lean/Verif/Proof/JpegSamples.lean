import Verif.Proof.JpegFile
/-
The samples of the blocks: exactly the level shifted components of the image.
-/
namespace Pixo.F32

theorem rndI_scaled (m : Int) (e d : Nat) (hm : m.natAbs < 2 ^ 24) (hd : 0 < d) :
    rndI (m * 2 ^ e * d) d = m * 2 ^ e := by
  have hc : ∀ n : Nat, (n : Int) * 2 ^ e * d = ((n * 2 ^ e * d : Nat) : Int) := by
    intro n
    rw [Int.natCast_mul, Int.natCast_mul, Int.natCast_pow]; rfl
  have hc2 : ∀ n : Nat, (n : Int) * 2 ^ e = ((n * 2 ^ e : Nat) : Int) := by
    intro n
    rw [Int.natCast_mul, Int.natCast_pow]; rfl
  by_cases h0 : 0 ≤ m
  · obtain ⟨n, rfl⟩ := Int.eq_ofNat_of_zero_le h0
    rw [rndI, hc, if_pos (Int.natCast_nonneg _), Int.toNat_natCast, rnd_exact n e d (by omega) hd, hc2]
  · obtain ⟨n, hn⟩ := Int.eq_ofNat_of_zero_le (a := -m) (by omega)
    obtain rfl : m = -(n : Int) := by omega
    have hpos : 0 < n * 2 ^ e * d := Nat.mul_pos (Nat.mul_pos (by omega) (Nat.two_pow_pos e)) hd
    rw [rndI, Int.neg_mul, Int.neg_mul, hc, if_neg (by omega), Int.neg_neg, Int.toNat_natCast,
      rnd_exact n e d (by omega) hd, hc2]

theorem add_scaled {x y : Int} (e : Nat) (h : (x + y).natAbs < 2 ^ 24) : add (x * 2 ^ e) (y * 2 ^ e) = (x + y) * 2 ^ e := by
  have := rndI_scaled (x + y) e 1 h (by decide)
  unfold add
  rw [← Int.add_mul]
  simpa using this

theorem sub_scaled {x y : Int} (e : Nat) (h : (x - y).natAbs < 2 ^ 24) : sub (x * 2 ^ e) (y * 2 ^ e) = (x - y) * 2 ^ e := by
  have := rndI_scaled (x - y) e 1 h (by decide)
  unfold sub
  rw [← Int.sub_mul]
  simpa using this

end Pixo.F32

namespace Pixo.Jpeg
open Pixo Spec.T81

theorem level_eq (v : UInt8) : level v = (4 * (v.toNat : Int) - 512) * 2 ^ 147 := by
  unfold level
  rw [ofInt_byte, show F32.ofInt 128 = 128 * 2 ^ 149 by decide +kernel,
    F32.sub_scaled 149 (by have := v.toNat_lt; omega)]
  omega

theorem mean4_eq (a b c d : UInt8) :
    mean4 a b c d = ((a.toNat : Int) + b.toNat + c.toNat + d.toNat - 512) * 2 ^ 147 := by
  have ha : 0 ≤ (a.toNat : Int) ∧ (a.toNat : Int) ≤ 255 := by have := a.toNat_lt; omega
  have hb : 0 ≤ (b.toNat : Int) ∧ (b.toNat : Int) ≤ 255 := by have := b.toNat_lt; omega
  have hc : 0 ≤ (c.toNat : Int) ∧ (c.toNat : Int) ≤ 255 := by have := c.toNat_lt; omega
  have hd : 0 ≤ (d.toNat : Int) ∧ (d.toNat : Int) ≤ 255 := by have := d.toNat_lt; omega
  unfold mean4
  simp only
  rw [ofInt_byte, ofInt_byte, ofInt_byte, ofInt_byte, show F32.ofInt 128 = 512 * 2 ^ 147 by decide +kernel,
    show F32.lit 1 4 = 2 ^ 147 by decide +kernel]
  generalize (a.toNat : Int) = a' at *
  generalize (b.toNat : Int) = b' at *
  generalize (c.toNat : Int) = c' at *
  generalize (d.toNat : Int) = d' at *
  rw [show (0 : Int) = 0 * 2 ^ 149 from rfl, F32.add_scaled 149 (by omega), F32.add_scaled 149 (by omega),
    F32.add_scaled 149 (by omega), F32.add_scaled 149 (by omega)]
  have hm : F32.mul ((0 + a' + b' + c' + d') * 2 ^ 149) (2 ^ 147) = (0 + a' + b' + c' + d') * 2 ^ 147 := by
    unfold F32.mul
    rw [Int.mul_right_comm, show (2 : Int) ^ 149 = (F32.one : Int) from rfl]
    exact F32.rndI_scaled _ 147 F32.one (by omega) (by decide)
  rw [hm, F32.sub_scaled 147 (by omega)]
  omega

/-- The components of the pixel at `(x, y)`, the last row and column going on for ever. -/
def yccAt (data : List UInt8) (w h : Nat) (color : ColorType) (x y : Nat) : UInt8 × UInt8 × UInt8 :=
  let i := min y (h - 1) * w + min x (w - 1)
  if color = .gray then (data.getD i 0, 128, 128)
  else rgbToYcbcr (data.getD (3 * i) 0) (data.getD (3 * i + 1) 0) (data.getD (3 * i + 2) 0)

/-- Component `c` of a pixel. -/
def comp (c : Nat) (p : UInt8 × UInt8 × UInt8) : Int := if c = 0 then p.1.toNat else if c = 1 then p.2.1.toNat else p.2.2.toNat

theorem comp_zero (p : UInt8 × UInt8 × UInt8) : comp 0 p = p.1.toNat := by simp [comp]
theorem comp_one (p : UInt8 × UInt8 × UInt8) : comp 1 p = p.2.1.toNat := by simp [comp]
theorem comp_two (p : UInt8 × UInt8 × UInt8) : comp 2 p = p.2.2.toNat := by simp [comp]

/-- Component `c` of the image at `(x, y)`. -/
def compAt (data : List UInt8) (w h : Nat) (color : ColorType) (c x y : Nat) : Int := comp c (yccAt data w h color x y)

/-- Four times the sample at `(x, y)` of component `c`: with 4:2:0 the chroma samples are means over two
by two pixels. -/
def sample4 (data : List UInt8) (w h : Nat) (color : ColorType) (sub : Subsampling) (c x y : Nat) : Int :=
  if c = 0 ∨ color = .gray ∨ sub = .s444 then 4 * compAt data w h color c x y
  else compAt data w h color c (2 * x) (2 * y) + compAt data w h color c (2 * x + 1) (2 * y) +
    compAt data w h color c (2 * x) (2 * y + 1) + compAt data w h color c (2 * x + 1) (2 * y + 1)

/-- The level shifted samples of a block. -/
def blockSamples (data : List UInt8) (w h : Nat) (color : ColorType) (sub : Subsampling) (c x y : Nat) : List Int :=
  (List.range 64).map (fun i => (sample4 data w h color sub c (x + i % 8) (y + i / 8) - 512) * 2 ^ 147)

theorem getChecked_getD {l : List UInt8} {i : Nat} (h : i < l.length) : getChecked l i = .ok (l.getD i 0) := by
  rw [getChecked, List.getD_eq_getElem?_getD, List.getElem?_eq_getElem h]; rfl

theorem pixelYcc_eq {data : List UInt8} {w h x y : Nat} {color : ColorType} (hw : 0 < w) (hh : 0 < h)
    (hc : color = .rgb ∨ color = .gray) (hl : data.length = w * h * bpp color) :
    pixelYcc data w h x y color = .ok (yccAt data w h color x y) := by
  have hi := index_lt (x := x) (y := y) hw hh
  unfold pixelYcc yccAt
  simp only
  generalize min y (h - 1) * w + min x (w - 1) = i at *
  rcases hc with rfl | rfl
  · rw [show bpp .rgb = 3 from rfl] at hl
    simp only
    rw [getChecked_getD (by omega), ok_bind, getChecked_getD (by omega), ok_bind, getChecked_getD (by omega), ok_bind,
      Nat.mul_comm i 3]
    rfl
  · rw [show bpp .gray = 1 from rfl] at hl
    simp only
    rw [getChecked_getD (by omega), ok_bind]
    rfl

theorem mapM_pure {α β : Type} (f : α → R β) (g : α → β) (l : List α) (h : ∀ a ∈ l, f a = .ok (g a)) :
    l.mapM f = .ok (l.map g) := by
  induction l with
  | nil => rfl
  | cons a l ih =>
    rw [List.mapM_cons, h a (by simp), ok_bind, ih (fun x hx => h x (by simp [hx]))]; rfl

theorem blockSamples_level {data : List UInt8} {w h x y : Nat} {color : ColorType} {sub : Subsampling} {c : Nat}
    (f : UInt8 × UInt8 × UInt8 → UInt8) (hf : ∀ p, comp c p = (f p).toNat)
    (hs : c = 0 ∨ color = .gray ∨ sub = .s444) :
    ((List.range 64).map (fun i => yccAt data w h color (x + i % 8) (y + i / 8))).map (fun p => level (f p)) =
      blockSamples data w h color sub c x y := by
  unfold blockSamples
  rw [List.map_map]
  apply List.map_congr_left
  intro i _
  unfold sample4
  rw [if_pos hs, Function.comp, level_eq, compAt, hf]

theorem extractBlock_eq {data : List UInt8} {w h bx byy : Nat} {color : ColorType} (hw : 0 < w) (hh : 0 < h)
    (hc : color = .rgb ∨ color = .gray) (hl : data.length = w * h * bpp color) (sub : Subsampling)
    (hs : color = .gray ∨ sub = .s444) :
    extractBlock data w h bx byy color = .ok (blockSamples data w h color sub 0 bx byy,
      blockSamples data w h color sub 1 bx byy, blockSamples data w h color sub 2 bx byy) := by
  rw [← blockSamples_level (·.1) comp_zero (Or.inr hs), ← blockSamples_level (·.2.1) comp_one (Or.inr hs),
    ← blockSamples_level (·.2.2) comp_two (Or.inr hs)]
  unfold extractBlock
  rw [mapM_pure _ (fun i => yccAt data w h color (bx + i % 8) (byy + i / 8)) _
    (fun i _ => pixelYcc_eq hw hh hc hl), ok_bind]
  rfl

theorem at_eq (f : Nat → Nat → UInt8 × UInt8 × UInt8) (mx my gx gy : Nat) (hx : gx < 16) (hy : gy < 16) :
    (((List.range 4).map (fun k => (List.range 64).map (fun i =>
      f (mx + (k % 2) * 8 + i % 8) (my + (k / 2) * 8 + i / 8)))).getD (gy / 8 * 2 + gx / 8) []).getD
        (gy % 8 * 8 + gx % 8) (0, 0, 0) = f (mx + gx) (my + gy) := by
  rw [getD_map_range 4 _ _ [] (by omega), getD_map_range 64 _ _ (0, 0, 0) (by omega)]
  congr 1 <;> omega

theorem chroma_eq {data : List UInt8} {w h i j c : Nat} (f : UInt8 × UInt8 × UInt8 → UInt8)
    (hf : ∀ p, comp c p = (f p).toNat) (hc : c ≠ 0) :
    ((List.range 64).map (fun n =>
      mean4 (f (yccAt data w h .rgb (16 * i + n % 8 * 2) (16 * j + n / 8 * 2)))
        (f (yccAt data w h .rgb (16 * i + (n % 8 * 2 + 1)) (16 * j + n / 8 * 2)))
        (f (yccAt data w h .rgb (16 * i + n % 8 * 2) (16 * j + (n / 8 * 2 + 1))))
        (f (yccAt data w h .rgb (16 * i + (n % 8 * 2 + 1)) (16 * j + (n / 8 * 2 + 1)))))) =
    blockSamples data w h .rgb .s420 c (8 * i) (8 * j) := by
  unfold blockSamples
  apply List.map_congr_left
  intro n _
  unfold sample4
  rw [mean4_eq, if_neg (by simp [hc]), compAt, compAt, compAt, compAt, ← hf, ← hf, ← hf, ← hf,
    show 16 * i + n % 8 * 2 = 2 * (8 * i + n % 8) by omega, show 16 * j + n / 8 * 2 = 2 * (8 * j + n / 8) by omega,
    show 16 * i + (n % 8 * 2 + 1) = 2 * (8 * i + n % 8) + 1 by omega,
    show 16 * j + (n / 8 * 2 + 1) = 2 * (8 * j + n / 8) + 1 by omega]

theorem extractMcu420_eq {data : List UInt8} {w h i j : Nat} (hw : 0 < w) (hh : 0 < h)
    (hl : data.length = w * h * 3) :
    extractMcu420 data w h (16 * i) (16 * j) = .ok (
      [blockSamples data w h .rgb .s420 0 (16 * i) (16 * j), blockSamples data w h .rgb .s420 0 (16 * i + 8) (16 * j),
        blockSamples data w h .rgb .s420 0 (16 * i) (16 * j + 8),
        blockSamples data w h .rgb .s420 0 (16 * i + 8) (16 * j + 8)],
      blockSamples data w h .rgb .s420 1 (8 * i) (8 * j), blockSamples data w h .rgb .s420 2 (8 * i) (8 * j)) := by
  rw [← chroma_eq (·.2.1) comp_one (by decide), ← chroma_eq (·.2.2) comp_two (by decide)]
  unfold extractMcu420
  rw [mapM_pure _ (fun k => (List.range 64).map (fun n =>
    yccAt data w h .rgb (16 * i + (k % 2) * 8 + n % 8) (16 * j + (k / 2) * 8 + n / 8))) _
    (fun k _ => mapM_pure _ _ _ (fun n _ => pixelYcc_eq hw hh (Or.inl rfl) hl)), ok_bind]
  have hy : ((List.range 4).map (fun k => (List.range 64).map (fun n =>
      yccAt data w h .rgb (16 * i + (k % 2) * 8 + n % 8) (16 * j + (k / 2) * 8 + n / 8)))).map
        (fun b => b.map (fun p => level p.1)) =
      [blockSamples data w h .rgb .s420 0 (16 * i) (16 * j), blockSamples data w h .rgb .s420 0 (16 * i + 8) (16 * j),
        blockSamples data w h .rgb .s420 0 (16 * i) (16 * j + 8),
        blockSamples data w h .rgb .s420 0 (16 * i + 8) (16 * j + 8)] := by
    rw [List.map_map]
    simp only [show List.range 4 = [0, 1, 2, 3] from rfl, List.map_cons, List.map_nil, Function.comp]
    rw [blockSamples_level (sub := .s420) (·.1) comp_zero (Or.inl rfl),
      blockSamples_level (sub := .s420) (·.1) comp_zero (Or.inl rfl),
      blockSamples_level (sub := .s420) (·.1) comp_zero (Or.inl rfl),
      blockSamples_level (sub := .s420) (·.1) comp_zero (Or.inl rfl)]
    simp only [Nat.reduceMod, Nat.reduceDiv, Nat.zero_mul, Nat.one_mul, Nat.add_zero]
  simp only
  rw [hy]
  have hch : ∀ n ∈ List.range 64, n % 8 * 2 + 1 < 16 ∧ n / 8 * 2 + 1 < 16 := by
    intro n hn
    rw [List.mem_range] at hn
    omega
  refine congrArg (fun x => Except.ok (_, x)) ?_
  refine congr (congrArg Prod.mk ?_) ?_ <;>
  · apply List.map_congr_left
    intro n hn
    have := hch n hn
    rw [at_eq _ _ _ _ _ (by omega) (by omega), at_eq _ _ _ _ _ (by omega) (by omega),
      at_eq _ _ _ _ _ (by omega) (by omega), at_eq _ _ _ _ _ (by omega) (by omega)]

/-! ### The MCUs -/

theorem coords_getElem (w h s k : Nat) (hs : 0 < s) (hk : k < (w + (s - 1)) / s * ((h + (s - 1)) / s)) :
    (coords w h s)[k]? = some (k % ((w + (s - 1)) / s) * s, k / ((w + (s - 1)) / s) * s) := by
  unfold coords
  generalize (w + (s - 1)) / s = a at *
  generalize (h + (s - 1)) / s = b at *
  have ha : 0 < a := by
    rcases Nat.eq_zero_or_pos a with rfl | h
    · simp at hk
    · exact h
  have key : ∀ (b n0 k : Nat), k < a * b →
      ((List.range' n0 b).flatMap (fun j => (List.range a).map (fun i => (i * s, j * s))))[k]? =
        some (k % a * s, (n0 + k / a) * s) := by
    intro b
    induction b with
    | zero => intro n0 k hk; simp at hk
    | succ b ih =>
      intro n0 k hk
      rw [List.range'_succ, List.flatMap_cons]
      by_cases hka : k < a
      · rw [List.getElem?_append_left (by simpa using hka), List.getElem?_map, List.getElem?_range hka,
          Nat.mod_eq_of_lt hka, Nat.div_eq_of_lt hka]
        rfl
      · rw [List.getElem?_append_right (by simpa using Nat.le_of_not_lt hka)]
        simp only [List.length_map, List.length_range]
        rw [ih (n0 + 1) (k - a) (by rw [Nat.mul_succ] at hk; omega)]
        obtain ⟨m, rfl⟩ : ∃ m, k = m + a := ⟨k - a, by omega⟩
        rw [Nat.add_sub_cancel, Nat.add_mod_right, Nat.add_div_right _ ha,
          show n0 + 1 + m / a = n0 + (m / a).succ by omega]
  rw [List.range_eq_range' (n := b), key b 0 k hk, Nat.zero_add]

/-- The table for a component. -/
def tableFor (q : QuantTables) (c : Nat) : List Nat := if c = 0 then q.luminanceTable else q.chrominanceTable

/-- The frame of a context. -/
def Ctx.frame (c : Ctx) : Frame := fileFrame c.width c.height c.colorType c.subsampling

theorem sample4_range (data : List UInt8) (w h : Nat) (color : ColorType) (sub : Subsampling) (c x y : Nat) :
    0 ≤ sample4 data w h color sub c x y ∧ sample4 data w h color sub c x y ≤ 1020 := by
  have hc : ∀ x y, 0 ≤ compAt data w h color c x y ∧ compAt data w h color c x y ≤ 255 := by
    intro x y
    unfold compAt comp
    generalize yccAt data w h color x y = p
    have h1 := p.1.toNat_lt
    have h2 := p.2.1.toNat_lt
    have h3 := p.2.2.toNat_lt
    split
    · omega
    · split <;> omega
  unfold sample4
  have h0 := hc x y
  have h1 := hc (2 * x) (2 * y)
  have h2 := hc (2 * x + 1) (2 * y)
  have h3 := hc (2 * x) (2 * y + 1)
  have h4 := hc (2 * x + 1) (2 * y + 1)
  split <;> omega

theorem samples_block (data : List UInt8) (w h : Nat) (color : ColorType) (sub : Subsampling) (c x y : Nat) :
    Samples (blockSamples data w h color sub c x y) := by
  intro i hi
  unfold blockSamples
  rw [getD_map_range 64 _ i 0 hi]
  have := sample4_range data w h color sub c (x + i % 8) (y + i / 8)
  generalize sample4 data w h color sub c (x + i % 8) (y + i / 8) = v at *
  unfold smLo smHi
  omega

/-- The value of a computation that succeeds. -/
def okD (x : R (List Int)) : List Int :=
  match x with
  | .ok v => v
  | .error _ => []

/-- The quantized block with its first sample at `(x, y)` of component `i`. -/
def Ctx.blockAt (c : Ctx) (i x y : Nat) : List Int :=
  okD (c.quant (dct2d (blockSamples c.data c.width c.height c.colorType c.subsampling i x y)) (tableFor c.tables i))

theorem blockAt_eq {c : Ctx} (h : c.Baseline) (i x y : Nat) :
    c.quant (dct2d (blockSamples c.data c.width c.height c.colorType c.subsampling i x y)) (tableFor c.tables i) =
      .ok (c.blockAt i x y) ∧ BlockRange (zigzagReorder (c.blockAt i x y)) := by
  obtain ⟨r, e, hr⟩ := h.quant (blockSamples c.data c.width c.height c.colorType c.subsampling i x y)
    (tableFor c.tables i) (by
      unfold tableFor
      split
      · exact h.lum
      · exact h.chrom) (samples_block _ _ _ _ _ _ _ _)
  unfold Ctx.blockAt
  rw [e]
  exact ⟨rfl, hr⟩

theorem coeffs_at {c : Ctx} (h : c.Baseline) (i x y : Nat) :
    c.coeffs (decide (i ≠ 0)) (blockSamples c.data c.width c.height c.colorType c.subsampling i x y) =
      .ok (c.blockAt i x y) := by
  rw [← (blockAt_eq h i x y).1]
  unfold Ctx.coeffs tableFor
  by_cases hi : i = 0
  · simp [hi]
  · simp [hi]

theorem mcu_eq {o : Ctx} (hb : o.Baseline) (k : Nat) (hk : k < mcuCount o.frame) :
    ∃ x y, (coords o.width o.height o.step)[k]? = some (x, y) ∧
    o.mcu x y = .ok ((blocksAt o.frame k).map (fun p => (p.1, o.blockAt p.1 p.2.1 p.2.2))) := by
  have hw : 0 < o.width := hb.w
  have hh : 0 < o.height := hb.h
  have hl : o.data.length = o.width * o.height * bpp o.colorType := hb.len
  have hcol : o.colorType = .rgb ∨ o.colorType = .gray := hb.color
  unfold Ctx.frame at hk ⊢
  unfold Ctx.mcu Ctx.step
  by_cases hg : o.colorType = .gray
  · have hk' : k < ceilDiv o.width 8 * ceilDiv o.height 8 := by
      unfold mcuCount fileFrame at hk; simp only [hg, if_true] at hk; exact hk
    refine ⟨_, _, by rw [if_pos hg]; exact coords_getElem _ _ 8 k (by decide) hk', ?_⟩
    rw [if_pos hg, extractBlock_eq hw hh hcol hl o.subsampling (Or.inl hg), ok_bind]
    unfold blocksAt fileFrame mcusPerRow
    simp only [hg, if_true]
    simp only [List.zipIdx_cons, List.zipIdx_nil, List.flatMap_cons, List.flatMap_nil, Nat.mul_one,
      show List.range 1 = [0] from rfl, List.map_cons, List.map_nil, List.append_nil, Nat.zero_mod, Nat.zero_div,
      Nat.add_zero, Nat.mod_one]
    rw [Nat.mul_comm 8, Nat.mul_comm 8]
    have e0 := coeffs_at hb 0
    simp only [hg] at e0
    simp only [ne_eq, not_true, decide_false] at e0
    simp only [hg, e0, ok_bind]
    rfl
  · have hrgb := hcol.resolve_right hg
    by_cases h4 : o.subsampling = .s444
    · have hk' : k < ceilDiv o.width 8 * ceilDiv o.height 8 := by
        unfold mcuCount fileFrame at hk; simp only [if_neg hg, h4, if_true] at hk; exact hk
      refine ⟨_, _, by rw [if_neg hg, if_pos h4]; exact coords_getElem _ _ 8 k (by decide) hk', ?_⟩
      rw [if_neg hg, if_pos h4, extractBlock_eq hw hh hcol hl o.subsampling (Or.inr h4), ok_bind]
      unfold blocksAt fileFrame mcusPerRow
      simp only [if_neg hg, h4, if_true]
      simp only [List.zipIdx_cons, List.zipIdx_nil, List.flatMap_cons, List.flatMap_nil, Nat.mul_one,
        show List.range 1 = [0] from rfl, List.map_cons, List.map_nil, List.append_nil, Nat.zero_mod, Nat.zero_div,
        Nat.add_zero, Nat.mod_one, List.foldr_cons, List.foldr_nil, List.cons_append, List.nil_append, Nat.zero_add,
        show max 1 (max 1 (max 1 0)) = 1 from rfl, Nat.reduceAdd]
      rw [Nat.mul_comm 8, Nat.mul_comm 8]
      have e0 := coeffs_at hb 0
      have e1 := coeffs_at hb 1
      have e2 := coeffs_at hb 2
      simp only [h4] at e0 e1 e2
      simp only [ne_eq, not_true, decide_false] at e0
      simp only [ne_eq, show ¬(1 = 0) by decide, not_false_eq_true, decide_true] at e1
      simp only [ne_eq, show ¬(2 = 0) by decide, not_false_eq_true, decide_true] at e2
      simp only [e0, e1, e2, ok_bind]
      rfl
    · have h420 : o.subsampling = .s420 := by
        cases h : o.subsampling with
        | s444 => exact absurd h h4
        | s420 => rfl
      have hk' : k < ceilDiv o.width 16 * ceilDiv o.height 16 := by
        unfold mcuCount fileFrame at hk; simp only [if_neg hg, if_neg h4] at hk; exact hk
      rw [hrgb, show bpp .rgb = 3 from rfl] at hl
      refine ⟨_, _, by rw [if_neg hg, if_neg h4]; exact coords_getElem _ _ 16 k (by decide) hk', ?_⟩
      rw [if_neg hg, if_neg h4, Nat.mul_comm _ 16, Nat.mul_comm _ 16, extractMcu420_eq hw hh hl, ok_bind]
      unfold blocksAt fileFrame mcusPerRow
      simp only [if_neg hg, if_neg h4]
      simp only [List.zipIdx_cons, List.zipIdx_nil, List.flatMap_cons, List.flatMap_nil, Nat.mul_one,
        show List.range 1 = [0] from rfl, show List.range (2 * 2) = [0, 1, 2, 3] from rfl, List.map_cons, List.map_nil,
        List.append_nil, Nat.zero_mod, Nat.zero_div,
        Nat.add_zero, Nat.mod_one, List.foldr_cons, List.foldr_nil, List.cons_append, List.nil_append, Nat.zero_add,
        show max 2 (max 1 (max 1 0)) = 2 from rfl, Nat.reduceAdd]
      unfold ceilDiv
      rw [show 8 * 2 = 16 from rfl, show o.width + (16 - 1) = o.width + 16 - 1 by omega]
      generalize k % ((o.width + 16 - 1) / 16) = i
      generalize k / ((o.width + 16 - 1) / 16) = j
      simp only [show 8 * (i * 2 + 0 % 2) = 16 * i by omega, show 8 * (i * 2 + 1 % 2) = 16 * i + 8 by omega,
        show 8 * (i * 2) = 16 * i by omega, show 8 * (j * 2) = 16 * j by omega, show 8 * (i * 2 + 3 % 2) = 16 * i + 8 by omega,
        show 8 * (j * 2 + 0 / 2) = 16 * j by omega, show 8 * (j * 2 + 1 / 2) = 16 * j by omega,
        show 8 * (j * 2 + 2 / 2) = 16 * j + 8 by omega, show 8 * (j * 2 + 3 / 2) = 16 * j + 8 by omega]
      have e0 := coeffs_at hb 0
      have e1 := coeffs_at hb 1
      have e2 := coeffs_at hb 2
      simp only [h420, hrgb] at e0 e1 e2
      simp only [ne_eq, not_true, decide_false] at e0
      simp only [ne_eq, show ¬(1 = 0) by decide, not_false_eq_true, decide_true] at e1
      simp only [ne_eq, show ¬(2 = 0) by decide, not_false_eq_true, decide_true] at e2
      simp only [List.mapM_cons, List.mapM_nil, e0, e1, e2, ok_bind]
      rfl

/-- The blocks of a file are those of its MCUs in order. -/
theorem mcus_eq {c : Ctx} (hb : c.Baseline) :
    c.mcus = .ok ((List.range (mcuCount c.frame)).map (fun k =>
      (blocksAt c.frame k).map (fun p => (p.1, c.blockAt p.1 p.2.1 p.2.2)))) := by
  have hlen : (coords c.width c.height c.step).length = mcuCount c.frame := by
    rw [coords_length]
    unfold mcuCount Ctx.frame fileFrame Ctx.step
    by_cases hg : c.colorType = .gray
    · simp only [hg, if_true]; rfl
    · simp only [if_neg hg]
      by_cases hs : c.subsampling = .s444
      · simp only [hs, if_true]; rfl
      · simp only [if_neg hs]; rfl
  have key : ∀ (l : List (Nat × Nat)) (n : Nat), n + l.length ≤ mcuCount c.frame →
      (∀ i, i < l.length → l[i]? = (coords c.width c.height c.step)[n + i]?) →
      l.mapM (fun p => c.mcu p.1 p.2) = .ok ((List.range' n l.length).map (fun k =>
        (blocksAt c.frame k).map (fun p => (p.1, c.blockAt p.1 p.2.1 p.2.2)))) := by
    intro l
    induction l with
    | nil => intro n _ _; rfl
    | cons a l ih =>
      intro n hn hl
      rw [List.length_cons] at hn
      obtain ⟨x, y, e1, e2⟩ := mcu_eq hb n (by omega)
      have h0 := hl 0 (by simp)
      rw [Nat.add_zero, e1] at h0
      simp only [List.getElem?_cons_zero, Option.some.injEq] at h0
      subst h0
      rw [List.mapM_cons, e2, ok_bind, ih (n + 1) (by omega) (fun i hi => by
        have := hl (i + 1) (by simp only [List.length_cons]; omega)
        rw [List.getElem?_cons_succ] at this
        rw [this]; congr 1; omega), ok_bind]
      rfl
  unfold Ctx.mcus
  rw [key _ 0 (by omega) (fun i _ => by rw [Nat.zero_add]), hlen, List.range_eq_range']

end Pixo.Jpeg
