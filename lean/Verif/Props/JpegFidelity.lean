import Verif.Props.JpegRoundTrip
/-
C93: what a conforming decoder shows of a baseline file is the image, up to the quantization steps.
-/
namespace Pixo.Props
open Pixo.Jpeg (Options QuantTables)
open Spec.T81

/-! ### The transform keeps the sum of squares -/

theorem parseval1 (f : Nat → ℝ) :
    ∑ x ∈ Finset.range 8, (∑ u ∈ Finset.range 8, Jpeg.kern u x * f u) ^ 2 = ∑ u ∈ Finset.range 8, f u ^ 2 := by
  have e : ∀ x, (∑ u ∈ Finset.range 8, Jpeg.kern u x * f u) ^ 2 =
      ∑ u ∈ Finset.range 8, ∑ v ∈ Finset.range 8, f u * f v * (Jpeg.kern u x * Jpeg.kern v x) := by
    intro x
    rw [sq, Finset.sum_mul_sum]
    refine Finset.sum_congr rfl fun u _ => Finset.sum_congr rfl fun v _ => ?_
    ring
  rw [Finset.sum_congr rfl (fun x _ => e x), Finset.sum_comm]
  refine Finset.sum_congr rfl fun u hu => ?_
  rw [Finset.sum_comm]
  have e2 : ∀ v ∈ Finset.range 8, ∑ x ∈ Finset.range 8, f u * f v * (Jpeg.kern u x * Jpeg.kern v x) =
      if u = v then f u * f v else 0 := by
    intro v hv
    rw [← Finset.mul_sum, Idct.kern_orth u v (Finset.mem_range.1 hu) (Finset.mem_range.1 hv)]
    split <;> ring
  rw [Finset.sum_congr rfl e2, Finset.sum_ite_eq, if_pos hu, sq]

/-- The inverse transform keeps the sum of squares. -/
theorem parseval (c : Nat → Nat → ℝ) :
    ∑ y ∈ Finset.range 8, ∑ x ∈ Finset.range 8, idct c y x ^ 2 =
      ∑ v ∈ Finset.range 8, ∑ u ∈ Finset.range 8, c v u ^ 2 := by
  have e : ∀ y, ∑ x ∈ Finset.range 8, idct c y x ^ 2 =
      ∑ u ∈ Finset.range 8, (∑ v ∈ Finset.range 8, Jpeg.kern v y * c v u) ^ 2 := by
    intro y
    rw [← parseval1 (fun u => ∑ v ∈ Finset.range 8, Jpeg.kern v y * c v u)]
    refine Finset.sum_congr rfl fun x _ => ?_
    rw [Idct.idct_sep]
  rw [Finset.sum_congr rfl (fun y _ => e y), Finset.sum_comm]
  rw [Finset.sum_congr rfl (fun u _ => parseval1 (fun v => c v u)), Finset.sum_comm]

theorem idct_sub (a b : Nat → Nat → ℝ) (y x : Nat) : idct a y x - idct b y x = idct (fun v u => a v u - b v u) y x := by
  rw [Idct.idct_sep, Idct.idct_sep, Idct.idct_sep, ← Finset.sum_sub_distrib]
  refine Finset.sum_congr rfl fun u _ => ?_
  rw [← mul_sub, ← Finset.sum_sub_distrib]
  congr 1
  refine Finset.sum_congr rfl fun v _ => ?_
  ring

/-! ### Blocks -/

/-- The place of row `v`, column `u` in the zigzag sequence. -/
def zigzagPlace (v u : Nat) : Nat := zigzag.idxOf (8 * v + u)

theorem zigzagPlace_spec (v u : Nat) (hv : v < 8) (hu : u < 8) :
    zigzagPlace v u < 64 ∧ zigzag.getD (zigzagPlace v u) 0 / 8 = v ∧ zigzag.getD (zigzagPlace v u) 0 % 8 = u := by
  have h : ∀ v ∈ List.range 8, ∀ u ∈ List.range 8, zigzagPlace v u < 64 ∧ zigzag.getD (zigzagPlace v u) 0 / 8 = v ∧
      zigzag.getD (zigzagPlace v u) 0 % 8 = u := by decide +kernel
  exact h v (by simpa using hv) u (by simpa using hu)

/-- A coefficient of a block, dequantized (A.3.4). -/
noncomputable def coefficient (zz : List Int) (quant : List Nat) (v u : Nat) : ℝ :=
  ((zz.getD (zigzagPlace v u) 0 : Int) : ℝ) * ((quant.getD (zigzagPlace v u) 0 : Nat) : ℝ)

/-- A sample of a block as the exact inverse transform shows it. -/
noncomputable def blockSample (zz : List Int) (quant : List Nat) (y x : Nat) : ℝ :=
  clampLevel (128 + idct (coefficient zz quant) y x)

/-- The sum of the squares of the errors of the coefficients: half a step, and the errors of the arithmetic (C50). -/
noncomputable def stepErrors (quant : List Nat) : ℝ := ∑ v ∈ Finset.range 8, ∑ u ∈ Finset.range 8,
  (((quant.getD (zigzagPlace v u) 0 : Nat) : ℝ) * (1 / 2 + 1 / 4096) + 1 / 20) ^ 2

theorem block_near {s : Nat → Nat → ℝ} (hs : ∀ y < 8, ∀ x < 8, 0 ≤ s y x ∧ s y x ≤ 255) (zz : List Int) (quant : List Nat)
    (h : ∀ z < 64, |((zz.getD z 0 : Int) : ℝ) * ((quant.getD z 0 : Nat) : ℝ) -
        fdct (fun yy xx => s yy xx - 128) (zigzag.getD z 0 / 8) (zigzag.getD z 0 % 8)| ≤
      ((quant.getD z 0 : Nat) : ℝ) * (1 / 2 + 1 / 4096) + 1 / 20) :
    ∑ y ∈ Finset.range 8, ∑ x ∈ Finset.range 8, (blockSample zz quant y x - s y x) ^ 2 ≤ stepErrors quant := by
  have h1 : ∀ y ∈ Finset.range 8, ∀ x ∈ Finset.range 8, (blockSample zz quant y x - s y x) ^ 2 ≤
      idct (fun v u => coefficient zz quant v u - fdct (fun yy xx => s yy xx - 128) v u) y x ^ 2 := by
    intro y hy x hx
    have hy := Finset.mem_range.1 hy
    have hx := Finset.mem_range.1 hx
    rw [← idct_sub, Idct.idct_fdct _ y x hy hx, sq_le_sq]
    unfold blockSample
    have h2 : s y x = clampLevel (s y x) := by
      unfold clampLevel
      rw [max_eq_left (hs y hy x hx).1, min_eq_left (hs y hy x hx).2]
    have h3 := Idct.clampLevel_lip (128 + idct (coefficient zz quant) y x) (s y x)
    rw [← h2] at h3
    refine h3.trans (le_of_eq ?_)
    congr 1
    ring
  refine (Finset.sum_le_sum fun y hy => Finset.sum_le_sum fun x hx => h1 y hy x hx).trans ?_
  rw [parseval]
  refine Finset.sum_le_sum fun v hv => Finset.sum_le_sum fun u hu => ?_
  obtain ⟨z1, z2, z3⟩ := zigzagPlace_spec v u (Finset.mem_range.1 hv) (Finset.mem_range.1 hu)
  have h2 := h _ z1
  rw [z2, z3] at h2
  rw [sq_le_sq]
  exact h2.trans (le_abs_self _)

/-! ### The image -/

/-- What the sample in row `Y`, column `X` of component `c` is shown as. -/
def Shown (f : Frame) (quant : List (List Nat)) (mcus : List (List (Nat × List Int))) (c Y X : Nat) (v : ℝ) : Prop :=
  ∃ (k : Nat) (m : List (Nat × List Int)) (j : Nat) (zz : List Int) (x y : Nat), mcus[k]? = some m ∧ m[j]? = some (c, zz) ∧ (blocksAt f k)[j]? = some (c, x, y) ∧
    x ≤ X ∧ X < x + 8 ∧ y ≤ Y ∧ Y < y + 8 ∧ v = blockSample zz (quant.getD c []) (Y - y) (X - x)

/-- **C93 (blocks).** In every block of a baseline file the squares of the differences between the samples of the image
and what the exact inverse transform of T.81 shows add up to at most the squares of half the quantization steps and the
errors of the arithmetic. -/
theorem C93_blocks (data : List UInt8) (o : Options) (hv : JpegValid data o)
    (hp : o.progressive = false) (file : List UInt8) (henc : Jpeg.encode data o = .ok file)
    (f : Frame) (quant : List (List Nat)) (mcus : List (List (Nat × List Int))) (hread : Reads file f quant mcus)
    (k : Nat) (m : List (Nat × List Int)) (j c : Nat) (zz : List Int) (c' x y : Nat) (hk : mcus[k]? = some m)
    (hj : m[j]? = some (c, zz)) (hb : (blocksAt f k)[j]? = some (c', x, y)) :
    ∑ yy ∈ Finset.range 8, ∑ xx ∈ Finset.range 8,
      (blockSample zz (quant.getD c []) yy xx - sampleOf data o c (x + xx) (y + yy)) ^ 2 ≤ stepErrors (quant.getD c []) := by
  obtain ⟨_, h⟩ := C50_coefficients data o hv hp file henc f quant mcus hread
  obtain ⟨_, h⟩ := h k m hk
  obtain ⟨_, h⟩ := h j c zz c' x y hj hb
  exact block_near (s := fun yy xx => sampleOf data o c (x + xx) (y + yy))
    (fun yy _ xx _ => sampleOf_range data o c (x + xx) (y + yy)) zz (quant.getD c []) h

/-- **C93 (samples).** Whatever a sample is shown as is as near to that of the image. -/
theorem C93_samples (data : List UInt8) (o : Options) (hv : JpegValid data o)
    (hp : o.progressive = false) (file : List UInt8) (henc : Jpeg.encode data o = .ok file)
    (f : Frame) (quant : List (List Nat)) (mcus : List (List (Nat × List Int))) (hread : Reads file f quant mcus)
    (c Y X : Nat) (v : ℝ) (hs : Shown f quant mcus c Y X v) :
    (v - sampleOf data o c X Y) ^ 2 ≤ stepErrors (quant.getD c []) := by
  obtain ⟨k, m, j, zz, x, y, hk, hj, hb, x1, x2, y1, y2, rfl⟩ := hs
  have h := C93_blocks data o hv hp file henc f quant mcus hread k m j c zz c x y hk hj hb
  refine le_trans ?_ h
  have e1 := Finset.single_le_sum (f := fun yy => ∑ xx ∈ Finset.range 8,
      (blockSample zz (quant.getD c []) yy xx - sampleOf data o c (x + xx) (y + yy)) ^ 2)
    (fun yy _ => Finset.sum_nonneg fun xx _ => sq_nonneg _) (Finset.mem_range.2 (by omega : Y - y < 8))
  refine le_trans ?_ e1
  have e2 := Finset.single_le_sum (f := fun xx =>
      (blockSample zz (quant.getD c []) (Y - y) xx - sampleOf data o c (x + xx) (y + (Y - y))) ^ 2)
    (fun xx _ => sq_nonneg _) (Finset.mem_range.2 (by omega : X - x < 8))
  refine le_trans (le_of_eq ?_) e2
  rw [show x + (X - x) = X by omega, show y + (Y - y) = Y by omega]

/-! ### Every pixel is shown -/

theorem covered (f : Frame) (rows : Nat) (hr : mcuCount f = mcusPerRow f * rows) (c : Nat) (comp : Component)
    (hc : f.comps[c]? = some comp) (hh : 0 < comp.h) (hv : 0 < comp.v) (Y X : Nat)
    (hX : X < mcusPerRow f * (8 * comp.h)) (hY : Y < rows * (8 * comp.v)) :
    ∃ k, k < mcuCount f ∧ ∃ (j : Nat) (x y : Nat), (blocksAt f k)[j]? = some (c, x, y) ∧
      x ≤ X ∧ X < x + 8 ∧ y ≤ Y ∧ Y < y + 8 := by
  have h8 : 0 < 8 * comp.h := by omega
  have h8' : 0 < 8 * comp.v := by omega
  have hmx : X / (8 * comp.h) < mcusPerRow f := (Nat.div_lt_iff_lt_mul h8).2 hX
  have hmy : Y / (8 * comp.v) < rows := (Nat.div_lt_iff_lt_mul h8').2 hY
  have hmp : 0 < mcusPerRow f := Nat.lt_of_le_of_lt (Nat.zero_le _) hmx
  refine ⟨Y / (8 * comp.v) * mcusPerRow f + X / (8 * comp.h), ?_, ?_⟩
  · rw [hr]
    calc Y / (8 * comp.v) * mcusPerRow f + X / (8 * comp.h) < Y / (8 * comp.v) * mcusPerRow f + mcusPerRow f := by omega
      _ = (Y / (8 * comp.v) + 1) * mcusPerRow f := by ring
      _ ≤ rows * mcusPerRow f := Nat.mul_le_mul_right _ hmy
      _ = mcusPerRow f * rows := Nat.mul_comm _ _
  · have e1 : (Y / (8 * comp.v) * mcusPerRow f + X / (8 * comp.h)) % mcusPerRow f = X / (8 * comp.h) := by
      rw [Nat.mul_comm, Nat.mul_add_mod, Nat.mod_eq_of_lt hmx]
    have e2 : (Y / (8 * comp.v) * mcusPerRow f + X / (8 * comp.h)) / mcusPerRow f = Y / (8 * comp.v) := by
      rw [Nat.mul_comm, Nat.mul_add_div hmp, Nat.div_eq_of_lt hmx, Nat.add_zero]
    have hbx : X / 8 % comp.h < comp.h := Nat.mod_lt _ hh
    have hby : Y / 8 % comp.v < comp.v := Nat.mod_lt _ hv
    have e3 : (Y / 8 % comp.v * comp.h + X / 8 % comp.h) % comp.h = X / 8 % comp.h := by
      rw [Nat.mul_comm, Nat.mul_add_mod, Nat.mod_eq_of_lt hbx]
    have e4 : (Y / 8 % comp.v * comp.h + X / 8 % comp.h) / comp.h = Y / 8 % comp.v := by
      rw [Nat.mul_comm, Nat.mul_add_div hh, Nat.div_eq_of_lt hbx, Nat.add_zero]
    have e5 : X / (8 * comp.h) * comp.h + X / 8 % comp.h = X / 8 := by
      rw [← Nat.div_div_eq_div_mul, Nat.mul_comm]
      exact Nat.div_add_mod _ _
    have e6 : Y / (8 * comp.v) * comp.v + Y / 8 % comp.v = Y / 8 := by
      rw [← Nat.div_div_eq_div_mul, Nat.mul_comm]
      exact Nat.div_add_mod _ _
    have hmem : (c, 8 * (X / 8), 8 * (Y / 8)) ∈ blocksAt f (Y / (8 * comp.v) * mcusPerRow f + X / (8 * comp.h)) := by
      unfold blocksAt
      refine List.mem_flatMap.2 ⟨(comp, c), ?_, ?_⟩
      · rw [List.mem_zipIdx_iff_getElem?]; exact hc
      · refine List.mem_map.2 ⟨Y / 8 % comp.v * comp.h + X / 8 % comp.h, ?_, ?_⟩
        · rw [List.mem_range]
          calc Y / 8 % comp.v * comp.h + X / 8 % comp.h < Y / 8 % comp.v * comp.h + comp.h := by omega
            _ = (Y / 8 % comp.v + 1) * comp.h := by ring
            _ ≤ comp.v * comp.h := Nat.mul_le_mul_right _ hby
            _ = comp.h * comp.v := Nat.mul_comm _ _
        · simp only [e1, e2, e3, e4, e5, e6]
    obtain ⟨j, hj⟩ := List.getElem?_of_mem hmem
    exact ⟨j, _, _, hj, by omega, by omega, by omega, by omega⟩

/-- Where the samples of a component are that cover the pixel: half as many in the subsampled components of 4:2:0. -/
def samplePlace (o : Options) (c n : Nat) : Nat :=
  if c = 0 ∨ o.colorType = .gray ∨ o.subsampling = .s444 then n else n / 2

theorem ceilDiv_mul (n d : Nat) (hd : 0 < d) : n ≤ ceilDiv n d * d := by
  unfold ceilDiv
  have := Nat.div_add_mod (n + d - 1) d
  have := Nat.mod_lt (n + d - 1) hd
  rw [Nat.mul_comm]
  omega

/-- **C93 (every pixel).** A baseline file shows samples of every component for every pixel of the image. -/
theorem C93_every (data : List UInt8) (o : Options) (hv : JpegValid data o)
    (hp : o.progressive = false) (file : List UInt8) (henc : Jpeg.encode data o = .ok file)
    (f : Frame) (quant : List (List Nat)) (mcus : List (List (Nat × List Int))) (hread : Reads file f quant mcus)
    (c Y X : Nat) (hc : c < if o.colorType = .gray then 1 else 3) (hY : Y < o.height) (hX : X < o.width) :
    ∃ v, Shown f quant mcus c (samplePlace o c Y) (samplePlace o c X) v := by
  obtain ⟨hlen, h⟩ := C50_coefficients data o hv hp file henc f quant mcus hread
  obtain ⟨file', mcus0, e1, e2, _, huniq⟩ := C29_lossless data o hv hp
  rw [henc] at e1
  injection e1 with e1
  subst e1
  obtain ⟨rfl, rfl, rfl⟩ := huniq f quant mcus hread
  have key : ∃ comp rows, (frameFor o).comps[c]? = some comp ∧ 0 < comp.h ∧ 0 < comp.v ∧
      mcuCount (frameFor o) = mcusPerRow (frameFor o) * rows ∧
      samplePlace o c X < mcusPerRow (frameFor o) * (8 * comp.h) ∧ samplePlace o c Y < rows * (8 * comp.v) := by
    have w8 := ceilDiv_mul o.width 8 (by omega)
    have h8 := ceilDiv_mul o.height 8 (by omega)
    have w16 := ceilDiv_mul o.width 16 (by omega)
    have h16 := ceilDiv_mul o.height 16 (by omega)
    unfold frameFor samplePlace
    by_cases hg : o.colorType = .gray
    · rw [if_pos hg] at hc
      simp only [if_pos hg]
      obtain rfl : c = 0 := by omega
      refine ⟨⟨1, 1, 1, 0⟩, ceilDiv o.height 8, rfl, by decide, by decide, rfl, ?_, ?_⟩
      · rw [if_pos (Or.inl rfl)]; show X < ceilDiv o.width 8 * 8; omega
      · rw [if_pos (Or.inl rfl)]; show Y < ceilDiv o.height 8 * 8; omega
    · rw [if_neg hg] at hc
      simp only [if_neg hg]
      by_cases h4 : o.subsampling = .s444
      · simp only [h4, if_true, or_true]
        have hcase : c = 0 ∨ c = 1 ∨ c = 2 := by omega
        rcases hcase with rfl | rfl | rfl
        all_goals
          refine ⟨_, ceilDiv o.height 8, rfl, by decide, by decide, rfl, ?_, ?_⟩
          · show X < ceilDiv o.width 8 * 8; omega
          · show Y < ceilDiv o.height 8 * 8; omega
      · simp only [if_neg h4, or_false, hg, h4]
        have hcase : c = 0 ∨ c = 1 ∨ c = 2 := by omega
        rcases hcase with rfl | rfl | rfl
        · refine ⟨_, ceilDiv o.height 16, rfl, by decide, by decide, rfl, ?_, ?_⟩
          · show X < ceilDiv o.width 16 * 16; omega
          · show Y < ceilDiv o.height 16 * 16; omega
        all_goals
          refine ⟨_, ceilDiv o.height 16, rfl, by decide, by decide, rfl, ?_, ?_⟩
          · show X / 2 < ceilDiv o.width 16 * 8; omega
          · show Y / 2 < ceilDiv o.height 16 * 8; omega
  obtain ⟨comp, rows, k1, k2, k3, k4, k5, k6⟩ := key
  obtain ⟨k, hk, j, x, y, hj, x1, x2, y1, y2⟩ := covered _ rows k4 c comp k1 k2 k3 _ _ k5 k6
  rw [← hlen] at hk
  have hm := List.getElem?_eq_getElem hk
  obtain ⟨hmap, _⟩ := h k _ hm
  generalize hM : (zigzagged mcus0)[k] = m at hm hmap
  have hj2 : (m.map (·.1))[j]? = some c := by rw [hmap, List.getElem?_map, hj]; rfl
  rw [List.getElem?_map] at hj2
  cases hmj : m[j]? with
  | none => rw [hmj] at hj2; cases hj2
  | some b =>
    rw [hmj] at hj2
    injection hj2 with hj2
    obtain ⟨c', zz⟩ := b
    simp only at hj2
    subst hj2
    exact ⟨_, k, m, j, zz, x, y, hm, hmj, hj, x1, x2, y1, y2, rfl⟩

theorem near_sqrt {a b : ℝ} (h : a ^ 2 ≤ b) : |a| ≤ √b := by
  have := Real.sqrt_le_sqrt h
  rwa [Real.sqrt_sq_eq_abs] at this

/-- **C93 (gray images).** Every pixel of a gray image is shown, and shown near its value. -/
theorem C93_gray (data : List UInt8) (o : Options) (hv : JpegValid data o) (hg : o.colorType = .gray)
    (hp : o.progressive = false) (file : List UInt8) (henc : Jpeg.encode data o = .ok file)
    (f : Frame) (quant : List (List Nat)) (mcus : List (List (Nat × List Int))) (hread : Reads file f quant mcus)
    (Y X : Nat) (hY : Y < o.height) (hX : X < o.width) :
    (∃ v, Shown f quant mcus 0 Y X v) ∧ ∀ v, Shown f quant mcus 0 Y X v →
      |v - ((data.getD (Y * o.width + X) 0).toNat : ℝ)| ≤ √(stepErrors (quant.getD 0 [])) := by
  constructor
  · have h := C93_every data o hv hp file henc f quant mcus hread 0 Y X (by rw [if_pos hg]; decide) hY hX
    simpa [samplePlace] using h
  · intro v hs
    have h := near_sqrt (C93_samples data o hv hp file henc f quant mcus hread 0 Y X v hs)
    have e : sampleOf data o 0 X Y = ((data.getD (Y * o.width + X) 0).toNat : ℝ) := by
      unfold sampleOf
      rw [if_pos (Or.inl rfl)]
      unfold yccOf
      simp only [if_pos hg]
      rw [Nat.min_eq_left (by omega), Nat.min_eq_left (by omega)]
      rfl
    rwa [e] at h

/-- The share of the chroma in the error of a channel. -/
noncomputable def chromaShare (ch : Nat) : ℝ := if ch = 0 then 1.402 else if ch = 1 then 0.344136 + 0.714136 else 1.772

theorem colour_near (r g b : UInt8) (y cb cr ey ec : ℝ) (hy : |y - ((rgbToYcbcr r g b).1.toNat : ℝ)| ≤ ey)
    (hb : |cb - ((rgbToYcbcr r g b).2.1.toNat : ℝ)| ≤ ec) (hr : |cr - ((rgbToYcbcr r g b).2.2.toNat : ℝ)| ≤ ec)
    (ch : Nat) (hch : ch < 3) :
    |jfifColour y cb cr ch - (([r, g, b].getD ch 0).toNat : ℝ)| ≤ ey + 1 + chromaShare ch * (ec + 1) + 1 / 1000 := by
  obtain ⟨n1, n2, n3⟩ := C42_near r g b
  generalize (rgbToYcbcr r g b).1.toNat = Y at *
  generalize (rgbToYcbcr r g b).2.1.toNat = B at *
  generalize (rgbToYcbcr r g b).2.2.toNat = R at *
  unfold luma1000 at *
  have hr1 := r.toNat_lt
  have hg1 := g.toNat_lt
  have hb1 := b.toNat_lt
  have hch' : ch = 0 ∨ ch = 1 ∨ ch = 2 := by omega
  have f1 : |1000 * (Y : ℝ) - (299 * r.toNat + 587 * g.toNat + 114 * b.toNat)| ≤ 1000 := by
    have : (1000 * (Y : Int) - (299 * r.toNat + 587 * g.toNat + 114 * b.toNat)).natAbs ≤ 1000 := by omega
    rw [abs_le]
    constructor
    · exact_mod_cast (by omega : -1000 ≤ 1000 * (Y : Int) - (299 * r.toNat + 587 * g.toNat + 114 * b.toNat))
    · exact_mod_cast (by omega : 1000 * (Y : Int) - (299 * r.toNat + 587 * g.toNat + 114 * b.toNat) ≤ 1000)
  have f2 : |1772 * ((B : ℝ) - 128) - (1000 * b.toNat - (299 * r.toNat + 587 * g.toNat + 114 * b.toNat))| ≤ 1772 := by
    rw [abs_le]
    constructor
    · exact_mod_cast (by omega : -1772 ≤ 1772 * ((B : Int) - 128) - (1000 * b.toNat - (299 * r.toNat + 587 * g.toNat + 114 * b.toNat)))
    · exact_mod_cast (by omega : 1772 * ((B : Int) - 128) - (1000 * b.toNat - (299 * r.toNat + 587 * g.toNat + 114 * b.toNat)) ≤ 1772)
  have f3 : |1402 * ((R : ℝ) - 128) - (1000 * r.toNat - (299 * r.toNat + 587 * g.toNat + 114 * b.toNat))| ≤ 1402 := by
    rw [abs_le]
    constructor
    · exact_mod_cast (by omega : -1402 ≤ 1402 * ((R : Int) - 128) - (1000 * r.toNat - (299 * r.toNat + 587 * g.toNat + 114 * b.toNat)))
    · exact_mod_cast (by omega : 1402 * ((R : Int) - 128) - (1000 * r.toNat - (299 * r.toNat + 587 * g.toNat + 114 * b.toNat)) ≤ 1402)
  have r1 : (r.toNat : ℝ) ≤ 255 := by exact_mod_cast (by omega : r.toNat ≤ 255)
  have g1 : (g.toNat : ℝ) ≤ 255 := by exact_mod_cast (by omega : g.toNat ≤ 255)
  have b1 : (b.toNat : ℝ) ≤ 255 := by exact_mod_cast (by omega : b.toNat ≤ 255)
  have r0 : (0 : ℝ) ≤ r.toNat := Nat.cast_nonneg _
  have g0 : (0 : ℝ) ≤ g.toNat := Nat.cast_nonneg _
  have b0 : (0 : ℝ) ≤ b.toNat := Nat.cast_nonneg _
  rw [abs_le] at *
  unfold jfifColour chromaShare
  rcases hch' with rfl | rfl | rfl
  · rw [if_pos rfl, if_pos rfl]
    show _ ≤ y + 1.402 * (cr - 128) - (r.toNat : ℝ) ∧ y + 1.402 * (cr - 128) - (r.toNat : ℝ) ≤ _
    constructor <;> linarith [hy.1, hy.2, hr.1, hr.2, f1.1, f1.2, f3.1, f3.2]
  · show -(ey + 1 + (0.344136 + 0.714136) * (ec + 1) + 1 / 1000) ≤ y - 0.344136 * (cb - 128) - 0.714136 * (cr - 128) - (g.toNat : ℝ) ∧
      y - 0.344136 * (cb - 128) - 0.714136 * (cr - 128) - (g.toNat : ℝ) ≤ ey + 1 + (0.344136 + 0.714136) * (ec + 1) + 1 / 1000
    constructor <;> linarith [hy.1, hy.2, hr.1, hr.2, hb.1, hb.2, f1.1, f1.2, f3.1, f3.2, f2.1, f2.2]
  · show -(ey + 1 + 1.772 * (ec + 1) + 1 / 1000) ≤ y + 1.772 * (cb - 128) - (b.toNat : ℝ) ∧
      y + 1.772 * (cb - 128) - (b.toNat : ℝ) ≤ ey + 1 + 1.772 * (ec + 1) + 1 / 1000
    constructor <;> linarith [hy.1, hy.2, hb.1, hb.2, f1.1, f1.2, f2.1, f2.2]

/-- **C93 (colour images).** Without subsampling the colour T.871 gives to what is shown of a pixel is near its colour, in
every channel. -/
theorem C93_colour (data : List UInt8) (o : Options) (hv : JpegValid data o) (hc : o.colorType = .rgb)
    (h444 : o.subsampling = .s444) (hp : o.progressive = false) (file : List UInt8) (henc : Jpeg.encode data o = .ok file)
    (f : Frame) (quant : List (List Nat)) (mcus : List (List (Nat × List Int))) (hread : Reads file f quant mcus)
    (Y X : Nat) (hY : Y < o.height) (hX : X < o.width) :
    (∀ c < 3, ∃ v, Shown f quant mcus c Y X v) ∧ ∀ y cb cr, Shown f quant mcus 0 Y X y → Shown f quant mcus 1 Y X cb →
      Shown f quant mcus 2 Y X cr → ∀ ch < 3,
      |clampLevel (jfifColour y cb cr ch) - ((data.getD (3 * (Y * o.width + X) + ch) 0).toNat : ℝ)| ≤
        √(stepErrors (quant.getD 0 [])) + 1 + chromaShare ch * (√(stepErrors (quant.getD 1 [])) + 1) + 1 / 1000 := by
  have hng : ¬o.colorType = .gray := by rw [hc]; decide
  constructor
  · intro c hc
    have h := C93_every data o hv hp file henc f quant mcus hread c Y X (by rw [if_neg hng]; exact hc) hY hX
    simpa [samplePlace, h444] using h
  · intro y cb cr s0 s1 s2 ch hch
    have h0 := near_sqrt (C93_samples data o hv hp file henc f quant mcus hread 0 Y X y s0)
    have h1 := near_sqrt (C93_samples data o hv hp file henc f quant mcus hread 1 Y X cb s1)
    have h2 := near_sqrt (C93_samples data o hv hp file henc f quant mcus hread 2 Y X cr s2)
    have hq : quant.getD 2 [] = quant.getD 1 [] := by
      obtain ⟨file', mcus0, e1, e2, _, huniq⟩ := C29_lossless data o hv hp
      rw [henc] at e1
      injection e1 with e1
      subst e1
      obtain ⟨_, hq, _⟩ := huniq f quant mcus hread
      rw [hq]
      unfold quantFor
      simp only [if_neg hng]
      rfl
    rw [hq] at h2
    have e : ∀ c, sampleOf data o c X Y = component c (rgbToYcbcr (data.getD (3 * (Y * o.width + X)) 0)
        (data.getD (3 * (Y * o.width + X) + 1) 0) (data.getD (3 * (Y * o.width + X) + 2) 0)) := by
      intro c
      unfold sampleOf
      rw [if_pos (Or.inr (Or.inr h444))]
      unfold yccOf
      simp only [if_neg hng]
      rw [Nat.min_eq_left (by omega), Nat.min_eq_left (by omega)]
    rw [e] at h0 h1 h2
    have key := colour_near _ _ _ y cb cr _ _ h0 h1 h2 ch hch
    have hd : ([data.getD (3 * (Y * o.width + X)) 0, data.getD (3 * (Y * o.width + X) + 1) 0,
        data.getD (3 * (Y * o.width + X) + 2) 0].getD ch 0) = data.getD (3 * (Y * o.width + X) + ch) 0 := by
      have hch' : ch = 0 ∨ ch = 1 ∨ ch = 2 := by omega
      rcases hch' with rfl | rfl | rfl <;> rfl
    rw [hd] at key
    generalize data.getD (3 * (Y * o.width + X) + ch) 0 = d at *
    have h3 := Idct.clampLevel_lip (jfifColour y cb cr ch) (d.toNat : ℝ)
    have h4 : clampLevel (d.toNat : ℝ) = d.toNat := by
      have : (d.toNat : ℝ) ≤ 255 := by have := d.toNat_lt; exact_mod_cast (by omega : d.toNat ≤ 255)
      unfold clampLevel
      rw [max_eq_left (Nat.cast_nonneg _), min_eq_left this]
    rw [h4] at h3
    exact h3.trans key

theorem stepErrors_ones : stepErrors (zigzag.map (fun i => (List.replicate 64 1).getD i 0)) ≤ 19.4 := by
  have h : ∀ v < 8, ∀ u < 8, (zigzag.map (fun i => (List.replicate 64 1).getD i 0)).getD (zigzagPlace v u) 0 = 1 := by
    have h : ∀ v ∈ List.range 8, ∀ u ∈ List.range 8,
        (zigzag.map (fun i => (List.replicate 64 1).getD i 0)).getD (zigzagPlace v u) 0 = 1 := by decide +kernel
    exact fun v hv u hu => h v (by simpa using hv) u (by simpa using hu)
  unfold stepErrors
  rw [Finset.sum_congr rfl (fun v hv => Finset.sum_congr rfl (fun u hu => by
    rw [h v (Finset.mem_range.1 hv) u (Finset.mem_range.1 hu)]))]
  simp only [Finset.sum_const, Finset.card_range, nsmul_eq_mul]
  norm_num

/-- **C93 (quality 100).** At quality 100 the squares of the differences add up to less than 20 in every block of 64
samples, a gray pixel is shown within 9/2 levels and a colour, without subsampling, within 16. -/
theorem C93_best (data : List UInt8) (o : Options) (hv : JpegValid data o) (hq : o.quality = 100)
    (hp : o.progressive = false) (file : List UInt8) (henc : Jpeg.encode data o = .ok file)
    (f : Frame) (quant : List (List Nat)) (mcus : List (List (Nat × List Int))) (hread : Reads file f quant mcus) :
    (∀ (k : Nat) (m : List (Nat × List Int)) (j c : Nat) (zz : List Int) (x y : Nat), mcus[k]? = some m →
      m[j]? = some (c, zz) → (blocksAt f k)[j]? = some (c, x, y) →
      ∑ yy ∈ Finset.range 8, ∑ xx ∈ Finset.range 8,
        (blockSample zz (quant.getD c []) yy xx - sampleOf data o c (x + xx) (y + yy)) ^ 2 < 20) ∧
    (o.colorType = .gray → ∀ Y < o.height, ∀ X < o.width, ∀ v, Shown f quant mcus 0 Y X v →
      |v - ((data.getD (Y * o.width + X) 0).toNat : ℝ)| ≤ 9 / 2) ∧
    (o.colorType = .rgb → o.subsampling = .s444 → ∀ Y < o.height, ∀ X < o.width, ∀ y cb cr, Shown f quant mcus 0 Y X y →
      Shown f quant mcus 1 Y X cb → Shown f quant mcus 2 Y X cr → ∀ ch < 3,
      |clampLevel (jfifColour y cb cr ch) - ((data.getD (3 * (Y * o.width + X) + ch) 0).toNat : ℝ)| ≤ 16) := by
  have hquant : quant = quantFor o ∧ f = frameFor o := by
    obtain ⟨file', mcus0, e1, e2, _, huniq⟩ := C29_lossless data o hv hp
    rw [henc] at e1
    injection e1 with e1
    subst e1
    obtain ⟨h1, h2, _⟩ := huniq f quant mcus hread
    exact ⟨h2, h1⟩
  obtain ⟨_, _, hl, hch⟩ := C33_ends
  have hone : ∀ c < (frameFor o).comps.length, stepErrors (quant.getD c []) ≤ 19.4 := by
    intro c hc
    have : quant.getD c [] = zigzag.map (fun i => (List.replicate 64 1).getD i 0) := by
      rw [hquant.1]
      unfold quantFor
      simp only [hq, hl, hch]
      unfold frameFor at hc
      by_cases hg : o.colorType = .gray
      · simp only [if_pos hg] at hc ⊢
        obtain rfl : c = 0 := by simpa using hc
        rfl
      · simp only [if_neg hg] at hc ⊢
        have : c < 3 := by split at hc <;> exact hc
        have hcase : c = 0 ∨ c = 1 ∨ c = 2 := by omega
        rcases hcase with rfl | rfl | rfl <;> rfl
    rw [this]
    exact stepErrors_ones
  have hs : ∀ c < (frameFor o).comps.length, √(stepErrors (quant.getD c [])) ≤ 4.41 := by
    intro c hc
    rw [Real.sqrt_le_left (by norm_num)]
    exact (hone c hc).trans (by norm_num)
  refine ⟨?_, ?_, ?_⟩
  · intro k m j c zz x y hk hj hb
    have h := C93_blocks data o hv hp file henc f quant mcus hread k m j c zz c x y hk hj hb
    have hc := blocksAt_comp f k _ (List.mem_of_getElem? hb)
    rw [hquant.2] at hc
    exact lt_of_le_of_lt (h.trans (hone c hc)) (by norm_num)
  · intro hg Y hY X hX v hsh
    have h := (C93_gray data o hv hg hp file henc f quant mcus hread Y X hY hX).2 v hsh
    have := hs 0 (by unfold frameFor; rw [if_pos hg]; exact Nat.zero_lt_one)
    exact h.trans (this.trans (by norm_num))
  · intro hc h444 Y hY X hX y cb cr s0 s1 s2 ch hch
    have h := (C93_colour data o hv hc h444 hp file henc f quant mcus hread Y X hY hX).2 y cb cr s0 s1 s2 ch hch
    have hl3 : (frameFor o).comps.length = 3 := by
      unfold frameFor; rw [if_neg (by rw [hc]; decide), if_pos h444]; rfl
    have a := hs 0 (by omega)
    have b := hs 1 (by omega)
    refine h.trans ?_
    have hch' : ch = 0 ∨ ch = 1 ∨ ch = 2 := by omega
    unfold chromaShare
    rcases hch' with rfl | rfl | rfl
    · rw [if_pos rfl]; linarith
    · rw [if_neg (by decide), if_pos rfl]; linarith
    · rw [if_neg (by decide), if_neg (by decide)]; linarith

/-- The two pixels of the example are shown within the root of the squares of the steps of quality 50. -/
example : ∃ file mcus, Jpeg.encode [0, 255] jpegOptions = .ok file ∧
    Reads file ⟨1, 2, [⟨1, 1, 1, 0⟩]⟩ (quantFor jpegOptions) mcus ∧
    (∃ v, Shown ⟨1, 2, [⟨1, 1, 1, 0⟩]⟩ (quantFor jpegOptions) mcus 0 0 1 v) :=
  let ⟨file, mcus, h, _, r, _⟩ := C29_lossless [0, 255] jpegOptions jpegOptions_valid rfl
  ⟨file, zigzagged mcus, h, r,
    (C93_gray _ _ jpegOptions_valid rfl rfl file h _ _ _ r 0 1 (by decide) (by decide)).1⟩

end Pixo.Props
