import Verif.Proof.JpegOpt
import Verif.Proof.JpegDct
import Verif.Proof.T81Unique
import Verif.Model.JpegProgressive
/-
The quantized blocks of an image exist and are in the baseline range.
-/
namespace Pixo.Jpeg
open Pixo Spec.T81

theorem mapM_exists {α β : Type} (f : α → R β) (P : α → β → Prop) (l : List α)
    (h : ∀ a ∈ l, ∃ b, f a = .ok b ∧ P a b) :
    ∃ bs, l.mapM f = .ok bs ∧ bs.length = l.length ∧ ∀ i (hi : i < l.length), ∃ b, bs[i]? = some b ∧ P l[i] b := by
  induction l with
  | nil => exact ⟨[], rfl, rfl, fun i hi => by simp at hi⟩
  | cons a l ih =>
    obtain ⟨b, e, p⟩ := h a (by simp)
    obtain ⟨bs, e2, hl, h2⟩ := ih (fun x hx => h x (by simp [hx]))
    refine ⟨b :: bs, by rw [List.mapM_cons, e, ok_bind, e2]; rfl, by simp [hl], ?_⟩
    intro i hi
    cases i with
    | zero => exact ⟨b, rfl, p⟩
    | succ i => exact h2 i (by simpa using hi)

theorem getChecked_lt {l : List UInt8} {i : Nat} (h : i < l.length) : ∃ v, getChecked l i = .ok v := by
  rw [getChecked, List.getElem?_eq_getElem h]; exact ⟨_, rfl⟩

/-- Bytes per pixel. -/
def bpp (c : ColorType) : Nat := if c = .rgb then 3 else 1

theorem index_lt {x y w h : Nat} (hw : 0 < w) (hh : 0 < h) :
    min y (h - 1) * w + min x (w - 1) < w * h := by
  have h1 : min y (h - 1) ≤ h - 1 := Nat.min_le_right _ _
  have h2 : min x (w - 1) ≤ w - 1 := Nat.min_le_right _ _
  generalize min y (h - 1) = Y at *
  generalize min x (w - 1) = X at *
  have h3 : Y * w ≤ (h - 1) * w := Nat.mul_le_mul_right w h1
  have h4 : (h - 1) * w + w = w * h := by
    rw [← Nat.succ_mul, show (h - 1).succ = h by omega, Nat.mul_comm]
  omega

theorem pixelYcc_ok {data : List UInt8} {w h x y : Nat} {color : ColorType} (hw : 0 < w) (hh : 0 < h)
    (hc : color = .rgb ∨ color = .gray) (hl : data.length = w * h * bpp color) :
    ∃ p, pixelYcc data w h x y color = .ok p := by
  have hi := index_lt (x := x) (y := y) hw hh
  unfold pixelYcc
  simp only
  generalize min y (h - 1) * w + min x (w - 1) = i at *
  rcases hc with rfl | rfl
  · rw [show bpp .rgb = 3 from rfl] at hl
    obtain ⟨r, e1⟩ := getChecked_lt (l := data) (i := i * 3) (by omega)
    obtain ⟨g, e2⟩ := getChecked_lt (l := data) (i := i * 3 + 1) (by omega)
    obtain ⟨b, e3⟩ := getChecked_lt (l := data) (i := i * 3 + 2) (by omega)
    simp only
    rw [e1, ok_bind, e2, ok_bind, e3, ok_bind]
    exact ⟨_, rfl⟩
  · rw [show bpp .gray = 1 from rfl] at hl
    obtain ⟨g, e1⟩ := getChecked_lt (l := data) (i := i) (by omega)
    simp only
    rw [e1, ok_bind]
    exact ⟨_, rfl⟩

/-- A block of samples. -/
def Samples (b : List Int) : Prop := ∀ i < 64, smLo ≤ b.getD i 0 ∧ b.getD i 0 ≤ smHi

theorem samples_map {α} (px : List α) (f : α → Int) (hl : px.length = 64) (h : ∀ p, smLo ≤ f p ∧ f p ≤ smHi) :
    Samples (px.map f) := by
  intro i hi
  rw [List.getD_eq_getElem?_getD, List.getElem?_map, List.getElem?_eq_getElem (by omega)]
  exact h _

theorem extractBlock_ok {data : List UInt8} {w h bx byy : Nat} {color : ColorType} (hw : 0 < w) (hh : 0 < h)
    (hc : color = .rgb ∨ color = .gray) (hl : data.length = w * h * bpp color) :
    ∃ y cb cr, extractBlock data w h bx byy color = .ok (y, cb, cr) ∧ Samples y ∧ Samples cb ∧ Samples cr := by
  unfold extractBlock
  obtain ⟨px, e, hlen, _⟩ := mapM_exists
    (fun i => pixelYcc data w h (bx + i % 8) (byy + i / 8) color) (fun _ _ => True) (List.range 64)
    (fun i _ => by obtain ⟨p, hp⟩ := pixelYcc_ok hw hh hc hl; exact ⟨p, hp, trivial⟩)
  rw [e, ok_bind]
  rw [List.length_range] at hlen
  exact ⟨_, _, _, rfl, samples_map _ _ hlen (fun _ => level_range _), samples_map _ _ hlen (fun _ => level_range _),
    samples_map _ _ hlen (fun _ => level_range _)⟩

theorem extractMcu420_ok {data : List UInt8} {w h mx my : Nat} (hw : 0 < w) (hh : 0 < h)
    (hl : data.length = w * h * 3) :
    ∃ ys cb cr, extractMcu420 data w h mx my = .ok (ys, cb, cr) ∧ ys.length = 4 ∧ (∀ y ∈ ys, Samples y) ∧
      Samples cb ∧ Samples cr := by
  unfold extractMcu420
  obtain ⟨px, e, hlen, hpx⟩ := mapM_exists
    (fun k => (List.range 64).mapM (fun i =>
      pixelYcc data w h (mx + (k % 2) * 8 + i % 8) (my + (k / 2) * 8 + i / 8) .rgb))
    (fun _ b => b.length = 64) (List.range 4)
    (fun k _ => by
      obtain ⟨b, e, hlen, _⟩ := mapM_exists
        (fun i => pixelYcc data w h (mx + (k % 2) * 8 + i % 8) (my + (k / 2) * 8 + i / 8) .rgb)
        (fun _ _ => True) (List.range 64)
        (fun i _ => by
          obtain ⟨p, hp⟩ := pixelYcc_ok (x := mx + (k % 2) * 8 + i % 8) (y := my + (k / 2) * 8 + i / 8) hw hh
            (Or.inl rfl) hl
          exact ⟨p, hp, trivial⟩)
      exact ⟨b, e, by simpa using hlen⟩)
  rw [e, ok_bind]
  rw [List.length_range] at hlen
  refine ⟨_, _, _, rfl, by simp [hlen], ?_, ?_, ?_⟩
  · intro y hy
    obtain ⟨b, hb, rfl⟩ := List.mem_map.mp hy
    obtain ⟨i, hi, rfl⟩ := List.getElem_of_mem hb
    obtain ⟨b', e', h64⟩ := hpx i (by simpa [hlen] using hi)
    rw [List.getElem?_eq_getElem hi] at e'
    injection e' with e'
    exact samples_map _ _ (by rw [e']; exact h64) (fun _ => level_range _)
  · intro i hi
    rw [getD_map_range 64 _ i 0 hi]
    exact mean4_range _ _ _ _
  · intro i hi
    rw [getD_map_range 64 _ i 0 hi]
    exact mean4_range _ _ _ _

/-! ### Tables and blocks -/

theorem scaled_range (s e : Nat) : 1 ≤ scaled s e ∧ scaled s e ≤ 255 := by
  unfold scaled; omega

theorem tables_range (q : Nat) : TableRange (QuantTables.withQuality q).luminanceTable ∧
    TableRange (QuantTables.withQuality q).chrominanceTable := by
  constructor <;>
  · intro i hi
    unfold QuantTables.withQuality
    simp only
    rw [getD_map_range 64 _ i 1 hi]
    exact scaled_range _ _

theorem zigzag_pos : ∀ k < 64, zigzag.getD k 0 < 64 ∧ (k ≠ 0 → zigzag.getD k 0 ≠ 0) := by decide +kernel

theorem blockRange_of {b : List Int}
    (h : ∀ i < 64, (i ≠ 0 → -1023 ≤ b.getD i 0 ∧ b.getD i 0 ≤ 1023) ∧
      (i = 0 → -1024 ≤ b.getD i 0 ∧ b.getD i 0 ≤ 1021)) : BlockRange (zigzagReorder b) := by
  have hhd : (zigzagReorder b).headD 0 = b.getD 0 0 := by
    unfold zigzagReorder
    rw [show List.range 64 = 0 :: (List.range 63).map Nat.succ from List.range_succ_eq_map]
    rfl
  refine ⟨?_, ?_⟩
  · rw [hhd]
    have := (h 0 (by decide)).2 rfl
    omega
  · intro v hv
    obtain ⟨k, hk, rfl⟩ := List.getElem_of_mem hv
    rw [List.length_drop, zigzagReorder_length] at hk
    rw [List.getElem_drop]
    unfold zigzagReorder
    rw [List.getElem_map, List.getElem_range]
    obtain ⟨z1, z2⟩ := zigzag_pos (1 + k) (by omega)
    have := (h _ z1).1 (z2 (by omega))
    omega

/-- A quantizer that gives coefficients of the baseline range. -/
def QuantOk (quant : List Int → List Nat → R (List Int)) : Prop :=
  ∀ b t, TableRange t → Samples b → ∃ r, quant (dct2d b) t = .ok r ∧ BlockRange (zigzagReorder r)

theorem quantizeBlock_ok : QuantOk (fun d t => .ok (quantizeBlock d t)) :=
  fun b _ ht hb => ⟨_, rfl, blockRange_of (fun i hi => by
    have := quantizeBlock_range b _ ht hb i hi
    omega)⟩

/-- The contexts of valid images. -/
structure Ctx.Baseline (c : Ctx) : Prop where
  w : 0 < c.width
  h : 0 < c.height
  wmax : c.width ≤ 65535
  hmax : c.height ≤ 65535
  color : c.colorType = .rgb ∨ c.colorType = .gray
  len : c.data.length = c.width * c.height * bpp c.colorType
  lum : TableRange c.tables.luminanceTable
  chrom : TableRange c.tables.chrominanceTable
  quant : QuantOk c.quant

theorem coeffs_ok {c : Ctx} (h : c.Baseline) (chroma : Bool) {b : List Int} (hb : Samples b) :
    ∃ r, c.coeffs chroma b = .ok r ∧ BlockRange (zigzagReorder r) := by
  unfold Ctx.coeffs
  refine h.quant b _ ?_ hb
  cases chroma
  · exact h.lum
  · exact h.chrom

/-- The components of the blocks of an MCU (A.2.3). -/
def mcuShape (color : ColorType) (sub : Subsampling) : List Nat :=
  if color = .gray then [0] else if sub = .s444 then [0, 1, 2] else [0, 0, 0, 0, 1, 2]

theorem mcu_ok {c : Ctx} (h : c.Baseline) (x y : Nat) :
    ∃ m, c.mcu x y = .ok m ∧ McuRange m ∧ m.map (·.1) = mcuShape c.colorType c.subsampling := by
  unfold Ctx.mcu
  by_cases hg : c.colorType = .gray
  · rw [if_pos hg]
    obtain ⟨yb, cb, cr, e, s1, s2, s3⟩ := extractBlock_ok (bx := x) (byy := y) h.w h.h h.color h.len
    obtain ⟨y', ey, ry⟩ := coeffs_ok h false s1
    rw [e, ok_bind]
    simp only [ey, ok_bind]
    refine ⟨_, rfl, ?_, by simp [mcuShape, hg]⟩
    intro p hp
    simp only [List.mem_singleton] at hp
    subst hp
    exact ⟨by simp, ry⟩
  · rw [if_neg hg]
    have hrgb := h.color.resolve_right hg
    by_cases h4 : c.subsampling = .s444
    · rw [if_pos h4]
      obtain ⟨yb, cb, cr, e, s1, s2, s3⟩ := extractBlock_ok (bx := x) (byy := y) h.w h.h h.color h.len
      obtain ⟨y', ey, ry⟩ := coeffs_ok h false s1
      obtain ⟨b', eb, rb⟩ := coeffs_ok h true s2
      obtain ⟨r', er, rr⟩ := coeffs_ok h true s3
      rw [e, ok_bind]
      simp only [ey, eb, er, ok_bind]
      refine ⟨_, rfl, ?_, by simp [mcuShape, hg, h4]⟩
      intro p hp
      simp only [List.mem_cons, List.not_mem_nil, or_false] at hp
      rcases hp with rfl | rfl | rfl
      · exact ⟨by simp, ry⟩
      · exact ⟨by simp, rb⟩
      · exact ⟨by simp, rr⟩
    · rw [if_neg h4]
      have hl := h.len
      rw [hrgb, show bpp .rgb = 3 from rfl] at hl
      obtain ⟨ys, cb, cr, e, h4', s1, s2, s3⟩ := extractMcu420_ok (mx := x) (my := y) h.w h.h hl
      obtain ⟨b', eb, rb⟩ := coeffs_ok h true s2
      obtain ⟨r', er, rr⟩ := coeffs_ok h true s3
      obtain ⟨yq, ey, hyl, hyq⟩ := mapM_exists (c.coeffs false) (fun _ r => BlockRange (zigzagReorder r)) ys
        (fun b hb => coeffs_ok h false (s1 b hb))
      rw [e, ok_bind]
      simp only [ey, eb, er, ok_bind]
      refine ⟨_, rfl, ?_, ?_⟩
      · intro p hp
        rcases List.mem_append.mp hp with hp | hp
        · obtain ⟨b, hb, rfl⟩ := List.mem_map.mp hp
          obtain ⟨i, hi, rfl⟩ := List.getElem_of_mem hb
          obtain ⟨b2, eb2, hb2⟩ := hyq i (by omega)
          rw [List.getElem?_eq_getElem hi] at eb2
          injection eb2 with eb2
          subst eb2
          exact ⟨by simp, hb2⟩
        · simp only [List.mem_cons, List.not_mem_nil, or_false] at hp
          rcases hp with rfl | rfl
          · exact ⟨by simp, rb⟩
          · exact ⟨by simp, rr⟩
      · rw [mcuShape, if_neg hg, if_neg h4]
        have hyl4 : yq.length = 4 := by omega
        match yq, hyl4 with
        | [a, b, d, e], _ => rfl

theorem coords_length (w h s : Nat) :
    (coords w h s).length = (w + (s - 1)) / s * ((h + (s - 1)) / s) := by
  unfold coords
  rw [List.length_flatMap]
  simp only [List.length_map, List.length_range, List.map_const', List.sum_replicate_nat]
  rw [Nat.mul_comm]

theorem step_cases (c : Ctx) : c.step = 8 ∨ c.step = 16 := by
  unfold Ctx.step; split
  · exact Or.inl rfl
  · split
    · exact Or.inl rfl
    · exact Or.inr rfl

theorem blocks_count {s w : Nat} (hs : s = 8 ∨ s = 16) (hw : 0 < w) (hw2 : w ≤ 65535) :
    1 ≤ (w + (s - 1)) / s ∧ (w + (s - 1)) / s ≤ 8192 := by
  rcases hs with rfl | rfl <;> omega

theorem total_eq {c : Ctx} (h : c.Baseline) :
    totalMcus c.width c.height c.step = (coords c.width c.height c.step).length ∧
    1 ≤ (coords c.width c.height c.step).length ∧ (coords c.width c.height c.step).length < 2 ^ 32 := by
  rw [coords_length, totalMcus]
  have h1 := blocks_count (step_cases c) h.w h.wmax
  have h2 := blocks_count (step_cases c) h.h h.hmax
  generalize (c.width + (c.step - 1)) / c.step = a at *
  generalize (c.height + (c.step - 1)) / c.step = b at *
  have h3 : a * b ≤ 8192 * 8192 := Nat.mul_le_mul h1.2 h2.2
  have h4 : 1 * 1 ≤ a * b := Nat.mul_le_mul h1.1 h2.1
  refine ⟨Nat.mod_eq_of_lt (by omega), by omega, by omega⟩

theorem mcus_ok {c : Ctx} (h : c.Baseline) :
    ∃ mcus, c.mcus = .ok mcus ∧ mcus.length = (coords c.width c.height c.step).length ∧
      (∀ m ∈ mcus, McuRange m ∧ m.map (·.1) = mcuShape c.colorType c.subsampling) := by
  unfold Ctx.mcus
  obtain ⟨ms, e, hl, hm⟩ := mapM_exists (fun p : Nat × Nat => c.mcu p.1 p.2)
    (fun _ m => McuRange m ∧ m.map (·.1) = mcuShape c.colorType c.subsampling)
    (coords c.width c.height c.step) (fun p _ => mcu_ok h p.1 p.2)
  refine ⟨ms, e, hl, ?_⟩
  intro m hmem
  obtain ⟨i, hi, rfl⟩ := List.getElem_of_mem hmem
  obtain ⟨b, eb, hb⟩ := hm i (by omega)
  rw [List.getElem?_eq_getElem hi] at eb
  injection eb with eb
  rw [eb]; exact hb

theorem mcuShape_length (color sub) : (mcuShape color sub).length ≤ 6 := by
  unfold mcuShape; split
  · decide
  · split <;> decide

/-- The tables chosen for a file are right and complete. -/
theorem chooseTables_ok (o : Options) (mcus : List Mcu) (total : Nat) (hm : ∀ m ∈ mcus, McuRange m)
    (h6 : McuSize mcus) (hn : mcus.length < 2 ^ 32) :
    ∃ t, chooseTables o mcus total = .ok t ∧ TablesOk t ∧
      Covers t (scanSyms o.restartInterval total mcus 0 [0, 0, 0]) ∧
      (o.optimizeHuffman = false → HuffTables.std = .ok t) ∧
      (o.optimizeHuffman = true → Unfit (scanSyms o.restartInterval total mcus 0 [0, 0, 0]) ∨
        ∀ v, v ∈ t.acLum.vals ↔ (false, true, v) ∈ scanSyms o.restartInterval total mcus 0 [0, 0, 0]) := by
  obtain ⟨st, est, _⟩ := std_spec
  have hstd := std_covers est (scanSyms_ok o.restartInterval total mcus 0 [0, 0, 0] hm prevOk_zero)
  unfold chooseTables
  by_cases ho : o.optimizeHuffman = true
  · rw [if_pos ho]
    rcases buildOptimized_spec (decide (o.colorType = .gray)) mcus o.restartInterval total hm h6 hn with
      ⟨e, hu⟩ | ⟨t, e, h1, h2, _, h3⟩
    · rw [e, ok_bind]
      exact ⟨st, est, hstd.1, hstd.2, (fun h => by rw [h] at ho; cases ho), fun _ => Or.inl hu⟩
    · rw [e, ok_bind]
      exact ⟨t, rfl, h1, h2, (fun h => by rw [h] at ho; cases ho), fun _ => Or.inr h3⟩
  · rw [if_neg ho]; exact ⟨st, est, hstd.1, hstd.2, fun _ => est, fun h => absurd h ho⟩

theorem validate_baseline {data : List UInt8} {o : Options} (h : validate data o = .ok ()) :
    (Ctx.of data o (QuantTables.withQuality o.quality)).Baseline ∧ o.restartInterval ≠ some 0 ∧
      1 ≤ o.quality ∧ o.quality ≤ 100 := by
  unfold validate at h
  by_cases h1 : o.quality = 0 ∨ o.quality > 100
  · rw [if_pos h1] at h; cases h
  rw [if_neg h1] at h
  by_cases h2 : o.restartInterval = some 0
  · rw [if_pos h2] at h; cases h
  rw [if_neg h2] at h
  by_cases h3 : o.width = 0 ∨ o.height = 0
  · rw [if_pos h3] at h; cases h
  rw [if_neg h3] at h
  by_cases h4 : o.width > maxDimension ∨ o.height > maxDimension
  · rw [if_pos h4] at h; cases h
  rw [if_neg h4] at h
  by_cases h5 : o.colorType ≠ .rgb ∧ o.colorType ≠ .gray
  · rw [if_pos h5] at h; cases h
  rw [if_neg h5] at h
  simp only at h
  by_cases h6 : data.length ≠ o.width * o.height * (if o.colorType = .rgb then 3 else 1)
  · rw [if_pos h6] at h; cases h
  unfold maxDimension at h4
  refine ⟨⟨?_, ?_, ?_, ?_, ?_, ?_, (tables_range _).1, (tables_range _).2, quantizeBlock_ok⟩, h2, by omega, by omega⟩
  · show 0 < o.width; omega
  · show 0 < o.height; omega
  · show o.width ≤ 65535; omega
  · show o.height ≤ 65535; omega
  · show o.colorType = .rgb ∨ o.colorType = .gray
    by_cases hr : o.colorType = .rgb
    · exact Or.inl hr
    · exact Or.inr (Decidable.byContradiction fun hg => h5 ⟨hr, hg⟩)
  · show data.length = _
    exact Decidable.byContradiction fun hn => h6 hn

/-- A baseline file: the MCUs, the tables, and the coded scan. -/
theorem encodeBody_baseline (data : List UInt8) (o : Options) (h : validate data o = .ok ())
    (hp : o.progressive = false) :
    ∃ mcus t scan,
      (Ctx.of data o (QuantTables.withQuality o.quality)).mcus = .ok mcus ∧
      (∀ m ∈ mcus, McuRange m ∧ m.map (·.1) = mcuShape o.colorType o.subsampling) ∧
      mcus.length = (coords o.width o.height (Ctx.of data o (QuantTables.withQuality o.quality)).step).length ∧
      TablesOk t ∧ Covers t (scanSyms o.restartInterval mcus.length mcus 0 [0, 0, 0]) ∧
      (o.optimizeHuffman = false → HuffTables.std = .ok t) ∧
      Scan t.spec o.restartInterval (mcus.map zzMcu) scan ∧
      encodeBody data o = .ok (header o (QuantTables.withQuality o.quality) t 0xFFC0 ++ sos o.colorType ++
        scan ++ eoi) := by
  obtain ⟨hb, hri, _⟩ := validate_baseline h
  obtain ⟨ht1, ht2, ht3⟩ := total_eq hb
  obtain ⟨mcus, e, hl, hm⟩ := mcus_ok hb
  have h6 : McuSize mcus := by
    intro m hmem
    have := mcuShape_length o.colorType o.subsampling
    have h2 := congrArg List.length (hm m hmem).2
    rw [List.length_map] at h2
    change m.length = (mcuShape o.colorType o.subsampling).length at h2
    omega
  obtain ⟨t, et, hok, hcov, hno, _⟩ := chooseTables_ok o mcus mcus.length (fun m x => (hm m x).1) h6 (by omega)
  obtain ⟨scan, es, hscan⟩ := encodeScan_spec hok mcus o.restartInterval mcus.length (fun m x => (hm m x).1)
    (by rintro rfl; simp at hl; omega) hri rfl (by omega) hcov
  refine ⟨mcus, t, scan, e, hm, hl, hok, hcov, hno, hscan, ?_⟩
  · unfold encodeBody
    simp only
    rw [ht1, ← hl, e, ok_bind, et, ok_bind, if_neg (by rw [hp]; decide), es, ok_bind]
    rfl

end Pixo.Jpeg
