import Verif.Props.Jpeg
import Verif.Proof.JpegRefine
import Verif.Proof.JpegProgFile
/-
C66: scans of successive approximation, as T.81 reads them.
-/
namespace Pixo.Props
open Spec Spec.T81

/-- The scan in the terms of T.81. -/
def ruleOf (s : Jpeg.ScanSpec) : ScanRule := ⟨s.component, s.ss, s.se, s.ah, s.al⟩

/-- Coefficients of the baseline range (what an 8-bit image gives), in natural order. -/
def InRange (b : List Int) : Prop :=
  (-1024 ≤ b.headD 0 ∧ b.headD 0 ≤ 1023) ∧ ∀ v ∈ (toZigzag b).drop 1, v.natAbs < 1024

instance (b : List Int) : Decidable (InRange b) := by unfold InRange; infer_instance

/-- The bands `ss`..`se` of blocks in natural order. -/
def bandsOf (s : Jpeg.ScanSpec) (blocks : List (List Int)) : List (List Int) :=
  blocks.map fun b => bandOf s.ss s.se (toZigzag b)

/-- No band with a zero at its end is followed by a band of zeros: no ends of bands are joined in a run (for which
the standard tables have no codes; C31). -/
def NoEndRun : List (List Int) → Prop
  | a :: b :: l => ¬(a.getLast? = some 0 ∧ ∀ v ∈ b, v = 0) ∧ NoEndRun (b :: l)
  | _ => True

def decNoEndRun : (l : List (List Int)) → Decidable (NoEndRun l)
  | [] => .isTrue trivial
  | [_] => .isTrue trivial
  | a :: b :: l =>
    have := decNoEndRun (b :: l)
    by unfold NoEndRun; infer_instance

instance (l : List (List Int)) : Decidable (NoEndRun l) := decNoEndRun l

/-- The bytes of the scan are a segment of T.81 for the scan and the coefficients, with the tables of the component. -/
def SaysScan (t : Jpeg.HuffTables) (s : Jpeg.ScanSpec) (blocks : List (List Int)) (bytes : List UInt8) : Prop :=
  ApproxSegment (t.get true (decide (s.component = 0))).spec (t.get false (decide (s.component = 0))).spec (ruleOf s)
    (bandsOf s blocks) bytes

theorem inRange_block {b : List Int} (h : InRange b) : Jpeg.BlockRange (Jpeg.zigzagReorder b) := by
  refine ⟨?_, ?_⟩
  · rw [Jpeg.headD_zigzag]; exact h.1
  · rw [toZigzag_eq]; exact h.2

theorem bandsOf_eq (s : Jpeg.ScanSpec) (blocks : List (List Int)) : bandsOf s blocks = blocks.map (Jpeg.bandAt s) := by
  unfold bandsOf
  apply List.map_congr_left
  intro b _
  unfold Jpeg.bandAt
  rw [toZigzag_eq]

theorem noEndRun_iff (l : List (List Int)) : NoEndRun l ↔ Jpeg.NoRun l := by
  have trim : ∀ b : List Int, Jpeg.trimZeros b = [] ↔ ∀ v ∈ b, v = 0 := by
    intro b
    constructor
    · intro h v hv
      rw [Jpeg.trimZeros_nil h] at hv
      exact List.eq_of_mem_replicate hv
    · intro h
      apply List.eq_nil_iff_forall_not_mem.mpr
      intro v hv
      have h2 := List.getLast?_eq_some_getLast (List.ne_nil_of_mem hv)
      rw [h _ (Jpeg.mem_trimZeros (List.getLast_mem (List.ne_nil_of_mem hv)))] at h2
      exact Jpeg.trimZeros_last b h2
  induction l with
  | nil => exact Iff.rfl
  | cons a l ih =>
    cases l with
    | nil => exact Iff.rfl
    | cons b l => rw [NoEndRun, Jpeg.NoRun, trim]; exact and_congr Iff.rfl ih

theorem std_ok {t : Jpeg.HuffTables} (h : Jpeg.HuffTables.std = .ok t) : Jpeg.TablesOk t := by
  obtain ⟨t', e, ht, _⟩ := Jpeg.std_spec
  rw [h] at e
  injection e with e
  exact e ▸ ht

/-- The bits a writer has got, as a segment. -/
theorem segment_bits {w : BitWriterMsb} {bits : List Bool} (h : Emits {} w bits) :
    ∃ raw, w.finish = stuff raw ∧ Spec.bytesMSB raw = bits ++ List.replicate (Spec.padLen bits.length) true := by
  obtain ⟨raw, er, hraw⟩ := (h [] [] (BitWriterMsb.holds_new [])).flush
  refine ⟨raw, ?_, by simpa using hraw⟩
  change w.flush.buffer = _
  rw [er]; rfl

/-- And no other bits. -/
theorem segment_same {raw raw' : List UInt8} (h : stuff raw = stuff raw') : raw = raw' :=
  (stuff_unique (a := raw) (b := raw') (r := []) (q := []) (Or.inl rfl) (Or.inl rfl) (by simpa using h)).1

theorem dcBands {s : Jpeg.ScanSpec} (hs : s.ss = 0 ∧ s.se = 0) (blocks : List (List Int)) :
    bandsOf s blocks = (blocks.map fun b => b.headD 0).map (fun d => [d]) := by
  rw [bandsOf_eq, List.map_map]
  exact List.map_congr_left (fun b _ => Jpeg.bandAt_dc hs b)

theorem dc_inj {a b : List Int} (h : a.map (fun d => [d]) = b.map (fun d => [d])) : a = b := by
  have := congrArg (List.map (fun l : List Int => l.headD 0)) h
  simpa [List.map_map, Function.comp_def] using this

/-- **C66**, first scans of DC coefficients: what is written can be read, and it is right exactly when the bits cut
off do not decrease from block to block: the code shifts differences, T.81 takes differences of shifted values. -/
theorem C66_dc_first_partial (t : Jpeg.HuffTables) (ht : Jpeg.HuffTables.std = .ok t) (s : Jpeg.ScanSpec)
    (hs : s.ss = 0 ∧ s.se = 0) (ha : s.ah = 0) (blocks : List (List Int)) (hb : ∀ b ∈ blocks, InRange b) :
    ∃ bytes, Jpeg.scanData t blocks s = .ok bytes ∧
      (SaysScan t s blocks bytes ↔ ((blocks.map fun b => b.headD 0).map (fun d => d % 2 ^ s.al)).Pairwise (· ≤ ·)) := by
  have hok := std_ok ht
  obtain ⟨w, bits, e, hem, hdc⟩ := Jpeg.dcScanBlocks_shift hok (scan := s) (decide (s.component = 0)) blocks
    (fun b h => inRange_block (hb b h)) {} 0 0 (by decide) ((Jpeg.std_vals ht).1 _)
  obtain ⟨raw, er, hraw⟩ := segment_bits hem
  refine ⟨w.finish, ?_, ?_⟩
  · unfold Jpeg.scanData
    rw [if_pos hs, if_neg (by omega), e]; rfl
  have hiff := Jpeg.dcSums_iff s.al (blocks.map fun b => b.headD 0) 0
  rw [Int.zero_ediv, List.map_cons, List.pairwise_cons] at hiff
  have hpos : ∀ x ∈ (blocks.map fun b => b.headD 0).map (fun d : Int => d % 2 ^ s.al), (0 : Int) % 2 ^ s.al ≤ x := by
    intro x hx
    obtain ⟨d, _, rfl⟩ := List.mem_map.mp hx
    rw [Int.zero_emod]
    exact Int.emod_nonneg d (Int.ne_of_gt (Int.pow_pos (by decide)))
  rw [show ∀ p, ((∀ x ∈ (blocks.map fun b => b.headD 0).map (fun d : Int => d % 2 ^ s.al), (0 : Int) % 2 ^ s.al ≤ x) ∧ p ↔ p)
    from fun p => ⟨fun h => h.2, fun h => ⟨hpos, h⟩⟩] at hiff
  rw [← hiff]
  unfold SaysScan ApproxSegment ruleOf
  simp only [hs.1, hs.2, ha, if_true, true_and]
  rw [dcBands hs]
  constructor
  · rintro ⟨raw', bits', e1, e2, dcs, e3, e4⟩
    rw [er] at e1
    obtain rfl := segment_same e1
    obtain rfl := dc_inj e3
    rw [hraw] at e2
    exact (DcFirst_unique (hok.get true _).legal hdc e4 (by
      have : ∀ (l : List Int) (a p : Int), (Jpeg.dcSums s.al a p l).length = l.length := by
        intro l
        induction l with
        | nil => simp [Jpeg.dcSums]
        | cons d l ih => intro a p; simp [Jpeg.dcSums, ih]
      simp [this]) e2).1
  · intro h
    rw [h] at hdc
    exact ⟨raw, bits, er, hraw, _, rfl, hdc⟩

/-- **C66**, refinement scans of DC coefficients: a bit for every block, and they are right exactly when each
coefficient is not negative or divisible (T.81 shifts arithmetically, the code takes the absolute value). -/
theorem C66_dc_refine_partial (t : Jpeg.HuffTables) (s : Jpeg.ScanSpec) (hs : s.ss = 0 ∧ s.se = 0) (ha : 0 < s.ah)
    (blocks : List (List Int)) (hb : ∀ b ∈ blocks, InRange b) :
    ∃ bytes, Jpeg.scanData t blocks s = .ok bytes ∧
      (SaysScan t s blocks bytes ↔ ∀ b ∈ blocks, 0 ≤ b.headD 0 ∨ (2 : Int) ^ s.al ∣ b.headD 0) := by
  obtain ⟨w, e, hem⟩ := Jpeg.dcRefineBlocks_spec s.al blocks (fun b h => inRange_block (hb b h)) {} 0 (by decide)
  obtain ⟨raw, er, hraw⟩ := segment_bits hem
  refine ⟨w.finish, ?_, ?_⟩
  · unfold Jpeg.scanData
    rw [if_pos hs, if_pos ha, e]; rfl
  have hiff : (blocks.map fun b => Jpeg.dcBit s.al (b.headD 0)) = dcRefineBits s.al (blocks.map fun b => b.headD 0) ↔
      ∀ b ∈ blocks, 0 ≤ b.headD 0 ∨ (2 : Int) ^ s.al ∣ b.headD 0 := by
    unfold dcRefineBits
    rw [List.map_map, List.map_inj_left]
    exact forall_congr' fun b => forall_congr' fun _ => Jpeg.dcBit_iff s.al (b.headD 0)
  rw [← hiff]
  unfold SaysScan ApproxSegment ruleOf
  have h1 : s.ah ≠ 0 := by omega
  simp only [hs.1, hs.2, if_true, true_and, if_neg h1]
  rw [dcBands hs]
  constructor
  · rintro ⟨raw', bits', e1, e2, dcs, e3, e4⟩
    rw [er] at e1
    obtain rfl := segment_same e1
    obtain rfl := dc_inj e3
    rw [hraw] at e2
    have hl : bits'.length = blocks.length := by rw [e4]; simp [dcRefineBits]
    rw [← e4]
    exact (List.append_inj e2 (by rw [hl]; simp)).1
  · intro h
    exact ⟨raw, _, er, hraw, _, rfl, h⟩

/-- **C66**, first scans of AC coefficients (without joined ends of bands): what is written can be read, and it is
right exactly when each coefficient is not negative or divisible (T.81 rounds towards zero, the code downwards). -/
theorem C66_ac_first_partial (t : Jpeg.HuffTables) (ht : Jpeg.HuffTables.std = .ok t) (s : Jpeg.ScanSpec)
    (hs : 1 ≤ s.ss ∧ s.ss ≤ s.se ∧ s.se ≤ 63) (ha : s.ah = 0) (blocks : List (List Int)) (hb : ∀ b ∈ blocks, InRange b)
    (hn : NoEndRun ((bandsOf s blocks).map fun b => b.map fun v => v / 2 ^ s.al)) :
    ∃ bytes, Jpeg.scanData t blocks s = .ok bytes ∧
      (SaysScan t s blocks bytes ↔ ∀ b ∈ bandsOf s blocks, ∀ v ∈ b, 0 ≤ v ∨ (2 : Int) ^ s.al ∣ v) := by
  have hok := std_ok ht
  have hac : Jpeg.AcSpec { s with al := 0 } := ⟨rfl, hs.1, hs.2.1, hs.2.2⟩
  have hbands : (blocks.map (Jpeg.shiftBlock s.al)).map (Jpeg.bandAt { s with al := 0 }) =
      (bandsOf s blocks).map fun b => b.map fun v => v / 2 ^ s.al := by
    rw [bandsOf_eq, List.map_map, List.map_map]
    apply List.map_congr_left
    intro b _
    simp only [Function.comp_apply]
    unfold Jpeg.bandAt bandOf
    simp only [Jpeg.zigzag_shift, List.map_take, List.map_drop]
  have hrange : ∀ b ∈ blocks.map (Jpeg.shiftBlock s.al), Jpeg.BlockRange (Jpeg.zigzagReorder b) := by
    intro b hbm
    obtain ⟨x, hx, rfl⟩ := List.mem_map.mp hbm
    have h1 := inRange_block (hb x hx)
    rw [Jpeg.zigzag_shift]
    refine ⟨?_, ?_⟩
    · have hh : ((Jpeg.zigzagReorder x).map fun v => v / 2 ^ s.al).headD 0 = (Jpeg.zigzagReorder x).headD 0 / 2 ^ s.al := by
        cases Jpeg.zigzagReorder x <;> simp
      have := Jpeg.shift_range s.al h1.dc (by omega) (by omega)
      rw [hh]; omega
    · rw [← List.map_drop]
      intro v hv
      obtain ⟨y, hy, rfl⟩ := List.mem_map.mp hv
      have h2 : y.natAbs < 1024 := h1.ac y hy
      have := Jpeg.shift_range s.al (v := y) (lo := -1023) (hi := 1023) (by omega) (by omega) (by omega)
      change (y / 2 ^ s.al).natAbs < 1024
      omega
  obtain ⟨w, bits, e, hem, hgood, _⟩ := Jpeg.acScanBlocks_spec hok hac (decide (s.component = 0))
    (blocks.map (Jpeg.shiftBlock s.al)) hrange {} 0 (by decide)
  rw [hbands] at hgood
  have hread := (hgood (by
    intro k hk
    refine (Jpeg.std_vals ht).2.1 _ k (Jpeg.bandSyms_ac _ 0 (Or.inl rfl) ((noEndRun_iff _).mp hn) ?_ k hk)
    rw [← hbands]
    intro b hbm
    obtain ⟨x, hx, rfl⟩ := List.mem_map.mp hbm
    refine ⟨Jpeg.bandAt_range hac (hrange x hx), ?_⟩
    have h5 := Jpeg.bandAt_length hac x
    intro e
    rw [e] at h5
    simp at h5
    omega)).1 rfl
  obtain ⟨raw, er, hraw⟩ := segment_bits hem
  refine ⟨w.finish, ?_, ?_⟩
  · unfold Jpeg.scanData
    rw [if_neg (by omega), if_pos ha, Jpeg.acScanBlocks_shift, e]; rfl
  have hiff : ((bandsOf s blocks).map fun b => b.map fun v => v / 2 ^ s.al) =
      ((bandsOf s blocks).map fun b => b.map (acPoint s.al)) ↔
      ∀ b ∈ bandsOf s blocks, ∀ v ∈ b, 0 ≤ v ∨ (2 : Int) ^ s.al ∣ v := by
    rw [List.map_inj_left]
    exact forall_congr' fun b => forall_congr' fun _ => by
      rw [List.map_inj_left]
      exact forall_congr' fun v => forall_congr' fun _ => Jpeg.floor_iff s.al v
  rw [← hiff]
  unfold SaysScan ApproxSegment ruleOf
  have h0 : s.ss ≠ 0 := by omega
  simp only [if_neg h0, ha, if_true, hs.2.1, hs.2.2, true_and]
  constructor
  · rintro ⟨raw', bits', e1, e2, e4⟩
    rw [er] at e1
    obtain rfl := segment_same e1
    rw [hraw] at e2
    exact (AcFirst_unique (hok.get false _).legal (show 0 < s.se + 1 - s.ss by omega) hread e4 rfl (by simp) e2).2.1
  · intro h
    rw [h] at hread
    exact ⟨raw, bits, er, hraw, hread⟩

/-- A coefficient the code takes for what it is: `|x| > 2^al` for one with a nonzero history is wrong for those
between `2^al` and `2^(al+1)`. -/
def WellJudged (al : Nat) (x : Int) : Prop := x.natAbs ≤ 2 ^ al ∨ 2 ^ (al + 1) ≤ x.natAbs

instance (al : Nat) (x : Int) : Decidable (WellJudged al x) := by unfold WellJudged; infer_instance

/-- No correction bit is due at the end of the band or in a run of more than 16 zeros, where the code puts it in the
wrong place: each coefficient with a nonzero history (as transformed, at least 2) is followed by a new one (1) with
fewer than 16 zeros between that and the new one before. -/
def Placed (band : List Int) : Prop :=
  ∀ pre v post, band = pre ++ v :: post → 2 ≤ v.natAbs →
    ∃ a z b n c, pre = a ++ z ∧ post = b ++ n :: c ∧ n.natAbs = 1 ∧ (∀ x ∈ z ++ b, Passed x) ∧
      (a = [] ∨ ∃ a' m, a = a' ++ [m] ∧ m.natAbs = 1) ∧ (z ++ b).count 0 < 16

theorem placed_ok (l pre : List Int) (hp : ∀ v ∈ pre, Passed v) (lead : List Int)
    (hl : lead = [] ∨ ∃ a m, lead = a ++ [m] ∧ m.natAbs = 1) (h : Placed (lead ++ pre ++ l)) : Jpeg.BandOk pre l := by
  have hsplit : ∀ (z a z' a' : List Int), (∀ v ∈ z, Passed v) → (∀ v ∈ z', Passed v) →
      (a = [] ∨ ∃ b m, a = b ++ [m] ∧ m.natAbs = 1) → (a' = [] ∨ ∃ b m, a' = b ++ [m] ∧ m.natAbs = 1) →
      a ++ z = a' ++ z' → z = z' := by
    intro z a z' a' hz hz' ha ha' he
    rcases List.append_eq_append_iff.mp he with ⟨x, h1, h2⟩ | ⟨x, h1, h2⟩
    · -- a' = a ++ x, z = x ++ z'
      rcases List.eq_nil_or_concat x with rfl | ⟨y, m, rfl⟩
      · simpa using h2
      · rcases ha' with rfl | ⟨b, m', rfl, hm⟩
        · simp at h1
        · rw [List.concat_eq_append, ← List.append_assoc] at h1
          have := (List.append_inj' h1 rfl).2
          simp at this
          subst this
          exact absurd hm (Jpeg.passed_ne (hz m' (by rw [h2]; simp)))
    · rcases List.eq_nil_or_concat x with rfl | ⟨y, m, rfl⟩
      · simpa using h2.symm
      · rcases ha with rfl | ⟨b, m', rfl, hm⟩
        · simp at h1
        · rw [List.concat_eq_append, ← List.append_assoc] at h1
          have := (List.append_inj' h1 rfl).2
          simp at this
          subst this
          exact absurd hm (Jpeg.passed_ne (hz' m' (by rw [h2]; simp)))
  induction l generalizing pre lead with
  | nil =>
    intro v hv
    rcases hp v hv with h0 | h2
    · exact h0
    · obtain ⟨p, q, rfl⟩ := List.append_of_mem hv
      obtain ⟨a, z, b, n, c, e1, e2, e3, e4, e5, e6⟩ := h (lead ++ p) v q (by simp) h2
      have hn : n ∈ q := by rw [e2]; simp
      exact absurd e3 (Jpeg.passed_ne (hp n (by simp [hn])))
  | cons v l ih =>
    rw [Jpeg.BandOk]
    split
    · rename_i h1
      refine ⟨?_, ih [] (by simp) (lead ++ pre ++ [v]) (Or.inr ⟨_, v, rfl, h1⟩) (by simpa using h)⟩
      by_cases hz : ∀ x ∈ pre, x = 0
      · rcases Nat.lt_or_ge (pre.count 0) 16 with hc | hc
        · exact Or.inl hc
        · have hpre := Jpeg.zeros_eq hz
          have hlen : pre.count 0 = pre.length := by rw [hpre]; simp
          refine Or.inr ⟨List.replicate 15 0, List.replicate (pre.length - 16) 0, ?_, by simp, ?_⟩
          · rw [← List.replicate_succ, ← List.replicate_append_replicate.symm]
            rw [show 15 + (pre.length - 16 + 1) = pre.length by omega]
            exact hpre
          · intro x hx
            exact List.eq_of_mem_replicate hx
      · have : ∃ x ∈ pre, 2 ≤ x.natAbs := by
          apply Classical.byContradiction
          intro hne
          apply hz
          intro x hx
          rcases hp x hx with h0 | h2
          · exact h0
          · exact absurd ⟨x, hx, h2⟩ hne
        obtain ⟨x, hx, h2⟩ := this
        obtain ⟨p, q, rfl⟩ := List.append_of_mem hx
        obtain ⟨a, z, b, n, c, e1, e2, e3, e4, e5, e6⟩ := h (lead ++ p) x (q ++ v :: l) (by simp) h2
        have e7 : z = p := hsplit z a p lead (fun y hy => e4 y (by simp [hy])) (fun y hy => hp y (by simp [hy])) e5 hl e1.symm
        have e8 : b = q := by
          rcases List.append_eq_append_iff.mp e2.symm with ⟨y, g1, g2⟩ | ⟨y, g1, g2⟩
          · cases y with
            | nil => simpa using g1.symm
            | cons y0 ys =>
              simp at g2
              obtain ⟨g2, _⟩ := g2
              subst g2
              exact absurd e3 (Jpeg.passed_ne (hp n (by rw [g1]; simp)))
          · cases y with
            | nil => simpa using g1
            | cons y0 ys =>
              simp at g2
              obtain ⟨g2, _⟩ := g2
              subst g2
              exact absurd h1 (Jpeg.passed_ne (e4 v (by rw [g1]; simp)))
        subst e7 e8
        left
        have hx0 : x ≠ 0 := by omega
        rw [List.count_append, List.count_cons_of_ne hx0, ← List.count_append]
        exact e6
    · rename_i h1
      refine ih (pre ++ [v]) ?_ lead hl (by simpa using h)
      intro x hx
      rcases List.mem_append.mp hx with hx | hx
      · exact hp x hx
      · rw [List.mem_singleton.mp hx]
        unfold Passed
        omega

/-- **C66**, refinement scans of AC coefficients (without joined ends of bands): right when all coefficients are
judged well and all correction bits are placed well. -/
theorem C66_ac_refine_partial (t : Jpeg.HuffTables) (ht : Jpeg.HuffTables.std = .ok t) (s : Jpeg.ScanSpec)
    (hs : 1 ≤ s.ss ∧ s.ss ≤ s.se ∧ s.se ≤ 63) (ha : 0 < s.ah) (hal : s.al ≤ 13) (blocks : List (List Int))
    (hb : ∀ b ∈ blocks, InRange b) (hn : NoEndRun ((bandsOf s blocks).map fun b => b.map (acPoint s.al)))
    (hj : ∀ b ∈ bandsOf s blocks, ∀ x ∈ b, WellJudged s.al x)
    (hp : ∀ b ∈ bandsOf s blocks, Placed (b.map (acPoint s.al))) :
    ∃ bytes, Jpeg.scanData t blocks s = .ok bytes ∧ SaysScan t s blocks bytes := by
  have hok := std_ok ht
  rw [bandsOf_eq] at hj hp hn
  have hspec : Jpeg.RefineSpec s := ⟨by omega, hs.1, hs.2.1, hs.2.2⟩
  have hband : ∀ b ∈ blocks, Jpeg.BandOk [] ((Jpeg.bandAt s b).map (acPoint s.al)) := fun b hbm =>
    placed_ok _ [] (by simp) [] (Or.inl rfl) (by simpa using hp _ (List.mem_map_of_mem hbm))
  obtain ⟨w, bits, e, hem, hread, _⟩ := Jpeg.acRefineBlocks_spec hok hspec (decide (s.component = 0)) blocks
    (fun b h => inRange_block (hb b h)) (fun b hbm => hj _ (List.mem_map_of_mem hbm)) hband {} 0 (by decide) (by
      intro k hk
      rw [List.map_map] at hn
      refine (Jpeg.std_vals ht).2.1 _ k (Jpeg.refineSyms_ac _ 0 (Or.inl rfl) ((noEndRun_iff _).mp hn) ?_ k hk)
      intro b hbm
      obtain ⟨x, hx, rfl⟩ := List.mem_map.mp hbm
      refine ⟨hband x hx, ?_⟩
      intro e
      have h5 := congrArg List.length e
      have h6 : (Jpeg.bandAt s x).length = s.se + 1 - s.ss := Jpeg.bandAt_length (scan := { s with al := 0 }) ⟨rfl, hs.1, hs.2.1, hs.2.2⟩ x
      simp only [Function.comp_apply, List.length_map, h6, List.length_nil] at h5
      omega)
  obtain ⟨raw, er, hraw⟩ := segment_bits hem
  refine ⟨w.finish, ?_, ?_⟩
  · unfold Jpeg.scanData
    rw [if_neg (by omega), if_neg (by omega), e]; rfl
  unfold SaysScan ApproxSegment ruleOf
  have h0 : s.ss ≠ 0 := by omega
  have h1 : s.ah ≠ 0 := by omega
  simp only [if_neg h0, if_neg h1, hs.2.1, hs.2.2, true_and]
  refine ⟨raw, bits, er, hraw, ?_⟩
  rw [bandsOf_eq, List.map_map]
  exact hread rfl

/-! ### Where it fails -/

/-- A block with these first coefficients in natural order. -/
def blockOf (l : List Int) : List Int := l ++ List.replicate (64 - l.length) 0

theorem std_exists : ∃ t, Jpeg.HuffTables.std = .ok t := by
  obtain ⟨t, e, _⟩ := Jpeg.std_spec
  exact ⟨t, e⟩

/-- **C66** fails for first scans of DC coefficients, already for the first scan of the default script and two
blocks. -/
theorem C66_dc_first_violated : ∃ t s blocks bytes, Jpeg.HuffTables.std = .ok t ∧ s ∈ Jpeg.defaultScript ∧
    (∀ b ∈ blocks, InRange b) ∧ Jpeg.scanData t blocks s = .ok bytes ∧ ¬SaysScan t s blocks bytes := by
  obtain ⟨t, ht⟩ := std_exists
  have hr : ∀ b ∈ [blockOf [1], blockOf [0]], InRange b := by decide +kernel
  obtain ⟨bytes, e, h⟩ := C66_dc_first_partial t ht ⟨0, 0, 0, 0, 1⟩ ⟨rfl, rfl⟩ rfl [blockOf [1], blockOf [0]] hr
  exact ⟨t, _, _, bytes, ht, by decide, hr, e, fun hh => absurd (h.mp hh) (by decide +kernel)⟩

/-- The error is not bounded: there are blocks with DC coefficients 0 and 1 only, so that bit 1 up is zero, for which
the scan says `-n`. -/
theorem C66_dc_drift (n : Nat) (hn : 1 ≤ n) : ∃ t blocks bytes dcs, Jpeg.HuffTables.std = .ok t ∧ (∀ b ∈ blocks, InRange b) ∧
    (∀ b ∈ blocks, dcPoint 1 (b.headD 0) = 0) ∧ Jpeg.scanData t blocks ⟨0, 0, 0, 0, 1⟩ = .ok bytes ∧
    (∃ raw bits, bytes = stuff raw ∧ bytesMSB raw = bits ++ List.replicate (padLen bits.length) true ∧
      DcFirst (t.get true true).spec 0 dcs bits) ∧ dcs.length = blocks.length ∧ dcs.getLast? = some (-n : Int) := by
  obtain ⟨t, ht⟩ := std_exists
  have hok := std_ok ht
  have hr : ∀ b ∈ (List.replicate n [blockOf [1], blockOf [0]]).flatten, InRange b ∧ dcPoint 1 (b.headD 0) = 0 := by
    intro b hb
    obtain ⟨l, h1, h2⟩ := List.mem_flatten.mp hb
    rw [List.eq_of_mem_replicate h1] at h2
    have : ∀ b ∈ [blockOf [1], blockOf [0]], InRange b ∧ dcPoint 1 (b.headD 0) = 0 := by decide +kernel
    exact this b h2
  obtain ⟨w, bits, e, hem, hdc⟩ := Jpeg.dcScanBlocks_shift hok (scan := ⟨0, 0, 0, 0, 1⟩) true
    (List.replicate n [blockOf [1], blockOf [0]]).flatten (fun b h => inRange_block (hr b h).1) {} 0 0 (by decide)
    ((Jpeg.std_vals ht).1 _)
  obtain ⟨raw, er, hraw⟩ := segment_bits hem
  have key : ∀ (m : Nat) (a : Int), (Jpeg.dcSums 1 a 0 (((List.replicate m [blockOf [1], blockOf [0]]).flatten).map (fun b => b.headD 0))).length = 2 * m ∧
      (1 ≤ m → (Jpeg.dcSums 1 a 0 (((List.replicate m [blockOf [1], blockOf [0]]).flatten).map (fun b => b.headD 0))).getLast? = some (a - m)) := by
    intro m
    induction m with
    | zero => intro a; exact ⟨rfl, fun h => absurd h (by decide)⟩
    | succ m ih =>
      intro a
      have e1 : Jpeg.dcSums 1 a 0 (((List.replicate (m + 1) [blockOf [1], blockOf [0]]).flatten).map (fun b => b.headD 0)) =
          (a + 0) :: (a + 0 + -1) ::
            Jpeg.dcSums 1 (a + 0 + -1) 0 (((List.replicate m [blockOf [1], blockOf [0]]).flatten).map (fun b => b.headD 0)) := rfl
      obtain ⟨h1, h2⟩ := ih (a + 0 + -1)
      rw [e1]
      refine ⟨by rw [List.length_cons, List.length_cons, h1]; omega, fun _ => ?_⟩
      rcases Nat.eq_zero_or_pos m with rfl | hm
      · simp [Jpeg.dcSums]
        omega
      · rw [List.getLast?_cons_cons, ← List.singleton_append, List.getLast?_append, h2 hm]
        simp
        omega
  refine ⟨t, _, w.finish, _, ht, fun b h => (hr b h).1, fun b h => (hr b h).2, ?_, ⟨raw, bits, er, hraw, hdc⟩, ?_, ?_⟩
  · unfold Jpeg.scanData
    rw [if_pos ⟨rfl, rfl⟩, if_neg (by decide)]
    exact (congrArg (· >>= fun w => pure w.finish) e)
  · rw [(key n 0).1]
    simp [List.length_flatten]
    omega
  · rw [(key n 0).2 hn, Int.zero_sub]

/-- **C66** fails for refinement scans of DC coefficients above bit 0. -/
theorem C66_dc_refine_violated : ∃ t blocks bytes, Jpeg.HuffTables.std = .ok t ∧ (∀ b ∈ blocks, InRange b) ∧
    Jpeg.scanData t blocks ⟨0, 0, 0, 2, 1⟩ = .ok bytes ∧ ¬SaysScan t ⟨0, 0, 0, 2, 1⟩ blocks bytes := by
  obtain ⟨t, ht⟩ := std_exists
  have hr : ∀ b ∈ [blockOf [-1]], InRange b := by decide +kernel
  obtain ⟨bytes, e, h⟩ := C66_dc_refine_partial t ⟨0, 0, 0, 2, 1⟩ ⟨rfl, rfl⟩ (by decide) [blockOf [-1]] hr
  exact ⟨t, _, bytes, ht, hr, e, fun hh => absurd (h.mp hh) (by decide +kernel)⟩

/-- **C66** fails for first scans of AC coefficients of the default script: -1 is said to be -2 or less. -/
theorem C66_ac_first_violated : ∃ t s blocks bytes, Jpeg.HuffTables.std = .ok t ∧ s ∈ Jpeg.defaultScript ∧
    (∀ b ∈ blocks, InRange b) ∧ Jpeg.scanData t blocks s = .ok bytes ∧ ¬SaysScan t s blocks bytes := by
  obtain ⟨t, ht⟩ := std_exists
  have hr : ∀ b ∈ [blockOf [0, -1]], InRange b := by decide +kernel
  obtain ⟨bytes, e, h⟩ := C66_ac_first_partial t ht ⟨1, 1, 63, 0, 1⟩ (by decide) rfl [blockOf [0, -1]] hr (by decide +kernel)
  exact ⟨t, _, _, bytes, ht, by decide, hr, e, fun hh => absurd (h.mp hh) (by decide +kernel)⟩

theorem std_code {t : Jpeg.HuffTables} (ht : Jpeg.HuffTables.std = .ok t) {k sym code size : Nat}
    (h : Jpeg.acLumVals[k]? = some sym ∧ (codes Jpeg.acLumBits)[k]? = some (code, size)) :
    (t.get false true).spec.HasCode sym (bitsMSB code size) := by
  obtain ⟨t', e, _, _, _, _, _, b3, v3, _⟩ := Jpeg.std_spec
  rw [ht] at e
  injection e with e
  subst e
  refine ⟨k, code, size, ?_, ?_, rfl⟩
  · change t.acLum.vals[k]? = _; rw [v3]; exact h.1
  · change (codes t.acLum.bits)[k]? = _; rw [b3]; exact h.2

/-- The bits of a scan of one block with one byte. -/
theorem one_byte {t : Jpeg.HuffTables} {s : Jpeg.ScanSpec} (hs : s.ss ≠ 0 ∧ s.ah ≠ 0) {block : List Int} {x : UInt8} (hx : x ≠ 0xFF)
    (h : SaysScan t s [block] [x]) : ∃ bits pad, bytesMSB [x] = bits ++ pad ∧
      AcRefine (t.get false (decide (s.component = 0))).spec (s.se + 1 - s.ss)
        ((bandOf s.ss s.se (toZigzag block)).map (acPoint s.al)) [] bits := by
  obtain ⟨raw, bits, e1, e2, e3⟩ := h
  have e4 : raw = [x] := segment_same (by rw [← e1, stuff_cons, if_neg hx]; rfl)
  subst e4
  rw [if_neg (show (ruleOf s).ss ≠ 0 from hs.1), if_neg (show (ruleOf s).ah ≠ 0 from hs.2)] at e3
  refine ⟨bits, _, e2, ?_⟩
  have h := e3.2.2
  change AcRefine _ _ [] [(bandOf s.ss s.se (toZigzag block)).map (acPoint s.al)] bits at h
  generalize hx : [(bandOf s.ss s.se (toZigzag block)).map (acPoint s.al)] = y at h
  generalize hz : ([] : List Int) = z at h
  cases h with
  | done => cases hx
  | next _ h => cases hx; exact h
  | zrl => exact absurd hz (by simp)
  | coef => exact absurd hz (by simp)
  | eob h => exact absurd hz.symm h

/-- **C66** fails for refinement scans of AC coefficients of the default script: the correction bits due at the end of
a band come before the end of band, not after it. -/
theorem C66_ac_refine_violated : ∃ t s blocks bytes, Jpeg.HuffTables.std = .ok t ∧ s ∈ Jpeg.defaultScript ∧
    (∀ b ∈ blocks, InRange b) ∧ (∀ b ∈ bandsOf s blocks, ∀ x ∈ b, WellJudged s.al x) ∧
    Jpeg.scanData t blocks s = .ok bytes ∧ ¬SaysScan t s blocks bytes := by
  obtain ⟨t, ht⟩ := std_exists
  have e : (Jpeg.HuffTables.std >>= fun t => Jpeg.scanData t [blockOf [0, 2]] ⟨0, 1, 5, 1, 0⟩) = .ok [0x57] := by decide +kernel
  rw [ht, ok_bind] at e
  refine ⟨t, ⟨0, 1, 5, 1, 0⟩, [blockOf [0, 2]], [0x57], ht, by decide, by decide +kernel, by decide +kernel, e, ?_⟩
  intro hh
  obtain ⟨bits, pad, e2, h⟩ := one_byte (by decide) (by decide) hh
  have hb : (bandOf 1 5 (toZigzag (blockOf [0, 2]))).map (acPoint 0) = [2, 0, 0, 0, 0] := by decide +kernel
  have hc := std_code ht (k := 1) (sym := 2) (code := 1) (size := 2) (by decide +kernel)
  rw [hb] at h
  generalize hx : ([2, 0, 0, 0, 0] : List Int) = x at h
  generalize ([] : List (List Int)) = y at h
  cases h with
  | done => cases hx
  | next => cases hx
  | zrl _ h1 =>
    have := congrArg (List.count 0) hx
    rw [List.count_append, h1] at this
    simp at this
    omega
  | @coef pre v cur _ _ _ _ _ h1 =>
    have : v ∈ ([2, 0, 0, 0, 0] : List Int) := by rw [hx]; simp
    simp at this
    omega
  | eob _ _ _ _ h1 =>
    simp only [List.append_assoc] at e2
    have := (HasCode_unique (std_ok ht).acLum.legal hc h1 (r := [false, true, false, true, true, true]) e2).1
    omega

/-- And a coefficient of 3 or -3 is taken for one with a nonzero history at bit 1, where it is new. -/
theorem C66_ac_judged_violated : ∃ t s blocks bytes, Jpeg.HuffTables.std = .ok t ∧ s ∈ Jpeg.defaultScript ∧
    (∀ b ∈ blocks, InRange b) ∧ (∀ b ∈ bandsOf s blocks, ∀ v ∈ b, (acPoint s.al v).natAbs ≤ 1) ∧
    Jpeg.scanData t blocks s = .ok bytes ∧ ¬SaysScan t s blocks bytes := by
  obtain ⟨t, ht⟩ := std_exists
  have e : (Jpeg.HuffTables.std >>= fun t => Jpeg.scanData t [blockOf [0, 3]] ⟨0, 1, 5, 2, 1⟩) = .ok [0xD7] := by decide +kernel
  rw [ht, ok_bind] at e
  refine ⟨t, ⟨0, 1, 5, 2, 1⟩, [blockOf [0, 3]], [0xD7], ht, by decide, by decide +kernel, by decide +kernel, e, ?_⟩
  intro hh
  obtain ⟨bits, pad, e2, h⟩ := one_byte (by decide) (by decide) hh
  have hb : (bandOf 1 5 (toZigzag (blockOf [0, 3]))).map (acPoint 1) = [1, 0, 0, 0, 0] := by decide +kernel
  have hc := std_code ht (k := 6) (sym := 5) (code := 26) (size := 5) (by decide +kernel)
  rw [hb] at h
  generalize hx : ([1, 0, 0, 0, 0] : List Int) = x at h
  generalize ([] : List (List Int)) = y at h
  have h1 : (1 : Int) ∈ x := by rw [← hx]; simp
  cases h with
  | done => cases hx
  | next => cases hx
  | zrl _ h2 =>
    have := congrArg (List.count 0) hx
    rw [List.count_append, h2] at this
    simp at this
    omega
  | @coef pre v cur _ _ _ hp _ _ h2 =>
    cases pre with
    | nil =>
      simp only [List.append_assoc] at e2
      have := (HasCode_unique (std_ok ht).acLum.legal hc h2 (r := [true, true, true]) e2).1
      simp at this
    | cons a l =>
      injection hx with ha _
      exact absurd (hp a (by simp)) (by rw [← ha]; decide)
  | eob _ hp => exact absurd (hp 1 h1) (by decide)

/-! ### Scripts -/

/-- Both scripts (and so whatever the scans say) cover all coefficients of the three components to the last bit, in an
order T.81 allows. -/
theorem C66_scripts : FullScript 3 (Jpeg.defaultScript.map ruleOf) ∧ FullScript 3 (Jpeg.script.map ruleOf) := by
  decide +kernel

/-- The scans of the script in use are those of `encode_progressive`. -/
theorem C66_script_used (t : Jpeg.HuffTables) (coeffs : List (List Int)) (s : Jpeg.ScanSpec) (h : s ∈ Jpeg.script) :
    Jpeg.encodeProgScan t coeffs s = Jpeg.scanData t coeffs s >>= fun bytes => .ok (Jpeg.sosProgressive s ++ bytes) := by
  have ha : s.ah = 0 := (by decide : ∀ s ∈ Jpeg.script, s.ah = 0) s h
  unfold Jpeg.encodeProgScan Jpeg.scanData
  rw [ha]
  split
  · simp only [Nat.lt_irrefl, if_false, gt_iff_lt, bind_assoc]; rfl
  · simp only [if_true, bind_assoc]; rfl

/-! ### Instances -/

-- Two blocks for which the first scan of the default script is right.
example : ∃ t bytes, Jpeg.HuffTables.std = .ok t ∧
    Jpeg.scanData t [blockOf [-8], blockOf [-6], blockOf [21]] ⟨0, 0, 0, 0, 1⟩ = .ok bytes ∧
    SaysScan t ⟨0, 0, 0, 0, 1⟩ [blockOf [-8], blockOf [-6], blockOf [21]] bytes := by
  obtain ⟨t, ht⟩ := std_exists
  obtain ⟨bytes, e, h⟩ := C66_dc_first_partial t ht ⟨0, 0, 0, 0, 1⟩ ⟨rfl, rfl⟩ rfl
    [blockOf [-8], blockOf [-6], blockOf [21]] (by decide +kernel)
  exact ⟨t, bytes, ht, e, h.mpr (by decide +kernel)⟩

-- The last bits of DC coefficients, negative ones too.
example : ∃ t bytes, Jpeg.HuffTables.std = .ok t ∧
    Jpeg.scanData t [blockOf [-9], blockOf [6], blockOf [21]] ⟨0, 0, 0, 1, 0⟩ = .ok bytes ∧
    SaysScan t ⟨0, 0, 0, 1, 0⟩ [blockOf [-9], blockOf [6], blockOf [21]] bytes := by
  obtain ⟨t, ht⟩ := std_exists
  obtain ⟨bytes, e, h⟩ := C66_dc_refine_partial t ⟨0, 0, 0, 1, 0⟩ ⟨rfl, rfl⟩ (by decide)
    [blockOf [-9], blockOf [6], blockOf [21]] (by decide +kernel)
  exact ⟨t, bytes, ht, e, h.mpr (by decide +kernel)⟩

-- AC coefficients from bit 2 on.
example : ∃ t bytes, Jpeg.HuffTables.std = .ok t ∧
    Jpeg.scanData t [blockOf [3, 7, -4, 0, 2, 1, 0, 0, 9], blockOf [0, 5]] ⟨0, 1, 5, 0, 2⟩ = .ok bytes ∧
    SaysScan t ⟨0, 1, 5, 0, 2⟩ [blockOf [3, 7, -4, 0, 2, 1, 0, 0, 9], blockOf [0, 5]] bytes := by
  obtain ⟨t, ht⟩ := std_exists
  obtain ⟨bytes, e, h⟩ := C66_ac_first_partial t ht ⟨0, 1, 5, 0, 2⟩ (by decide) rfl
    [blockOf [3, 7, -4, 0, 2, 1, 0, 0, 9], blockOf [0, 5]] (by decide +kernel) (by decide +kernel)
  exact ⟨t, bytes, ht, e, h.mpr (by decide +kernel)⟩

-- The last bits of AC coefficients: a correction bit of 5 after the code of the new -1.
example : ∃ t bytes, Jpeg.HuffTables.std = .ok t ∧
    Jpeg.scanData t [blockOf [3, 5, 0, 0, 0, 0, 0, 0, -1]] ⟨0, 1, 5, 1, 0⟩ = .ok bytes ∧
    SaysScan t ⟨0, 1, 5, 1, 0⟩ [blockOf [3, 5, 0, 0, 0, 0, 0, 0, -1]] bytes := by
  obtain ⟨t, ht⟩ := std_exists
  obtain ⟨bytes, e, h⟩ := C66_ac_refine_partial t ht ⟨0, 1, 5, 1, 0⟩ (by decide) (by decide) (by decide)
    [blockOf [3, 5, 0, 0, 0, 0, 0, 0, -1]] (by decide +kernel) (by decide +kernel) (by decide +kernel) (by
      have hb : bandsOf ⟨0, 1, 5, 1, 0⟩ [blockOf [3, 5, 0, 0, 0, 0, 0, 0, -1]] = [[5, -1, 0, 0, 0]] := by decide +kernel
      rw [hb]
      intro b hbm
      rw [List.mem_singleton.mp hbm]
      rw [show [5, -1, 0, 0, 0].map (acPoint 0) = [5, -1, 0, 0, 0] by decide +kernel]
      intro pre v post e h2
      have hpre : pre = [] := by
        cases pre with
        | nil => rfl
        | cons a l =>
          have e := (List.cons.inj e).2
          have : v ∈ ([-1, 0, 0, 0] : List Int) := by rw [e]; simp
          simp at this
          omega
      subst hpre
      have e2 := (List.cons.inj e).2
      exact ⟨[], [], [], -1, [0, 0, 0], rfl, e2.symm, by decide, by simp, Or.inl rfl, by decide⟩)
  exact ⟨t, bytes, ht, e, h⟩

end Pixo.Props
