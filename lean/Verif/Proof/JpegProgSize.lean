import Verif.Proof.JpegProgFile
import Verif.Proof.JpegSize
/-
How many bits the scans of a progressive file have at most.
-/
namespace Pixo.Jpeg
open Pixo Spec Spec.T81

/-- `x` succeeds and writes at most `n` bits to `w`. -/
def Writes (x : R BitWriterMsb) (w : BitWriterMsb) (n : Nat) : Prop :=
  ∃ w' bs, x = .ok w' ∧ Emits w w' bs ∧ bs.length ≤ n

theorem acCode_size {t : HuffTables} (h : TablesOk t) (s : Nat) (lum : Bool) (w : BitWriterMsb) :
    ∃ c word, progAcCode t s lum = .ok c ∧ Emits w (writeCode w c) word ∧ word.length ≤ 16 := by
  obtain ⟨c, word, e, h16, rfl, _, _⟩ := codeFromTable_spec (h.get false lum).legal s
  refine ⟨c, _, ?_, emits_writeBits w c.1 c.2 (by omega), by rw [bitsMSB_length]; exact h16⟩
  cases lum <;> exact e

theorem dcCode_size {t : HuffTables} (h : TablesOk t) (s : Nat) (lum : Bool) (w : BitWriterMsb) :
    ∃ c word, progDcCode t s lum = .ok c ∧ Emits w (writeCode w c) word ∧ word.length ≤ 16 := by
  obtain ⟨c, word, e, h16, rfl, _, _⟩ := codeFromTable_spec (h.get true lum).legal s
  refine ⟨c, _, ?_, emits_writeBits w c.1 c.2 (by omega), by rw [bitsMSB_length]; exact h16⟩
  cases lum <;> exact e

theorem flushEobRun_size {t : HuffTables} (h : TablesOk t) (lum : Bool) (w : BitWriterMsb) (run : Nat)
    (h0 : 0 < run) (hr : run < 2 ^ 15) : Writes (flushEobRun t lum w run) w (26 * run) := by
  have hl := log2_lt h0 hr
  have h1 := Nat.log2_self_le (n := run) (by omega)
  have h3 : run.log2 ≤ run := Nat.le_of_lt (Nat.lt_of_lt_of_le Nat.lt_two_pow_self h1)
  have h4 : 16 + run.log2 ≤ 26 * run := by omega
  obtain ⟨c, word, e, hem, hw⟩ := acCode_size h ((run.log2 <<< 4) % 2 ^ 8) lum w
  unfold flushEobRun
  simp only
  rw [e, ok_bind]
  by_cases hz : run.log2 > 0
  · rw [if_pos hz]
    exact ⟨_, _, rfl, hem.trans (emits_writeBits _ _ _ (by omega)), by rw [List.length_append, bitsMSB_length]; omega⟩
  · rw [if_neg hz]
    exact ⟨_, _, rfl, hem, by omega⟩

theorem progZrl_size {t : HuffTables} (h : TablesOk t) (lum : Bool) (n : Nat) (w : BitWriterMsb) :
    Writes (progZrl t lum n w) w (16 * n) := by
  induction n generalizing w with
  | zero => exact ⟨w, [], rfl, Emits.refl w, by simp⟩
  | succ n ih =>
    obtain ⟨c, word, e, hem, hw⟩ := acCode_size h 0xF0 lum w
    obtain ⟨w', bs, e2, hem2, hl⟩ := ih (writeCode w c)
    exact ⟨w', word ++ bs, by rw [progZrl, e, ok_bind, e2], hem.trans hem2, by rw [List.length_append]; omega⟩

theorem progCoefs_size {t : HuffTables} (h : TablesOk t) (lum : Bool) (l : List Int) (run : Nat) (w : BitWriterMsb)
    (hr : AcRange l) : Writes (progCoefs t lum l run w) w (run + 26 * l.length) := by
  induction l generalizing run w with
  | nil => exact ⟨w, [], rfl, Emits.refl w, by simp⟩
  | cons v vs ih =>
    have hrv : AcRange vs := fun x hx => hr x (List.mem_cons_of_mem _ hx)
    rw [progCoefs, List.length_cons]
    by_cases h0 : v = 0
    · rw [if_pos h0]
      obtain ⟨w', bs, e, hem, hl⟩ := ih (run + 1) w hrv
      exact ⟨w', bs, e, hem, by omega⟩
    · rw [if_neg h0]
      have hv := hr v (by simp)
      have hcat : category v ≤ 10 := category_le (by omega)
      obtain ⟨w1, bs1, e1, hem1, hl1⟩ := progZrl_size h lum (run / 16) w
      obtain ⟨c, word, e2, hem2, hl2⟩ := acCode_size h ((((run % 16) <<< 4) % 2 ^ 8) ||| category v) lum w1
      obtain ⟨b, e3, _, _⟩ := encodeValue_spec h0 (by omega)
      obtain ⟨w', bs, e4, hem4, hl4⟩ := ih 0 (writeCode (writeCode w1 c) (b, category v)) hrv
      refine ⟨w', bs1 ++ (word ++ bitsMSB b (category v) ++ bs), ?_, ?_, ?_⟩
      · rw [e1, ok_bind, e2, ok_bind]
        simp only
        rw [e3, ok_bind, e4]
      · exact hem1.trans ((hem2.trans (emits_writeBits _ b _ (by omega))).trans hem4)
      · simp only [List.length_append, bitsMSB_length]
        omega

/-- A band of a block has no more bits than 26 for each coefficient; an end of band takes the place of a zero. -/
theorem acScanBlocks_size {t : HuffTables} (h : TablesOk t) {scan : ScanSpec} (hs : AcSpec scan) (lum : Bool)
    (blocks : List (List Int)) (hb : ∀ b ∈ blocks, BlockRange (zigzagReorder b)) (w : BitWriterMsb) (run : Nat)
    (hrun : run < 0x7FFF) :
    Writes (acScanBlocks t scan lum blocks w run) w (26 * run + 26 * (scan.se + 1 - scan.ss) * blocks.length) := by
  have hlen0 : 0 < scan.se + 1 - scan.ss := by have := hs.le; omega
  generalize hlen : scan.se + 1 - scan.ss = len at *
  induction blocks generalizing w run with
  | nil =>
    rw [acScanBlocks]
    by_cases h0 : run > 0
    · rw [if_pos h0]
      obtain ⟨w', bs, e, hem, hl⟩ := flushEobRun_size h lum w run h0 (by omega)
      exact ⟨w', bs, e, hem, by omega⟩
    · rw [if_neg h0]
      exact ⟨w, [], rfl, Emits.refl w, by simp⟩
  | cons b bs ih =>
    have hb1 := hb b (by simp)
    have hb2 : ∀ x ∈ bs, BlockRange (zigzagReorder x) := fun x hx => hb x (List.mem_cons_of_mem _ hx)
    have hbl : (bandAt scan b).length = len := by rw [bandAt_length hs, hlen]
    have hbr := bandAt_range hs hb1
    rw [acScanBlocks]
    unfold encodeAcFirst
    simp only
    rw [band_map hs, List.length_cons, Nat.mul_add, Nat.mul_one]
    generalize bandAt scan b = band at *
    generalize 26 * len * bs.length = rest at *
    by_cases hz : trimZeros band = []
    · rw [if_pos hz, addU16_ok (by omega), ok_bind]
      by_cases hfull : run + 1 = 0x7FFF
      · rw [if_pos hfull]
        obtain ⟨w1, bs1, e1, hem1, hl1⟩ := flushEobRun_size h lum w (run + 1) (by omega) (by omega)
        obtain ⟨w', bs2, e2, hem2, hl2⟩ := ih hb2 w1 0 (by omega)
        rw [e1]
        simp only [ok_bind]
        exact ⟨w', _, e2, hem1.trans hem2, by rw [List.length_append]; omega⟩
      · rw [if_neg hfull]
        obtain ⟨w', bs2, e2, hem2, hl2⟩ := ih hb2 w (run + 1) (by omega)
        exact ⟨w', bs2, e2, hem2, by omega⟩
    · rw [if_neg hz]
      have htl := trimZeros_length band
      have hflush : Writes (if run > 0 then flushEobRun t lum w run else .ok w) w (26 * run) := by
        by_cases h0 : run > 0
        · rw [if_pos h0]; exact flushEobRun_size h lum w run h0 (by omega)
        · rw [if_neg h0]; exact ⟨w, [], rfl, Emits.refl w, by simp⟩
      obtain ⟨w1, bs1, e1, hem1, hl1⟩ := hflush
      obtain ⟨w2, bs2, e2, hem2, hl2⟩ := progCoefs_size h lum (trimZeros band) 0 w1 (fun v hv => hbr v (mem_trimZeros hv))
      obtain ⟨w', bs3, e3, hem3, hl3⟩ := ih hb2 w2 (if (trimZeros band).length < band.length then 1 else 0) (by split <;> omega)
      refine ⟨w', bs1 ++ (bs2 ++ bs3), ?_, hem1.trans (hem2.trans hem3), ?_⟩
      · by_cases h0 : run > 0
        · rw [if_pos h0] at e1 ⊢
          rw [e1, ok_bind, e2]
          exact e3
        · rw [if_neg h0] at e1 ⊢
          rw [e1, ok_bind, e2]
          exact e3
      simp only [List.length_append]
      by_cases hlt : (trimZeros band).length < band.length
      · rw [if_pos hlt] at hl3; omega
      · rw [if_neg hlt] at hl3; omega

theorem dcScanBlocks_size {t : HuffTables} (h : TablesOk t) {scan : ScanSpec} (hal : scan.al = 0) (lum : Bool)
    (blocks : List (List Int)) (hb : ∀ b ∈ blocks, BlockRange (zigzagReorder b)) (w : BitWriterMsb) (prev : Int)
    (hp : -1024 ≤ prev ∧ prev ≤ 1023) : Writes (dcScanBlocks t scan lum blocks w prev) w (27 * blocks.length) := by
  induction blocks generalizing w prev with
  | nil => exact ⟨w, [], rfl, Emits.refl w, by simp⟩
  | cons b bs ih =>
    have hb1 := (hb b (by simp)).dc
    rw [headD_zigzag b] at hb1
    rw [dcScanBlocks]
    simp only
    rw [subI16, if_pos (by omega), ok_bind, hal, Int.pow_zero, Int.ediv_one, List.length_cons]
    obtain ⟨c, word, e, hem, hw⟩ := dcCode_size h (category (b.headD 0 - prev)) lum w
    rw [e, ok_bind]
    have hcat : category (b.headD 0 - prev) ≤ 11 := category_le (by omega)
    by_cases h0 : b.headD 0 - prev = 0
    · have ev : encodeValue 0 = .ok (0, 0) := rfl
      obtain ⟨w', b2, e2, hem2, hl2⟩ := ih (fun x hx => hb x (List.mem_cons_of_mem _ hx)) (writeCode w c) (b.headD 0) hb1
      rw [h0, ev, ok_bind, category_zero]
      simp only [Nat.lt_irrefl, if_false, gt_iff_lt]
      exact ⟨w', word ++ b2, e2, hem.trans hem2, by rw [List.length_append]; omega⟩
    · obtain ⟨v, e3, _, _⟩ := encodeValue_spec h0 (by omega)
      have hcat1 := category_pos h0
      rw [e3, ok_bind, if_pos (by omega)]
      obtain ⟨w', b2, e2, hem2, hl2⟩ := ih (fun x hx => hb x (List.mem_cons_of_mem _ hx))
        (writeCode (writeCode w c) (v, category (b.headD 0 - prev))) (b.headD 0) hb1
      exact ⟨w', (word ++ bitsMSB v (category (b.headD 0 - prev))) ++ b2, e2,
        (hem.trans (emits_writeBits _ v _ (by omega))).trans hem2, by
          simp only [List.length_append, bitsMSB_length]; omega⟩

/-- The bits of a block in a scan at most. -/
def scanBits (s : ScanSpec) : Nat := if s.ss = 0 then 27 else 26 * (s.se + 1 - s.ss)

theorem encodeProgScan_size {t : HuffTables} (h : TablesOk t) {s : ScanSpec} (hs : s ∈ script)
    (coeffs : List (List Int)) (hb : ∀ b ∈ coeffs, BlockRange (zigzagReorder b)) :
    ∃ bytes, encodeProgScan t coeffs s = .ok bytes ∧ bytes.length ≤ 10 + 2 * ((scanBits s * coeffs.length + 7) / 8) := by
  obtain ⟨hal, _, _, _, hcase⟩ := script_cases hs
  have key : ∀ {x : R BitWriterMsb} {n : Nat}, Writes x {} n →
      ∃ bytes, (do let w ← x; return sosProgressive s ++ w.finish) = Except.ok (ε := Err) bytes ∧
        bytes.length ≤ 10 + 2 * ((n + 7) / 8) := by
    rintro x n ⟨w, bits, e, hem, hl⟩
    obtain ⟨raw, er, hraw⟩ := (hem [] [] (BitWriterMsb.holds_new [])).flush
    refine ⟨sosProgressive s ++ w.finish, by rw [e]; rfl, ?_⟩
    have h1 : w.finish = stuff raw := by
      change w.flush.buffer = _
      rw [er]; rfl
    have h2 : (sosProgressive s).length = 10 := by unfold sosProgressive; simp [be16]
    have h4 := congrArg List.length hraw
    rw [bytesMSB_length] at h4
    simp only [List.nil_append, List.length_append, List.length_replicate] at h4
    have h5 := stuff_length_le raw
    rw [List.length_append, h1, h2]
    unfold padLen at h4
    omega
  rw [encodeProgScan]
  rcases hcase with h0 | hac
  · rw [if_pos h0, scanBits, if_pos h0.1]
    exact key (dcScanBlocks_size h hal _ coeffs hb {} 0 (by decide))
  · have hss := hac.ss
    rw [if_neg (by omega), scanBits, if_neg (by omega)]
    have := acScanBlocks_size h hac (decide (s.component = 0)) coeffs hb {} 0 (by decide)
    rw [Nat.mul_zero, Nat.zero_add] at this
    exact key this

end Pixo.Jpeg
