import Verif.Proof.JpegProgRuns
import Verif.Proof.JpegProgSize
import Verif.Proof.JpegProgOpt
/-
Scans of zeros with the standard tables for chrominance.
-/
namespace Pixo.Jpeg
open Pixo Spec Spec.T81

/-! ### Codings of zeros -/

/-- What is needed of a table: its shortest codes have two bits, and there is none for runs of ends of bands. -/
structure PlainEob (t : T81.Table) : Prop where
  least : ∀ s word, t.HasCode s word → 2 ≤ word.length
  eob : ∀ word, t.HasCode 0 word → word = [false, false]
  zrl : ∀ word, t.HasCode 0xF0 word → word.length = 10
  runs : ∀ s word, RunSym s → ¬t.HasCode s word

theorem extend_ne_zero {v s : Nat} (h1 : 1 ≤ s) (h2 : v < 2 ^ s) : extend v s ≠ 0 := (extend_category h1 h2).1

/-- Each band of zeros takes at least two bits. -/
theorem zeros_least {t : T81.Table} (h : PlainEob t) {len : Nat} (hlen : 0 < len) {cur : List Int} {bands : List (List Int)} {bits : List Bool}
    (ha : AcFirst t len cur bands bits) (hc : ∀ v ∈ cur, v = 0) (hb : ∀ b ∈ bands, ∀ v ∈ b, v = 0) :
    2 * (bands.length + (if cur = [] then 0 else 1)) ≤ bits.length := by
  induction ha with
  | done => simp
  | next g1 _ ih =>
    rename_i band bands bits _
    have := ih (hb band (by simp)) (fun b hx => hb b (List.mem_cons_of_mem _ hx))
    rw [if_neg (by rintro rfl; simp at g1; omega)] at this
    rw [if_pos rfl, List.length_cons]
    omega
  | zrl g1 _ ih =>
    have h1 := h.least _ _ g1
    have h2 := ih (fun v hv => hc v (List.mem_append_right _ hv)) hb
    rw [List.length_append]
    split <;> omega
  | coef _ f2 _ f4 _ _ _ => exact absurd (hc _ (by simp)) (extend_ne_zero f2 f4)
  | eob f1 f2 f3 g1 _ ih =>
    rename_i n r v bands word bits _
    have h1 := h.least _ _ g1
    have hr : r = 0 := by
      apply Classical.byContradiction
      intro hr
      exact h.runs _ _ (by unfold RunSym; omega) g1
    subst hr
    have hv : v = 0 := by omega
    subst hv
    have h2 := ih (by simp) (fun b hx => hb b (List.mem_append_right _ hx))
    rw [if_pos rfl] at h2
    simp only [List.length_append, List.length_replicate, bitsMSB_length]
    split <;> omega

/-- Fewer than ten bits code zeros by ends of band only. -/
theorem zeros_short {t : T81.Table} (h : PlainEob t) {len : Nat} (hlen : 0 < len) {cur : List Int} {bands : List (List Int)} {bits : List Bool}
    (ha : AcFirst t len cur bands bits) (hc : ∀ v ∈ cur, v = 0) (hb : ∀ b ∈ bands, ∀ v ∈ b, v = 0) (hs : bits.length < 10) :
    bits = List.replicate (2 * (bands.length + (if cur = [] then 0 else 1))) false := by
  induction ha with
  | done => rfl
  | next g1 _ ih =>
    rename_i band bands bits _
    have := ih (hb band (by simp)) (fun b hx => hb b (List.mem_cons_of_mem _ hx)) hs
    rw [if_neg (by rintro rfl; simp at g1; omega)] at this
    rw [if_pos rfl, List.length_cons]
    exact this
  | zrl g1 _ ih =>
    have h1 := h.zrl _ g1
    rw [List.length_append] at hs
    omega
  | coef _ f2 _ f4 _ _ _ => exact absurd (hc _ (by simp)) (extend_ne_zero f2 f4)
  | eob f1 f2 f3 g1 _ ih =>
    rename_i n r v bands word bits _
    have hr : r = 0 := by
      apply Classical.byContradiction
      intro hr
      exact h.runs _ _ (by unfold RunSym; omega) g1
    subst hr
    have hv : v = 0 := by omega
    subst hv
    have h1 := h.eob _ g1
    subst h1
    have h2 := ih (by simp) (fun b hx => hb b (List.mem_append_right _ hx)) (by
      simp only [List.length_append] at hs; omega)
    rw [if_pos rfl] at h2
    have hn : List.replicate n (0 : Int) ≠ [] := by
      intro e
      have := congrArg List.length e
      simp at this
      omega
    rw [if_neg hn, h2]
    simp [bitsMSB]
    rw [show 2 * (bands.length + 1) = 2 * bands.length + 1 + 1 by omega, List.replicate_succ, List.replicate_succ]

theorem plainEob_std {t : HuffTables} (h : HuffTables.std = .ok t) : PlainEob (t.get false false).spec := by
  obtain ⟨_, _, hrun, _⟩ := std_vals h
  obtain ⟨t', e, _, _, v1, _, v2, _, v3, b4, v4⟩ := std_spec
  rw [h] at e
  injection e with e
  subst e
  have hc : ∀ s word, (t.get false false).spec.HasCode s word →
      ∃ (k code size : Nat), acChromVals[k]? = some s ∧ (codes acChromBits)[k]? = some (code, size) ∧ word = bitsMSB code size := by
    rintro s word ⟨k, code, size, h1, h2, h3⟩
    refine ⟨k, code, size, ?_, ?_, h3⟩
    · rw [← v4]; exact h1
    · rw [← b4]; exact h2
  refine ⟨?_, ?_, ?_, ?_⟩
  · intro s word hw
    obtain ⟨k, code, size, _, h2, rfl⟩ := hc s word hw
    have : ∀ c ∈ codes acChromBits, 2 ≤ c.2 := by decide +kernel
    rw [bitsMSB_length]
    exact this _ (List.mem_of_getElem? h2)
  · intro word hw
    obtain ⟨k, code, size, h1, h2, rfl⟩ := hc 0 word hw
    have hk : ∀ k < 162, acChromVals[k]? = some 0 → k = 0 := by decide +kernel
    have hlt : k < 162 := by
      obtain ⟨hlt, _⟩ := List.getElem?_eq_some_iff.mp h1
      have : acChromVals.length = 162 := by decide +kernel
      omega
    have := hk k hlt h1
    subst this
    have h3 : (codes acChromBits)[0]? = some (0, 2) := by decide +kernel
    have h4 : (code, size) = (0, 2) := Option.some.inj (h2.symm.trans h3)
    have h5 : code = 0 := congrArg Prod.fst h4
    have h6 : size = 2 := congrArg Prod.snd h4
    rw [h5, h6]
    rfl
  · intro word hw
    obtain ⟨k, code, size, h1, h2, rfl⟩ := hc 0xF0 word hw
    have hk : ∀ k < 162, acChromVals[k]? = some 0xF0 → ∀ c, (codes acChromBits)[k]? = some c → c.2 = 10 := by
      have : ∀ k < 162, acChromVals[k]? = some 0xF0 → ((codes acChromBits)[k]?.map (·.2)) = some 10 := by decide +kernel
      intro k hk h1 c hc
      have := this k hk h1
      rw [hc] at this
      simpa using this
    have hlt : k < 162 := by
      obtain ⟨hlt, _⟩ := List.getElem?_eq_some_iff.mp h1
      have : acChromVals.length = 162 := by decide +kernel
      omega
    rw [bitsMSB_length]
    exact hk k hlt h1 _ h2
  · intro s word hs hw
    obtain ⟨k, code, size, h1, h2, rfl⟩ := hc s word hw
    exact hrun false s hs (by
      change s ∈ t.acChrom.vals
      rw [v4]
      exact List.mem_of_getElem? h1)

/-! ### What the encoder writes for zeros -/

/-- A run of at least two ends of band: four zero bits in place of the missing code, then the bits of its length. -/
theorem flush_missing {t : HuffTables} (h : TablesOk t) {lum : Bool} (hm : ∀ s, RunSym s → s ∉ (t.get false lum).vals)
    (w : BitWriterMsb) {run : Nat} (h2 : 2 ≤ run) (hr : run < 2 ^ 15) :
    ∃ w', flushEobRun t lum w run = .ok w' ∧
      Emits w w' (List.replicate 4 false ++ bitsMSB (run - 2 ^ run.log2) run.log2) := by
  have hl := log2_lt (by omega) hr
  have h1 : 1 ≤ run.log2 := (Nat.le_log2 (by omega)).mpr (by omega)
  obtain ⟨c, word, e, h16, rfl, _, hz⟩ := codeFromTable_spec (h.get false lum).legal ((run.log2 <<< 4) % 2 ^ 8)
  have hsym : (run.log2 <<< 4) % 2 ^ 8 = 16 * run.log2 := by rw [Nat.shiftLeft_eq]; omega
  have hz := hz (by rw [hsym]; exact hm _ (runSym_log2 h2 hr))
  have e : progAcCode t ((run.log2 <<< 4) % 2 ^ 8) lum = .ok c := by cases lum <;> exact e
  unfold flushEobRun
  simp only
  rw [e, ok_bind, if_pos (by omega)]
  refine ⟨_, rfl, ?_⟩
  rw [← hz]
  have := (emits_writeBits w c.1 c.2 (by omega)).trans
    (emits_writeBits (writeCode w c) (run - 1 <<< run.log2) run.log2 (by omega))
  rw [Nat.shiftLeft_eq, Nat.one_mul] at this ⊢
  exact this

theorem flush_short {t : HuffTables} (h : TablesOk t) {lum : Bool} (hm : ∀ s, RunSym s → s ∉ (t.get false lum).vals)
    (w : BitWriterMsb) {run : Nat} (h0 : 0 < run) (hr : run < 2 ^ 15) : Writes (flushEobRun t lum w run) w (run + 15) := by
  by_cases h2 : 2 ≤ run
  · obtain ⟨w', e, hem⟩ := flush_missing h hm w h2 hr
    have h1 := Nat.log2_self_le (n := run) (by omega)
    have h3 : run.log2 < run := Nat.lt_of_lt_of_le Nat.lt_two_pow_self h1
    exact ⟨w', _, e, hem, by rw [List.length_append, List.length_replicate, bitsMSB_length]; omega⟩
  · obtain rfl : run = 1 := by omega
    obtain ⟨c, word, e, hem, hw⟩ := acCode_size h (((Nat.log2 1) <<< 4) % 2 ^ 8) lum w
    have hl : Nat.log2 1 = 0 := by decide
    unfold flushEobRun
    simp only
    rw [e, ok_bind, hl, if_neg (by omega)]
    exact ⟨_, _, rfl, hem, by omega⟩

theorem acScan_zero_run {t : HuffTables} {scan : ScanSpec} (hs : AcSpec scan) (lum : Bool) (blocks : List (List Int))
    (hb : ∀ b ∈ blocks, trimZeros (bandAt scan b) = []) (w : BitWriterMsb) (run : Nat) (h0 : 0 < run + blocks.length)
    (hr : run + blocks.length < 0x7FFF) :
    acScanBlocks t scan lum blocks w run = flushEobRun t lum w (run + blocks.length) := by
  induction blocks generalizing run with
  | nil => rw [acScanBlocks, if_pos (by simpa using h0)]; rfl
  | cons b bs ih =>
    rw [List.length_cons] at h0 hr ⊢
    rw [acScanBlocks]
    unfold encodeAcFirst
    simp only
    rw [band_map hs, if_pos (hb b (by simp)), addU16_ok (by omega), ok_bind, if_neg (by omega)]
    have := ih (fun x hx => hb x (List.mem_cons_of_mem _ hx)) (run + 1) (by omega) (by omega)
    rw [show run + (bs.length + 1) = run + 1 + bs.length by omega]
    exact this

theorem acScan_zero_size {t : HuffTables} (h : TablesOk t) {scan : ScanSpec} (hs : AcSpec scan) {lum : Bool}
    (hm : ∀ s, RunSym s → s ∉ (t.get false lum).vals) (blocks : List (List Int))
    (hb : ∀ b ∈ blocks, trimZeros (bandAt scan b) = []) (w : BitWriterMsb) (run : Nat) (hr : run < 0x7FFF) :
    Writes (acScanBlocks t scan lum blocks w run) w (run + blocks.length + 15) := by
  induction blocks generalizing w run with
  | nil =>
    rw [acScanBlocks]
    by_cases h0 : run > 0
    · rw [if_pos h0]
      exact flush_short h hm w h0 (by omega)
    · rw [if_neg h0]
      exact ⟨w, [], rfl, Emits.refl w, by simp⟩
  | cons b bs ih =>
    have hb2 := fun x hx => hb x (List.mem_cons_of_mem b hx)
    rw [acScanBlocks]
    unfold encodeAcFirst
    simp only
    rw [band_map hs, if_pos (hb b (by simp)), addU16_ok (by omega), ok_bind, List.length_cons]
    by_cases hf : run + 1 = 0x7FFF
    · obtain ⟨w1, e1, hem1⟩ := flush_missing h hm w (run := run + 1) (by omega) (by omega)
      obtain ⟨w', bs2, e2, hem2, hl2⟩ := ih hb2 w1 0 (by omega)
      rw [if_pos hf, e1]
      simp only [ok_bind]
      refine ⟨w', _, e2, hem1.trans hem2, ?_⟩
      have := log2_lt (run := run + 1) (by omega) (by omega)
      simp only [List.length_append, List.length_replicate, bitsMSB_length]
      omega
    · obtain ⟨w', bs2, e2, hem2, hl2⟩ := ih hb2 w (run + 1) (by omega)
      rw [if_neg hf]
      exact ⟨w', bs2, e2, hem2, by omega⟩

/-- **The scan of two or more bands of zeros with the standard tables for chrominance cannot be read as such.** -/
theorem run_zeros {t : HuffTables} (ht : TablesOk t) (hstd : HuffTables.std = .ok t) {s : ScanSpec} (hs : s ∈ script)
    (hac : AcSpec s) (hl : lumOf s = false) (coeffs : List (List Int)) (hb : ∀ b ∈ coeffs, trimZeros (bandAt s b) = [])
    (h2 : 2 ≤ coeffs.length) {raw : List UInt8}
    (he : encodeProgScan t coeffs s = .ok (segment 0xDA (progParams s) ++ stuff raw)) (dc : T81.Table)
    (bands : List (List Int)) (hn : bands.length = coeffs.length) (hz : ∀ b ∈ bands, ∀ v ∈ b, v = 0) :
    ¬BandSegment dc (t.get false false).spec s.ss s.se bands (stuff raw) := by
  have hplain := plainEob_std hstd
  obtain ⟨_, _, hrun, _⟩ := std_vals hstd
  have hss := hac.ss
  have hle := hac.le
  -- the bits written
  have key : ∃ bits, bytesMSB raw = bits ++ List.replicate (padLen bits.length) true ∧ bits.length ≤ coeffs.length + 15 ∧
      (coeffs.length < 0x7FFF →
        bits = List.replicate 4 false ++ bitsMSB (coeffs.length - 2 ^ coeffs.length.log2) coeffs.length.log2) := by
    have close : ∀ w bits, acScanBlocks t s (decide (s.component = 0)) coeffs {} 0 = .ok w → Emits {} w bits →
        bytesMSB raw = bits ++ List.replicate (padLen bits.length) true := by
      intro w bits e hem
      obtain ⟨raw', er, hraw⟩ := (hem [] [] (BitWriterMsb.holds_new [])).flush
      rw [encodeProgScan, sosProgressive_eq hs, if_neg (by omega), e, ok_bind] at he
      have h1 : w.finish = stuff raw' := by
        change w.flush.buffer = _
        rw [er]; rfl
      have he : segment 0xDA (progParams s) ++ w.finish = segment 0xDA (progParams s) ++ stuff raw := by
        injection he
      have he := List.append_cancel_left he
      rw [h1] at he
      have := (stuff_unique (a := raw') (b := raw) (r := []) (q := []) (Or.inl rfl) (Or.inl rfl) (by simpa using he)).1
      subst this
      simpa using hraw
    have hl : decide (s.component = 0) = false := hl
    rw [hl] at close
    by_cases hf : coeffs.length < 0x7FFF
    · obtain ⟨w, e, hem⟩ := flush_missing ht (hrun false) {} h2 (by omega)
      have := acScan_zero_run (t := t) hac false coeffs hb {} 0 (by omega) (by omega)
      rw [Nat.zero_add] at this
      refine ⟨_, close w _ (this.trans e) hem, ?_, fun _ => rfl⟩
      have h1 := Nat.log2_self_le (n := coeffs.length) (by omega)
      have h3 : coeffs.length.log2 < coeffs.length := Nat.lt_of_lt_of_le Nat.lt_two_pow_self h1
      simp only [List.length_append, List.length_replicate, bitsMSB_length]
      omega
    · obtain ⟨w, bits, e, hem, hbl⟩ := acScan_zero_size ht hac (hrun false) coeffs hb {} 0 (by omega)
      exact ⟨bits, close w _ e hem, by omega, fun h => absurd h hf⟩
  obtain ⟨bits, hbits, hlen, hexp⟩ := key
  rintro ⟨raw', bits', hraw, hb', hif⟩
  have := (stuff_unique (a := raw) (b := raw') (r := []) (q := []) (Or.inl rfl) (Or.inl rfl) (by simpa using hraw)).1
  subst this
  rw [if_neg (by omega)] at hif
  obtain ⟨_, _, hacf⟩ := hif
  have hleast := zeros_least hplain (by omega) hacf (by simp) hz
  rw [if_pos rfl, Nat.add_zero, hn] at hleast
  rw [hbits] at hb'
  have hlens := congrArg List.length hb'
  simp only [List.length_append, List.length_replicate] at hlens
  have hp1 : padLen bits.length < 8 := by unfold padLen; omega
  by_cases hbig : 23 ≤ coeffs.length
  · omega
  · have hexp := hexp (by omega)
    have hshort := zeros_short hplain (by omega) hacf (by simp) hz
    rw [if_pos rfl, Nat.add_zero, hn] at hshort
    generalize coeffs.length = n at *
    have hall : ∀ n, 2 ≤ n → n < 23 → (List.replicate 4 false ++ bitsMSB (n - 2 ^ n.log2) n.log2 ++
        List.replicate (padLen (List.replicate 4 false ++ bitsMSB (n - 2 ^ n.log2) n.log2).length) true).length < 2 * n ∨
        (n ≤ 4 ∧ ∀ k < 9, List.replicate 4 false ++ bitsMSB (n - 2 ^ n.log2) n.log2 ++
          List.replicate (padLen (List.replicate 4 false ++ bitsMSB (n - 2 ^ n.log2) n.log2).length) true ≠
          List.replicate (2 * n) false ++ List.replicate k true) := by
      have : ∀ n < 23, 2 ≤ n → (List.replicate 4 false ++ bitsMSB (n - 2 ^ n.log2) n.log2 ++
        List.replicate (padLen (List.replicate 4 false ++ bitsMSB (n - 2 ^ n.log2) n.log2).length) true).length < 2 * n ∨
        (n ≤ 4 ∧ ∀ k < 9, List.replicate 4 false ++ bitsMSB (n - 2 ^ n.log2) n.log2 ++
          List.replicate (padLen (List.replicate 4 false ++ bitsMSB (n - 2 ^ n.log2) n.log2).length) true ≠
          List.replicate (2 * n) false ++ List.replicate k true) := by decide +kernel
      exact fun n h1 h2 => this n h2 h1
    rw [hexp] at hb' hlens
    rcases hall n h2 (by omega) with h | ⟨h4, h⟩
    · simp only [List.length_append, List.length_replicate] at h hlens
      omega
    · have hl2 : n.log2 ≤ 2 := by
        have : ∀ n < 5, n.log2 ≤ 2 := by decide
        exact this n (by omega)
      have h8 : bits'.length < 10 := by
        simp only [List.length_append, List.length_replicate, bitsMSB_length] at hlens
        unfold padLen at hlens
        omega
      have hbe := hshort h8
      exact h (padLen bits'.length) (by unfold padLen; omega) (by rw [hb', ← hbe])

end Pixo.Jpeg
