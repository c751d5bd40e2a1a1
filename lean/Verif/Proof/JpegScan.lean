import Verif.Proof.JpegBlock
import Verif.Model.Jpeg
/-
`encode_scan` writes the entropy-coded data of T.81 for its MCUs, restart markers included.
-/
namespace Pixo.Jpeg
open Pixo Spec Spec.T81

/-- Quantized blocks of one MCU with their components. -/
abbrev Mcu := List (Nat × List Int)

/-- The MCU with its blocks in zigzag order. -/
def zzMcu (m : Mcu) : Mcu := m.map (fun p => (p.1, zigzagReorder p.2))

/-- The tables of the components as T.81 sees them. -/
def HuffTables.spec (t : HuffTables) : Tables :=
  ⟨fun c => (t.get true (c = 0)).spec, fun c => (t.get false (c = 0)).spec⟩

/-- All coefficients of an MCU are in the baseline range. -/
def McuRange (m : Mcu) : Prop := ∀ p ∈ m, p.1 < 3 ∧ BlockRange (zigzagReorder p.2)

/-- Predictions as a function of the component. -/
def pf (prev : List Int) : Nat → Int := fun c => prev.getD c 0

structure PrevOk (prev : List Int) : Prop where
  len : prev.length = 3
  range : ∀ v ∈ prev, -1024 ≤ v ∧ v ≤ 1023

theorem prevOk_zero : PrevOk [0, 0, 0] := ⟨rfl, by decide⟩

theorem pf_zero : pf [0, 0, 0] = fun _ => 0 := by
  funext c
  unfold pf
  match c with
  | 0 => rfl
  | 1 => rfl
  | 2 => rfl
  | _ + 3 => rfl

theorem pf_set {prev : List Int} {comp : Nat} (h : comp < prev.length) (d : Int) :
    pf (prev.set comp d) = fun c => if c = comp then d else pf prev c := by
  funext c
  unfold pf
  rw [List.getD_eq_getElem?_getD, List.getD_eq_getElem?_getD, List.getElem?_set]
  by_cases hc : comp = c
  · subst hc; simp [h]
  · rw [if_neg hc, if_neg (Ne.symm hc)]

theorem PrevOk.set {prev : List Int} (h : PrevOk prev) (comp : Nat) {d : Int} (hd : -1024 ≤ d ∧ d ≤ 1023) :
    PrevOk (prev.set comp d) := by
  refine ⟨by rw [List.length_set]; exact h.len, ?_⟩
  intro v hv
  rcases List.mem_or_eq_of_mem_set hv with h1 | rfl
  · exact h.range v h1
  · exact hd

theorem PrevOk.get {prev : List Int} (h : PrevOk prev) (c : Nat) :
    -1024 ≤ prev.getD c 0 ∧ prev.getD c 0 ≤ 1023 := by
  rw [List.getD_eq_getElem?_getD]
  cases hg : prev[c]? with
  | none => simp
  | some v => exact h.range v (List.mem_of_getElem? hg)

/-- The symbols coded for an MCU. -/
def mcuSyms : Mcu → List Int → List (Bool × Bool × Nat)
  | [], _ => []
  | (comp, block) :: rest, prev =>
    blockSyms (comp = 0) (zigzagReorder block) (prev.getD comp 0) ++
      mcuSyms rest (prev.set comp ((zigzagReorder block).headD 0))

/-- The predictions after an MCU. -/
def endPrev : Mcu → List Int → List Int
  | [], prev => prev
  | (comp, block) :: rest, prev => endPrev rest (prev.set comp ((zigzagReorder block).headD 0))

theorem endPrev_ok {m : Mcu} (hm : McuRange m) {prev : List Int} (h : PrevOk prev) :
    PrevOk (endPrev m prev) := by
  induction m generalizing prev with
  | nil => exact h
  | cons p rest ih =>
    exact ih (fun q hq => hm q (List.mem_cons_of_mem _ hq)) (h.set p.1 (hm p (by simp)).2.dc)

theorem encodeMcu_spec {t : HuffTables} (h : TablesOk t) (m : Mcu) (w : BitWriterMsb) (prev : List Int)
    (hm : McuRange m) (hp : PrevOk prev) (hs : Covers t (mcuSyms m prev)) :
    ∃ w' bs, encodeMcu t m w prev = .ok (w', endPrev m prev) ∧ Emits w w' bs ∧
      ∀ rest bits, Blocks t.spec (pf (endPrev m prev)) rest bits →
        Blocks t.spec (pf prev) (zzMcu m ++ rest) (bs ++ bits) := by
  induction m generalizing w prev with
  | nil => exact ⟨w, [], rfl, Emits.refl w, fun rest bits hh => hh⟩
  | cons p ms ih =>
    obtain ⟨comp, block⟩ := p
    obtain ⟨hc3, hb⟩ := hm (comp, block) (by simp)
    simp only at hc3 hb
    rw [mcuSyms] at hs
    obtain ⟨hs1, hs2⟩ := hs.append
    obtain ⟨w1, bs1, e1, hem1, hblk⟩ := encodeBlock_spec h (comp = 0) block (prev.getD comp 0) w hb
      (hp.get comp) hs1
    obtain ⟨w2, bs2, e2, hem2, hblks⟩ := ih w1 (prev.set comp ((zigzagReorder block).headD 0))
      (fun q hq => hm q (List.mem_cons_of_mem _ hq)) (hp.set comp hb.dc) hs2
    refine ⟨w2, bs1 ++ bs2, ?_, hem1.trans hem2, ?_⟩
    · rw [encodeMcu, e1, ok_bind]
      exact e2
    · intro rest bits hh
      rw [List.append_assoc]
      refine Blocks.cons hblk ?_
      have := hblks rest bits hh
      rw [pf_set (by rw [hp.len]; exact hc3)] at this
      exact this

/-- The symbols coded for the rest of a scan when `count` MCUs are done. -/
def scanSyms (interval : Option Nat) (total : Nat) : List Mcu → Nat → List Int → List (Bool × Bool × Nat)
  | [], _, _ => []
  | m :: rest, count, prev =>
    mcuSyms m prev ++ scanSyms interval total rest (count + 1)
      (if restartDue interval (count + 1) total then [0, 0, 0] else endPrev m prev)

/-- `bits` codes the blocks `cur` of a segment, leaving predictions `prev`. -/
def Coded (ts : Tables) (prev : List Int) (cur : Mcu) (bits : List Bool) : Prop :=
  ∀ rest b, Blocks ts (pf prev) rest b → Blocks ts (fun _ => 0) (cur ++ rest) (bits ++ b)

theorem coded_nil (ts : Tables) : Coded ts [0, 0, 0] [] [] := by
  intro rest b h
  rw [pf_zero] at h
  exact h

theorem Coded.close {ts : Tables} {prev : List Int} {cur : Mcu} {bits : List Bool} (h : Coded ts prev cur bits) :
    Blocks ts (fun _ => 0) cur bits := by
  have := h [] [] Blocks.nil
  simpa using this

theorem Coded.segment {ts : Tables} {prev : List Int} {cur : Mcu} {bits : List Bool} (h : Coded ts prev cur bits)
    {w : BitWriterMsb} {p : List UInt8} (hw : w.Holds p bits) :
    ∃ bytes, w.flush = ⟨p ++ bytes, 0, 8⟩ ∧ Segment ts cur bytes := by
  obtain ⟨raw, e, hb⟩ := hw.flush
  exact ⟨stuff raw, e, raw, bits, rfl, hb, h.close⟩

theorem addU32_ok' {a : Nat} (h : a + 1 < 2 ^ 32) : addU32 a 1 = .ok (a + 1) := if_pos h

/-- One MCU of the loop. -/
theorem encodeMcus_step {t : HuffTables} (h : TablesOk t) {m : Mcu} {s : ScanState} {cur : Mcu}
    {p : List UInt8} {bits : List Bool} (hm : McuRange m) (hp : PrevOk s.prev)
    (hs : Covers t (mcuSyms m s.prev)) (hw : s.writer.Holds p bits) (hc : Coded t.spec s.prev cur bits)
    (hcount : s.count + 1 < 2 ^ 32) (interval : Option Nat) (total : Nat) (rest : List Mcu) :
    ∃ w' bits', w'.Holds p bits' ∧ Coded t.spec (endPrev m s.prev) (cur ++ zzMcu m) bits' ∧
      encodeMcus t interval total (m :: rest) s = encodeMcus t interval total rest
        (handleRestart interval total ⟨w', endPrev m s.prev, s.rstIdx, s.count + 1⟩) := by
  obtain ⟨w', bs, e, hem, hblk⟩ := encodeMcu_spec h m s.writer s.prev hm hp hs
  refine ⟨w', bits ++ bs, hem p bits hw, ?_, ?_⟩
  · intro rest b hh
    have := hc _ _ (hblk rest b hh)
    rw [← List.append_assoc, ← List.append_assoc] at this
    exact this
  · rw [encodeMcus, e, ok_bind]
    simp only
    rw [addU32_ok' hcount, ok_bind]

/-- Without restart intervals the scan is one segment. -/
theorem encodeMcus_none {t : HuffTables} (h : TablesOk t) (total : Nat) (mcus : List Mcu) (s : ScanState)
    (cur : Mcu) (p : List UInt8) (bits : List Bool)
    (hm : ∀ m ∈ mcus, McuRange m) (hp : PrevOk s.prev)
    (hs : Covers t (scanSyms none total mcus s.count s.prev)) (hw : s.writer.Holds p bits)
    (hc : Coded t.spec s.prev cur bits) (hcount : s.count + mcus.length < 2 ^ 32) :
    ∃ s' bytes, encodeMcus t none total mcus s = .ok s' ∧ s'.writer.finish = p ++ bytes ∧
      Segment t.spec (cur ++ (mcus.map zzMcu).flatten) bytes := by
  induction mcus generalizing s cur bits with
  | nil =>
    obtain ⟨bytes, e, hseg⟩ := hc.segment hw
    exact ⟨s, bytes, rfl, by rw [BitWriterMsb.finish, e], by simpa using hseg⟩
  | cons m rest ih =>
    rw [scanSyms] at hs
    obtain ⟨hs1, hs2⟩ := hs.append
    simp only [List.length_cons] at hcount
    obtain ⟨w', bits', hw', hc', e⟩ := encodeMcus_step h (hm m (by simp)) hp hs1 hw hc (by omega) none total rest
    have hr : handleRestart none total ⟨w', endPrev m s.prev, s.rstIdx, s.count + 1⟩ =
        ⟨w', endPrev m s.prev, s.rstIdx, s.count + 1⟩ := rfl
    rw [hr] at e
    obtain ⟨s', bytes, e2, hf, hseg⟩ := ih ⟨w', endPrev m s.prev, s.rstIdx, s.count + 1⟩ (cur ++ zzMcu m) bits'
      (fun q hq => hm q (List.mem_cons_of_mem _ hq)) (endPrev_ok (hm m (by simp)) hp) hs2 hw' hc'
      (by simp only; omega)
    refine ⟨s', bytes, by rw [e, e2], hf, ?_⟩
    simpa [List.append_assoc] using hseg

theorem and7 (n : Nat) : n &&& 7 = n % 8 := by
  have := Nat.and_two_pow_sub_one_eq_mod n 3
  simpa using this

/-- With restart intervals the scan is a sequence of segments and restart markers. -/
theorem encodeMcus_some {t : HuffTables} (h : TablesOk t) (ri : Nat) (hri : 0 < ri) (total : Nat)
    (mcus : List Mcu) (s : ScanState) (cur : List Mcu) (p : List UInt8) (bits : List Bool) (k : Nat)
    (hm : ∀ m ∈ mcus, McuRange m) (hp : PrevOk s.prev)
    (hs : Covers t (scanSyms (some ri) total mcus s.count s.prev)) (hw : s.writer.Holds p bits)
    (hc : Coded t.spec s.prev cur.flatten bits) (hcount : s.count + mcus.length < 2 ^ 32)
    (ht : total = s.count + mcus.length) (hk : s.rstIdx = k % 8)
    (hcur : mcus = [] → cur ≠ []) (hle : cur.length ≤ ri)
    (hmod : mcus ≠ [] → cur.length = s.count % ri) :
    ∃ s' bytes, encodeMcus t (some ri) total mcus s = .ok s' ∧ s'.writer.finish = p ++ bytes ∧
      Restarts t.spec ri k (cur ++ mcus.map zzMcu) bytes := by
  induction mcus generalizing s cur bits k p with
  | nil =>
    obtain ⟨bytes, e, hseg⟩ := hc.segment hw
    refine ⟨s, bytes, rfl, by rw [BitWriterMsb.finish, e], ?_⟩
    rw [List.map_nil, List.append_nil]
    exact Restarts.last hle (hcur rfl) hseg
  | cons m rest ih =>
    rw [scanSyms] at hs
    obtain ⟨hs1, hs2⟩ := hs.append
    simp only [List.length_cons] at hcount ht
    have hmod' := hmod (by simp)
    have hlt : s.count % ri < ri := Nat.mod_lt _ hri
    obtain ⟨w', bits', hw', hc', e⟩ := encodeMcus_step h (hm m (by simp)) hp hs1 hw hc (by omega)
      (some ri) total rest
    have hc2 : Coded t.spec (endPrev m s.prev) (cur ++ [zzMcu m]).flatten bits' := by
      rw [List.flatten_append, List.flatten_singleton]; exact hc'
    have hnext : (s.count + 1) % ri = if cur.length + 1 = ri then 0 else cur.length + 1 := by
      rw [hmod', Nat.add_mod]
      by_cases h1 : ri = 1
      · subst h1
        have : s.count % 1 = 0 := Nat.mod_one _
        rw [Nat.mod_one, this]; rfl
      · have h1' : 1 % ri = 1 := Nat.mod_eq_of_lt (by omega)
        rw [h1']
        split
        · rename_i hh; rw [hh, Nat.mod_self]
        · exact Nat.mod_eq_of_lt (by omega)
    by_cases hd : restartDue (some ri) (s.count + 1) total = true
    · rw [if_pos hd] at hs2
      have hd' := hd
      simp only [restartDue, Bool.and_eq_true, decide_eq_true_eq, beq_iff_eq] at hd'
      obtain ⟨⟨_, hz⟩, hlt2⟩ := hd'
      have hlen : cur.length + 1 = ri := by
        rw [hnext] at hz
        by_cases hh : cur.length + 1 = ri
        · exact hh
        · rw [if_neg hh] at hz; omega
      have hrest : rest ≠ [] := by
        rintro rfl
        simp at ht; omega
      obtain ⟨bytes, ef, hseg⟩ := hc2.segment hw'
      have hr : handleRestart (some ri) total ⟨w', endPrev m s.prev, s.rstIdx, s.count + 1⟩ =
          ⟨⟨p ++ bytes ++ [0xFF, UInt8.ofNat (0xD0 + k % 8)], 0, 8⟩, [0, 0, 0], (k + 1) % 8, s.count + 1⟩ := by
        unfold handleRestart
        rw [if_pos (by exact hd)]
        simp only [ef, BitWriterMsb.writeBytes, and7, hk, Nat.mod_mod]
        congr 1
        omega
      rw [hr] at e
      obtain ⟨s', more, e2, hf, hres⟩ := ih
        ⟨⟨p ++ bytes ++ [0xFF, UInt8.ofNat (0xD0 + k % 8)], 0, 8⟩, [0, 0, 0], (k + 1) % 8, s.count + 1⟩
        [] (p ++ bytes ++ [0xFF, UInt8.ofNat (0xD0 + k % 8)]) [] (k + 1)
        (fun q hq => hm q (List.mem_cons_of_mem _ hq)) prevOk_zero hs2 (BitWriterMsb.holds_new _)
        (coded_nil _) (by simp only; omega) (by simp only; omega) rfl (fun hh => absurd hh hrest)
        (by simp) (fun _ => by simp only [List.length_nil]; exact hz.symm)
      refine ⟨s', bytes ++ [0xFF, UInt8.ofNat (0xD0 + k % 8)] ++ more, by rw [e, e2], ?_, ?_⟩
      · rw [hf]; simp [List.append_assoc]
      · rw [List.nil_append] at hres
        have := Restarts.more (m := k) (mcus := cur ++ [zzMcu m]) (by simp; omega) hseg hres
        simpa [List.append_assoc] using this
    · have hr : handleRestart (some ri) total ⟨w', endPrev m s.prev, s.rstIdx, s.count + 1⟩ =
          ⟨w', endPrev m s.prev, s.rstIdx, s.count + 1⟩ := by
        unfold handleRestart
        rw [if_neg (by exact hd)]
      rw [hr] at e
      rw [if_neg hd] at hs2
      have hlen : rest ≠ [] → cur.length + 1 < ri ∧ (s.count + 1) % ri = cur.length + 1 := by
        intro hrest
        have hpos : 0 < rest.length := List.length_pos_iff.mpr hrest
        have hne : ¬ (s.count + 1) % ri = 0 := by
          intro hz
          apply hd
          simp only [restartDue, Bool.and_eq_true, decide_eq_true_eq, beq_iff_eq]
          exact ⟨⟨hri, hz⟩, by omega⟩
        rw [hnext] at hne ⊢
        by_cases hh : cur.length + 1 = ri
        · rw [if_pos hh] at hne; exact absurd rfl hne
        · rw [if_neg hh]; exact ⟨by omega, rfl⟩
      obtain ⟨s', bytes, e2, hf, hres⟩ := ih ⟨w', endPrev m s.prev, s.rstIdx, s.count + 1⟩
        (cur ++ [zzMcu m]) p bits' k (fun q hq => hm q (List.mem_cons_of_mem _ hq))
        (endPrev_ok (hm m (by simp)) hp) hs2 hw' hc2
        (by simp only; omega) (by simp only; omega) hk (fun _ => by simp) (by simp; omega)
        (fun hh => by simp only [List.length_append, List.length_singleton]; exact (hlen hh).2.symm)
      refine ⟨s', bytes, by rw [e, e2], hf, ?_⟩
      simpa [List.append_assoc] using hres

/-- `encode_scan` writes a scan of T.81. -/
theorem encodeScan_spec {t : HuffTables} (h : TablesOk t) (mcus : List Mcu) (interval : Option Nat)
    (total : Nat) (hm : ∀ m ∈ mcus, McuRange m) (hne : mcus ≠ []) (hi : interval ≠ some 0)
    (ht : total = mcus.length) (hlt : mcus.length < 2 ^ 32)
    (hs : Covers t (scanSyms interval total mcus 0 [0, 0, 0])) :
    ∃ bytes, encodeScan t mcus interval total = .ok bytes ∧
      Scan t.spec interval (mcus.map zzMcu) bytes := by
  cases interval with
  | none =>
    obtain ⟨s', bytes, e, hf, hseg⟩ := encodeMcus_none h total mcus ⟨{}, [0, 0, 0], 0, 0⟩ [] [] []
      hm prevOk_zero hs (BitWriterMsb.holds_new []) (coded_nil _) (by simpa using hlt)
    refine ⟨bytes, ?_, by simpa [Scan] using hseg⟩
    rw [encodeScan, e, ok_bind]
    simp only [List.nil_append] at hf
    rw [hf]; rfl
  | some ri =>
    have hri : 0 < ri := by
      rcases Nat.eq_zero_or_pos ri with rfl | h0
      · exact absurd rfl hi
      · exact h0
    obtain ⟨s', bytes, e, hf, hres⟩ := encodeMcus_some h ri hri total mcus ⟨{}, [0, 0, 0], 0, 0⟩ [] [] [] 0
      hm prevOk_zero hs (BitWriterMsb.holds_new []) (coded_nil _) (by simpa using hlt) (by simpa using ht)
      rfl (fun hh => absurd hh hne) (by simp) (fun _ => by simp)
    refine ⟨bytes, ?_, by simpa [Scan] using hres⟩
    rw [encodeScan, e, ok_bind]
    simp only [List.nil_append] at hf
    rw [hf]; rfl

end Pixo.Jpeg
