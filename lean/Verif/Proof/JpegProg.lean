import Verif.Proof.JpegBlock
import Verif.Model.JpegProgressive
import Verif.Proof.T81ProgUnique
/-
The scans of a progressive file carry the bands of the blocks, if the tables have codes for all the
symbols.
-/
namespace Pixo.Jpeg
open Pixo Spec Spec.T81

/-! ### Codes -/

theorem findCode_spec (vals : List Nat) (symbol L count code valIdx : Nat) (hc : code + count < 2 ^ 16) :
    (∃ i, i < count ∧ vals[valIdx + i]? = some symbol ∧
      findCode vals symbol L count code valIdx = .ok (.inl (code + i, L))) ∨
    ((∀ i < count, vals[valIdx + i]? ≠ some symbol) ∧
      findCode vals symbol L count code valIdx = .ok (.inr (code + count, valIdx + count))) := by
  induction count generalizing code valIdx with
  | zero => right; exact ⟨fun i hi => absurd hi (by omega), rfl⟩
  | succ count ih =>
    rw [findCode]
    by_cases h : vals[valIdx]? = some symbol
    · rw [if_pos h]
      left; exact ⟨0, by omega, h, rfl⟩
    · rw [if_neg h, addU16_ok (by omega), ok_bind]
      rcases ih (code + 1) (valIdx + 1) (by omega) with ⟨i, hi, hv, e⟩ | ⟨hv, e⟩
      · left
        refine ⟨i + 1, by omega, ?_, ?_⟩
        · rw [← hv]; congr 1; omega
        · rw [e]; congr 3; omega
      · right
        constructor
        · intro i hi
          cases i with
          | zero => exact h
          | succ i =>
            have := hv i (by omega)
            rwa [show valIdx + (i + 1) = valIdx + 1 + i by omega]
        · rw [e]; congr 3 <;> omega

theorem findCodes_spec (vals : List Nat) (symbol : Nat) (bits : List Nat) (i code valIdx : Nat)
    (hi : i + bits.length = 16) (hcode : code < 2 ^ (i + 1))
    (hfit : ∀ c ∈ codesFrom code (i + 1) (sizesAt i bits), c.1 + 1 < 2 ^ c.2) :
    (∃ (k : Nat) (c : Nat × Nat), vals[valIdx + k]? = some symbol ∧
      (codesFrom code (i + 1) (sizesAt i bits))[k]? = some c ∧
      findCodes vals symbol bits (i + 1) code valIdx = .ok c) ∨
    ((∀ k < bits.sum, vals[valIdx + k]? ≠ some symbol) ∧
      findCodes vals symbol bits (i + 1) code valIdx = .ok (0, 4)) := by
  induction bits generalizing i code valIdx with
  | nil => right; exact ⟨fun k hk => absurd hk (by simp), rfl⟩
  | cons b bits ih =>
    rw [sizesAt_cons, codesFrom_replicate] at hfit
    have hpow : (2:Nat) ^ (i + 1) ≤ 2 ^ 16 := Nat.pow_le_pow_right (by decide) (by simp at hi; omega)
    have hb : code + b < 2 ^ (i + 1) := by
      cases b with
      | zero => simpa using hcode
      | succ b =>
        have := hfit (code + b, i + 1) (by
          rw [List.mem_append]; left
          exact List.mem_map.mpr ⟨b, by simp, rfl⟩)
        simp only at this; omega
    have hshift := codesFrom_shift (code + b) (i + 1) (sizesAt (i + 1) bits) (sizesAt_ge _ _)
    rw [findCodes, sizesAt_cons, codesFrom_replicate]
    rcases findCode_spec vals symbol (i + 1) b code valIdx (by omega) with ⟨j, hj, hv, e⟩ | ⟨hv, e⟩
    · left
      refine ⟨j, (code + j, i + 1), hv, ?_, ?_⟩
      · rw [List.getElem?_append_left (by simpa using hj), List.getElem?_map, List.getElem?_range hj]
        rfl
      · rw [e]; rfl
    · rw [e]
      simp only [ok_bind]
      cases bits with
      | nil =>
        right
        refine ⟨?_, rfl⟩
        intro k hk
        exact hv k (by simpa using hk)
      | cons b' bits' =>
        have hi2 : i + 1 + 1 ≤ 16 := by simp at hi; omega
        have hpow2 : (2:Nat) ^ (i + 1 + 1) ≤ 2 ^ 16 := Nat.pow_le_pow_right (by decide) hi2
        have hps : (2:Nat) ^ (i + 1 + 1) = 2 * 2 ^ (i + 1) := by rw [Nat.pow_succ]; omega
        have hsh : ((code + b) <<< 1) % 2 ^ 16 = 2 * (code + b) := by
          rw [Nat.shiftLeft_eq, Nat.pow_one, Nat.mul_comm, Nat.mod_eq_of_lt (by omega)]
        rw [hsh]
        rcases ih (i + 1) (2 * (code + b)) (valIdx + b) (by simp at hi ⊢; omega) (by omega) (by
          intro c hc
          apply hfit
          rw [List.mem_append]; right
          rw [hshift]; exact hc) with ⟨k, c, h1, h2, h3⟩ | ⟨h1, h2⟩
        · left
          refine ⟨b + k, c, ?_, ?_, h3⟩
          · rw [← h1]; congr 1; omega
          · rw [List.getElem?_append_right (by simp), hshift]
            simpa using h2
        · right
          refine ⟨?_, h2⟩
          intro k hk
          rcases Nat.lt_or_ge k b with hkb | hkb
          · exact hv k hkb
          · have := h1 (k - b) (by rw [List.sum_cons] at hk; omega)
            rwa [show valIdx + b + (k - b) = valIdx + k by omega] at this

/-- `get_code_from_table` finds the code word of a symbol that has one; the others get four zeros. -/
theorem codeFromTable_spec {t : Table} (h : t.spec.Legal) (s : Nat) :
    ∃ c word, codeFromTable t s = .ok c ∧ c.2 ≤ 16 ∧ word = bitsMSB c.1 c.2 ∧
      (s ∈ t.vals → t.spec.HasCode s word) ∧ (s ∉ t.vals → word = List.replicate 4 false) := by
  have hb : t.bits.length = 16 := h.bits_length
  have hv : t.vals.length = t.bits.sum := h.vals_length
  have := findCodes_spec t.vals s t.bits 0 0 0 (by omega) (by simp) (by
    simp only [Nat.zero_add]; rw [← codes_eq]; exact h.fits)
  simp only [Nat.zero_add, ← codes_eq] at this
  rcases this with ⟨k, c, h1, h2, h3⟩ | ⟨h1, h2⟩
  · have hs := codes_size (List.mem_of_getElem? h2)
    exact ⟨c, _, h3, by omega, rfl, fun _ => ⟨k, c.1, c.2, h1, h2, rfl⟩,
      fun hn => absurd (List.mem_of_getElem? h1) hn⟩
  · refine ⟨(0, 4), _, h2, by decide, rfl, ?_, fun _ => by decide⟩
    intro hm
    obtain ⟨k, hk, e⟩ := List.getElem_of_mem hm
    exact absurd (by rw [List.getElem?_eq_getElem hk, e]) (h1 k (by omega))

theorem progAcCode_spec {t : HuffTables} (h : TablesOk t) (s : Nat) (lum : Bool) (w : BitWriterMsb) :
    ∃ c word, progAcCode t s lum = .ok c ∧ Emits w (writeCode w c) word ∧
      (s ∈ (t.get false lum).vals → (t.get false lum).spec.HasCode s word) ∧
      (s ∉ (t.get false lum).vals → word = List.replicate 4 false) := by
  obtain ⟨c, word, e, h16, rfl, h1, h2⟩ := codeFromTable_spec (h.get false lum).legal s
  refine ⟨c, _, ?_, emits_writeBits w c.1 c.2 (by omega), h1, h2⟩
  cases lum <;> exact e

theorem progDcCode_spec {t : HuffTables} (h : TablesOk t) (s : Nat) (lum : Bool) (w : BitWriterMsb) :
    ∃ c word, progDcCode t s lum = .ok c ∧ Emits w (writeCode w c) word ∧
      (s ∈ (t.get true lum).vals → (t.get true lum).spec.HasCode s word) ∧
      (s ∉ (t.get true lum).vals → word = List.replicate 4 false) := by
  obtain ⟨c, word, e, h16, rfl, h1, h2⟩ := codeFromTable_spec (h.get true lum).legal s
  refine ⟨c, _, ?_, emits_writeBits w c.1 c.2 (by omega), h1, h2⟩
  cases lum <;> exact e

/-! ### Trailing zeros -/

theorem trimZeros_eq (l : List Int) : l = trimZeros l ++ List.replicate (l.length - (trimZeros l).length) 0 := by
  have key : ∀ r : List Int, r = List.replicate (r.length - (r.dropWhile (· = 0)).length) 0 ++ r.dropWhile (· = 0) := by
    intro r
    induction r with
    | nil => rfl
    | cons a r ih =>
      by_cases h : a = 0
      · subst h
        rw [List.dropWhile_cons_of_pos (by simp)]
        have hle : (r.dropWhile (· = 0)).length ≤ r.length := (List.dropWhile_sublist _).length_le
        rw [List.length_cons, show r.length + 1 - (r.dropWhile (· = 0)).length =
          r.length - (r.dropWhile (· = 0)).length + 1 by omega, List.replicate_succ, List.cons_append, ← ih]
      · rw [List.dropWhile_cons_of_neg (by simpa using h)]
        simp
  have := congrArg List.reverse (key l.reverse)
  rw [List.reverse_reverse, List.reverse_append, List.reverse_replicate] at this
  unfold trimZeros
  simpa using this

theorem trimZeros_last (l : List Int) : (trimZeros l).getLast? ≠ some 0 := by
  unfold trimZeros
  rw [List.getLast?_reverse]
  have key : ∀ r : List Int, (r.dropWhile (· = 0)).head? ≠ some 0 := by
    intro r
    induction r with
    | nil => simp
    | cons a r ih =>
      by_cases h : a = 0
      · rw [List.dropWhile_cons_of_pos (by simpa using h)]; exact ih
      · rw [List.dropWhile_cons_of_neg (by simpa using h)]; simpa using h
  exact key _

theorem trimZeros_length (l : List Int) : (trimZeros l).length ≤ l.length := by
  unfold trimZeros
  rw [List.length_reverse]
  have := (List.dropWhile_sublist (fun x : Int => decide (x = 0)) (l := l.reverse)).length_le
  simpa using this

theorem mem_trimZeros {l : List Int} {v : Int} (h : v ∈ trimZeros l) : v ∈ l := by
  rw [trimZeros_eq l]; exact List.mem_append_left _ h

/-! ### Symbols -/

/-- The symbols of coefficients after `run` zeros, the last coefficient not zero. -/
def coefSyms : List Int → Nat → List Nat
  | [], _ => []
  | v :: vs, run =>
    if v = 0 then coefSyms vs (run + 1)
    else List.replicate (run / 16) 0xF0 ++ (16 * (run % 16) + category v) :: coefSyms vs 0

/-- The symbols of an AC scan with a run of `run` bands to be ended first. -/
def bandSyms : List (List Int) → Nat → List Nat
  | [], run => if run > 0 then [16 * run.log2] else []
  | b :: bs, run =>
    if trimZeros b = [] then
      (if run + 1 = 0x7FFF then 16 * 14 :: bandSyms bs 0 else bandSyms bs (run + 1))
    else (if run > 0 then [16 * run.log2] else []) ++
      (coefSyms (trimZeros b) 0 ++ bandSyms bs (if (trimZeros b).length < b.length then 1 else 0))

/-! ### Ends of bands -/

theorem log2_lt {run : Nat} (h0 : 0 < run) (h : run < 2 ^ 15) : run.log2 < 15 := by
  have := Nat.log2_self_le (n := run) (by omega)
  have hlt : 2 ^ run.log2 < 2 ^ 15 := by omega
  exact (Nat.pow_lt_pow_iff_right (a := 2) (by decide)).mp hlt

theorem flushEobRun_spec {t : HuffTables} (h : TablesOk t) (lum : Bool) (w : BitWriterMsb) (run : Nat)
    (h0 : 0 < run) (hr : run < 2 ^ 15) (len : Nat) :
    ∃ w' word bs, flushEobRun t lum w run = .ok w' ∧ Emits w w' (word ++ bs) ∧
      (16 * run.log2 ∉ (t.get false lum).vals → word = List.replicate 4 false) ∧
      (16 * run.log2 ∈ (t.get false lum).vals → (t.get false lum).spec.HasCode (16 * run.log2) word ∧
        ∀ n bands bits, 0 < n → AcFirst (t.get false lum).spec len [] bands bits →
        AcFirst (t.get false lum).spec len (List.replicate n 0)
          (List.replicate (run - 1) (List.replicate len 0) ++ bands) (word ++ bs ++ bits)) ∧
      (16 * run.log2 ∈ (t.get false lum).vals → ∀ n bands bits, 0 < n →
        Begins (t.get false lum).spec len (List.replicate n 0)
          (List.replicate (run - 1) (List.replicate len 0) ++ bands) (word ++ bs ++ bits) →
        Begins (t.get false lum).spec len [] bands bits) := by
  have hl := log2_lt h0 hr
  have h1 := Nat.log2_self_le (n := run) (by omega)
  have h2 := Nat.lt_log2_self (n := run)
  have hsym : (run.log2 <<< 4) % 2 ^ 8 = 16 * run.log2 := by
    rw [Nat.shiftLeft_eq, Nat.mod_eq_of_lt (by omega), Nat.mul_comm]
  obtain ⟨c, word, e, hem, hc1, hc2⟩ := progAcCode_spec h (16 * run.log2) lum w
  unfold flushEobRun
  simp only
  rw [hsym, e, ok_bind]
  have hpow : (2:Nat) ^ (run.log2 + 1) = 2 ^ run.log2 + 2 ^ run.log2 := by rw [Nat.pow_succ]; omega
  have hrule : 16 * run.log2 ∈ (t.get false lum).vals → ∀ n bands bits, 0 < n →
      AcFirst (t.get false lum).spec len [] bands bits →
      AcFirst (t.get false lum).spec len (List.replicate n 0)
        (List.replicate (run - 1) (List.replicate len 0) ++ bands)
        (word ++ bitsMSB (run - 2 ^ run.log2) run.log2 ++ bits) := by
    intro hm n bands bits hn hb
    have := AcFirst.eob (len := len) (v := run - 2 ^ run.log2) hn hl (by omega) (hc1 hm) hb
    rwa [show 2 ^ run.log2 + (run - 2 ^ run.log2) = run by omega] at this
  have hinv : 16 * run.log2 ∈ (t.get false lum).vals → ∀ n bands bits, 0 < n →
      Begins (t.get false lum).spec len (List.replicate n 0)
        (List.replicate (run - 1) (List.replicate len 0) ++ bands)
        (word ++ bitsMSB (run - 2 ^ run.log2) run.log2 ++ bits) →
      Begins (t.get false lum).spec len [] bands bits := by
    intro hm n bands bits hn hb
    refine Begins.eob (h.get false lum).legal (v := run - 2 ^ run.log2) hn hl (by omega) (hc1 hm) ?_
    rw [show 2 ^ run.log2 + (run - 2 ^ run.log2) = run by omega, ← List.append_assoc]
    exact hb
  by_cases hz : run.log2 > 0
  · rw [if_pos hz]
    refine ⟨_, word, bitsMSB (run - 2 ^ run.log2) run.log2, rfl, ?_, hc2, fun hm => ⟨hc1 hm, hrule hm⟩, hinv⟩
    rw [Nat.one_shiftLeft]
    exact hem.trans (emits_writeBits _ _ _ (by omega))
  · rw [if_neg hz]
    have e0 : run.log2 = 0 := by omega
    rw [e0] at hrule hinv
    refine ⟨_, word, [], rfl, by simpa using hem, hc2, fun hm => ⟨hc1 hm, ?_⟩, fun hm => ?_⟩
    · rw [e0] at hm
      simpa [bitsMSB] using hrule hm
    · rw [e0] at hm
      simpa [bitsMSB] using hinv hm

/-! ### Coefficients -/

theorem progZrl_spec {t : HuffTables} (h : TablesOk t) (lum : Bool) (n : Nat) (w : BitWriterMsb) (len : Nat) :
    ∃ w' bs, progZrl t lum n w = .ok w' ∧ Emits w w' bs ∧
      ((0 < n → 0xF0 ∈ (t.get false lum).vals) → ∀ cur bands bits, AcFirst (t.get false lum).spec len cur bands bits →
        AcFirst (t.get false lum).spec len (List.replicate (16 * n) 0 ++ cur) bands (bs ++ bits)) ∧
      ((0 < n → 0xF0 ∈ (t.get false lum).vals) → ∀ cur bands bits,
        Begins (t.get false lum).spec len (List.replicate (16 * n) 0 ++ cur) bands (bs ++ bits) →
        Begins (t.get false lum).spec len cur bands bits) := by
  induction n generalizing w with
  | zero => exact ⟨w, [], rfl, Emits.refl w, fun _ cur bands bits hh => by simpa using hh,
      fun _ cur bands bits hh => by simpa using hh⟩
  | succ n ih =>
    obtain ⟨c, word, e, hem, hc, _⟩ := progAcCode_spec h 0xF0 lum w
    obtain ⟨w', bs, e2, hem2, hac, hinv⟩ := ih (writeCode w c)
    refine ⟨w', word ++ bs, by rw [progZrl, e, ok_bind, e2], hem.trans hem2, ?_, ?_⟩
    · intro hs cur bands bits hh
      have := AcFirst.zrl (hc (hs (by omega))) (hac (fun _ => hs (by omega)) cur bands bits hh)
      rw [← List.append_assoc, List.replicate_append_replicate,
        show 16 + 16 * n = 16 * (n + 1) by omega, ← List.append_assoc] at this
      exact this
    · intro hs cur bands bits hh
      rw [show 16 * (n + 1) = 16 + 16 * n by omega, ← List.replicate_append_replicate, List.append_assoc,
        List.append_assoc] at hh
      exact hinv (fun _ => hs (by omega)) _ _ _ (Begins.zrl (h.get false lum).legal (hc (hs (by omega))) hh)

theorem progCoefs_spec {t : HuffTables} (h : TablesOk t) (lum : Bool) (len : Nat) (l : List Int) (run : Nat)
    (w : BitWriterMsb) (hr : AcRange l) :
    ∃ w' bs, progCoefs t lum l run w = .ok w' ∧ Emits w w' bs ∧
      ((∀ s ∈ coefSyms l run, s ∈ (t.get false lum).vals) → l.getLast? ≠ some 0 → (l = [] → run = 0) →
        ∀ cur bands bits, AcFirst (t.get false lum).spec len cur bands bits →
        AcFirst (t.get false lum).spec len (List.replicate run 0 ++ (l ++ cur)) bands (bs ++ bits)) ∧
      ((∀ s ∈ coefSyms l run, s ∈ (t.get false lum).vals) → l.getLast? ≠ some 0 → (l = [] → run = 0) →
        ∀ cur bands bits,
        Begins (t.get false lum).spec len (List.replicate run 0 ++ (l ++ cur)) bands (bs ++ bits) →
        Begins (t.get false lum).spec len cur bands bits) := by
  induction l generalizing run w with
  | nil =>
    refine ⟨w, [], rfl, Emits.refl w, ?_, ?_⟩
    · intro _ _ hn cur bands bits hh
      rw [hn rfl]
      simpa using hh
    · intro _ _ hn cur bands bits hh
      rw [hn rfl] at hh
      simpa using hh
  | cons v vs ih =>
    have hrv : AcRange vs := fun x hx => hr x (List.mem_cons_of_mem _ hx)
    rw [progCoefs]
    by_cases h0 : v = 0
    · subst h0
      rw [if_pos rfl]
      obtain ⟨w', bs, e, hem, hac, hinv⟩ := ih (run + 1) w hrv
      refine ⟨w', bs, e, hem, ?_, ?_⟩
      · intro hs hl hn cur bands bits hh
        rw [coefSyms, if_pos rfl] at hs
        have hne : vs ≠ [] := by rintro rfl; simp at hl
        have := hac hs (by rwa [List.getLast?_cons, List.getLast?_eq_some_getLast hne] at *) (fun hv => absurd hv hne) cur bands bits hh
        rw [List.replicate_succ', List.append_assoc] at this
        exact this
      · intro hs hl hn cur bands bits hh
        rw [coefSyms, if_pos rfl] at hs
        have hne : vs ≠ [] := by rintro rfl; simp at hl
        refine hinv hs (by rwa [List.getLast?_cons, List.getLast?_eq_some_getLast hne] at *) (fun hv => absurd hv hne) cur bands bits ?_
        rw [List.replicate_succ', List.append_assoc]
        exact hh
    · rw [if_neg h0]
      have hv := hr v (by simp)
      have hcat : category v ≤ 10 := category_le (by omega)
      have hcat1 := category_pos h0
      obtain ⟨w1, bs1, e1, hem1, hac1, hinv1⟩ := progZrl_spec h lum (run / 16) w len
      obtain ⟨c, word, e2, hem2, hc, _⟩ := progAcCode_spec h (16 * (run % 16) + category v) lum w1
      obtain ⟨b, e3, hb, hext⟩ := encodeValue_spec h0 (by omega)
      obtain ⟨w', bs, e4, hem4, hac, hinv⟩ := ih 0 (writeCode (writeCode w1 c) (b, category v)) hrv
      have hlast : (v :: vs).getLast? ≠ some 0 → vs.getLast? ≠ some 0 := by
        intro hl
        cases vs with
        | nil => simp
        | cons a as => rwa [List.getLast?_cons_cons] at hl
      refine ⟨w', bs1 ++ (word ++ bitsMSB b (category v) ++ bs), ?_, ?_, ?_, ?_⟩
      · rw [e1, ok_bind, rs_eq (by omega), e2, ok_bind]
        simp only
        rw [e3, ok_bind, e4]
      · exact hem1.trans ((hem2.trans (emits_writeBits _ b _ (by omega))).trans hem4)
      · intro hs hl hn cur bands bits hh
        rw [coefSyms, if_neg h0] at hs
        have hrest := hac (fun s hs' => hs s (List.mem_append_right _ (List.mem_cons_of_mem _ hs')))
          (hlast hl) (fun _ => rfl) cur bands bits hh
        have hco := AcFirst.coef (Nat.mod_lt run (by decide : 0 < 16)) hcat1 hcat hb
          (hc (hs _ (List.mem_append_right _ (by simp)))) hrest
        rw [hext] at hco
        have := hac1 (fun hn => hs _ (List.mem_append_left _ (by rw [List.mem_replicate]; exact ⟨by omega, rfl⟩)))
          _ _ _ hco
        rw [← List.append_assoc, List.replicate_append_replicate, Nat.div_add_mod] at this
        simpa [List.append_assoc] using this
      · intro hs hl hn cur bands bits hh
        rw [coefSyms, if_neg h0] at hs
        refine hinv (fun s hs' => hs s (List.mem_append_right _ (List.mem_cons_of_mem _ hs'))) (hlast hl) (fun _ => rfl)
          cur bands bits ?_
        rw [← Nat.div_add_mod run 16, ← List.replicate_append_replicate, List.append_assoc, List.append_assoc] at hh
        have := hinv1 (fun hn => hs _ (List.mem_append_left _ (by rw [List.mem_replicate]; exact ⟨by omega, rfl⟩)))
          _ _ _ hh
        have key := Begins.coef (h.get false lum).legal (len := len) (cur := vs ++ cur) (bands := bands) (bits := bs ++ bits)
          (Nat.mod_lt run (by decide : 0 < 16)) hcat1 hcat hb (hc (hs _ (List.mem_append_right _ (by simp))))
        rw [hext] at key
        rw [List.replicate_zero, List.nil_append]
        refine key ?_
        simp only [List.append_assoc, List.cons_append] at this
        exact this

/-! ### Scans -/

/-- A scan of AC coefficients without successive approximation. -/
structure AcSpec (scan : ScanSpec) : Prop where
  al : scan.al = 0
  ss : 1 ≤ scan.ss
  le : scan.ss ≤ scan.se
  se : scan.se ≤ 63

/-- The band of a block in a scan. -/
def bandAt (scan : ScanSpec) (block : List Int) : List Int := bandOf scan.ss scan.se (zigzagReorder block)

theorem bandAt_length {scan : ScanSpec} (hs : AcSpec scan) (block : List Int) :
    (bandAt scan block).length = scan.se + 1 - scan.ss := by
  unfold bandAt bandOf
  have := hs.le
  have := hs.se
  rw [List.length_take, List.length_drop, zigzagReorder_length]
  omega

theorem bandAt_range {scan : ScanSpec} (hs : AcSpec scan) {block : List Int} (h : BlockRange (zigzagReorder block)) :
    AcRange (bandAt scan block) := by
  intro v hv
  apply h.ac
  unfold bandAt bandOf at hv
  have := List.mem_of_mem_take hv
  have hss := hs.ss
  rw [show scan.ss = 1 + (scan.ss - 1) by omega, ← List.drop_drop] at this
  exact List.mem_of_mem_drop this

theorem band_map {scan : ScanSpec} (hs : AcSpec scan) (block : List Int) :
    (((zigzagReorder block).drop scan.ss).take (scan.se + 1 - scan.ss)).map (fun v => v / 2 ^ scan.al) =
      bandAt scan block := by
  rw [hs.al]
  simp [bandAt, bandOf]

theorem trimZeros_nil {l : List Int} (h : trimZeros l = []) : l = List.replicate l.length 0 := by
  have := trimZeros_eq l
  rw [h] at this
  simpa using this

theorem coefSyms_ac (l : List Int) (run : Nat) (hr : AcRange l) :
    ∀ s ∈ coefSyms l run, s = 0xF0 ∨ (s < 256 ∧ 1 ≤ s % 16 ∧ s % 16 ≤ 10) := by
  induction l generalizing run with
  | nil => intro s hs; cases hs
  | cons v vs ih =>
    intro s hs
    have hrv : AcRange vs := fun x hx => hr x (List.mem_cons_of_mem _ hx)
    rw [coefSyms] at hs
    by_cases h0 : v = 0
    · rw [if_pos h0] at hs; exact ih _ hrv s hs
    · rw [if_neg h0] at hs
      rcases List.mem_append.mp hs with hs | hs
      · exact Or.inl (List.mem_replicate.mp hs).2
      · rcases List.mem_cons.mp hs with rfl | hs
        · right
          have hv := hr v (by simp)
          have hcat : category v ≤ 10 := category_le (by omega)
          have hcat1 := category_pos h0
          omega
        · exact ih _ hrv s hs

theorem acScanBlocks_spec {t : HuffTables} (h : TablesOk t) {scan : ScanSpec} (hs : AcSpec scan) (lum : Bool)
    (blocks : List (List Int)) (hb : ∀ b ∈ blocks, BlockRange (zigzagReorder b)) (w : BitWriterMsb) (run : Nat)
    (hrun : run < 0x7FFF) :
    ∃ w' bs, acScanBlocks t scan lum blocks w run = .ok w' ∧ Emits w w' bs ∧
      ((∀ s ∈ bandSyms (blocks.map (bandAt scan)) run, s ∈ (t.get false lum).vals) →
        (run = 0 → AcFirst (t.get false lum).spec (scan.se + 1 - scan.ss) [] (blocks.map (bandAt scan)) bs) ∧
        (0 < run → ∀ n, 0 < n → AcFirst (t.get false lum).spec (scan.se + 1 - scan.ss) (List.replicate n 0)
          (List.replicate (run - 1) (List.replicate (scan.se + 1 - scan.ss) 0) ++ blocks.map (bandAt scan)) bs)) ∧
      ((∀ s, s = 0xF0 ∨ (s < 256 ∧ 1 ≤ s % 16 ∧ s % 16 ≤ 10) → s ∈ (t.get false lum).vals) →
        (∀ n bands tl, 0 < n → ¬ Begins (t.get false lum).spec (scan.se + 1 - scan.ss) (List.replicate n 0) bands
          (List.replicate 4 false ++ tl)) →
        (∃ s ∈ bandSyms (blocks.map (bandAt scan)) run, s ∉ (t.get false lum).vals) → ∀ rest,
        (run = 0 → ¬ Begins (t.get false lum).spec (scan.se + 1 - scan.ss) [] (blocks.map (bandAt scan)) (bs ++ rest)) ∧
        (0 < run → ∀ n, 0 < n → ¬ Begins (t.get false lum).spec (scan.se + 1 - scan.ss) (List.replicate n 0)
          (List.replicate (run - 1) (List.replicate (scan.se + 1 - scan.ss) 0) ++ blocks.map (bandAt scan)) (bs ++ rest))) := by
  have hlen0 : 0 < scan.se + 1 - scan.ss := by have := hs.le; omega
  generalize hlen : scan.se + 1 - scan.ss = len at *
  induction blocks generalizing w run with
  | nil =>
    rw [acScanBlocks]
    by_cases h0 : run > 0
    · rw [if_pos h0]
      obtain ⟨w', word, bs, e, hem, hmiss, hm, _⟩ := flushEobRun_spec h lum w run h0 (by omega) len
      refine ⟨w', word ++ bs, e, hem, ?_, ?_⟩
      · intro hsym
        refine ⟨fun hz => absurd hz (by omega), fun _ n hn => ?_⟩
        have := (hm (hsym _ (by simp [bandSyms, h0]))).2 n [] [] hn AcFirst.done
        simpa using this
      · rintro _ hbad ⟨s, hs1, hs2⟩ rest
        refine ⟨fun hz => absurd hz (by omega), fun _ n hn => ?_⟩
        have hs3 : s = 16 * run.log2 := by simpa [bandSyms, h0] using hs1
        subst hs3
        rw [hmiss hs2, List.append_assoc]
        exact hbad n _ _ hn
    · rw [if_neg h0]
      refine ⟨w, [], rfl, Emits.refl w, fun _ => ⟨fun _ => AcFirst.done, fun hz => absurd hz h0⟩, ?_⟩
      rintro _ _ ⟨s, hs1, _⟩
      simp [bandSyms, h0] at hs1
  | cons b bs ih =>
    have hb1 := hb b (by simp)
    have hb2 : ∀ x ∈ bs, BlockRange (zigzagReorder x) := fun x hx => hb x (List.mem_cons_of_mem _ hx)
    have hbl : (bandAt scan b).length = len := by rw [bandAt_length hs, hlen]
    have hbr := bandAt_range hs hb1
    rw [acScanBlocks]
    unfold encodeAcFirst
    simp only
    rw [band_map hs]
    simp only [List.map_cons]
    generalize bandAt scan b = band at *
    by_cases hz : trimZeros band = []
    · rw [if_pos hz, addU16_ok (by omega), ok_bind]
      have hband := trimZeros_nil hz
      rw [hbl] at hband
      by_cases hfull : run + 1 = 0x7FFF
      · rw [if_pos hfull]
        obtain ⟨w1, word, bs1, e1, hem1, hmiss1, hm1, hinv1⟩ := flushEobRun_spec h lum w (run + 1) (by omega) (by omega) len
        obtain ⟨w', bs2, e2, hem2, hac, hbad2⟩ := ih hb2 w1 0 (by omega)
        rw [e1]
        simp only [ok_bind]
        have hl14 : (run + 1).log2 = 14 := by rw [hfull]; decide
        have hrep : List.replicate (run + 1 - 1) (List.replicate len (0 : Int)) ++ bs.map (bandAt scan) =
            List.replicate (run - 1) (List.replicate len 0) ++ (band :: bs.map (bandAt scan)) := by
          rw [Nat.add_sub_cancel]
          conv => lhs; rw [show run = run - 1 + 1 by omega, List.replicate_succ', List.append_assoc]
          rw [hband]; rfl
        refine ⟨w', (word ++ bs1) ++ bs2, e2, hem1.trans hem2, ?_, ?_⟩
        · intro hsym
          rw [bandSyms, if_pos hz, if_pos hfull] at hsym
          have hr2 := (hac (fun s hx => hsym s (List.mem_cons_of_mem _ hx))).1 rfl
          have hflush := (hm1 (hsym _ (by rw [hl14]; simp))).2
          refine ⟨fun h0 => ?_, fun h0 n hn => ?_⟩
          · omega
          · have := hflush n _ _ hn hr2
            rwa [hrep] at this
        · rintro hcov hbad ⟨s, hs1, hs2⟩ rest
          rw [bandSyms, if_pos hz, if_pos hfull, ← hl14] at hs1
          refine ⟨fun h0 => by omega, fun h0 n hn hbeg => ?_⟩
          by_cases hin : 16 * (run + 1).log2 ∈ (t.get false lum).vals
          · have hs1 : s ∈ bandSyms (bs.map (bandAt scan)) 0 := by
              rcases List.mem_cons.mp hs1 with rfl | hs1
              · exact absurd hin hs2
              · exact hs1
            rw [← hrep, List.append_assoc] at hbeg
            exact (hbad2 hcov hbad ⟨s, hs1, hs2⟩ rest).1 rfl (hinv1 hin n _ _ hn hbeg)
          · rw [hmiss1 hin, List.append_assoc, List.append_assoc] at hbeg
            exact hbad n _ _ hn hbeg
      · rw [if_neg hfull]
        obtain ⟨w', bs2, e2, hem2, hac, hbad2⟩ := ih hb2 w (run + 1) (by omega)
        rw [Nat.add_sub_cancel] at hac hbad2
        have hrep : 0 < run → List.replicate run (List.replicate len (0 : Int)) ++ bs.map (bandAt scan) =
            List.replicate (run - 1) (List.replicate len 0) ++ (band :: bs.map (bandAt scan)) := by
          intro h0
          conv => lhs; rw [show run = run - 1 + 1 by omega, List.replicate_succ', List.append_assoc]
          rw [hband]; rfl
        refine ⟨w', bs2, e2, hem2, ?_, ?_⟩
        · intro hsym
          rw [bandSyms, if_pos hz, if_neg hfull] at hsym
          have hr2 := (hac hsym).2 (by omega)
          refine ⟨fun h0 => ?_, fun h0 n hn => ?_⟩
          · subst h0
            refine AcFirst.next hbl ?_
            rw [hband]
            exact hr2 len hlen0
          · rw [← hrep h0]; exact hr2 n hn
        · rintro hcov hbad hs rest
          rw [bandSyms, if_pos hz, if_neg hfull] at hs
          have hr2 := (hbad2 hcov hbad hs rest).2 (by omega)
          refine ⟨fun h0 hbeg => ?_, fun h0 n hn hbeg => ?_⟩
          · subst h0
            have := hbeg.next
            rw [hband] at this
            exact hr2 len hlen0 this
          · rw [← hrep h0] at hbeg; exact hr2 n hn hbeg
    · rw [if_neg hz]
      have hused : AcRange (trimZeros band) := fun v hv => hbr v (mem_trimZeros hv)
      have htl := trimZeros_length band
      have hteq := trimZeros_eq band
      have hcoef : ∀ w1, ∃ w' bs2, (progCoefs t lum (trimZeros band) 0 w1 >>= fun w2 =>
          acScanBlocks t scan lum bs w2 (if (trimZeros band).length < band.length then 1 else 0)) = .ok w' ∧
          Emits w1 w' bs2 ∧
          ((∀ s ∈ coefSyms (trimZeros band) 0 ++ bandSyms (bs.map (bandAt scan))
              (if (trimZeros band).length < band.length then 1 else 0), s ∈ (t.get false lum).vals) →
            AcFirst (t.get false lum).spec len [] (band :: bs.map (bandAt scan)) bs2) ∧
          ((∀ s, s = 0xF0 ∨ (s < 256 ∧ 1 ≤ s % 16 ∧ s % 16 ≤ 10) → s ∈ (t.get false lum).vals) →
            (∀ n bands tl, 0 < n → ¬ Begins (t.get false lum).spec len (List.replicate n 0) bands
              (List.replicate 4 false ++ tl)) →
            (∃ s ∈ bandSyms (bs.map (bandAt scan))
              (if (trimZeros band).length < band.length then 1 else 0), s ∉ (t.get false lum).vals) → ∀ rest,
            ¬ Begins (t.get false lum).spec len [] (band :: bs.map (bandAt scan)) (bs2 ++ rest)) := by
        intro w1
        obtain ⟨w2, b2, e2, hem2, hac2, hinv2⟩ := progCoefs_spec h lum len (trimZeros band) 0 w1 hused
        obtain ⟨w', b3, e3, hem3, hac3, hbad3⟩ := ih hb2 w2 (if (trimZeros band).length < band.length then 1 else 0)
          (by split <;> omega)
        refine ⟨w', b2 ++ b3, by rw [e2, ok_bind, e3], hem2.trans hem3, ?_, ?_⟩
        rotate_left
        · intro hcov hbad hs rest hbeg
          have hcv : ∀ s ∈ coefSyms (trimZeros band) 0, s ∈ (t.get false lum).vals :=
            fun s hs => hcov s (coefSyms_ac _ _ hused s hs)
          obtain ⟨g1, g2⟩ := hbad3 hcov hbad hs rest
          have hbeg := hbeg.next
          rw [List.append_assoc] at hbeg
          by_cases hlt : (trimZeros band).length < band.length
          · rw [if_pos hlt] at g2
            refine g2 (by omega) (band.length - (trimZeros band).length) (by omega) ?_
            apply hinv2 hcv (trimZeros_last band) (fun _ => rfl)
            rw [← hteq]
            simpa using hbeg
          · rw [if_neg hlt] at g1
            refine g1 rfl ?_
            apply hinv2 hcv (trimZeros_last band) (fun _ => rfl)
            rw [show band.length - (trimZeros band).length = 0 by omega] at hteq
            simp only [List.replicate_zero, List.append_nil] at hteq ⊢
            rw [← hteq]
            simpa using hbeg
        intro hsym
        obtain ⟨g1, g2⟩ := hac3 (fun s hx => hsym s (List.mem_append_right _ hx))
        refine AcFirst.next hbl ?_
        by_cases hlt : (trimZeros band).length < band.length
        · rw [if_pos hlt] at g2
          have := hac2 (fun s hx => hsym s (List.mem_append_left _ hx)) (trimZeros_last band) (fun _ => rfl) _ _ _
            (g2 (by omega) (band.length - (trimZeros band).length) (by omega))
          rw [← hteq] at this
          simpa using this
        · rw [if_neg hlt] at g1
          have := hac2 (fun s hx => hsym s (List.mem_append_left _ hx)) (trimZeros_last band) (fun _ => rfl) _ _ _ (g1 rfl)
          rw [show band.length - (trimZeros band).length = 0 by omega] at hteq
          simp only [List.replicate_zero, List.append_nil] at hteq this
          rw [← hteq] at this
          simpa using this
      by_cases h0 : run > 0
      · rw [if_pos h0]
        obtain ⟨w1, word, b1, e1, hem1, hmiss1, hm1, hinv1⟩ := flushEobRun_spec h lum w run h0 (by omega) len
        obtain ⟨w', b2, e2, hem2, hac2, hbad2⟩ := hcoef w1
        refine ⟨w', (word ++ b1) ++ b2, ?_, hem1.trans hem2, ?_, ?_⟩
        · rw [e1, ok_bind, ← e2]
          cases progCoefs t lum (trimZeros band) 0 w1 <;> rfl
        · intro hsym
          rw [bandSyms, if_neg hz, if_pos h0] at hsym
          refine ⟨fun hz => absurd hz (by omega), fun _ n hn => ?_⟩
          exact (hm1 (hsym _ (by simp))).2 n _ _ hn (hac2 (fun s hx => hsym s (List.mem_append_right _ hx)))
        · rintro hcov hbad ⟨s, hs1, hs2⟩ rest
          rw [bandSyms, if_neg hz, if_pos h0] at hs1
          refine ⟨fun hz => absurd hz (by omega), fun _ n hn hbeg => ?_⟩
          by_cases hin : 16 * run.log2 ∈ (t.get false lum).vals
          · have hs1 : s ∈ bandSyms (bs.map (bandAt scan)) (if (trimZeros band).length < band.length then 1 else 0) := by
              rcases List.mem_append.mp hs1 with hs1 | hs1
              · rw [List.mem_singleton.mp hs1] at hs2; exact absurd hin hs2
              · rcases List.mem_append.mp hs1 with hs1 | hs1
                · exact absurd (hcov s (coefSyms_ac _ _ hused s hs1)) hs2
                · exact hs1
            rw [List.append_assoc] at hbeg
            exact hbad2 hcov hbad ⟨s, hs1, hs2⟩ rest (hinv1 hin n _ _ hn hbeg)
          · rw [hmiss1 hin, List.append_assoc, List.append_assoc] at hbeg
            exact hbad n _ _ hn hbeg
      · rw [if_neg h0]
        obtain ⟨w', b2, e2, hem2, hac2, hbad2⟩ := hcoef w
        refine ⟨w', b2, ?_, hem2, ?_, ?_⟩
        · rw [ok_bind, ← e2]
          cases progCoefs t lum (trimZeros band) 0 w <;> rfl
        · intro hsym
          rw [bandSyms, if_neg hz, if_neg h0, List.nil_append] at hsym
          exact ⟨fun _ => hac2 hsym, fun hr => absurd hr h0⟩
        · rintro hcov hbad ⟨s, hs1, hs2⟩ rest
          rw [bandSyms, if_neg hz, if_neg h0, List.nil_append] at hs1
          refine ⟨fun _ => hbad2 hcov hbad ⟨s, ?_, hs2⟩ rest, fun hr => absurd hr h0⟩
          rcases List.mem_append.mp hs1 with hs1 | hs1
          · exact absurd (hcov s (coefSyms_ac _ _ hused s hs1)) hs2
          · exact hs1

/-- The symbols coded for the DC coefficients of a scan. -/
def dcSyms : Int → List Int → List Nat
  | _, [] => []
  | p, d :: ds => category (d - p) :: dcSyms d ds

theorem dcSyms_le (ds : List Int) (p : Int) (hp : -1024 ≤ p ∧ p ≤ 1023) (h : ∀ d ∈ ds, -1024 ≤ d ∧ d ≤ 1023) :
    ∀ s ∈ dcSyms p ds, s ≤ 11 := by
  induction ds generalizing p with
  | nil => intro s hs; cases hs
  | cons d ds ih =>
    intro s hs
    have hd := h d (by simp)
    rcases List.mem_cons.mp hs with rfl | hs
    · exact category_le (by omega)
    · exact ih d hd (fun x hx => h x (List.mem_cons_of_mem _ hx)) s hs

theorem headD_zigzag (b : List Int) : (zigzagReorder b).headD 0 = b.headD 0 := by
  have : zigzagReorder b = b.getD 0 0 :: (zigzagReorder b).drop 1 := rfl
  rw [this, List.headD_cons]
  cases b <;> rfl

theorem dcScanBlocks_spec {t : HuffTables} (h : TablesOk t) {scan : ScanSpec} (hal : scan.al = 0) (lum : Bool)
    (blocks : List (List Int)) (hb : ∀ b ∈ blocks, BlockRange (zigzagReorder b)) (w : BitWriterMsb) (prev : Int)
    (hp : -1024 ≤ prev ∧ prev ≤ 1023) :
    ∃ w' bs, dcScanBlocks t scan lum blocks w prev = .ok w' ∧ Emits w w' bs ∧
      ((∀ s ∈ dcSyms prev (blocks.map (fun b => b.headD 0)), s ∈ (t.get true lum).vals) →
        DcFirst (t.get true lum).spec prev (blocks.map (fun b => b.headD 0)) bs) := by
  induction blocks generalizing w prev with
  | nil => exact ⟨w, [], rfl, Emits.refl w, fun _ => DcFirst.nil⟩
  | cons b bs ih =>
    have hz := headD_zigzag b
    have hb1 := (hb b (by simp)).dc
    rw [hz] at hb1
    rw [dcScanBlocks]
    simp only
    rw [subI16, if_pos (by omega), ok_bind, hal, Int.pow_zero, Int.ediv_one]
    obtain ⟨c, word, e, hem, hc, _⟩ := progDcCode_spec h (category (b.headD 0 - prev)) lum w
    rw [e, ok_bind]
    have hcat : category (b.headD 0 - prev) ≤ 11 := category_le (by omega)
    have hd : prev + (b.headD 0 - prev) = b.headD 0 := by omega
    by_cases h0 : b.headD 0 - prev = 0
    · have ev : encodeValue 0 = .ok (0, 0) := rfl
      have hp0 : prev + 0 = b.headD 0 := by omega
      obtain ⟨w', b2, e2, hem2, hdc⟩ := ih (fun x hx => hb x (List.mem_cons_of_mem _ hx)) (writeCode w c) (b.headD 0) hb1
      rw [h0] at hc ⊢
      rw [ev, ok_bind, category_zero]
      simp only [Nat.lt_irrefl, if_false, gt_iff_lt]
      refine ⟨w', word ++ b2, e2, hem.trans hem2, ?_⟩
      intro hv
      rw [List.map_cons, dcSyms, h0, category_zero] at hv
      have := DcFirst.cons (pred := prev) (Dc.zero (hc (by first | exact hv 0 (by simp) | (rw [category_zero]; exact hv 0 (by simp)))))
        (by rw [hp0]; exact hdc (fun s hs => hv s (List.mem_cons_of_mem _ hs)))
      rw [hp0] at this
      exact this
    · obtain ⟨v, e3, hv, hext⟩ := encodeValue_spec h0 (by omega)
      have hcat1 := category_pos h0
      rw [e3, ok_bind, if_pos (by omega)]
      obtain ⟨w', b2, e2, hem2, hdc⟩ := ih (fun x hx => hb x (List.mem_cons_of_mem _ hx))
        (writeCode (writeCode w c) (v, category (b.headD 0 - prev))) (b.headD 0) hb1
      refine ⟨w', (word ++ bitsMSB v (category (b.headD 0 - prev))) ++ b2, e2,
        (hem.trans (emits_writeBits _ v _ (by omega))).trans hem2, ?_⟩
      intro hvals
      rw [List.map_cons, dcSyms] at hvals
      have hdc1 := Dc.bits hcat1 hcat hv (hc (hvals _ (by simp)))
      rw [hext] at hdc1
      have := DcFirst.cons (pred := prev) hdc1 (by rw [hd]; exact hdc (fun s hs => hvals s (List.mem_cons_of_mem _ hs)))
      rw [hd] at this
      exact this

end Pixo.Jpeg
