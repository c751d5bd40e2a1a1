import Verif.Model.Lz77
import Verif.Proof.MatchLength
import Verif.Spec.Rfc1951
/-
The greedy and lazy LZ77 parser: the tokens expand to the input.
-/
namespace Pixo.Lz77
open Pixo Pixo.MatchLength

/-- A back reference at `pos` that copies what is there. -/
structure Valid (data : List UInt8) (pos len dist : Nat) : Prop where
  min : 3 ≤ len
  max : len ≤ 258
  fits : pos + len ≤ data.length
  near : 1 ≤ dist
  far : dist ≤ 32768
  back : dist ≤ pos
  same : Prefix data (pos - dist) pos len

/-- All entries of a table are at most `b`. -/
def Tab.Le (t : Tab) (b : Nat) : Prop := ∀ i, t.val i ≤ (b : Int)

/-- The compressor's tables have their sizes, and hold positions up to `b`. -/
structure WF (st : State) (b : Nat) : Prop where
  sHead : st.head.size = HASH_SIZE
  sHead3 : st.head3.size = HASH3_SIZE
  sHt0 : st.ht0.size = HT_HASH_SIZE
  sHt1 : st.ht1.size = HT_HASH_SIZE
  sPrev : st.prev.size = MAX_DISTANCE
  head : st.head.Le b
  head3 : st.head3.Le b
  ht0 : st.ht0.Le b
  ht1 : st.ht1.Le b
  prev : st.prev.Le b

theorem Tab.Le.mono {t : Tab} {a b : Nat} (h : t.Le a) (hab : a ≤ b) : t.Le b :=
  fun i => by have := h i; omega

theorem WF.mono {st : State} {a b : Nat} (h : WF st a) (hab : a ≤ b) : WF st b :=
  ⟨h.sHead, h.sHead3, h.sHt0, h.sHt1, h.sPrev, h.head.mono hab, h.head3.mono hab,
   h.ht0.mono hab, h.ht1.mono hab, h.prev.mono hab⟩

theorem asI32_le (n : Nat) : asI32 n ≤ (n : Int) := by
  unfold asI32
  have h : n % 2 ^ 32 ≤ n := Nat.mod_le _ _
  split <;> omega

theorem Tab.get_spec {t : Tab} {i b n : Nat} (hs : t.size = n) (hi : i < n) (h : t.Le b) :
    Oks (t.get i) (fun v => v ≤ (b : Int)) := by
  unfold Tab.get; rw [hs, if_pos hi]; exact .ok (h i)

theorem Tab.set_spec {t : Tab} {i b n : Nat} {v : Int} (hs : t.size = n) (hi : i < n) (h : t.Le b)
    (hv : v ≤ (b : Int)) : Oks (t.set i v) (fun t' => t'.size = n ∧ t'.Le b) := by
  unfold Tab.set; rw [hs, if_pos hi]
  refine .ok ⟨rfl, fun j => ?_⟩
  simp only []
  split
  · exact hv
  · exact h j

theorem get_ok {α : Type} {l : List α} {i : Nat} (h : i < l.length) :
    Oks (getChecked l i) (fun a => l[i]? = some a) :=
  Oks.get h (List.getElem?_eq_getElem h)

theorem subUsize_spec {a b : Nat} (h : b ≤ a) : Oks (subUsize a b) (fun d => d = a - b) := by
  unfold subUsize; rw [if_pos h]; exact .ok rfl

theorem word_ok {data : List UInt8} {pos : Nat} (h : pos + 3 < data.length) :
    Oks (word data pos) (fun _ => True) := by
  unfold word
  refine Oks.bind (get_ok (by omega)) fun _ _ => ?_
  refine Oks.bind (get_ok (by omega)) fun _ _ => ?_
  refine Oks.bind (get_ok (by omega)) fun _ _ => ?_
  refine Oks.bind (get_ok (by omega)) fun _ _ => ?_
  exact .pure trivial

theorem hash4_spec (data : List UInt8) (pos : Nat) : Oks (hash4 data pos) (· < HASH_SIZE) := by
  unfold hash4
  split
  · exact .ok (by decide)
  · refine Oks.bind (word_ok (by omega)) fun v _ => ?_
    refine .pure ?_
    have : mulHash v 16 &&& (HASH_SIZE - 1) ≤ HASH_SIZE - 1 := Nat.and_le_right
    unfold HASH_SIZE at *; omega

theorem hash4Ht_spec (data : List UInt8) (pos : Nat) : Oks (hash4Ht data pos) (· < HT_HASH_SIZE) := by
  unfold hash4Ht
  split
  · exact .ok (by decide)
  · refine Oks.bind (word_ok (by omega)) fun v _ => ?_
    refine .pure ?_
    have : mulHash v (32 - 15) &&& (HT_HASH_SIZE - 1) ≤ HT_HASH_SIZE - 1 := Nat.and_le_right
    unfold HT_HASH_SIZE at *; omega

theorem hash3_spec (data : List UInt8) (pos : Nat) : Oks (hash3 data pos) (· < HASH3_SIZE) := by
  unfold hash3
  split
  · exact .ok (by decide)
  · refine Oks.bind (get_ok (by omega)) fun a _ => ?_
    refine Oks.bind (get_ok (by omega)) fun b _ => ?_
    refine Oks.bind (get_ok (by omega)) fun c _ => ?_
    refine .pure ?_
    have : mulHash (le32 a b c 0) 17 &&& (HASH3_SIZE - 1) ≤ HASH3_SIZE - 1 := Nat.and_le_right
    unfold HASH3_SIZE at *; omega

/-! ### Runs -/

/-- `len` bytes equal to `byte` from `pos` on. -/
def Run (data : List UInt8) (pos : Nat) (byte : UInt8) (len : Nat) : Prop :=
  ∀ i, i < len → data[pos + i]? = some byte

theorem Run.snoc {data pos byte len} (h : Run data pos byte len) (hb : data[pos + len]? = some byte) :
    Run data pos byte (len + 1) := by
  intro i hi
  by_cases h1 : i < len
  · exact h i h1
  · obtain rfl : i = len := by omega
    exact hb

theorem runChunk_spec (data : List UInt8) (pos : Nat) (byte : UInt8) (maxRun len : Nat) (chunk : List UInt8)
    (hc : ∀ i, i < chunk.length → data[pos + len + i]? = chunk[i]?)
    (hr : Run data pos byte len) (hl : len ≤ maxRun) :
    Run data pos byte (runChunk byte maxRun chunk len) ∧ runChunk byte maxRun chunk len ≤ maxRun ∧
      (runChunk byte maxRun chunk len = maxRun ∨ data[pos + runChunk byte maxRun chunk len]? ≠ some byte ∨
        chunk.all (· == byte) = true) := by
  induction chunk generalizing len with
  | nil => exact ⟨hr, hl, Or.inr (Or.inr rfl)⟩
  | cons b bs ih =>
    rw [runChunk]
    split
    · rename_i h
      have hall : (b :: bs).all (· == byte) = bs.all (· == byte) := by rw [List.all_cons, h.1]; simp
      rw [hall]
      apply ih
      · intro i hi
        have := hc (i + 1) (by simpa using hi)
        rw [List.getElem?_cons_succ] at this
        rw [← this]; congr 1; omega
      · apply hr.snoc
        have := hc 0 (by simp)
        rw [h.1] at this
        simpa using this
      · omega
    · rename_i h
      refine ⟨hr, hl, ?_⟩
      by_cases hb : b = byte
      · exact Or.inl (by have : ¬ len < maxRun := fun hlt => h ⟨hb, hlt⟩; omega)
      · refine Or.inr (Or.inl ?_)
        have := hc 0 (by simp)
        rw [Nat.add_zero] at this
        rw [this]
        simpa using hb

theorem runBlocks_spec (data : List UInt8) (pos : Nat) (byte : UInt8) (maxRun : Nat) (fuel len : Nat)
    (hm : pos + maxRun ≤ data.length) (hr : Run data pos byte len) (hl : len ≤ maxRun)
    (hf : maxRun + 1 ≤ fuel + len) :
    Oks (runBlocks data pos byte maxRun fuel len) (fun r => Run data pos byte r.1 ∧ r.1 ≤ maxRun ∧
      (r.2 = true → r.1 = maxRun ∨ data[pos + r.1]? ≠ some byte)) := by
  induction fuel generalizing len with
  | zero => omega
  | succ fuel ih =>
    rw [runBlocks]
    split
    · rename_i h
      rw [slice_ok (by omega), ok_bind]
      split
      · rename_i hall
        apply ih
        · intro i hi
          by_cases h1 : i < len
          · exact hr i h1
          · rw [List.all_eq_true] at hall
            have hlt : i - len < ((data.drop (pos + len)).take 8).length := by
              rw [List.length_take, List.length_drop]; omega
            have h2 := hall _ (List.getElem_mem hlt)
            have h3 : ((data.drop (pos + len)).take 8)[i - len]? = data[pos + i]? := by
              rw [slice_get _ _ _ _ (by omega)]; congr 1; omega
            rw [← h3, List.getElem?_eq_getElem hlt]
            exact congrArg some (eq_of_beq h2)
        · exact h
        · omega
      · rename_i hall
        refine .ok ?_
        obtain ⟨h1, h2, h3⟩ := runChunk_spec data pos byte maxRun len ((data.drop (pos + len)).take 8) (by
          intro i hi
          rw [slice_get]
          rw [List.length_take] at hi; omega) hr hl
        refine ⟨h1, h2, fun _ => ?_⟩
        rcases h3 with h3 | h3 | h3
        · exact Or.inl h3
        · exact Or.inr h3
        · exact absurd h3 hall
    · exact .ok ⟨hr, hl, fun h => by cases h⟩

theorem runBytes_spec (data : List UInt8) (pos : Nat) (byte : UInt8) (maxRun : Nat) (fuel len : Nat)
    (hm : pos + maxRun ≤ data.length) (hr : Run data pos byte len) (hl : len ≤ maxRun)
    (hf : maxRun + 1 ≤ fuel + len) :
    Oks (runBytes data pos byte maxRun fuel len) (fun r => Run data pos byte r ∧ r ≤ maxRun ∧
      (r = maxRun ∨ data[pos + r]? ≠ some byte)) := by
  induction fuel generalizing len with
  | zero => omega
  | succ fuel ih =>
    rw [runBytes]
    split
    · refine Oks.bind (get_ok (by omega)) fun b hb => ?_
      split
      · rename_i h
        subst h
        exact ih _ (hr.snoc hb) (by omega) (by omega)
      · rename_i h
        refine .ok ⟨hr, hl, Or.inr ?_⟩
        rw [hb]
        simpa using h
    · exact .ok ⟨hr, hl, Or.inl (by omega)⟩

theorem detectRun_full (data : List UInt8) (pos : Nat) (hp : pos < data.length) :
    Oks (detectRun data pos) (fun r => Run data pos data[pos] r ∧ r ≤ 258 ∧ pos + r ≤ data.length ∧
      (r = 258 ∨ pos + r = data.length ∨ data[pos + r]? ≠ some data[pos])) := by
  have one : Run data pos data[pos] 1 := by
    intro i hi
    obtain rfl : i = 0 := by omega
    rw [Nat.add_zero, List.getElem?_eq_getElem hp]
  unfold detectRun
  rw [if_neg (by omega)]
  split
  · exact .ok ⟨one, by omega, by omega, Or.inr (Or.inl (by omega))⟩
  · refine Oks.bind (get_ok hp) fun byte hbyte => ?_
    rw [List.getElem?_eq_getElem hp] at hbyte
    obtain rfl := Option.some.inj hbyte
    simp only []
    refine Oks.bind (get_ok (by omega)) fun next hnext => ?_
    split
    · rename_i hne
      refine .ok ⟨one, by omega, by omega, Or.inr (Or.inr ?_)⟩
      rw [hnext]
      simpa using hne
    · rename_i heq
      have heq : next = data[pos] := by simpa using heq
      have hm : min (data.length - pos) MAX_MATCH_LENGTH ≤ 258 := Nat.min_le_right _ _
      have hm2 : min (data.length - pos) MAX_MATCH_LENGTH ≤ data.length - pos := Nat.min_le_left _ _
      have hm3 : 2 ≤ min (data.length - pos) MAX_MATCH_LENGTH := by unfold MAX_MATCH_LENGTH; omega
      have hm4 : min (data.length - pos) MAX_MATCH_LENGTH = 258 ∨
          pos + min (data.length - pos) MAX_MATCH_LENGTH = data.length := by unfold MAX_MATCH_LENGTH; omega
      generalize min (data.length - pos) MAX_MATCH_LENGTH = mx at *
      have two : Run data pos data[pos] 2 := one.snoc (by rw [hnext, heq])
      refine Oks.bind (runBlocks_spec data pos data[pos] mx (mx + 1) 2 (by omega) two (by omega) (by omega)) ?_
      rintro ⟨len, done⟩ h
      simp only [] at h ⊢
      have ends : ∀ r, (r = mx ∨ data[pos + r]? ≠ some data[pos]) →
          r = 258 ∨ pos + r = data.length ∨ data[pos + r]? ≠ some data[pos] := by
        rintro r (rfl | hr)
        · rcases hm4 with hm4 | hm4
          · exact Or.inl hm4
          · exact Or.inr (Or.inl hm4)
        · exact Or.inr (Or.inr hr)
      split
      · rename_i hd
        exact .ok ⟨h.1, by omega, by omega, ends _ (h.2.2 hd)⟩
      · refine Oks.mono (runBytes_spec data pos data[pos] mx (mx + 1) len (by omega) h.1 h.2.1 (by omega)) ?_
        intro r hr
        exact ⟨hr.1, by omega, by omega, ends r hr.2.2⟩

theorem detectRun_spec (data : List UInt8) (pos : Nat) (hp : pos < data.length) :
    Oks (detectRun data pos) (fun r => Run data pos data[pos] r ∧ r ≤ 258 ∧ pos + r ≤ data.length) :=
  (detectRun_full data pos hp).mono fun _ h => ⟨h.1, h.2.1, h.2.2.1⟩

theorem valid_run {data : List UInt8} {pos len : Nat} (hp : pos < data.length) (h1 : 1 ≤ pos) (h3 : 3 ≤ len)
    (h258 : len ≤ 258) (hfit : pos + len ≤ data.length) (hr : Run data pos data[pos] len)
    (hprev : data[pos - 1]? = data[pos]?) : Valid data pos len 1 := by
  refine ⟨h3, h258, hfit, by omega, by omega, h1, ?_⟩
  intro i hi
  rw [hr i hi]
  cases i with
  | zero => rw [Nat.add_zero, hprev, List.getElem?_eq_getElem hp]
  | succ i =>
    rw [show pos - 1 + (i + 1) = pos + i by omega]
    exact hr i (by omega)

theorem continuesRun_spec {data : List UInt8} {pos minLen runLen : Nat} (hp : pos < data.length) :
    Oks (continuesRun data pos minLen runLen) (fun b => b = true →
      minLen ≤ runLen ∧ 1 ≤ pos ∧ data[pos - 1]? = data[pos]?) := by
  unfold continuesRun
  split
  · rename_i h
    refine Oks.bind (get_ok (by omega)) fun a ha => ?_
    refine Oks.bind (get_ok hp) fun b hb => ?_
    refine .pure fun hab => ⟨h.1, h.2, ?_⟩
    rw [ha, hb, eq_of_beq hab]
  · exact .ok (fun h => by cases h)

/-! ### The match finders -/

theorem matchLen_full (lv : Simd.Level) (data : List UInt8) (p1 p2 : Nat) (h : p1 ≤ p2) (h2 : p2 ≤ data.length) :
    Oks (matchLen lv data p1 p2) (fun l => l ≤ 258 ∧ p2 + l ≤ data.length ∧ Prefix data p1 p2 l ∧
      (l = 258 ∨ p2 + l = data.length ∨ data[p1 + l]? ≠ data[p2 + l]?)) := by
  unfold matchLen
  refine Oks.bind (subUsize_spec h2) ?_
  rintro _ rfl
  refine Oks.mono (matchLength_spec lv data p1 p2 _ ?_ ?_) ?_
  · have : min (data.length - p2) MAX_MATCH_LENGTH ≤ data.length - p2 := Nat.min_le_left _ _
    omega
  · have : min (data.length - p2) MAX_MATCH_LENGTH ≤ data.length - p2 := Nat.min_le_left _ _
    omega
  · intro l hl
    have h3 : min (data.length - p2) MAX_MATCH_LENGTH ≤ data.length - p2 := Nat.min_le_left _ _
    have h4 : min (data.length - p2) MAX_MATCH_LENGTH ≤ 258 := Nat.min_le_right _ _
    have := hl.1
    refine ⟨by omega, by omega, hl.2.1, ?_⟩
    by_cases hlt : l < min (data.length - p2) MAX_MATCH_LENGTH
    · exact Or.inr (Or.inr (hl.2.2 hlt))
    · unfold MAX_MATCH_LENGTH at *; omega

theorem matchLen_spec (lv : Simd.Level) (data : List UInt8) (p1 p2 : Nat) (h : p1 ≤ p2) (h2 : p2 ≤ data.length) :
    Oks (matchLen lv data p1 p2) (fun l => l ≤ 258 ∧ p2 + l ≤ data.length ∧ Prefix data p1 p2 l) :=
  (matchLen_full lv data p1 p2 h h2).mono fun _ h => ⟨h.1, h.2.1, h.2.2.1⟩

theorem same3_spec {data : List UInt8} {p q : Nat} (hp : p + 3 ≤ data.length) (hq : q + 3 ≤ data.length) :
    Oks (same3 data p q) (fun b => b = true → Prefix data q p 3) := by
  unfold same3
  rw [slice_ok hp, ok_bind, slice_ok hq, ok_bind]
  refine .pure fun h => ?_
  have h := eq_of_beq h
  intro i hi
  rw [← slice_get data q 3 i hi, ← slice_get data p 3 i hi, h]

theorem valid_match {data : List UInt8} {pos matchPos len : Nat} (hlt : matchPos < pos)
    (hd : pos - matchPos ≤ 32768) (h3 : 3 ≤ len) (hl : len ≤ 258) (hf : pos + len ≤ data.length)
    (hp : Prefix data matchPos pos len) : Valid data pos len (pos - matchPos) :=
  ⟨h3, hl, hf, by omega, hd, by omega, by rwa [show pos - (pos - matchPos) = matchPos by omega]⟩

/-- A match that cannot be made longer, and is not three bytes from far away. -/
def Stops (data : List UInt8) (pos len dist : Nat) : Prop :=
  (len = 258 ∨ pos + len = data.length ∨ data[pos + len - dist]? ≠ data[pos + len]?) ∧ ¬ (len = 3 ∧ 8192 < dist)

/-- What the match finders return. -/
structure Full (data : List UInt8) (pos len dist : Nat) : Prop where
  valid : Valid data pos len dist
  stops : Stops data pos len dist

theorem full_run {data : List UInt8} {pos len : Nat} (hp : pos < data.length) (h1 : 1 ≤ pos) (h3 : 3 ≤ len)
    (hr : Run data pos data[pos] len ∧ len ≤ 258 ∧ pos + len ≤ data.length ∧
      (len = 258 ∨ pos + len = data.length ∨ data[pos + len]? ≠ some data[pos]))
    (hprev : data[pos - 1]? = data[pos]?) : Full data pos len 1 := by
  refine ⟨valid_run hp h1 h3 hr.2.1 hr.2.2.1 hr.1 hprev, ?_, by omega⟩
  rcases hr.2.2.2 with h | h | h
  · exact Or.inl h
  · exact Or.inr (Or.inl h)
  · refine Or.inr (Or.inr ?_)
    rw [show pos + len - 1 = pos + (len - 1) by omega, hr.1 (len - 1) (by omega)]
    exact fun e => h e.symm

theorem full_match {data : List UInt8} {pos matchPos len : Nat} (hlt : matchPos < pos)
    (hd : pos - matchPos ≤ 32768) (h3 : 3 ≤ len)
    (hl : len ≤ 258 ∧ pos + len ≤ data.length ∧ Prefix data matchPos pos len ∧
      (len = 258 ∨ pos + len = data.length ∨ data[matchPos + len]? ≠ data[pos + len]?))
    (hfar : ¬ (len = 3 ∧ 8192 < pos - matchPos)) : Full data pos len (pos - matchPos) := by
  refine ⟨valid_match hlt hd h3 hl.1 hl.2.1 hl.2.2.1, ?_, hfar⟩
  rw [show pos + len - (pos - matchPos) = matchPos + len by omega]
  exact hl.2.2.2

/-- The best match so far: valid as soon as it is long enough to be used. -/
def Best (data : List UInt8) (pos minLen : Nat) (best : Nat × Nat) : Prop :=
  minLen ≤ best.1 → Full data pos best.1 best.2

theorem better_min {minLen len dist : Nat} {best : Nat × Nat} (h : better minLen len dist best = true) :
    minLen ≤ len := by
  unfold better at h
  simp only [Bool.and_eq_true, decide_eq_true_eq] at h
  exact h.1.1

theorem better_near {minLen len dist : Nat} {best : Nat × Nat} (h : better minLen len dist best = true) :
    ¬ (len = 3 ∧ 8192 < dist) := by
  unfold better at h
  simp only [Bool.and_eq_true, Bool.not_eq_true', Bool.and_eq_false_iff, decide_eq_false_iff_not] at h
  omega

theorem toNat_le {c : Int} {b : Nat} (h : c ≤ (b : Int)) : c.toNat ≤ b := by omega

theorem probe3_spec (lv : Simd.Level) {st : State} {data : List UInt8} {pos nice minLen : Nat} {best : Nat × Nat}
    (hw : WF st pos) (hp : pos + 3 ≤ data.length) (hm : 3 ≤ minLen) (hb : Best data pos minLen best) :
    Oks (probe3 lv st data pos nice minLen best) (fun r => Best data pos minLen r.1 ∧
      (r.2 = true → minLen ≤ r.1.1)) := by
  unfold probe3
  refine Oks.bind (hash3_spec data pos) fun h hh => ?_
  refine Oks.bind (Tab.get_spec hw.sHead3 hh hw.head3) fun cand hc => ?_
  have keep : Oks (.ok (best, false) : R ((Nat × Nat) × Bool)) (fun r => Best data pos minLen r.1 ∧
      (r.2 = true → minLen ≤ r.1.1)) := .ok ⟨hb, fun h => by cases h⟩
  split
  · simp only []
    have hle := toNat_le hc
    refine Oks.bind (subUsize_spec hle) ?_
    rintro _ rfl
    split
    · exact keep
    · split
      · rename_i h0 h1
        refine Oks.bind (same3_spec hp h1.2) fun same hs => ?_
        split
        · refine Oks.bind (matchLen_full lv data cand.toNat pos hle (by omega)) fun l hl => ?_
          have hmin : min l MAX_MATCH_LENGTH = l := Nat.min_eq_left hl.1
          rw [hmin]
          split
          · rename_i hbet
            have hnear := better_near hbet
            have hbet := better_min hbet
            refine .ok ⟨fun _ => ?_, fun _ => hbet⟩
            exact full_match (by omega) h1.1 (by simp only []; omega) hl hnear
          · exact keep
        · exact keep
      · exact keep
  · exact keep

theorem chainLoop_spec {S : Type} {P : S → Prop} {prev : Tab} {step : Nat → S → R (S × Bool)} {pos : Nat}
    (hs : prev.size = MAX_DISTANCE) (hv : prev.Le pos)
    (hstep : ∀ m s, m ≤ pos → P s → Oks (step m s) (fun r => P r.1)) (n : Nat) (c : Int) (s : S)
    (hc : c ≤ (pos : Int)) (hP : P s) : Oks (chainLoop prev step n c s) P := by
  induction n generalizing c s with
  | zero => exact .ok hP
  | succ n ih =>
    rw [chainLoop]
    split
    · refine Oks.bind (hstep _ s (toNat_le hc) hP) ?_
      rintro ⟨s, stop⟩ hs'
      simp only [] at hs' ⊢
      split
      · exact .ok hs'
      · refine Oks.bind (Tab.get_spec hs (Nat.mod_lt _ (by decide)) hv) fun next hn => ?_
        exact ih next s hn hs'
    · exact .ok hP

theorem prefixDiffers_ok (data : List UInt8) (p q : Nat) : Oks (prefixDiffers data p q) (fun _ => True) := by
  unfold prefixDiffers
  split
  · refine Oks.bind (word_ok (by omega)) fun _ _ => ?_
    refine Oks.bind (word_ok (by omega)) fun _ _ => ?_
    exact .pure trivial
  · exact .ok trivial

theorem chainStep_spec (lv : Simd.Level) {data : List UInt8} {pos nice minLen m : Nat} {best : Nat × Nat}
    (hp : pos + 3 ≤ data.length) (hm : 3 ≤ minLen) (hle : m ≤ pos) (hb : Best data pos minLen best) :
    Oks (chainStep lv data pos nice minLen m best) (fun r => Best data pos minLen r.1) := by
  unfold chainStep
  refine Oks.bind (subUsize_spec hle) ?_
  rintro _ rfl
  split
  · exact .ok hb
  · split
    · exact .ok hb
    · rename_i h0 h1
      refine Oks.bind (prefixDiffers_ok data pos m) fun skip _ => ?_
      split
      · exact .ok hb
      · refine Oks.bind (matchLen_full lv data m pos hle (by omega)) fun l hl => ?_
        split
        · rename_i hbet
          have hnear := better_near hbet
          have hbet := better_min hbet
          have h2 : min pos MAX_DISTANCE ≤ 32768 := Nat.min_le_right _ _
          exact .ok fun _ => full_match (by omega) (by omega) (by simp only []; omega) hl hnear
        · exact .ok hb

/-- The result of a match finder. -/
def Found (data : List UInt8) (pos : Nat) (m : Option (Nat × Nat)) : Prop :=
  ∀ l d, m = some (l, d) → Full data pos l d

theorem searchChain_spec (lv : Simd.Level) {st : State} {data : List UInt8} {pos limit nice minLen : Nat}
    {best : Nat × Nat} (hw : WF st pos) (hp : pos + 3 ≤ data.length) (hm : 3 ≤ minLen)
    (hb : Best data pos minLen best) :
    Oks (searchChain lv st data pos limit nice minLen best) (Found data pos) := by
  unfold searchChain
  refine Oks.bind (hash4_spec data pos) fun h hh => ?_
  refine Oks.bind (Tab.get_spec hw.sHead hh hw.head) fun first hf => ?_
  refine Oks.bind (chainLoop_spec (P := Best data pos minLen) hw.sPrev hw.prev
    (fun m s hm' hs => chainStep_spec lv hp hm hm' hs) limit first best hf hb) fun best hb => ?_
  split
  · rename_i h
    refine .ok ?_
    rintro l d e
    cases e
    exact hb h
  · exact .ok (fun l d e => by cases e)

theorem searchFrom_spec (lv : Simd.Level) {st : State} {data : List UInt8} {pos limit nice minLen : Nat}
    {best : Nat × Nat} (hw : WF st pos) (hp : pos + 3 ≤ data.length) (hm : 3 ≤ minLen)
    (hb : Best data pos minLen best) :
    Oks (searchFrom lv st data pos limit nice minLen best) (Found data pos) := by
  unfold searchFrom
  refine Oks.bind (probe3_spec lv hw hp hm hb) ?_
  rintro ⟨best, now⟩ hb
  simp only [] at hb ⊢
  split
  · rename_i hn
    refine .ok ?_
    rintro l d e
    cases e
    exact hb.1 (hb.2 hn)
  · exact searchChain_spec lv hw hp hm hb.1

theorem findBestMatch_spec (lv : Simd.Level) {st : State} {data : List UInt8} {pos limit nice minLen : Nat}
    (hw : WF st pos) (hm : 3 ≤ minLen) :
    Oks (findBestMatch lv st data pos limit nice minLen) (Found data pos) := by
  unfold findBestMatch
  split
  · exact .ok (fun l d e => by cases e)
  · rename_i h
    have hp : pos + 3 ≤ data.length := by unfold MIN_MATCH_LENGTH at h; omega
    refine Oks.bind (detectRun_full data pos (by omega)) fun run hr => ?_
    refine Oks.bind (continuesRun_spec (by omega)) fun b hb => ?_
    split
    · rename_i h1
      have hb := hb h1
      have hv := full_run (by omega) hb.2.1 (by omega) hr hb.2.2
      split
      · rw [show min run MAX_MATCH_LENGTH = run from Nat.min_eq_left hr.2.1]
        refine .ok ?_
        rintro l d e
        cases e
        exact hv
      · exact searchFrom_spec lv hw hp hm (fun _ => hv)
    · refine searchFrom_spec lv hw hp hm (fun h => ?_)
      simp only [] at h; omega

theorem htStep_spec (lv : Simd.Level) {data : List UInt8} {pos nice minLen : Nat} {cand : Int} {best : Nat × Nat}
    (hp : pos + 3 ≤ data.length) (hm : 3 ≤ minLen) (hc : cand ≤ (pos : Int)) (hb : Best data pos minLen best) :
    Oks (htStep lv data pos nice minLen cand best) (fun r => Best data pos minLen r.1) := by
  unfold htStep
  split
  · exact .ok hb
  · simp only []
    have hle := toNat_le hc
    refine Oks.bind (subUsize_spec hle) ?_
    rintro _ rfl
    split
    · exact .ok hb
    · rename_i h
      have h1 : cand.toNat < pos := by omega
      have h2 : pos - cand.toNat ≤ 32768 := by unfold MAX_DISTANCE at h; omega
      refine Oks.bind (same3_spec hp (by omega)) fun same hs => ?_
      split
      · refine Oks.bind (matchLen_full lv data cand.toNat pos hle (by omega)) fun l hl => ?_
        have hmin : min l MAX_MATCH_LENGTH = l := Nat.min_eq_left hl.1
        rw [hmin]
        split
        · exact .ok hb
        · rename_i hbet
          split
          · refine .ok fun _ => ?_
            exact full_match h1 h2 (by simp only []; omega) hl (by simp only []; omega)
          · exact .ok hb
      · exact .ok hb

theorem htLoop_spec (lv : Simd.Level) {data : List UInt8} {pos nice minLen : Nat}
    (hp : pos + 3 ≤ data.length) (hm : 3 ≤ minLen) (cands : List Int) (hc : ∀ c ∈ cands, c ≤ (pos : Int))
    (best : Nat × Nat) (hb : Best data pos minLen best) :
    Oks (htLoop lv data pos nice minLen cands best) (Best data pos minLen) := by
  induction cands generalizing best with
  | nil => exact .ok hb
  | cons c cs ih =>
    rw [htLoop]
    refine Oks.bind (htStep_spec lv hp hm (hc c (by simp)) hb) ?_
    rintro ⟨best, stop⟩ hb
    simp only [] at hb ⊢
    split
    · exact .ok hb
    · exact ih (fun c h => hc c (by simp [h])) best hb

theorem findBestMatchHt_spec (lv : Simd.Level) {st : State} {data : List UInt8} {pos nice minLen : Nat}
    (hw : WF st pos) (hm : 3 ≤ minLen) :
    Oks (findBestMatchHt lv st data pos nice minLen) (fun r => Found data pos r.1 ∧ WF r.2 pos ∧
      r.2.config = st.config) := by
  unfold findBestMatchHt
  split
  · exact .ok ⟨(fun l d e => by cases e), hw, rfl⟩
  · rename_i h
    have hp : pos + 3 ≤ data.length := by unfold MIN_MATCH_LENGTH at h; omega
    refine Oks.bind (hash4Ht_spec data pos) fun h hh => ?_
    refine Oks.bind (Tab.get_spec hw.sHt0 hh hw.ht0) fun c0 hc0 => ?_
    refine Oks.bind (Tab.get_spec hw.sHt1 hh hw.ht1) fun c1 hc1 => ?_
    refine Oks.bind (Tab.set_spec hw.sHt1 hh hw.ht1 hc0) fun t1 ht1 => ?_
    refine Oks.bind (Tab.set_spec hw.sHt0 hh hw.ht0 (asI32_le pos)) fun t0 ht0 => ?_
    simp only []
    have hw' : WF { st with ht0 := t0, ht1 := t1 } pos :=
      ⟨hw.sHead, hw.sHead3, ht0.1, ht1.1, hw.sPrev, hw.head, hw.head3, ht0.2, ht1.2, hw.prev⟩
    refine Oks.bind (htLoop_spec lv hp hm [c0, c1] ?_ (minLen - 1, 0) ?_) fun best hb => ?_
    · intro c hc
      simp only [List.mem_cons, List.not_mem_nil, or_false] at hc
      rcases hc with rfl | rfl
      · exact hc0
      · exact hc1
    · intro h; simp only [] at h; omega
    · split
      · rename_i hge
        refine .ok ⟨?_, hw', rfl⟩
        rintro l d e
        cases e
        exact hb hge
      · exact .ok ⟨(fun l d e => by cases e), hw', rfl⟩

theorem findMatch_spec (lv : Simd.Level) {st : State} {data : List UInt8} {pos limit minLen : Nat}
    (hw : WF st pos) (hm : 3 ≤ minLen) :
    Oks (findMatch lv st data pos limit minLen) (fun r => Found data pos r.1 ∧ WF r.2 pos ∧
      r.2.config = st.config) := by
  unfold findMatch
  split
  · exact findBestMatchHt_spec lv hw hm
  · refine Oks.bind (findBestMatch_spec lv hw hm) fun m hm => ?_
    exact .pure ⟨hm, hw, rfl⟩

/-! ### Table updates -/

theorem updateHash_spec {st : State} {data : List UInt8} {pos b : Nat} (hw : WF st b) (hb : pos ≤ b) :
    Oks (updateHash st data pos) (fun st' => WF st' b ∧ st'.config = st.config) := by
  unfold updateHash
  split
  · exact .ok ⟨hw, rfl⟩
  · have hv : asI32 pos ≤ (b : Int) := by have := asI32_le pos; omega
    refine Oks.bind (hash3_spec data pos) fun h3 hh3 => ?_
    refine Oks.bind (Tab.set_spec hw.sHead3 hh3 hw.head3 hv) fun t3 ht3 => ?_
    refine Oks.bind (hash4_spec data pos) fun h4 hh4 => ?_
    refine Oks.bind (Tab.get_spec hw.sHead hh4 hw.head) fun old hold => ?_
    refine Oks.bind (Tab.set_spec hw.sPrev (Nat.mod_lt _ (by decide)) hw.prev hold) fun tp htp => ?_
    refine Oks.bind (Tab.set_spec hw.sHead hh4 hw.head hv) fun th hth => ?_
    exact .pure ⟨⟨hth.1, ht3.1, hw.sHt0, hw.sHt1, htp.1, hth.2, ht3.2, hw.ht0, hw.ht1, htp.2⟩, rfl⟩

theorem updateRange_spec {st : State} {data : List UInt8} {pos b n : Nat} (hw : WF st b) (hb : pos + n ≤ b) :
    Oks (updateRange st data pos n) (fun st' => WF st' b ∧ st'.config = st.config) := by
  induction n with
  | zero => exact .ok ⟨hw, rfl⟩
  | succ n ih =>
    rw [updateRange]
    refine Oks.bind (ih (by omega)) fun st1 h1 => ?_
    refine Oks.mono (updateHash_spec h1.1 (by omega)) fun st2 h2 => ?_
    exact ⟨h2.1, h2.2.trans h1.2⟩

theorem updateMatch_spec {st : State} {data : List UInt8} {pos len dist b : Nat} (hw : WF st b)
    (hb : pos + len ≤ b) : Oks (updateMatch st data pos len dist) (fun st' => WF st' b ∧ st'.config = st.config) := by
  unfold updateMatch
  split
  · refine Oks.bind (updateHash_spec hw (by omega)) fun st1 h1 => ?_
    split
    · refine Oks.mono (updateHash_spec h1.1 (by omega)) fun st2 h2 => ?_
      exact ⟨h2.1, h2.2.trans h1.2⟩
    · exact .ok h1
  · exact updateRange_spec hw hb

/-! ### Expansion -/

/-- The token as RFC 1951 sees it. -/
def Token.spec : Token → Spec.Rfc1951.Token
  | .lit b => .lit b
  | .mtch l d => .copy l d

open Spec.Rfc1951 (expandFrom expand copyBytes)

theorem expandFrom_append (out : List UInt8) (a b : List Spec.Rfc1951.Token) :
    expandFrom out (a ++ b) = (expandFrom out a).bind (fun o => expandFrom o b) := by
  induction a generalizing out with
  | nil => rfl
  | cons t a ih =>
    cases t with
    | lit c => rw [List.cons_append, expandFrom, expandFrom, ih]
    | copy l d =>
      rw [List.cons_append, expandFrom, expandFrom]
      cases copyBytes l d out with
      | none => rfl
      | some o => exact ih o

theorem copyBytes_take {data : List UInt8} {dist : Nat} (n pos : Nat) (h1 : 1 ≤ dist) (hd : dist ≤ pos)
    (hf : pos + n ≤ data.length) (hs : Prefix data (pos - dist) pos n) :
    copyBytes n dist (data.take pos) = some (data.take (pos + n)) := by
  induction n generalizing pos with
  | zero => rfl
  | succ n ih =>
    have hlen : (data.take pos).length = pos := by rw [List.length_take]; omega
    rw [copyBytes, hlen, if_pos ⟨h1, hd⟩, List.getElem?_take, if_pos (by omega)]
    have h0 := hs 0 (by omega)
    rw [Nat.add_zero, Nat.add_zero] at h0
    have hp : pos < data.length := by omega
    rw [h0, List.getElem?_eq_getElem hp]
    simp only []
    rw [← List.take_succ_eq_append_getElem hp, ih (pos + 1) (by omega) (by omega)]
    · congr 2; omega
    · intro i hi
      have := hs (i + 1) (by omega)
      rw [show pos + 1 - dist + i = pos - dist + (i + 1) by omega, this]
      congr 1; omega

/-- The tokens denote the first `pos` bytes of the data, and are within DEFLATE's limits. -/
structure Sound (data : List UInt8) (out : List Token) (pos : Nat) : Prop where
  expands : expand (out.map Token.spec) = some (data.take pos)
  limits : ∀ l d, Token.mtch l d ∈ out → 3 ≤ l ∧ l ≤ 258 ∧ 1 ≤ d ∧ d ≤ 32768
  count : out.length ≤ pos

theorem Sound.nil (data : List UInt8) : Sound data [] 0 :=
  ⟨by simp [expand, expandFrom], by simp, by simp⟩

theorem Sound.lit {data : List UInt8} {out : List Token} {pos : Nat} {b : UInt8} (h : Sound data out pos)
    (hb : data[pos]? = some b) : Sound data (out ++ [.lit b]) (pos + 1) := by
  have hp : pos < data.length := by
    rw [List.getElem?_eq_some_iff] at hb; exact hb.1
  refine ⟨?_, ?_, by have := h.count; simp; omega⟩
  · rw [List.map_append, expand, expandFrom_append]
    have := h.expands
    rw [expand] at this
    rw [this]
    rw [List.getElem?_eq_getElem hp] at hb
    simp only [List.map_cons, List.map_nil, Token.spec, Option.bind_some, expandFrom]
    rw [List.take_succ_eq_append_getElem hp, Option.some.inj hb]
  · intro l d hm
    simp only [List.mem_append, List.mem_cons, List.not_mem_nil, or_false] at hm
    rcases hm with hm | hm
    · exact h.limits l d hm
    · cases hm

theorem Sound.mtch {data : List UInt8} {out : List Token} {pos l d : Nat} (h : Sound data out pos)
    (hv : Valid data pos l d) : Sound data (out ++ [.mtch l d]) (pos + l) := by
  refine ⟨?_, ?_, by have := h.count; have := hv.min; simp; omega⟩
  · rw [List.map_append, expand, expandFrom_append]
    have := h.expands
    rw [expand] at this
    rw [this]
    simp only [List.map_cons, List.map_nil, Token.spec, Option.bind_some, expandFrom]
    rw [copyBytes_take l pos hv.near hv.back hv.fits hv.same]
  · intro l' d' hm
    simp only [List.mem_append, List.mem_cons, List.not_mem_nil, or_false] at hm
    rcases hm with hm | hm
    · exact h.limits _ _ hm
    · cases hm; exact ⟨hv.min, hv.max, hv.near, hv.far⟩

theorem asU16_len {data : List UInt8} {pos l d : Nat} (hv : Valid data pos l d) : asU16 l = l :=
  Nat.mod_eq_of_lt (by have := hv.max; omega)

theorem asU16_dist {data : List UInt8} {pos l d : Nat} (hv : Valid data pos l d) : asU16 d = d :=
  Nat.mod_eq_of_lt (by have := hv.far; omega)

/-! ### Matches as long as possible -/

/-- Bytes a token stands for. -/
def Token.span : Token → Nat
  | .lit _ => 1
  | .mtch l _ => l

/-- The tokens stand for `pos` bytes, and no match among them can be made longer. -/
structure Maxed (data : List UInt8) (out : List Token) (pos : Nat) : Prop where
  total : (out.map Token.span).sum = pos
  stops : ∀ before l d after, out = before ++ .mtch l d :: after → Stops data (before.map Token.span).sum l d

theorem Maxed.nil (data : List UInt8) : Maxed data [] 0 := ⟨rfl, fun b l d a e => by simp at e⟩

theorem Maxed.snoc {data : List UInt8} {out : List Token} {pos : Nat} {t : Token} (h : Maxed data out pos)
    (ht : ∀ l d, t = .mtch l d → Stops data pos l d) : Maxed data (out ++ [t]) (pos + t.span) := by
  refine ⟨by simp [h.total], ?_⟩
  intro b l d a e
  rcases List.eq_nil_or_concat a with rfl | ⟨a', x, rfl⟩
  · obtain ⟨e1, e2⟩ := List.append_inj' e rfl
    subst e1
    injection e2 with e2 _
    rw [h.total]
    exact ht l d e2
  · rw [List.concat_eq_append, ← List.cons_append, ← List.append_assoc] at e
    exact h.stops b l d a' (List.append_inj' e rfl).1

theorem Maxed.lit {data : List UInt8} {out : List Token} {pos : Nat} (b : UInt8) (h : Maxed data out pos) :
    Maxed data (out ++ [.lit b]) (pos + 1) := h.snoc (t := .lit b) (fun l d e => by cases e)

theorem Maxed.mtch {data : List UInt8} {out : List Token} {pos l d : Nat} (h : Maxed data out pos)
    (hv : Full data pos l d) : Maxed data (out ++ [.mtch l d]) (pos + l) :=
  h.snoc (t := .mtch l d) (fun l d e => by cases e; exact hv.stops)

/-- Both: what is known of the tokens. -/
structure Good (data : List UInt8) (out : List Token) (pos : Nat) : Prop extends
  Sound data out pos, Maxed data out pos

theorem Good.nil (data : List UInt8) : Good data [] 0 := ⟨Sound.nil data, Maxed.nil data⟩

theorem Good.lit {data : List UInt8} {out : List Token} {pos : Nat} {b : UInt8} (h : Good data out pos)
    (hb : data[pos]? = some b) : Good data (out ++ [.lit b]) (pos + 1) :=
  ⟨h.toSound.lit hb, h.toMaxed.lit b⟩

theorem Good.mtch {data : List UInt8} {out : List Token} {pos l d : Nat} (h : Good data out pos)
    (hv : Full data pos l d) : Good data (out ++ [.mtch l d]) (pos + l) :=
  ⟨h.toSound.mtch hv.valid, h.toMaxed.mtch hv⟩

/-! ### The main loop -/

/-- Loop invariant. -/
structure Inv (data : List UInt8) (s : Loop) : Prop where
  wf : WF s.st s.pos
  le : s.pos ≤ data.length
  sound : Good data s.out s.pos
  pending : ∀ l d, s.pending = some (l, d) → s.incompressible = false ∧ Full data s.pos l d

/-- One iteration: the invariant, and progress. -/
def Next (data : List UInt8) (s s' : Loop) : Prop :=
  Inv data s' ∧ s.pos < s'.pos ∧ s'.st.config = s.st.config

theorem stayLiteral_spec {data : List UInt8} {s : Loop} (h : Inv data s) (hp : s.pos < data.length)
    (hn : s.pending = none) : Oks (stayLiteral data s) (Next data s) := by
  unfold stayLiteral
  refine Oks.bind (get_ok hp) fun b hb => ?_
  simp only []
  split
  · refine Oks.bind (updateHash_spec h.wf (Nat.le_refl _)) fun st hst => ?_
    refine .pure ⟨⟨hst.1.mono (Nat.le_succ _), hp, h.sound.lit hb, ?_⟩, Nat.lt_succ_self _, hst.2⟩
    intro l d e; simp only [hn] at e; cases e
  · refine .ok ⟨⟨h.wf.mono (Nat.le_succ _), hp, h.sound.lit hb, ?_⟩, Nat.lt_succ_self _, rfl⟩
    intro l d e; simp only [hn] at e; cases e

theorem emitMatch_spec {data : List UInt8} {s : Loop} {l d : Nat} (hw : WF s.st (s.pos + l))
    (hs : Good data s.out s.pos) (hv : Full data s.pos l d) (hn : s.pending = none) :
    Oks (emitMatch data s l d) (Next data s) := by
  unfold emitMatch
  refine Oks.bind (updateMatch_spec hw (Nat.le_refl _)) fun st hst => ?_
  rw [asU16_len hv.valid, asU16_dist hv.valid]
  refine .pure ⟨⟨hst.1, hv.valid.fits, hs.mtch hv, ?_⟩, by have := hv.valid.min; simp only []; omega, hst.2⟩
  intro l d e; simp only [hn] at e; cases e

theorem stepIncompressible_spec (lv : Simd.Level) {data : List UInt8} {minLen : Nat} {s : Loop}
    (h : Inv data s) (hp : s.pos < data.length) (hn : s.pending = none) (hm : 3 ≤ minLen) :
    Oks (stepIncompressible lv data minLen s) (Next data s) := by
  unfold stepIncompressible
  split
  · refine Oks.bind (findBestMatch_spec lv h.wf hm) fun m hf => ?_
    split
    · rename_i l d
      have hv := hf l d rfl
      refine Oks.bind (updateMatch_spec (h.wf.mono (Nat.le_add_right _ _)) (Nat.le_refl _)) fun st hst => ?_
      rw [asU16_len hv.valid, asU16_dist hv.valid]
      refine .pure ⟨⟨hst.1, hv.valid.fits, h.sound.mtch hv, ?_⟩, by have := hv.valid.min; simp only []; omega, hst.2⟩
      intro l d e; simp only [hn] at e; cases e
    · exact stayLiteral_spec (s := { s with probe := 0 }) ⟨h.wf, h.le, h.sound, h.pending⟩ hp hn
  · exact stayLiteral_spec h hp hn

theorem lazyMatch_spec (lv : Simd.Level) {data : List UInt8} {minLen chainLimit : Nat} {s : Loop} {l d : Nat}
    (hw : WF s.st s.pos) (hs : Good data s.out s.pos) (hv : Full data s.pos l d) (hn : s.pending = none)
    (hi : s.incompressible = false) (hm : 3 ≤ minLen) :
    Oks (lazyMatch lv data minLen chainLimit s l d) (Next data s) := by
  have hmin := hv.valid.min
  have hfit := hv.valid.fits
  unfold lazyMatch
  refine Oks.bind (updateHash_spec hw (Nat.le_refl _)) fun st hst => ?_
  simp only []
  refine Oks.bind (findMatch_spec lv (hst.1.mono (Nat.le_succ _)) hm) ?_
  rintro ⟨m, st2⟩ ⟨hf, hw2, hc2⟩
  simp only [] at hf hw2 hc2 ⊢
  have hcfg : st2.config = s.st.config := hc2.trans hst.2
  have key : ∀ s2, Next data { s with st := st2 } s2 → Next data s s2 := fun s2 h => ⟨h.1, h.2.1, h.2.2.trans hcfg⟩
  split
  · rename_i nl nd
    split
    · refine Oks.bind (get_ok (by omega)) fun b hb => ?_
      refine .pure ⟨⟨hw2, by simp only []; omega, hs.lit hb, ?_⟩, Nat.lt_succ_self _, hcfg⟩
      intro l d e
      simp only [Option.some.injEq, Prod.mk.injEq] at e
      obtain ⟨rfl, rfl⟩ := e
      exact ⟨hi, hf _ _ rfl⟩
    · exact (emitMatch_spec (s := { s with st := st2 }) (hw2.mono (by simp only []; omega)) hs hv hn).mono key
  · exact (emitMatch_spec (s := { s with st := st2 }) (hw2.mono (by simp only []; omega)) hs hv hn).mono key

theorem haveMatch_spec (lv : Simd.Level) {data : List UInt8} {minLen chainLimit : Nat} {s : Loop} {l d : Nat}
    (hw : WF s.st s.pos) (hs : Good data s.out s.pos) (hv : Full data s.pos l d) (hn : s.pending = none)
    (hm : 3 ≤ minLen) :
    Oks (haveMatch lv data minLen chainLimit s l d) (Next data s) := by
  unfold haveMatch
  simp only []
  rw [if_neg (by have := hv.valid.near; omega)]
  split
  · exact lazyMatch_spec lv (s := { s with streak := 0, incompressible := false, probe := 0 }) hw hs hv hn rfl hm
  · exact emitMatch_spec (s := { s with streak := 0, incompressible := false, probe := 0 })
      (hw.mono (Nat.le_add_right _ _)) hs hv hn

theorem noMatch_spec {data : List UInt8} {s : Loop}
    (hw : WF s.st s.pos) (hs : Good data s.out s.pos) (hp : s.pos < data.length) (hn : s.pending = none) :
    Oks (noMatch data s) (Next data s) := by
  unfold noMatch
  simp only []
  split
  all_goals
    refine Oks.bind (get_ok hp) fun b hb => ?_
    refine Oks.bind (updateHash_spec hw (Nat.le_refl _)) fun st hst => ?_
    refine .pure ⟨⟨hst.1.mono (Nat.le_succ _), hp, hs.lit hb, ?_⟩, Nat.lt_succ_self _, hst.2⟩
    intro l d e; simp only [hn] at e; cases e

theorem currentMatch_spec (lv : Simd.Level) {data : List UInt8} {minLen chainLimit : Nat} {s : Loop}
    (hw : WF s.st s.pos) (hpend : ∀ l d, s.pending = some (l, d) → Full data s.pos l d) (hm : 3 ≤ minLen) :
    Oks (currentMatch lv data minLen chainLimit s) (fun r => Found data s.pos r.1 ∧ WF r.2.st s.pos ∧
      r.2.pos = s.pos ∧ r.2.out = s.out ∧ r.2.pending = none ∧ r.2.st.config = s.st.config) := by
  unfold currentMatch
  split
  · rename_i m hsome
    refine .ok ⟨?_, hw, rfl, rfl, rfl, rfl⟩
    rintro l d e
    cases e
    exact hpend l d hsome
  · rename_i hnone
    refine Oks.bind (findMatch_spec lv hw hm) ?_
    rintro ⟨m, st⟩ ⟨hf, hw2, hc⟩
    exact .pure ⟨hf, hw2, rfl, rfl, hnone, hc⟩

theorem stepNormal_core (lv : Simd.Level) {data : List UInt8} {minLen chainLimit : Nat} {s : Loop}
    (hw : WF s.st s.pos) (hs : Good data s.out s.pos) (hp : s.pos < data.length)
    (hpend : ∀ l d, s.pending = some (l, d) → Full data s.pos l d) (hm : 3 ≤ minLen) :
    Oks (do
      let (m, s) ← currentMatch lv data minLen chainLimit s
      match m with
      | some (length, distance) => haveMatch lv data minLen chainLimit s length distance
      | none => noMatch data s) (Next data s) := by
  refine Oks.bind (currentMatch_spec lv hw hpend hm) ?_
  rintro ⟨m, s1⟩ ⟨hf, hw1, hpos, hout, hnone, hcfg⟩
  simp only [] at hf hw1 hpos hout hnone hcfg ⊢
  rw [← hpos] at hw1
  have key : ∀ s2, Next data s1 s2 → Next data s s2 := fun s2 h => ⟨h.1, by have := h.2.1; omega, h.2.2.trans hcfg⟩
  split
  · rename_i l d
    refine Oks.mono (haveMatch_spec lv hw1 (by rw [hpos, hout]; exact hs) (by rw [hpos]; exact hf l d rfl) hnone hm) key
  · exact Oks.mono (noMatch_spec hw1 (by rw [hpos, hout]; exact hs) (by omega) hnone) key

theorem stepNormal_spec (lv : Simd.Level) {data : List UInt8} {minLen : Nat} {s : Loop}
    (h : Inv data s) (hp : s.pos < data.length) (hm : 3 ≤ minLen) :
    Oks (stepNormal lv data minLen s) (Next data s) := by
  unfold stepNormal
  by_cases hst : s.streak ≥ LITERAL_THRESHOLD
  · rw [if_pos hst]
    exact stepNormal_core lv (s := { s with incompressible := true, probe := 0 }) h.wf h.sound hp
      (fun l d e => (h.pending l d e).2) hm
  · rw [if_neg hst]
    exact stepNormal_core lv h.wf h.sound hp (fun l d e => (h.pending l d e).2) hm

theorem step_spec (lv : Simd.Level) {data : List UInt8} {minLen : Nat} {s : Loop}
    (h : Inv data s) (hp : s.pos < data.length) (hm : 3 ≤ minLen) :
    Oks (step lv data minLen s) (Next data s) := by
  unfold step
  by_cases hi : s.incompressible = true
  · rw [if_pos hi]
    refine stepIncompressible_spec lv h hp ?_ hm
    cases hpend : s.pending with
    | none => rfl
    | some m =>
      have := (h.pending m.1 m.2 hpend).1
      rw [hi] at this; cases this
  · rw [if_neg hi]
    exact stepNormal_spec lv h hp hm

theorem mainLoop_spec (lv : Simd.Level) {data : List UInt8} {minLen : Nat} (hm : 3 ≤ minLen) (fuel : Nat) (s : Loop)
    (h : Inv data s) (hf : data.length + 1 ≤ fuel + s.pos) :
    Oks (mainLoop lv data minLen fuel s) (fun s' => Inv data s' ∧ s'.pos = data.length ∧ s'.st.config = s.st.config) := by
  induction fuel generalizing s with
  | zero => have := h.le; omega
  | succ fuel ih =>
    rw [mainLoop]
    split
    · rename_i hp
      refine Oks.bind (step_spec lv h hp hm) fun s' hs' => ?_
      exact (ih s' hs'.1 (by have := hs'.2.1; omega)).mono fun s2 h2 => ⟨h2.1, h2.2.1, h2.2.2.trans hs'.2.2⟩
    · refine .ok ⟨h, ?_, rfl⟩
      have := h.le; omega

theorem countUsed_ok (l : List UInt8) (used : List Bool) (hu : used.length = 256) (n : Nat) :
    Oks (countUsed l used n) (fun _ => True) := by
  induction l generalizing used n with
  | nil => exact .ok trivial
  | cons b bs ih =>
    have hb := b.toNat_lt
    rw [countUsed]
    refine Oks.bind (get_ok (by omega)) fun u _ => ?_
    split
    · exact ih used hu n
    · unfold setChecked
      rw [if_pos (by omega), ok_bind]
      exact ih _ (by simpa using hu) _

theorem chooseMinMatchLen_ge (a b : Nat) : 3 ≤ chooseMinMatchLen a b := by
  unfold chooseMinMatchLen MIN_MATCH_LENGTH MAX_MATCH_LENGTH
  simp only []
  split
  · omega
  · repeat' split
    all_goals omega

theorem calculateMinMatchLen_spec (data : List UInt8) (depth : Nat) :
    Oks (calculateMinMatchLen data depth) (3 ≤ ·) := by
  unfold calculateMinMatchLen
  rw [slice_ok (by omega), ok_bind]
  refine Oks.bind (countUsed_ok _ _ (List.length_replicate) 0) fun n _ => ?_
  exact .pure (chooseMinMatchLen_ge _ _)

/-- Sizes of the tables: what every reachable state satisfies. -/
structure Sized (st : State) : Prop where
  head : st.head.size = HASH_SIZE
  head3 : st.head3.size = HASH3_SIZE
  ht0 : st.ht0.size = HT_HASH_SIZE
  ht1 : st.ht1.size = HT_HASH_SIZE
  prev : st.prev.size = MAX_DISTANCE

theorem WF.sized {st : State} {b : Nat} (h : WF st b) : Sized st := ⟨h.sHead, h.sHead3, h.sHt0, h.sHt1, h.sPrev⟩

theorem sized_new (level : Nat) : Sized (State.new level) := ⟨rfl, rfl, rfl, rfl, rfl⟩

theorem wf_reset {st : State} (h : Sized st) : WF st.reset 0 := by
  have hle : ∀ t : Tab, t.fill.Le 0 := fun t i => by show (-1 : Int) ≤ _; decide
  exact ⟨h.head, h.head3, h.ht0, h.ht1, h.prev, hle _, hle _, hle _, hle _, hle _⟩

theorem compress_full (lv : Simd.Level) {st : State} (hs : Sized st) (data : List UInt8) :
    Oks (compress lv st data) (fun r => Good data r.1 data.length ∧ Sized r.2 ∧ r.2.config = st.config) := by
  unfold compress
  split
  · rename_i he
    have : data = [] := List.isEmpty_iff.1 he
    subst this
    exact .ok ⟨Good.nil [], hs, rfl⟩
  · refine Oks.bind (calculateMinMatchLen_spec data _) fun m hm => ?_
    refine Oks.bind (mainLoop_spec lv hm _ _ ⟨wf_reset hs, Nat.zero_le _, Good.nil data, ?_⟩ (Nat.le_refl _)) ?_
    · intro l d e; cases e
    · rintro s ⟨hi, hp, hc⟩
      refine .pure ⟨?_, hi.wf.sized, hc⟩
      rw [← hp]; exact hi.sound

theorem compress_spec (lv : Simd.Level) {st : State} (hs : Sized st) (data : List UInt8) :
    Oks (compress lv st data) (fun r => Sound data r.1 data.length ∧ Sized r.2 ∧ r.2.config = st.config) :=
  (compress_full lv hs data).mono fun _ h => ⟨h.1.toSound, h.2⟩

/-- Which tables are used does not depend on what they held before. -/
theorem reset_eq {st st' : State} (h : Sized st) (h' : Sized st') (hc : st.config = st'.config) :
    st.reset = st'.reset := by
  unfold State.reset Tab.fill
  rw [h.head, h.head3, h.ht0, h.ht1, h.prev, h'.head, h'.head3, h'.ht0, h'.ht1, h'.prev]
  cases st; cases st'
  simp only at hc
  subst hc
  rfl

/-- The result on a non-empty input depends on the configuration alone. -/
theorem compress_history {st st' : State} (h : Sized st) (h' : Sized st') (hc : st.config = st'.config)
    (lv : Simd.Level) (data : List UInt8) :
    (compress lv st data).map Prod.fst = (compress lv st' data).map Prod.fst := by
  unfold compress
  split
  · rfl
  · rw [reset_eq h h' hc, hc]

end Pixo.Lz77
