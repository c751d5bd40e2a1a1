import Verif.Proof.Lz77Min
/-
What the match search of the optimal parser finds: the hash chains hold every earlier position,
and, unless a chain is too long or a slot was overwritten, the shortest distance is found for
every length.
-/
namespace Pixo.Lz77
open Pixo Pixo.MatchLength

variable {cfg : Config} {data : List UInt8}

/-- `v` is the last position before `i` with property `P`, or -1. -/
def Latest (P : Nat → Prop) (i : Nat) (v : Int) : Prop :=
  (v = -1 ∧ ∀ p, p < i → ¬ P p) ∨ ∃ p : Nat, v = p ∧ p < i ∧ P p ∧ ∀ q, p < q → q < i → ¬ P q

theorem Latest.skip {P : Nat → Prop} {i : Nat} {v : Int} (h : Latest P i v) (hi : ¬ P i) : Latest P (i + 1) v := by
  rcases h with ⟨h1, h2⟩ | ⟨p, h1, h2, h3, h4⟩
  · refine Or.inl ⟨h1, fun p hp => ?_⟩
    by_cases e : p = i
    · rw [e]; exact hi
    · exact h2 p (by omega)
  · refine Or.inr ⟨p, h1, by omega, h3, fun q h5 h6 => ?_⟩
    by_cases e : q = i
    · rw [e]; exact hi
    · exact h4 q h5 (by omega)

theorem Latest.here {P : Nat → Prop} {i : Nat} (hi : P i) : Latest P (i + 1) (i : Int) :=
  Or.inr ⟨i, rfl, by omega, hi, fun q h1 h2 => by omega⟩

/-- Position `p` was entered in the chain of `h`. -/
def Slot4 (data : List UInt8) (h p : Nat) : Prop := p + 3 < data.length ∧ hash4 data p = .ok h

/-- Position `p` was entered in slot `h` of the table for three bytes. -/
def Slot3 (data : List UInt8) (h p : Nat) : Prop := p + 3 < data.length ∧ hash3 data p = .ok h

/-- The tables hold the positions before `i`. -/
structure Chained (data : List UInt8) (st : State) (i : Nat) : Prop where
  head : ∀ h, Latest (Slot4 data h) i (st.head.val h)
  head3 : ∀ h, Latest (Slot3 data h) i (st.head3.val h)
  prev : ∀ h p, p < i → i ≤ p + 32768 → Slot4 data h p → Latest (Slot4 data h) p (st.prev.val (p % 32768))

theorem chained_reset (st : State) : Chained data st.resetChains 0 :=
  ⟨fun _ => Or.inl ⟨rfl, fun p hp => by omega⟩, fun _ => Or.inl ⟨rfl, fun p hp => by omega⟩,
    fun _ p hp => by omega⟩

theorem asI32_small {n : Nat} (h : n < 2 ^ 31) : asI32 n = (n : Int) := by
  unfold asI32
  rw [Nat.mod_eq_of_lt (by omega), if_pos h]

theorem updateHash_chained {st : State} {i b : Nat} (hw : CWF cfg st b) (hc : Chained data st i)
    (hn : data.length ≤ 2 ^ 31) : Oks (updateHash st data i) (fun st' => Chained data st' (i + 1)) := by
  unfold updateHash
  split
  · rename_i h
    refine .ok ⟨fun h' => (hc.head h').skip (fun hp => by have := hp.1; omega),
      fun h' => (hc.head3 h').skip (fun hp => by have := hp.1; omega), fun h' p hp hle hs => ?_⟩
    have := hs.1
    exact hc.prev h' p (by omega) (by omega) hs
  · rename_i h
    have hi : i + 3 < data.length := by omega
    obtain ⟨k3, e3, hk3⟩ := (hash3_spec data i).out
    obtain ⟨k4, e4, hk4⟩ := (hash4_spec data i).out
    have hI : asI32 i = (i : Int) := asI32_small (by omega)
    rw [e3, ok_bind]
    unfold Tab.set Tab.get
    rw [if_pos (by rw [hw.sHead3]; exact hk3), ok_bind, e4, ok_bind, if_pos (by rw [hw.sHead]; exact hk4), ok_bind,
      if_pos (by rw [hw.sPrev]; exact Nat.mod_lt _ (by decide)), ok_bind, if_pos (by rw [hw.sHead]; exact hk4), ok_bind]
    refine .pure ⟨fun h' => ?_, fun h' => ?_, fun h' p hp hle hs => ?_⟩
    · show Latest _ _ (if h' = k4 then asI32 i else st.head.val h')
      split
      · rename_i e
        rw [hI, e]
        exact Latest.here ⟨hi, e4⟩
      · rename_i e
        exact (hc.head h').skip (fun hp => e (by have := hp.2; rw [e4] at this; exact (Except.ok.inj this).symm))
    · show Latest _ _ (if h' = k3 then asI32 i else st.head3.val h')
      split
      · rename_i e
        rw [hI, e]
        exact Latest.here ⟨hi, e3⟩
      · rename_i e
        exact (hc.head3 h').skip (fun hp => e (by have := hp.2; rw [e3] at this; exact (Except.ok.inj this).symm))
    · show Latest _ _ (if p % 32768 = i % MAX_DISTANCE then st.head.val k4 else st.prev.val (p % 32768))
      unfold MAX_DISTANCE
      by_cases hpi : p = i
      · subst hpi
        rw [if_pos rfl]
        have := hs.2
        rw [e4] at this
        cases this
        exact hc.head k4
      · rw [if_neg (by omega)]
        exact hc.prev h' p (by omega) (by omega) hs

theorem tablesAt_chained {st : State} (hs : Sized st) (hn : data.length ≤ 2 ^ 31) (i : Nat) :
    Oks (tablesAt st data i) (fun s => CWF st.config s i ∧ Chained data s i) := by
  induction i with
  | zero => exact .ok ⟨cwf_resetChains hs, chained_reset st⟩
  | succ i ih =>
    rw [tablesAt]
    refine Oks.bind ih ?_
    rintro s ⟨hw, hc⟩
    obtain ⟨s', e, h1⟩ := (updateHashC_spec (data := data) (pos := i) (hw.mono (Nat.le_succ i)) (Nat.le_succ i)).out
    obtain ⟨s'', e', h2⟩ := (updateHash_chained hw hc hn).out
    rw [e] at e'; cases e'
    rw [e]
    exact .ok ⟨h1, h2⟩

/-! ### One candidate -/

/-- A match of length `len` is known, at distance `d` or less. -/
def Low (sub : List Nat) (len d : Nat) : Prop := ∃ d', sub[len]? = some d' ∧ d' ≠ 0 ∧ d' ≤ d

/-- Nothing known is lost. -/
def Grows (s s' : List Nat × Nat) : Prop := (∀ len d, Low s.1 len d → Low s'.1 len d) ∧ s.2 ≤ s'.2

theorem Grows.refl (s : List Nat × Nat) : Grows s s := ⟨fun _ _ h => h, Nat.le_refl _⟩

theorem Grows.trans {a b c : List Nat × Nat} (h1 : Grows a b) (h2 : Grows b c) : Grows a c :=
  ⟨fun len d h => h2.1 len d (h1.1 len d h), Nat.le_trans h1.2 h2.2⟩

/-- A match of length `len` is on offer, at distance `d` or less. -/
def Has (s : List Nat × Nat) (len d : Nat) : Prop := Low s.1 len d ∧ len ≤ s.2

theorem Grows.has {a b : List Nat × Nat} (h : Grows a b) {len d : Nat} (ha : Has a len d) : Has b len d :=
  ⟨h.1 len d ha.1, Nat.le_trans ha.2 h.2⟩

theorem Has.mono {s : List Nat × Nat} {len d d' : Nat} (h : Has s len d) (hd : d ≤ d') : Has s len d' := by
  obtain ⟨⟨x, h1, h2, h3⟩, h4⟩ := h
  exact ⟨⟨x, h1, h2, by omega⟩, h4⟩

/-- The longest length is one that is on offer. -/
def Top (s : List Nat × Nat) : Prop := s.2 = 0 ∨ (3 ≤ s.2 ∧ ∃ d, Low s.1 s.2 d)

theorem improve_low {pos m d len : Nat} (hv : Valid data pos len d) (sub : List Nat) (hs : SubOk data pos (sub, m)) :
    Oks (improve sub len d) (fun sub' => SubOk data pos (sub', m) ∧ Low sub' len d ∧
      ∀ len' d', Low sub len' d' → Low sub' len' d') := by
  obtain ⟨sub', e, h⟩ := (improve_spec (m := m) hv sub hs).out
  refine Oks.intro ⟨sub', e, h, ?_⟩
  have hmx := hv.max
  have hsz := hs.size
  simp only [] at hsz
  unfold improve at e
  obtain ⟨old, eo, hold⟩ := (get_ok (l := sub) (i := len) (by omega)).out
  rw [eo, ok_bind, asU16_dist hv] at e
  split at e
  · rename_i hc
    unfold setChecked at e
    rw [if_pos (by omega)] at e
    cases e
    refine ⟨⟨d, ?_, ?_, Nat.le_refl _⟩, ?_⟩
    · rw [List.getElem?_set, if_pos rfl, if_pos (by omega)]
    · have := hv.near; omega
    · rintro len' d' ⟨x, h1, h2, h3⟩
      unfold Low
      rw [List.getElem?_set]
      by_cases hl : len = len'
      · subst hl
        rw [hold] at h1; cases h1
        rw [if_pos rfl, if_pos (by omega)]
        exact ⟨d, rfl, by have := hv.near; omega, by omega⟩
      · rw [if_neg hl]; exact ⟨x, h1, h2, h3⟩
  · rename_i hc
    cases e
    exact ⟨⟨old, hold, by omega, by omega⟩, fun _ _ h => h⟩

theorem improveRange_low {pos m d len : Nat} (hv : Valid data pos len d) (n lo : Nat) (hlo : 3 ≤ lo)
    (hn : lo + n ≤ len + 1) (sub : List Nat) (hs : SubOk data pos (sub, m)) :
    Oks (improveRange d n lo sub) (fun sub' => SubOk data pos (sub', m) ∧
      (∀ l, lo ≤ l → l < lo + n → Low sub' l d) ∧ ∀ len' d', Low sub len' d' → Low sub' len' d') := by
  induction n generalizing lo sub with
  | zero => exact .ok ⟨hs, fun l h1 h2 => by omega, fun _ _ h => h⟩
  | succ n ih =>
    rw [improveRange]
    refine Oks.bind (improve_low (hv.shorter hlo (by omega)) sub hs) ?_
    rintro sub1 ⟨h1, h2, h3⟩
    refine Oks.mono (ih (lo + 1) (by omega) (by omega) sub1 h1) ?_
    rintro sub2 ⟨k1, k2, k3⟩
    refine ⟨k1, fun l g1 g2 => ?_, fun l d' h => k3 l d' (h3 l d' h)⟩
    by_cases hl : l = lo
    · subst hl; exact k3 _ _ h2
    · exact k2 l (by omega) (by omega)

theorem fillSublen_low {pos m d len : Nat} (hv : Valid data pos len d) (n lo : Nat) (hlo : 3 ≤ lo)
    (hn : lo + n ≤ len + 1) (sub : List Nat) (hs : SubOk data pos (sub, m)) :
    Oks (fillSublen d n lo sub) (fun sub' => SubOk data pos (sub', m) ∧
      (∀ l, lo ≤ l → l < lo + n → sub'[l]? = some d) ∧ ∀ l : Nat, l < lo → sub'[l]? = sub[l]?) := by
  induction n generalizing lo sub with
  | zero => exact .ok ⟨hs, fun l h1 h2 => by omega, fun _ _ => rfl⟩
  | succ n ih =>
    have hmx := hv.max
    have hsz := hs.size
    simp only [] at hsz
    rw [fillSublen]
    unfold setChecked
    rw [if_pos (by omega), ok_bind]
    refine Oks.mono (ih (lo + 1) (by omega) (by omega) _ (hs.set (hv.shorter hlo (by omega)))) ?_
    rintro sub2 ⟨k1, k2, k3⟩
    refine ⟨k1, fun l g1 g2 => ?_, fun l hl => ?_⟩
    · by_cases hl : l = lo
      · subst hl
        rw [k3 l (by omega)]
        show (sub.set l d)[l]? = some d
        rw [List.getElem?_set, if_pos rfl, if_pos (by omega)]
      · exact k2 l (by omega) (by omega)
    · rw [k3 l (by omega)]
      show (sub.set lo d)[l]? = sub[l]?
      rw [List.getElem?_set, if_neg (by omega)]

theorem matchLen_longest (lv : Simd.Level) {m pos : Nat} (hm : m ≤ pos) (hp : pos ≤ data.length) :
    Oks (matchLen lv data m pos) (fun l => (l ≤ 258 ∧ pos + l ≤ data.length ∧ Prefix data m pos l) ∧
      ∀ len, len ≤ 258 → pos + len ≤ data.length → Prefix data m pos len → len ≤ l) := by
  obtain ⟨l, e, h⟩ := (matchLen_spec lv data m pos hm hp).out
  refine Oks.intro ⟨l, e, h, ?_⟩
  intro len h1 h2 h3
  unfold matchLen at e
  obtain ⟨rest, er, rfl⟩ := (subUsize_spec hp).out
  rw [er, ok_bind] at e
  have hmin1 : min (data.length - pos) MAX_MATCH_LENGTH ≤ data.length - pos := Nat.min_le_left _ _
  obtain ⟨l', e', h'⟩ := (matchLength_spec lv data m pos (min (data.length - pos) MAX_MATCH_LENGTH)
    (by omega) (by omega)).out
  rw [e] at e'; cases e'
  rcases Nat.lt_or_ge l len with hlt | hge
  · exfalso
    have hlt2 : l < min (data.length - pos) MAX_MATCH_LENGTH := by unfold MAX_MATCH_LENGTH; omega
    exact h'.2.2 hlt2 (h3 l hlt)
  · exact hge

theorem sublenStep_has (lv : Simd.Level) {pos m : Nat} {s : List Nat × Nat} (hp : pos + 3 ≤ data.length)
    (hle : m ≤ pos) (hs : SubOk data pos s) (ht : Top s) :
    Oks (sublenStep lv data pos m s) (fun r => SubOk data pos r.1 ∧ Top r.1 ∧ Grows s r.1 ∧
      (m < pos → pos ≤ m + 32768 →
        (∀ len, 4 ≤ len → Valid data pos len (pos - m) → Has r.1 len (pos - m)) ∧
        (r.2 = true → ∀ len, 3 ≤ len → len ≤ 258 → Has r.1 len (pos - m)))) := by
  have keep : Grows s s := Grows.refl s
  unfold sublenStep
  refine Oks.bind (subUsize_spec hle) ?_
  rintro _ rfl
  split
  · exact .ok ⟨hs, ht, keep, fun h => by omega⟩
  · split
    · rename_i h0 h1
      refine .ok ⟨hs, ht, keep, fun h2 h3 => ?_⟩
      unfold MAX_DISTANCE at h1
      omega
    · rename_i h0 h1
      refine Oks.bind (matchLen_longest lv hle (by omega)) ?_
      rintro l ⟨hl, hmax⟩
      have hlong : ∀ len, 4 ≤ len → Valid data pos len (pos - m) → len ≤ l := by
        intro len _ hv
        refine hmax len hv.max hv.fits ?_
        have := hv.same
        rwa [show pos - (pos - m) = m by omega] at this
      split
      · rename_i hc
        have h2 : min pos MAX_DISTANCE ≤ 32768 := Nat.min_le_right _ _
        have h3 : 3 ≤ l := hc.1
        have hv : Valid data pos l (pos - m) := valid_match (by omega) (by omega) h3 hl.1 hl.2.1 hl.2.2
        refine Oks.bind (improveRange_low (m := s.2) hv _ _ (Nat.le_refl 3) (by unfold MIN_MATCH_LENGTH; omega) s.1 hs) ?_
        rintro sub ⟨k1, k2, k3⟩
        unfold MIN_MATCH_LENGTH at k2
        split
        · rename_i hgt
          refine .ok ⟨⟨k1.size, hl.1, k1.valid⟩, Or.inr ⟨h3, pos - m, k2 l h3 (by omega)⟩, ⟨k3, Nat.le_of_lt hgt⟩, fun _ _ => ⟨?_, ?_⟩⟩
          · intro len g1 g2
            exact ⟨k2 len (by omega) (by have := hlong len g1 g2; omega), hlong len g1 g2⟩
          · intro hst len g1 g2
            have : MAX_MATCH_LENGTH ≤ l := of_decide_eq_true hst
            unfold MAX_MATCH_LENGTH at this
            exact ⟨k2 len (by omega) (by omega), by show len ≤ l; omega⟩
        · rename_i hgt
          refine .ok ⟨k1, ?_, ⟨k3, Nat.le_refl _⟩, fun _ _ => ⟨?_, fun h => by cases h⟩⟩
          · rcases ht with ht | ⟨h4, d, h5⟩
            · exact Or.inl ht
            · exact Or.inr ⟨h4, d, k3 _ _ h5⟩
          · intro len g1 g2
            have := hlong len g1 g2
            exact ⟨k2 len (by omega) (by omega), by show len ≤ s.2; omega⟩
      · rename_i hc
        refine .ok ⟨hs, ht, keep, fun _ _ => ⟨?_, fun h => by cases h⟩⟩
        intro len g1 g2
        have := hlong len g1 g2
        exact absurd ⟨show MIN_MATCH_LENGTH ≤ l by unfold MIN_MATCH_LENGTH; omega, by omega⟩ hc

/-! ### The walk along the chain -/

instance (data : List UInt8) (h p : Nat) : Decidable (Slot4 data h p) := by unfold Slot4; infer_instance

/-- The positions from `a` on, before `b`, in the chain of `h`. -/
def chainCount (data : List UInt8) (h a b : Nat) : Nat :=
  (List.range' a (b - a)).countP (fun p => decide (Slot4 data h p))

theorem chainCount_split {h a p b : Nat} (h1 : a ≤ p) (h2 : p < b) (hs : Slot4 data h p) :
    chainCount data h a p + 1 ≤ chainCount data h a b := by
  unfold chainCount
  have e : List.range' a (b - a) = List.range' a (p - a) ++ (p :: List.range' (p + 1) (b - p - 1)) := by
    rw [show b - a = (p - a) + ((b - p - 1) + 1) by omega, ← List.range'_append_1, List.range'_succ,
      show a + (p - a) = p by omega]
  rw [e, List.countP_append, List.countP_cons, if_pos (by simpa using hs)]
  omega

theorem sublen_keeps (lv : Simd.Level) {pos : Nat} {st : State} (hw : CWF cfg st pos) (hp : pos + 3 ≤ data.length)
    (n : Nat) (c : Int) (hc : c ≤ (pos : Int)) (s : List Nat × Nat) (hs : SubOk data pos s) (ht : Top s) :
    Oks (chainLoop st.prev (sublenStep lv data pos) n c s) (fun s' => SubOk data pos s' ∧ Top s' ∧ Grows s s') := by
  refine chainLoop_spec (P := fun s' => SubOk data pos s' ∧ Top s' ∧ Grows s s') hw.sPrev hw.prev ?_ n c s hc ⟨hs, ht, Grows.refl s⟩
  rintro m s' hm ⟨h1, h2, h3⟩
  refine Oks.mono (sublenStep_has lv hp hm h1 h2) ?_
  rintro r ⟨k1, k2, k3, _⟩
  exact ⟨k1, k2, h3.trans k3⟩

theorem chain_has (lv : Simd.Level) {pos h p0 : Nat} {st : State} (hw : CWF cfg st pos) (hch : Chained data st pos)
    (hp : pos + 3 ≤ data.length) (h0 : Slot4 data h p0) (hd : pos ≤ p0 + 32768)
    (n j : Nat) (c : Int) (hj : j ≤ pos) (hj0 : p0 < j) (hl : Latest (Slot4 data h) j c)
    (hn : chainCount data h p0 j ≤ n) (s : List Nat × Nat) (hs : SubOk data pos s) (ht : Top s) :
    Oks (chainLoop st.prev (sublenStep lv data pos) n c s) (fun s' => (SubOk data pos s' ∧ Top s' ∧ Grows s s') ∧
      ∀ len, 4 ≤ len → Valid data pos len (pos - p0) → Has s' len (pos - p0)) := by
  induction n generalizing j c s with
  | zero =>
    exfalso
    have := chainCount_split (Nat.le_refl p0) hj0 h0
    omega
  | succ n ih =>
    rcases hl with ⟨_, hno⟩ | ⟨p, rfl, hpj, hsp, hmid⟩
    · exact absurd h0 (hno p0 hj0)
    · have hpp : p0 ≤ p := by
        rcases Nat.lt_or_ge p p0 with h1 | h1
        · exact absurd h0 (hmid p0 h1 hj0)
        · exact h1
      rw [chainLoop, if_pos (Int.natCast_nonneg _)]
      simp only [Int.toNat_natCast]
      refine Oks.bind (sublenStep_has lv hp (show p ≤ pos by omega) hs ht) ?_
      rintro ⟨s1, stop⟩ ⟨k1, k2, k3, k4⟩
      simp only [] at k1 k2 k3 k4 ⊢
      have k4 := k4 (by omega) (by omega)
      split
      · rename_i hst
        refine .ok ⟨⟨k1, k2, k3⟩, fun len g1 g2 => ?_⟩
        exact (k4.2 hst len (by omega) g2.max).mono (by omega)
      · obtain ⟨next, en, hnext⟩ := (Tab.get_spec hw.sPrev (show p % MAX_DISTANCE < MAX_DISTANCE from Nat.mod_lt _ (by decide)) hw.prev).out
        rw [en, ok_bind]
        have hval : next = st.prev.val (p % 32768) := by
          unfold Tab.get at en
          rw [if_pos (by rw [hw.sPrev]; exact Nat.mod_lt _ (by decide))] at en
          exact (Except.ok.inj en).symm
        by_cases hpe : p = p0
        · subst hpe
          refine Oks.mono (sublen_keeps lv hw hp n next hnext s1 k1 k2) ?_
          rintro s2 ⟨m1, m2, m3⟩
          exact ⟨⟨m1, m2, k3.trans m3⟩, fun len g1 g2 => m3.has (k4.1 len g1 g2)⟩
        · have hcount := chainCount_split hpp hpj hsp
          refine Oks.mono (ih p next (by omega) (by omega) ?_ (by omega) s1 k1 k2) ?_
          · rw [hval]
            exact hch.prev h p (by omega) (by omega) hsp
          · rintro s2 ⟨⟨m1, m2, m3⟩, m4⟩
            exact ⟨⟨m1, m2, k3.trans m3⟩, m4⟩

theorem hash4_congr {p q : Nat} (hp : p + 3 < data.length) (hq : q + 3 < data.length) (h : Prefix data p q 4) :
    hash4 data p = hash4 data q := by
  unfold hash4 word getChecked
  rw [if_neg (by omega), if_neg (by omega)]
  have h0 := h 0 (by omega)
  have h1 := h 1 (by omega)
  have h2 := h 2 (by omega)
  have h3 := h 3 (by omega)
  rw [Nat.add_zero, Nat.add_zero] at h0
  rw [h0, h1, h2, h3]

theorem hash3_congr {p q : Nat} (hp : p + 2 < data.length) (hq : q + 2 < data.length) (h : Prefix data p q 3) :
    hash3 data p = hash3 data q := by
  unfold hash3 getChecked
  rw [if_neg (by omega), if_neg (by omega)]
  have h0 := h 0 (by omega)
  have h1 := h 1 (by omega)
  have h2 := h 2 (by omega)
  rw [Nat.add_zero, Nat.add_zero] at h0
  rw [h0, h1, h2]

/-- No other three bytes took the slot of those at `pos`. -/
def NoClash (data : List UInt8) (pos : Nat) : Prop :=
  ∀ p, p < pos → p + 3 < data.length → hash3 data p = hash3 data pos → Prefix data p pos 3

/-- At most `limit` earlier positions in reach have the hash of the four bytes at `pos`. -/
def Uncrowded (limit : Nat) (data : List UInt8) (pos : Nat) : Prop :=
  ∀ h, hash4 data pos = .ok h → chainCount data h (pos - 32768) pos ≤ limit

theorem chainCount_le {h a a' b : Nat} (h1 : a ≤ a') : chainCount data h a' b ≤ chainCount data h a b := by
  unfold chainCount
  by_cases hb : a' ≤ b
  · rw [show b - a = (a' - a) + (b - a') by omega, ← List.range'_append_1, List.countP_append,
      show a + (a' - a) = a' by omega]
    omega
  · rw [show b - a' = 0 by omega]; simp

theorem same3_iff {p q : Nat} (hp : p + 3 ≤ data.length) (hq : q + 3 ≤ data.length) :
    Oks (same3 data p q) (fun b => b = true ↔ Prefix data q p 3) := by
  obtain ⟨b, e, h⟩ := (same3_spec hp hq).out
  refine Oks.intro ⟨b, e, h, ?_⟩
  intro hpre
  unfold same3 at e
  rw [slice_ok hp, ok_bind, slice_ok hq, ok_bind] at e
  cases e
  rw [beq_iff_eq]
  apply List.ext_getElem?
  intro i
  by_cases hi : i < 3
  · rw [slice_get data p 3 i hi, slice_get data q 3 i hi]
    exact (hpre i hi).symm
  · rw [List.getElem?_eq_none (by rw [List.length_take, List.length_drop]; omega),
      List.getElem?_eq_none (by rw [List.length_take, List.length_drop]; omega)]

theorem sublenProbe_has {st : State} {pos : Nat} {s : List Nat × Nat} (hw : CWF cfg st pos)
    (hch : Chained data st pos) (hp : pos + 3 ≤ data.length) (hs : SubOk data pos s) (ht : Top s) :
    Oks (sublenProbe st data pos s) (fun s' => (SubOk data pos s' ∧ Top s' ∧ Grows s s') ∧
      (NoClash data pos → ∀ d, Valid data pos 3 d → Has s' 3 d)) := by
  have keep : Grows s s := Grows.refl s
  obtain ⟨h, eh, hh⟩ := (hash3_spec data pos).out
  obtain ⟨cand, ec, hc⟩ := (Tab.get_spec hw.sHead3 hh hw.head3).out
  have hval : cand = st.head3.val h := by
    unfold Tab.get at ec
    rw [if_pos (by rw [hw.sHead3]; exact hh)] at ec
    exact (Except.ok.inj ec).symm
  have hlat := hch.head3 h
  rw [← hval] at hlat
  unfold sublenProbe
  rw [eh, ok_bind, ec, ok_bind]
  rcases hlat with ⟨hm1, hno⟩ | ⟨p, rfl, hppos, hsp, hmid⟩
  · rw [if_neg (by omega)]
    refine .ok ⟨⟨hs, ht, keep⟩, fun _ d hv => ?_⟩
    have hb := hv.back
    have hn := hv.near
    exact absurd ⟨by omega, by rw [hash3_congr (by omega) (by omega) hv.same]; exact eh⟩ (hno (pos - d) (by omega))
  · rw [if_pos (Int.natCast_nonneg _)]
    simp only [Int.toNat_natCast]
    refine Oks.bind (subUsize_spec (show p ≤ pos by omega)) ?_
    rintro _ rfl
    rw [if_neg (by omega)]
    have hin : ∀ d, Valid data pos 3 d → pos - p ≤ d := by
      intro d hv
      have hb := hv.back
      have hn := hv.near
      rcases Nat.lt_or_ge d (pos - p) with hlt | hge
      · exact absurd ⟨by omega, by rw [hash3_congr (by omega) (by omega) hv.same]; exact eh⟩ (hmid (pos - d) (by omega) (by omega))
      · exact hge
    have hsp1 := hsp.1
    split
    · rename_i h1
      have h11 := h1.1
      unfold MAX_DISTANCE at h11
      refine Oks.bind (same3_iff hp h1.2) fun same hsame => ?_
      split
      · rename_i hst
        have hv : Valid data pos 3 (pos - p) := valid_match hppos h11 (by omega) (by omega) hp (hsame.1 hst)
        refine Oks.bind (improve_low (m := s.2) hv s.1 hs) ?_
        rintro sub ⟨k1, k2, k3⟩
        have hmx := hs.max
        have hsub : SubOk data pos (sub, max s.2 3) := ⟨k1.size, by simp only []; omega, k1.valid⟩
        refine .pure ⟨⟨hsub, ?_, ⟨k3, Nat.le_max_left _ _⟩⟩, ?_⟩
        · rcases ht with ht | ⟨g1, d, g2⟩
          · refine Or.inr ⟨Nat.le_max_right _ _, pos - p, ?_⟩
            show Low sub (max s.2 3) _
            rw [ht]; exact k2
          · refine Or.inr ⟨Nat.le_max_right _ _, d, ?_⟩
            show Low sub (max s.2 3) _
            rw [Nat.max_eq_left g1]; exact k3 _ _ g2
        · intro _ d hvd
          obtain ⟨x, y1, y2, y3⟩ := k2
          exact ⟨⟨x, y1, y2, Nat.le_trans y3 (hin d hvd)⟩, Nat.le_max_right _ _⟩
      · rename_i hst
        refine .ok ⟨⟨hs, ht, keep⟩, fun hcl d hv => ?_⟩
        exact absurd (hsame.2 (hcl p hppos hsp1 (by rw [hsp.2, eh]))) hst
    · rename_i h1
      refine .ok ⟨⟨hs, ht, keep⟩, fun _ d hv => ?_⟩
      have := hin d hv
      have hf := hv.far
      exact absurd ⟨show pos - p ≤ MAX_DISTANCE by unfold MAX_DISTANCE; omega, by omega⟩ h1

theorem sublenSearch_has (lv : Simd.Level) {st : State} {pos : Nat} {s : List Nat × Nat} (hw : CWF cfg st pos)
    (hch : Chained data st pos) (hp : pos + 3 ≤ data.length) (hs : SubOk data pos s) (ht : Top s) :
    Oks (sublenSearch lv st data pos s) (fun s' => (SubOk data pos s' ∧ Top s' ∧ Grows s s') ∧
      (NoClash data pos → ∀ d, Valid data pos 3 d → Has s' 3 d) ∧
      (Uncrowded (min cfg.maxChain cfg.maxDepth) data pos → ∀ len d, 4 ≤ len → Valid data pos len d → Has s' len d)) := by
  unfold sublenSearch
  refine Oks.bind (sublenProbe_has hw hch hp hs ht) ?_
  rintro s1 ⟨⟨h1, h2, h3⟩, h4⟩
  obtain ⟨h, eh, hh⟩ := (hash4_spec data pos).out
  obtain ⟨first, ef, hf⟩ := (Tab.get_spec hw.sHead hh hw.head).out
  have hval : first = st.head.val h := by
    unfold Tab.get at ef
    rw [if_pos (by rw [hw.sHead]; exact hh)] at ef
    exact (Except.ok.inj ef).symm
  rw [eh, ok_bind, ef, ok_bind, hw.config]
  obtain ⟨s2, e2, k1, k2, k3⟩ := (sublen_keeps lv hw hp (min cfg.maxChain cfg.maxDepth) first hf s1 h1 h2).out
  refine Oks.intro ⟨s2, e2, ⟨k1, k2, h3.trans k3⟩, fun hcl d hv => k3.has (h4 hcl d hv), ?_⟩
  intro hun len d hl hv
  have hb := hv.back
  have hn := hv.near
  have hfit := hv.fits
  have hfar := hv.far
  have hslot : Slot4 data h (pos - d) :=
    ⟨by omega, by rw [hash4_congr (q := pos) (by omega) (by omega) (fun i hi => hv.same i (by omega))]; exact eh⟩
  have hcnt := hun h eh
  obtain ⟨s3, e3, _, m2⟩ := (chain_has lv hw hch hp hslot (by omega) (min cfg.maxChain cfg.maxDepth) pos first (Nat.le_refl _)
    (by omega) (by rw [hval]; exact hch.head h)
    (Nat.le_trans (chainCount_le (by omega)) hcnt) s1 h1 h2).out
  rw [e2] at e3; cases e3
  have := m2 len hl (by rwa [show pos - (pos - d) = d by omega])
  rwa [show pos - (pos - d) = d by omega] at this

/-- What `find_match_with_sublen` finds. -/
theorem findSublen_has (lv : Simd.Level) {st : State} {pos : Nat} (hw : CWF cfg st pos) (hch : Chained data st pos) :
    Oks (findSublen lv st data pos) (fun s => SubOk data pos s ∧ Top s ∧
      (NoClash data pos → ∀ d, Valid data pos 3 d → Has s 3 d) ∧
      (Uncrowded (min cfg.maxChain cfg.maxDepth) data pos → ∀ len d, 4 ≤ len → Valid data pos len d → Has s len d)) := by
  unfold findSublen
  simp only []
  split
  · rename_i h
    unfold MIN_MATCH_LENGTH at h
    refine .ok ⟨SubOk.zero data pos, Or.inl rfl, fun _ d hv => ?_, fun _ len d hl hv => ?_⟩
    · have := hv.fits; omega
    · have := hv.fits; omega
  · rename_i h
    have hp : pos + 3 ≤ data.length := by unfold MIN_MATCH_LENGTH at h; omega
    refine Oks.bind (detectRun_spec data pos (by omega)) fun run hr => ?_
    refine Oks.bind (continuesRun_spec (by omega)) fun b hb => ?_
    split
    · rename_i h1
      have hb := hb h1
      have h3 : 3 ≤ run := hb.1
      have hv := valid_run (by omega) hb.2.1 h3 hr.2.1 hr.2.2 hr.1 hb.2.2
      have h0 : SubOk data pos (List.replicate 259 0, run) :=
        ⟨(SubOk.zero data pos).size, hr.2.1, (SubOk.zero data pos).valid⟩
      refine Oks.bind (fillSublen_low hv _ _ (Nat.le_refl 3) (by unfold MIN_MATCH_LENGTH; omega) _ h0) ?_
      rintro sub ⟨k1, k2, _⟩
      unfold MIN_MATCH_LENGTH at k2
      have low : ∀ l, 3 ≤ l → l ≤ run → ∀ d, 1 ≤ d → Low sub l d := fun l g1 g2 d g3 => ⟨1, k2 l g1 (by omega), by omega, g3⟩
      split
      · rename_i hfull
        unfold MAX_MATCH_LENGTH at hfull
        refine .ok ⟨k1, Or.inr ⟨h3, 1, low run h3 (Nat.le_refl _) 1 (Nat.le_refl _)⟩, fun _ d hv => ?_, fun _ len d hl hv => ?_⟩
        · exact ⟨low 3 (Nat.le_refl _) (by omega) d hv.near, by show 3 ≤ run; omega⟩
        · have := hv.max
          exact ⟨low len (by omega) (by omega) d hv.near, by show len ≤ run; omega⟩
      · refine Oks.mono (sublenSearch_has lv hw hch hp k1 (Or.inr ⟨h3, 1, low run h3 (Nat.le_refl _) 1 (Nat.le_refl _)⟩)) ?_
        rintro s ⟨⟨g1, g2, _⟩, g3⟩
        exact ⟨g1, g2, g3⟩
    · refine Oks.mono (sublenSearch_has lv hw hch hp (SubOk.zero data pos) (Or.inl rfl)) ?_
      rintro s ⟨⟨g1, g2, _⟩, g3⟩
      exact ⟨g1, g2, g3⟩

end Pixo.Lz77
