import Verif.Proof.Lz77Min
/-
The match cache of the optimal parser holds what the search reports, so a run with it and a run
without it are the same.
-/
namespace Pixo.Lz77
open Pixo Pixo.MatchLength

variable {data : List UInt8} {cm : CostModel} {tbl : Nat → List Nat × Nat}

/-- Equal in all that the optimal parser reads. -/
def SameChains (s s' : State) : Prop :=
  s.head = s'.head ∧ s.head3 = s'.head3 ∧ s.prev = s'.prev ∧ s.config = s'.config

theorem findSublen_same (lv : Simd.Level) {s s' : State} (h : SameChains s s') (i : Nat) :
    findSublen lv s data i = findSublen lv s' data i := by
  obtain ⟨h1, h2, h3, h4⟩ := h
  unfold findSublen sublenSearch sublenProbe
  rw [h1, h2, h3, h4]

theorem updateHash_same {s s' t : State} (h : SameChains s s') {i : Nat} (e : updateHash s data i = .ok t) :
    ∃ t', updateHash s' data i = .ok t' ∧ SameChains t t' := by
  obtain ⟨h1, h2, h3, h4⟩ := h
  unfold updateHash at e ⊢
  split at e
  · rename_i hc
    cases e
    rw [if_pos hc]
    exact ⟨_, rfl, h1, h2, h3, h4⟩
  · rename_i hc
    rw [if_neg hc]
    rw [← h1, ← h2, ← h3]
    cases a1 : hash3 data i with
    | error x => rw [a1] at e; cases e
    | ok v1 =>
      rw [a1, ok_bind] at e
      cases a2 : s.head3.set v1 (asI32 i) with
      | error x => rw [a2] at e; cases e
      | ok v2 =>
        rw [a2, ok_bind] at e
        cases a3 : hash4 data i with
        | error x => rw [a3] at e; cases e
        | ok v3 =>
          rw [a3, ok_bind] at e
          cases a4 : s.head.get v3 with
          | error x => rw [a4] at e; cases e
          | ok v4 =>
            rw [a4, ok_bind] at e
            cases a5 : s.prev.set (i % MAX_DISTANCE) v4 with
            | error x => rw [a5] at e; cases e
            | ok v5 =>
              rw [a5, ok_bind] at e
              cases a6 : s.head.set v3 (asI32 i) with
              | error x => rw [a6] at e; cases e
              | ok v6 =>
                rw [a6, ok_bind] at e
                cases e
                simp only [ok_bind, a2, a3, a4, a5, a6]
                exact ⟨_, rfl, rfl, rfl, rfl, h4⟩

theorem tablesAt_same {st st' : State} (h : Sized st) (h' : Sized st') (hc : st.config = st'.config) (i : Nat) :
    ∀ s, tablesAt st data i = .ok s → ∃ s', tablesAt st' data i = .ok s' ∧ SameChains s s' := by
  induction i with
  | zero =>
    intro s e
    cases e
    refine ⟨_, rfl, ?_, ?_, ?_, hc⟩
    · simp only [State.resetChains, Tab.fill, h.head, h'.head]
    · simp only [State.resetChains, Tab.fill, h.head3, h'.head3]
    · simp only [State.resetChains, Tab.fill, h.prev, h'.prev]
  | succ i ih =>
    intro s e
    rw [tablesAt] at e
    cases e1 : tablesAt st data i with
    | error x => rw [e1] at e; cases e
    | ok s1 =>
      rw [e1, ok_bind] at e
      obtain ⟨s1', e1', hsame⟩ := ih s1 e1
      obtain ⟨t', e2, h2⟩ := updateHash_same hsame e
      exact ⟨t', by rw [tablesAt, e1', ok_bind, e2], h2⟩

/-- What is reported depends on the level alone, not on what was compressed before. -/
theorem Reports.same {lv : Simd.Level} {st st' : State} (h : Sized st) (h' : Sized st') (hc : st.config = st'.config)
    (hr : Reports lv st data tbl) : Reports lv st' data tbl := by
  intro i hi
  obtain ⟨s, e, hf⟩ := hr i hi
  obtain ⟨s', e', hsame⟩ := tablesAt_same h h' hc i s e
  exact ⟨s', e', by rw [← findSublen_same lv hsame, hf]⟩

/-- The forward pass on a table of reports. -/
def forwardT (cm : CostModel) (data : List UInt8) (tbl : Nat → List Nat × Nat) : Nat → Nat → Dp → R Dp
  | 0, _, dp => .ok dp
  | count + 1, i, dp => do
    let base ← getChecked dp.costs i
    let (dp, _) ← tryAt cm data i base dp (.ok (tbl i, ()))
    forwardT cm data tbl count (i + 1) dp

theorem tryAt_ok {α : Type} {i : Nat} {base : Int} {dp : Dp} {m : List Nat × Nat} {a : α} {r : Dp × Unit}
    (e : tryAt cm data i base dp (.ok (m, ())) = .ok r) : tryAt cm data i base dp (.ok (m, a)) = .ok (r.1, a) := by
  unfold tryAt at e ⊢
  cases a1 : getChecked data i with
  | error x => rw [a1] at e; cases e
  | ok v1 =>
    rw [a1, ok_bind] at e
    rw [ok_bind]
    cases a2 : cm.literalCost v1 with
    | error x => rw [a2] at e; cases e
    | ok v2 =>
      rw [a2, ok_bind] at e
      rw [ok_bind]
      cases a3 : dp.relax (i + 1) (addF base v2) 1 0 with
      | error x => rw [a3] at e; cases e
      | ok v3 =>
        rw [a3, ok_bind, ok_bind] at e
        rw [ok_bind, ok_bind]
        simp only [] at e ⊢
        generalize tryMatches cm data.length i base m.1 (m.2 + 1 - MIN_MATCH_LENGTH) MIN_MATCH_LENGTH v3 = q at e ⊢
        cases q with
        | error x => cases e
        | ok v4 => cases e; rfl

theorem forward_table (lv : Simd.Level) (hc : CostOk cm) {st0 : State} (hs : Sized st0) (hrep : Reports lv st0 data tbl)
    (count i : Nat) (hn : i + count = data.length) (st : State) (hst : tablesAt st0 data i = .ok st) (dp : Dp)
    (h : DpOk data dp) (hr : Reached dp i) :
    Oks (forward lv cm data count i st dp) (fun r => forwardT cm data tbl count i dp = .ok r.1) := by
  induction count generalizing i st dp with
  | zero => exact .ok rfl
  | succ count ih =>
    have s1 := h.sCosts
    rw [forward, forwardT]
    obtain ⟨base, eb, hbase⟩ := (get_ok (l := dp.costs) (i := i) (by omega)).out
    have hb : base ≤ 2 ^ 189 := by
      obtain ⟨c, hc, hle⟩ := hr i (Nat.le_refl _)
      rw [hbase] at hc; cases hc; exact hle
    rw [eb, ok_bind, if_neg (base_lt hb), ok_bind]
    obtain ⟨s, e, hf⟩ := hrep i (by omega)
    rw [hst] at e; cases e
    rw [hf, ok_bind]
    obtain ⟨⟨dp1, _⟩, e1, h1, hr1, _⟩ := (tryAt_spec (Q := fun _ => True) (m := (.ok (tbl i, ()) : R _)) hc h (by omega) hr hb
      (.ok ⟨hrep.ok hs (by omega), trivial⟩)).out
    obtain ⟨st', e2, hst'⟩ := (tablesAt_ok hs data (i + 1)).out
    have e3 : updateHash st data i = .ok st' := by rw [tablesAt, hst, ok_bind] at e2; exact e2
    have e4 : tryAt cm data i base dp (pure (tbl i, ()) : R _) = .ok (dp1, ()) := e1
    simp only [e1, e4, ok_bind, e3]
    exact ih (i + 1) (by omega) st' e2 dp1 h1 hr1

/-- With a full cache nothing else is used. -/
theorem forwardCached_full (lv : Simd.Level) (hc : CostOk cm) (hsub : ∀ i, i < data.length → SubOk data i (tbl i))
    {cache : Cache} (hk : ∀ i, i < data.length → cache.lookup i = tbl i)
    (count i : Nat) (hn : i + count = data.length) (st : State) (dp : Dp) (h : DpOk data dp) (hr : Reached dp i) :
    Oks (forwardCached lv cm true data count i st cache dp) (fun r => forwardT cm data tbl count i dp = .ok r.1 ∧
      r.2.2 = cache) := by
  induction count generalizing i st dp with
  | zero => exact .ok ⟨rfl, rfl⟩
  | succ count ih =>
    have s1 := h.sCosts
    rw [forwardCached, forwardT]
    obtain ⟨base, eb, hbase⟩ := (get_ok (l := dp.costs) (i := i) (by omega)).out
    have hb : base ≤ 2 ^ 189 := by
      obtain ⟨c, hc, hle⟩ := hr i (Nat.le_refl _)
      rw [hbase] at hc; cases hc; exact hle
    rw [eb, ok_bind, if_neg (base_lt hb), ok_bind]
    obtain ⟨⟨dp1, _⟩, e1, h1, hr1, _⟩ := (tryAt_spec (Q := fun _ => True) (m := (.ok (tbl i, ()) : R _)) hc h (by omega) hr hb
      (.ok ⟨hsub i (by omega), trivial⟩)).out
    have e2 : cachedMatches lv true st data i cache = .ok (tbl i, (st, cache)) := by
      unfold cachedMatches; rw [if_pos rfl, hk i (by omega)]
    rw [e2, tryAt_ok e1, e1, ok_bind, ok_bind]
    exact ih (i + 1) (by omega) st dp1 h1 hr1

theorem put_lookup {c : Cache} {i : Nat} {e : List Nat × Nat} (hi : i < c.length) (he : SubOk data i e) :
    (c.put i e).lookup i = e ∧ (c.put i e).length = c.length ∧ ∀ j, j ≠ i → (c.put i e)[j]? = c[j]? := by
  have hu : asU16 e.2 = e.2 := by have := he.max; unfold asU16; omega
  unfold Cache.put Cache.lookup
  rw [hu]
  refine ⟨?_, List.length_set, fun j hj => by rw [List.getElem?_set, if_neg (by omega)]⟩
  rw [List.getElem?_set, if_pos rfl, if_pos hi]

/-- A run that fills the cache. -/
theorem forwardCached_fill (lv : Simd.Level) (hc : CostOk cm) {st0 : State} (hs : Sized st0) (hrep : Reports lv st0 data tbl)
    (count i : Nat) (hn : i + count = data.length) (st : State) (hst : tablesAt st0 data i = .ok st) (cache : Cache)
    (hl : cache.length = data.length) (hk : ∀ j, j < i → cache.lookup j = tbl j) (dp : Dp)
    (h : DpOk data dp) (hr : Reached dp i) :
    Oks (forwardCached lv cm false data count i st cache dp) (fun r => forwardT cm data tbl count i dp = .ok r.1 ∧
      r.2.2.length = data.length ∧ ∀ j, j < data.length → r.2.2.lookup j = tbl j) := by
  induction count generalizing i st cache dp with
  | zero =>
    rw [Nat.add_zero] at hn
    subst hn
    exact .ok ⟨rfl, hl, hk⟩
  | succ count ih =>
    have s1 := h.sCosts
    rw [forwardCached, forwardT]
    obtain ⟨base, eb, hbase⟩ := (get_ok (l := dp.costs) (i := i) (by omega)).out
    have hb : base ≤ 2 ^ 189 := by
      obtain ⟨c, hc, hle⟩ := hr i (Nat.le_refl _)
      rw [hbase] at hc; cases hc; exact hle
    rw [eb, ok_bind, if_neg (base_lt hb), ok_bind]
    obtain ⟨s, e, hf⟩ := hrep i (by omega)
    rw [hst] at e; cases e
    have hsub := hrep.ok hs (show i < data.length by omega)
    obtain ⟨⟨dp1, _⟩, e1, h1, hr1, _⟩ := (tryAt_spec (Q := fun _ => True) (m := (.ok (tbl i, ()) : R _)) hc h (by omega) hr hb
      (.ok ⟨hsub, trivial⟩)).out
    obtain ⟨st', e2, hst'⟩ := (tablesAt_ok hs data (i + 1)).out
    have e3 : updateHash st data i = .ok st' := by rw [tablesAt, hst, ok_bind] at e2; exact e2
    obtain ⟨p1, p2, p3⟩ := put_lookup (c := cache) (show i < cache.length by omega) hsub
    have e4 : cachedMatches lv false st data i cache = .ok (tbl i, (st', cache.put i (tbl i))) := by
      unfold cachedMatches
      rw [if_neg (by decide), hf, ok_bind]
      simp only []
      rw [e3, ok_bind, p1]
      rfl
    rw [e4, tryAt_ok e1, e1, ok_bind, ok_bind]
    refine ih (i + 1) (by omega) st' e2 (cache.put i (tbl i)) (by omega) ?_ dp1 h1 hr1
    intro j hj
    by_cases hji : j = i
    · subst hji; exact p1
    · have := hk j (by omega)
      unfold Cache.lookup at this ⊢
      rw [p3 j hji]; exact this

/-- A cache of the right size that is empty or holds the reports. -/
def CacheTrue (data : List UInt8) (tbl : Nat → List Nat × Nat) (c : Cache) : Prop :=
  c.length = data.length ∧ (c.populated = true → ∀ i, i < data.length → c.lookup i = tbl i)

theorem cacheTrue_new (data : List UInt8) (tbl : Nat → List Nat × Nat) : CacheTrue data tbl (Cache.new data.length) := by
  refine ⟨List.length_replicate, fun h => ?_⟩
  exfalso
  unfold Cache.populated Cache.new at h
  rw [List.any_eq_true] at h
  obtain ⟨x, hx, h⟩ := h
  rw [List.eq_of_mem_replicate hx] at h
  revert h
  decide

theorem compressOptimalCached_same (lv : Simd.Level) (hc : CostOk cm) {st st' : State} (h : Sized st) (h' : Sized st')
    (hcfg : st.config = st'.config) (hrep : Reports lv st data tbl) {c : Cache} (hk : CacheTrue data tbl c) :
    ∃ ts s1 s2 c', compressOptimal lv st' cm data = .ok (ts, s1) ∧ compressOptimalCached lv st cm data c = .ok (ts, (s2, c')) ∧
      CacheTrue data tbl c' := by
  have hrep' := hrep.same h h' hcfg
  by_cases hd : data.isEmpty = true
  · refine ⟨[], st', st, c, ?_, ?_, hk⟩
    · unfold compressOptimal; rw [if_pos hd]
    · unfold compressOptimalCached; rw [if_pos hd]
  obtain ⟨⟨ts, s1⟩, e, _⟩ := (compressOptimal_spec lv h' hc data).out
  have e0 := e
  unfold compressOptimal at e
  rw [if_neg hd] at e
  obtain ⟨⟨dp, t1⟩, ef, hf⟩ := (forward_table lv hc h' hrep' data.length 0 (Nat.zero_add _) _ rfl _ (dpOk_new data)
    (reached_new _)).out
  simp only [] at hf
  rw [ef, ok_bind] at e
  simp only [] at e
  have key : Oks (forwardCached lv cm c.populated data data.length 0 (if c.populated = true then st else st.resetChains) c
      (Dp.new data.length)) (fun r => forwardT cm data tbl data.length 0 (Dp.new data.length) = .ok r.1 ∧ CacheTrue data tbl r.2.2) := by
    cases hp : c.populated with
    | true =>
      refine Oks.mono (forwardCached_full lv hc (fun i hi => hrep.ok h hi) (hk.2 hp) data.length 0 (Nat.zero_add _) _ _
        (dpOk_new data) (reached_new _)) ?_
      rintro r ⟨a, b⟩
      exact ⟨a, b ▸ hk⟩
    | false =>
      refine Oks.mono (forwardCached_fill lv hc h hrep data.length 0 (Nat.zero_add _) _ rfl c hk.1
        (fun j hj => absurd hj (Nat.not_lt_zero _)) _ (dpOk_new data) (reached_new _)) ?_
      rintro r ⟨a, b, d⟩
      exact ⟨a, b, fun _ => d⟩
  obtain ⟨⟨dp', t2, c'⟩, ek, hk1, hk2⟩ := key.out
  simp only [] at hk1 hk2
  rw [hf] at hk1; cases hk1
  refine ⟨ts, s1, t2, c', e0, ?_, hk2⟩
  unfold compressOptimalCached
  rw [if_neg hd]
  simp only []
  rw [ek, ok_bind]
  simp only []
  cases et : traceBackwards dp data with
  | error x => rw [et] at e; cases e
  | ok ts' => rw [et, ok_bind] at e; cases e; rfl

end Pixo.Lz77
