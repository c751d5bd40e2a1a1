import Verif.Props.Lz77Work
import Verif.Props.Lz77Cheapest
/-
C109: the calls of `compress_optimal_cached` after the first (src/compress/lz77.rs:1066-1142): "on subsequent calls, it reuses cached matches".
-/
namespace Pixo.Props
open Pixo Pixo.Lz77

/-- The rounds over lengths if position `i` has the matches `tbl i`, for `count` positions from `i` on. -/
def lengthsFrom (tbl : Nat → List Nat × Nat) : Nat → Nat → Nat
  | _, 0 => 0
  | i, count + 1 => ((tbl i).2 - 2) + lengthsFrom tbl (i + 1) count

theorem lengthsFrom_zero {tbl : Nat → List Nat × Nat} (count i : Nat) (h : ∀ j, j < i + count → (tbl j).2 = 0) :
    lengthsFrom tbl i count = 0 := by
  induction count generalizing i with
  | zero => rfl
  | succ count ih =>
    rw [lengthsFrom, ih (i + 1) (fun j hj => h j (by omega)), h i (by omega)]

theorem lengthsFrom_eq {tbl tbl' : Nat → List Nat × Nat} (count i : Nat) (h : ∀ j, j < i + count → tbl j = tbl' j) :
    lengthsFrom tbl i count = lengthsFrom tbl' i count := by
  induction count generalizing i with
  | zero => rfl
  | succ count ih =>
    rw [lengthsFrom, lengthsFrom, ih (i + 1) (fun j hj => h j (by omega)), h i (by omega)]

/-- With the cache the work is that of the loops over lengths, without it every byte is put into the tables. -/
theorem forwardCached_counts (lv : Simd.Level) (useCache : Bool) {cm : CostModel} (hc : CostOk cm) {data : List UInt8} {cfg : Config}
    (count i : Nat) (hn : i + count = data.length) (st : State) (hs : Sized st ∧ st.config = cfg) (hw : useCache = false → CWF cfg st i)
    (cache : Cache) (hk : CacheOk data cache) (dp : Dp) (h : DpOk data dp) (hr : Reached dp i) :
    Costs (forwardCachedW lv cm useCache data count i st cache dp) (forwardCached lv cm useCache data count i st cache dp)
      (fun _ n => (useCache = true → n = lengthsFrom cache.lookup i count) ∧ (useCache = false → count ≤ n)) := by
  induction count generalizing i st cache dp with
  | zero => exact .ok ⟨fun _ => rfl, fun _ => Nat.zero_le _⟩
  | succ count ih =>
    have s1 := h.sCosts
    rw [forwardCachedW, forwardCached]
    refine .plain fun base he => ?_
    have hb : base ≤ 2 ^ 189 := by
      obtain ⟨c, hc, hle⟩ := hr i (Nat.le_refl _)
      unfold getChecked at he
      rw [hc] at he; cases he; exact hle
    rw [if_neg (base_lt hb), if_neg (base_lt hb)]
    have spec := (tryAt_spec (Q := fun (r : State × Cache) => (Sized r.1 ∧ r.1.config = cfg) ∧ (useCache = false → CWF cfg r.1 (i + 1)) ∧
      CacheOk data r.2) hc h (by omega) hr hb (cachedMatches_spec lv useCache hs hw hk)).out
    have step : Costs (cachedMatchesW lv useCache st data i cache) (cachedMatches lv useCache st data i cache)
        (fun r n => (fun (q : State × Cache) k => (useCache = true → k = (cache.lookup i).2 - 2 ∧ q.2 = cache) ∧ (useCache = false → 1 ≤ k)) r.2
          (n + (r.1.2 + 1 - MIN_MATCH_LENGTH))) := by
      unfold cachedMatchesW cachedMatches
      cases useCache with
      | true =>
        refine .ok ⟨fun _ => ⟨?_, rfl⟩, fun h => by cases h⟩
        dsimp only
        unfold MIN_MATCH_LENGTH
        omega
      | false =>
        rw [if_neg (by decide), if_neg (by decide)]
        refine .bind (findSublen_costs ..) ?_
        intro m a _ ha
        dsimp only
        refine .bind (updateHash_costs ..) ?_
        intro st1 b _ hb
        exact .pure ⟨(fun h => by cases h), fun _ => by omega⟩
    refine .bind (tryAt_costs (B := fun (q : State × Cache) k => (useCache = true → k = (cache.lookup i).2 - 2 ∧ q.2 = cache) ∧
      (useCache = false → 1 ≤ k)) cm data i base dp step) ?_
    rintro ⟨dp1, st1, cache1⟩ a hx ha
    obtain ⟨⟨dp2, st2, cache2⟩, e, h1, hr1, hs1, hw1, hk1⟩ := spec
    rw [hx] at e; cases e
    refine .last (f := fun b => a + b) (ih (i + 1) (by omega) st1 hs1 hw1 cache1 hk1 dp1 h1 hr1) ?_
    rintro _ b _ ⟨hb1, hb2⟩
    dsimp only at ha
    refine ⟨fun hu => ?_, fun hu => ?_⟩
    · obtain ⟨ha1, rfl⟩ := ha.1 hu
      rw [lengthsFrom, ← hb1 hu, ← ha1]
    · have := ha.2 hu
      have := hb2 hu
      omega

theorem compressOptimalCached_counts (lv : Simd.Level) {st : State} (hs : Sized st) {cm : CostModel} (hc : CostOk cm)
    {data : List UInt8} (hd : data ≠ []) {cache : Cache} (hk : CacheOk data cache) :
    Costs (compressOptimalCachedW lv st cm data cache) (compressOptimalCached lv st cm data cache)
      (fun _ n => (cache.populated = true → n = lengthsFrom cache.lookup 0 data.length) ∧ (cache.populated = false → data.length ≤ n)) := by
  unfold compressOptimalCachedW compressOptimalCached
  have he : ¬ data.isEmpty = true := fun h => hd (List.isEmpty_iff.1 h)
  rw [if_neg he, if_neg he]
  dsimp only
  have hs' : Sized (if cache.populated then st else st.resetChains) ∧
      (if cache.populated then st else st.resetChains).config = st.config := by
    split
    · exact ⟨hs, rfl⟩
    · exact ⟨(cwf_resetChains hs).sized, rfl⟩
  have hw' : cache.populated = false → CWF st.config (if cache.populated then st else st.resetChains) 0 := by
    intro h
    rw [if_neg (by rw [h]; decide)]
    exact cwf_resetChains hs
  refine .bind (forwardCached_counts lv cache.populated hc data.length 0 (by omega) _ hs' hw' cache hk _ (dpOk_new data) (reached_new _)) ?_
  rintro ⟨dp, st1, cache1⟩ n _ hn
  exact .plain fun ts _ => .pure hn

/-- A cache with an entry is populated. -/
theorem populated_of {c : Cache} {i : Nat} (h : 0 < (c.lookup i).2) : c.populated = true := by
  unfold Cache.lookup at h
  split at h
  · rename_i e he
    unfold Cache.populated
    rw [List.any_eq_true]
    exact ⟨e, List.mem_of_getElem? he, by simpa using h⟩
  · exact absurd h (by decide)

theorem not_populated {c : Cache} {n : Nat} (hl : c.length = n) (h : ∀ i, i < n → (c.lookup i).2 = 0) : c.populated = false := by
  cases hp : c.populated with
  | false => rfl
  | true =>
    unfold Cache.populated at hp
    rw [List.any_eq_true] at hp
    obtain ⟨e, he, hpos⟩ := hp
    obtain ⟨i, hi⟩ := List.getElem?_of_mem he
    have hlt : i < n := by rw [← hl]; exact (List.getElem?_eq_some_iff.1 hi).1
    have := h i hlt
    unfold Cache.lookup at this
    rw [hi] at this
    simp only [decide_eq_true_eq] at hpos
    simp only [] at this
    omega

/-- The cache after a call holds what the searches reported. -/
theorem after_call {lv : Simd.Level} {level : Nat} {data : List UInt8} (hd : data ≠ []) {tbl : Nat → List Nat × Nat} {c : Cache}
    (hk : CacheTrue data tbl c) {st : State} (h : History level st) (hrep : Lz77.Reports lv (State.new level) data tbl) {cm : CostModel}
    (hc : MadeCostModel cm) {ts : List Token} {st' : State} {c' : Cache} (e : compressOptimalCached lv st cm data c = .ok (ts, (st', c'))) :
    c'.length = data.length ∧ ∀ i, i < data.length → c'.lookup i = tbl i := by
  have hrep' := hrep.same (sized_new level) h.ok.1 h.ok.2.symm
  have he : ¬ data.isEmpty = true := fun h => hd (List.isEmpty_iff.1 h)
  unfold compressOptimalCached at e
  rw [if_neg he] at e
  dsimp only at e
  obtain ⟨⟨dp, s2, c2⟩, e1, e2⟩ := ok_of_bind e
  obtain ⟨_, _, e3⟩ := ok_of_bind e2
  have e4 : c2 = c' := by
    injection e3 with e3
    exact congrArg (fun q => q.2.2) e3
  subst e4
  cases hp : c.populated with
  | true =>
    rw [hp] at e1
    obtain ⟨r, er, _, hcc⟩ := (forwardCached_full lv hc.ok (fun i hi => hrep'.ok h.ok.1 hi) (hk.2 hp) data.length 0 (Nat.zero_add _) _ _
      (dpOk_new data) (reached_new _)).out
    rw [e1] at er; cases er
    have hcc : c2 = c := hcc
    subst hcc
    exact ⟨hk.1, hk.2 hp⟩
  | false =>
    rw [hp] at e1
    obtain ⟨r, er, _, hl, hcc⟩ := (forwardCached_fill lv hc.ok h.ok.1 hrep' data.length 0 (Nat.zero_add _) _ rfl c hk.1
      (fun j hj => absurd hj (Nat.not_lt_zero _)) _ (dpOk_new data) (reached_new _)).out
    rw [if_neg (by decide)] at e1
    rw [e1] at er; cases er
    exact ⟨hl, hcc⟩

/-- What is meant by a call after the first: on the same data, with the cache another call left behind, by compressors of one level. -/
structure Again (lv : Simd.Level) (level : Nat) (data : List UInt8) (c : Cache) : Prop where
  before : ∃ c0 st cm ts st', CacheFor lv level data c0 ∧ History level st ∧ MadeCostModel cm ∧
    compressOptimalCached lv st cm data c0 = .ok (ts, (st', c))

/-- **C109**, full statement: a call after the first does nothing but try the lengths the first one found. It is false, see below. -/
def C109_full : Prop :=
  ∀ (lv : Simd.Level) (level : Nat) (data : List UInt8) (c : Cache), Again lv level data c →
    ∀ (st : State) (cm : CostModel), History level st → MadeCostModel cm →
    ∃ r n, compressOptimalCachedW lv st cm data c = .ok (r, n) ∧ n = lengthsFrom c.lookup 0 data.length

/-- **C109**, when it holds: exactly if the search found a match at some position (`tbl i` is what it finds at position `i`: the distance for
each length, and the longest length). Otherwise all positions are searched again. -/
theorem C109_partial {lv : Simd.Level} {level : Nat} {data : List UInt8} (hd : data ≠ []) {c : Cache} (ha : Again lv level data c)
    {st : State} {cm : CostModel} (h : History level st) (hc : MadeCostModel cm) {tbl : Nat → List Nat × Nat}
    (hrep : Lz77.Reports lv (State.new level) data tbl) :
    ∃ r n, compressOptimalCachedW lv st cm data c = .ok (r, n) ∧ compressOptimalCached lv st cm data c = .ok r ∧
      ((∃ i, i < data.length ∧ 0 < (tbl i).2) → n = lengthsFrom tbl 0 data.length) ∧
      ((∀ i, i < data.length → (tbl i).2 = 0) → data.length ≤ n ∧ lengthsFrom tbl 0 data.length = 0) := by
  obtain ⟨c0, st0, cm0, ts0, st0', hc0, h0, hcm0, e0⟩ := ha.before
  obtain ⟨hl, hlook⟩ := after_call hd (hc0.true hrep) h0 hrep hcm0 e0
  have hcache : CacheOk data c := by
    intro i x hx
    have hi : i < data.length := by rw [← hl]; exact (List.getElem?_eq_some_iff.1 hx).1
    have := hlook i hi
    unfold Cache.lookup at this
    rw [hx] at this
    simp only [] at this
    rw [this]
    exact hrep.ok (sized_new level) hi
  obtain ⟨r0, er, _⟩ := (compressOptimalCached_spec lv h.ok.1 hc.ok hcache).out
  rcases compressOptimalCached_counts lv h.ok.1 hc.ok hd hcache with ⟨x, _, hx⟩ | ⟨a, n, hw, hx, hn1, hn2⟩
  · rw [er] at hx; cases hx
  · refine ⟨a, n, hw, hx, ?_, ?_⟩
    · rintro ⟨i, hi, hpos⟩
      rw [hn1 (populated_of (by rw [hlook i hi]; exact hpos))]
      exact lengthsFrom_eq _ _ fun j hj => hlook j (by omega)
    · intro hz
      exact ⟨hn2 (not_populated hl fun i hi => by rw [hlook i hi]; exact hz i hi), lengthsFrom_zero _ _ fun j hj => hz j (by omega)⟩

/-- Eight different bytes. -/
def octet : List UInt8 := [1, 2, 3, 4, 5, 6, 7, 8]

/-- The second call on eight different bytes does as much as the first. -/
theorem octet_again : (do
    let (r, n) ← compressOptimalCachedW .scalar (State.new 9) CostModel.fixed octet (Cache.new 8)
    let (_, n2) ← compressOptimalCachedW .scalar (State.new 9) CostModel.fixed octet r.2.2
    return (n, n2, lengthsFrom r.2.2.lookup 0 8)) = (.ok (14, 14, 0) : R _) := by decide +kernel

/-- **C109** is false: where nothing is repeated, every call searches again. -/
theorem C109_violation : ¬ C109_full := by
  intro hfull
  have h2 := octet_again
  obtain ⟨⟨⟨ts, st', c⟩, n⟩, e1, h2⟩ := ok_of_bind h2
  obtain ⟨⟨r2, n2⟩, e2, h2⟩ := ok_of_bind h2
  injection h2 with h2
  have hn2 : n2 = 14 := congrArg (fun q => q.2.1) h2
  have hsum : lengthsFrom c.lookup 0 8 = 0 := congrArg (fun q => q.2.2) h2
  have hx : compressOptimalCached .scalar (State.new 9) CostModel.fixed octet (Cache.new 8) = .ok (ts, (st', c)) := by
    rcases compressOptimalCached_costs .scalar (sized_new 9) costOk_fixed (cacheOk_new octet 8) with ⟨x, hw, _⟩ | ⟨a, k, hw, hx, _⟩
    · rw [e1] at hw; cases hw
    · rw [e1] at hw; cases hw
      exact hx
  obtain ⟨r', n', e', hn'⟩ := hfull .scalar 9 octet c ⟨_, _, _, _, _, .new, .new, Or.inl rfl, hx⟩ (State.new 9) CostModel.fixed .new (Or.inl rfl)
  have e2 : compressOptimalCachedW .scalar (State.new 9) CostModel.fixed octet c = .ok (r2, n2) := e2
  rw [e2] at e'
  injection e' with e'
  have hn : n2 = n' := congrArg Prod.snd e'
  have hs : lengthsFrom c.lookup 0 octet.length = 0 := hsum
  omega

/-- A cache that is used: the first call takes 80 steps, the second 21, all of them for lengths. -/
example : (do
    let data := [97, 98, 99, 100, 101, 102, 103, 104, 46, 58, 97, 98, 99, 100, 101, 102, 103, 104]
    let (r, n) ← compressOptimalCachedW .scalar (State.new 9) CostModel.fixed data (Cache.new data.length)
    let (_, n2) ← compressOptimalCachedW .scalar (State.new 9) CostModel.fixed data r.2.2
    return (n, n2, lengthsFrom r.2.2.lookup 0 18)) = (.ok (80, 21, 21) : R _) := by decide +kernel

end Pixo.Props
