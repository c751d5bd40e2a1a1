import Verif.Proof.Lz77Optimal
/-
C05: the tokens of the LZ77 stage reproduce the input.
C26 (LZ77 part): the tokens do not depend on what was compressed before.
C40 (match length part): all accelerated match length functions agree.

`lv` is the instruction set in use; it may even differ between the calls of a history.
-/
namespace Pixo.Props
open Spec Spec.Rfc1951 Pixo.Lz77

/-- The tokens denote `data`, and every match is one DEFLATE can express. That no match
reaches before the start is part of `expand` being defined. -/
def Denotes (ts : List Lz77.Token) (data : List UInt8) : Prop :=
  expand (ts.map fun | .lit b => .lit b | .mtch l d => .copy l d) = some data ∧
  ∀ l d, Lz77.Token.mtch l d ∈ ts → 3 ≤ l ∧ l ≤ 258 ∧ 1 ≤ d ∧ d ≤ 32768

/-- A cost model made by one of its two constructors; its fields are private
(src/compress/lz77.rs:1213-1218). `log2` is any function that maps counts between 1 and
`2^32 - 1` to values between 0 and 32. -/
def MadeCostModel (cm : CostModel) : Prop :=
  cm = CostModel.fixed ∨ ∃ log2 lit dist, LogOk log2 ∧ lit.length = 286 ∧ dist.length = 30 ∧
    CostModel.fromStatistics log2 lit dist = .ok cm

/-- A cache as it is after `LongestMatchCache::new` and any number of calls of
`compress_optimal_cached` on the same data. -/
inductive MadeCache (data : List UInt8) : Cache → Prop
  | new (n : Nat) : MadeCache data (Cache.new n)
  | used {lv st cm c ts st' c'} : MadeCache data c → Sized st → MadeCostModel cm →
      compressOptimalCached lv st cm data c = .ok (ts, st', c') → MadeCache data c'

/-- The compressors that arise from `Lz77Compressor::new(level)` by any history of calls. -/
inductive History (level : Nat) : State → Prop
  | new : History level (State.new level)
  | compress {st lv data ts st'} : History level st → Lz77.compress lv st data = .ok (ts, st') →
      History level st'
  | packed {st lv data ps st'} : History level st → compressPacked lv st data = .ok (ps, st') →
      History level st'
  | optimal {st lv cm data ts st'} : History level st → MadeCostModel cm →
      compressOptimal lv st cm data = .ok (ts, st') → History level st'
  | cached {st lv cm data c ts st' c'} : History level st → MadeCostModel cm → MadeCache data c →
      compressOptimalCached lv st cm data c = .ok (ts, st', c') → History level st'

theorem sumU32_lt {l : List Nat} {acc r : Nat} (h : sumU32 l acc = .ok r) (ha : acc < 2 ^ 32) :
    acc + l.sum < 2 ^ 32 := by
  induction l generalizing acc with
  | nil => simpa using ha
  | cons c cs ih =>
    rw [sumU32] at h
    split at h
    · rename_i h1
      have := ih h h1
      rw [List.sum_cons]; omega
    · cases h

theorem MadeCostModel.ok {cm : CostModel} (h : MadeCostModel cm) : CostOk cm := by
  rcases h with rfl | ⟨log2, lit, dist, hl, h1, h2, e⟩
  · exact costOk_fixed
  · have key : ∀ x, x = CostModel.fromStatistics log2 lit dist → x = .ok cm → CostOk cm := by
      intro x hx hxo
      unfold CostModel.fromStatistics at hx
      cases hs : sumU32 lit 0 with
      | error er => rw [hs] at hx; rw [hx] at hxo; cases hxo
      | ok t =>
        have ht := sumU32_lt hs (by decide)
        have hval := sumU32_spec lit 0 ht
        rw [hs] at hval; cases hval
        rw [hs, ok_bind] at hx
        simp only [Nat.zero_add] at hx ht
        split at hx
        · rename_i hpos
          have hb := entropy_bound hl hpos ht lit (sum_ge_mem lit)
          cases hd : sumU32 dist 0 with
          | error er => rw [hd] at hx; rw [hx] at hxo; cases hxo
          | ok t2 =>
            rw [hd, ok_bind] at hx
            split at hx
            · rw [hx] at hxo; cases hxo
              exact ⟨by simp [entropyCosts, h1], by simp [entropyCosts, h2], hb⟩
            · rw [hx] at hxo; cases hxo
              exact ⟨by simp [entropyCosts, h1], List.length_replicate, hb⟩
        · rw [hx] at hxo; cases hxo; exact costOk_fixed
    exact key _ rfl e

theorem MadeCache.ok {data : List UInt8} {c : Cache} (h : MadeCache data c) : CacheOk data c := by
  induction h with
  | new n => exact cacheOk_new data n
  | used _ hs hc e ih =>
    obtain ⟨r, e', h⟩ := (compressOptimalCached_spec _ hs hc.ok ih).out
    rw [e] at e'; cases e'
    exact h.2.2.2

theorem History.ok {level : Nat} {st : State} (h : History level st) :
    Sized st ∧ st.config = (State.new level).config := by
  induction h with
  | new => exact ⟨sized_new level, rfl⟩
  | compress _ e ih =>
    obtain ⟨r, e', h⟩ := (compress_spec _ ih.1 _).out
    rw [e] at e'; cases e'
    exact ⟨h.2.1, h.2.2.trans ih.2⟩
  | packed _ e ih =>
    obtain ⟨r, e', h⟩ := (compressPacked_spec _ ih.1 _).out
    rw [e] at e'; cases e'
    exact ⟨h.1, h.2.1.trans ih.2⟩
  | optimal _ hc e ih =>
    obtain ⟨r, e', h⟩ := (compressOptimal_spec _ ih.1 hc.ok _).out
    rw [e] at e'; cases e'
    exact ⟨h.2.1, h.2.2.trans ih.2⟩
  | cached _ hc hk e ih =>
    obtain ⟨r, e', h⟩ := (compressOptimalCached_spec _ ih.1 hc.ok hk.ok).out
    rw [e] at e'; cases e'
    exact ⟨h.2.1, h.2.2.1.trans ih.2⟩

theorem _root_.Pixo.Lz77.Sound.denotes {data : List UInt8} {ts : List Lz77.Token} (h : Sound data ts data.length) :
    Denotes ts data := by
  refine ⟨?_, h.limits⟩
  have := h.expands
  rw [List.take_length] at this
  rw [← this]
  congr 2

/-- `compress` returns, without panicking, tokens that denote the input. -/
theorem C05_compress {level : Nat} {st : State} (h : History level st) (lv : Simd.Level) (data : List UInt8) :
    ∃ ts st', Lz77.compress lv st data = .ok (ts, st') ∧ Denotes ts data := by
  obtain ⟨⟨ts, st'⟩, e, hs⟩ := (compress_spec lv h.ok.1 data).out
  exact ⟨ts, st', e, hs.1.denotes⟩

/-- `compress_packed` returns, without panicking, packed tokens. Read back with `as_literal` and
`as_match` they are tokens that denote the input. -/
theorem C05_compress_packed {level : Nat} {st : State} (h : History level st) (lv : Simd.Level)
    (data : List UInt8) :
    ∃ ps st' ts, compressPacked lv st data = .ok (ps, st') ∧ Denotes ts data ∧ ps.length = ts.length ∧
      ∀ (i : Nat) (t : Lz77.Token), ts[i]? = some t → ∃ p, ps[i]? = some p ∧
        match t with
        | .lit b => asLiteral p = some b
        | .mtch l d => asLiteral p = none ∧ asMatch p = .ok (some (l, d)) := by
  obtain ⟨⟨ps, st'⟩, e, _, _, ts, hs, _, hm⟩ := (compressPacked_spec lv h.ok.1 data).out
  have hlen : ps.length = ts.length := by simpa using congrArg List.length hm
  refine ⟨ps, st', ts, e, hs.denotes, hlen, ?_⟩
  intro i t hi
  have hlt : i < ps.length := by rw [hlen]; exact (List.getElem?_eq_some_iff.1 hi).1
  refine ⟨ps[i], List.getElem?_eq_getElem hlt, ?_⟩
  have h1 : unpack ps[i] = .ok (some t) := by
    have := congrArg (·[i]?) hm
    simp only [List.getElem?_map, hi, List.getElem?_eq_getElem hlt, Option.map_some] at this
    exact Option.some.inj this
  unfold unpack at h1
  split at h1
  · rename_i b hb
    cases h1; exact hb
  · rename_i hb
    cases hx : asMatch ps[i] with
    | error er => rw [hx] at h1; cases h1
    | ok o =>
      rw [hx] at h1
      cases o with
      | none => cases h1
      | some q => cases h1; exact ⟨hb, rfl⟩

/-- The optimal parser, with every cost model, returns tokens that denote the input. -/
theorem C05_compress_optimal {level : Nat} {st : State} (h : History level st) (lv : Simd.Level)
    {cm : CostModel} (hc : MadeCostModel cm) (data : List UInt8) :
    ∃ ts st', compressOptimal lv st cm data = .ok (ts, st') ∧ Denotes ts data := by
  obtain ⟨⟨ts, st'⟩, e, hs⟩ := (compressOptimal_spec lv h.ok.1 hc.ok data).out
  exact ⟨ts, st', e, hs.1.denotes⟩

/-- The same with the match cache, in every state the cache can be in. -/
theorem C05_compress_optimal_cached {level : Nat} {st : State} (h : History level st) (lv : Simd.Level)
    {cm : CostModel} (hc : MadeCostModel cm) {data : List UInt8} {c : Cache} (hk : MadeCache data c) :
    ∃ ts st' c', compressOptimalCached lv st cm data c = .ok (ts, st', c') ∧ Denotes ts data := by
  obtain ⟨⟨ts, st', c'⟩, e, hs⟩ := (compressOptimalCached_spec lv h.ok.1 hc.ok hk.ok).out
  exact ⟨ts, st', c', e, hs.1.denotes⟩

/-- A repetitive input: literals, then an overlapping match. -/
example : (Lz77.compress .scalar (State.new 6) [97, 98, 99, 97, 98, 99, 97, 98, 99, 100]).map Prod.fst =
    .ok [.lit 97, .lit 98, .lit 99, .mtch 6 3, .lit 100] := by decide +kernel

/-- The fast level, with a run. -/
example : (Lz77.compress .avx2 (State.new 1) [1, 7, 7, 7, 7, 7, 7, 7, 2]).map Prod.fst =
    .ok [.lit 1, .lit 7, .mtch 6 1, .lit 2] := by decide +kernel

example : History 6 (State.new 6) := .new
example : MadeCostModel CostModel.fixed := Or.inl rfl

/-- A used compressor. -/
example : ∃ st, History 1 st ∧ st.ht0.val ≠ (State.new 1).ht0.val := by
  obtain ⟨⟨ts, st⟩, e⟩ : ∃ r, Lz77.compress .scalar (State.new 1) [1, 2, 3, 4, 5] = .ok r := by
    obtain ⟨ts, st, e, _⟩ := C05_compress (level := 1) .new .scalar [1, 2, 3, 4, 5]
    exact ⟨_, e⟩
  refine ⟨st, History.compress .new e, fun h => ?_⟩
  have h1 : (Lz77.compress .scalar (State.new 1) [1, 2, 3, 4, 5]).map
      (fun r => (List.range 32768).any (fun i => r.2.ht0.val i != -1)) = .ok true := by decide +kernel
  rw [e] at h1
  simp only [Except.map, Except.ok.injEq, h] at h1
  revert h1; simp [State.new, Tab.new]

/-- C26 for the LZ77 stage: after any history, a compressor returns the tokens a new one
returns. -/
theorem C26_lz77 {level : Nat} {st : State} (h : History level st) (lv : Simd.Level) (data : List UInt8) :
    (Lz77.compress lv st data).map Prod.fst = (Lz77.compress lv (State.new level) data).map Prod.fst :=
  compress_history h.ok.1 (sized_new level) h.ok.2 lv data

/-- The same for packed tokens. -/
theorem C26_lz77_packed {level : Nat} {st : State} (h : History level st) (lv : Simd.Level)
    (data : List UInt8) :
    (compressPacked lv st data).map Prod.fst = (compressPacked lv (State.new level) data).map Prod.fst := by
  have := C26_lz77 h lv data
  unfold compressPacked
  cases h1 : Lz77.compress lv st data with
  | error e => cases h2 : Lz77.compress lv (State.new level) data with
    | error e2 => rw [h1, h2] at this; cases this; rfl
    | ok r => rw [h1, h2] at this; cases this
  | ok r => cases h2 : Lz77.compress lv (State.new level) data with
    | error e2 => rw [h1, h2] at this; cases this
    | ok r2 =>
      rw [h1, h2] at this
      obtain ⟨a, b⟩ := r
      obtain ⟨a2, b2⟩ := r2
      simp only [Except.map, Except.ok.injEq] at this
      subst this
      rw [ok_bind, ok_bind]
      simp only []
      cases a.mapM pack <;> rfl

/-- C40, match length: for every instruction set the result is the length of the longest common
prefix of the two positions, up to the limit. In particular all of them agree, and none reads
outside the data. -/
theorem C40_match_length (lv : Simd.Level) (data : List UInt8) (p1 p2 maxLen : Nat)
    (h1 : p1 + maxLen ≤ data.length) (h2 : p2 + maxLen ≤ data.length) :
    ∃ l, Simd.matchLength lv data p1 p2 maxLen = .ok l ∧ l ≤ maxLen ∧
      (∀ i, i < l → data[p1 + i]? = data[p2 + i]?) ∧
      (l < maxLen → data[p1 + l]? ≠ data[p2 + l]?) := by
  obtain ⟨l, e, h⟩ := (MatchLength.matchLength_spec lv data p1 p2 maxLen h1 h2).out
  exact ⟨l, e, h⟩

theorem C40_match_length_agree (lv lv' : Simd.Level) (data : List UInt8) (p1 p2 maxLen : Nat)
    (h1 : p1 + maxLen ≤ data.length) (h2 : p2 + maxLen ≤ data.length) :
    Simd.matchLength lv data p1 p2 maxLen = Simd.matchLength lv' data p1 p2 maxLen := by
  obtain ⟨l, e, h⟩ := (MatchLength.matchLength_spec lv data p1 p2 maxLen h1 h2).out
  obtain ⟨l', e', h'⟩ := (MatchLength.matchLength_spec lv' data p1 p2 maxLen h1 h2).out
  rw [e, e', MatchLength.isLcp_unique h h']

/-- A mismatch after a full vector, for the three vector widths. -/
example : (Simd.matchLength .avx2 (List.replicate 40 5 ++ List.replicate 37 5 ++ [6, 5, 5]) 0 40 40,
    Simd.matchLength .sse2 (List.replicate 40 5 ++ List.replicate 37 5 ++ [6, 5, 5]) 0 40 40,
    Simd.matchLength .neon (List.replicate 40 5 ++ List.replicate 37 5 ++ [6, 5, 5]) 0 40 40) =
    (.ok 37, .ok 37, .ok 37) := by decide +kernel

end Pixo.Props
