import Verif.Props.Lz77
import Verif.Proof.Lz77Fixed
import Verif.Proof.Lz77Cache
/-
C70: when the optimal parser finds a cheapest sequence of tokens, and that it does not always.
C71: when the match search finds the shortest distance for every length, and that it does not always.
C72: the match cache does not change the tokens.
-/
namespace Pixo.Props
open Spec Pixo.Lz77
open Spec.Rfc1951 (lengthTable distTable fixedLit fixedDist Body expand)

/-- The tokens in the notation of RFC 1951. -/
def rfc (ts : List Lz77.Token) : List Rfc1951.Token :=
  ts.map fun | .lit b => .lit b | .mtch l d => .copy l d

theorem rfc_eq (ts : List Lz77.Token) : rfc ts = ts.map Lz77.Token.spec := by
  unfold rfc
  apply List.map_congr_left
  intro t _
  cases t <;> rfl

/-- The price of a token sequence under a cost model: the prices of its symbols and extra bits, added
up from the left in `f32`. -/
def Cost (cm : CostModel) (ts : List Lz77.Token) (v : Int) : Prop :=
  LzPrice.Total addF ofNatF cm.litLen cm.dist 0 (rfc ts) v

/-- No sequence of tokens that denotes the same data has a lower price. -/
def Cheapest (cm : CostModel) (ts : List Lz77.Token) (data : List UInt8) : Prop :=
  Denotes ts data ∧ ∃ v, Cost cm ts v ∧ ∀ ts' v', Denotes ts' data → Cost cm ts' v' → v ≤ v'

/-- The claim of the documentation of `compress_optimal` (src/compress/lz77.rs:986-995): the result is
"the globally optimal sequence of tokens that minimizes total bit cost". It does not hold, see
`C70_fails_hash` and `C70_fails_distance`. -/
def C70_full : Prop :=
  ∀ (level : Nat) (st : State) (lv : Simd.Level) (cm : CostModel) (data : List UInt8), History level st →
    MadeCostModel cm → ∃ ts st', compressOptimal lv st cm data = .ok (ts, st') ∧ Cheapest cm ts data

/-- `data` has at `pos` the same `l` bytes as `d` before, and DEFLATE can say so. -/
structure Repeats (data : List UInt8) (pos l d : Nat) : Prop where
  len : 3 ≤ l ∧ l ≤ 258 ∧ pos + l ≤ data.length
  dist : 1 ≤ d ∧ d ≤ 32768 ∧ d ≤ pos
  same : ∀ i, i < l → data[pos - d + i]? = data[pos + i]?

theorem repeats_valid {data : List UInt8} {pos len dist : Nat} : Repeats data pos len dist ↔ Valid data pos len dist :=
  ⟨fun h => ⟨h.len.1, h.len.2.1, h.len.2.2, h.dist.1, h.dist.2.1, h.dist.2.2, h.same⟩,
    fun h => ⟨⟨h.min, h.max, h.fits⟩, ⟨h.near, h.far, h.back⟩, h.same⟩⟩

/-- What the match search reports at position `pos`, after the positions before it were entered
(src/compress/lz77.rs:996-1056). -/
def searchAt (lv : Simd.Level) (st : State) (data : List UInt8) (pos : Nat) : R (List Nat × Nat) := do
  let s ← tablesAt st data pos
  findSublen lv s data pos

/-- Every match of the sequence, which begins at position `pos`, is one that the search reports. -/
inductive Found (lv : Simd.Level) (st : State) (data : List UInt8) : Nat → List Lz77.Token → Prop
  | nil (pos : Nat) : Found lv st data pos []
  | lit {pos b ts} : Found lv st data (pos + 1) ts → Found lv st data pos (.lit b :: ts)
  | mtch {pos l d ts sub mx} : searchAt lv st data pos = .ok (sub, mx) → l ≤ mx → sub[l]? = some d →
      Found lv st data (pos + l) ts → Found lv st data pos (.mtch l d :: ts)

/-- No two different triples of bytes up to `pos` have the same hash; more exactly, whatever has the hash of the three bytes at `pos` is
equal to them. -/
def HashesApart (data : List UInt8) : Prop := ∀ pos, pos < data.length → NoClash data pos

/-- At every position the chain of earlier positions with the same four-byte hash, in reach, is no longer
than the search will follow at this level. -/
def ChainsShort (level : Nat) (data : List UInt8) : Prop :=
  ∀ pos, pos < data.length →
    Uncrowded (min (State.new level).config.maxChain (State.new level).config.maxDepth) data pos

/-- Longer distances do not cost less. -/
def DistancesOrdered (cm : CostModel) : Prop :=
  ∀ l d d' c c', d ≤ d' → LzPrice.Priced addF ofNatF cm.litLen cm.dist (.copy l d) c →
    LzPrice.Priced addF ofNatF cm.litLen cm.dist (.copy l d') c' → c ≤ c'

theorem searchAt_reports {lv : Simd.Level} {st : State} {data : List UInt8} {tbl : Nat → List Nat × Nat}
    (h : Reports lv st data tbl) {pos : Nat} (hp : pos < data.length) : searchAt lv st data pos = .ok (tbl pos) := by
  obtain ⟨s, e, hf⟩ := h pos hp
  unfold searchAt
  rw [e, ok_bind, hf]

theorem found_of_onOffer {lv : Simd.Level} {st : State} {data : List UInt8} {tbl : Nat → List Nat × Nat}
    (h : Reports lv st data tbl) {pos : Nat} {ts : List Lz77.Token} (hs : Steps data pos ts) (ho : OnOffer data tbl pos ts) :
    Found lv st data pos ts := by
  induction hs with
  | nil => exact .nil _
  | lit _ _ ih => cases ho with | lit ho => exact .lit (ih ho)
  | mtch hv _ ih =>
    cases ho with
    | mtch h1 h2 ho =>
      have := hv.fits
      have := hv.min
      exact .mtch (searchAt_reports h (by omega)) h1 h2 (ih ho)

theorem onOffer_of_found {lv : Simd.Level} {st : State} {data : List UInt8} {tbl : Nat → List Nat × Nat}
    (h : Reports lv st data tbl) {pos : Nat} {ts : List Lz77.Token} (hs : Steps data pos ts) (ho : Found lv st data pos ts) :
    OnOffer data tbl pos ts := by
  induction hs with
  | nil => exact .nil _
  | lit _ _ ih => cases ho with | lit ho => exact .lit (ih ho)
  | mtch hv _ ih =>
    cases ho with
    | mtch h0 h1 h2 ho =>
      have := hv.fits
      have := hv.min
      rw [searchAt_reports h (by omega)] at h0
      injection h0 with h0
      exact .mtch (by rw [h0]; exact h1) (by rw [h0]; exact h2) (ih ho)

theorem Denotes.steps {ts : List Lz77.Token} {data : List UInt8} (h : Denotes ts data) : Steps data 0 ts := by
  refine steps_of_expand ts 0 (Nat.zero_le _) ?_ h.2
  have := h.1
  change expand (rfc ts) = some data at this
  rw [rfc_eq] at this
  rw [List.take_zero]
  exact this

theorem compressOptimal_denotes {lv : Simd.Level} {st st' : State} {cm : CostModel} {data : List UInt8} {ts : List Lz77.Token}
    (hs : Sized st) (hc : CostOk cm) (e : compressOptimal lv st cm data = .ok (ts, st')) :
    Denotes ts data ∧ ts.length ≤ data.length := by
  obtain ⟨r, e', h⟩ := (compressOptimal_spec lv hs hc data).out
  rw [e] at e'; cases e'
  exact ⟨h.1.denotes, h.1.count⟩

/-- C70, in full generality: the result is cheapest among the sequences whose matches are all ones that the
search reports, and it is such a sequence. -/
theorem C70_search_partial {level : Nat} {st : State} (h : History level st) (lv : Simd.Level) {cm : CostModel}
    (hc : MadeCostModel cm) (data : List UInt8) :
    ∃ ts st' v, compressOptimal lv st cm data = .ok (ts, st') ∧ Denotes ts data ∧ Found lv st data 0 ts ∧ Cost cm ts v ∧
      ∀ ts' v', Denotes ts' data → Found lv st data 0 ts' → Cost cm ts' v' → v ≤ v' := by
  obtain ⟨tbl, hrep⟩ := reports_exist lv h.ok.1 data
  obtain ⟨ts, st', v, e, h1, h2, h3, _, h4⟩ := compressOptimal_cheapest lv h.ok.1 hc.ok hrep
  refine ⟨ts, st', v, e, (compressOptimal_denotes h.ok.1 hc.ok e).1, found_of_onOffer hrep h3 h1, ?_, ?_⟩
  · unfold Cost; rw [rfc_eq]; exact h2
  · intro ts' v' hd hf hv
    unfold Cost at hv
    rw [rfc_eq] at hv
    obtain ⟨pairs, hp⟩ := path_of_steps hd.steps (onOffer_of_found hrep hd.steps hf) hv
    exact h4 pairs v' hp

/-- The search finds everything, when hashes do not clash and chains are not too long. -/
theorem reports_all {level : Nat} {st : State} (h : History level st) (lv : Simd.Level) {data : List UInt8}
    (hn : data.length ≤ 2 ^ 31) {tbl : Nat → List Nat × Nat} (hrep : Reports lv st data tbl) {pos : Nat}
    (hp : pos < data.length) (h1 : NoClash data pos)
    (h2 : Uncrowded (min (State.new level).config.maxChain (State.new level).config.maxDepth) data pos) :
    SubOk data pos (tbl pos) ∧ Top (tbl pos) ∧ ∀ l d, Valid data pos l d → Has (tbl pos) l d := by
  obtain ⟨s, e, hf⟩ := hrep pos hp
  obtain ⟨s', e', hw, hch⟩ := (tablesAt_chained h.ok.1 hn pos).out
  rw [e] at e'; cases e'
  obtain ⟨m, em, g1, g2, g3, g4⟩ := (findSublen_has lv hw hch).out
  rw [hf] at em; cases em
  rw [h.ok.2] at g4
  refine ⟨g1, g2, fun l d hv => ?_⟩
  by_cases hl : l = 3
  · subst hl; exact g3 h1 d hv
  · exact g4 h2 l d (by have := hv.min; omega) hv

/-- C70 where it holds: when hashes do not clash, chains are not too long and longer distances do not cost less, the result is
cheapest among all sequences that denote the data. -/
theorem C70_optimal_partial {level : Nat} {st : State} (h : History level st) (lv : Simd.Level) {cm : CostModel}
    (hc : MadeCostModel cm) (hd : DistancesOrdered cm) (data : List UInt8) (hn : data.length ≤ 2 ^ 31)
    (h1 : HashesApart data) (h2 : ChainsShort level data) :
    ∃ ts st', compressOptimal lv st cm data = .ok (ts, st') ∧ Cheapest cm ts data := by
  obtain ⟨tbl, hrep⟩ := reports_exist lv h.ok.1 data
  obtain ⟨ts, st', v, e, g1, g2, g3, _, g4⟩ := compressOptimal_cheapest lv h.ok.1 hc.ok hrep
  refine ⟨ts, st', e, (compressOptimal_denotes h.ok.1 hc.ok e).1, v, ?_, ?_⟩
  · unfold Cost; rw [rfc_eq]; exact g2
  · intro ts' v' hden hv
    unfold Cost at hv
    rw [rfc_eq] at hv
    obtain ⟨pairs, y', hp, hle⟩ := path_of_any hc.ok hd
      (fun p hp l d hv => (reports_all h lv hn hrep hp (h1 p hp) (h2 p hp)).2.2 l d hv)
      (fun p hp => (reports_all h lv hn hrep hp (h1 p hp) (h2 p hp)).1) hden.steps (Int.le_refl 0) hv
    exact Int.le_trans (g4 pairs y' hp) hle

/-- C70 for the fixed code, in bits: of all bodies of a block with the fixed code (RFC 1951 §3.2.6) that
say `data`, with any tokens and any way to write them, none is shorter than that of the tokens the parser returns for the
fixed cost model. -/
theorem C70_fixed_partial {level : Nat} {st : State} (h : History level st) (lv : Simd.Level) (data : List UInt8)
    (hn : data.length < 2 ^ 19) (h1 : HashesApart data) (h2 : ChainsShort level data) :
    ∃ ts st' bits, compressOptimal lv st CostModel.fixed data = .ok (ts, st') ∧ expand (rfc ts) = some data ∧
      Body fixedLit fixedDist bits (rfc ts) ∧
      ∀ bits' ts', Body fixedLit fixedDist bits' ts' → expand ts' = some data → bits.length ≤ bits'.length := by
  obtain ⟨ts, st', e, hden, v, hv, hmin⟩ := C70_optimal_partial h lv (Or.inl rfl) farther_fixed data (by omega) h1 h2
  have hcount := (compressOptimal_denotes h.ok.1 costOk_fixed e).2
  have hl : (rfc ts).length = ts.length := List.length_map _
  obtain ⟨bits, n, hb, hbl, hy, hnl⟩ := fixed_body hv 0 (by decide) (by rw [hl]; omega)
  rw [hl] at hnl
  refine ⟨ts, st', bits, e, hden.1, hb, ?_⟩
  intro bits' ts' hb' hex
  by_cases hbig : bits'.length ≤ 2 ^ 24
  · obtain ⟨hlim, y, n', hy', hn', hyn⟩ := fixed_price hb' 0 (by omega)
    have e1 : rfc (ts'.map unspec) = ts' := by rw [rfc_eq, unspec_spec]
    have hd' : Denotes (ts'.map unspec) data := by
      refine ⟨?_, ?_⟩
      · show expand (rfc (ts'.map unspec)) = some data
        rw [e1]; exact hex
      · intro l d hm
        obtain ⟨t, ht, et⟩ := List.mem_map.1 hm
        cases t with
        | lit b => cases et
        | copy l' d' => cases et; exact hlim l d ht
    have hle := hmin (ts'.map unspec) y hd' (by unfold Cost; rw [e1]; exact hy')
    rw [hy] at hle
    have := ofNatF_le.1 (Int.le_trans hle hyn)
    omega
  · omega

/-- Chains are short on short data: at most 601 bytes at level 9, 5 bytes at level 1. -/
theorem chainsShort_of_length {level : Nat} {data : List UInt8}
    (h : data.length ≤ min (State.new level).config.maxChain (State.new level).config.maxDepth + 1) : ChainsShort level data := by
  intro pos hp hh _
  unfold chainCount
  refine Nat.le_trans List.countP_le_length ?_
  rw [List.length_range']
  omega

def decHashesApart (data : List UInt8) : Bool :=
  (List.range data.length).all fun pos => (List.range pos).all fun p =>
    !(decide (p + 3 < data.length)) || !(decide (hash3 data p = hash3 data pos)) ||
      (List.range 3).all fun i => decide (data[p + i]? = data[pos + i]?)

theorem hashesApart_of {data : List UInt8} (h : decHashesApart data = true) : HashesApart data := by
  intro pos hp p hpp h3 he i hi
  unfold decHashesApart at h
  have h := List.all_eq_true.1 h pos (List.mem_range.2 hp)
  have h := List.all_eq_true.1 h p (List.mem_range.2 hpp)
  rw [decide_eq_true h3, decide_eq_true he] at h
  simp only [Bool.not_true, Bool.false_or] at h
  exact of_decide_eq_true (List.all_eq_true.1 h i (List.mem_range.2 hi))

/-- "abcabcabcdabcd.abc" meets the hypotheses at level 9. -/
def sample : List UInt8 := [97, 98, 99, 97, 98, 99, 97, 98, 99, 100, 97, 98, 99, 100, 46, 97, 98, 99]

example : HashesApart sample ∧ ChainsShort 9 sample :=
  ⟨hashesApart_of (by decide +kernel), chainsShort_of_length (by decide)⟩

example : (compressOptimal .avx2 (State.new 9) CostModel.fixed sample).map Prod.fst =
    .ok [.lit 97, .lit 98, .lit 99, .mtch 6 3, .lit 100, .mtch 4 4, .lit 46, .mtch 3 5] := by decide +kernel

/-! ### Where it fails -/

theorem priced_unique {cm : CostModel} {t : Rfc1951.Token} {c c' : Int} (h : LzPrice.Priced addF ofNatF cm.litLen cm.dist t c)
    (h' : LzPrice.Priced addF ofNatF cm.litLen cm.dist t c') : c = c' := by
  generalize ht : t = t' at h'
  cases h with
  | lit b h1 =>
    cases h' with
    | lit b' h2 => cases ht; rw [h1] at h2; cases h2; rfl
    | copy => cases ht
  | copy i e j f a1 a2 a3 a4 a5 a6 a7 =>
    cases h' with
    | lit => cases ht
    | copy i' e' j' f' b1 b2 b3 b4 b5 b6 b7 =>
      injection ht with t1 t2
      have hi : i = i' := lengthTable_unique a1 b1 a2 b2 t1 a3 b3
      subst hi
      rw [a1] at b1; cases b1
      rw [a6] at b6; cases b6
      have hj1 : j ≤ j' := distTable_le (e := f) a4 b4 b5 (by omega)
      have hj2 : j' ≤ j := distTable_le (e := f') b4 a4 a5 (by omega)
      obtain rfl : j = j' := by omega
      rw [a4] at b4; cases b4
      rw [a7] at b7; cases b7
      rfl

theorem total_unique {cm : CostModel} {x y y' : Int} {ts : List Rfc1951.Token}
    (h : LzPrice.Total addF ofNatF cm.litLen cm.dist x ts y) (h' : LzPrice.Total addF ofNatF cm.litLen cm.dist x ts y') : y = y' := by
  induction h with
  | nil => cases h'; rfl
  | cons hp _ ih =>
    cases h' with
    | cons hp' hr =>
      rw [priced_unique hp' hp] at hr
      exact ih hr

/-- To refute: the result and a cheaper sequence. -/
theorem not_cheapest {cm : CostModel} {data : List UInt8} {ts ts' : List Lz77.Token} {v v' : Int} (h1 : Cost cm ts v)
    (h2 : Denotes ts' data) (h3 : Cost cm ts' v') (h4 : v' < v) : ¬ Cheapest cm ts data := by
  rintro ⟨_, w, hw, hmin⟩
  have := hmin ts' v' h2 h3
  rw [total_unique hw h1] at this
  omega

/-- "abclstabc": the hashes of "abc" and "lst" are equal, and the second hides the first. The parser returns nine
literals (72 bits in the fixed code); with a match they would be 61 bits. -/
def clash : List UInt8 := [97, 98, 99, 108, 115, 116, 97, 98, 99]

theorem clash_result : (compressOptimal .scalar (State.new 9) CostModel.fixed clash).map Prod.fst =
    .ok [.lit 97, .lit 98, .lit 99, .lit 108, .lit 115, .lit 116, .lit 97, .lit 98, .lit 99] := by decide +kernel

theorem clash_cost : Cost CostModel.fixed [.lit 97, .lit 98, .lit 99, .lit 108, .lit 115, .lit 116, .lit 97, .lit 98, .lit 99] (ofNatF 72) := by
  have e : ofNatF 72 = addF (addF (addF (addF (addF (addF (addF (addF (addF 0 (ofNatF 8)) (ofNatF 8)) (ofNatF 8)) (ofNatF 8)) (ofNatF 8)) (ofNatF 8))
      (ofNatF 8)) (ofNatF 8)) (ofNatF 8) := by decide +kernel
  rw [e]
  exact .cons (.lit 97 (by decide)) (.cons (.lit 98 (by decide)) (.cons (.lit 99 (by decide)) (.cons (.lit 108 (by decide)) (.cons (.lit 115 (by decide))
    (.cons (.lit 116 (by decide)) (.cons (.lit 97 (by decide)) (.cons (.lit 98 (by decide)) (.cons (.lit 99 (by decide)) (.nil _)))))))))

theorem clash_better : Cost CostModel.fixed [.lit 97, .lit 98, .lit 99, .lit 108, .lit 115, .lit 116, .mtch 3 6] (ofNatF 61) := by
  have e : ofNatF 61 = addF (addF (addF (addF (addF (addF (addF 0 (ofNatF 8)) (ofNatF 8)) (ofNatF 8)) (ofNatF 8)) (ofNatF 8)) (ofNatF 8))
      (addF (addF (ofNatF 7) (ofNatF 0)) (addF (ofNatF 5) (ofNatF 1))) := by decide +kernel
  rw [e]
  exact .cons (.lit 97 (by decide)) (.cons (.lit 98 (by decide)) (.cons (.lit 99 (by decide)) (.cons (.lit 108 (by decide)) (.cons (.lit 115 (by decide))
    (.cons (.lit 116 (by decide)) (.cons (.copy 0 0 4 1 (lb := 3) (lx := 0) (db := 5) (dx := 1) (by decide) (by decide) (by decide) (by decide) (by decide) (by decide) (by decide)) (.nil _)))))))

/-- C70 fails for two triples of bytes with one hash, with the fixed cost model at the highest level. -/
theorem C70_fails_hash : ∃ ts st', compressOptimal .scalar (State.new 9) CostModel.fixed clash = .ok (ts, st') ∧
    ¬ Cheapest CostModel.fixed ts clash := by
  have h := clash_result
  cases e : compressOptimal .scalar (State.new 9) CostModel.fixed clash with
  | error x => rw [e] at h; cases h
  | ok r =>
    obtain ⟨ts, st'⟩ := r
    rw [e] at h
    simp only [Except.map, Except.ok.injEq] at h
    subst h
    refine ⟨_, st', rfl, not_cheapest clash_cost ⟨by decide, ?_⟩ clash_better (by decide)⟩
    intro l d hm
    simp only [List.mem_cons, List.not_mem_nil, or_false, reduceCtorEq, false_or] at hm
    cases hm
    decide

theorem C70_not : ¬ C70_full := by
  intro h
  obtain ⟨ts, st', e, hc⟩ := h 9 _ .scalar CostModel.fixed clash .new (Or.inl rfl)
  obtain ⟨ts', st'', e', hn⟩ := C70_fails_hash
  rw [e] at e'; cases e'
  exact hn hc

/-- A model of statistics in which length 4 and the distances from 9 to 12 were the only ones used. -/
def fewCounts : List Nat × List Nat := ((List.replicate 286 0).set 258 1, (List.replicate 30 0).set 6 1)

def fewModel : CostModel :=
  ⟨(List.replicate 286 (ofNatF 15)).set 258 0, (List.replicate 30 (ofNatF 15)).set 6 0⟩

theorem fewModel_made : MadeCostModel fewModel := by
  refine Or.inr ⟨fun n => ofNatF n.log2, fewCounts.1, fewCounts.2, ?_, by decide +kernel, by decide +kernel, ?_⟩
  · intro n h1 h2
    refine ⟨by unfold ofNatF; exact Int.mul_nonneg (Int.natCast_nonneg _) (by decide), ofNatF_le.2 ?_⟩
    have := (Nat.log2_lt (by omega)).2 h2
    omega
  · have : (match CostModel.fromStatistics (fun n => ofNatF n.log2) fewCounts.1 fewCounts.2 with
      | .ok m => decide (m.litLen = fewModel.litLen ∧ m.dist = fewModel.dist)
      | .error _ => false) = true := by decide +kernel
    revert this
    split
    · rename_i m e
      intro h
      have := of_decide_eq_true h
      rw [e]
      cases m
      simp only [] at this
      obtain ⟨rfl, rfl⟩ := this
      rfl
    · intro h; cases h

/-- "abcd.abcd:abcd": the last four bytes are found at distances 5 and 10. The search keeps only the shorter one,
which under this model costs 16 bits instead of 2. -/
def twice : List UInt8 := [97, 98, 99, 100, 46, 97, 98, 99, 100, 58, 97, 98, 99, 100]

theorem twice_apart : HashesApart twice ∧ ChainsShort 9 twice :=
  ⟨hashesApart_of (by decide +kernel), chainsShort_of_length (by decide)⟩

theorem twice_result : (compressOptimal .scalar (State.new 9) fewModel twice).map Prod.fst =
    .ok [.lit 97, .lit 98, .lit 99, .lit 100, .lit 46, .mtch 4 5, .lit 58, .mtch 4 5] := by decide +kernel

theorem twice_cost : Cost fewModel [.lit 97, .lit 98, .lit 99, .lit 100, .lit 46, .mtch 4 5, .lit 58, .mtch 4 5] (ofNatF 122) := by
  have e : ofNatF 122 = addF (addF (addF (addF (addF (addF (addF (addF 0 (ofNatF 15)) (ofNatF 15)) (ofNatF 15)) (ofNatF 15)) (ofNatF 15))
      (addF (addF 0 (ofNatF 0)) (addF (ofNatF 15) (ofNatF 1)))) (ofNatF 15)) (addF (addF 0 (ofNatF 0)) (addF (ofNatF 15) (ofNatF 1))) := by
    decide +kernel
  rw [e]
  have m : LzPrice.Priced addF ofNatF fewModel.litLen fewModel.dist (.copy 4 5) (addF (addF 0 (ofNatF 0)) (addF (ofNatF 15) (ofNatF 1))) :=
    .copy 1 0 4 0 (lb := 4) (lx := 0) (db := 5) (dx := 1) (by decide) (by decide) (by decide) (by decide) (by decide) (by decide +kernel) (by decide +kernel)
  exact .cons (.lit 97 (by decide +kernel)) (.cons (.lit 98 (by decide +kernel)) (.cons (.lit 99 (by decide +kernel)) (.cons (.lit 100 (by decide +kernel))
    (.cons (.lit 46 (by decide +kernel)) (.cons m (.cons (.lit 58 (by decide +kernel)) (.cons m (.nil _))))))))

theorem twice_better : Cost fewModel [.lit 97, .lit 98, .lit 99, .lit 100, .lit 46, .mtch 4 5, .lit 58, .mtch 4 10] (ofNatF 108) := by
  have e : ofNatF 108 = addF (addF (addF (addF (addF (addF (addF (addF 0 (ofNatF 15)) (ofNatF 15)) (ofNatF 15)) (ofNatF 15)) (ofNatF 15))
      (addF (addF 0 (ofNatF 0)) (addF (ofNatF 15) (ofNatF 1)))) (ofNatF 15)) (addF (addF 0 (ofNatF 0)) (addF 0 (ofNatF 2))) := by
    decide +kernel
  rw [e]
  have m : LzPrice.Priced addF ofNatF fewModel.litLen fewModel.dist (.copy 4 5) (addF (addF 0 (ofNatF 0)) (addF (ofNatF 15) (ofNatF 1))) :=
    .copy 1 0 4 0 (lb := 4) (lx := 0) (db := 5) (dx := 1) (by decide) (by decide) (by decide) (by decide) (by decide) (by decide +kernel) (by decide +kernel)
  have m' : LzPrice.Priced addF ofNatF fewModel.litLen fewModel.dist (.copy 4 10) (addF (addF 0 (ofNatF 0)) (addF 0 (ofNatF 2))) :=
    .copy 1 0 6 1 (lb := 4) (lx := 0) (db := 9) (dx := 2) (by decide) (by decide) (by decide) (by decide) (by decide) (by decide +kernel) (by decide +kernel)
  exact .cons (.lit 97 (by decide +kernel)) (.cons (.lit 98 (by decide +kernel)) (.cons (.lit 99 (by decide +kernel)) (.cons (.lit 100 (by decide +kernel))
    (.cons (.lit 46 (by decide +kernel)) (.cons m (.cons (.lit 58 (by decide +kernel)) (.cons m' (.nil _))))))))

/-- C70 fails also where hashes do not clash and chains are short, when a longer distance costs less. -/
theorem C70_fails_distance : HashesApart twice ∧ ChainsShort 9 twice ∧ MadeCostModel fewModel ∧
    ∃ ts st', compressOptimal .scalar (State.new 9) fewModel twice = .ok (ts, st') ∧ ¬ Cheapest fewModel ts twice := by
  refine ⟨twice_apart.1, twice_apart.2, fewModel_made, ?_⟩
  have h := twice_result
  cases e : compressOptimal .scalar (State.new 9) fewModel twice with
  | error x => rw [e] at h; cases h
  | ok r =>
    obtain ⟨ts, st'⟩ := r
    rw [e] at h
    simp only [Except.map, Except.ok.injEq] at h
    subst h
    refine ⟨_, st', rfl, not_cheapest twice_cost ⟨by decide, ?_⟩ twice_better (by decide)⟩
    intro l d hm
    simp only [List.mem_cons, List.not_mem_nil, or_false, reduceCtorEq, false_or] at hm
    rcases hm with hm | hm <;> cases hm <;> decide

/-! ### C71 -/

/-- What the documentation of `find_match_with_sublen` says of its result (src/compress/lz77.rs:878-885): for each length the shortest
distance at which that many bytes repeat, 0 if there is none; and the longest length, 0 if there is none. -/
structure AllMatches (data : List UInt8) (pos : Nat) (sub : List Nat) (mx : Nat) : Prop where
  size : sub.length = 259
  shortest : ∀ l d, 3 ≤ l → sub[l]? = some d →
    (d ≠ 0 → Repeats data pos l d) ∧ ∀ d', Repeats data pos l d' → d ≠ 0 ∧ d ≤ d'
  longest : (∀ l d, Repeats data pos l d → l ≤ mx) ∧ (mx ≠ 0 → ∃ d, Repeats data pos mx d)

/-- C71 for all inputs. It does not hold, see `C71_fails_hash` and `C71_fails_chain`. -/
def C71_full : Prop :=
  ∀ (level : Nat) (st : State) (lv : Simd.Level) (data : List UInt8) (pos : Nat), History level st → pos < data.length →
    ∃ sub mx, searchAt lv st data pos = .ok (sub, mx) ∧ AllMatches data pos sub mx

/-- C71 at each position where hashes do not clash and the chain is not too long. -/
theorem C71_search_partial {level : Nat} {st : State} (h : History level st) (lv : Simd.Level) (data : List UInt8)
    (hn : data.length ≤ 2 ^ 31) (pos : Nat) (hp : pos < data.length) (h1 : NoClash data pos)
    (h2 : Uncrowded (min (State.new level).config.maxChain (State.new level).config.maxDepth) data pos) :
    ∃ sub mx, searchAt lv st data pos = .ok (sub, mx) ∧ AllMatches data pos sub mx := by
  obtain ⟨tbl, hrep⟩ := reports_exist lv h.ok.1 data
  obtain ⟨g1, g2, g3⟩ := reports_all h lv hn hrep hp h1 h2
  refine ⟨(tbl pos).1, (tbl pos).2, searchAt_reports hrep hp, g1.size, ?_, ?_, ?_⟩
  · intro l d hl hd
    refine ⟨fun hd0 => repeats_valid.2 (g1.valid l d hl hd hd0), fun d' hr => ?_⟩
    obtain ⟨⟨x, e, x0, hx⟩, _⟩ := g3 l d' (repeats_valid.1 hr)
    rw [hd] at e; cases e
    exact ⟨x0, hx⟩
  · intro l d hr
    exact (g3 l d (repeats_valid.1 hr)).2
  · intro h0
    rcases g2 with g2 | ⟨g2, d, x, e, x0, _⟩
    · exact absurd g2 h0
    · exact ⟨x, repeats_valid.2 (g1.valid _ x g2 e x0)⟩

/-- Whatever the hashes and chains, what is reported is there. -/
theorem C71_sound_partial {level : Nat} {st : State} (h : History level st) (lv : Simd.Level) (data : List UInt8) (pos : Nat)
    (hp : pos < data.length) :
    ∃ sub mx, searchAt lv st data pos = .ok (sub, mx) ∧ sub.length = 259 ∧ mx ≤ 258 ∧
      ∀ l d, 3 ≤ l → sub[l]? = some d → d ≠ 0 → Repeats data pos l d := by
  obtain ⟨tbl, hrep⟩ := reports_exist lv h.ok.1 data
  have g := hrep.ok h.ok.1 hp
  exact ⟨(tbl pos).1, (tbl pos).2, searchAt_reports hrep hp, g.size, g.max,
    fun l d h1 h2 h3 => repeats_valid.2 (g.valid l d h1 h2 h3)⟩

example : (searchAt .avx2 (State.new 9) sample 10).map (fun r => (r.1.take 7, r.2)) = .ok ([0, 0, 0, 4, 4, 0, 0], 4) := by decide +kernel

theorem not_allMatches {lv : Simd.Level} {level : Nat} {data : List UInt8} {pos mx l d : Nat}
    (h : (searchAt lv (State.new level) data pos).map Prod.snd = .ok mx) (hr : Repeats data pos l d) (hl : mx < l) :
    ∀ sub m, searchAt lv (State.new level) data pos = .ok (sub, m) → ¬ AllMatches data pos sub m := by
  intro sub m e ha
  rw [e] at h
  simp only [Except.map, Except.ok.injEq] at h
  have := ha.longest.1 l d hr
  omega

/-- C71 fails for two triples with one hash, at the highest level: nothing is found at position 6 of "abclstabc". -/
theorem C71_fails_hash : ∀ sub mx, searchAt .scalar (State.new 9) clash 6 = .ok (sub, mx) → ¬ AllMatches clash 6 sub mx :=
  not_allMatches (mx := 0) (l := 3) (d := 6) (by decide +kernel) ⟨by decide, by decide, by decide⟩ (by decide)

/-- "abcdefgh", four times "abcd" and a digit, and "abcdefgh" again. -/
def crowd : List UInt8 :=
  [97, 98, 99, 100, 101, 102, 103, 104, 97, 98, 99, 100, 49, 97, 98, 99, 100, 50, 97, 98, 99, 100, 51, 97, 98, 99, 100, 52,
    97, 98, 99, 100, 101, 102, 103, 104]

/-- C71 fails where the chain is longer than the level allows, also without clashes: the match of length 8 is not found at level 1. -/
theorem C71_fails_chain : HashesApart crowd ∧
    ∀ sub mx, searchAt .scalar (State.new 1) crowd 28 = .ok (sub, mx) → ¬ AllMatches crowd 28 sub mx :=
  ⟨hashesApart_of (by decide +kernel),
    not_allMatches (mx := 4) (l := 8) (d := 28) (by decide +kernel) ⟨by decide, by decide, by decide⟩ (by decide)⟩

theorem C71_not : ¬ C71_full := by
  intro h
  obtain ⟨sub, mx, e, ha⟩ := h 9 _ .scalar clash 6 .new (by decide)
  exact C71_fails_hash sub mx e ha

/-! ### C72 -/

/-- The caches that arise from `LongestMatchCache::new(data.len())` by any number of calls of `compress_optimal_cached` on that data, by
compressors of one level, with any cost models. -/
inductive CacheFor (lv : Simd.Level) (level : Nat) (data : List UInt8) : Cache → Prop
  | new : CacheFor lv level data (Cache.new data.length)
  | used {st cm c ts st' c'} : CacheFor lv level data c → History level st → MadeCostModel cm →
      compressOptimalCached lv st cm data c = .ok (ts, (st', c')) → CacheFor lv level data c'

theorem CacheFor.true {lv : Simd.Level} {level : Nat} {data : List UInt8} {tbl : Nat → List Nat × Nat} {c : Cache}
    (h : CacheFor lv level data c) (hrep : Reports lv (State.new level) data tbl) : CacheTrue data tbl c := by
  induction h with
  | new => exact cacheTrue_new data tbl
  | used _ hs hc e ih =>
    obtain ⟨ts, s1, s2, c', _, e2, hk⟩ := compressOptimalCached_same lv hc.ok hs.ok.1 hs.ok.1 rfl
      (hrep.same (sized_new level) hs.ok.1 hs.ok.2.symm) ih
    rw [e] at e2; cases e2
    exact hk

/-- C72: with such a cache `compress_optimal_cached` returns what `compress_optimal` returns, whatever both compressors did before. -/
theorem C72_cache {lv : Simd.Level} {level : Nat} {data : List UInt8} {c : Cache} (hk : CacheFor lv level data c)
    {st st' : State} (h : History level st) (h' : History level st') {cm : CostModel} (hc : MadeCostModel cm) :
    ∃ ts s1 s2 c', compressOptimal lv st' cm data = .ok (ts, s1) ∧ compressOptimalCached lv st cm data c = .ok (ts, (s2, c')) ∧
      CacheFor lv level data c' := by
  obtain ⟨tbl, hrep⟩ := reports_exist lv (sized_new level) data
  obtain ⟨ts, s1, s2, c', e1, e2, _⟩ := compressOptimalCached_same lv hc.ok h.ok.1 h'.ok.1 (h.ok.2.trans h'.ok.2.symm)
    (hrep.same (sized_new level) h.ok.1 h.ok.2.symm) (hk.true hrep)
  exact ⟨ts, s1, s2, c', e1, e2, .used hk h hc e2⟩

/-- A cache that is used: after one run it is populated, and the second run, with another cost model, gives other tokens. -/
example : (do
    let data := [97, 98, 99, 100, 101, 102, 103, 104, 46, 58, 97, 98, 99, 100, 101, 102, 103, 104]
    let (ts, _, c) ← compressOptimalCached .scalar (State.new 9) fewModel data (Cache.new data.length)
    let (ts', _, _) ← compressOptimalCached .scalar (State.new 9) CostModel.fixed data c
    return (ts.drop 10, c.populated, ts'.drop 10)) =
    (.ok ([.mtch 4 10, .mtch 4 10], true, [.mtch 8 10]) : R _) := by decide +kernel

/-- The size matters: with a cache for no bytes, only literals are found. -/
example : (compressOptimalCached .scalar (State.new 9) CostModel.fixed sample (Cache.new 0)).map (fun r => r.1.length) = .ok 18 := by
  decide +kernel

end Pixo.Props
