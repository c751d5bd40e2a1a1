import Verif.Proof.Filter
/-
Whole filtered images: every strategy yields scanlines that follow the PNG filter rules, at any
SIMD level, and the parallel path computes the rows independently of their order.
-/
namespace Pixo.Filter
open Spec.Png
open Pixo.Simd (Level)
open Pixo.MatchLength (slice)

theorem refRow_zero (row prev : List UInt8) (bpp : Nat) : refRow 0 row prev bpp = row := by
  apply List.ext_getElem
  · simp [refRow]
  · intro n h1 h2
    simp [refRow, refAt, predict, List.getElem?_eq_getElem h2]

/-- A row filtered with one of the five types. -/
def IsRef (row prev : List UInt8) (bpp : Nat) (out : List UInt8) : Prop :=
  ∃ ft, ft ≤ 4 ∧ out = UInt8.ofNat ft :: refRow ft row prev bpp

/-- The row a strategy yields: no level, no errors. -/
theorem isRef_try {row prev : List UInt8} {bpp : Nat} {b : Best} (hb : IsRef row prev bpp b.out) {ft : Nat}
    (h : ft ≤ 4) (s : Nat) : IsRef row prev bpp (b.try (UInt8.ofNat ft) (refRow ft row prev bpp) s).out := by
  unfold Best.try
  split
  · exact ⟨ft, h, rfl⟩
  · exact hb

section
variable {lv : Level} {row prev : List UInt8} {bpp : Nat}

theorem adaptivePaeth_ok (hp : row.length ≤ prev.length) {best : Best} (hb : IsRef row prev bpp best.out) :
    Oks (adaptivePaeth lv row prev bpp best) (IsRef row prev bpp) := by
  unfold adaptivePaeth
  rw [filterPaeth_ok lv bpp hp, ok_bind]
  exact Oks.pure (isRef_try hb (ft := 4) (by decide) _)

theorem adaptiveAverage_ok (hp : row.length ≤ prev.length) {stop : Nat} {best : Best}
    (hb : IsRef row prev bpp best.out) :
    Oks (adaptiveAverage lv row prev bpp stop best) (IsRef row prev bpp) := by
  unfold adaptiveAverage
  rw [filterAverage_ok lv bpp hp, ok_bind]
  simp only
  split
  · exact Oks.pure ⟨3, by decide, rfl⟩
  · exact adaptivePaeth_ok hp (isRef_try hb (ft := 3) (by decide) _)

theorem adaptiveUp_ok (hp : row.length ≤ prev.length) {stop : Nat} {best : Best}
    (hb : IsRef row prev bpp best.out) :
    Oks (adaptiveUp lv row prev bpp stop best) (IsRef row prev bpp) := by
  unfold adaptiveUp
  rw [filterUp_ok lv bpp hp, ok_bind]
  simp only
  split
  · exact Oks.pure ⟨2, by decide, rfl⟩
  · exact adaptiveAverage_ok hp (isRef_try hb (ft := 2) (by decide) _)

theorem adaptiveSub_ok (hp : row.length ≤ prev.length) (hr : bpp ≤ row.length) {stop : Nat} {best : Best}
    (hb : IsRef row prev bpp best.out) :
    Oks (adaptiveSub lv row prev bpp stop best) (IsRef row prev bpp) := by
  unfold adaptiveSub
  rw [filterSub_ok lv prev hr, ok_bind]
  simp only
  split
  · exact Oks.pure ⟨1, by decide, rfl⟩
  · exact adaptiveUp_ok hp (isRef_try hb (ft := 1) (by decide) _)

theorem isRef_none : IsRef row prev bpp (0 :: row) := ⟨0, by decide, by rw [refRow_zero]; rfl⟩

theorem adaptiveFilter_ok (hp : row.length ≤ prev.length) (hr : bpp ≤ row.length) :
    Oks (adaptiveFilter lv row prev bpp) (IsRef row prev bpp) := by
  unfold adaptiveFilter
  simp only
  split
  · exact Oks.ok isRef_none
  split
  · exact Oks.ok isRef_none
  · exact adaptiveSub_ok hp hr isRef_none

theorem bigramsFilter_ok (hp : row.length ≤ prev.length) (hr : bpp ≤ row.length) :
    Oks (bigramsFilter lv row prev bpp) (IsRef row prev bpp) := by
  unfold bigramsFilter
  simp only [filterSub_ok lv prev hr, filterUp_ok lv bpp hp, filterAverage_ok lv bpp hp,
    filterPaeth_ok lv bpp hp, ok_bind]
  exact Oks.pure (isRef_try (isRef_try (isRef_try (isRef_try (b := ⟨0, row, scoreBigrams row⟩) isRef_none (ft := 1) (by decide) _)
    (ft := 2) (by decide) _) (ft := 3) (by decide) _) (ft := 4) (by decide) _)

theorem fastPaeth_ok (hp : row.length ≤ prev.length) {stop : Nat} {best : Best}
    (hb : IsRef row prev bpp best.out) : Oks (fastPaeth lv row prev bpp stop best) (IsRef row prev bpp) := by
  unfold fastPaeth
  split
  · exact Oks.ok hb
  · rw [filterPaeth_ok lv bpp hp, ok_bind]
    exact Oks.pure (isRef_try hb (ft := 4) (by decide) _)

theorem fastUp_ok (hp : row.length ≤ prev.length) {stop : Nat} {best : Best}
    (hb : IsRef row prev bpp best.out) : Oks (fastUp lv row prev bpp stop best) (IsRef row prev bpp) := by
  unfold fastUp
  split
  · exact Oks.ok hb
  · rw [filterUp_ok lv bpp hp, ok_bind]
    exact fastPaeth_ok hp (isRef_try hb (ft := 2) (by decide) _)

theorem adaptiveFast_ok (hp : row.length ≤ prev.length) (hr : bpp ≤ row.length) :
    Oks (adaptiveFast lv row prev bpp) (IsRef row prev bpp) := by
  unfold adaptiveFast
  rw [filterSub_ok lv prev hr, ok_bind]
  exact fastUp_ok hp ⟨1, by decide, rfl⟩

/-- Whatever the strategy, a row comes out as its filter type and the row filtered with it. -/
theorem filterRow_ok (hp : row.length ≤ prev.length) (hr : bpp ≤ row.length) (st : Strategy) :
    Oks (filterRow lv row prev bpp st) (IsRef row prev bpp) := by
  cases st <;> unfold filterRow <;> simp only
  · exact Oks.ok isRef_none
  · rw [filterSub_ok lv prev hr, ok_bind]; exact Oks.pure ⟨1, by decide, rfl⟩
  · rw [filterUp_ok lv bpp hp, ok_bind]; exact Oks.pure ⟨2, by decide, rfl⟩
  · rw [filterAverage_ok lv bpp hp, ok_bind]; exact Oks.pure ⟨3, by decide, rfl⟩
  · rw [filterPaeth_ok lv bpp hp, ok_bind]; exact Oks.pure ⟨4, by decide, rfl⟩
  · exact adaptiveFilter_ok hp hr
  · exact adaptiveFilter_ok hp hr
  · exact adaptiveFast_ok hp hr
  · exact bigramsFilter_ok hp hr

/-- The level only changes the speed. -/
theorem filterRow_level (hp : row.length ≤ prev.length) (hr : bpp ≤ row.length) (st : Strategy) (lv' : Level) :
    filterRow lv row prev bpp st = filterRow lv' row prev bpp st := by
  cases st <;>
  simp only [filterRow, adaptiveFilter, adaptiveSub, adaptiveUp, adaptiveAverage, adaptivePaeth, bigramsFilter,
    adaptiveFast, fastUp, fastPaeth, filterSub_ok _ prev hr, filterUp_ok _ bpp hp, filterAverage_ok _ bpp hp,
    filterPaeth_ok _ bpp hp, scoreFilter_eq, ok_bind]

end

theorem IsRef.length {row prev : List UInt8} {bpp : Nat} {out : List UInt8} (h : IsRef row prev bpp out) :
    out.length = row.length + 1 := by
  obtain ⟨ft, _, rfl⟩ := h
  simp [refRow]

theorem slice_row {data : List UInt8} {rb y h : Nat} (hd : data.length = h * rb) (hy : y < h) :
    slice data (y * rb) rb = .ok ((data.drop (y * rb)).take rb) ∧ ((data.drop (y * rb)).take rb).length = rb := by
  have : y * rb + rb ≤ h * rb := by
    have := Nat.mul_le_mul_right rb (show y + 1 ≤ h by omega)
    rw [Nat.succ_mul] at this; exact this
  constructor
  · unfold slice; rw [if_pos (by omega)]
  · simp; omega

theorem flatten_rows {rb : Nat} {data : List UInt8} {y n : Nat} (hd : data.length = (y + n) * rb) :
    ((List.range' y n).map fun k => (data.drop (k * rb)).take rb).flatten = data.drop (y * rb) := by
  induction n generalizing y with
  | zero => simp [hd]
  | succ n ih =>
    rw [List.range'_succ, List.map_cons, List.flatten_cons, ih (by rw [hd]; congr 1; omega), Nat.succ_mul,
      ← List.drop_drop, List.take_append_drop]

theorem seqLoop_ok {lv : Level} {data : List UInt8} {rb bpp : Nat} (hb : bpp ≤ rb) (st : Strategy) :
    ∀ (n y : Nat) (prev : List UInt8) (last : Option UInt8), data.length = (y + n) * rb → prev.length = rb →
    Oks (seqLoop lv data rb bpp st y n prev last)
      (Scanlines bpp rb prev ((List.range' y n).map fun k => (data.drop (k * rb)).take rb))
  | 0, _, _, _, _, _ => Oks.ok (.nil _)
  | n + 1, y, prev, last, hd, hp => by
    rw [seqLoop]
    obtain ⟨e, hl⟩ := slice_row (y := y) hd (by omega)
    rw [e, ok_bind]
    refine Oks.bind (filterRow_ok (by omega) (by omega) _) ?_
    intro out ho
    refine Oks.bind (seqLoop_ok hb st n (y + 1) _ _ (by rw [hd]; congr 1; omega) hl) ?_
    intro rest hr
    refine Oks.pure ?_
    obtain ⟨ft, hft, rfl⟩ := ho
    exact Scanlines.cons hl (refRow_filtered hft _ _ _) hr

theorem seqLoop_level {lv : Level} (lv' : Level) {data : List UInt8} {rb bpp : Nat} (hb : bpp ≤ rb) (st : Strategy) :
    ∀ (n y : Nat) (prev : List UInt8) (last : Option UInt8), data.length = (y + n) * rb → prev.length = rb →
    seqLoop lv data rb bpp st y n prev last = seqLoop lv' data rb bpp st y n prev last
  | 0, _, _, _, _, _ => rfl
  | n + 1, y, prev, last, hd, hp => by
    rw [seqLoop, seqLoop]
    obtain ⟨e, hl⟩ := slice_row (y := y) hd (by omega)
    simp only [e, ok_bind]
    rw [filterRow_level (by omega) (by omega) _ lv']
    obtain ⟨out, e2, -⟩ := (filterRow_ok (lv := lv') (row := (data.drop (y * rb)).take rb) (prev := prev)
      (bpp := bpp) (by omega) (by omega) (rowStrategy st last)).out
    rw [e2, ok_bind, ok_bind, seqLoop_level lv' hb st n (y + 1) _ _ (by rw [hd]; congr 1; omega) hl]

/-! ### Parallel path -/

theorem rowAbove_ok {data : List UInt8} {rb y h : Nat} (hd : data.length = h * rb) (hy : y < h) :
    ∃ prev, rowAbove data rb y = .ok prev ∧ prev.length = rb ∧
      prev = (if y = 0 then List.replicate rb 0 else (data.drop ((y - 1) * rb)).take rb) := by
  unfold rowAbove
  by_cases c : y = 0
  · rw [if_pos c, if_pos c]; exact ⟨_, rfl, by simp, rfl⟩
  · rw [if_neg c, if_neg c]
    obtain ⟨e, hl⟩ := slice_row (y := y - 1) hd (by omega)
    exact ⟨_, e, hl, rfl⟩

theorem parRow_ok {lv : Level} {data : List UInt8} {rb bpp h : Nat} (hb : bpp ≤ rb) (st : Strategy)
    (hd : data.length = h * rb) {y : Nat} (hy : y < h) :
    ∃ out, parRow lv data rb bpp st y = .ok out ∧
      filterRow lv ((data.drop (y * rb)).take rb)
        (if y = 0 then List.replicate rb 0 else (data.drop ((y - 1) * rb)).take rb) bpp st = .ok out ∧
      IsRef ((data.drop (y * rb)).take rb)
        (if y = 0 then List.replicate rb 0 else (data.drop ((y - 1) * rb)).take rb) bpp out := by
  obtain ⟨e, hl⟩ := slice_row hd hy
  obtain ⟨prev, e2, hp, rfl⟩ := rowAbove_ok hd hy
  obtain ⟨out, e3, ho⟩ := (filterRow_ok (lv := lv) (row := (data.drop (y * rb)).take rb)
    (prev := if y = 0 then List.replicate rb 0 else (data.drop ((y - 1) * rb)).take rb)
    (bpp := bpp) (by omega) (by omega) st).out
  refine ⟨out, ?_, e3, ho⟩
  unfold parRow
  rw [e, ok_bind, e2, ok_bind, e3, ok_bind, if_pos (by rw [ho.length, hl])]
  rfl

/-- Rows written in any order that covers them all. -/
theorem applyParallel_ok {lv : Level} {data : List UInt8} {rb bpp : Nat} {st : Strategy} {h : Nat}
    {f : Nat → List UInt8} (hf : ∀ y, y < h → parRow lv data rb bpp st y = .ok (f y)) :
    ∀ (order : List Nat) (out : List (List UInt8)), (∀ y ∈ order, y < h) → out.length = h →
    ∃ out', applyParallel lv data rb bpp st order out = .ok out' ∧ out'.length = h ∧
      (∀ y, y < h → out'[y]? = if y ∈ order then some (f y) else out[y]?)
  | [], out, _, hl => ⟨out, rfl, hl, by simp⟩
  | y :: ys, out, ho, hl => by
    have hy : y < h := ho y List.mem_cons_self
    have hs : setChecked out y (f y) = .ok (out.set y (f y)) := by
      unfold setChecked; rw [if_pos (by omega)]
    obtain ⟨out', e, l', g⟩ := applyParallel_ok hf ys (out.set y (f y))
      (fun z hz => ho z (List.mem_cons_of_mem _ hz)) (by simpa using hl)
    refine ⟨out', ?_, l', ?_⟩
    · rw [applyParallel, hf y hy, ok_bind, hs, ok_bind, e]
    · intro z hz
      rw [g z hz]
      by_cases c : z ∈ ys
      · simp [c]
      · by_cases c2 : z = y
        · subst c2; simp [c, hl, hz]
        · simp [c, c2, Ne.symm c2]

theorem applyParallel_perm {lv : Level} {data : List UInt8} {rb bpp : Nat} {st : Strategy} {h : Nat}
    {f : Nat → List UInt8} (hf : ∀ y, y < h → parRow lv data rb bpp st y = .ok (f y))
    {order : List Nat} (ho : ∀ y, y ∈ order ↔ y < h) {init : List (List UInt8)} (hi : init.length = h) :
    applyParallel lv data rb bpp st order init = .ok ((List.range h).map f) := by
  obtain ⟨out', e, l, g⟩ := applyParallel_ok hf order init (fun y hy => (ho y).1 hy) hi
  rw [e]
  congr 1
  apply List.ext_getElem?
  intro k
  by_cases hk : k < h
  · rw [g k hk, if_pos ((ho k).2 hk)]; simp [hk]
  · rw [List.getElem?_eq_none (by omega), List.getElem?_eq_none (by simp; omega)]

/-- The row above row `y`. -/
def prevOf (data : List UInt8) (rb y : Nat) : List UInt8 :=
  if y = 0 then List.replicate rb 0 else (data.drop ((y - 1) * rb)).take rb

/-- Rows filtered one by one, in order, each with the same strategy. -/
theorem seqLoop_rows {lv : Level} {data : List UInt8} {rb bpp : Nat} (hb : bpp ≤ rb) {st : Strategy}
    (hst : st ≠ .adaptiveFast) {h : Nat} (hd : data.length = h * rb) {f : Nat → List UInt8}
    (hf : ∀ y, y < h → parRow lv data rb bpp st y = .ok (f y)) :
    ∀ (n y : Nat) (last : Option UInt8), y + n = h →
    seqLoop lv data rb bpp st y n (prevOf data rb y) last = .ok ((List.range' y n).map f).flatten
  | 0, _, _, _ => rfl
  | n + 1, y, last, hy => by
    rw [seqLoop]
    obtain ⟨e, hl⟩ := slice_row (y := y) hd (by omega)
    obtain ⟨out, e1, e2, -⟩ := parRow_ok (lv := lv) hb st hd (y := y) (by omega)
    rw [hf y (by omega)] at e1
    have e3 : rowStrategy st last = st := by cases st <;> first | rfl | exact absurd rfl hst
    have e4 : prevOf data rb (y + 1) = (data.drop (y * rb)).take rb := by simp [prevOf]
    rw [e, ok_bind, e3]
    unfold prevOf
    rw [e2, ok_bind, ← e4, seqLoop_rows hb hst hd hf n (y + 1) _ (by omega), ok_bind, ← Except.ok.inj e1]
    rfl

/-- `order` is a run of the row tasks: each row at least once. -/
def Covers (order : List Nat) (h : Nat) : Prop := ∀ y, y ∈ order ↔ y < h

/-- A schedule runs every row task. -/
def SchedOk (sched : Schedule) (h : Nat) : Prop := ∀ order, sched = some order → Covers order h

theorem scanlines_of_rows {bpp rb : Nat} {rows : Nat → List UInt8} {f : Nat → List UInt8} :
    ∀ (n y : Nat) (prev : List UInt8),
    (∀ k, y ≤ k → k < y + n → (rows k).length = rb ∧
      IsRef (rows k) (if k = y then prev else rows (k - 1)) bpp (f k)) →
    Scanlines bpp rb prev ((List.range' y n).map rows) ((List.range' y n).map f).flatten
  | 0, _, _, _ => .nil _
  | n + 1, y, prev, h => by
    obtain ⟨hl, hr⟩ := h y (by omega) (by omega)
    rw [if_pos rfl] at hr
    obtain ⟨ft, hft, e⟩ := hr
    rw [List.range'_succ, List.map_cons, List.map_cons, List.flatten_cons, e]
    refine Scanlines.cons hl (refRow_filtered hft _ _ _) ?_
    refine scanlines_of_rows n (y + 1) _ ?_
    intro k h1 h2
    have := h k (by omega) (by omega)
    refine ⟨this.1, ?_⟩
    have h3 := this.2
    rw [if_neg (by omega)] at h3
    by_cases c : k = y + 1
    · rw [if_pos c]; subst c; simpa using h3
    · rw [if_neg c]; exact h3

theorem parallel_ok {lv : Level} {data : List UInt8} {rb bpp h : Nat} (hb : bpp ≤ rb) (st : Strategy)
    (hd : data.length = h * rb) :
    ∃ f : Nat → List UInt8, (∀ y, y < h → parRow lv data rb bpp st y = .ok (f y)) ∧
      Scanlines bpp rb (List.replicate rb 0) ((List.range' 0 h).map fun k => (data.drop (k * rb)).take rb)
        ((List.range' 0 h).map f).flatten := by
  let f : Nat → List UInt8 := fun y =>
    match parRow lv data rb bpp st y with
    | .ok o => o
    | .error _ => []
  have hf : ∀ y, y < h → parRow lv data rb bpp st y = .ok (f y) ∧
      IsRef ((data.drop (y * rb)).take rb) (prevOf data rb y) bpp (f y) := by
    intro y hy
    obtain ⟨out, e, -, r⟩ := parRow_ok (lv := lv) hb st hd hy
    have : f y = out := by simp only [f]; rw [e]
    exact ⟨by rw [this, e], by rw [this]; exact r⟩
  refine ⟨f, fun y hy => (hf y hy).1, scanlines_of_rows h 0 _ ?_⟩
  intro k _ hk
  refine ⟨(slice_row hd (by omega)).2, ?_⟩
  exact (hf k (by omega)).2

/-- The rows of an image buffer. -/
def rowsOf (data : List UInt8) (rb h : Nat) : List (List UInt8) :=
  (List.range' 0 h).map fun k => (data.drop (k * rb)).take rb

theorem rowsOf_flatten {data : List UInt8} {rb h : Nat} (hd : data.length = h * rb) :
    (rowsOf data rb h).flatten = data := by
  unfold rowsOf
  rw [flatten_rows (by simpa using hd)]; simp

/-- Every strategy, level and schedule yields scanlines that unfilter to the image. -/
theorem applyFilters_ok (lv : Level) (sched : Schedule) {data : List UInt8} (width : Nat) {height rb bpp : Nat}
    (hb : bpp ≤ rb) (hd : data.length = height * rb) (st : Strategy) (hs : SchedOk sched height) :
    Oks (applyFilters lv sched data width height rb bpp st)
      (Scanlines bpp rb (List.replicate rb 0) (rowsOf data rb height)) := by
  have seq : ∀ st, Oks (seqLoop lv data rb bpp st 0 height (List.replicate rb 0) none)
      (Scanlines bpp rb (List.replicate rb 0) (rowsOf data rb height)) :=
    fun st => seqLoop_ok hb st height 0 _ _ (by simpa using hd) (by simp)
  unfold applyFilters
  simp only
  cases sched with
  | none => exact seq _
  | some order =>
    simp only
    split
    · obtain ⟨f, hf, hsc⟩ := parallel_ok (lv := lv) hb (effective st width height) hd
      rw [applyParallel_perm hf (hs order rfl) (by simp), ok_bind]
      refine Oks.pure ?_
      rw [List.range_eq_range']
      exact hsc
    · exact seq _

theorem parRow_level {lv : Level} (lv' : Level) {data : List UInt8} {rb bpp h : Nat} (hb : bpp ≤ rb) (st : Strategy)
    (hd : data.length = h * rb) {y : Nat} (hy : y < h) :
    parRow lv data rb bpp st y = parRow lv' data rb bpp st y := by
  obtain ⟨e, hl⟩ := slice_row hd hy
  obtain ⟨prev, e2, hp, _⟩ := rowAbove_ok hd hy
  unfold parRow
  rw [e, ok_bind, ok_bind, e2, ok_bind, ok_bind, filterRow_level (by omega) (by omega) st lv']

theorem applyFilters_level (lv lv' : Level) (sched : Schedule) {data : List UInt8} (width : Nat) {height rb bpp : Nat}
    (hb : bpp ≤ rb) (hd : data.length = height * rb) (st : Strategy) (hs : SchedOk sched height) :
    applyFilters lv sched data width height rb bpp st = applyFilters lv' sched data width height rb bpp st := by
  have seq : ∀ st, seqLoop lv data rb bpp st 0 height (List.replicate rb 0) none
      = seqLoop lv' data rb bpp st 0 height (List.replicate rb 0) none :=
    fun st => seqLoop_level lv' hb st height 0 _ _ (by simpa using hd) (by simp)
  unfold applyFilters
  simp only
  cases sched with
  | none => exact seq _
  | some order =>
    simp only
    split
    · obtain ⟨f, hf, -⟩ := parallel_ok (lv := lv) hb (effective st width height) hd
      rw [applyParallel_perm hf (hs order rfl) (by simp),
        applyParallel_perm (fun y hy => by rw [← parRow_level (lv := lv) lv' hb _ hd hy]; exact hf y hy) (hs order rfl) (by simp)]
    · exact seq _

/-- Except for `AdaptiveFast`, the parallel rows are the sequential ones. -/
theorem applyFilters_par (lv : Level) (sched : Schedule) {data : List UInt8} (width : Nat) {height rb bpp : Nat}
    (hb : bpp ≤ rb) (hd : data.length = height * rb) {st : Strategy} (hs : SchedOk sched height)
    (hst : st ≠ .adaptiveFast) :
    applyFilters lv sched data width height rb bpp st = applyFilters lv none data width height rb bpp st := by
  unfold applyFilters
  simp only
  cases sched with
  | none => rfl
  | some order =>
    simp only
    split
    · have hst' : effective st width height ≠ .adaptiveFast := by
        unfold effective; split
        · exact fun h => nomatch h
        · exact hst
      obtain ⟨f, hf, -⟩ := parallel_ok (lv := lv) hb (effective st width height) hd
      rw [applyParallel_perm hf (hs order rfl) (by simp)]
      have := seqLoop_rows (lv := lv) hb hst' hd hf height 0 none (by omega)
      simp only [prevOf, if_pos] at this
      rw [this, List.range_eq_range']
      rfl
    · rfl

/-- The order in which the row tasks run does not matter, whatever the strategy. -/
theorem applyFilters_sched (lv : Level) (order order' : List Nat) {data : List UInt8} (width : Nat)
    {height rb bpp : Nat} (hb : bpp ≤ rb) (hd : data.length = height * rb) (st : Strategy)
    (hs : Covers order height) (hs' : Covers order' height) :
    applyFilters lv (some order) data width height rb bpp st
      = applyFilters lv (some order') data width height rb bpp st := by
  unfold applyFilters
  simp only
  split
  · obtain ⟨f, hf, -⟩ := parallel_ok (lv := lv) hb (effective st width height) hd
    rw [applyParallel_perm hf hs (by simp), applyParallel_perm hf hs' (by simp)]
  · rfl

end Pixo.Filter
