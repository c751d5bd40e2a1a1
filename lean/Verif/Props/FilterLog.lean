import Verif.Model.FilterLog
import Verif.Props.FilterChoice
/-
C98: the filter statistics that `--verbose` prints.
-/
namespace Pixo.Props
open Pixo.Filter (Strategy Schedule Log)

/-- `out` consists of the given lines, each a filter byte and `rowBytes` more bytes. -/
def IsLines (rowBytes : Nat) (out : List UInt8) (lines : List (List UInt8)) : Prop :=
  lines.flatten = out ∧ ∀ l ∈ lines, l.length = rowBytes + 1

/-- How many lines begin with 0, 1, 2, 3 and 4. -/
def byFirst (lines : List (List UInt8)) : List Nat :=
  [0, 1, 2, 3, 4].map fun k => lines.countP fun l => l.head? = some k

/-- How many lines end with 0, 1, 2, 3 and 4. -/
def byLast (lines : List (List UInt8)) : List Nat :=
  [0, 1, 2, 3, 4].map fun k => lines.countP fun l => l.getLast? = some k

/-- With the log switched on a line is printed that says how many rows there are and how many of them
have each of the five filter types. -/
def Reports (lv : Simd.Level) (sched : Schedule) (data : List UInt8) (width height rowBytes bpp : Nat)
    (st : Strategy) : Prop :=
  ∃ out lines log, Filter.applyFiltersLogged lv sched data width height rowBytes bpp st true = .ok (out, some log) ∧
    IsLines rowBytes out lines ∧ lines.length = height ∧ log.rows = height ∧ log.counts = byFirst lines

/-- **C98**, full statement: the statistics are those of the filtered image. It is false, see below. -/
def C98_full : Prop :=
  ∀ (lv : Simd.Level) (sched : Schedule) (data : List UInt8) (width height rowBytes bpp : Nat) (st : Strategy),
    bpp ≤ rowBytes → data.length = height * rowBytes → FairSchedule sched height →
    Reports lv sched data width height rowBytes bpp st

/-- The line by which a row is counted. -/
def countedAs (st : Strategy) (l : List UInt8) : Option UInt8 :=
  match st with
  | .minSum => l.getLast?
  | _ => l.head?

theorem lastFilter_eq (st : Strategy) (acc out : List UInt8) (last : UInt8) (h : out ≠ []) :
    countedAs st out = some (Filter.lastFilter st acc.length (acc ++ out) last) := by
  have h1 : out.head? = some ((acc ++ out)[acc.length]?.getD last) := by
    rw [List.getElem?_append_right (Nat.le_refl _), Nat.sub_self, ← List.head?_eq_getElem?]
    cases out with
    | nil => exact absurd rfl h
    | cons a t => rfl
  have h2 : out.getLast? = some ((acc ++ out).getLast?.getD last) := by
    rw [List.getLast?_append]
    cases e : out.getLast? with
    | none => exact absurd (List.getLast?_eq_none_iff.1 e) h
    | some a => rfl
  cases st <;> first | exact h1 | exact h2

/-- The five counters, each with what lines have added to it. -/
def addTo (st : Strategy) (counts : List Nat) (lines : List (List UInt8)) : List Nat :=
  List.zipWith (fun c k => c + lines.countP fun l => countedAs st l = some k) counts [0, 1, 2, 3, 4]

theorem addTo_nil (st : Strategy) {counts : List Nat} (h : counts.length = 5) : addTo st counts [] = counts := by
  match counts, h with
  | [a, b, c, d, e], _ => rfl

theorem addTo_cons (st : Strategy) {counts : List Nat} (h : counts.length = 5) {l : List UInt8} {f : UInt8}
    (hf : countedAs st l = some f) (lines : List (List UInt8)) :
    addTo st counts (l :: lines) = addTo st (Filter.countRow true f counts) lines ∧
      (Filter.countRow true f counts).length = 5 := by
  match counts, h with
  | [a, b, c, d, e], _ =>
    unfold addTo Filter.countRow
    simp only [List.countP_cons, hf]
    by_cases c0 : f = 0
    · subst c0; simp [List.modify, List.modifyTailIdx, List.modifyTailIdx.go, List.modifyHead]; omega
    by_cases c1 : f = 1
    · subst c1; simp [List.modify, List.modifyTailIdx, List.modifyTailIdx.go, List.modifyHead]; omega
    by_cases c2 : f = 2
    · subst c2; simp [List.modify, List.modifyTailIdx, List.modifyTailIdx.go, List.modifyHead]; omega
    by_cases c3 : f = 3
    · subst c3; simp [List.modify, List.modifyTailIdx, List.modifyTailIdx.go, List.modifyHead]; omega
    by_cases c4 : f = 4
    · subst c4; simp [List.modify, List.modifyTailIdx, List.modifyTailIdx.go, List.modifyHead]; omega
    have c5 : ¬ f ≤ 4 := by
      intro h
      rw [UInt8.le_iff_toNat_le] at h
      have h4 : (4 : UInt8).toNat = 4 := rfl
      have : f.toNat = 0 ∨ f.toNat = 1 ∨ f.toNat = 2 ∨ f.toNat = 3 ∨ f.toNat = 4 := by omega
      rcases this with h | h | h | h | h
      · exact c0 (UInt8.toNat_inj.1 h)
      · exact c1 (UInt8.toNat_inj.1 h)
      · exact c2 (UInt8.toNat_inj.1 h)
      · exact c3 (UInt8.toNat_inj.1 h)
      · exact c4 (UInt8.toNat_inj.1 h)
    simp [c0, c1, c2, c3, c4, c5]

theorem countRow_false (f : UInt8) (counts : List Nat) : Filter.countRow false f counts = counts := by
  simp [Filter.countRow]

/-- The loop writes what `seqLoop` writes, and counts its lines. -/
theorem logLoop_ok {lv : Simd.Level} {data : List UInt8} {rb bpp : Nat} (hb : bpp ≤ rb) (st : Strategy) (verbose : Bool) :
    ∀ (n y : Nat) (prev : List UInt8) (la : Option UInt8) (last : UInt8) (counts : List Nat) (acc : List UInt8),
    data.length = (y + n) * rb → prev.length = rb → counts.length = 5 →
    ∃ lines, Filter.logLoop lv data rb bpp st verbose y n prev la last counts acc =
        .ok (acc ++ lines.flatten, if verbose then addTo st counts lines else counts) ∧
      Filter.seqLoop lv data rb bpp st y n prev la = .ok lines.flatten ∧
      lines.length = n ∧ ∀ l ∈ lines, l.length = rb + 1
  | 0, _, _, _, _, counts, _, _, _, hc => by
    refine ⟨[], ?_, rfl, rfl, by simp⟩
    rw [addTo_nil st hc]
    simp [Filter.logLoop]
  | n + 1, y, prev, la, last, counts, acc, hd, hp, hc => by
    rw [Filter.logLoop, Filter.seqLoop]
    obtain ⟨e, hl⟩ := Filter.slice_row (y := y) hd (by omega)
    obtain ⟨out, eo, ho⟩ := (Filter.filterRow_ok (lv := lv) (row := (data.drop (y * rb)).take rb) (prev := prev)
      (bpp := bpp) (by omega) (by omega) (Filter.rowStrategy st la)).out
    have hol : out.length = rb + 1 := by rw [ho.length, hl]
    have hne : out ≠ [] := fun h => by rw [h] at hol; simp at hol
    have hk := lastFilter_eq st acc out last hne
    simp only [e, eo, ok_bind]
    have hh : (acc ++ out)[acc.length]? = out.head? := by
      rw [List.getElem?_append_right (Nat.le_refl _), Nat.sub_self, List.head?_eq_getElem?]
    rw [hh]
    cases verbose with
    | true =>
      obtain ⟨hac, hcl⟩ := addTo_cons st hc hk []
      obtain ⟨lines, e1, e2, e3, e4⟩ := logLoop_ok hb st true n (y + 1) ((data.drop (y * rb)).take rb) out.head?
        (Filter.lastFilter st acc.length (acc ++ out) last)
        (Filter.countRow true (Filter.lastFilter st acc.length (acc ++ out) last) counts) (acc ++ out)
        (by rw [hd]; congr 1; omega) hl hcl
      refine ⟨out :: lines, ?_, ?_, by simp [e3], ?_⟩
      · rw [e1, List.flatten_cons, List.append_assoc, if_pos rfl, if_pos rfl, (addTo_cons st hc hk lines).1]
      · rw [e2, List.flatten_cons]; rfl
      · intro l hm
        rcases List.mem_cons.1 hm with rfl | hm
        · exact hol
        · exact e4 l hm
    | false =>
      rw [countRow_false]
      obtain ⟨lines, e1, e2, e3, e4⟩ := logLoop_ok hb st false n (y + 1) ((data.drop (y * rb)).take rb) out.head?
        (Filter.lastFilter st acc.length (acc ++ out) last) counts (acc ++ out)
        (by rw [hd]; congr 1; omega) hl hc
      refine ⟨out :: lines, ?_, ?_, by simp [e3], ?_⟩
      · rw [e1, List.flatten_cons, List.append_assoc]; rfl
      · rw [e2, List.flatten_cons]; rfl
      · intro l hm
        rcases List.mem_cons.1 hm with rfl | hm
        · exact hol
        · exact e4 l hm

section
variable (lv : Simd.Level) (sched : Schedule) (data : List UInt8) (width height rowBytes bpp : Nat)
  (hr : bpp ≤ rowBytes) (hd : data.length = height * rowBytes)
include hr hd

theorem logged_seq (st : Strategy) (verbose : Bool)
    (hp : sched = none ∨ height ≤ 32 ∨ (Filter.effective st width height).tries = false) :
    ∃ out lines, Filter.applyFiltersLogged lv sched data width height rowBytes bpp st verbose =
        .ok (out, if verbose then some ⟨Filter.effective st width height, height,
          addTo (Filter.effective st width height) (List.replicate 5 0) lines⟩ else none) ∧
      Filter.applyFilters lv sched data width height rowBytes bpp st = .ok out ∧
      IsLines rowBytes out lines ∧ lines.length = height := by
  unfold Filter.applyFiltersLogged Filter.applyFilters
  simp only
  generalize Filter.effective st width height = st at *
  obtain ⟨lines, e1, e2, e3, e4⟩ := logLoop_ok (lv := lv) hr st verbose height 0 (List.replicate rowBytes 0) none 4
    (List.replicate 5 0) [] (by simpa using hd) (by simp) (by simp)
  have hc : ¬ (sched.isSome ∧ height > 32 ∧ st.tries) := by
    rintro ⟨h1, h2, h3⟩
    rcases hp with h | h | h
    · rw [h] at h1; cases h1
    · omega
    · rw [h] at h3; cases h3
  refine ⟨lines.flatten, lines, ?_, ?_, ⟨rfl, e4⟩, e3⟩
  · rw [if_neg hc, e1, ok_bind]
    cases verbose <;> simp [pure, Except.pure]
  · cases sched with
    | none => exact e2
    | some order =>
      simp only
      rw [if_neg (fun h => hc ⟨rfl, h⟩)]
      exact e2

/-- **C98**, what holds: in the sequential path, with every strategy but `MinSum`, the statistics are those of the
filtered image. Missing: `MinSum` and the parallel path, see below. -/
theorem C98_partial (st : Strategy) (hst : st ≠ .minSum)
    (hp : sched = none ∨ height ≤ 32 ∨ width * height ≤ 4096 ∨ st.tries = false) :
    Reports lv sched data width height rowBytes bpp st := by
  have hne : Filter.effective st width height ≠ .minSum := by
    unfold Filter.effective; split
    · simp
    · exact hst
  have hp' : sched = none ∨ height ≤ 32 ∨ (Filter.effective st width height).tries = false := by
    rcases hp with h | h | h | h
    · exact Or.inl h
    · exact Or.inr (Or.inl h)
    · refine Or.inr (Or.inr ?_)
      unfold Filter.effective
      split
      · rfl
      · next hn =>
        cases ht : st.tries with
        | false => rfl
        | true => exact absurd ⟨h, ht⟩ hn
    · refine Or.inr (Or.inr ?_)
      unfold Filter.effective
      split
      · rfl
      · exact h
  obtain ⟨out, lines, e, -, hl, hn⟩ := logged_seq lv sched data width height rowBytes bpp hr hd st true hp'
  refine ⟨out, lines, _, e, hl, hn, rfl, ?_⟩
  have hk : ∀ l, countedAs (Filter.effective st width height) l = l.head? := by
    intro l
    revert hne
    cases Filter.effective st width height <;> intro hne <;> first | rfl | exact absurd rfl hne
  simp only [addTo, byFirst, hk]
  simp [List.replicate]

/-- **C98 fails for `MinSum`**: always it is the last byte of a row, not its filter type, that is counted. -/
theorem C98_minsum_violated :
    ∃ out lines log, Filter.applyFiltersLogged lv sched data width height rowBytes bpp .minSum true = .ok (out, some log) ∧
      IsLines rowBytes out lines ∧ lines.length = height ∧ log.rows = height ∧ log.counts = byLast lines := by
  have he : Filter.effective .minSum width height = .minSum := by
    unfold Filter.effective; rw [if_neg (by simp [Filter.Strategy.tries])]
  obtain ⟨out, lines, e, -, hl, hn⟩ := logged_seq lv sched data width height rowBytes bpp hr hd .minSum true
    (Or.inr (Or.inr (by rw [he]; rfl)))
  refine ⟨out, lines, _, e, hl, hn, rfl, ?_⟩
  rw [he]
  have hk : ∀ l, countedAs .minSum l = l.getLast? := fun _ => rfl
  simp only [addTo, byLast, hk]
  simp [List.replicate]

/-- **C98 fails in the parallel path**: nothing is printed. -/
theorem C98_parallel_violated (order : List Nat) (hs : FairSchedule (some order) height) (st : Strategy)
    (ht : st.tries = true) (hh : 32 < height) (ha : 4096 < width * height) :
    ∃ out, Filter.applyFiltersLogged lv (some order) data width height rowBytes bpp st true = .ok (out, none) := by
  obtain ⟨out, e, -⟩ := (Filter.applyFilters_ok lv (some order) width hr hd st hs).out
  have he : Filter.effective st width height = st := by
    unfold Filter.effective; rw [if_neg (by omega)]
  unfold Filter.applyFilters at e
  simp only [he] at e
  rw [if_pos ⟨hh, ht⟩] at e
  unfold Filter.applyFiltersLogged
  simp only [he]
  rw [if_pos ⟨rfl, hh, ht⟩]
  simp only [Option.getD_some]
  cases e2 : Filter.applyParallel lv data rowBytes bpp st order
      (List.replicate height (List.replicate (rowBytes + 1) 0)) with
  | error x => rw [e2] at e; cases e
  | ok rows => exact ⟨rows.flatten, rfl⟩

/-- Whether the log is on or off, and whatever the strategy and the schedule, the bytes are the same; without it
nothing is printed. -/
theorem C98_output (hs : FairSchedule sched height) (st : Strategy) (verbose : Bool) :
    ∃ out log, Filter.applyFiltersLogged lv sched data width height rowBytes bpp st verbose = .ok (out, log) ∧
      Filter.applyFilters lv sched data width height rowBytes bpp st = .ok out ∧ (verbose = false → log = none) := by
  by_cases hp : sched = none ∨ height ≤ 32 ∨ (Filter.effective st width height).tries = false
  · obtain ⟨out, lines, e, e2, -, -⟩ := logged_seq lv sched data width height rowBytes bpp hr hd st verbose hp
    exact ⟨out, _, e, e2, fun h => by rw [h]; rfl⟩
  · obtain ⟨out, e, -⟩ := (Filter.applyFilters_ok lv sched width hr hd st hs).out
    refine ⟨out, none, ?_, e, fun _ => rfl⟩
    unfold Filter.applyFilters at e
    unfold Filter.applyFiltersLogged
    simp only at e ⊢
    generalize Filter.effective st width height = st at *
    cases sched with
    | none => exact absurd (Or.inl rfl) hp
    | some order =>
      have h1 : height > 32 := by
        apply Nat.lt_of_not_le; intro h; exact hp (Or.inr (Or.inl h))
      have h2 : st.tries = true := by
        cases ht : st.tries with
        | true => rfl
        | false => exact absurd (Or.inr (Or.inr ht)) hp
      simp only at e
      rw [if_pos ⟨h1, h2⟩] at e
      rw [if_pos ⟨rfl, h1, h2⟩]
      simp only [Option.getD_some]
      cases e2 : Filter.applyParallel lv data rowBytes bpp st order
          (List.replicate height (List.replicate (rowBytes + 1) 0)) with
      | error x => rw [e2] at e; cases e
      | ok rows =>
        rw [e2] at e
        injection e with e
        subst e
        rfl

end

/-- One row of one gray pixel, 7, is left unfiltered, and the log counts no row at all. -/
theorem C98_violation : ¬ C98_full := by
  intro h
  obtain ⟨out, lines, log, e, ⟨hf, hl⟩, hn, -, hc⟩ := h .scalar none [7] 1 1 1 1 .minSum (by decide) rfl
    (fun _ h => by cases h)
  have e2 : Filter.applyFiltersLogged .scalar none [7] 1 1 1 1 .minSum true =
      .ok ([0, 7], some ⟨.minSum, 1, [0, 0, 0, 0, 0]⟩) := by decide +kernel
  rw [e2] at e
  injection e with e
  injection e with e3 e4
  injection e4 with e4
  match lines, hn with
  | [l], _ =>
    subst e3 e4
    have : l = [0, 7] := by simpa using hf
    subst this
    exact absurd hc (by decide +kernel)

/-- A gray pixel of value 2 is left unfiltered too, and the log speaks of one row filtered with Up. -/
example : Filter.applyFiltersLogged .scalar none [2] 1 1 1 1 .minSum true =
    .ok ([0, 2], some ⟨.minSum, 1, [0, 0, 1, 0, 0]⟩) := by decide +kernel

/-- Three rows with statistics as they should be. -/
example : Filter.applyFiltersLogged .scalar none [1, 5, 9, 1, 5, 9, 200, 3, 77] 3 3 3 1 .up true =
    .ok ([2, 1, 5, 9, 2, 0, 0, 0, 2, 199, 254, 68], some ⟨.up, 3, [0, 0, 3, 0, 0]⟩) := by decide +kernel

end Pixo.Props
