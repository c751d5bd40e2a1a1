import Verif.Proof.FilterChoice
import Verif.Props.PngDecode
/-
C69: which filter the rows of an image get.
-/
namespace Pixo.Props
open Spec Spec.Png
open Pixo.Filter (Strategy Schedule)

/-- `apply_filters_with_row_bytes` succeeds, and its bytes are the scanlines of the image, each filtered
with a type chosen by the rule. -/
def ChosenBy (rule : Rule) (lv : Simd.Level) (sched : Schedule) (data : List UInt8)
    (width height rowBytes bpp : Nat) (st : Strategy) : Prop :=
  ∃ out rows, Filter.applyFilters lv sched data width height rowBytes bpp st = .ok out ∧
    rows.flatten = data ∧ rows.length = height ∧ ScanlinesBy rule rowBytes (List.replicate rowBytes 0) rows out

/-- The rules as documented (src/png/mod.rs:343-361, src/png/filter.rs:301-302, 406-409, 473-474). -/
def documented (bpp : Nat) : Strategy → Rule
  | .none => Always 0 bpp
  | .sub => Always 1 bpp
  | .up => Always 2 bpp
  | .average => Always 3 bpp
  | .paeth => Always 4 bpp
  | .minSum => Least absSum allTypes bpp
  | .adaptive => Least absSum allTypes bpp
  | .adaptiveFast => FirstGood (fun n => n / 8 + 1) absSum [1, 2, 4] bpp
  | .bigrams => Least bigrams allTypes bpp

/-- **C69**, full statement: every strategy goes by its rule. It is false, see below. -/
def C69_full : Prop :=
  ∀ (lv : Simd.Level) (sched : Schedule) (data : List UInt8) (width height rowBytes bpp : Nat) (st : Strategy),
    bpp ≤ rowBytes → data.length = height * rowBytes → FairSchedule sched height →
    ChosenBy (documented bpp st) lv sched data width height rowBytes bpp st

section
variable (lv : Simd.Level) (sched : Schedule) (data : List UInt8) (width height rowBytes bpp : Nat)
  (hr : bpp ≤ rowBytes) (hd : data.length = height * rowBytes) (hs : FairSchedule sched height)
include hr hd hs

theorem chosen {st st' : Strategy} (he : Filter.effective st width height = st')
    (hst : st' ≠ .adaptiveFast ∨ (sched.isSome ∧ 32 < height)) :
    ChosenBy (Filter.ruleOf bpp st') lv sched data width height rowBytes bpp st := by
  subst he
  obtain ⟨out, e, h⟩ := (Filter.applyFilters_by lv sched width hr hd st hs hst).out
  exact ⟨out, _, e, Filter.rowsOf_flatten hd, by simp [Filter.rowsOf], h⟩

/-- **C69**, the five fixed strategies. -/
theorem C69_fixed :
    ChosenBy (Always 0 bpp) lv sched data width height rowBytes bpp .none ∧
    ChosenBy (Always 1 bpp) lv sched data width height rowBytes bpp .sub ∧
    ChosenBy (Always 2 bpp) lv sched data width height rowBytes bpp .up ∧
    ChosenBy (Always 3 bpp) lv sched data width height rowBytes bpp .average ∧
    ChosenBy (Always 4 bpp) lv sched data width height rowBytes bpp .paeth := by
  have h : ∀ st, st.tries = false → Filter.effective st width height = st := fun st h => by
    unfold Filter.effective; rw [h]; simp
  exact ⟨chosen lv sched data width height rowBytes bpp hr hd hs (h .none rfl) (Or.inl (by simp)),
    chosen lv sched data width height rowBytes bpp hr hd hs (h .sub rfl) (Or.inl (by simp)),
    chosen lv sched data width height rowBytes bpp hr hd hs (h .up rfl) (Or.inl (by simp)),
    chosen lv sched data width height rowBytes bpp hr hd hs (h .average rfl) (Or.inl (by simp)),
    chosen lv sched data width height rowBytes bpp hr hd hs (h .paeth rfl) (Or.inl (by simp))⟩

/-- **C69**, `Bigrams` in images of more than 4096 pixels: every row gets the first of the filters with
the fewest different pairs of neighbouring bytes. -/
theorem C69_bigrams (ha : 4096 < width * height) :
    ChosenBy (Least bigrams allTypes bpp) lv sched data width height rowBytes bpp .bigrams :=
  chosen lv sched data width height rowBytes bpp hr hd hs (st' := .bigrams)
    (by unfold Filter.effective; rw [if_neg (by omega)]) (Or.inl (by simp))

/-- **C69**, `MinSum`: every row gets the first filter whose sum is at most a quarter of the length of
the row plus one, and only if there is none, the first of those with the least sum. -/
theorem C69_minsum_partial :
    ChosenBy (FirstGood (fun n => n / 4 + 1) absSum allTypes bpp) lv sched data width height rowBytes bpp .minSum :=
  chosen lv sched data width height rowBytes bpp hr hd hs (st' := .minSum)
    (by unfold Filter.effective; rw [if_neg (by simp [Filter.Strategy.tries])]) (Or.inl (by simp))

/-- **C69**, `Adaptive` in images of more than 4096 pixels: the same. -/
theorem C69_adaptive_partial (ha : 4096 < width * height) :
    ChosenBy (FirstGood (fun n => n / 4 + 1) absSum allTypes bpp) lv sched data width height rowBytes bpp .adaptive :=
  chosen lv sched data width height rowBytes bpp hr hd hs (st' := .adaptive)
    (by unfold Filter.effective; rw [if_neg (by omega)]) (Or.inl (by simp))

/-- **C69**, images of at most 4096 pixels: `Adaptive`, `AdaptiveFast` and `Bigrams` choose nothing, all
rows are filtered with Sub. -/
theorem C69_small (ha : width * height ≤ 4096) (st : Strategy)
    (hst : st = .adaptive ∨ st = .adaptiveFast ∨ st = .bigrams) :
    ChosenBy (Always 1 bpp) lv sched data width height rowBytes bpp st :=
  chosen lv sched data width height rowBytes bpp hr hd hs (st' := .sub)
    (by unfold Filter.effective; rw [if_pos ⟨ha, by rcases hst with rfl | rfl | rfl <;> rfl⟩]) (Or.inl (by simp))

/-- **C69**, `AdaptiveFast` in the parallel path: every row gets the first of Sub, Up and Paeth whose sum is at
most an eighth of the length plus one, or else the first of those with the least sum. -/
theorem C69_fast_parallel (hp : sched.isSome) (hh : 32 < height) (ha : 4096 < width * height) :
    ChosenBy (FirstGood (fun n => n / 8 + 1) absSum [1, 2, 4] bpp) lv sched data width height rowBytes bpp
      .adaptiveFast :=
  chosen lv sched data width height rowBytes bpp hr hd hs (st' := .adaptiveFast)
    (by unfold Filter.effective; rw [if_neg (by omega)]) (Or.inr ⟨hp, hh⟩)

/-- **C69 fails for `AdaptiveFast`** in the sequential path (without the parallel feature, or up to 32 rows): only the
first row is judged, by the rule, and all rows get its filter. Below the zeros above it Paeth is the
same as Sub, so all rows of the image are filtered with Sub, or all with Up. -/
theorem C69_fast_sticks_violated (hp : sched = none ∨ height ≤ 32) (h0 : 0 < height) (ha : 4096 < width * height) :
    ∃ k : UInt8, (k = 1 ∨ k = 2) ∧
      ChosenBy (Always k bpp) lv sched data width height rowBytes bpp .adaptiveFast ∧
      ∃ filt, FirstGood (fun n => n / 8 + 1) absSum [1, 2, 4] bpp (List.replicate rowBytes 0) (data.take rowBytes) k filt := by
  have he : Filter.effective .adaptiveFast width height = .adaptiveFast := by
    unfold Filter.effective; rw [if_neg (by omega)]
  have hq : Filter.applyFilters lv sched data width height rowBytes bpp .adaptiveFast =
      Filter.seqLoop lv data rowBytes bpp .adaptiveFast 0 height (List.replicate rowBytes 0) none := by
    unfold Filter.applyFilters
    simp only [he]
    cases sched with
    | none => rfl
    | some order =>
      simp only
      rw [if_neg (fun c => by have := hp.elim (fun h => by simp at h) id; omega)]
  obtain ⟨out, e, k, hk, h, hf⟩ := (Filter.fast_seq lv hr hd).out
  obtain ⟨filt, _, _, hf⟩ := hf h0
  exact ⟨k, hk, ⟨out, _, by rw [hq, e], Filter.rowsOf_flatten hd, by simp [Filter.rowsOf], h⟩, filt, hf⟩

end

/-- What the early stop can cost: the sum of the chosen filter exceeds that of any other one only if it is at
most a quarter of the length of the row plus one. -/
theorem C69_near {bpp : Nat} {prev raw filt filt' : List UInt8} {ft ft' : UInt8}
    (h : FirstGood (fun n => n / 4 + 1) absSum allTypes bpp prev raw ft filt)
    (h' : Filtered bpp prev raw ft' filt') : absSum filt ≤ max (absSum filt') (raw.length / 4 + 1) := by
  obtain ⟨_, _, ⟨h1, _⟩ | ⟨_, _, _, h2⟩⟩ := h
  · exact Nat.le_trans h1 (Nat.le_max_right _ _)
  · exact Nat.le_trans (h2 ft' (Filter.mem_allTypes.2 h'.1) filt' h').1 (Nat.le_max_left _ _)

/-- A row that meets it, and is not the best one. -/
example : FirstGood (fun n => n / 4 + 1) absSum allTypes 1 [1, 0] [1, 0] 0 [1, 0] ∧
    Filtered 1 [1, 0] [1, 0] 2 [0, 0] ∧ absSum [1, 0] = 1 ∧ absSum [0, 0] = 0 := by
  refine ⟨⟨by unfold Filtered; decide, by decide, Or.inl ⟨by decide, fun ft' _ h => ?_⟩⟩, by unfold Filtered; decide,
    by decide, by decide⟩
  rw [UInt8.lt_iff_toNat_lt] at h
  exact absurd h (Nat.not_lt_zero _)

/-- Rows of a given length are determined by the bytes of the image. -/
theorem rows_unique {rule : Rule} {n : Nat} : ∀ {rows : List (List UInt8)} {prev out : List UInt8},
    ScanlinesBy rule n prev rows out → ∀ r ∈ rows, r.length = n
  | _, _, _, .nil _ => by simp
  | _, _, _, .cons hl _ h => by
    intro r hr
    rcases List.mem_cons.1 hr with rfl | hr
    · exact hl
    · exact rows_unique h r hr

/-- **C69 fails for `MinSum`**: of two rows `1 0` the second one is written as it is, with sum 1, since that is good
enough, though Up makes it all zero. -/
theorem C69_minsum_violated : ¬ C69_full := by
  intro h
  obtain ⟨out, rows, e, hfl, hlen, hs⟩ := h .scalar none [1, 0, 1, 0] 2 2 2 1 .minSum (by decide) (by decide)
    (fun _ h => by simp at h)
  have e' : Filter.applyFilters .scalar none [1, 0, 1, 0] 2 2 2 1 .minSum = .ok [0, 1, 0, 0, 1, 0] := by decide +kernel
  rw [e'] at e
  injection e with e
  subst e
  have hl := rows_unique hs
  match rows, hlen with
  | [r1, r2], _ =>
    have l1 := hl r1 (by simp)
    have l2 := hl r2 (by simp)
    match r1, r2, l1, l2 with
    | [a, b], [c, d], _, _ =>
      simp only [List.flatten_cons, List.flatten_nil, List.cons_append, List.nil_append, List.append_nil, List.cons.injEq,
        and_true] at hfl
      obtain ⟨rfl, rfl, rfl, rfl⟩ := hfl
      generalize hx : ([0, 1, 0, 0, 1, 0] : List UInt8) = x at hs
      cases hs with
      | cons hl1 hr1 hs1 =>
        rename_i ft1 filt1 bytes1
        have f1 : filt1.length = 2 := hr1.1.2.1
        match filt1, f1 with
        | [p, q], _ =>
          injection hx with _ hx
          injection hx with _ hx
          injection hx with _ hx
          cases hs1 with
          | cons hl2 hr2 hs2 =>
            rename_i ft2 filt2 bytes2
            have f2 : filt2.length = 2 := hr2.1.2.1
            match filt2, f2 with
            | [u, v], _ =>
              injection hx with x1 hx
              injection hx with x2 hx
              injection hx with x3 hx
              subst x1 x2 x3
              have := (hr2.2.2 2 (by decide) [0, 0] (by unfold Filtered; decide)).1
              revert this
              decide

/-- The rule of row `k`, read off the bytes. -/
theorem rule_at {rule : Rule} {n : Nat} (hlen : ∀ prev raw ft filt, rule prev raw ft filt → filt.length = raw.length) :
    ∀ {rows : List (List UInt8)} {prev out : List UInt8}, ScanlinesBy rule n prev rows out →
    ∀ k (hk : k < rows.length), ∃ ft filt, out[k * (n + 1)]? = some ft ∧
      rule ((prev :: rows).getD k []) rows[k] ft filt
  | _, _, _, .nil _, k, hk => absurd hk (Nat.not_lt_zero _)
  | _, _, _, .cons (prev := prev) (raw := raw) (ft := ft) (filt := filt) (rows := rows) (bytes := bytes) hl hr h, 0, _ =>
    ⟨ft, filt, by simp, hr⟩
  | _, _, _, .cons (prev := prev) (raw := raw) (ft := ft) (filt := filt) (rows := rows) (bytes := bytes) hl hr h, k + 1, hk => by
    obtain ⟨ft', filt', e, hr'⟩ := rule_at hlen h k (by simpa using hk)
    refine ⟨ft', filt', ?_, by simpa using hr'⟩
    have hf := hlen _ _ _ _ hr
    rw [Nat.succ_mul, List.getElem?_append_right (by rw [List.length_cons]; omega), ← e]
    congr 1
    rw [List.length_cons]; omega

/-- Row `k` of an image. -/
theorem row_at {n : Nat} : ∀ {rows : List (List UInt8)} {data : List UInt8}, (∀ r ∈ rows, r.length = n) →
    rows.flatten = data → ∀ k (hk : k < rows.length), rows[k] = (data.drop (k * n)).take n
  | [], _, _, _, k, hk => absurd hk (Nat.not_lt_zero _)
  | r :: rows, data, hl, hf, k, hk => by
    have h0 := hl r (by simp)
    subst hf
    rw [List.flatten_cons]
    cases k with
    | zero =>
      rw [Nat.zero_mul, List.drop_zero, List.getElem_cons_zero, List.take_left' h0]
    | succ k =>
      rw [List.getElem_cons_succ, row_at (fun r hr => hl r (by simp [hr])) rfl k (by simpa using hk), Nat.succ_mul,
        Nat.add_comm, ← List.drop_drop, List.drop_left' h0]

/-- **C69 fails for `AdaptiveFast`**, a witness: a black row above 32 gray ones. All rows are filtered with Sub, with
sum 50 from the second on, though Up makes all rows from the third on zero. -/
theorem C69_fast_violated :
    ¬ ChosenBy (documented 1 .adaptiveFast) .scalar none fastWitness 125 33 125 1 .adaptiveFast := by
  rintro ⟨out, rows, e, hfl, hlen, hs⟩
  have h252 := fastWitness_seq
  rw [e] at h252
  have h252 : out[252]? = some 1 := h252
  have hl := rows_unique hs
  obtain ⟨ft, filt, e2, hr⟩ := rule_at (fun _ _ _ _ h => h.1.2.1) hs 2 (by omega)
  have e2 : out[252]? = some ft := e2
  rw [h252] at e2
  injection e2 with e2
  subst e2
  have r2 : rows[2] = List.replicate 125 50 := by
    rw [row_at hl hfl 2 (by omega)]; decide +kernel
  have r1 : (List.replicate 125 0 :: rows).getD 2 [] = List.replicate 125 50 := by
    have : (List.replicate 125 0 :: rows).getD 2 [] = rows[1] := by
      rw [List.getD_cons_succ, List.getD_eq_getElem?_getD, List.getElem?_eq_getElem (by omega)]; rfl
    rw [this, row_at hl hfl 1 (by omega)]; decide +kernel
  rw [r1, r2] at hr
  have hup : Filtered 1 (List.replicate 125 50) (List.replicate 125 50) 2 (List.replicate 125 0) := by
    unfold Filtered; decide +kernel
  have hsub : absSum (Filter.refRow 1 (List.replicate 125 50) (List.replicate 125 50) 1) = 50 := by decide +kernel
  have h0 : absSum (List.replicate 125 0) = 0 := by decide +kernel
  obtain ⟨hf, _, ⟨h1, _⟩ | ⟨h1, _⟩⟩ := hr
  · rw [Filter.filtered_unique hf] at h1
    rw [show (1 : UInt8).toNat = 1 from rfl, hsub, List.length_replicate] at h1
    revert h1
    decide
  · have := h1 2 (by decide) _ hup
    rw [h0] at this
    omega

/-- **C69 fails for small images**: `Bigrams` filters these two rows with Sub, and gives the second one two
pairs where None, Up and others have one. -/
theorem C69_small_violated :
    ¬ ChosenBy (documented 1 .bigrams) .scalar none [0, 0, 0, 9, 9, 9] 3 2 3 1 .bigrams := by
  rintro ⟨out, rows, e, hfl, hlen, hs⟩
  have e' : Filter.applyFilters .scalar none [0, 0, 0, 9, 9, 9] 3 2 3 1 .bigrams = .ok [1, 0, 0, 0, 1, 9, 0, 0] := by
    decide +kernel
  rw [e'] at e
  injection e with e
  subst e
  have hl := rows_unique hs
  obtain ⟨ft, filt, e2, hr⟩ := rule_at (fun _ _ _ _ h => h.1.2.1) hs 1 (by omega)
  have e2 : some (1 : UInt8) = some ft := e2
  injection e2 with e2
  subst e2
  have r1 : rows[1] = [9, 9, 9] := by rw [row_at hl hfl 1 (by omega)]; rfl
  have r0 : (List.replicate 3 0 :: rows).getD 1 [] = [0, 0, 0] := by
    have : (List.replicate 3 0 :: rows).getD 1 [] = rows[0] := by
      rw [List.getD_cons_succ, List.getD_eq_getElem?_getD, List.getElem?_eq_getElem (by omega)]; rfl
    rw [this, row_at hl hfl 0 (by omega)]; rfl
  rw [r0, r1] at hr
  have := (hr.2.2 0 (by decide) [9, 9, 9] (by unfold Filtered; decide)).1
  rw [Filter.filtered_unique hr.1] at this
  revert this
  decide +kernel

/-- An image of three rows in which `MinSum` chooses None, Paeth and Up. -/
example : Filter.applyFilters .avx2 none [1, 0, 0, 0, 10, 90, 90, 200, 10, 90, 90, 201] 4 3 4 1 .minSum =
    .ok [0, 1, 0, 0, 0, 4, 9, 80, 0, 110, 2, 0, 0, 0, 1] := by decide +kernel

/-- A schedule and sizes that meet the conditions. -/
example : FairSchedule (some (List.range 65)) 65 ∧ 4096 < 64 * 65 ∧ 32 < 65 :=
  ⟨fun _ h y => by injection h with h; rw [← h, List.mem_range], by decide, by decide⟩

end Pixo.Props
