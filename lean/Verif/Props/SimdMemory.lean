import Verif.Model.SimdMemory
import Verif.Proof.MatchLength
/-
C99: the safe functions of the public module `pixo::simd` read nothing outside the slices they are given.

The statement is false: `filter_up`, `filter_average`, `filter_paeth` (on ARM) and `match_length` are safe
functions, and with a short previous row, or with positions too near the end, their vector loops read on behind
the slice. For each of them it is described exactly when. The other functions never do, and nor do the four for
the arguments the encoder passes.
-/
namespace Pixo.Props.Memory
open Pixo Pixo.Memory
open Pixo.Simd (Level)

/-- The call reads no bytes outside the slices it was given. -/
def Inside {α : Type} (x : U α) : Prop := x ≠ .error .outside

/-! ### Calculus -/

/-- Reading outside shown as a panic, as in the rest of the model. -/
def merge {α : Type} : U α → R α
  | .ok v => .ok v
  | .error .outside => .error .panic
  | .error (.err e) => .error e

theorem merge_bind {α β : Type} (x : U α) (f : α → U β) : merge (x >>= f) = merge x >>= fun v => merge (f v) := by
  match x with
  | .ok _ => rfl
  | .error .outside => rfl
  | .error (.err _) => rfl

theorem merge_pure {α : Type} (v : α) : merge (pure v : U α) = pure v := rfl

theorem merge_ok {α : Type} (v : α) : merge (.ok v : U α) = .ok v := rfl

theorem merge_lift {α : Type} (x : R α) : merge (lift x) = x := by cases x <;> rfl

theorem merge_load (s : List UInt8) (i w : Nat) : merge (load s i w) = MatchLength.slice s i w := by
  unfold load loadAt MatchLength.slice
  by_cases h : i ≤ s.length
  · rw [if_pos h]
    by_cases h' : i + w ≤ s.length
    · rw [if_pos h', if_pos h']; rfl
    · rw [if_neg h', if_neg h']; rfl
  · rw [if_neg h, if_neg (by omega)]; rfl

theorem merge_ite {α : Type} (c : Prop) [Decidable c] (x y : U α) :
    merge (if c then x else y) = if c then merge x else merge y := by split <;> rfl

/-- What succeeds in the rest of the model reads nothing outside. -/
theorem of_merge {α : Type} {x : U α} {v : α} (h : merge x = .ok v) : x = .ok v := by
  match x, h with
  | .ok _, h => cases h; rfl

theorem inside_ok {α : Type} (v : α) : Inside (.ok v : U α) := by intro h; cases h

theorem inside_err {α : Type} (e : Err) : Inside (.error (.err e) : U α) := by intro h; cases h

theorem inside_lift {α : Type} (x : R α) : Inside (lift x) := by
  cases x with
  | ok v => exact inside_ok v
  | error e => exact inside_err e

theorem inside_bind {α β : Type} {x : U α} {f : α → U β} (hx : Inside x) (hf : ∀ v, x = .ok v → Inside (f v)) :
    Inside (x >>= f) := by
  match x with
  | .ok v => exact hf v rfl
  | .error .outside => exact absurd rfl hx
  | .error (.err e) => exact inside_err e

theorem bind_outside {α β : Type} {x : U α} {f : α → U β} (hf : ∀ v, x = .ok v → Inside (f v)) :
    ((x >>= f) = .error .outside) ↔ x = .error .outside := by
  match x with
  | .ok v => exact ⟨fun h => absurd h (hf v rfl), fun h => by cases h⟩
  | .error .outside => exact ⟨fun _ => rfl, fun _ => rfl⟩
  | .error (.err e) => exact ⟨fun h => (by cases h), fun h => by cases h⟩

theorem inside_loadAt {s : List UInt8} {i w : Nat} (h : i + w ≤ s.length) : Inside (loadAt s i w) := by
  unfold loadAt; rw [if_pos h]; exact inside_ok _

theorem inside_load {s : List UInt8} {i w : Nat} (h : i + w ≤ s.length) : Inside (load s i w) := by
  unfold load; rw [if_pos (by omega)]; exact inside_loadAt h

theorem load_ok {s : List UInt8} {i w : Nat} (h : i + w ≤ s.length) : load s i w = .ok ((s.drop i).take w) := by
  unfold load loadAt; rw [if_pos (by omega), if_pos h]

theorem load_outside {s : List UInt8} {i w : Nat} (h : i ≤ s.length) (h' : s.length < i + w) :
    load s i w = .error .outside := by
  unfold load loadAt; rw [if_pos h, if_neg (by omega)]

/-! ### The model with both faults told apart is the model used everywhere else -/

theorem merge_vecLoop (w : Nat) (v : Nat → U (List UInt8)) (len : Nat) : ∀ (fuel i : Nat),
    merge (Memory.vecLoop w v fuel i len) = Filter.vecLoop w (fun i => merge (v i)) fuel i len := by
  intro fuel
  induction fuel with
  | zero => intro i; rfl
  | succ n ih =>
    intro i
    simp only [Memory.vecLoop, Filter.vecLoop, merge_ite, merge_bind, ih, merge_pure, merge_ok]

theorem merge_vecThenTail (w : Nat) (v : Nat → U (List UInt8)) (f : Nat → R UInt8) (i len : Nat) :
    merge (Memory.vecThenTail w v f i len) = Filter.vecThenTail w (fun i => merge (v i)) f i len := by
  simp only [Memory.vecThenTail, Filter.vecThenTail, merge_bind, merge_vecLoop, merge_lift, merge_pure]

theorem merge_subRest (w : Nat) (row : List UInt8) (bpp : Nat) :
    merge (Memory.subRest w row bpp) = Filter.subRest w row bpp := by
  simp only [Memory.subRest, Filter.subRest, merge_vecThenTail]
  congr 1
  funext i
  simp only [Memory.subVec, Filter.subVec, merge_bind, merge_load, merge_pure]

theorem merge_subWide (w : Nat) (row : List UInt8) (bpp : Nat) :
    merge (Memory.subWide w row bpp) = Filter.subWide w row bpp := by
  simp only [Memory.subWide, Filter.subWide, merge_ite, merge_bind, merge_subRest, merge_pure, merge_ok]

theorem merge_subSse2 (row : List UInt8) (bpp : Nat) :
    merge (Memory.subSse2 row bpp) = Filter.subSse2 row bpp := by
  simp only [Memory.subSse2, Filter.subSse2, merge_bind, merge_subRest, merge_pure, merge_lift]

theorem merge_upWide (w : Nat) (row prev : List UInt8) :
    merge (Memory.upWide w row prev) = Filter.upWide w row prev := by
  simp only [Memory.upWide, Filter.upWide, merge_vecThenTail]
  congr 1
  funext i
  simp only [Memory.upVec, Filter.upVec, merge_bind, merge_load, merge_pure]

theorem merge_averageWide (w : Nat) (avg : List UInt8 → List UInt8 → List UInt8) (row prev : List UInt8) (bpp : Nat) :
    merge (Memory.averageWide w avg row prev bpp) = Filter.averageWide w avg row prev bpp := by
  have hv : (fun i => merge (Memory.averageVec w avg row prev bpp i)) = Filter.averageVec w avg row prev bpp := by
    funext i
    simp only [Memory.averageVec, Filter.averageVec, merge_bind, merge_load, merge_pure]
  simp only [Memory.averageWide, Filter.averageWide, merge_bind, merge_ite, merge_vecThenTail, merge_lift, merge_pure, hv]

theorem merge_paethWide (w : Nat) (pred : List UInt8 → List UInt8 → List UInt8 → List UInt8) (firstAt : Nat → R UInt8)
    (row prev : List UInt8) (bpp : Nat) :
    merge (Memory.paethWide w pred firstAt row prev bpp) = Filter.paethWide w pred firstAt row prev bpp := by
  have hv : (fun i => merge (Memory.paethVec w pred row prev bpp i)) = Filter.paethVec w pred row prev bpp := by
    funext i
    simp only [Memory.paethVec, Filter.paethVec, merge_bind, merge_load, merge_pure]
  simp only [Memory.paethWide, Filter.paethWide, merge_bind, merge_ite, merge_vecThenTail, merge_lift, merge_pure, hv]

theorem merge_blockLoop (W : Nat) (cmp : List UInt8 → List UInt8 → Option Nat) (data : List UInt8) (p q n : Nat) :
    ∀ (fuel l : Nat), merge (Memory.blockLoop W cmp fuel data p q n l) = MatchLength.blockLoop W cmp fuel data p q n l := by
  intro fuel
  induction fuel with
  | zero => intro l; rfl
  | succ k ih =>
    intro l
    simp only [Memory.blockLoop, MatchLength.blockLoop, merge_ite, merge_bind, merge_load, merge_ok]
    split
    · congr 1
      funext a
      congr 1
      funext b
      cases cmp a b with
      | none => exact ih _
      | some k => rfl
    · rfl

theorem merge_matchSse2 (data : List UInt8) (p q n : Nat) :
    merge (matchSse2 data p q n) = MatchLength.sse2 data p q n := by
  simp only [matchSse2, MatchLength.sse2, merge_bind, merge_blockLoop, merge_ite, merge_ok, merge_lift]

/-- **C99 (the model of memory accesses is the model of the code).** The filters and the match length modelled
with reading outside told apart give what Model/Filter.lean and Model/MatchLength.lean give, where reading outside
is a panic. So all theorems that some of these calls succeed say that they read nothing outside. -/
theorem C99_same (lv : Level) (row prev : List UInt8) (bpp : Nat) (data : List UInt8) (p q n : Nat) :
    merge (Memory.filterSub lv row bpp) = Filter.filterSub lv row bpp ∧
    merge (Memory.filterUp lv row prev) = Filter.filterUp lv row prev ∧
    merge (Memory.filterAverage lv row prev bpp) = Filter.filterAverage lv row prev bpp ∧
    merge (Memory.filterPaeth lv row prev bpp) = Filter.filterPaeth lv row prev bpp ∧
    merge (Memory.matchLength lv data p q n) = Simd.matchLength lv data p q n := by
  refine ⟨?_, ?_, ?_, ?_, ?_⟩
  · cases lv <;> simp only [Memory.filterSub, Filter.filterSub, merge_subWide, merge_subSse2, merge_lift]
  · cases lv <;> simp only [Memory.filterUp, Filter.filterUp, merge_upWide, merge_lift]
  · cases lv <;> simp only [Memory.filterAverage, Filter.filterAverage, merge_averageWide, merge_lift]
  · cases lv <;> simp only [Memory.filterPaeth, Filter.filterPaeth, merge_paethWide, merge_lift]
  · cases lv with
    | avx2 =>
      simp only [Memory.matchLength, Simd.matchLength, matchAvx2, MatchLength.avx2, merge_bind, merge_blockLoop,
        merge_ite, merge_ok, merge_matchSse2, merge_pure]
    | ssse3 => exact merge_matchSse2 data p q n
    | sse2 => exact merge_matchSse2 data p q n
    | scalar => exact merge_lift _
    | neon =>
      simp only [Memory.matchLength, Simd.matchLength, matchNeon, MatchLength.neon, merge_bind, merge_blockLoop,
        merge_ite, merge_ok, merge_lift]

/-! ### Functions that never read outside -/

theorem inside_vecLoop {w : Nat} {v : Nat → U (List UInt8)} {len : Nat}
    (hv : ∀ i, i + w ≤ len → Inside (v i)) : ∀ (fuel i : Nat), Inside (Memory.vecLoop w v fuel i len) := by
  intro fuel
  induction fuel with
  | zero => intro i; exact inside_err _
  | succ n ih =>
    intro i
    unfold Memory.vecLoop
    by_cases h : i + w ≤ len
    · rw [if_pos h]
      refine inside_bind (hv i h) fun x _ => inside_bind (ih _) fun y _ => inside_ok _
    · rw [if_neg h]; exact inside_ok _

theorem inside_vecThenTail {w : Nat} {v : Nat → U (List UInt8)} {f : Nat → R UInt8} {i len : Nat}
    (hv : ∀ i, i + w ≤ len → Inside (v i)) : Inside (Memory.vecThenTail w v f i len) :=
  inside_bind (inside_vecLoop hv _ _) fun _ _ => inside_bind (inside_lift _) fun _ _ => inside_ok _

theorem inside_subRest (w : Nat) (row : List UInt8) (bpp : Nat) : Inside (Memory.subRest w row bpp) := by
  refine inside_vecThenTail fun i hi => ?_
  rw [List.length_drop] at hi
  refine inside_bind (inside_load (by rw [List.length_drop]; exact hi)) fun _ _ => ?_
  exact inside_bind (inside_load (by rw [List.length_take]; omega)) fun _ _ => inside_ok _

theorem inside_filterSub (lv : Level) (row : List UInt8) (bpp : Nat) : Inside (Memory.filterSub lv row bpp) := by
  have hw : ∀ w, Inside (Memory.subWide w row bpp) := by
    intro w
    unfold Memory.subWide
    split
    · exact inside_ok _
    · exact inside_bind (inside_subRest w row bpp) fun _ _ => inside_ok _
  have hs : Inside (Memory.subSse2 row bpp) :=
    inside_bind (inside_lift _) fun _ _ => inside_bind (inside_subRest 16 row bpp) fun _ _ => inside_ok _
  cases lv
  · exact hw 32
  · exact hs
  · exact hs
  · exact inside_lift _
  · exact hw 16

theorem inside_whileLoads (w : Nat) : ∀ (fuel : Nat) (rem : List UInt8), Inside (whileLoads w fuel rem) := by
  intro fuel
  induction fuel with
  | zero => intro rem; exact inside_ok _
  | succ n ih =>
    intro rem
    unfold whileLoads
    split
    · rename_i h
      exact inside_bind (inside_loadAt (by omega)) fun _ _ => ih _
    · exact inside_ok _

theorem inside_chunkLoads (w : Nat) : ∀ (k : Nat) (data : List UInt8), k * w ≤ data.length →
    Inside (chunkLoads w k data) := by
  intro k
  induction k with
  | zero => intro data _; exact inside_ok _
  | succ n ih =>
    intro data h
    rw [Nat.succ_mul] at h
    refine inside_bind (inside_loadAt (by rw [List.length_take]; omega)) fun _ _ => ih _ ?_
    rw [List.length_drop]; omega

theorem inside_blockLoads : ∀ (fuel : Nat) (rem : List UInt8), Inside (blockLoads fuel rem) := by
  intro fuel
  induction fuel with
  | zero => intro rem; exact inside_err _
  | succ n ih =>
    intro rem
    unfold blockLoads
    split
    · exact inside_bind (inside_chunkLoads 16 _ _ (Nat.div_mul_le_self _ _)) fun _ _ => ih _
    · split
      · exact inside_chunkLoads 16 _ _ (Nat.div_mul_le_self _ _)
      · exact inside_ok _

theorem inside_load64 {rem : List UInt8} (h : 64 ≤ rem.length) : Inside (load64 rem) :=
  inside_bind (inside_loadAt (by omega)) fun _ _ => inside_bind (inside_loadAt (by omega)) fun _ _ =>
    inside_bind (inside_loadAt (by omega)) fun _ _ => inside_bind (inside_loadAt (by omega)) fun _ _ => inside_ok _

theorem inside_foldLoads : ∀ (fuel : Nat) (rem : List UInt8), Inside (foldLoads fuel rem) := by
  intro fuel
  induction fuel with
  | zero => intro rem; exact inside_ok _
  | succ n ih =>
    intro rem
    unfold foldLoads
    split
    · rename_i h
      exact inside_bind (inside_load64 h) fun _ _ => ih _
    · exact inside_ok _

/-- **C99 (functions that are sound).** Whatever they are given, on every processor: `filter_sub`,
`score_filter`, `adler32` and `crc32` read nothing outside the slice. -/
theorem C99_sound (lv : Level) (data : List UInt8) (bpp : Nat) (pclmul : Bool) (align : Nat) :
    Inside (Memory.filterSub lv data bpp) ∧ Inside (scoreLoads lv data) ∧ Inside (adlerLoads lv data) ∧
    Inside (crcLoads pclmul align data) := by
  refine ⟨inside_filterSub lv data bpp, ?_, ?_, ?_⟩
  · cases lv
    · exact inside_whileLoads _ _ _
    · exact inside_whileLoads _ _ _
    · exact inside_whileLoads _ _ _
    · exact inside_ok _
    · exact inside_whileLoads _ _ _
  · cases lv
    · exact inside_chunkLoads 32 _ _ (Nat.div_mul_le_self _ _)
    · exact inside_blockLoads _ _
    · exact inside_blockLoads _ _
    · exact inside_ok _
    · exact inside_blockLoads _ _
  · unfold crcLoads
    split
    · exact inside_ok _
    · generalize (if 0 < align ∧ align ≤ data.length then data.drop align else data) = rem
      show Inside (if rem.length ≥ 64 then _ else _)
      split
      · rename_i h
        exact inside_bind (inside_load64 h) fun _ _ => inside_bind (inside_foldLoads _ _) fun _ _ =>
          inside_bind (inside_whileLoads _ _ _) fun _ _ => inside_ok _
      · exact inside_ok _

/-- The loads of the sound functions are all there: reading a row of 40 bytes reads 32 or two times 16. -/
example : scoreLoads .avx2 (List.replicate 40 7) = .ok (List.replicate 8 7) ∧
    scoreLoads .sse2 (List.replicate 40 7) = .ok (List.replicate 8 7) := by decide +kernel

/-! ### Functions with a row above -/

/-- The vector loop of a filter with the row above reads outside exactly when that row ends before the loop. -/
theorem vecLoop_outside {w : Nat} (hw : 0 < w) {v : Nat → U (List UInt8)} {len above : Nat}
    (hin : ∀ i, i + w ≤ len → i + w ≤ above → ∃ x, v i = .ok x)
    (hout : ∀ i, i + w ≤ len → i ≤ above → above < i + w → v i = .error .outside) :
    ∀ (fuel i : Nat), len - i < fuel → i ≤ above →
      (Memory.vecLoop w v fuel i len = .error .outside ↔ above < i + (len - i) / w * w) := by
  intro fuel
  induction fuel with
  | zero => intro i h; omega
  | succ n ih =>
    intro i hf ha
    unfold Memory.vecLoop
    by_cases h : i + w ≤ len
    · rw [if_pos h]
      have hd : (len - i) / w = (len - (i + w)) / w + 1 := by
        rw [show len - i = (len - (i + w)) + w by omega, Nat.add_div_right _ hw]
      by_cases h' : i + w ≤ above
      · obtain ⟨x, hx⟩ := hin i h h'
        rw [hx]
        show ((Memory.vecLoop w v n (i + w) len >>= fun y => .ok (x ++ y.1, y.2)) = .error .outside) ↔ _
        rw [bind_outside (fun y _ => inside_ok _), ih (i + w) (by omega) h', hd, Nat.succ_mul]
        constructor <;> intro hh <;> omega
      · rw [hout i h ha (by omega)]
        refine ⟨fun _ => ?_, fun _ => rfl⟩
        rw [hd, Nat.succ_mul]
        omega
    · rw [if_neg h, Nat.div_eq_of_lt (by omega)]
      exact ⟨fun hh => (by cases hh), fun hh => by omega⟩

theorem vecThenTail_outside {w : Nat} (hw : 0 < w) {v : Nat → U (List UInt8)} {f : Nat → R UInt8} {len above i : Nat}
    (hin : ∀ i, i + w ≤ len → i + w ≤ above → ∃ x, v i = .ok x)
    (hout : ∀ i, i + w ≤ len → i ≤ above → above < i + w → v i = .error .outside) (hi : i ≤ above) :
    Memory.vecThenTail w v f i len = .error .outside ↔ above < i + (len - i) / w * w := by
  unfold Memory.vecThenTail
  refine (bind_outside ?_).trans (vecLoop_outside hw hin hout _ _ (by omega) hi)
  exact fun _ _ => inside_bind (inside_lift _) fun _ _ => inside_ok _

theorem upWide_outside {w : Nat} (hw : 0 < w) (row prev : List UInt8) :
    Memory.upWide w row prev = .error .outside ↔ prev.length < row.length / w * w := by
  have h := vecThenTail_outside (f := Filter.upAt row prev) (len := row.length) (above := prev.length) (i := 0) hw
    (v := Memory.upVec w row prev)
    (fun i h h' => ⟨_, by unfold Memory.upVec; rw [load_ok h, load_ok h']; rfl⟩)
    (fun i h h1 h2 => by unfold Memory.upVec; rw [load_ok h, load_outside h1 h2]; rfl) (Nat.zero_le _)
  rw [Nat.zero_add, Nat.sub_zero] at h
  exact h

theorem idxLoop_ok_length {f : Nat → R UInt8} : ∀ (n i : Nat) {out : List UInt8}, Filter.idxLoop f i n = .ok out →
    ∀ j, i ≤ j → j < i + n → ∃ x, f j = .ok x := by
  intro n
  induction n with
  | zero => intro i out _ j h1 h2; omega
  | succ n ih =>
    intro i out h j h1 h2
    unfold Filter.idxLoop at h
    cases hf : f i with
    | error e => rw [hf] at h; cases h
    | ok x =>
      cases hr : Filter.idxLoop f (i + 1) n with
      | error e => rw [hf, hr] at h; cases h
      | ok r =>
        by_cases hj : j = i
        · exact ⟨x, by rw [hj]; exact hf⟩
        · exact ih (i + 1) hr j (by omega) (by omega)

theorem idxLoop_of_ok {f : Nat → R UInt8} : ∀ (n i : Nat), (∀ j, i ≤ j → j < i + n → ∃ x, f j = .ok x) →
    ∃ out, Filter.idxLoop f i n = .ok out := by
  intro n
  induction n with
  | zero => intro i _; exact ⟨[], rfl⟩
  | succ n ih =>
    intro i h
    obtain ⟨x, hx⟩ := h i (Nat.le_refl _) (by omega)
    obtain ⟨r, hr⟩ := ih (i + 1) fun j h1 h2 => h j (by omega) (by omega)
    exact ⟨x :: r, by unfold Filter.idxLoop; rw [hx, hr]; rfl⟩

theorem getChecked_iff {l : List UInt8} {i : Nat} : (∃ x, getChecked l i = .ok x) ↔ i < l.length := by
  unfold getChecked
  by_cases h : i < l.length
  · rw [List.getElem?_eq_getElem h]; exact ⟨fun _ => h, fun _ => ⟨_, rfl⟩⟩
  · rw [List.getElem?_eq_none (by omega)]
    exact ⟨fun ⟨_, hh⟩ => (by cases hh), fun hh => absurd hh h⟩

/-- The bytes without a left neighbour: they are checked, so that the row above has them. -/
theorem first_ok {row prev : List UInt8} {bpp : Nat} {f : Nat → R UInt8}
    (hf : ∀ i, (∃ x, f i = .ok x) ↔ i < prev.length ∧ i < row.length) :
    (∃ out, Filter.idxLoop f 0 (min bpp row.length) = .ok out) ↔ min bpp row.length ≤ prev.length := by
  constructor
  · rintro ⟨out, h⟩
    by_cases hm : min bpp row.length = 0
    · omega
    · have := ((hf _).1 (idxLoop_ok_length _ _ h (min bpp row.length - 1) (by omega) (by omega))).1
      omega
  · intro h
    exact idxLoop_of_ok _ _ fun j _ hj => (hf j).2 ⟨by omega, by omega⟩

theorem averageFirst_iff (row prev : List UInt8) (i : Nat) :
    (∃ x, Filter.averageFirst row prev i = .ok x) ↔ i < prev.length ∧ i < row.length := by
  unfold Filter.averageFirst
  constructor
  · rintro ⟨x, h⟩
    cases ha : getChecked prev i with
    | error e => rw [ha] at h; cases h
    | ok a =>
      cases hb : getChecked row i with
      | error e => rw [ha, hb] at h; cases h
      | ok b => exact ⟨getChecked_iff.1 ⟨a, ha⟩, getChecked_iff.1 ⟨b, hb⟩⟩
  · rintro ⟨h1, h2⟩
    obtain ⟨a, ha⟩ := getChecked_iff.2 h1
    obtain ⟨b, hb⟩ := getChecked_iff.2 h2
    exact ⟨_, by rw [ha, hb]; rfl⟩

theorem paethFirst_iff (row prev : List UInt8) (i : Nat) :
    (∃ x, Filter.paethFirstNeon row prev i = .ok x) ↔ i < prev.length ∧ i < row.length := by
  unfold Filter.paethFirstNeon
  constructor
  · rintro ⟨x, h⟩
    cases ha : getChecked prev i with
    | error e => rw [ha] at h; cases h
    | ok a =>
      cases hb : getChecked row i with
      | error e => rw [ha, hb] at h; cases h
      | ok b => exact ⟨getChecked_iff.1 ⟨a, ha⟩, getChecked_iff.1 ⟨b, hb⟩⟩
  · rintro ⟨h1, h2⟩
    obtain ⟨a, ha⟩ := getChecked_iff.2 h1
    obtain ⟨b, hb⟩ := getChecked_iff.2 h2
    exact ⟨_, by rw [ha, hb]; rfl⟩

/-- Common frame of `filter_average` and `filter_paeth`. -/
theorem frame_outside {w : Nat} (hw : 0 < w) {first f : Nat → R UInt8} {v : Nat → U (List UInt8)}
    {row prev : List UInt8} {bpp : Nat}
    (hf : ∀ i, (∃ x, first i = .ok x) ↔ i < prev.length ∧ i < row.length)
    (hin : ∀ i, i + w ≤ row.length → i + w ≤ prev.length → ∃ x, v i = .ok x)
    (hout : ∀ i, i + w ≤ row.length → i ≤ prev.length → prev.length < i + w → v i = .error .outside) :
    ((lift (Filter.idxLoop first 0 (min bpp row.length)) >>= fun a =>
        if row.length ≤ bpp then pure a
        else Memory.vecThenTail w v f bpp row.length >>= fun rest => pure (a ++ rest)) = .error .outside) ↔
      bpp ≤ prev.length ∧ prev.length < bpp + (row.length - bpp) / w * w := by
  cases hl : Filter.idxLoop first 0 (min bpp row.length) with
  | error e =>
    have hn : ¬ min bpp row.length ≤ prev.length := by
      intro hh
      obtain ⟨o, ho⟩ := (first_ok hf).2 hh
      rw [ho] at hl; cases hl
    refine ⟨fun h => (by cases h), fun ⟨h1, h2⟩ => ?_⟩
    omega
  | ok a =>
    have hle := (first_ok hf).1 ⟨a, hl⟩
    show (if row.length ≤ bpp then pure a
        else Memory.vecThenTail w v f bpp row.length >>= fun rest => pure (a ++ rest)) = .error .outside ↔ _
    by_cases hb : row.length ≤ bpp
    · rw [if_pos hb, Nat.sub_eq_zero_of_le hb, Nat.zero_div]
      exact ⟨fun h => (by cases h), fun ⟨h1, h2⟩ => by omega⟩
    · rw [if_neg hb]
      refine (bind_outside ?_).trans ((vecThenTail_outside hw hin hout (by omega)).trans ?_)
      · exact fun _ _ => inside_ok _
      · exact ⟨fun h => ⟨by omega, h⟩, fun h => h.2⟩

theorem averageWide_outside {w : Nat} (hw : 0 < w) (avg : List UInt8 → List UInt8 → List UInt8)
    (row prev : List UInt8) (bpp : Nat) :
    Memory.averageWide w avg row prev bpp = .error .outside ↔
      bpp ≤ prev.length ∧ prev.length < bpp + (row.length - bpp) / w * w := by
  refine frame_outside hw (averageFirst_iff row prev) (fun i h h' => ?_) (fun i h h1 h2 => ?_)
  · unfold Memory.averageVec
    rw [load_ok h, load_ok h', load_ok (s := row) (i := i - bpp) (by omega)]; exact ⟨_, rfl⟩
  · unfold Memory.averageVec
    rw [load_ok h, load_outside h1 h2]; rfl

theorem paethWide_outside {w : Nat} (hw : 0 < w) (pred : List UInt8 → List UInt8 → List UInt8 → List UInt8)
    (row prev : List UInt8) (bpp : Nat) :
    Memory.paethWide w pred (Filter.paethFirstNeon row prev) row prev bpp = .error .outside ↔
      bpp ≤ prev.length ∧ prev.length < bpp + (row.length - bpp) / w * w := by
  refine frame_outside hw (paethFirst_iff row prev) (fun i h h' => ?_) (fun i h h1 h2 => ?_)
  · unfold Memory.paethVec
    rw [load_ok h, load_ok (s := row) (i := i - bpp) (by omega), load_ok h',
      load_ok (s := prev) (i := i - bpp) (by omega)]; exact ⟨_, rfl⟩
  · unfold Memory.paethVec
    rw [load_ok h, load_ok (s := row) (i := i - bpp) (by omega), load_outside h1 h2]; rfl

/-- The width of the vectors of a processor in bytes, where it has any for `filter_up`. -/
def width : Level → Option Nat
  | .avx2 => some 32
  | .ssse3 | .sse2 | .neon => some 16
  | .scalar => none

/-- **C99 (exactly when `filter_up` reads outside).** On a processor with vectors of `w` bytes, just if the
previous row ends before the last whole vector of the row; without vectors never. -/
theorem C99_up (lv : Level) (row prev : List UInt8) :
    Memory.filterUp lv row prev = .error .outside ↔
      ∃ w, width lv = some w ∧ prev.length < row.length / w * w := by
  have key : ∀ {w : Nat}, 0 < w → width lv = some w → Memory.filterUp lv row prev = Memory.upWide w row prev →
      (Memory.filterUp lv row prev = .error .outside ↔ ∃ w, width lv = some w ∧ prev.length < row.length / w * w) := by
    intro w hw hl he
    rw [he, upWide_outside hw]
    refine ⟨fun h => ⟨w, hl, h⟩, fun ⟨w', h1, h2⟩ => ?_⟩
    rw [hl] at h1; cases h1; exact h2
  cases lv
  · exact key (w := 32) (by decide) rfl rfl
  · exact key (w := 16) (by decide) rfl rfl
  · exact key (w := 16) (by decide) rfl rfl
  · exact ⟨fun h => absurd h (inside_lift _), fun ⟨w, h, _⟩ => by cases h⟩
  · exact key (w := 16) (by decide) rfl rfl

/-- **C99 (exactly when `filter_average` reads outside).** With AVX2 (32 bytes) or on ARM (16 bytes): if the
previous row has the first pixel, but ends before the last whole vector after it. -/
theorem C99_average (lv : Level) (row prev : List UInt8) (bpp : Nat) :
    Memory.filterAverage lv row prev bpp = .error .outside ↔
      ∃ w, ((lv = .avx2 ∧ w = 32) ∨ (lv = .neon ∧ w = 16)) ∧ bpp ≤ prev.length ∧
        prev.length < bpp + (row.length - bpp) / w * w := by
  cases lv
  · refine (averageWide_outside (w := 32) (by decide) _ row prev bpp).trans
      ⟨fun h => ⟨32, .inl ⟨rfl, rfl⟩, h⟩, fun ⟨w, hw, h⟩ => ?_⟩
    rcases hw with ⟨_, rfl⟩ | ⟨h', _⟩
    · exact h
    · cases h'
  · exact ⟨fun h => absurd h (inside_lift _), fun ⟨w, hw, _⟩ => by rcases hw with ⟨h, _⟩ | ⟨h, _⟩ <;> cases h⟩
  · exact ⟨fun h => absurd h (inside_lift _), fun ⟨w, hw, _⟩ => by rcases hw with ⟨h, _⟩ | ⟨h, _⟩ <;> cases h⟩
  · exact ⟨fun h => absurd h (inside_lift _), fun ⟨w, hw, _⟩ => by rcases hw with ⟨h, _⟩ | ⟨h, _⟩ <;> cases h⟩
  · refine (averageWide_outside (w := 16) (by decide) _ row prev bpp).trans
      ⟨fun h => ⟨16, .inr ⟨rfl, rfl⟩, h⟩, fun ⟨w, hw, h⟩ => ?_⟩
    rcases hw with ⟨h', _⟩ | ⟨_, rfl⟩
    · cases h'
    · exact h

/-- **C99 (exactly when `filter_paeth` reads outside).** On ARM, as `filter_average`; elsewhere never. -/
theorem C99_paeth (lv : Level) (row prev : List UInt8) (bpp : Nat) :
    Memory.filterPaeth lv row prev bpp = .error .outside ↔
      lv = .neon ∧ bpp ≤ prev.length ∧ prev.length < bpp + (row.length - bpp) / 16 * 16 := by
  cases lv
  · exact ⟨fun h => absurd h (inside_lift _), fun ⟨h, _⟩ => by cases h⟩
  · exact ⟨fun h => absurd h (inside_lift _), fun ⟨h, _⟩ => by cases h⟩
  · exact ⟨fun h => absurd h (inside_lift _), fun ⟨h, _⟩ => by cases h⟩
  · exact ⟨fun h => absurd h (inside_lift _), fun ⟨h, _⟩ => by cases h⟩
  · exact (paethWide_outside (w := 16) (by decide) _ row prev bpp).trans ⟨fun h => ⟨rfl, h⟩, fun h => h.2⟩

/-! ### Match length -/

theorem inside_blockLoop (W : Nat) (cmp : List UInt8 → List UInt8 → Option Nat) {data : List UInt8} {p q n : Nat}
    (hp : p + n ≤ data.length) (hq : q + n ≤ data.length) :
    ∀ (fuel l : Nat), Inside (Memory.blockLoop W cmp fuel data p q n l) := by
  intro fuel
  induction fuel with
  | zero => intro l; exact inside_err _
  | succ k ih =>
    intro l
    unfold Memory.blockLoop
    by_cases h : l + W ≤ n
    · rw [if_pos h]
      refine inside_bind (inside_load (by omega)) fun a _ => inside_bind (inside_load (by omega)) fun b _ => ?_
      cases cmp a b with
      | none => exact ih _
      | some k => exact inside_ok _
    · rw [if_neg h]; exact inside_ok _

theorem inside_matchSse2 {data : List UInt8} {p q n : Nat} (hp : p + n ≤ data.length) (hq : q + n ≤ data.length) :
    Inside (matchSse2 data p q n) := by
  refine inside_bind (inside_blockLoop _ _ hp hq _ _) fun x _ => ?_
  obtain ⟨l, d⟩ := x
  cases d
  · exact inside_lift _
  · exact inside_ok _

theorem inside_matchLength (lv : Level) {data : List UInt8} {p q n : Nat} (hp : p + n ≤ data.length)
    (hq : q + n ≤ data.length) : Inside (Memory.matchLength lv data p q n) := by
  cases lv
  · refine inside_bind (inside_blockLoop _ _ hp hq _ _) fun x _ => ?_
    obtain ⟨l, d⟩ := x
    cases d
    · show Inside (if l < n then _ else _)
      split
      · exact inside_bind (inside_matchSse2 (by omega) (by omega)) fun _ _ => inside_ok _
      · exact inside_ok _
    · exact inside_ok _
  · exact inside_matchSse2 hp hq
  · exact inside_matchSse2 hp hq
  · exact inside_lift _
  · refine inside_bind (inside_blockLoop _ _ hp hq _ _) fun x _ => ?_
    obtain ⟨l, d⟩ := x
    cases d
    · exact inside_lift _
    · exact inside_ok _

/-- The bytes from `p + l` to `p + m` are those from `q + l` to `q + m`. -/
def SameBytes (data : List UInt8) (p q l m : Nat) : Prop := ∀ i, l ≤ i → i < m → data[p + i]? = data[q + i]?

/-- Of the vectors of `W` bytes at `p` and at `q` the first to end behind the data at least begins inside. -/
def Beyond (data : List UInt8) (p q W : Nat) : Prop :=
  (p ≤ data.length ∧ data.length < p + W) ∨ (p + W ≤ data.length ∧ q ≤ data.length ∧ data.length < q + W)

theorem cmp_none {W : Nat} {cmp} (hc : MatchLength.CmpOk W cmp) {data : List UInt8} {p q l : Nat}
    (hp : p + l + W ≤ data.length) (hq : q + l + W ≤ data.length) :
    cmp ((data.drop (p + l)).take W) ((data.drop (q + l)).take W) = none ↔ SameBytes data p q l (l + W) := by
  have h := hc ((data.drop (p + l)).take W) ((data.drop (q + l)).take W) (by simp; omega) (by simp; omega)
  have hs : (data.drop (p + l)).take W = (data.drop (q + l)).take W ↔ SameBytes data p q l (l + W) := by
    constructor
    · intro e i h1 h2
      have := congrArg (fun x => x[i - l]?) e
      rw [MatchLength.slice_get _ _ _ _ (by omega), MatchLength.slice_get _ _ _ _ (by omega),
        show p + l + (i - l) = p + i by omega, show q + l + (i - l) = q + i by omega] at this
      exact this
    · intro e
      apply List.ext_getElem?
      intro i
      by_cases hi : i < W
      · rw [MatchLength.slice_get _ _ _ _ hi, MatchLength.slice_get _ _ _ _ hi, Nat.add_assoc, Nat.add_assoc]
        exact e (l + i) (by omega) (by omega)
      · rw [List.getElem?_eq_none (by simp; omega), List.getElem?_eq_none (by simp; omega)]
  rw [← hs]
  cases hr : cmp ((data.drop (p + l)).take W) ((data.drop (q + l)).take W) with
  | none => rw [hr] at h; exact ⟨fun _ => h, fun _ => rfl⟩
  | some k =>
    rw [hr] at h
    refine ⟨fun e => (by cases e), fun e => ?_⟩
    rw [e] at h
    exact absurd rfl h.2.2

theorem blockLoop_outside {W : Nat} {cmp} (hW : 0 < W) (hc : MatchLength.CmpOk W cmp) {data : List UInt8} {p q n : Nat} :
    ∀ (fuel l : Nat), n + 1 ≤ fuel + l → (Memory.blockLoop W cmp fuel data p q n l = .error .outside ↔
      ∃ k, l + k * W + W ≤ n ∧ SameBytes data p q l (l + k * W) ∧ Beyond data (p + (l + k * W)) (q + (l + k * W)) W) := by
  intro fuel
  induction fuel with
  | zero =>
    intro l hf
    refine ⟨fun h => (by cases h), fun ⟨k, h, _⟩ => ?_⟩
    have := Nat.zero_le (k * W)
    omega
  | succ fuel ih =>
    intro l hf
    unfold Memory.blockLoop
    by_cases hl : ¬ l + W ≤ n
    · rw [if_neg hl]
      refine ⟨fun h => (by cases h), fun ⟨k, h, _⟩ => ?_⟩
      have := Nat.zero_le (k * W)
      omega
    replace hl := Decidable.not_not.1 hl
    rw [if_pos hl]
    have first : Beyond data (p + l) (q + l) W → ∃ k, l + k * W + W ≤ n ∧ SameBytes data p q l (l + k * W) ∧
        Beyond data (p + (l + k * W)) (q + (l + k * W)) W := fun h =>
      ⟨0, by simpa using hl, by intro i h1 h2; omega, by simpa using h⟩
    by_cases hp : ¬ p + l ≤ data.length
    · have e : load data (p + l) W = .error (.err .panic) := by unfold load; rw [if_neg hp]
      rw [e]
      refine ⟨fun h => (by cases h), fun ⟨k, _, _, h⟩ => ?_⟩
      have := Nat.zero_le (k * W)
      unfold Beyond at h
      omega
    replace hp := Decidable.not_not.1 hp
    by_cases hp' : ¬ p + l + W ≤ data.length
    · rw [load_outside hp (by omega)]
      exact ⟨fun _ => first (.inl ⟨hp, by omega⟩), fun _ => rfl⟩
    replace hp' := Decidable.not_not.1 hp'
    rw [load_ok hp']
    by_cases hq : ¬ q + l ≤ data.length
    · have e : load data (q + l) W = .error (.err .panic) := by unfold load; rw [if_neg hq]
      rw [e]
      refine ⟨fun h => (by cases h), fun ⟨k, _, hs, h⟩ => ?_⟩
      cases k with
      | zero => unfold Beyond at h; omega
      | succ k =>
        have hk : W ≤ (k + 1) * W := Nat.le_mul_of_pos_left _ (by omega)
        have := hs l (by omega) (by omega)
        rw [List.getElem?_eq_getElem (by omega), List.getElem?_eq_none (by omega)] at this
        cases this
    replace hq := Decidable.not_not.1 hq
    by_cases hq' : ¬ q + l + W ≤ data.length
    · rw [load_outside hq (by omega)]
      exact ⟨fun _ => first (.inr ⟨hp', hq, by omega⟩), fun _ => rfl⟩
    replace hq' := Decidable.not_not.1 hq'
    rw [load_ok hq']
    have hcmp := cmp_none hc hp' hq'
    show (match cmp ((data.drop (p + l)).take W) ((data.drop (q + l)).take W) with
      | some k => (.ok (l + k, true) : U (Nat × Bool))
      | none => Memory.blockLoop W cmp fuel data p q n (l + W)) = .error .outside ↔ _
    have more : ∀ k, Beyond data (p + (l + k * W)) (q + (l + k * W)) W → ∃ j, k = j + 1 := by
      intro k h
      cases k with
      | zero => unfold Beyond at h; omega
      | succ k => exact ⟨k, rfl⟩
    cases hr : cmp ((data.drop (p + l)).take W) ((data.drop (q + l)).take W) with
    | some x =>
      refine ⟨fun h => (by cases h), fun ⟨k, h1, hs, h⟩ => ?_⟩
      obtain ⟨j, rfl⟩ := more k h
      have hk : W ≤ (j + 1) * W := Nat.le_mul_of_pos_left _ (by omega)
      have := hcmp.2 fun i h1 h2 => hs i h1 (by omega)
      rw [hr] at this
      cases this
    | none =>
      have hsame := hcmp.1 hr
      show Memory.blockLoop W cmp fuel data p q n (l + W) = .error .outside ↔ _
      rw [ih (l + W) (by omega)]
      constructor
      · rintro ⟨k, h1, h2, h3⟩
        have e : l + (k + 1) * W = l + W + k * W := by rw [Nat.add_mul]; omega
        refine ⟨k + 1, by omega, fun i i1 i2 => ?_, by rw [e]; exact h3⟩
        by_cases hi : i < l + W
        · exact hsame i i1 hi
        · exact h2 i (by omega) (by omega)
      · rintro ⟨k, h1, h2, h3⟩
        obtain ⟨j, rfl⟩ := more k h3
        have e : l + (j + 1) * W = l + W + j * W := by rw [Nat.add_mul]; omega
        rw [e] at h1 h2 h3
        exact ⟨j, h1, fun i i1 i2 => h2 i (by omega) i2, h3⟩

/-- The loop over whole vectors runs to its end when all are inside and agree, and only then. -/
theorem blockLoop_end {W : Nat} {cmp} (hW : 0 < W) (hc : MatchLength.CmpOk W cmp) {data : List UInt8} {p q n : Nat} :
    ∀ (fuel l k : Nat), n + 1 ≤ fuel + l → l + k * W ≤ n → n < l + k * W + W →
      ((∀ m d, Memory.blockLoop W cmp fuel data p q n l = .ok (m, d) → d = false → m = l + k * W ∧ SameBytes data p q l m) ∧
      (SameBytes data p q l (l + k * W) → p + (l + k * W) ≤ data.length → (k = 0 ∨ q + (l + k * W) ≤ data.length) →
        Memory.blockLoop W cmp fuel data p q n l = .ok (l + k * W, false))) := by
  intro fuel
  induction fuel with
  | zero => intro l k hf h1 h2; have := Nat.zero_le (k * W); omega
  | succ fuel ih =>
    intro l k hf h1 h2
    unfold Memory.blockLoop
    cases k with
    | zero =>
      rw [if_neg (by omega)]
      refine ⟨fun m d e _ => ?_, fun _ _ _ => by simp⟩
      cases e
      exact ⟨by omega, fun i i1 i2 => by omega⟩
    | succ k =>
      have e : l + (k + 1) * W = l + W + k * W := by rw [Nat.add_mul]; omega
      rw [e] at h1 h2
      rw [if_pos (by have := Nat.zero_le (k * W); omega), e]
      obtain ⟨i1, i2⟩ := ih (l + W) k (by omega) h1 h2
      constructor
      · intro m d em hd
        by_cases hp : ¬ p + l + W ≤ data.length
        · by_cases hp' : p + l ≤ data.length
          · rw [load_outside hp' (by omega)] at em; cases em
          · have e : load data (p + l) W = .error (.err .panic) := by unfold load; rw [if_neg hp']
            rw [e] at em; cases em
        replace hp := Decidable.not_not.1 hp
        by_cases hq : ¬ q + l + W ≤ data.length
        · rw [load_ok hp] at em
          by_cases hq' : q + l ≤ data.length
          · rw [load_outside hq' (by omega)] at em; cases em
          · have e : load data (q + l) W = .error (.err .panic) := by unfold load; rw [if_neg hq']
            rw [e] at em; cases em
        replace hq := Decidable.not_not.1 hq
        rw [load_ok hp, load_ok hq] at em
        change (match cmp ((data.drop (p + l)).take W) ((data.drop (q + l)).take W) with
          | some k => (.ok (l + k, true) : U (Nat × Bool))
          | none => Memory.blockLoop W cmp fuel data p q n (l + W)) = .ok (m, d) at em
        cases hr : cmp ((data.drop (p + l)).take W) ((data.drop (q + l)).take W) with
        | some x => rw [hr] at em; cases em; cases hd
        | none =>
          rw [hr] at em
          obtain ⟨j1, j2⟩ := i1 m d em hd
          have hsame := (cmp_none hc hp hq).1 hr
          refine ⟨j1, fun i a b => ?_⟩
          by_cases hi : i < l + W
          · exact hsame i a hi
          · exact j2 i (by omega) b
      · intro hs hp hq
        have hq : q + (l + W + k * W) ≤ data.length := by omega
        have := Nat.zero_le (k * W)
        rw [load_ok (by omega), load_ok (by omega)]
        have hr := (cmp_none hc (p := p) (q := q) (l := l) (data := data) (by omega) (by omega)).2
          (fun i a b => hs i a (by omega))
        show (match cmp ((data.drop (p + l)).take W) ((data.drop (q + l)).take W) with
          | some k => (.ok (l + k, true) : U (Nat × Bool))
          | none => Memory.blockLoop W cmp fuel data p q n (l + W)) = .ok _
        rw [hr]
        exact i2 (fun i a b => hs i (by omega) b) hp (.inr hq)

theorem matchWide_outside {cmp} (hc : MatchLength.CmpOk 16 cmp) (data : List UInt8) (p q n : Nat) :
    ((Memory.blockLoop 16 cmp (n + 1) data p q n 0 >>= fun x =>
        if x.2 then .ok x.1 else lift (MatchLength.tail data p q n x.1)) = .error .outside) ↔
      ∃ l, l % 16 = 0 ∧ l + 16 ≤ n ∧ SameBytes data p q 0 l ∧ Beyond data (p + l) (q + l) 16 := by
  rw [bind_outside (fun x _ => by split; exact inside_ok _; exact inside_lift _), blockLoop_outside (by decide) hc _ _ (by omega)]
  constructor
  · rintro ⟨k, h1, h2, h3⟩
    rw [Nat.zero_add] at h1 h2 h3
    exact ⟨k * 16, by omega, h1, h2, h3⟩
  · rintro ⟨l, h0, h1, h2, h3⟩
    refine ⟨l / 16, ?_⟩
    rw [show 0 + l / 16 * 16 = l by omega]
    exact ⟨h1, h2, h3⟩

/-- The vectors `match_length` compares when nothing differs: `w` bytes at `l`. With AVX2 32 bytes at a time, and
sixteen once more if so many are left; otherwise sixteen at a time. -/
def IsVector : Level → Nat → Nat → Nat → Prop
  | .avx2, n, l, w => (w = 32 ∧ l % 32 = 0 ∧ l + 32 ≤ n) ∨ (w = 16 ∧ l = n / 32 * 32 ∧ l + 16 ≤ n)
  | .ssse3, n, l, w | .sse2, n, l, w | .neon, n, l, w => w = 16 ∧ l % 16 = 0 ∧ l + 16 ≤ n
  | .scalar, _, _, _ => False

/-- **C99 (exactly when `match_length` reads outside).** If the bytes before some vector agree, and of the two
vectors there the first one that ends behind the data begins inside it. -/
theorem C99_match (lv : Level) (data : List UInt8) (p q n : Nat) :
    Memory.matchLength lv data p q n = .error .outside ↔
      ∃ l w, IsVector lv n l w ∧ SameBytes data p q 0 l ∧ Beyond data (p + l) (q + l) w := by
  have narrow : ∀ {cmp}, MatchLength.CmpOk 16 cmp →
      ((Memory.blockLoop 16 cmp (n + 1) data p q n 0 >>= fun x =>
        if x.2 then .ok x.1 else lift (MatchLength.tail data p q n x.1)) = .error .outside ↔
      ∃ l w, (w = 16 ∧ l % 16 = 0 ∧ l + 16 ≤ n) ∧ SameBytes data p q 0 l ∧ Beyond data (p + l) (q + l) w) := by
    intro cmp hc
    rw [matchWide_outside hc]
    exact ⟨fun ⟨l, a, b, c, d⟩ => ⟨l, 16, ⟨rfl, a, b⟩, c, d⟩, fun ⟨l, w, ⟨e, a, b⟩, c, d⟩ => ⟨l, a, b, c, by subst e; exact d⟩⟩
  cases lv
  · show Memory.matchAvx2 data p q n = .error .outside ↔ _
    have hend := blockLoop_end (by decide) MatchLength.cmp32_ok (data := data) (p := p) (q := q) (n := n) (n + 1) 0 (n / 32)
      (by omega) (by omega) (by omega)
    rw [Nat.zero_add] at hend
    have hloop := blockLoop_outside (by decide) MatchLength.cmp32_ok (data := data) (p := p) (q := q) (n := n) (n + 1) 0 (by omega)
    unfold Memory.matchAvx2
    constructor
    · intro h
      cases hr : Memory.blockLoop 32 MatchLength.cmp32 (n + 1) data p q n 0 with
      | error f =>
        rw [hr] at h
        have hf : f = .outside := by cases h; rfl
        subst hf
        obtain ⟨k, h1, h2, h3⟩ := hloop.1 hr
        rw [Nat.zero_add] at h1 h2 h3
        exact ⟨k * 32, 32, .inl ⟨rfl, by omega, h1⟩, h2, h3⟩
      | ok x =>
        obtain ⟨m, d⟩ := x
        rw [hr] at h
        change (if d = true then .ok m else if m < n then (do
          let k ← Memory.matchSse2 data (p + m) (q + m) (n - m)
          return m + k) else .ok m : U Nat) = .error .outside at h
        cases d with
        | true => cases h
        | false =>
          rw [if_neg (by decide)] at h
          obtain ⟨rfl, hs⟩ := hend.1 m false hr rfl
          by_cases hm : n / 32 * 32 < n
          · rw [if_pos hm] at h
            replace h := (bind_outside (f := fun k => (pure (n / 32 * 32 + k) : U Nat)) (fun _ _ => inside_ok _)).1 h
            obtain ⟨l, l1, l2, _, l4⟩ := (matchWide_outside MatchLength.cmp16_ok _ _ _ _).1 h
            have : l = 0 := by omega
            subst this
            exact ⟨n / 32 * 32, 16, .inr ⟨rfl, rfl, by omega⟩, hs, l4⟩
          · rw [if_neg hm] at h; cases h
    · rintro ⟨l, w, hv | hv, hs, hb⟩
      · obtain ⟨rfl, h1, h2⟩ := hv
        have : Memory.blockLoop 32 MatchLength.cmp32 (n + 1) data p q n 0 = .error .outside := by
          refine hloop.2 ⟨l / 32, ?_⟩
          rw [show 0 + l / 32 * 32 = l by omega]
          exact ⟨h2, hs, hb⟩
        rw [this]
        rfl
      · obtain ⟨rfl, rfl, h2⟩ := hv
        have hp : p + n / 32 * 32 ≤ data.length := by unfold Beyond at hb; omega
        have hq : n / 32 = 0 ∨ q + n / 32 * 32 ≤ data.length := by
          by_cases h0 : n / 32 = 0
          · exact .inl h0
          · refine .inr ?_
            have := hs (n / 32 * 32 - 1) (by omega) (by omega)
            rw [List.getElem?_eq_getElem (by omega)] at this
            by_cases hlt : q + (n / 32 * 32 - 1) < data.length
            · omega
            · rw [List.getElem?_eq_none (by omega)] at this; cases this
        rw [hend.2 hs hp hq]
        show (if (false : Bool) = true then .ok (n / 32 * 32) else if n / 32 * 32 < n then (do
          let k ← Memory.matchSse2 data (p + n / 32 * 32) (q + n / 32 * 32) (n - n / 32 * 32)
          return n / 32 * 32 + k) else .ok (n / 32 * 32) : U Nat) = .error .outside
        rw [if_neg (by decide), if_pos (by omega)]
        refine (bind_outside (f := fun k => (pure (n / 32 * 32 + k) : U Nat)) (fun _ _ => inside_ok _)).2 ?_
        refine (matchWide_outside MatchLength.cmp16_ok _ _ _ _).2 ⟨0, rfl, by omega, fun i h1 h2 => by omega, ?_⟩
        exact hb
  · exact narrow MatchLength.cmp16_ok
  · exact narrow MatchLength.cmp16_ok
  · exact ⟨fun h => absurd h (inside_lift _), fun ⟨_, _, h, _⟩ => h.elim⟩
  · exact narrow MatchLength.cmpNeon_ok

/-- Forty equal bytes compared from 0 and from 8 over 48: the second vector at 8 + 32 begins inside and ends outside. -/
example : IsVector .avx2 48 32 16 ∧ SameBytes (List.replicate 40 7) 0 8 0 32 ∧ Beyond (List.replicate 40 7) (0 + 32) (8 + 32) 16 := by
  refine ⟨.inr ⟨rfl, by decide, by decide⟩, fun i _ hi => ?_, .inl (by decide)⟩
  rw [List.getElem?_replicate, List.getElem?_replicate, if_pos (by omega), if_pos (by omega)]

/-! ### The property -/

/-- **C99 (full statement).** No call of a safe function of `pixo::simd` reads outside the slices it is given. -/
def C99_full : Prop :=
  ∀ (lv : Level) (row prev : List UInt8) (bpp p q n : Nat) (pclmul : Bool) (align : Nat),
    Inside (Memory.filterSub lv row bpp) ∧ Inside (Memory.filterUp lv row prev) ∧
    Inside (Memory.filterAverage lv row prev bpp) ∧ Inside (Memory.filterPaeth lv row prev bpp) ∧
    Inside (scoreLoads lv row) ∧ Inside (adlerLoads lv row) ∧ Inside (crcLoads pclmul align row) ∧
    Inside (Memory.matchLength lv row p q n)

/-- **C99 (partial).** None does when the previous row is as long as the row, and the `n` bytes compared from
both positions lie in the data: these hold for the calls in src/png/filter.rs and src/compress/lz77.rs, whose
models are shown not to panic (C14), and there a load outside would be a panic. Missing: the safe functions
themselves do not demand it (`C99_violation`). -/
theorem C99_partial (lv : Level) (row prev : List UInt8) (bpp p q n : Nat) (pclmul : Bool) (align : Nat)
    (hrow : row.length ≤ prev.length) (hp : p + n ≤ row.length) (hq : q + n ≤ row.length) :
    Inside (Memory.filterSub lv row bpp) ∧ Inside (Memory.filterUp lv row prev) ∧
    Inside (Memory.filterAverage lv row prev bpp) ∧ Inside (Memory.filterPaeth lv row prev bpp) ∧
    Inside (scoreLoads lv row) ∧ Inside (adlerLoads lv row) ∧ Inside (crcLoads pclmul align row) ∧
    Inside (Memory.matchLength lv row p q n) := by
  obtain ⟨h1, h2, h3, h4⟩ := C99_sound lv row bpp pclmul align
  have hd : ∀ m w : Nat, m / w * w ≤ m := fun m w => Nat.div_mul_le_self m w
  refine ⟨h1, ?_, ?_, ?_, h2, h3, h4, inside_matchLength lv hp hq⟩
  · intro h
    obtain ⟨w, _, h⟩ := (C99_up lv row prev).1 h
    have := hd row.length w
    omega
  · intro h
    obtain ⟨w, _, h1, h⟩ := (C99_average lv row prev bpp).1 h
    have := hd (row.length - bpp) w
    omega
  · intro h
    obtain ⟨_, h1, h⟩ := (C99_paeth lv row prev bpp).1 h
    have := hd (row.length - bpp) 16
    omega

/-- A call of the encoder that succeeds in the rest of the model reads nothing outside. -/
theorem C99_calls (lv : Level) (row prev : List UInt8) (bpp : Nat) (data : List UInt8) (p q n : Nat) :
    (∀ out, Filter.filterUp lv row prev = .ok out → Memory.filterUp lv row prev = .ok out) ∧
    (∀ out, Filter.filterAverage lv row prev bpp = .ok out → Memory.filterAverage lv row prev bpp = .ok out) ∧
    (∀ out, Filter.filterPaeth lv row prev bpp = .ok out → Memory.filterPaeth lv row prev bpp = .ok out) ∧
    (∀ k, Simd.matchLength lv data p q n = .ok k → Memory.matchLength lv data p q n = .ok k) := by
  obtain ⟨_, h2, h3, h4, h5⟩ := C99_same lv row prev bpp data p q n
  exact ⟨fun _ h => of_merge (h2.trans h), fun _ h => of_merge (h3.trans h), fun _ h => of_merge (h4.trans h),
    fun _ h => of_merge (h5.trans h)⟩

/-- The hypotheses of `C99_partial` are met by rows of an image, and the calls give something. -/
example : Memory.filterUp .avx2 (List.replicate 40 9) (List.replicate 40 2) = .ok (List.replicate 40 7) ∧
    Memory.matchLength .sse2 (List.replicate 40 9) 0 3 37 = .ok 37 := by decide +kernel

/-- **C99 (violation).** `simd::filter_up(&[0; 32], &[], &mut out)` reads 32 bytes of nothing with AVX2, and 16
with SSE2 or on ARM; `match_length(&[0; 20], 0, 4, 32)` reads behind the end of the data. The version without
vectors panics. -/
theorem C99_violation :
    ¬ C99_full ∧
    Memory.filterUp .avx2 (List.replicate 32 0) [] = .error .outside ∧
    Memory.filterUp .sse2 (List.replicate 32 0) [] = .error .outside ∧
    Memory.filterUp .neon (List.replicate 32 0) [] = .error .outside ∧
    Memory.filterUp .scalar (List.replicate 32 0) [] = .error (.err .panic) ∧
    Memory.filterAverage .avx2 (List.replicate 36 0) [1, 2, 3, 4] 4 = .error .outside ∧
    Memory.filterPaeth .neon (List.replicate 36 0) [1, 2, 3, 4] 4 = .error .outside ∧
    Memory.matchLength .avx2 (List.replicate 20 0) 0 4 32 = .error .outside ∧
    Memory.matchLength .sse2 (List.replicate 20 0) 0 8 32 = .error .outside ∧
    Memory.matchLength .scalar (List.replicate 20 0) 0 8 32 = .error (.err .panic) := by
  refine ⟨fun h => ?_, ?_⟩
  · exact (h .avx2 (List.replicate 32 0) [] 0 0 0 0 false 0).2.1 (by decide +kernel)
  · decide +kernel

end Pixo.Props.Memory
