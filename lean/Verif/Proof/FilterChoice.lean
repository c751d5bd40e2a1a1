import Verif.Proof.FilterRows
import Verif.Spec.PngChoice
/-
Which filter each strategy chooses.
-/
namespace Pixo.Filter
open Spec.Png
open Pixo.Simd (Level)
open Pixo.MatchLength (slice)

/-- There is one way to filter a line with a given type. -/
theorem filtered_unique {bpp : Nat} {prev raw filt : List UInt8} {ft : UInt8}
    (h : Filtered bpp prev raw ft filt) : filt = refRow ft.toNat raw prev bpp := by
  obtain ⟨h4, hl, h⟩ := h
  obtain ⟨_, hl2, h2⟩ := refRow_filtered h4 raw prev bpp
  have e : (UInt8.ofNat ft.toNat).toNat = ft.toNat := by simp
  rw [e] at h2
  apply List.ext_getElem (by omega)
  intro i h1 h3
  have hi : i < raw.length := by omega
  have a := h i hi
  have b := h2 i hi
  have ea : byteAt filt i = filt[i].toNat := by unfold byteAt; rw [getD_eq _ _ h1]
  have eb : byteAt (refRow ft.toNat raw prev bpp) i = (refRow ft.toNat raw prev bpp)[i].toNat := by
    unfold byteAt; rw [getD_eq _ _ h3]
  have la := byteAt_lt filt i
  have lb := byteAt_lt (refRow ft.toNat raw prev bpp) i
  apply UInt8.toNat_inj.1
  rw [← ea, ← eb]
  omega

/-! ### Costs -/

theorem absI8_eq (b : UInt8) : absI8 b = magnitude b := by
  have := b.toNat_lt
  unfold absI8 magnitude
  split <;> omega

theorem scoreFilter_absSum (lv : Level) (l : List UInt8) : scoreFilter lv l = absSum l := by
  rw [scoreFilter_eq]
  unfold scoreScalar absSum
  congr 1
  exact List.map_congr_left fun b _ => absI8_eq b

theorem distinct_perm {α : Type} [DecidableEq α] {a b : List α} (h : ∀ x, x ∈ a ↔ x ∈ b) (ha : a.Nodup) :
    a.length = distinct b := by
  induction b generalizing a with
  | nil =>
    cases a with
    | nil => rfl
    | cons x xs => exact absurd ((h x).1 List.mem_cons_self) (by simp)
  | cons y ys ih =>
    rw [distinct]
    by_cases hy : y ∈ ys
    · rw [if_pos hy, Nat.zero_add]
      refine ih (fun x => ?_) ha
      rw [h x, List.mem_cons]
      exact ⟨fun c => c.elim (fun e => e ▸ hy) id, Or.inr⟩
    · rw [if_neg hy]
      have hya : y ∈ a := (h y).2 List.mem_cons_self
      have := ih (a := a.erase y) (fun x => ?_) (ha.erase y)
      · rw [← this, List.length_erase_of_mem hya]
        have := List.length_pos_of_mem hya
        omega
      · rw [ha.mem_erase_iff, h x, List.mem_cons]
        constructor
        · rintro ⟨h1, h2 | h2⟩
          · exact absurd h2 h1
          · exact h2
        · exact fun hx => ⟨fun e => hy (e ▸ hx), Or.inr hx⟩

/-- Keys of pairs differ for different pairs. -/
def pairKey (p : UInt8 × UInt8) : Nat := p.1.toNat * 256 + p.2.toNat

theorem pairKey_inj {p q : UInt8 × UInt8} (h : pairKey p = pairKey q) : p = q := by
  unfold pairKey at h
  have := p.2.toNat_lt
  have := q.2.toNat_lt
  exact Prod.ext (UInt8.toNat_inj.1 (by omega)) (UInt8.toNat_inj.1 (by omega))

theorem pairKey_eq (a b : UInt8) : (a.toNat <<< 8) ||| b.toNat = pairKey (a, b) := by
  have hb := b.toNat_lt
  rw [← Nat.shiftLeft_add_eq_or_of_lt (by simpa using hb), Nat.shiftLeft_eq]
  rfl

theorem bigramLoop_spec : ∀ (l : List UInt8) (S : List (UInt8 × UInt8)), S.Nodup →
    ∃ T : List (UInt8 × UInt8), T.Nodup ∧ (∀ p, p ∈ T ↔ p ∈ S ∨ p ∈ l.zip (l.drop 1)) ∧
      bigramLoop l (S.map pairKey) S.length = T.length
  | [], S, hS => ⟨S, hS, by simp, rfl⟩
  | [a], S, hS => ⟨S, hS, by simp, rfl⟩
  | a :: b :: rest, S, hS => by
    have hz : (a :: b :: rest).zip ((a :: b :: rest).drop 1) = (a, b) :: (b :: rest).zip ((b :: rest).drop 1) := rfl
    rw [bigramLoop, hz]
    simp only [pairKey_eq]
    have hm : pairKey (a, b) ∈ S.map pairKey ↔ (a, b) ∈ S := by
      rw [List.mem_map]
      exact ⟨fun ⟨q, hq, e⟩ => pairKey_inj e ▸ hq, fun h => ⟨_, h, rfl⟩⟩
    by_cases h : (a, b) ∈ S
    · rw [if_pos (hm.2 h)]
      obtain ⟨T, hT, hmem, e⟩ := bigramLoop_spec (b :: rest) S hS
      refine ⟨T, hT, fun p => ?_, e⟩
      rw [hmem, List.mem_cons]
      constructor
      · rintro (c | c)
        · exact Or.inl c
        · exact Or.inr (Or.inr c)
      · rintro (c | c | c)
        · exact Or.inl c
        · exact Or.inl (c ▸ h)
        · exact Or.inr c
    · rw [if_neg (fun c => h (hm.1 c))]
      obtain ⟨T, hT, hmem, e⟩ := bigramLoop_spec (b :: rest) ((a, b) :: S) (List.nodup_cons.2 ⟨h, hS⟩)
      refine ⟨T, hT, fun p => ?_, e⟩
      rw [hmem, List.mem_cons, List.mem_cons, or_assoc]
      constructor
      · rintro (c | c | c)
        · exact Or.inr (Or.inl c)
        · exact Or.inl c
        · exact Or.inr (Or.inr c)
      · rintro (c | c | c)
        · exact Or.inr (Or.inl c)
        · exact Or.inl c
        · exact Or.inr (Or.inr c)

theorem scoreBigrams_eq (l : List UInt8) : scoreBigrams l = bigrams l := by
  obtain ⟨T, hT, hmem, e⟩ := bigramLoop_spec l [] List.nodup_nil
  have e : scoreBigrams l = T.length := e
  rw [e]
  exact distinct_perm (fun p => by rw [hmem]; simp) hT

/-! ### One row -/

section
variable {lv : Level} {row prev : List UInt8} {bpp : Nat}

/-- The best of the types below `k` by the cost `c`. -/
structure Leads (c : Nat → Nat) (row prev : List UInt8) (bpp k : Nat) (b : Best) (ft : Nat) : Prop where
  lt : ft < k
  eq : b = ⟨UInt8.ofNat ft, refRow ft row prev bpp, c ft⟩
  least : ∀ ft' < k, c ft ≤ c ft' ∧ (c ft = c ft' → ft ≤ ft')

theorem Leads.try {c : Nat → Nat} {k : Nat} {b : Best} {ft : Nat} (h : Leads c row prev bpp k b ft) :
    ∃ ft', Leads c row prev bpp (k + 1) (b.try (UInt8.ofNat k) (refRow k row prev bpp) (c k)) ft' := by
  obtain ⟨hl, rfl, hm⟩ := h
  unfold Best.try
  simp only
  split
  · next hc =>
    refine ⟨k, by omega, rfl, fun ft' h' => ?_⟩
    by_cases e : ft' = k
    · subst e; omega
    · have := hm ft' (by omega); omega
  · next hc =>
    refine ⟨ft, by omega, rfl, fun ft' h' => ?_⟩
    by_cases e : ft' = k
    · subst e; omega
    · exact hm ft' (by omega)

/-- What is known of the bytes pushed for a row: the numbers of the rule. -/
def ChoseLeast (c : Nat → Nat) (row prev : List UInt8) (bpp : Nat) (out : List UInt8) : Prop :=
  ∃ ft ≤ 4, out = UInt8.ofNat ft :: refRow ft row prev bpp ∧
    ∀ ft' ≤ 4, c ft ≤ c ft' ∧ (c ft = c ft' → ft ≤ ft')

def ChoseGood (stop : Nat) (c : Nat → Nat) (row prev : List UInt8) (bpp : Nat) (out : List UInt8) : Prop :=
  ∃ ft ≤ 4, out = UInt8.ofNat ft :: refRow ft row prev bpp ∧
    (c ft ≤ stop ∧ (∀ ft' < ft, stop < c ft') ∨
      (∀ ft' ≤ 4, stop < c ft') ∧ ∀ ft' ≤ 4, c ft ≤ c ft' ∧ (c ft = c ft' → ft ≤ ft'))

theorem Leads.least5 {c : Nat → Nat} {b : Best} {ft : Nat} (h : Leads c row prev bpp 5 b ft) :
    ChoseLeast c row prev bpp b.out := by
  obtain ⟨hl, rfl, hm⟩ := h
  exact ⟨ft, by omega, rfl, fun ft' h' => hm ft' (by omega)⟩

theorem bigramsFilter_least (hp : row.length ≤ prev.length) (hr : bpp ≤ row.length) :
    Oks (bigramsFilter lv row prev bpp) (ChoseLeast (fun ft => bigrams (refRow ft row prev bpp)) row prev bpp) := by
  unfold bigramsFilter
  simp only [filterSub_ok lv prev hr, filterUp_ok lv bpp hp, filterAverage_ok lv bpp hp,
    filterPaeth_ok lv bpp hp, ok_bind, scoreBigrams_eq]
  have h0 : Leads (fun ft => bigrams (refRow ft row prev bpp)) row prev bpp 1 ⟨0, row, bigrams row⟩ 0 :=
    ⟨by omega, by rw [refRow_zero]; rfl, fun ft' h' => by
      have : ft' = 0 := by omega
      subst this; exact ⟨Nat.le_refl _, fun _ => Nat.le_refl _⟩⟩
  obtain ⟨_, h1⟩ := h0.try
  obtain ⟨_, h2⟩ := h1.try
  obtain ⟨_, h3⟩ := h2.try
  obtain ⟨_, h4⟩ := h3.try
  exact Oks.pure h4.least5

/-- The cost by which the adaptive strategies go. -/
def sumOf (row prev : List UInt8) (bpp ft : Nat) : Nat := absSum (refRow ft row prev bpp)

theorem good_of {stop k : Nat} {c : Nat → Nat} (hk : k ≤ 4) (hc : c k ≤ stop) (h : ∀ ft' < k, stop < c ft') :
    ChoseGood stop c row prev bpp (UInt8.ofNat k :: refRow k row prev bpp) :=
  ⟨k, hk, rfl, Or.inl ⟨hc, h⟩⟩

/-- The situation before type `k` is tried: none so far was good enough. -/
structure Seeks (stop : Nat) (row prev : List UInt8) (bpp k : Nat) (b : Best) : Prop where
  leads : ∃ ft, Leads (sumOf row prev bpp) row prev bpp k b ft
  none : ∀ ft' < k, stop < sumOf row prev bpp ft'

theorem Seeks.next {stop k : Nat} {b : Best} (h : Seeks stop row prev bpp k b)
    (hn : ¬(sumOf row prev bpp k < b.score ∧ (sumOf row prev bpp k = 0 ∨ sumOf row prev bpp k ≤ stop))) :
    Seeks stop row prev bpp (k + 1) (b.try (UInt8.ofNat k) (refRow k row prev bpp) (sumOf row prev bpp k)) := by
  obtain ⟨ft, hl⟩ := h.leads
  refine ⟨hl.try, fun ft' h' => ?_⟩
  by_cases e : ft' = k
  · subst e
    have hb : b.score = sumOf row prev bpp ft := by rw [hl.eq]
    have := h.none ft hl.lt
    apply Nat.lt_of_not_le
    intro hc
    exact hn ⟨by omega, Or.inr hc⟩
  · exact h.none ft' (by omega)

theorem adaptivePaeth_good (hp : row.length ≤ prev.length) {stop : Nat} {b : Best}
    (h : Seeks stop row prev bpp 4 b) :
    Oks (adaptivePaeth lv row prev bpp b) (ChoseGood stop (sumOf row prev bpp) row prev bpp) := by
  unfold adaptivePaeth
  rw [filterPaeth_ok lv bpp hp, ok_bind, scoreFilter_absSum]
  refine Oks.pure ?_
  obtain ⟨ft, hl⟩ := h.leads
  obtain ⟨ft', hl'⟩ := hl.try
  obtain ⟨k, hk, e, hm⟩ := hl'.least5
  refine ⟨k, hk, e, ?_⟩
  by_cases h4 : sumOf row prev bpp 4 ≤ stop
  · have hkk : k = 4 := by
      apply Classical.byContradiction
      intro hne
      have := h.none k (by omega)
      have := hm 4 (by omega)
      omega
    subst hkk
    exact Or.inl ⟨h4, h.none⟩
  · refine Or.inr ⟨fun ft' h' => ?_, hm⟩
    by_cases e : ft' = 4
    · subst e; omega
    · exact h.none ft' (by omega)

theorem adaptiveAverage_good (hp : row.length ≤ prev.length) {stop : Nat} {b : Best}
    (h : Seeks stop row prev bpp 3 b) :
    Oks (adaptiveAverage lv row prev bpp stop b) (ChoseGood stop (sumOf row prev bpp) row prev bpp) := by
  unfold adaptiveAverage
  rw [filterAverage_ok lv bpp hp, ok_bind, scoreFilter_absSum]
  simp only
  split
  · next hc =>
    have hc : sumOf row prev bpp 3 ≤ stop := by
      have : sumOf row prev bpp 3 = 0 ∨ sumOf row prev bpp 3 ≤ stop := hc.2
      omega
    exact Oks.pure (good_of (k := 3) (by decide) hc h.none)
  · next hc => exact adaptivePaeth_good hp (h.next hc)

theorem adaptiveUp_good (hp : row.length ≤ prev.length) {stop : Nat} {b : Best}
    (h : Seeks stop row prev bpp 2 b) :
    Oks (adaptiveUp lv row prev bpp stop b) (ChoseGood stop (sumOf row prev bpp) row prev bpp) := by
  unfold adaptiveUp
  rw [filterUp_ok lv bpp hp, ok_bind, scoreFilter_absSum]
  simp only
  split
  · next hc =>
    have hc : sumOf row prev bpp 2 ≤ stop := by
      have : sumOf row prev bpp 2 = 0 ∨ sumOf row prev bpp 2 ≤ stop := hc.2
      omega
    exact Oks.pure (good_of (k := 2) (by decide) hc h.none)
  · next hc => exact adaptiveAverage_good hp (h.next hc)

theorem adaptiveSub_good (hp : row.length ≤ prev.length) (hr : bpp ≤ row.length) {stop : Nat} {b : Best}
    (h : Seeks stop row prev bpp 1 b) :
    Oks (adaptiveSub lv row prev bpp stop b) (ChoseGood stop (sumOf row prev bpp) row prev bpp) := by
  unfold adaptiveSub
  rw [filterSub_ok lv prev hr, ok_bind, scoreFilter_absSum]
  simp only
  split
  · next hc =>
    have hc : sumOf row prev bpp 1 ≤ stop := by
      have : sumOf row prev bpp 1 = 0 ∨ sumOf row prev bpp 1 ≤ stop := hc.2
      omega
    exact Oks.pure (good_of (k := 1) (by decide) hc h.none)
  · next hc => exact adaptiveUp_good hp (h.next hc)

theorem adaptiveFilter_good (hp : row.length ≤ prev.length) (hr : bpp ≤ row.length) :
    Oks (adaptiveFilter lv row prev bpp)
      (ChoseGood (row.length / 4 + 1) (sumOf row prev bpp) row prev bpp) := by
  have e0 : sumOf row prev bpp 0 = absSum row := by unfold sumOf; rw [refRow_zero]
  unfold adaptiveFilter
  simp only [scoreFilter_absSum]
  split
  · next hc =>
    have := good_of (row := row) (prev := prev) (bpp := bpp) (k := 0) (c := sumOf row prev bpp) (by omega)
      (by rw [e0]; exact hc) (by omega)
    rw [refRow_zero] at this
    exact Oks.ok this
  · next hc =>
    rw [if_neg (by omega)]
    refine adaptiveSub_good hp hr ⟨⟨0, by omega, ?_, ?_⟩, ?_⟩
    · rw [refRow_zero, e0]; rfl
    · intro ft' h'
      have : ft' = 0 := by omega
      subst this; exact ⟨Nat.le_refl _, fun _ => Nat.le_refl _⟩
    · intro ft' h'
      have : ft' = 0 := by omega
      subst this; omega

/-- The same for the three types `adaptive_filter_fast` tries. -/
def ChoseFast (stop : Nat) (c : Nat → Nat) (row prev : List UInt8) (bpp : Nat) (out : List UInt8) : Prop :=
  ∃ ft, (ft = 1 ∨ ft = 2 ∨ ft = 4) ∧ out = UInt8.ofNat ft :: refRow ft row prev bpp ∧
    (c ft ≤ stop ∧ (∀ ft', (ft' = 1 ∨ ft' = 2 ∨ ft' = 4) → ft' < ft → stop < c ft') ∨
      (∀ ft', (ft' = 1 ∨ ft' = 2 ∨ ft' = 4) → stop < c ft') ∧
      ∀ ft', (ft' = 1 ∨ ft' = 2 ∨ ft' = 4) → c ft ≤ c ft' ∧ (c ft = c ft' → ft ≤ ft'))

theorem adaptiveFast_good (hp : row.length ≤ prev.length) (hr : bpp ≤ row.length) :
    Oks (adaptiveFast lv row prev bpp)
      (ChoseFast (row.length / 8 + 1) (sumOf row prev bpp) row prev bpp) := by
  unfold adaptiveFast fastUp fastPaeth
  simp only [filterSub_ok lv prev hr, filterUp_ok lv bpp hp, filterPaeth_ok lv bpp hp, ok_bind, scoreFilter_absSum,
    Best.try]
  have e1 : absSum (refRow 1 row prev bpp) = sumOf row prev bpp 1 := rfl
  have e2 : absSum (refRow 2 row prev bpp) = sumOf row prev bpp 2 := rfl
  have e4 : absSum (refRow 4 row prev bpp) = sumOf row prev bpp 4 := rfl
  rw [e1, e2, e4]
  have out : ∀ ft, (ft = 1 ∨ ft = 2 ∨ ft = 4) →
    (sumOf row prev bpp ft ≤ row.length / 8 + 1 ∧
        (∀ ft', (ft' = 1 ∨ ft' = 2 ∨ ft' = 4) → ft' < ft → row.length / 8 + 1 < sumOf row prev bpp ft') ∨
      (∀ ft', (ft' = 1 ∨ ft' = 2 ∨ ft' = 4) → row.length / 8 + 1 < sumOf row prev bpp ft') ∧
      ∀ ft', (ft' = 1 ∨ ft' = 2 ∨ ft' = 4) → sumOf row prev bpp ft ≤ sumOf row prev bpp ft' ∧
        (sumOf row prev bpp ft = sumOf row prev bpp ft' → ft ≤ ft')) →
    ChoseFast (row.length / 8 + 1) (sumOf row prev bpp) row prev bpp (UInt8.ofNat ft :: refRow ft row prev bpp) :=
    fun ft h1 h2 => ⟨ft, h1, rfl, h2⟩
  have o1 := out 1 (by omega)
  have o2 := out 2 (by omega)
  have o4 := out 4 (by omega)
  clear out
  have l1 : ∀ P : Nat → Prop, (∀ ft', (ft' = 1 ∨ ft' = 2 ∨ ft' = 4) → P ft') ↔ P 1 ∧ P 2 ∧ P 4 := fun P =>
    ⟨fun h => ⟨h 1 (by omega), h 2 (by omega), h 4 (by omega)⟩, fun ⟨a, b, c⟩ ft' h => by
      rcases h with rfl | rfl | rfl
      · exact a
      · exact b
      · exact c⟩
  simp only [l1] at o1 o2 o4
  by_cases h1 : sumOf row prev bpp 1 ≤ row.length / 8 + 1
  · rw [if_pos h1]
    exact Oks.ok (o1 (by omega))
  · rw [if_neg h1]
    by_cases h2 : sumOf row prev bpp 2 < sumOf row prev bpp 1
    · rw [if_pos h2]
      simp only
      by_cases h3 : sumOf row prev bpp 2 ≤ row.length / 8 + 1
      · rw [if_pos h3]
        exact Oks.ok (o2 (by omega))
      · rw [if_neg h3]
        by_cases h4 : sumOf row prev bpp 4 < sumOf row prev bpp 2
        · rw [if_pos h4]
          exact Oks.pure (o4 (by omega))
        · rw [if_neg h4]
          exact Oks.pure (o2 (by omega))
    · rw [if_neg h2]
      simp only
      rw [if_neg h1]
      by_cases h4 : sumOf row prev bpp 4 < sumOf row prev bpp 1
      · rw [if_pos h4]
        exact Oks.pure (o4 (by omega))
      · rw [if_neg h4]
        exact Oks.pure (o1 (by omega))

/-! ### The rules -/

theorem ofNat_toNat {k : Nat} (h : k ≤ 4) : (UInt8.ofNat k).toNat = k := by
  rw [UInt8.toNat_ofNat']; omega

theorem mem_allTypes {ft : UInt8} : ft ∈ allTypes ↔ ft.toNat ≤ 4 := by
  constructor
  · intro h
    simp only [allTypes, List.mem_cons, List.not_mem_nil, or_false] at h
    rcases h with rfl | rfl | rfl | rfl | rfl <;> decide
  · intro h
    have : ∀ k ≤ 4, UInt8.ofNat k ∈ allTypes := by decide
    have := this _ h
    rwa [UInt8.ofNat_toNat] at this

/-- The rule holds of the bytes of a row. -/
def Obeys (rule : Rule) (row prev : List UInt8) (out : List UInt8) : Prop :=
  ∃ ft filt, out = ft :: filt ∧ rule prev row ft filt

theorem least_rule {cost : List UInt8 → Nat} {types : List UInt8} {ft : Nat} (h4 : ft ≤ 4)
    (hm : UInt8.ofNat ft ∈ types)
    (h : ∀ ft' : UInt8, ft' ∈ types → ft'.toNat ≤ 4 → cost (refRow ft row prev bpp) ≤ cost (refRow ft'.toNat row prev bpp) ∧
      (cost (refRow ft row prev bpp) = cost (refRow ft'.toNat row prev bpp) → ft ≤ ft'.toNat)) :
    Least cost types bpp prev row (UInt8.ofNat ft) (refRow ft row prev bpp) := by
  refine ⟨refRow_filtered h4 _ _ _, hm, fun ft' hm' filt' hf => ?_⟩
  have := h ft' hm' hf.1
  rw [filtered_unique hf]
  refine ⟨this.1, fun e => ?_⟩
  rw [UInt8.le_iff_toNat_le, ofNat_toNat h4]
  exact this.2 e

theorem ChoseLeast.obeys {cost : List UInt8 → Nat} {out : List UInt8}
    (h : ChoseLeast (fun ft => cost (refRow ft row prev bpp)) row prev bpp out) :
    Obeys (Least cost allTypes bpp) row prev out := by
  obtain ⟨ft, h4, rfl, hm⟩ := h
  exact ⟨_, _, rfl, least_rule h4 (mem_allTypes.2 (by rw [ofNat_toNat h4]; exact h4)) fun ft' _ h' => hm _ h'⟩

theorem ChoseGood.obeys {stop : Nat → Nat} {out : List UInt8}
    (h : ChoseGood (stop row.length) (sumOf row prev bpp) row prev bpp out) :
    Obeys (FirstGood stop absSum allTypes bpp) row prev out := by
  obtain ⟨ft, h4, rfl, hm⟩ := h
  have hmem : UInt8.ofNat ft ∈ allTypes := mem_allTypes.2 (by rw [ofNat_toNat h4]; exact h4)
  refine ⟨_, _, rfl, refRow_filtered h4 _ _ _, hmem, ?_⟩
  rcases hm with ⟨h1, h2⟩ | ⟨h1, h2⟩
  · refine Or.inl ⟨h1, fun ft' _ hlt filt' hf => ?_⟩
    rw [filtered_unique hf]
    rw [UInt8.lt_iff_toNat_lt, ofNat_toNat h4] at hlt
    exact h2 _ hlt
  · refine Or.inr ⟨fun ft' _ filt' hf => ?_, least_rule h4 hmem fun ft' _ h' => h2 _ h'⟩
    rw [filtered_unique hf]
    exact h1 _ hf.1

theorem mem_fast {ft : UInt8} : ft ∈ ([1, 2, 4] : List UInt8) ↔ ft.toNat = 1 ∨ ft.toNat = 2 ∨ ft.toNat = 4 := by
  simp only [List.mem_cons, List.not_mem_nil, or_false, ← UInt8.toNat_inj]
  rfl

theorem ChoseFast.obeys {stop : Nat → Nat} {out : List UInt8}
    (h : ChoseFast (stop row.length) (sumOf row prev bpp) row prev bpp out) :
    Obeys (FirstGood stop absSum [1, 2, 4] bpp) row prev out := by
  obtain ⟨ft, hft, rfl, hm⟩ := h
  have h4 : ft ≤ 4 := by omega
  have hmem : UInt8.ofNat ft ∈ ([1, 2, 4] : List UInt8) := mem_fast.2 (by rw [ofNat_toNat h4]; exact hft)
  refine ⟨_, _, rfl, refRow_filtered h4 _ _ _, hmem, ?_⟩
  rcases hm with ⟨h1, h2⟩ | ⟨h1, h2⟩
  · refine Or.inl ⟨h1, fun ft' hm' hlt filt' hf => ?_⟩
    rw [filtered_unique hf]
    rw [UInt8.lt_iff_toNat_lt, ofNat_toNat h4] at hlt
    exact h2 _ (mem_fast.1 hm') hlt
  · refine Or.inr ⟨fun ft' hm' filt' hf => ?_, least_rule h4 hmem fun ft' hm' _ => h2 _ (mem_fast.1 hm')⟩
    rw [filtered_unique hf]
    exact h1 _ (mem_fast.1 hm')

/-- The rule of a strategy, as far as single rows go. -/
def ruleOf (bpp : Nat) : Strategy → Rule
  | .none => Always 0 bpp
  | .sub => Always 1 bpp
  | .up => Always 2 bpp
  | .average => Always 3 bpp
  | .paeth => Always 4 bpp
  | .minSum => FirstGood (fun n => n / 4 + 1) absSum allTypes bpp
  | .adaptive => FirstGood (fun n => n / 4 + 1) absSum allTypes bpp
  | .adaptiveFast => FirstGood (fun n => n / 8 + 1) absSum [1, 2, 4] bpp
  | .bigrams => Least bigrams allTypes bpp

theorem always_obeys {k : Nat} (h : k ≤ 4) :
    Obeys (Always (UInt8.ofNat k) bpp) row prev (UInt8.ofNat k :: refRow k row prev bpp) :=
  ⟨_, _, rfl, refRow_filtered h _ _ _, rfl⟩

theorem filterRow_obeys (hp : row.length ≤ prev.length) (hr : bpp ≤ row.length) (st : Strategy) :
    Oks (filterRow lv row prev bpp st) (Obeys (ruleOf bpp st) row prev) := by
  cases st <;> unfold filterRow <;> simp only
  · have := always_obeys (row := row) (prev := prev) (bpp := bpp) (k := 0) (by decide)
    rw [refRow_zero] at this
    exact Oks.ok this
  · rw [filterSub_ok lv prev hr, ok_bind]; exact Oks.pure (always_obeys (k := 1) (by decide))
  · rw [filterUp_ok lv bpp hp, ok_bind]; exact Oks.pure (always_obeys (k := 2) (by decide))
  · rw [filterAverage_ok lv bpp hp, ok_bind]; exact Oks.pure (always_obeys (k := 3) (by decide))
  · rw [filterPaeth_ok lv bpp hp, ok_bind]; exact Oks.pure (always_obeys (k := 4) (by decide))
  · exact (adaptiveFilter_good hp hr).mono fun _ h => h.obeys (stop := fun n => n / 4 + 1)
  · exact (adaptiveFilter_good hp hr).mono fun _ h => h.obeys (stop := fun n => n / 4 + 1)
  · exact (adaptiveFast_good hp hr).mono fun _ h => h.obeys (stop := fun n => n / 8 + 1)
  · exact (bigramsFilter_least hp hr).mono fun _ h => h.obeys

end

/-! ### Whole images -/

/-- Sequentially, with a strategy that does not depend on the row before. -/
theorem seqLoop_by {lv : Level} {data : List UInt8} {rb bpp : Nat} (hb : bpp ≤ rb) (st st' : Strategy) (k : Option UInt8)
    (hst : rowStrategy st k = st') (hk : ∀ out row prev, Obeys (ruleOf bpp st') row prev out → rowStrategy st out.head? = st') :
    ∀ (n y : Nat) (prev : List UInt8) (last : Option UInt8), rowStrategy st last = st' →
      data.length = (y + n) * rb → prev.length = rb →
    Oks (seqLoop lv data rb bpp st y n prev last)
      (ScanlinesBy (ruleOf bpp st') rb prev ((List.range' y n).map fun k => (data.drop (k * rb)).take rb))
  | 0, _, _, _, _, _, _ => Oks.ok (.nil _)
  | n + 1, y, prev, last, hlast, hd, hp => by
    rw [seqLoop]
    obtain ⟨e, hl⟩ := slice_row (y := y) hd (by omega)
    rw [e, ok_bind, hlast]
    refine Oks.bind (filterRow_obeys (by omega) (by omega) _) ?_
    intro out ho
    refine Oks.bind (seqLoop_by hb st st' k hst hk n (y + 1) _ _ (hk out _ _ ho) (by rw [hd]; congr 1; omega) hl) ?_
    intro rest hr
    refine Oks.pure ?_
    obtain ⟨ft, filt, rfl, ho⟩ := ho
    exact ScanlinesBy.cons hl ho hr

theorem scanlinesBy_of_rows {rule : Rule} {rb : Nat} {rows : Nat → List UInt8} {f : Nat → List UInt8} :
    ∀ (n y : Nat) (prev : List UInt8),
    (∀ k, y ≤ k → k < y + n → (rows k).length = rb ∧
      Obeys rule (rows k) (if k = y then prev else rows (k - 1)) (f k)) →
    ScanlinesBy rule rb prev ((List.range' y n).map rows) ((List.range' y n).map f).flatten
  | 0, _, _, _ => .nil _
  | n + 1, y, prev, h => by
    obtain ⟨hl, hr⟩ := h y (by omega) (by omega)
    rw [if_pos rfl] at hr
    obtain ⟨ft, filt, e, hr⟩ := hr
    rw [List.range'_succ, List.map_cons, List.map_cons, List.flatten_cons, e]
    refine ScanlinesBy.cons hl hr ?_
    refine scanlinesBy_of_rows n (y + 1) _ ?_
    intro k h1 h2
    have := h k (by omega) (by omega)
    refine ⟨this.1, ?_⟩
    have h3 := this.2
    rw [if_neg (by omega)] at h3
    by_cases c : k = y + 1
    · rw [if_pos c]; subst c; simpa using h3
    · rw [if_neg c]; exact h3

theorem parallel_by {lv : Level} {data : List UInt8} {rb bpp h : Nat} (hb : bpp ≤ rb) (st : Strategy)
    (hd : data.length = h * rb) {f : Nat → List UInt8} (hf : ∀ y, y < h → parRow lv data rb bpp st y = .ok (f y)) :
    ScanlinesBy (ruleOf bpp st) rb (List.replicate rb 0) (rowsOf data rb h) ((List.range' 0 h).map f).flatten := by
  refine scanlinesBy_of_rows h 0 _ ?_
  intro k _ hk
  have hl := (slice_row hd (show k < h by omega)).2
  refine ⟨hl, ?_⟩
  obtain ⟨out, e, e2, -⟩ := parRow_ok (lv := lv) hb st hd (show k < h by omega)
  rw [hf k (by omega)] at e
  injection e with e
  subst e
  have hlp : (if k = 0 then List.replicate rb 0 else (data.drop ((k - 1) * rb)).take rb).length = rb := by
    split
    · simp
    · exact (slice_row hd (show k - 1 < h by omega)).2
  obtain ⟨out, e3, ho⟩ := (filterRow_obeys (lv := lv) (row := (data.drop (k * rb)).take rb)
    (prev := if k = 0 then List.replicate rb 0 else (data.drop ((k - 1) * rb)).take rb) (bpp := bpp)
    (by omega) (by omega) st).out
  rw [e2] at e3
  injection e3 with e3
  rw [e3]
  exact ho

/-- Except for the sequential path of `AdaptiveFast`, every row goes by the rule of the strategy. -/
theorem applyFilters_by (lv : Level) (sched : Schedule) {data : List UInt8} (width : Nat) {height rb bpp : Nat}
    (hb : bpp ≤ rb) (hd : data.length = height * rb) (st : Strategy) (hs : SchedOk sched height)
    (hst : effective st width height ≠ .adaptiveFast ∨ (sched.isSome ∧ 32 < height)) :
    Oks (applyFilters lv sched data width height rb bpp st)
      (ScanlinesBy (ruleOf bpp (effective st width height)) rb (List.replicate rb 0) (rowsOf data rb height)) := by
  unfold applyFilters
  simp only
  generalize effective st width height = st at *
  have seq : st ≠ .adaptiveFast → Oks (seqLoop lv data rb bpp st 0 height (List.replicate rb 0) none)
      (ScanlinesBy (ruleOf bpp st) rb (List.replicate rb 0) (rowsOf data rb height)) := by
    intro hne
    have e : ∀ last, rowStrategy st last = st := fun last => by
      cases st <;> first | rfl | exact absurd rfl hne
    exact seqLoop_by hb st st none (e _) (fun _ _ _ _ => e _) height 0 _ _ (e _) (by simpa using hd) (by simp)
  cases sched with
  | none => exact seq (hst.elim id fun h => absurd h.1 (by simp))
  | some order =>
    simp only
    split
    · obtain ⟨f, hf, -⟩ := parallel_ok (lv := lv) hb st hd
      rw [applyParallel_perm hf (hs order rfl) (by simp), ok_bind]
      refine Oks.pure ?_
      rw [List.range_eq_range']
      exact parallel_by hb st hd hf
    · next hc =>
      refine seq fun e => hc ?_
      subst e
      exact ⟨hst.elim (fun h => absurd rfl h) (·.2), rfl⟩

/-! ### The sequential path of AdaptiveFast -/

theorem predict_top {a : Nat} : predict 4 a 0 0 = predict 1 a 0 0 := by
  unfold predict paeth
  simp only
  split <;> omega

/-- Below a black row Paeth is Sub. -/
theorem refRow_top (row : List UInt8) (bpp rb : Nat) :
    refRow 4 row (List.replicate rb 0) bpp = refRow 1 row (List.replicate rb 0) bpp := by
  have hz : ∀ i, byteAt (List.replicate rb 0) i = 0 := fun i => by
    unfold byteAt
    rw [List.getD_eq_getElem?_getD, List.getElem?_replicate]
    split <;> rfl
  have hzl : ∀ i, leftAt (List.replicate rb 0) bpp i = 0 := fun i => by
    unfold leftAt; split
    · rfl
    · exact hz _
  unfold refRow
  apply List.map_congr_left
  intro i _
  unfold refAt
  rw [hz, hzl, predict_top]

/-- In the sequential path the filter of the first row, Sub or Up, is that of all rows. -/
theorem fast_seq (lv : Level) {data : List UInt8} {height rb bpp : Nat} (hb : bpp ≤ rb)
    (hd : data.length = height * rb) :
    Oks (seqLoop lv data rb bpp .adaptiveFast 0 height (List.replicate rb 0) none)
      (fun out => ∃ k : UInt8, (k = 1 ∨ k = 2) ∧
        ScanlinesBy (Always k bpp) rb (List.replicate rb 0) (rowsOf data rb height) out ∧
        (0 < height → ∃ filt rest, out = k :: filt ++ rest ∧
          FirstGood (fun n => n / 8 + 1) absSum [1, 2, 4] bpp (List.replicate rb 0) (data.take rb) k filt)) := by
  cases height with
  | zero => exact Oks.ok ⟨1, Or.inl rfl, .nil _, fun h => absurd h (by decide)⟩
  | succ h =>
    rw [seqLoop]
    obtain ⟨e, hl⟩ := slice_row (y := 0) hd (by omega)
    rw [e, ok_bind]
    simp only [Nat.zero_mul, List.drop_zero] at hl ⊢
    have e0 : filterRow lv (data.take rb) (List.replicate rb 0) bpp (rowStrategy .adaptiveFast none) =
      adaptiveFast lv (data.take rb) (List.replicate rb 0) bpp := rfl
    rw [e0]
    refine Oks.bind (adaptiveFast_good (by rw [List.length_replicate]; omega) (by omega)) ?_
    intro out ho
    have hrule := ho.obeys (stop := fun n => n / 8 + 1)
    obtain ⟨ft, hft, rfl, hm⟩ := ho
    have hne : ft ≠ 4 := by
      rintro rfl
      have e41 : sumOf (data.take rb) (List.replicate rb 0) bpp 4 = sumOf (data.take rb) (List.replicate rb 0) bpp 1 := by
        unfold sumOf; rw [refRow_top]
      rcases hm with ⟨h1, h2⟩ | ⟨h1, h2⟩
      · have := h2 1 (by omega) (by omega)
        omega
      · have := h2 1 (by omega)
        omega
    have hk : ∃ st', (∀ last, last = some (UInt8.ofNat ft) → rowStrategy .adaptiveFast last = st') ∧
        ruleOf bpp st' = Always (UInt8.ofNat ft) bpp := by
      rcases hft with rfl | rfl | rfl
      · exact ⟨.sub, by rintro _ rfl; rfl, rfl⟩
      · exact ⟨.up, by rintro _ rfl; rfl, rfl⟩
      · exact absurd rfl hne
    obtain ⟨st', hst, hrul⟩ := hk
    refine Oks.bind (seqLoop_by hb .adaptiveFast st' (some (UInt8.ofNat ft)) (hst _ rfl) ?_ h 1 _ _ (hst _ rfl)
      (by rw [hd]; congr 1; omega) hl) ?_
    · rintro out row prev ⟨ft', filt, rfl, hr⟩
      rw [hrul] at hr
      rw [hr.2]
      exact hst _ rfl
    · intro rest hr
      refine Oks.pure ⟨UInt8.ofNat ft, ?_, ?_, fun _ => ⟨_, rest, rfl, ?_⟩⟩
      · rcases hft with rfl | rfl | rfl
        · exact Or.inl rfl
        · exact Or.inr rfl
        · exact absurd rfl hne
      · unfold rowsOf
        rw [List.range'_succ, List.map_cons]
        rw [hrul] at hr
        refine ScanlinesBy.cons ?_ ⟨?_, rfl⟩ ?_
        · simpa using hl
        · simpa using refRow_filtered (show ft ≤ 4 by omega) (data.take rb) (List.replicate rb 0) bpp
        · simpa using hr
      · obtain ⟨ft', filt, e, hr⟩ := hrule
        injection e with e1 e2
        rw [e1, e2]
        exact hr

end Pixo.Filter
