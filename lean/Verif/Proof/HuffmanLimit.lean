import Verif.Proof.HuffmanTree
/-
`limit_code_lengths` turns any complete set of lengths into a complete set within the limit.
-/
namespace Pixo.Huffman
open Pixo

/-- Number of used symbols. -/
def used (lens : List Nat) : Nat := (lens.map (fun l => if l = 0 then 0 else 1)).sum

theorem ksum_cons (M l ls) : ksum M (l :: ls) = weight M l + ksum M ls := rfl
theorem used_cons (l ls) : used (l :: ls) = (if l = 0 then 0 else 1) + used ls := rfl

theorem getD_mem {l : List Nat} {i : Nat} (h : i < l.length) : l.getD i 0 ∈ l := by
  rw [List.getD_eq_getElem?_getD, List.getElem?_eq_getElem h]; exact List.getElem_mem h

theorem mem_getD {l : List Nat} {v : Nat} (h : v ∈ l) : ∃ i, i < l.length ∧ l.getD i 0 = v := by
  obtain ⟨i, hi, e⟩ := List.getElem_of_mem h
  exact ⟨i, hi, by rw [List.getD_eq_getElem?_getD, List.getElem?_eq_getElem hi, e]; rfl⟩

theorem getChecked_getD {l : List Nat} {i : Nat} (h : i < l.length) : getChecked l i = .ok (l.getD i 0) := by
  rw [getChecked, List.getD_eq_getElem?_getD, List.getElem?_eq_getElem h]; rfl

theorem le_sum_map (w : Nat → Nat) {l : List Nat} {v : Nat} (h : v ∈ l) : w v ≤ (l.map w).sum := by
  induction l with
  | nil => simp at h
  | cons a l ih =>
    rw [List.map_cons, List.sum_cons]
    rcases List.mem_cons.1 h with rfl | h
    · omega
    · have := ih h; omega

theorem sum_map_le (w w' : Nat → Nat) {l : List Nat} (h : ∀ v ∈ l, w v ≤ w' v) :
    (l.map w).sum ≤ (l.map w').sum := by
  induction l with
  | nil => exact Nat.le_refl _
  | cons a l ih =>
    have := h a (by simp)
    have := ih (fun v hv => h v (by simp [hv]))
    simp only [List.map_cons, List.sum_cons]; omega

theorem sum_map_const (c : Nat) (l : List Nat) : (l.map (fun _ => c)).sum = l.length * c := by
  induction l with
  | nil => simp
  | cons a l ih =>
    simp only [List.map_cons, List.sum_cons, ih, List.length_cons, Nat.succ_mul]; omega

theorem sum_map_mul (c : Nat) (w : Nat → Nat) (l : List Nat) :
    (l.map (fun v => c * w v)).sum = c * (l.map w).sum := by
  induction l with
  | nil => simp
  | cons a l ih => simp only [List.map_cons, List.sum_cons, ih, Nat.mul_add]

theorem kraftSum_ok (M : Nat) (ls : List Nat) (acc : Nat) (h : acc + ksum M ls < 2 ^ 32) :
    kraftSum M ls acc = .ok (acc + ksum M ls) := by
  induction ls generalizing acc with
  | nil => rfl
  | cons l ls ih =>
    rw [ksum_cons] at h ⊢
    rw [kraftSum, addU32, if_pos (by omega), ok_bind, ih _ (by omega)]
    congr 1; omega

theorem ksum_le_used (M : Nat) (ls : List Nat) : ksum M ls ≤ 2 ^ (M - 1) * used ls := by
  unfold ksum used
  rw [← sum_map_mul]
  apply sum_map_le
  intro v _
  by_cases h : v = 0
  · subst h; simp [weight_zero]
  · rw [weight_pos (by omega), if_neg h, Nat.mul_one]
    exact Nat.pow_le_pow_right (by decide) (by omega)

/-! ### The searches -/

theorem findShortest_none {M : Nat} {ls : List Nat} {i : Nat} {best : Option Nat} {bl : Nat}
    (h : findShortest M ls i best bl = none) :
    best = none ∧ (best = none → bl = M → ∀ l ∈ ls, l = 0 ∨ M ≤ l) := by
  induction ls generalizing i best bl with
  | nil => exact ⟨h, fun _ _ l hl => by simp at hl⟩
  | cons a ls ih =>
    rw [findShortest] at h
    by_cases hc : a > 0 ∧ a < M ∧ a < bl
    · rw [if_pos hc] at h
      have := (ih h).1; simp at this
    · rw [if_neg hc] at h
      refine ⟨(ih h).1, fun hb hbl l hl => ?_⟩
      rcases List.mem_cons.1 hl with rfl | hl
      · omega
      · exact (ih h).2 hb hbl l hl

theorem findShortest_some {M : Nat} {ls : List Nat} {i : Nat} {best : Option Nat} {bl k : Nat}
    (h : findShortest M ls i best bl = some k) :
    best = some k ∨ ∃ j, k = i + j ∧ j < ls.length ∧ 0 < ls.getD j 0 ∧ ls.getD j 0 < M := by
  induction ls generalizing i best bl with
  | nil => exact Or.inl h
  | cons a ls ih =>
    rw [findShortest] at h
    by_cases hc : a > 0 ∧ a < M ∧ a < bl
    · rw [if_pos hc] at h
      rcases ih h with h | ⟨j, hj, hl, hp⟩
      · injection h with h; subst h
        exact Or.inr ⟨0, rfl, by simp, by simpa using hc.1, by simpa using hc.2.1⟩
      · exact Or.inr ⟨j + 1, by omega, by simpa using hl, by simpa using hp⟩
    · rw [if_neg hc] at h
      rcases ih h with h | ⟨j, hj, hl, hp⟩
      · exact Or.inl h
      · exact Or.inr ⟨j + 1, by omega, by simpa using hl, by simpa using hp⟩

theorem findLongest_none {ls : List Nat} {i : Nat} {best : Option Nat} {bl : Nat}
    (h : findLongest ls i best bl = none) : best = none ∧ ∀ l ∈ ls, l ≤ max bl 1 := by
  induction ls generalizing i best bl with
  | nil => exact ⟨h, fun l hl => by simp at hl⟩
  | cons a ls ih =>
    rw [findLongest] at h
    by_cases hc : a > 1 ∧ a > bl
    · rw [if_pos hc] at h
      have := (ih h).1; simp at this
    · rw [if_neg hc] at h
      refine ⟨(ih h).1, fun l hl => ?_⟩
      rcases List.mem_cons.1 hl with rfl | hl
      · omega
      · exact (ih h).2 l hl

theorem findLongest_some {ls : List Nat} {i : Nat} {best : Option Nat} {bl k : Nat}
    (h : findLongest ls i best bl = some k) :
    (best = some k ∧ ∀ l ∈ ls, l ≤ max bl 1) ∨
    ∃ j, k = i + j ∧ j < ls.length ∧ 1 < ls.getD j 0 ∧ bl < ls.getD j 0 ∧ ∀ l ∈ ls, l ≤ ls.getD j 0 := by
  induction ls generalizing i best bl with
  | nil => exact Or.inl ⟨h, fun l hl => by simp at hl⟩
  | cons a ls ih =>
    rw [findLongest] at h
    by_cases hc : a > 1 ∧ a > bl
    · rw [if_pos hc] at h
      rcases ih h with ⟨h, hm⟩ | ⟨j, hj, hl, hp, hq, hm⟩
      · injection h with h; subst h
        refine Or.inr ⟨0, rfl, by simp, by simpa using hc.1, by simpa using hc.2, fun l hl => ?_⟩
        rw [List.getD_cons_zero]
        rcases List.mem_cons.1 hl with rfl | hl
        · omega
        · have := hm l hl; omega
      · refine Or.inr ⟨j + 1, by omega, by simpa using hl, by simpa using hp, by rw [List.getD_cons_succ]; omega, fun l hl => ?_⟩
        rw [List.getD_cons_succ]
        rcases List.mem_cons.1 hl with rfl | hl
        · omega
        · exact hm l hl
    · rw [if_neg hc] at h
      rcases ih h with ⟨h, hm⟩ | ⟨j, hj, hl, hp, hq, hm⟩
      · refine Or.inl ⟨h, fun l hl => ?_⟩
        rcases List.mem_cons.1 hl with rfl | hl
        · omega
        · exact hm l hl
      · refine Or.inr ⟨j + 1, by omega, by simpa using hl, by simpa using hp, by rw [List.getD_cons_succ]; omega, fun l hl => ?_⟩
        rw [List.getD_cons_succ]
        rcases List.mem_cons.1 hl with rfl | hl
        · omega
        · exact hm l hl

/-! ### The two loops -/

/-- `b` uses the same symbols as `a`. -/
def SameUse (a b : List Nat) : Prop := b.length = a.length ∧ ∀ s, b.getD s 0 = 0 ↔ a.getD s 0 = 0

theorem SameUse.refl (a) : SameUse a a := ⟨rfl, fun _ => Iff.rfl⟩
theorem SameUse.trans {a b c} (h : SameUse a b) (g : SameUse b c) : SameUse a c :=
  ⟨g.1.trans h.1, fun s => (g.2 s).trans (h.2 s)⟩

theorem SameUse.set {a : List Nat} {i v : Nat} (hi : i < a.length) (h : a.getD i 0 ≠ 0) (hv : v ≠ 0) :
    SameUse a (a.set i v) := by
  refine ⟨by simp, fun s => ?_⟩
  rw [getD_set _ _ _ _ hi]
  by_cases hs : s = i
  · subst hs; rw [if_pos rfl]; exact ⟨fun e => absurd e hv, fun e => absurd e h⟩
  · rw [if_neg hs]

theorem SameUse.used_eq {a b : List Nat} (h : SameUse a b) : used b = used a := by
  induction a generalizing b with
  | nil => have := h.1; cases b with
    | nil => rfl
    | cons => simp at this
  | cons x a ih =>
    cases b with
    | nil => have := h.1; simp at this
    | cons y b =>
      rw [used_cons, used_cons]
      have h0 := h.2 0
      simp only [List.getD_cons_zero] at h0
      have : used b = used a := ih ⟨by simpa using h.1, fun s => by simpa using h.2 (s + 1)⟩
      rw [this]
      by_cases hx : x = 0
      · rw [if_pos hx, if_pos (h0.2 hx)]
      · rw [if_neg hx, if_neg (fun e => hx (h0.1 e))]

theorem all_set {a : List Nat} {i v M : Nat} (h : ∀ l ∈ a, l ≤ M) (hv : v ≤ M) : ∀ l ∈ a.set i v, l ≤ M := by
  intro l hl
  rcases List.mem_or_eq_of_mem_set hl with hl | rfl
  · exact h l hl
  · exact hv

def slack (M : Nat) (lens : List Nat) : Nat := (lens.map (fun l => if l = 0 then 0 else M - l)).sum

theorem slack_le (M : Nat) (lens : List Nat) : slack M lens ≤ lens.length * M := by
  rw [← sum_map_const]
  apply sum_map_le
  intro v _; split <;> omega

theorem overLoop_spec (M : Nat) (fuel : Nat) (lens : List Nat) (hall : ∀ l ∈ lens, l ≤ M)
    (hu : used lens ≤ 2 ^ M) (hs : ksum M lens < 2 ^ 32) (hf : slack M lens < fuel) :
    ∃ lens', overLoop M fuel lens (ksum M lens) = .ok (lens', ksum M lens') ∧
      SameUse lens lens' ∧ (∀ l ∈ lens', l ≤ M) ∧ ksum M lens' ≤ 2 ^ M := by
  induction fuel generalizing lens with
  | zero => omega
  | succ fuel ih =>
    rw [overLoop, Nat.one_shiftLeft]
    by_cases h1 : ksum M lens > 2 ^ M
    · rw [if_pos h1]
      cases hk : findShortest M lens 0 none M with
      | none =>
        exfalso
        have hall' := (findShortest_none hk).2 rfl rfl
        have : ksum M lens ≤ used lens := by
          apply sum_map_le
          intro v hv
          rcases hall' v hv with h | h
          · subst h; simp [weight_zero]
          · by_cases h0 : v = 0
            · subst h0; simp [weight_zero]
            · rw [weight_pos (by omega), if_neg h0, show M - v = 0 by omega]; exact Nat.le_refl _
        omega
      | some k =>
        simp only []
        obtain ⟨j, rfl, hjl, hj0, hjM⟩ := (findShortest_some hk).resolve_left (by simp)
        rw [Nat.zero_add]
        rw [getChecked_getD hjl, ok_bind]
        generalize hl : lens.getD j 0 = l at hj0 hjM
        have hmem : l ∈ lens := hl ▸ getD_mem hjl
        have hw := le_sum_map (weight M) hmem
        rw [weight_pos hj0] at hw
        change 2 ^ (M - l) ≤ ksum M lens at hw
        have hset := sum_set (weight M) lens j (l + 1) hjl
        rw [hl, weight_pos hj0, weight_pos (by omega : 0 < l + 1)] at hset
        change ksum M (lens.set j (l + 1)) + 2 ^ (M - l) = ksum M lens + 2 ^ (M - (l + 1)) at hset
        have hpow : 2 ^ (M - l) = 2 ^ (M - (l + 1)) * 2 := by
          rw [← Nat.pow_succ]; congr 1; omega
        rw [Nat.one_shiftLeft, Nat.one_shiftLeft, subU32, if_pos hw, ok_bind, setChecked, if_pos hjl, ok_bind,
          addU32, if_pos (by omega), ok_bind]
        have he : ksum M lens - 2 ^ (M - l) + 2 ^ (M - (l + 1)) = ksum M (lens.set j (l + 1)) := by omega
        rw [he]
        have hsu : SameUse lens (lens.set j (l + 1)) := SameUse.set hjl (by omega) (by omega)
        have hsl := sum_set (fun l => if l = 0 then 0 else M - l) lens j (l + 1) hjl
        rw [hl, if_neg (by omega), if_neg (by omega)] at hsl
        change slack M (lens.set j (l + 1)) + (M - l) = slack M lens + (M - (l + 1)) at hsl
        obtain ⟨lens', e, su, al, ks⟩ := ih (lens.set j (l + 1)) (all_set hall (by omega))
          (by rw [hsu.used_eq]; exact hu) (by omega) (by omega)
        exact ⟨lens', e, hsu.trans su, al, ks⟩
    · rw [if_neg h1]
      exact ⟨lens, rfl, SameUse.refl _, hall, by omega⟩

theorem dvd_ksum (M L : Nat) (lens : List Nat) (h : ∀ l ∈ lens, l ≤ L) : 2 ^ (M - L) ∣ ksum M lens := by
  induction lens with
  | nil => exact Nat.dvd_zero _
  | cons a ls ih =>
    rw [ksum_cons]
    apply Nat.dvd_add _ (ih (fun l hl => h l (by simp [hl])))
    by_cases ha : a = 0
    · subst ha; rw [weight_zero]; exact Nat.dvd_zero _
    · have := h a (by simp)
      rw [weight_pos (by omega)]
      exact Nat.pow_dvd_pow 2 (by omega)

theorem underLoop_spec (M : Nat) (fuel : Nat) (lens : List Nat) (hall : ∀ l ∈ lens, l ≤ M)
    (hu : 2 ≤ used lens) (hM : M ≤ 15) (hs : ksum M lens ≤ 2 ^ M) (hf : lens.sum < fuel) :
    ∃ lens', underLoop M fuel lens (ksum M lens) = .ok lens' ∧
      SameUse lens lens' ∧ (∀ l ∈ lens', l ≤ M) ∧ ksum M lens' = 2 ^ M := by
  induction fuel generalizing lens with
  | zero => omega
  | succ fuel ih =>
    have hp15 : 2 ^ M ≤ 2 ^ 15 := Nat.pow_le_pow_right (by decide) hM
    rw [underLoop, Nat.one_shiftLeft]
    by_cases h1 : ksum M lens < 2 ^ M
    · rw [if_pos h1]
      cases hk : findLongest lens 0 none 0 with
      | none =>
        exfalso
        have hall' := (findLongest_none hk).2
        have h2 : 2 ^ (M - 1) * used lens ≤ ksum M lens := by
          unfold used ksum
          rw [← sum_map_mul]
          apply sum_map_le
          intro v hv
          have := hall' v hv
          by_cases h0 : v = 0
          · subst h0; simp
          · rw [weight_pos (by omega), if_neg h0, Nat.mul_one]
            exact Nat.pow_le_pow_right (by decide) (by omega)
        have h3 : 2 ^ (M - 1) * 2 ≤ 2 ^ (M - 1) * used lens := Nat.mul_le_mul_left _ hu
        rw [← Nat.pow_succ] at h3
        have h4 : 2 ^ M ≤ 2 ^ (M - 1 + 1) := Nat.pow_le_pow_right (by decide) (by omega)
        have h5 : M - 1 + 1 = (M - 1).succ := rfl
        rw [h5] at h4
        omega
      | some k =>
        simp only []
        obtain ⟨j, rfl, hjl, hj1, _, hmax⟩ := (findLongest_some hk).resolve_left (by simp)
        rw [Nat.zero_add, getChecked_getD hjl, ok_bind]
        generalize hl : lens.getD j 0 = l at hj1 hmax
        have hmem : l ∈ lens := hl ▸ getD_mem hjl
        have hlM := hall l hmem
        have hw := le_sum_map (weight M) hmem
        rw [weight_pos (by omega)] at hw
        change 2 ^ (M - l) ≤ ksum M lens at hw
        have hset := sum_set (weight M) lens j (l - 1) hjl
        rw [hl, weight_pos (by omega), weight_pos (by omega : 0 < l - 1)] at hset
        change ksum M (lens.set j (l - 1)) + 2 ^ (M - l) = ksum M lens + 2 ^ (M - (l - 1)) at hset
        have hpow : 2 ^ (M - (l - 1)) = 2 ^ (M - l) * 2 := by
          rw [← Nat.pow_succ]; congr 1; omega
        have hgap : ksum M lens + 2 ^ (M - l) ≤ 2 ^ M := by
          obtain ⟨a, ha⟩ := dvd_ksum M l lens hmax
          have hb : 2 ^ M = 2 ^ (M - l) * 2 ^ l := by rw [← Nat.pow_add]; congr 1; omega
          rw [ha, hb] at h1 ⊢
          have := Nat.lt_of_mul_lt_mul_left h1
          have := Nat.mul_le_mul_left (2 ^ (M - l)) (show a + 1 ≤ 2 ^ l from this)
          rw [Nat.mul_add, Nat.mul_one] at this
          exact this
        rw [Nat.one_shiftLeft, Nat.one_shiftLeft, subU32, if_pos hw, ok_bind, addU32, if_pos (by omega), ok_bind,
          if_pos (by omega), setChecked, if_pos hjl, ok_bind]
        have he : ksum M lens - 2 ^ (M - l) + 2 ^ (M - (l - 1)) = ksum M (lens.set j (l - 1)) := by omega
        rw [he]
        have hsu : SameUse lens (lens.set j (l - 1)) := SameUse.set hjl (by omega) (by omega)
        have hsl := sum_set id lens j (l - 1) hjl
        simp only [List.map_id, id, hl] at hsl
        obtain ⟨lens', e, su, al, ks⟩ := ih (lens.set j (l - 1)) (all_set hall (by omega))
          (by rw [hsu.used_eq]; exact hu) (by omega) (by omega)
        exact ⟨lens', e, hsu.trans su, al, ks⟩
    · rw [if_neg h1]
      exact ⟨lens, rfl, SameUse.refl _, hall, by omega⟩

theorem ksum_scale {M H : Nat} (h : M ≤ H) (lens : List Nat) (hall : ∀ l ∈ lens, l ≤ M) :
    ksum H lens = 2 ^ (H - M) * ksum M lens := by
  unfold ksum
  rw [← sum_map_mul]
  congr 1
  apply List.map_congr_left
  intro v hv
  have := hall v hv
  by_cases h0 : v = 0
  · subst h0; simp [weight_zero]
  · rw [weight_pos (by omega), weight_pos (by omega), ← Nat.pow_add]; congr 1; omega

theorem sum_le_of_all {lens : List Nat} {M : Nat} (h : ∀ l ∈ lens, l ≤ M) : lens.sum ≤ lens.length * M := by
  rw [← sum_map_const]
  have := sum_map_le id (fun _ => M) h
  simpa using this

theorem limitCodeLengths_spec (lens : List Nat) (M H : Nat) (hM : M ≤ 15) (hMH : M ≤ H)
    (hk : ksum H lens = 2 ^ H) (hu2 : 2 ≤ used lens) (hu : used lens ≤ 2 ^ M) :
    ∃ lens', limitCodeLengths lens M = .ok lens' ∧ SameUse lens lens' ∧
      (∀ l ∈ lens', l ≤ M) ∧ ksum M lens' = 2 ^ M := by
  have hM1 : M ≠ 0 := by rintro rfl; omega
  rw [limitCodeLengths]
  by_cases h : lens.any (· > M) = true
  · rw [if_pos h]
    generalize hcl : lens.map (fun l => if l > M then M else l) = cl
    have hall : ∀ l ∈ cl, l ≤ M := by
      intro l hl
      rw [← hcl, List.mem_map] at hl
      obtain ⟨x, _, rfl⟩ := hl
      split <;> omega
    have hsu : SameUse lens cl := by
      refine ⟨by simp [← hcl], fun s => ?_⟩
      rw [← hcl, List.getD_eq_getElem?_getD, List.getElem?_map, List.getD_eq_getElem?_getD]
      cases lens[s]? with
      | none => simp
      | some v =>
        simp only [Option.map_some, Option.getD_some]
        split <;> omega
    have hks : ksum M cl < 2 ^ 32 := by
      have h1 := ksum_le_used M cl
      have h2 : 2 ^ (M - 1) * used cl ≤ 2 ^ 15 * 2 ^ 15 :=
        Nat.mul_le_mul (Nat.pow_le_pow_right (by decide) (by omega))
          (Nat.le_trans (hsu.used_eq ▸ hu) (Nat.pow_le_pow_right (by decide) hM))
      have h3 : (2:Nat) ^ 15 * 2 ^ 15 < 2 ^ 32 := by decide
      omega
    have hks' := kraftSum_ok M cl 0 (by rwa [Nat.zero_add])
    rw [Nat.zero_add] at hks'
    simp only [hks']
    rw [ok_bind]
    obtain ⟨l1, e1, su1, a1, k1⟩ := overLoop_spec M (cl.length * M + 1) cl hall (hsu.used_eq ▸ hu) hks
      (by have := slack_le M cl; omega)
    rw [e1, ok_bind]
    obtain ⟨l2, e2, su2, a2, k2⟩ := underLoop_spec M (l1.length * M + 1) l1 a1
      (by rw [su1.used_eq, hsu.used_eq]; exact hu2) hM k1 (by have := sum_le_of_all a1; omega)
    exact ⟨l2, e2, (hsu.trans su1).trans su2, a2, k2⟩
  · rw [if_neg h]
    have hall : ∀ l ∈ lens, l ≤ M := by
      intro l hl
      simp only [List.any_eq_true, not_exists, not_and, decide_eq_true_eq] at h
      have := h l hl; omega
    refine ⟨lens, rfl, SameUse.refl _, hall, ?_⟩
    rw [ksum_scale hMH lens hall] at hk
    have : 2 ^ H = 2 ^ (H - M) * 2 ^ M := by rw [← Nat.pow_add]; congr 1; omega
    rw [this] at hk
    exact Nat.eq_of_mul_eq_mul_left (Nat.two_pow_pos _) hk

end Pixo.Huffman
