import Verif.Props.MedianCut
/-
C119: where median cut cuts.
-/
namespace Pixo.Props.Cuts
open Pixo Pixo.Quantize
open Pixo.Palette (Rgba sortBy sortBy_perm sortBy_sorted)
open Pixo.Props.MedianCut

/-! ### Ranges -/

theorem foldl_min_mem (f : ColorCount → Nat) : ∀ (l : List ColorCount) (m : Nat),
    l.foldl (fun m c => min m (f c)) m = m ∨ ∃ c ∈ l, l.foldl (fun m c => min m (f c)) m = f c
  | [], m => .inl rfl
  | c :: l, m => by
    rw [List.foldl_cons]
    rcases foldl_min_mem f l (min m (f c)) with h | ⟨d, hd, h⟩
    · rw [h]
      rcases Nat.le_total m (f c) with hc | hc
      · exact .inl (Nat.min_eq_left hc)
      · exact .inr ⟨c, by simp, Nat.min_eq_right hc⟩
    · exact .inr ⟨d, by simp [hd], h⟩

theorem foldl_max_mem (f : ColorCount → Nat) : ∀ (l : List ColorCount) (m : Nat),
    l.foldl (fun m c => max m (f c)) m = m ∨ ∃ c ∈ l, l.foldl (fun m c => max m (f c)) m = f c
  | [], m => .inl rfl
  | c :: l, m => by
    rw [List.foldl_cons]
    rcases foldl_max_mem f l (max m (f c)) with h | ⟨d, hd, h⟩
    · rw [h]
      rcases Nat.le_total m (f c) with hc | hc
      · exact .inr ⟨c, by simp, Nat.max_eq_right hc⟩
      · exact .inl (Nat.max_eq_left hc)
    · exact .inr ⟨d, by simp [hd], h⟩

theorem spread_attained {box : List ColorCount} {ch v : Nat} (hne : box ≠ []) (h : spread box ch = .ok v) :
    ∃ c ∈ box, ∃ d ∈ box, channel c.rgba ch = channel d.rgba ch + v := by
  obtain ⟨x, hx⟩ := List.exists_mem_of_ne_nil _ hne
  unfold spread Lz77.subUsize at h
  dsimp only at h
  split at h
  · cases h
    have hlo : ∃ d ∈ box, box.foldl (fun m c => min m (channel c.rgba ch)) 255 = channel d.rgba ch := by
      rcases foldl_min_mem (fun c => channel c.rgba ch) box 255 with h | h
      · have := (foldl_min_le (fun c => channel c.rgba ch) box 255).2 x hx
        have := channel_lt x.rgba ch
        exact ⟨x, hx, by omega⟩
      · exact h
    have hhi : ∃ d ∈ box, box.foldl (fun m c => max m (channel c.rgba ch)) 0 = channel d.rgba ch := by
      rcases foldl_max_mem (fun c => channel c.rgba ch) box 0 with h | h
      · have := (foldl_max_ge (fun c => channel c.rgba ch) box 0).2 x hx
        exact ⟨x, hx, by omega⟩
      · exact h
    obtain ⟨d, hd, ed⟩ := hlo
    obtain ⟨c, hc, ec⟩ := hhi
    exact ⟨c, hc, d, hd, by omega⟩
  · cases h

/-- How much a difference counts: green most, then alpha, red and blue. -/
def weightOf : Nat → Nat
  | 0 => 2
  | 1 => 4
  | 2 => 1
  | _ => 3

/-- No difference of two colours in any channel counts more than the largest one in channel `ch`. -/
def Widest (box : List ColorCount) (ch : Nat) : Prop :=
  ch ≤ 3 ∧ ∃ c ∈ box, ∃ d ∈ box, ∀ ch', ch' ≤ 3 → ∀ c' ∈ box, ∀ d' ∈ box,
    weightOf ch' * (channel c'.rgba ch' - channel d'.rgba ch') ≤ weightOf ch * (channel c.rgba ch - channel d.rgba ch)

theorem better_cases (b : Nat × Nat) (ch s : Nat) : (better b ch s = b ∧ s ≤ b.2) ∨ (better b ch s = (ch, s) ∧ b.2 < s) := by
  unfold better
  split
  · exact .inr ⟨rfl, by omega⟩
  · exact .inl ⟨rfl, by omega⟩

theorem range_widest {box : List ColorCount} {q : Nat × Nat} (hne : box ≠ []) (h : range box = .ok q) : Widest box q.1 := by
  unfold range at h
  cases h0 : spread box 0 with
  | error e => rw [h0] at h; cases h
  | ok v0 =>
  rw [h0, ok_bind] at h
  cases h1 : spread box 1 with
  | error e => rw [h1] at h; cases h
  | ok v1 =>
  rw [h1, ok_bind] at h
  cases h2 : spread box 2 with
  | error e => rw [h2] at h; cases h
  | ok v2 =>
  rw [h2, ok_bind] at h
  cases h3 : spread box 3 with
  | error e => rw [h3] at h; cases h
  | ok v3 =>
  rw [h3, ok_bind] at h
  cases h
  have pick : ∃ v, spread box (better (better (better (0, v0 * 2) 1 (v1 * 4)) 2 v2) 3 (v3 * 3)).1 = .ok v ∧
      (better (better (better (0, v0 * 2) 1 (v1 * 4)) 2 v2) 3 (v3 * 3)).1 ≤ 3 ∧
      ∀ s, s = weightOf (better (better (better (0, v0 * 2) 1 (v1 * 4)) 2 v2) 3 (v3 * 3)).1 * v →
        v0 * 2 ≤ s ∧ v1 * 4 ≤ s ∧ v2 ≤ s ∧ v3 * 3 ≤ s := by
    rcases better_cases (0, v0 * 2) 1 (v1 * 4) with ⟨e1, l1⟩ | ⟨e1, l1⟩ <;> rw [e1] <;> simp only at l1
    · rcases better_cases (0, v0 * 2) 2 v2 with ⟨e2, l2⟩ | ⟨e2, l2⟩ <;> rw [e2] <;> simp only at l2
      · rcases better_cases (0, v0 * 2) 3 (v3 * 3) with ⟨e3, l3⟩ | ⟨e3, l3⟩ <;> rw [e3] <;> simp only at l3
        · exact ⟨v0, h0, by simp, fun s hs => by simp only [weightOf] at hs; omega⟩
        · exact ⟨v3, h3, by simp, fun s hs => by simp only [weightOf] at hs; omega⟩
      · rcases better_cases (2, v2) 3 (v3 * 3) with ⟨e3, l3⟩ | ⟨e3, l3⟩ <;> rw [e3] <;> simp only at l3
        · exact ⟨v2, h2, by simp, fun s hs => by simp only [weightOf] at hs; omega⟩
        · exact ⟨v3, h3, by simp, fun s hs => by simp only [weightOf] at hs; omega⟩
    · rcases better_cases (1, v1 * 4) 2 v2 with ⟨e2, l2⟩ | ⟨e2, l2⟩ <;> rw [e2] <;> simp only at l2
      · rcases better_cases (1, v1 * 4) 3 (v3 * 3) with ⟨e3, l3⟩ | ⟨e3, l3⟩ <;> rw [e3] <;> simp only at l3
        · exact ⟨v1, h1, by simp, fun s hs => by simp only [weightOf] at hs; omega⟩
        · exact ⟨v3, h3, by simp, fun s hs => by simp only [weightOf] at hs; omega⟩
      · rcases better_cases (2, v2) 3 (v3 * 3) with ⟨e3, l3⟩ | ⟨e3, l3⟩ <;> rw [e3] <;> simp only at l3
        · exact ⟨v2, h2, by simp, fun s hs => by simp only [weightOf] at hs; omega⟩
        · exact ⟨v3, h3, by simp, fun s hs => by simp only [weightOf] at hs; omega⟩
  generalize better (better (better (0, v0 * 2) 1 (v1 * 4)) 2 v2) 3 (v3 * 3) = q at pick ⊢
  obtain ⟨v, hv, h4, hs⟩ := pick
  obtain ⟨c, hc, d, hd, e⟩ := spread_attained hne hv
  refine ⟨h4, c, hc, d, hd, fun ch' hch c' hc' d' hd' => ?_⟩
  rw [show channel c.rgba q.1 - channel d.rgba q.1 = v by omega]
  obtain ⟨s0, s1, s2, s3⟩ := hs _ rfl
  have a0 := (spread_spec h0).1 c' hc' d' hd'
  have a1 := (spread_spec h1).1 c' hc' d' hd'
  have a2 := (spread_spec h2).1 c' hc' d' hd'
  have a3 := (spread_spec h3).1 c' hc' d' hd'
  match ch', hch with
  | 0, _ => simp only [weightOf] at *; omega
  | 1, _ => show 4 * _ ≤ _; omega
  | 2, _ => show 1 * _ ≤ _; omega
  | 3, _ => show 3 * _ ≤ _; omega

/-! ### The middle -/

theorem totalCount_eq : ∀ (l : List ColorCount) (acc : Nat) {t : Nat}, totalCount l acc = .ok t → t = acc + weight l
  | [], acc, t, h => by cases h; simp [weight]
  | c :: l, acc, t, h => by
    rw [totalCount] at h
    unfold addU32 at h
    split at h
    · rw [ok_bind] at h
      rw [totalCount_eq l _ h, weight_cons]
      omega
    · cases h

theorem splitIndex_spec (half : Nat) : ∀ (l : List ColorCount) (i0 acc : Nat) {i : Nat}, splitIndex half l i0 acc = .ok i →
    (∃ k, k < l.length ∧ i = i0 + k ∧ half ≤ acc + weight (l.take (k + 1)) ∧ ∀ j, j < k → acc + weight (l.take (j + 1)) < half) ∨
      (l = [] ∨ acc + weight l < half)
  | [], _, _, _, _ => .inr (.inl rfl)
  | c :: l, i0, acc, i, h => by
    rw [splitIndex] at h
    unfold addU32 at h
    split at h
    · rw [ok_bind] at h
      split at h
      · cases h
        refine .inl ⟨0, by simp, rfl, ?_, fun j hj => absurd hj (by omega)⟩
        rw [List.take_succ_cons, weight_cons]
        simp only [List.take_zero, weight, List.map_nil, List.sum_nil]
        omega
      · rename_i hlt
        rcases splitIndex_spec half l _ _ h with ⟨k, h1, h2, h3, h4⟩ | h | h
        · refine .inl ⟨k + 1, by simp; omega, by omega, ?_, fun j hj => ?_⟩
          · rw [List.take_succ_cons, weight_cons]
            omega
          · cases j with
            | zero =>
              rw [List.take_succ_cons, weight_cons]
              simp only [List.take_zero, weight, List.map_nil, List.sum_nil]
              omega
            | succ j =>
              have := h4 j (by omega)
              rw [List.take_succ_cons, weight_cons]
              omega
        · subst h
          refine .inr (.inr ?_)
          rw [weight_cons]
          simp only [weight, List.map_nil, List.sum_nil]
          omega
        · refine .inr (.inr ?_)
          rw [weight_cons]
          omega
    · cases h

/-- C119: a box of two or more colours is cut into two that are not empty, along the channel in which its colours differ most as the
weights say; no colour of the first is above one of the second there, and the cut is at the median: the first box has half of the
pixels (or the second only one colour), and would not have without its last colour (or has only one). -/
theorem C119 {b l r : List ColorCount} (h2 : 1 < b.length) (h : split b = .ok (l, r)) :
    l ≠ [] ∧ r ≠ [] ∧ (l ++ r).Perm b ∧
    (∃ ch, Widest b ch ∧ ∀ c ∈ l, ∀ d ∈ r, channel c.rgba ch ≤ channel d.rgba ch) ∧
    (weight b / 2 ≤ weight l ∨ r.length = 1) ∧ (weight l.dropLast < weight b / 2 ∨ l.length = 1) := by
  obtain ⟨p1, p2, p3⟩ := split_parts h2 h
  refine ⟨p1, p2, p3, ?_⟩
  have hne : b ≠ [] := by rintro rfl; simp at h2
  unfold split at h
  cases hr : range b with
  | error e => rw [hr] at h; cases h
  | ok q =>
    rw [hr, ok_bind] at h
    dsimp only at h
    have hp := sortBy_perm (fun a b => channel a.rgba q.1 < channel b.rgba q.1) b
    have hs := sortBy_sorted (lt := fun a b : ColorCount => channel a.rgba q.1 < channel b.rgba q.1)
      (le := fun a b => channel a.rgba q.1 ≤ channel b.rgba q.1)
      (fun a b h => by simp at h; omega) (fun a b h => by simp at h; omega) (fun a b c h1 h2 => Nat.le_trans h1 h2) b
    generalize sortBy (fun a b => channel a.rgba q.1 < channel b.rgba q.1) b = s at h hp hs
    have hl := hp.length_eq
    have hwt := weight_perm hp
    cases ht : totalCount s 0 with
    | error e => rw [ht] at h; cases h
    | ok t =>
      rw [ht, ok_bind] at h
      have ht := totalCount_eq _ _ ht
      rw [Nat.zero_add, hwt] at ht
      subst ht
      cases hi : splitIndex (weight b / 2) s 0 0 with
      | error e => rw [hi] at h; cases h
      | ok i =>
        rw [hi, ok_bind] at h
        split at h
        · cases h
          refine ⟨⟨q.1, range_widest hne hr, ?_⟩, ?_⟩
          · intro c hc d hd
            have hs' := hs
            rw [← List.take_append_drop (min i (s.length - 2) + 1) s, List.pairwise_append] at hs'
            exact hs'.2.2 c hc d hd
          · rcases splitIndex_spec _ _ _ _ hi with ⟨k, k1, k2, k3, k4⟩ | h | h
            · rw [Nat.zero_add] at k2 k3
              subst k2
              constructor
              · by_cases hk : i ≤ s.length - 2
                · rw [Nat.min_eq_left hk]
                  exact .inl k3
                · right
                  rw [List.length_drop]
                  omega
              · rcases Nat.eq_zero_or_pos (min i (s.length - 2)) with hz | hz
                · right
                  rw [List.length_take]
                  omega
                · left
                  have := k4 (min i (s.length - 2) - 1) (by omega)
                  rw [Nat.zero_add, Nat.sub_add_cancel hz] at this
                  rw [List.dropLast_take (by omega)]
                  exact this
            · rw [h, List.length_nil] at hl
              omega
            · rw [Nat.zero_add, hwt] at h
              omega
        · cases h

/-- C119: the box that is cut is one in which the colours differ most. -/
theorem C119_box {bs : List (List ColorCount)} {j s : Nat} (h : widest bs 0 none = .ok (some (j, s))) :
    (∃ b ch, bs[j]? = some b ∧ range b = .ok (ch, s)) ∧ ∀ b ∈ bs, ∃ ch r, range b = .ok (ch, r) ∧ r ≤ s := by
  obtain ⟨h1, -, h3⟩ := widest_spec _ _ _ h
  refine ⟨?_, h1⟩
  rcases h3 with h3 | ⟨k, b, ch, k1, k2, k3⟩
  · cases h3
  · rw [Nat.zero_add] at k2
    subst k2
    exact ⟨b, ch, k1, k3⟩

/-- Red differs most, but green counts twice as much; the first box gets the colours up to the median. -/
example : split [⟨(0, 40, 0, 255), 5⟩, ⟨(70, 0, 0, 255), 1⟩, ⟨(9, 20, 9, 255), 3⟩, ⟨(9, 30, 9, 255), 3⟩] =
    .ok ([⟨(70, 0, 0, 255), 1⟩, ⟨(9, 20, 9, 255), 3⟩, ⟨(9, 30, 9, 255), 3⟩], [⟨(0, 40, 0, 255), 5⟩]) := by decide +kernel
example : split [⟨(0, 40, 0, 255), 5⟩, ⟨(90, 0, 0, 255), 1⟩, ⟨(9, 20, 9, 255), 3⟩, ⟨(9, 30, 9, 255), 3⟩] =
    .ok ([⟨(0, 40, 0, 255), 5⟩, ⟨(9, 20, 9, 255), 3⟩], [⟨(9, 30, 9, 255), 3⟩, ⟨(90, 0, 0, 255), 1⟩]) := by decide +kernel

end Pixo.Props.Cuts
