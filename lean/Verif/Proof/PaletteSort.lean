import Verif.Model.Palette
import Verif.Proof.Safe
/-
Sorting, deduplication, keys, and lists of indices: the groundwork for palettes.
-/
namespace Pixo.Palette

/-! ### Keys -/

theorem shl_or (a b k : Nat) (h : b < 2 ^ k) : (a <<< k) ||| b = a * 2 ^ k + b := by
  rw [Nat.shiftLeft_eq, Nat.mul_comm, Nat.two_pow_add_eq_or_of_lt h]

theorem key_eq (c : Rgba) : key c = c.1.toNat * 2 ^ 24 + c.2.1.toNat * 2 ^ 16 + c.2.2.1.toNat * 2 ^ 8 + c.2.2.2.toNat := by
  have h1 := c.1.toNat_lt
  have h2 := c.2.1.toNat_lt
  have h3 := c.2.2.1.toNat_lt
  have h4 := c.2.2.2.toNat_lt
  unfold key
  rw [Nat.or_assoc, Nat.or_assoc, shl_or _ _ 8 (by omega), shl_or _ _ 16 (by omega), shl_or _ _ 24 (by omega)]
  omega

theorem key_lt (c : Rgba) : key c < 2 ^ 32 := by
  have h1 := c.1.toNat_lt
  have h2 := c.2.1.toNat_lt
  have h3 := c.2.2.1.toNat_lt
  have h4 := c.2.2.2.toNat_lt
  rw [key_eq]; omega

theorem ofNat_of_mod {a : Nat} {b : UInt8} (h : a % 256 = b.toNat) : UInt8.ofNat a = b := by
  apply UInt8.toNat_inj.mp
  rw [UInt8.toNat_ofNat']; exact h

theorem unkey_key (c : Rgba) : unkey (key c) = c := by
  obtain ⟨r, g, b, a⟩ := c
  have h1 := r.toNat_lt
  have h2 := g.toNat_lt
  have h3 := b.toNat_lt
  have h4 := a.toNat_lt
  unfold unkey
  rw [key_eq]
  simp only [Nat.shiftRight_eq_div_pow]
  refine Prod.ext (ofNat_of_mod ?_) (Prod.ext (ofNat_of_mod ?_) (Prod.ext (ofNat_of_mod ?_) (ofNat_of_mod ?_))) <;> dsimp only <;> omega

theorem key_inj {c d : Rgba} (h : key c = key d) : c = d := by rw [← unkey_key c, h, unkey_key]

/-! ### Sorting -/

theorem insertBy_perm {α : Type} (lt : α → α → Bool) (x : α) : ∀ l : List α, (insertBy lt x l).Perm (x :: l)
  | [] => .refl _
  | y :: l => by
    rw [insertBy]
    split
    · exact ((insertBy_perm lt x l).cons y).trans (.swap _ _ _)
    · exact .refl _

theorem sortBy_perm {α : Type} (lt : α → α → Bool) : ∀ l : List α, (sortBy lt l).Perm l
  | [] => .refl _
  | x :: l => (insertBy_perm lt x (sortBy lt l)).trans ((sortBy_perm lt l).cons x)

/-- Sorted for a comparison that is a weak order given by `f`. -/
theorem insertBy_sorted {α : Type} {lt : α → α → Bool} {le : α → α → Prop}
    (h1 : ∀ a b, lt a b = true → le a b) (h2 : ∀ a b, lt a b = false → le b a)
    (ht : ∀ a b c, le a b → le b c → le a c) (x : α) : ∀ l : List α, l.Pairwise le → (insertBy lt x l).Pairwise le
  | [], _ => List.pairwise_singleton _ _
  | y :: l, h => by
    rw [insertBy]
    rw [List.pairwise_cons] at h
    split
    · rename_i hlt
      refine List.pairwise_cons.mpr ⟨?_, insertBy_sorted h1 h2 ht x l h.2⟩
      intro z hz
      rcases List.mem_cons.mp ((insertBy_perm lt x l).mem_iff.mp hz) with rfl | hz
      · exact h1 _ _ hlt
      · exact h.1 z hz
    · rename_i hlt
      have hle := h2 y x (by simpa using hlt)
      refine List.pairwise_cons.mpr ⟨?_, List.pairwise_cons.mpr h⟩
      intro z hz
      rcases List.mem_cons.mp hz with rfl | hz
      · exact hle
      · exact ht _ _ _ hle (h.1 z hz)

theorem sortBy_sorted {α : Type} {lt : α → α → Bool} {le : α → α → Prop}
    (h1 : ∀ a b, lt a b = true → le a b) (h2 : ∀ a b, lt a b = false → le b a)
    (ht : ∀ a b c, le a b → le b c → le a c) : ∀ l : List α, (sortBy lt l).Pairwise le
  | [] => .nil
  | x :: l => insertBy_sorted h1 h2 ht x _ (sortBy_sorted h1 h2 ht l)

theorem sortKeys_sorted (l : List Nat) : (sortKeys l).Pairwise (· ≤ ·) := by
  unfold sortKeys
  refine sortBy_sorted (le := fun a b : Nat => a ≤ b) ?_ ?_ ?_ l
  · intro a b h; simp at h; omega
  · intro a b h; simp at h; omega
  · intro a b c h1 h2; exact Nat.le_trans h1 h2

theorem mem_dedup {x : Nat} : ∀ l : List Nat, x ∈ dedup l ↔ x ∈ l
  | [] => by simp [dedup]
  | [a] => by simp [dedup]
  | a :: b :: l => by
    have ih := mem_dedup (x := x) (b :: l)
    rw [dedup]
    split
    · rename_i h; subst h
      rw [ih]; simp
    · rw [List.mem_cons, ih, List.mem_cons (a := x) (b := a)]

theorem dedup_sorted : ∀ l : List Nat, l.Pairwise (· ≤ ·) → (dedup l).Pairwise (· < ·)
  | [], _ => .nil
  | [a], _ => List.pairwise_singleton _ _
  | a :: b :: l, h => by
    rw [dedup]
    have ⟨h1, h2⟩ := List.pairwise_cons.mp h
    split
    · exact dedup_sorted _ h2
    · rename_i hne
      refine List.pairwise_cons.mpr ⟨?_, dedup_sorted _ h2⟩
      intro z hz
      rw [mem_dedup] at hz
      have hb := h1 b List.mem_cons_self
      rcases List.mem_cons.mp hz with rfl | hz
      · omega
      · have := (List.pairwise_cons.mp h2).1 z hz
        omega

theorem nodup_of_lt {l : List Nat} (h : l.Pairwise (· < ·)) : l.Nodup :=
  h.imp fun {a b} (hlt : a < b) => Nat.ne_of_lt hlt

theorem palette_nodup (keys : List Nat) : (dedup (sortKeys keys)).Nodup :=
  nodup_of_lt (dedup_sorted _ (sortKeys_sorted _))

theorem mem_palette {keys : List Nat} {x : Nat} : x ∈ dedup (sortKeys keys) ↔ x ∈ keys := by
  rw [mem_dedup]; exact (sortBy_perm _ _).mem_iff

theorem search_ok {keys : List Nat} {k : Nat} (h : k ∈ keys) :
    ∃ i, search keys k = .ok i ∧ keys[i]? = some k := by
  unfold search
  cases e : keys.idxOf? k with
  | none => rw [List.idxOf?_eq_none_iff] at e; exact absurd h e
  | some i =>
    refine ⟨i, rfl, ?_⟩
    rw [List.idxOf?, List.findIdx?_eq_some_iff_getElem] at e
    obtain ⟨hi, he, -⟩ := e
    rw [List.getElem?_eq_getElem hi]
    simpa using he

/-! ### Lists -/

theorem sum_set : ∀ (l : List Nat) (i v : Nat) (h : i < l.length), (l.set i v).sum + l[i] = l.sum + v
  | a :: l, 0, v, _ => by simp; omega
  | a :: l, i + 1, v, h => by
    have := sum_set l i v (by simpa using h)
    simp only [List.set_cons_succ, List.sum_cons, List.getElem_cons_succ]; omega

/-- Distinct places of a list add up to at most its sum. -/
theorem places_le : ∀ (ps row : List Nat), ps.Nodup → (∀ p ∈ ps, p < row.length) →
    (ps.map fun p => row.getD p 0).sum ≤ row.sum
  | [], row, _, _ => by simp
  | p :: ps, row, hn, h => by
    have ⟨h1, h2⟩ := List.nodup_cons.mp hn
    have hp := h p List.mem_cons_self
    have ih := places_le ps (row.set p 0) h2 (fun q hq => by
      rw [List.length_set]; exact h q (List.mem_cons_of_mem _ hq))
    have e : (ps.map fun q => (row.set p 0).getD q 0) = ps.map fun q => row.getD q 0 := by
      apply List.map_congr_left
      intro q hq
      have : p ≠ q := fun e => h1 (e ▸ hq)
      simp [List.getD, List.getElem?_set_ne this]
    rw [e] at ih
    have := sum_set row p 0 hp
    rw [List.map_cons, List.sum_cons, show row.getD p 0 = row[p] by simp [List.getD, hp]]
    omega

theorem get_le_sum (l : List Nat) (i : Nat) : l.getD i 0 ≤ l.sum := by
  by_cases h : i < l.length
  · have := places_le [i] l (by simp) (by simpa using h)
    simpa using this
  · simp [List.getD, List.getElem?_eq_none (Nat.le_of_not_lt h)]

theorem mapM_ok {α β : Type} {f : α → R β} {g : α → β} : ∀ (l : List α), (∀ a ∈ l, f a = .ok (g a)) →
    l.mapM f = .ok (l.map g)
  | [], _ => rfl
  | a :: l, h => by
    rw [List.mapM_cons, h a List.mem_cons_self, ok_bind, mapM_ok l fun b hb => h b (List.mem_cons_of_mem _ hb)]
    rfl

end Pixo.Palette
