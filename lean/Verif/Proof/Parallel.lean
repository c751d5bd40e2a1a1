import Verif.Model.Parallel
import Verif.Proof.Safe
/-
The order of independent tasks does not matter.
-/
namespace Pixo.Parallel

/-- Every task runs. -/
def Fair (sched : Option (List Nat)) (n : Nat) : Prop := ∀ order, sched = some order → ∀ i, i ∈ order ↔ i < n

theorem mapM_ok {α β : Type} (f : α → R β) (g : α → β) (l : List α) (h : ∀ a ∈ l, f a = .ok (g a)) :
    l.mapM f = .ok (l.map g) := by
  induction l with
  | nil => rfl
  | cons a l ih =>
    rw [List.mapM_cons, h a (by simp), ok_bind, ih (fun x hx => h x (by simp [hx]))]; rfl

theorem fill_ok {α : Type} (f : Nat → R α) (g : Nat → α) (order : List Nat) : ∀ (slots : List (Option α)),
    (∀ i ∈ order, i < slots.length ∧ f i = .ok (g i)) →
    ∃ s, fill f order slots = .ok s ∧ s.length = slots.length ∧
      ∀ i, i < slots.length → s[i]? = if i ∈ order then some (some (g i)) else slots[i]? := by
  induction order with
  | nil => intro slots _; exact ⟨slots, rfl, rfl, fun i _ => by simp⟩
  | cons a order ih =>
    intro slots h
    obtain ⟨ha, hf⟩ := h a (by simp)
    obtain ⟨s, h1, h2, h3⟩ := ih (slots.set a (some (g a))) (fun i hi => by
      rw [List.length_set]; exact h i (by simp [hi]))
    refine ⟨s, ?_, by rw [h2, List.length_set], ?_⟩
    · rw [fill, hf, ok_bind, setChecked, if_pos ha, ok_bind, h1]
    · intro i hi
      rw [h3 i (by rw [List.length_set]; exact hi)]
      by_cases hio : i ∈ order
      · rw [if_pos hio, if_pos (by simp [hio])]
      · rw [if_neg hio]
        by_cases hia : i = a
        · subst hia; rw [if_pos (by simp), List.getElem?_set_self hi]
        · rw [if_neg (by simp [hio, hia]), List.getElem?_set_ne (Ne.symm hia)]

theorem collect_map {α : Type} (l : List α) : collect (l.map some) = .ok l := by
  induction l with
  | nil => rfl
  | cons a l ih => rw [List.map_cons, collect, ih, ok_bind]; rfl

/-- A loop whose tasks succeed gives what they give, in order, whatever the schedule. -/
theorem loop_ok {α : Type} {sched : Option (List Nat)} {n : Nat} (f : Nat → R α) (g : Nat → α) (hs : Fair sched n)
    (h : ∀ i, i < n → f i = .ok (g i)) : loop sched n f = .ok ((List.range n).map g) := by
  cases sched with
  | none => exact mapM_ok f g _ (fun i hi => h i (List.mem_range.1 hi))
  | some order =>
    have ho := hs order rfl
    obtain ⟨s, h1, h2, h3⟩ := fill_ok f g order (List.replicate n none) (fun i hi => by
      rw [List.length_replicate]; exact ⟨(ho i).1 hi, h i ((ho i).1 hi)⟩)
    rw [List.length_replicate] at h2 h3
    have e : s = ((List.range n).map g).map some := by
      refine List.ext_getElem? fun i => ?_
      by_cases hi : i < n
      · rw [h3 i hi, if_pos ((ho i).2 hi)]
        simp [hi]
      · rw [List.getElem?_eq_none (by omega), List.getElem?_eq_none (by simp; omega)]
    rw [loop]
    rw [h1, ok_bind, e, collect_map]

end Pixo.Parallel
