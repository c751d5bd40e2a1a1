import Verif.Model.Basic
/-
A small Hoare logic for `R`: `Safe x P` says that `x` neither panics nor hangs, and that
`P` holds of its value when there is one.
-/
namespace Pixo

def Safe {α : Type} (x : R α) (P : α → Prop) : Prop :=
  match x with
  | .ok a => P a
  | .error e => e = .invalid ∨ e = .unsupported

theorem Safe.ok {α : Type} {a : α} {P : α → Prop} (h : P a) : Safe (.ok a) P := h

theorem Safe.pure {α : Type} {a : α} {P : α → Prop} (h : P a) : Safe (Pure.pure a : R α) P := h

theorem Safe.invalid {α : Type} {P : α → Prop} : Safe (.error .invalid) P := Or.inl rfl

theorem Safe.unsupported {α : Type} {P : α → Prop} : Safe (.error .unsupported) P := Or.inr rfl

theorem Safe.mono {α : Type} {x : R α} {P Q : α → Prop} (h : Safe x P) (hq : ∀ a, P a → Q a) :
    Safe x Q := by
  cases x with
  | ok a => exact hq a h
  | error e => exact h

theorem Safe.bind {α β : Type} {x : R α} {f : α → R β} {P : α → Prop} {Q : β → Prop}
    (h : Safe x P) (hf : ∀ a, P a → Safe (f a) Q) : Safe (x >>= f) Q := by
  cases x with
  | ok a => exact hf a h
  | error e => exact h

theorem ok_bind {α β : Type} (a : α) (f : α → R β) : ((Except.ok a : R α) >>= f) = f a := rfl

theorem pure_bind' {α β : Type} (a : α) (f : α → R β) : ((Pure.pure a : R α) >>= f) = f a := rfl

theorem error_bind {α β : Type} (e : Err) (f : α → R β) :
    ((Except.error e : R α) >>= f) = .error e := rfl

theorem Safe.of_ok {α : Type} {x : R α} {a : α} {P : α → Prop} (h : Safe x P) (hx : x = .ok a) :
    P a := by subst hx; exact h

theorem Safe.not_panic {α : Type} {x : R α} {P : α → Prop} (h : Safe x P) : x ≠ .error .panic := by
  rintro rfl; rcases h with h | h <;> cases h

theorem Safe.not_hang {α : Type} {x : R α} {P : α → Prop} (h : Safe x P) : x ≠ .error .hang := by
  rintro rfl; rcases h with h | h <;> cases h

theorem Safe.get {α : Type} {l : List α} {i : Nat} {P : α → Prop} (hi : i < l.length)
    (h : P l[i]) : Safe (getChecked l i) P := by
  unfold getChecked; rw [List.getElem?_eq_getElem hi]; exact h

attribute [irreducible] Safe

/-- `x` succeeds, with a value satisfying `P`. -/
def Oks {α : Type} (x : R α) (P : α → Prop) : Prop := ∃ a, x = .ok a ∧ P a

theorem Oks.ok {α : Type} {a : α} {P : α → Prop} (h : P a) : Oks (.ok a) P := ⟨a, rfl, h⟩

theorem Oks.pure {α : Type} {a : α} {P : α → Prop} (h : P a) : Oks (Pure.pure a : R α) P := ⟨a, rfl, h⟩

theorem Oks.mono {α : Type} {x : R α} {P Q : α → Prop} (h : Oks x P) (hq : ∀ a, P a → Q a) :
    Oks x Q := by
  obtain ⟨a, e, p⟩ := h; exact ⟨a, e, hq a p⟩

theorem Oks.bind {α β : Type} {x : R α} {f : α → R β} {P : α → Prop} {Q : β → Prop}
    (h : Oks x P) (hf : ∀ a, P a → Oks (f a) Q) : Oks (x >>= f) Q := by
  obtain ⟨a, e, p⟩ := h
  subst e
  exact hf a p

theorem Oks.get {α : Type} {l : List α} {i : Nat} {P : α → Prop} (hi : i < l.length)
    (h : P l[i]) : Oks (getChecked l i) P := by
  unfold getChecked; rw [List.getElem?_eq_getElem hi]; exact ⟨_, rfl, h⟩

attribute [irreducible] Oks

theorem Oks.out {α : Type} {x : R α} {P : α → Prop} (h : Oks x P) : ∃ a, x = .ok a ∧ P a := by
  unfold Oks at h; exact h

theorem Oks.intro {α : Type} {x : R α} {P : α → Prop} (h : ∃ a, x = .ok a ∧ P a) : Oks x P := by
  unfold Oks; exact h

end Pixo
