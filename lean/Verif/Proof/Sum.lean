/-
Finite sums over `0..n`, and sums over lists as such sums.
-/
namespace Pixo

def sumTo : Nat → (Nat → Nat) → Nat
  | 0, _ => 0
  | n + 1, f => sumTo n f + f n

@[simp] theorem sumTo_zero (f) : sumTo 0 f = 0 := rfl
theorem sumTo_succ (n f) : sumTo (n + 1) f = sumTo n f + f n := rfl

theorem sumTo_congr {n f g} (h : ∀ i, i < n → f i = g i) : sumTo n f = sumTo n g := by
  induction n with
  | zero => rfl
  | succ n ih => rw [sumTo_succ, sumTo_succ, ih (fun i hi => h i (by omega)), h n (by omega)]

theorem sumTo_le {n f g} (h : ∀ i, i < n → f i ≤ g i) : sumTo n f ≤ sumTo n g := by
  induction n with
  | zero => exact Nat.le_refl _
  | succ n ih =>
    rw [sumTo_succ, sumTo_succ]
    have := ih (fun i hi => h i (by omega))
    have := h n (by omega)
    omega

theorem sumTo_add (n f g) : sumTo n (fun i => f i + g i) = sumTo n f + sumTo n g := by
  induction n with
  | zero => rfl
  | succ n ih => simp only [sumTo_succ, ih]; omega

theorem sumTo_mul (n c f) : sumTo n (fun i => c * f i) = c * sumTo n f := by
  induction n with
  | zero => rfl
  | succ n ih => simp only [sumTo_succ, ih, Nat.mul_add]

theorem sumTo_const_zero (n) : sumTo n (fun _ => 0) = 0 := by
  induction n with
  | zero => rfl
  | succ n ih => simp only [sumTo_succ, ih]

theorem sumTo_eq_zero {n f} (h : ∀ i, i < n → f i = 0) : sumTo n f = 0 := by
  rw [sumTo_congr h, sumTo_const_zero]

theorem sumTo_single (n k c : Nat) (h : k < n) : sumTo n (fun i => if i = k then c else 0) = c := by
  induction n with
  | zero => omega
  | succ n ih =>
    rw [sumTo_succ]
    by_cases hk : k = n
    · subst hk
      have : sumTo k (fun i => if i = k then c else 0) = sumTo k (fun _ => 0) :=
        sumTo_congr (fun i hi => by rw [if_neg (by omega)])
      rw [this, sumTo_const_zero]; simp
    · rw [ih (by omega), if_neg (by omega)]; omega

theorem le_sumTo (n k : Nat) (f) (h : k < n) : f k ≤ sumTo n f := by
  induction n with
  | zero => omega
  | succ n ih =>
    rw [sumTo_succ]
    by_cases hk : k = n
    · subst hk; omega
    · have := ih (by omega); omega

theorem sumTo_eq_range (n f) : sumTo n f = ((List.range n).map f).sum := by
  induction n with
  | zero => rfl
  | succ n ih => rw [sumTo_succ, ih, List.range_succ]; simp

theorem sumTo_split (n m : Nat) (f) :
    sumTo (n + m) f = sumTo n f + sumTo m (fun i => f (n + i)) := by
  induction m with
  | zero => rfl
  | succ m ih => rw [← Nat.add_assoc, sumTo_succ, ih, sumTo_succ]; omega

theorem sumTo_shift (n : Nat) (f) : sumTo (n + 1) f = f 0 + sumTo n (fun i => f (i + 1)) := by
  have := sumTo_split 1 n f
  rw [Nat.add_comm 1 n] at this
  rw [this]; simp [sumTo_succ, Nat.add_comm]

theorem list_sum_eq_sumTo (l : List Nat) (g : Nat → Nat) :
    (l.map g).sum = sumTo l.length (fun i => g (l.getD i 0)) := by
  induction l with
  | nil => rfl
  | cons a l ih => rw [List.length_cons, sumTo_shift]; simp [ih]

end Pixo
