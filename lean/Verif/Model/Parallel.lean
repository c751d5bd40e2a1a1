import Verif.Model.Basic
/-
Indexed parallel loops of rayon: `par_iter().map(f).collect()` and `par_chunks_mut(n).enumerate()
.for_each(f)`. Every index is one task with its own place for the result; tasks share nothing that
is written. The threads are modelled by the order in which the tasks run.
-/
namespace Pixo.Parallel

/-- The tasks of `order` fill their places. A panic in one of them is passed on. -/
def fill {α : Type} (f : Nat → R α) : List Nat → List (Option α) → R (List (Option α))
  | [], slots => .ok slots
  | i :: order, slots => do
    let v ← f i
    let slots ← setChecked slots i (some v)
    fill f order slots

/-- The places in order; all have to be filled. -/
def collect {α : Type} : List (Option α) → R (List α)
  | [] => .ok []
  | some v :: rest => do
    let vs ← collect rest
    return v :: vs
  | none :: _ => .error .panic

/-- A loop over `0..n`: `none` without the `parallel` feature (the sequential loop), otherwise the
order in which the tasks run. -/
def loop {α : Type} (sched : Option (List Nat)) (n : Nat) (f : Nat → R α) : R (List α) :=
  match sched with
  | none => (List.range n).mapM f
  | some order => do
    let slots ← fill f order (List.replicate n none)
    collect slots

end Pixo.Parallel
