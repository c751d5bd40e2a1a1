/-
Result values shared by the model. The first ten errors are the variants of the crate's
`Error` (src/error.rs:10-48, message text dropped; the `max` of `ImageTooLarge` is kept). `panic` stands for any Rust panic (index out of range, arithmetic overflow in a
checked build, failed unwrap). `hang` marks a loop that would not have finished within the
fuel of the model; theorems show it never occurs.
-/
namespace Pixo

inductive Err where
  | invalid
  | unsupported
  | dimensions (width height : Nat)
  | dataLength (expected actual : Nat)
  | quality (q : Nat)
  | level (l : Nat)
  | tooLarge (width height max : Nat)
  | colorType
  | compression
  | restart (interval : Nat)
  | panic
  | hang
  deriving DecidableEq, Repr

deriving instance DecidableEq for Except

abbrev R (α : Type) := Except Err α

/-- Indexed assignment `l[i] = v`, which panics outside the slice. -/
def setChecked {α : Type} (l : List α) (i : Nat) (v : α) : R (List α) :=
  if i < l.length then .ok (l.set i v) else .error .panic

/-- Indexed read `l[i]`, which panics outside the slice. -/
def getChecked {α : Type} (l : List α) (i : Nat) : R α :=
  match l[i]? with
  | some v => .ok v
  | none => .error .panic

end Pixo
