import Verif.Proof.Safe
import Verif.Model.JpegDecode
/-
Overflow checks only add panics: a checked build of the JPEG decoder gives what the unchecked one gives, or
panics.
-/
namespace Pixo

/-- `x` is `y` or a panic. -/
def OrPanic {α : Type} (x y : R α) : Prop := x = y ∨ x = .error .panic

namespace OrPanic

theorem rfl' {α : Type} (x : R α) : OrPanic x x := Or.inl rfl

theorem bind {α β : Type} {x y : R α} {f g : α → R β} (h : OrPanic x y) (hf : ∀ a, OrPanic (f a) (g a)) :
    OrPanic (x >>= f) (y >>= g) := by
  rcases h with rfl | rfl
  · cases x with
    | error e => exact Or.inl rfl
    | ok a => exact hf a
  · exact Or.inr rfl

theorem ite {α : Type} {c : Prop} [Decidable c] {x y x' y' : R α} (h : OrPanic x y) (h' : OrPanic x' y') :
    OrPanic (if c then x else x') (if c then y else y') := by
  split <;> assumption

theorem mapM {α β : Type} {f g : α → R β} (h : ∀ a, OrPanic (f a) (g a)) (l : List α) : OrPanic (l.mapM f) (l.mapM g) := by
  induction l with
  | nil => exact rfl' _
  | cons a l ih =>
    rw [List.mapM_cons, List.mapM_cons]
    exact bind (h a) (fun b => bind ih (fun _ => rfl' _))

end OrPanic

namespace Idct
open OrPanic

theorem i32_orPanic (v : Int) : OrPanic (i32 true v) (i32 false v) := by
  unfold i32
  split
  · exact rfl' _
  · exact Or.inr rfl

theorem even_orPanic (a b c d : Int) : OrPanic (even true a b c d) (even false a b c d) := by
  unfold even
  repeat' first
    | exact rfl' _
    | refine bind (i32_orPanic _) (fun _ => ?_)

theorem odd_orPanic (a b c d : Int) : OrPanic (odd true a b c d) (odd false a b c d) := by
  unfold odd
  repeat' first
    | exact rfl' _
    | refine bind (i32_orPanic _) (fun _ => ?_)

theorem pass_orPanic (d : List Int) : OrPanic (pass true d) (pass false d) := by
  unfold pass
  refine bind (even_orPanic _ _ _ _) (fun p => ?_)
  refine bind (odd_orPanic _ _ _ _) (fun q => ?_)
  exact mapM i32_orPanic _

theorem idct_orPanic (c : List Int) : OrPanic (idct true c) (idct false c) := by
  unfold idct
  refine bind (mapM (fun _ => bind (pass_orPanic _) (fun _ => mapM (fun v => ?_) _)) _)
    (fun _ => bind (mapM (fun _ => bind (pass_orPanic _) (fun _ => mapM (fun v => ?_) _)) _) (fun _ => rfl' _))
  · unfold descale1
    exact bind (i32_orPanic _) (fun _ => rfl' _)
  · unfold descale2
    exact bind (i32_orPanic _) (fun _ => rfl' _)

end Idct

namespace JpegDecode
open OrPanic Idct

theorem shift_orPanic (s : Nat) : OrPanic (shift true s) (shift false s) := by
  unfold shift
  split
  · exact rfl' _
  · exact Or.inr rfl

theorem ensure_orPanic (fuel : Nat) (r : MsbBitReader) (n : Nat) : OrPanic (ensure true fuel r n) (ensure false fuel r n) := by
  induction fuel generalizing r with
  | zero => exact rfl' _
  | succ fuel ih =>
    unfold ensure
    refine ite (bind (rfl' _) (fun p => ?_)) (rfl' _)
    obtain ⟨byte, r⟩ := p
    cases byte with
    | none => exact rfl' _
    | some b =>
      refine ite (ih _) ?_
      exact Or.inr rfl

theorem peekBits_orPanic (r : MsbBitReader) (n : Nat) : OrPanic (peekBits true r n) (peekBits false r n) := by
  unfold peekBits
  rw [if_neg (c := false = true ∧ n > 25) (by simp)]
  split
  · exact Or.inr rfl
  · refine bind (ensure_orPanic _ _ _) (fun p => ?_)
    obtain ⟨done, r⟩ := p
    refine ite ?_ (rfl' _)
    exact bind (shift_orPanic _) (fun _ => bind (shift_orPanic _) (fun _ => rfl' _))

theorem readBits_orPanic (r : MsbBitReader) (n : Nat) : OrPanic (readBits true r n) (readBits false r n) :=
  bind (peekBits_orPanic r n) (fun _ => rfl' _)

theorem decodeSlow_orPanic (t : Huff) (n len : Nat) (code : Int) (r : MsbBitReader) :
    OrPanic (decodeSlow true t n len code r) (decodeSlow false t n len code r) := by
  induction n generalizing len code r with
  | zero => exact rfl' _
  | succ n ih =>
    unfold decodeSlow
    refine bind (readBits_orPanic _ _) (fun p => ?_)
    obtain ⟨bit, r⟩ := p
    cases bit with
    | none => exact rfl' _
    | some b => exact bind (rfl' _) (fun _ => ite (rfl' _) (ih _ _ _))

theorem decode_orPanic (t : Huff) (r : MsbBitReader) : OrPanic (t.decode true r) (t.decode false r) := by
  unfold Huff.decode
  refine bind (peekBits_orPanic _ _) (fun p => ?_)
  obtain ⟨peek, r⟩ := p
  cases peek with
  | none => exact decodeSlow_orPanic _ _ _ _ _
  | some p => exact bind (rfl' _) (fun _ => ite (rfl' _) (decodeSlow_orPanic _ _ _ _ _))

theorem readAmplitude_orPanic (r : MsbBitReader) (size : Nat) :
    OrPanic (readAmplitude true r size) (readAmplitude false r size) := by
  unfold readAmplitude
  refine bind (readBits_orPanic _ _) (fun p => ?_)
  obtain ⟨bits, r⟩ := p
  cases bits with
  | none => exact rfl' _
  | some b =>
    refine bind (shift_orPanic _) (fun s => ?_)
    simp only []
    generalize wrap32 (2 ^ s) = t
    generalize wrap32 b = u
    split
    · refine bind (i32_orPanic _) (fun _ => ?_)
      refine bind (i32_orPanic _) (fun _ => ?_)
      refine bind (i32_orPanic _) (fun _ => ?_)
      exact rfl' _
    · exact rfl' _

theorem acLoop_orPanic (t : Huff) (fuel k : Nat) (coeffs : List Int) (r : MsbBitReader) :
    OrPanic (acLoop true t fuel k coeffs r) (acLoop false t fuel k coeffs r) := by
  induction fuel generalizing k coeffs r with
  | zero => exact rfl' _
  | succ fuel ih =>
    unfold acLoop
    refine ite (bind (decode_orPanic _ _) (fun p => ?_)) (rfl' _)
    obtain ⟨symbol, r⟩ := p
    cases symbol with
    | none => exact rfl' _
    | some symbol =>
      refine ite (rfl' _) (ite (ih _ _ _) (ite (rfl' _) (ite ?_ (ih _ _ _))))
      refine bind (readAmplitude_orPanic _ _) (fun p => ?_)
      obtain ⟨amp, r⟩ := p
      cases amp with
      | none => exact rfl' _
      | some a => exact bind (rfl' _) (fun _ => ih _ _ _)

theorem decodeBlock_orPanic (s : State) (c : Component) (pred : Int) (r : MsbBitReader) :
    OrPanic (decodeBlock true s c pred r) (decodeBlock false s c pred r) := by
  unfold decodeBlock
  refine bind (rfl' _) (fun dc => bind (decode_orPanic _ _) (fun p => ?_))
  obtain ⟨category, r⟩ := p
  cases category with
  | none => exact rfl' _
  | some category =>
    simp only []
    split
    · refine bind (readAmplitude_orPanic _ _) (fun p => ?_)
      obtain ⟨diff, r⟩ := p
      cases diff with
      | none => exact rfl' _
      | some diff =>
        refine bind (i32_orPanic _) (fun _ => ?_)
        refine bind (rfl' _) (fun _ => ?_)
        exact bind (acLoop_orPanic _ _ _ _ _) (fun _ => rfl' _)
    · refine bind (rfl' _) (fun p => ?_)
      obtain ⟨diff, r⟩ := p
      cases diff with
      | none => exact rfl' _
      | some diff =>
        refine bind (i32_orPanic _) (fun _ => ?_)
        refine bind (rfl' _) (fun _ => ?_)
        exact bind (acLoop_orPanic _ _ _ _ _) (fun _ => rfl' _)

attribute [local irreducible] Idct.idct in
theorem blockStep_orPanic (s : State) (cols i bx byy : Nat) (st : Scan) :
    OrPanic (blockStep true s cols i bx byy st) (blockStep false s cols i bx byy st) := by
  unfold blockStep
  refine bind (rfl' _) (fun c => bind (rfl' _) (fun pred => bind (decodeBlock_orPanic _ _ _ _) (fun p => ?_)))
  obtain ⟨res, r⟩ := p
  cases res with
  | none => exact rfl' _
  | some q =>
    obtain ⟨coeffs, pred⟩ := q
    simp only []
    refine bind (rfl' _) (fun _ => ?_)
    refine bind (rfl' _) (fun _ => ?_)
    exact bind (idct_orPanic _) (fun _ => rfl' _)

theorem blocksLoop_orPanic (s : State) (cols : Nat) (l : List (Nat × Nat × Nat)) (st : Scan) :
    OrPanic (blocksLoop true s cols l st) (blocksLoop false s cols l st) := by
  induction l generalizing st with
  | nil => exact rfl' _
  | cons b l ih =>
    obtain ⟨i, bx, byy⟩ := b
    unfold blocksLoop
    refine bind (blockStep_orPanic _ _ _ _ _ _) (fun p => ?_)
    obtain ⟨go, st⟩ := p
    exact ite (ih _) (rfl' _)

theorem mcuLoop_orPanic (s : State) (cols : Nat) (l : List (Nat × Nat)) (count : Nat) (st : Scan) :
    OrPanic (mcuLoop true s cols l count st) (mcuLoop false s cols l count st) := by
  induction l generalizing count st with
  | nil => exact rfl' _
  | cons b l ih =>
    obtain ⟨mx, my⟩ := b
    unfold mcuLoop
    simp only []
    refine bind (blocksLoop_orPanic _ _ _ _) (fun p => ?_)
    obtain ⟨go, st⟩ := p
    exact ite (ih _ _) (rfl' _)

theorem decodeScan_orPanic (s : State) (rest : List UInt8) : OrPanic (decodeScan true s rest) (decodeScan false s rest) := by
  unfold decodeScan
  simp only []
  exact bind (mcuLoop_orPanic _ _ _ _ _) (fun _ => rfl' _)

theorem markerLoop_orPanic (fuel : Nat) (s : State) (data : List UInt8) :
    OrPanic (markerLoop true fuel s data) (markerLoop false fuel s data) := by
  induction fuel generalizing s data with
  | zero => exact rfl' _
  | succ fuel ih =>
    unfold markerLoop
    refine bind (rfl' _) (fun p => ?_)
    obtain ⟨marker, seg, rest⟩ := p
    refine ite (bind (rfl' _) (fun _ => ih _ _)) (ite (rfl' _) (ite (bind (rfl' _) (fun _ => ih _ _))
      (ite (bind (rfl' _) (fun _ => ih _ _)) (ite (bind (rfl' _) (fun _ => ih _ _))
        (ite (bind (rfl' _) (fun _ => decodeScan_orPanic _ _)) (ite (rfl' _) (ih _ _)))))))

theorem decodeJpeg_orPanic (data : List UInt8) : OrPanic (decodeJpeg true data) (decodeJpeg false data) := by
  unfold decodeJpeg
  split
  · exact markerLoop_orPanic _ _ _
  · exact rfl' _

end JpegDecode
end Pixo
