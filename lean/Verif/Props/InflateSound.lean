import Verif.Proof.InflateSound
/-
C84: what `inflate` accepts beyond RFC 1951.
-/
namespace Pixo.Props
open Spec Spec.Rfc1951 Pixo Pixo.Inflate

/-- The converse of C18: only RFC 1951 streams are decoded. It does not hold, see `C84_fails`. -/
def C84_full : Prop := ∀ bytes out, inflate bytes = .ok out → BeginsWith false bytes out

/-- C84, for every byte string: what `inflate` decodes begins with an RFC 1951 encoding of the result, or it
has, after proper blocks, the header of a dynamic block with too many codes or an over-subscribed code. -/
theorem C84_partial (bytes out : List UInt8) (h : inflate bytes = .ok out) :
    BeginsWith false bytes out ∨ Faulty bytes := inflate_sound h

/-- C84: such a header is never part of an RFC 1951 stream, so that exactly one of the two is the case. -/
theorem C84_exclusive (bytes out : List UInt8) : ¬ (BeginsWith false bytes out ∧ Faulty bytes) :=
  fun h => not_faulty h.1 h.2

/-- C84 together with C18: apart from the faults, `inflate` decodes exactly the RFC 1951 streams, to exactly
the data they stand for. -/
theorem C84_exact (bytes out : List UInt8) :
    BeginsWith false bytes out ↔ inflate bytes = .ok out ∧ ¬ Faulty bytes :=
  ⟨fun h => ⟨inflate_spec h, not_faulty h⟩, fun h => (inflate_sound h.1).resolve_right h.2⟩

/-- Three symbols of the code length code have one bit each. -/
def clFault : List UInt8 := [5, 192, 129, 4, 0, 0, 0, 0, 16, 127, 235, 1]

/-- 287 literal/length codes are announced. -/
def countFault : List UInt8 := [245, 192, 129, 0, 0, 0, 0, 0, 144, 255, 107, 39, 0]

/-- Three literal/length symbols have one bit each. -/
def litFault : List UInt8 := [5, 192, 129, 0, 0, 0, 0, 0, 16, 254, 167, 9]

theorem clFault_accepted : inflate clFault = .ok [] := by decide +kernel
theorem countFault_accepted : inflate countFault = .ok [] := by decide +kernel
theorem litFault_accepted : inflate litFault = .ok [1] := by decide +kernel

theorem clFault_faulty : Faulty clFault := by
  refine ⟨[], true, (bytesLSB clFault).drop 1, [], [], by decide +kernel, Blocks.nil 0, rfl, 0, 0, 14,
    (bytesLSB clFault).drop 17, by decide, by decide, by decide, by decide +kernel, Or.inr (Or.inl ?_)⟩
  exact ⟨[1, 1, 0, 0, 0, 0, 0, 0, 0, 0, 0, 0, 0, 0, 0, 0, 0, 0, 1], (bytesLSB clFault).drop 71, rfl, by decide, by decide,
    by decide +kernel, by unfold CodeOK; decide +kernel⟩

theorem countFault_faulty : Faulty countFault := by
  refine ⟨[], true, (bytesLSB countFault).drop 1, [], [], by decide +kernel, Blocks.nil 0, rfl, 30, 0, 14,
    (bytesLSB countFault).drop 17, by decide, by decide, by decide, by decide +kernel, Or.inl (by decide)⟩

/-- The code length code of `litFault`, and the lengths it sends. -/
def litFaultCl : List Nat := [0, 1, 0, 0, 0, 0, 0, 0, 0, 0, 0, 0, 0, 0, 0, 0, 0, 0, 1]
def litFaultLit : List Nat := [1, 1] ++ List.replicate 138 0 ++ List.replicate 116 0 ++ [1]

theorem litFault_lengths : ClSeq litFaultCl [] ((bytesLSB litFault).drop 71 |>.take 20) (litFaultLit ++ [1]) := by
  have e : ((bytesLSB litFault).drop 71 |>.take 20) = codeword litFaultCl 1 ++ (codeword litFaultCl 1 ++
      (codeword litFaultCl 18 ++ bitsLSB 127 7 ++ (codeword litFaultCl 18 ++ bitsLSB 105 7 ++
        (codeword litFaultCl 1 ++ (codeword litFaultCl 1 ++ []))))) := by decide +kernel
  rw [e]
  refine ClSeq.one 1 (by decide) (by decide) (ClSeq.one 1 (by decide) (by decide)
    (ClSeq.zeros11 127 (by decide) (by decide) (ClSeq.zeros11 105 (by decide) (by decide)
      (ClSeq.one 1 (by decide) (by decide) (ClSeq.one 1 (by decide) (by decide) ?_)))))
  exact ClSeq.done _

theorem litFault_faulty : Faulty litFault := by
  refine ⟨[], true, (bytesLSB litFault).drop 1, [], [], by decide +kernel, Blocks.nil 0, rfl, 0, 0, 14,
    (bytesLSB litFault).drop 17, by decide, by decide, by decide, by decide +kernel, Or.inr (Or.inr ?_)⟩
  exact ⟨litFaultCl, litFaultLit, [1], (bytesLSB litFault).drop 71 |>.take 20, (bytesLSB litFault).drop 91, rfl, by decide,
    by decide, by unfold CodeOK; decide +kernel, by decide +kernel, litFault_lengths, by decide +kernel, rfl,
    by unfold CodeOK; decide +kernel⟩

/-- C84 is violated by each kind of fault: none of them is noticed. -/
theorem C84_fails :
    (inflate clFault = .ok [] ∧ ∀ out, ¬ BeginsWith false clFault out) ∧
    (inflate countFault = .ok [] ∧ ∀ out, ¬ BeginsWith false countFault out) ∧
    (inflate litFault = .ok [1] ∧ ∀ out, ¬ BeginsWith false litFault out) :=
  ⟨⟨clFault_accepted, fun _ h => not_faulty h clFault_faulty⟩,
    ⟨countFault_accepted, fun _ h => not_faulty h countFault_faulty⟩,
    ⟨litFault_accepted, fun _ h => not_faulty h litFault_faulty⟩⟩

theorem C84_full_fails : ¬ C84_full := fun h => C84_fails.1.2 [] (h clFault [] C84_fails.1.1)

/-- A stream that is accepted and has no fault: a stored block. -/
example : ¬ Faulty [0x01, 0x02, 0x00, 0xFD, 0xFF, 0x68, 0x69] := by
  refine not_faulty (out := [0x68, 0x69]) ⟨_, [], _, ?_, Stream.last (Block.stored (List.replicate 5 false) [0x68, 0x69]
    (by decide) (by decide) (by decide)), by decide⟩
  decide +kernel

end Pixo.Props
