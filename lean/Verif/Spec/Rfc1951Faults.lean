import Verif.Spec.Rfc1951
/-
What is wrong with a bit string that breaks the rules of RFC 1951 for code lengths (§3.2.2, §3.2.7).
-/
namespace Spec.Rfc1951

/-- Blocks none of which is the last, starting at bit offset `pos`. -/
inductive Blocks : Nat → List Bool → List Token → Prop
  | nil (pos : Nat) : Blocks pos [] []
  | more {pos bs ts rest ts'} : Block false (pos + 1) bs ts → Blocks (pos + 1 + bs.length) rest ts' →
      Blocks pos (false :: bs ++ rest) (ts ++ ts')

/-- The code length code assigns more code words than there are. -/
def BadClCode (hclen : Nat) (tail : List Bool) : Prop :=
  ∃ cl tail', cl.length = 19 ∧ (∀ l ∈ cl, l ≤ 7) ∧ (∀ s ∈ clOrder.drop (hclen + 4), len cl s = 0) ∧
    tail = clHeader cl (hclen + 4) ++ tail' ∧ ¬ CodeOK cl

/-- One of the two codes of the block assigns more code words than there are. -/
def BadCodes (hlit hdist hclen : Nat) (tail : List Bool) : Prop :=
  ∃ cl lit dist clbits tail', cl.length = 19 ∧ (∀ l ∈ cl, l ≤ 7) ∧ (∀ s ∈ clOrder.drop (hclen + 4), len cl s = 0) ∧
    CodeOK cl ∧ tail = clHeader cl (hclen + 4) ++ clbits ++ tail' ∧ ClSeq cl [] clbits (lit ++ dist) ∧
    lit.length = hlit + 257 ∧ dist.length = hdist + 1 ∧ ¬ (CodeOK lit ∧ CodeOK dist)

/-- The header of a dynamic block, after its BFINAL bit, that has more than 286 literal/length codes, or an
over-subscribed code. -/
def BadHeader (bits : List Bool) : Prop :=
  ∃ hlit hdist hclen tail, hlit < 32 ∧ hdist < 32 ∧ hclen < 16 ∧
    bits = [false, true] ++ bitsLSB hlit 5 ++ bitsLSB hdist 5 ++ bitsLSB hclen 4 ++ tail ∧
    (30 ≤ hlit ∨ BadClCode hclen tail ∨ BadCodes hlit hdist hclen tail)

/-- After some number of proper blocks comes a bad header. -/
def Faulty (bytes : List UInt8) : Prop :=
  ∃ front final rest ts out, bytesLSB bytes = front ++ final :: rest ∧ Blocks 0 front ts ∧
    expand ts = some out ∧ BadHeader rest

end Spec.Rfc1951
