import Verif.Spec.Rfc1951
/-
How often the symbols of DEFLATE occur in a block, and how many bits an ideal entropy coder would
spend on it.
-/
namespace Spec.BlockCost
open Spec.Rfc1951

/-- The last row of the table of lengths or distances (RFC 1951 §3.2.5) whose base is not above `v`. -/
def row (table : List (Nat × Nat)) (v : Nat) : Nat := (table.filter (fun r => r.1 ≤ v)).length - 1

/-- The symbol of the literal/length alphabet that stands for a token. -/
def litSymbol : Token → Nat
  | .lit b => b.toNat
  | .copy l _ => 257 + row lengthTable l

/-- The symbol of the distance alphabet. -/
def distSymbol : Token → Option Nat
  | .lit _ => none
  | .copy _ d => some (row distTable d)

/-- The extra bits that follow the symbols of a token. -/
def extraBits : Token → Nat
  | .lit _ => 0
  | .copy l d => (lengthTable.getD (row lengthTable l) (0, 0)).2 + (distTable.getD (row distTable d) (0, 0)).2

/-- Occurrences of a literal/length symbol in a block; the end of block, symbol 256, occurs once. -/
def litCount (ts : List Token) (s : Nat) : Nat := (ts.map litSymbol ++ [256]).count s

/-- Occurrences of a distance symbol. -/
def distCount (ts : List Token) (s : Nat) : Nat := (ts.map distSymbol).count (some s)

/-- The counts of all literal/length symbols. -/
def litCounts (ts : List Token) : List Nat := (List.range 286).map (litCount ts)

/-- The counts of all distance symbols. A block without matches is treated as if distance symbol 0
occurred once, because some distance code has to be sent. -/
def distCounts (ts : List Token) : List Nat :=
  if ts.all (fun t => distSymbol t = none) then 1 :: List.replicate 29 0
  else (List.range 30).map (distCount ts)

/-- The entropy of symbols with these counts: `c · log (total / c)` for each. `log` is the logarithm to base 2 in some unit. -/
def entropy (log : Nat → Int) (counts : List Nat) : Int :=
  (counts.map (fun c : Nat => if c = 0 then 0 else (c : Int) * (log counts.sum - log c))).sum

/-- 300 bits for the header, the entropies of both alphabets, and the extra bits. `one` is one bit in the unit of `log`. -/
def estimate (log : Nat → Int) (one : Nat) (ts : List Token) : Int :=
  300 * one + entropy log (litCounts ts) + entropy log (distCounts ts) + (ts.map extraBits).sum * one

/-- Occurrences of all distance symbols. -/
def distUses (ts : List Token) : List Nat := (List.range 30).map (distCount ts)

/-- The bits spent on the distance symbol of a token, if it has one. -/
def distBits (dist : Nat → Nat) (t : Token) : Nat := ((distSymbol t).map dist).getD 0

/-- The bits of a body: each token with its symbols and extra bits, then the end of block. `lit s` and `dist s` are the bits
spent on symbol `s` of either alphabet. -/
def bodyBits (lit dist : Nat → Nat) (ts : List Token) : Nat :=
  (ts.map (fun t => lit (litSymbol t) + distBits dist t + extraBits t)).sum + lit 256

/-- The header of a dynamic block, from its type to its last code length (RFC 1951 §3.2.7), that announces the codes `lit` and `dist`. -/
def DynamicHeader (strict : Bool) (header : List Bool) (lit dist : List Nat) : Prop :=
  ∃ hlit hdist hclen cl clbits, hlit < 30 ∧ (hdist < if strict then 30 else 32) ∧ hclen < 16 ∧
    cl.length = 19 ∧ clCodeOK strict cl ∧ (∀ l ∈ cl, l ≤ 7) ∧ (∀ s ∈ clOrder.drop (hclen + 4), len cl s = 0) ∧
    lit.length = hlit + 257 ∧ dist.length = hdist + 1 ∧ ClSeq cl [] clbits (lit ++ dist) ∧
    dataCodeOK strict lit ∧ dataCodeOK strict dist ∧
    header = [false, true] ++ bitsLSB hlit 5 ++ bitsLSB hdist 5 ++ bitsLSB hclen 4 ++ clHeader cl (hclen + 4) ++ clbits

/-- A header and a body make a block. -/
theorem DynamicHeader.block {strict : Bool} {header : List Bool} {lit dist : List Nat} (h : DynamicHeader strict header lit dist)
    {body : List Bool} {ts : List Token} (hb : Body lit dist body ts) (pos : Nat) : Block strict pos (header ++ body) ts := by
  obtain ⟨hlit, hdist, hclen, cl, clbits, a1, a2, a3, a4, a5, a6, a7, a8, a9, a10, a11, a12, rfl⟩ := h
  exact Block.dynamic hlit hdist hclen cl lit dist a1 a2 a3 a4 a5 a6 a7 a8 a9 a10 a11 a12 hb

/-- Neighbours in a list of positions. -/
def pairs : List Nat → List (Nat × Nat)
  | a :: b :: rest => (a, b) :: pairs (b :: rest)
  | _ => []

end Spec.BlockCost
