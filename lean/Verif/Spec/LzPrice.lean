import Verif.Spec.Rfc1951
/-
The price of a sequence of DEFLATE tokens, when every symbol has a price.

Prices are integers in some unit. `add` is the addition in use, which may round; `bits n` is the
price of `n` extra bits.
-/
namespace Spec.LzPrice
open Spec.Rfc1951

/-- The price of one token. A length and a distance are priced as their symbol plus the extra
bits (RFC 1951 §3.2.5); length 258 is symbol 285. -/
inductive Priced (add : Int → Int → Int) (bits : Nat → Int) (lit dist : List Int) : Token → Int → Prop
  | lit (b : UInt8) {c} : lit[b.toNat]? = some c → Priced add bits lit dist (.lit b) c
  | copy (i e j f : Nat) {lb lx db dx lc dc} :
      lengthTable[i]? = some (lb, lx) → e < 2 ^ lx → (lb + e = 258 → i = 28) →
      distTable[j]? = some (db, dx) → f < 2 ^ dx →
      lit[257 + i]? = some lc → dist[j]? = some dc →
      Priced add bits lit dist (.copy (lb + e) (db + f)) (add (add lc (bits lx)) (add dc (bits dx)))

/-- The price of a sequence, added up from the left, starting at `x`. -/
inductive Total (add : Int → Int → Int) (bits : Nat → Int) (lit dist : List Int) : Int → List Token → Int → Prop
  | nil (x : Int) : Total add bits lit dist x [] x
  | cons {t c x ts y} : Priced add bits lit dist t c → Total add bits lit dist (add x c) ts y →
      Total add bits lit dist x (t :: ts) y

end Spec.LzPrice
