import Verif.Spec.Png
/-
What a PNG reader is given that looks at the chunks it needs and at nothing else; and the rules of RFC 2083 that
such a reader does not check.
-/
namespace Spec.Png

/-- `data` is the signature, the chunks `cs`, an IEND chunk with data `fin`, and anything. Lengths are those four
bytes can say. -/
structure Framed (data : List UInt8) (cs : List Chunk) (fin tail : List UInt8) : Prop where
  bytes : data = signature ++ stream (cs ++ [⟨IEND, fin⟩]) ++ tail
  types : ∀ c ∈ cs, c.ty.length = 4 ∧ c.ty ≠ IEND
  sizes : ∀ c ∈ cs, c.data.length < 2 ^ 32
  last : fin.length < 2 ^ 32

/-- A zlib stream whose window size is not looked at, with compressed data related to `data` by `deflated`. -/
def LooseZlib (sum : List UInt8 → Nat) (deflated : List UInt8 → List UInt8 → Prop) (bytes data : List UInt8) : Prop :=
  ∃ (cmf flg : UInt8) (body trailer : List UInt8), bytes = [cmf, flg] ++ body ++ trailer ∧
    cmf.toNat % 16 = 8 ∧ (256 * cmf.toNat + flg.toNat) % 31 = 0 ∧ flg.toNat / 32 % 2 = 0 ∧ deflated body data ∧
    trailer.length = 4 ∧ Rfc1950.ofBytesBE trailer = sum data

/-- Chunks in any order, of which the last IHDR, the last PLTE, the last tRNS and all IDAT count. Other IHDR chunks
only need the right length and a colour type that exists, other PLTE chunks a length divisible by three. -/
structure Lenient (sum : List UInt8 → Nat) (deflated : List UInt8 → List UInt8 → Prop) (h : Header)
    (plte trns : Option (List UInt8)) (rows : List (List UInt8)) (cs : List Chunk) : Prop where
  header : h.Ok
  limit : h.width ≤ 2 ^ 24 ∧ h.height ≤ 2 ^ 24
  ihdrs : ∀ d ∈ dataOf IHDR cs, d.length = 13 ∧ byteAt d 9 ∈ [0, 2, 3, 4, 6]
  useIhdr : (dataOf IHDR cs).getLast? = some h.bytes
  pltes : ∀ d ∈ dataOf PLTE cs, d.length % 3 = 0
  usePlte : (dataOf PLTE cs).getLast? = plte
  useTrns : (dataOf tRNS cs).getLast? = trns
  needed : h.colour = 3 → plte ≠ none
  lines : rows.length = h.height
  idat : ∃ scan, LooseZlib sum deflated (dataOf IDAT cs).flatten scan ∧
    Scanlines h.bpp h.rowBytes (List.replicate h.rowBytes 0) rows scan

/-- The channels of the decoded image: a palette gives RGB, or RGBA if some entry of tRNS is not opaque. -/
def channels (h : Header) (trns : List UInt8) : Nat :=
  if h.colour = 3 then (if trns.any (· ≠ 255) then 4 else 3) else samples h.colour

/-- The image shows the scanlines. Indices without a palette entry are opaque black; transparency entries beyond the
palette, and transparent colours, do not count. -/
structure Picture (h : Header) (plte trns : List UInt8) (rows : List (List UInt8)) (width height ch : Nat)
    (pixels : List UInt8) : Prop where
  wide : width = h.width
  high : height = h.height
  planes : ch = channels h trns
  length : pixels.length = width * height * ch
  colour : ∀ y x (hy : y < rows.length), x < h.width →
    pixelOf ch pixels (y * h.width + x) = pixelAt h plte (trns.take (plte.length / 3)) rows[y] x

/-- Critical chunks: bit 5 of the first letter is clear (RFC 2083 §3.3). -/
def critical (c : Chunk) : Bool := byteAt c.ty 0 / 32 % 2 = 0

/-- The rules for the chunks between IHDR and IEND: critical chunks are known ones (RFC 2083 §3.3); the IDAT chunks
are consecutive (§4.1.3), PLTE and tRNS come before them, tRNS after PLTE (§4.3); a palette has 1 to 256 entries, not
more than the depth can index, and no grayscale image has one (§4.1.2). -/
structure Orderly (h : Header) (cs : List Chunk) : Prop where
  known : ∀ c ∈ cs, critical c = true → c.ty = PLTE ∨ c.ty = IDAT
  order : ∃ a b c, cs = a ++ b ++ c ∧ (∀ x ∈ b, x.ty = IDAT) ∧ (∀ x ∈ a, x.ty ≠ IDAT) ∧
    (∀ x ∈ c, x.ty ≠ IDAT ∧ x.ty ≠ PLTE ∧ x.ty ≠ tRNS) ∧
    ∀ a₁ x a₂, a = a₁ ++ x :: a₂ → x.ty = tRNS → ∀ y ∈ a₂, y.ty ≠ PLTE
  entries : ∀ d ∈ dataOf PLTE cs, 3 ≤ d.length ∧ d.length ≤ 768 ∧ (h.colour = 3 → d.length ≤ 3 * 2 ^ h.depth) ∧
    h.colour ≠ 0 ∧ h.colour ≠ 4

/-- A file as `File` describes it that also keeps those rules and has no index beyond the palette (§4.1.2). -/
def Proper (sum : List UInt8 → Nat) (h : Header) (plte trns : Option (List UInt8)) (rows : List (List UInt8))
    (bytes : List UInt8) : Prop :=
  File sum h plte trns rows bytes ∧
  (∃ cs, bytes = signature ++ stream (⟨IHDR, h.bytes⟩ :: cs ++ [⟨IEND, []⟩]) ∧
    (∀ c ∈ cs, c.Ok ∧ c.ty ≠ IHDR ∧ c.ty ≠ IEND) ∧ Orderly h cs) ∧
  (h.colour = 3 → ∀ row ∈ rows, ∀ x, x < h.width → 3 * sampleAt h.depth row x < (plte.getD []).length)

end Spec.Png
