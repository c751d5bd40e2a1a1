import Verif.Props.HuffmanOptimal
import Verif.Props.DeflateTokens
import Verif.Props.Deflate
import Verif.Proof.DynamicSize
/-
C79: dynamic blocks code their tokens with the fewest bits. C80: the shorter of both kinds of blocks is taken.
-/
namespace Pixo.Deflate
open Spec Spec.BlockCost Spec.Prefix
open Spec.Rfc1951 (lengthTable distTable len codeword fixedLit fixedDist Body CodeOK Block)
open Pixo.Lz77 (Token TokOk)

theorem distUses_getD (ts : List Rfc1951.Token) (s : Nat) (hs : s < 30) : (distUses ts).getD s 0 = distCount ts s := by
  unfold distUses
  rw [List.getD_eq_getElem?_getD, List.getElem?_map, List.getElem?_range hs]; rfl

theorem litCounts_getD (ts : List Rfc1951.Token) (s : Nat) (hs : s < 286) : (litCounts ts).getD s 0 = litCount ts s := by
  unfold litCounts
  rw [List.getD_eq_getElem?_getD, List.getElem?_map, List.getElem?_range hs]; rfl

theorem litCount_pos {t : Rfc1951.Token} {ts : List Rfc1951.Token} (h : t ∈ ts) : litCount ts (litSymbol t) ≠ 0 := by
  unfold litCount
  have : litSymbol t ∈ ts.map litSymbol ++ [256] := List.mem_append_left _ (List.mem_map_of_mem h)
  have := List.count_pos_iff.2 this
  omega

theorem distCount_pos {t : Rfc1951.Token} {ts : List Rfc1951.Token} (h : t ∈ ts) {s : Nat} (hs : distSymbol t = some s) :
    distCount ts s ≠ 0 := by
  unfold distCount
  have : some s ∈ ts.map distSymbol := by rw [← hs]; exact List.mem_map_of_mem h
  have := List.count_pos_iff.2 this
  omega

/-- The distances are coded with their counts, unless there are none. -/
theorem distCounts_cases (ts : List Rfc1951.Token) :
    (distCounts ts = distUses ts) ∨ ((∀ t ∈ ts, distSymbol t = none) ∧ ∀ g, totalBits (distUses ts) g = 0) := by
  unfold distCounts
  by_cases h : ts.all (fun t => distSymbol t = none) = true
  · right
    have hz := (count_map_none ts).2 h
    refine ⟨fun t ht => by simpa using List.all_eq_true.1 h t ht, fun g => ?_⟩
    unfold distUses
    rw [totalBits_range]
    have : ∀ r : List Nat, (r.map (fun s => distCount ts s * g s)).sum = 0 := by
      intro r; induction r with
      | nil => rfl
      | cons a r ih => rw [List.map_cons, List.sum_cons, ih, hz a]; simp
    exact this _
  · left
    rw [if_neg h]; rfl

theorem Parts.size {env : Env} {w w' : BitWriter64} {ts : List Token} {final : Bool} (hts : ∀ t ∈ ts, TokOk t)
    (hn : ts.length + 2 < 2 ^ 32) (hp : Parts env w ts final w') :
    ∃ hdr body lit dist lcodes dcodes, Wrote w (final :: (hdr ++ body)) w' ∧ hdr.length ≤ 2285 ∧
      Body lit dist body (ts.map Token.spec) ∧ DynamicHeader true hdr lit dist ∧
      Huffman.buildCodes (env.tie (litCounts (ts.map Token.spec)) 15) (litCounts (ts.map Token.spec)) 15 = .ok lcodes ∧
      Huffman.buildCodes (env.tie (distCounts (ts.map Token.spec)) 15) (distCounts (ts.map Token.spec)) 15 = .ok dcodes ∧
      body.length = totalBits (litCounts (ts.map Token.spec)) (fun s => (lcodes.getD s (0, 0)).2) +
        totalBits (distUses (ts.map Token.spec)) (fun s => (dcodes.getD s (0, 0)).2) + ((ts.map Token.spec).map extraBits).sum := by
  obtain ⟨lf, df, lcodes, dcodes, lr, dr, ta, tb, w7, hdr, body, hc, hl, hd, la, lb, na, nb, h7, hh, r1, r2, e8, h8, hb, hblk⟩ := hp
  rw [countSymbols_eq ts hts hn] at hc
  injection hc with hc
  injection hc with c1 c2
  subst c1 c2
  refine ⟨hdr, body, ta, tb, lcodes, dcodes, h7.trans h8, hh, hb, hblk, hl, hd, ?_⟩
  have fa : len ta = fun s => (lcodes.getD s (0, 0)).2 := funext la
  have fb : len tb = fun s => (dcodes.getD s (0, 0)).2 := funext lb
  have g1 : ∀ t ∈ ts, len ta (litSymbol t.spec) ≠ 0 := by
    intro t ht
    refine na _ ?_
    rw [litCounts_getD _ _ (litSymbol_lt (hts t ht))]
    exact litCount_pos (List.mem_map_of_mem ht)
  have g2 : ∀ t ∈ ts, ∀ s, distSymbol t.spec = some s → len tb s ≠ 0 := by
    intro t ht s hs
    refine nb _ ?_
    rcases distCounts_cases (ts.map Token.spec) with h | ⟨h, _⟩
    · rw [h, distUses_getD _ _ (distSymbol_lt (hts t ht) hs)]
      exact distCount_pos (List.mem_map_of_mem ht) hs
    · rw [h _ (List.mem_map_of_mem ht)] at hs; cases hs
  have g3 : len ta 256 ≠ 0 := by
    refine na _ ?_
    rw [litCounts_getD _ _ (by decide)]
    unfold litCount
    have : 256 ∈ (ts.map Token.spec).map litSymbol ++ [256] := by simp
    have := List.count_pos_iff.2 this
    omega
  obtain ⟨w9, e9, hs⟩ := (writeBody_size r1 r2 g3 ts hts g1 g2 w7 h7.1).out
  rw [e8] at e9
  injection e9 with e9
  subst e9
  rw [h8.2, List.length_append, fa, fb, bodyBits_eq _ _ ts hts] at hs
  omega

end Pixo.Deflate

namespace Pixo.Props
open Spec Spec.BlockCost Spec.Prefix Pixo.Deflate
open Spec.Rfc1951 (lengthTable distTable len codeword fixedLit fixedDist Body CodeOK Block)
open Pixo.Lz77 (Token)

/-! ## C79 -/

/-- What a dynamic block in a stream of bits looks like: the final bit, a header that announces codes, and the tokens in them. -/
def BlockOf (final : Bool) (bits header body : List Bool) (ts : List Rfc1951.Token) : Prop :=
  bits = final :: (header ++ body) ∧ ∃ lit dist, DynamicHeader true header lit dist ∧ Body lit dist body ts

/-- No prefix codes with words of at most `limit` bits would make the body shorter. -/
def MinimalBody (limit : Option Nat) (body : List Bool) (ts : List Rfc1951.Token) : Prop :=
  ∀ c d : Nat → List Bool, PrefixCode (litCounts ts) c → PrefixCode (distUses ts) d →
    (∀ n, limit = some n → (∀ s, Occurs (litCounts ts) s → (c s).length ≤ n) ∧ ∀ s, Occurs (distUses ts) s → (d s).length ≤ n) →
    body.length ≤ bodyBits (fun s => (c s).length) (fun s => (d s).length) ts

/-- **C79**, full statement: of all codes DEFLATE allows, with words of up to 15 bits, dynamic blocks use codes with which
the tokens take the fewest bits. It does not hold, see `C79_fails`. -/
def C79_full : Prop := ∀ (env : Env) (ts : List Token) (out : List UInt8) (header body pad : List Bool),
  (∀ t ∈ ts, Legal t) → ts.length + 2 < 2 ^ 32 → encodeDynamic env ts = .ok out → bytesLSB out = true :: (header ++ body) ++ pad →
  BlockOf true (true :: (header ++ body)) header body (ts.map meaning) → MinimalBody (some 15) body (ts.map meaning)

/-- Blocks in which no code word of a Huffman code can need more than 15 bits. -/
def Moderate (ts : List Rfc1951.Token) : Prop :=
  ts.length ≤ 2582 ∨ occurring (litCounts ts) ≤ 16 ∧ occurring (distUses ts) ≤ 16

theorem distCounts_fine (ts : List Token) (h : ∀ t ∈ ts, Legal t) (hn : ts.length + 2 < 2 ^ 32) :
    (litCounts (ts.map meaning)).length = 286 ∧ (distCounts (ts.map meaning)).length = 30 ∧
    (litCounts (ts.map meaning)).sum = ts.length + 1 ∧ (distCounts (ts.map meaning)).sum ≤ ts.length + 1 := by
  have ht : ∀ t ∈ ts, Lz77.TokOk t := fun t m => tokOk_of (h t m)
  obtain ⟨f, e, hc⟩ := (countSymbols_spec ts ht hn).out
  rw [countSymbols_eq ts ht hn] at e
  injection e with e
  subst e
  rw [meaning_eq]
  exact ⟨hc.lit, hc.dist, hc.sumLit, hc.sumDist⟩

theorem occurring_le (l : List Nat) : occurring l ≤ l.length := List.length_filter_le _ _

/-- **C79**, where it holds: if a block has at most 2582 tokens, or at most 16 symbols of either kind occur, no prefix codes
whatever would make its body shorter. Whatever the number of tokens, the header takes at most 2285 bits. This is for a block at any place of a stream. -/
theorem C79_minimal_partial (env : Env) (w : BitWriter64) (hw : w.Inv) (ts : List Token) (h : ∀ t ∈ ts, Legal t)
    (hn : ts.length + 2 < 2 ^ 32) (final : Bool) :
    ∃ w' bits header body, writeDynamicBlock env w ts final = .ok w' ∧ w'.Inv ∧ w'.bits = w.bits ++ bits ∧
      BlockOf final bits header body (ts.map meaning) ∧ header.length ≤ 2285 ∧
      (Moderate (ts.map meaning) → MinimalBody none body (ts.map meaning)) := by
  have ht : ∀ t ∈ ts, Lz77.TokOk t := fun t m => tokOk_of (h t m)
  obtain ⟨f1, f2, f3, f4⟩ := distCounts_fine ts h hn
  rw [meaning_eq] at f1 f2 f3 f4 ⊢
  obtain ⟨w', e, hp⟩ := (writeDynamicBlock_parts env w hw ts ht hn final).out
  obtain ⟨header, body, lit, dist, lcodes, dcodes, h1, h2, h3, h4, h5, h6, h7⟩ := hp.size ht hn
  refine ⟨w', _, header, body, e, h1.1, h1.2, ⟨rfl, lit, dist, h4, h3⟩, h2, fun hm c d pc pd _ => ?_⟩
  have hl : (ts.map Lz77.Token.spec).length = ts.length := List.length_map ..
  unfold Moderate at hm
  rw [hl] at hm
  have fib18 : fibonacci (15 + 3) = 2584 := by decide +kernel
  have o1 := C67_optimal_partial _ _ 15 lcodes (by decide) (by decide) (by omega)
    (Nat.le_trans (occurring_le _) (by rw [f1]; decide)) (by omega) (by rw [fib18, f3]; omega) h5 c pc
  have o2 : totalBits (distUses (ts.map Lz77.Token.spec)) (fun s => (dcodes.getD s (0, 0)).2) ≤
      totalBits (distUses (ts.map Lz77.Token.spec)) (fun s => (d s).length) := by
    rcases distCounts_cases (ts.map Lz77.Token.spec) with e | ⟨_, e⟩
    · rw [e] at h6 f2 f4
      exact C67_optimal_partial _ _ 15 dcodes (by decide) (by decide) (by omega)
        (Nat.le_trans (occurring_le _) (by rw [f2]; decide)) (by omega) (by rw [fib18]; omega) h6 d pd
    · rw [e, e]; exact Nat.le_refl 0
  rw [h7, bodyBits_eq _ _ ts ht]
  exact Nat.add_le_add_right (Nat.add_le_add o1 o2) _

/-! ### Other blocks with the same tokens -/

theorem row_length {k b x l : Nat} (hk : lengthTable[k]? = some (b, x)) (h1 : b ≤ l) (h2 : l < b + 2 ^ x) (h3 : l ≠ 258) :
    row lengthTable l = k := by
  have hl : k < 29 := (List.getElem?_eq_some_iff.mp hk).1
  have hg : lengthTable.getD k (0, 0) = (b, x) := by rw [List.getD_eq_getElem?_getD, hk]; rfl
  have key : ∀ k : Fin 29, ∀ e : Fin 32, e.val < 2 ^ (lengthTable.getD k.val (0, 0)).2 →
      (lengthTable.getD k.val (0, 0)).1 + e.val ≠ 258 → row lengthTable ((lengthTable.getD k.val (0, 0)).1 + e.val) = k.val := by
    decide +kernel
  have x5 : ∀ k : Fin 29, (lengthTable.getD k.val (0, 0)).2 ≤ 5 := by decide +kernel
  have hx := x5 ⟨k, hl⟩
  rw [hg] at hx
  have : 2 ^ x ≤ 2 ^ 5 := Nat.pow_le_pow_right (by decide) hx
  have := key ⟨k, hl⟩ ⟨l - b, by omega⟩
  rw [hg] at this
  simp only [show b + (l - b) = l by omega] at this
  exact this (by omega) h3

theorem body_length {lit dist : List Nat} {bs : List Bool} {ts : List Rfc1951.Token} (hb : Body lit dist bs ts)
    (h : ∀ l d, .copy l d ∈ ts → l ≠ 258) :
    bs.length = bodyBits (len lit) (len dist) ts ∧ len lit 256 ≠ 0 ∧ (∀ t ∈ ts, len lit (litSymbol t) ≠ 0) ∧
      ∀ t ∈ ts, ∀ s, distSymbol t = some s → len dist s ≠ 0 := by
  induction hb with
  | eob h0 => exact ⟨by rw [codeword_length]; simp [bodyBits], h0, by simp, by simp⟩
  | lit b h0 _ ih =>
    obtain ⟨i1, i2, i3, i4⟩ := ih (fun l d m => h l d (by simp [m]))
    refine ⟨?_, i2, ?_, ?_⟩
    · rw [List.length_append, codeword_length, i1]
      simp only [bodyBits, List.map_cons, List.sum_cons, litSymbol, distBits, distSymbol, extraBits, Option.map_none, Option.getD_none]
      omega
    · intro t ht
      rcases List.mem_cons.1 ht with rfl | ht
      · exact h0
      · exact i3 t ht
    · intro t ht
      rcases List.mem_cons.1 ht with rfl | ht
      · intro s hs; cases hs
      · exact i4 t ht
  | copy i e j f hi he hli hj hf hdj _ ih =>
    rename_i lb lx db dx bs ts _
    obtain ⟨i1, i2, i3, i4⟩ := ih (fun l d m => h l d (by simp [m]))
    have r1 : row lengthTable (lb + e) = i := row_length hi (by omega) (by omega) (h _ _ List.mem_cons_self)
    have r2 : row distTable (db + f) = j := row_dist hj (by omega) (by omega)
    have g1 : (lengthTable.getD i (0, 0)).2 = lx := by rw [List.getD_eq_getElem?_getD, hi]; rfl
    have g2 : (distTable.getD j (0, 0)).2 = dx := by rw [List.getD_eq_getElem?_getD, hj]; rfl
    refine ⟨?_, i2, ?_, ?_⟩
    · simp only [List.length_append, codeword_length, bitsLSB_length, i1]
      simp only [bodyBits, List.map_cons, List.sum_cons, litSymbol, distBits, distSymbol, extraBits, Option.map_some, Option.getD_some,
        r1, r2, g1, g2]
      omega
    · intro t ht
      rcases List.mem_cons.1 ht with rfl | ht
      · simp only [litSymbol, r1]; exact hli
      · exact i3 t ht
    · intro t ht
      rcases List.mem_cons.1 ht with rfl | ht
      · intro s hs
        simp only [distSymbol, r2, Option.some.injEq] at hs
        subst hs; exact hdj
      · exact i4 t ht

/-- Codes in which all symbols of the tokens have words are prefix codes for them. -/
theorem prefix_of {lit dist : List Nat} (hl : CodeOK lit) (hd : CodeOK dist) {ts : List Rfc1951.Token} (h0 : len lit 256 ≠ 0)
    (h1 : ∀ t ∈ ts, len lit (litSymbol t) ≠ 0) (h2 : ∀ t ∈ ts, ∀ s, distSymbol t = some s → len dist s ≠ 0) :
    PrefixCode (litCounts ts) (codeword lit) ∧ PrefixCode (distUses ts) (codeword dist) := by
  have ne : ∀ {lens : List Nat} {s : Nat}, len lens s ≠ 0 → codeword lens s ≠ [] := by
    intro lens s h e
    apply h
    rw [← codeword_length, e]; rfl
  have o1 : ∀ s, Occurs (litCounts ts) s → len lit s ≠ 0 := by
    intro s hs
    unfold Occurs litCounts at hs
    rw [List.getD_eq_getElem?_getD, List.getElem?_map] at hs
    by_cases hr : s < 286
    · rw [List.getElem?_range hr] at hs
      have hs : litCount ts s ≠ 0 := hs
      have : s ∈ ts.map litSymbol ++ [256] := List.count_pos_iff.1 (Nat.pos_of_ne_zero hs)
      rcases List.mem_append.1 this with m | m
      · obtain ⟨t, ht, rfl⟩ := List.mem_map.1 m
        exact h1 t ht
      · rw [List.mem_singleton.1 m]; exact h0
    · rw [List.getElem?_eq_none (by simp; omega)] at hs
      exact absurd rfl hs
  have o2 : ∀ s, Occurs (distUses ts) s → len dist s ≠ 0 := by
    intro s hs
    unfold Occurs distUses at hs
    rw [List.getD_eq_getElem?_getD, List.getElem?_map] at hs
    by_cases hr : s < 30
    · rw [List.getElem?_range hr] at hs
      have hs : distCount ts s ≠ 0 := hs
      have : some s ∈ ts.map distSymbol := List.count_pos_iff.1 (Nat.pos_of_ne_zero hs)
      obtain ⟨t, ht, e⟩ := List.mem_map.1 this
      exact h2 t ht s e
    · rw [List.getElem?_eq_none (by simp; omega)] at hs
      exact absurd rfl hs
  exact ⟨⟨fun s hs => ne (o1 s hs), fun s t hs ht hp => codeword_prefix_free hl (o1 s hs) (o1 t ht) hp⟩,
    ⟨fun s hs => ne (o2 s hs), fun s t hs ht hp => codeword_prefix_free hd (o2 s hs) (o2 t ht) hp⟩⟩

/-- A minimal body is not longer than that of any other block with the same tokens, with fixed or dynamic codes. (A length of 258 has a
symbol of its own; to say it as 227 + 31 with symbol 284 is not in the table of RFC 1951, but decoders take it.) -/
theorem MinimalBody.le {body : List Bool} {ts : List Rfc1951.Token} (h : MinimalBody none body ts) (h258 : ∀ l d, .copy l d ∈ ts → l ≠ 258)
    {lit dist : List Nat} (hl : CodeOK lit) (hd : CodeOK dist) {other : List Bool} (ho : Body lit dist other ts) :
    body.length ≤ other.length := by
  obtain ⟨h0, h1, h2, h3⟩ := body_length ho h258
  obtain ⟨p1, p2⟩ := prefix_of hl hd h1 h2 h3
  have := h _ _ p1 p2 (fun n e => nomatch e)
  rw [h0]
  simpa only [codeword_length] using this

/-! ### A block for which there is a better code -/

/-- `Fibonacci` counts: byte `k` occurs as often as the number at place `k` says. -/
def steepBytes : List Nat := [1, 1, 2, 3, 5, 8, 13, 21, 34, 55, 89, 144, 233, 377, 610, 987]

/-- 2583 literals. -/
def steepTokens : List Token := (List.range 16).flatMap (fun k => List.replicate (steepBytes.getD k 0) (.lit (UInt8.ofNat k)))

def steepLit : List Nat := steepBytes ++ List.replicate 240 0 ++ [1] ++ List.replicate 29 0

theorem steep_symbols : (steepTokens.map meaning).map litSymbol =
    (List.range 16).flatMap (fun k => List.replicate (steepBytes.getD k 0) (UInt8.ofNat k).toNat) := by
  unfold steepTokens
  rw [List.map_flatMap, List.map_flatMap]
  simp only [List.map_replicate]
  rfl

theorem steep_counts : litCounts (steepTokens.map meaning) = steepLit := by
  unfold litCounts litCount
  rw [steep_symbols]
  simp only [List.count_append, List.count_flatMap, Function.comp_def, List.count_replicate]
  decide +kernel

theorem steep_len : steepTokens.length = 2583 := by
  unfold steepTokens
  simp only [List.length_flatMap, List.length_replicate]
  decide +kernel

theorem steep_lits : ∀ t ∈ steepTokens, ∃ b, t = .lit b := by
  intro t ht
  obtain ⟨k, _, h⟩ := List.mem_flatMap.1 ht
  exact ⟨_, (List.mem_replicate.1 h).2⟩

theorem steep_dist : distUses (steepTokens.map meaning) = List.replicate 30 0 := by
  have h : ∀ s, distCount (steepTokens.map meaning) s = 0 := by
    rw [count_map_none, List.all_eq_true]
    intro t ht
    obtain ⟨u, hu, rfl⟩ := List.mem_map.1 ht
    obtain ⟨b, rfl⟩ := steep_lits u hu
    rfl
  unfold distUses
  rw [show distCount (steepTokens.map meaning) = fun _ => 0 from funext h]
  decide

theorem map_inj {α β : Type} {f : α → β} {a : α} {b : β} (h : (Except.ok a : R α).map f = .ok b) : f a = b := by
  injection h

/-- Better lengths: those of a Huffman code, with 15 bits for the four rarest symbols. -/
def betterLit : List Nat := [15, 15, 15, 13, 12, 11, 10, 9, 8, 7, 6, 5, 4, 3, 2, 1] ++ List.replicate 240 0 ++ [15]

theorem better_ok : CodeOK betterLit := by
  refine ⟨?_, ?_⟩ <;> decide +kernel

/-- **C79 fails** where lengths are limited: these 2583 literals take 7355 bits with the codes of `build_codes`, and 6762 with a code DEFLATE allows. -/
theorem C79_fails : (∃ out header body pad, encodeDynamic plainEnv steepTokens = .ok out ∧ bytesLSB out = true :: (header ++ body) ++ pad ∧
      BlockOf true (true :: (header ++ body)) header body (steepTokens.map meaning) ∧ body.length = 7355) ∧
    bodyBits (len betterLit) (fun _ => 0) (steepTokens.map meaning) = 6762 ∧ ¬ C79_full := by
  have hleg : ∀ t ∈ steepTokens, Legal t := by
    intro t ht
    obtain ⟨b, rfl⟩ := steep_lits t ht
    trivial
  have ht : ∀ t ∈ steepTokens, Lz77.TokOk t := fun t m => tokOk_of (hleg t m)
  have hn : steepTokens.length + 2 < 2 ^ 32 := by rw [steep_len]; decide
  have hx : ((steepTokens.map Lz77.Token.spec).map extraBits).sum = 0 := by
    have : ∀ l : List Token, (∀ t ∈ l, ∃ b, t = .lit b) → ((l.map Lz77.Token.spec).map extraBits).sum = 0 := by
      intro l hl
      induction l with
      | nil => rfl
      | cons t l ih =>
        obtain ⟨b, rfl⟩ := hl t (by simp)
        rw [List.map_cons, List.map_cons, List.sum_cons, ih (fun t m => hl t (by simp [m]))]; rfl
    exact this _ steep_lits
  have hd0 : ∀ g, totalBits (distUses (steepTokens.map Lz77.Token.spec)) g = 0 := by
    intro g
    rw [← meaning_eq, steep_dist]
    unfold totalBits
    have : ∀ r : List Nat, (r.map (fun s => (List.replicate 30 0).getD s 0 * g s)).sum = 0 := by
      intro r
      induction r with
      | nil => rfl
      | cons a r ih =>
        rw [List.map_cons, List.sum_cons, ih, List.getD_eq_getElem?_getD, List.getElem?_replicate]
        split <;> simp
    exact this _
  have hc := steep_counts
  rw [meaning_eq] at hc
  have eb : bodyBits (len betterLit) (fun _ => 0) (steepTokens.map meaning) = 6762 := by
    rw [meaning_eq, bodyBits_eq _ _ _ ht, hc, hd0, hx]
    decide +kernel
  have w1 : ∃ out header body pad, encodeDynamic plainEnv steepTokens = .ok out ∧ bytesLSB out = true :: (header ++ body) ++ pad ∧
      BlockOf true (true :: (header ++ body)) header body (steepTokens.map meaning) ∧ body.length = 7355 := by
    obtain ⟨w', e, hp⟩ := (writeDynamicBlock_parts plainEnv {} BitWriter64.inv_new steepTokens ht hn true).out
    obtain ⟨header, body, lit, dist, lcodes, dcodes, h1, h2, h3, h4, h5, h6, h7⟩ := hp.size ht hn
    refine ⟨w'.finish, header, body, zeroPad w'.bits.length, ?_, ?_, ⟨rfl, lit, dist, h4, by rw [meaning_eq]; exact h3⟩, ?_⟩
    · unfold encodeDynamic
      rw [e, ok_bind]; rfl
    · rw [w'.finish_spec h1.1, h1.2, BitWriter64.bits_new, List.nil_append]
    · rw [hc] at h5 h7
      have k : (Huffman.buildCodes (plainEnv.tie steepLit 15) steepLit 15).map (fun c => totalBits steepLit (fun s => (c.getD s (0, 0)).2)) =
          .ok 7355 := by decide +kernel
      rw [h5] at k
      have k := map_inj k
      rw [h7, hd0, hx, k]
  refine ⟨w1, eb, fun hf => ?_⟩
  obtain ⟨out, header, body, pad, e1, e2, e3, e4⟩ := w1
  have hz : ∀ s, ¬ Occurs (distUses (steepTokens.map meaning)) s := by
    intro s hs
    rw [steep_dist] at hs
    apply hs
    rw [List.getD_eq_getElem?_getD, List.getElem?_replicate]
    split <;> rfl
  have hb := prefix_of (lit := betterLit) (dist := []) (ts := steepTokens.map meaning) better_ok ⟨by simp, by decide⟩ (by decide +kernel) (by
    intro t m
    obtain ⟨u, hu, rfl⟩ := List.mem_map.1 m
    obtain ⟨k, hk, hu⟩ := List.mem_flatMap.1 hu
    have := (List.mem_replicate.1 hu).2
    subst this
    have key : ∀ k : Fin 16, len betterLit (UInt8.ofNat k.val).toNat ≠ 0 := by decide +kernel
    exact key ⟨k, List.mem_range.1 hk⟩) (by
    intro t m s hs
    obtain ⟨u, hu, rfl⟩ := List.mem_map.1 m
    obtain ⟨b, rfl⟩ := steep_lits u hu
    cases hs)
  have := hf plainEnv steepTokens out header body pad hleg hn e1 e2 e3 (codeword betterLit) (fun _ => []) hb.1
    ⟨fun s hs => absurd hs (hz s), fun s _ hs => absurd hs (hz s)⟩ (by
      intro n en
      injection en with en
      subst en
      refine ⟨fun s _ => ?_, fun s hs => absurd hs (hz s)⟩
      rw [codeword_length]
      exact len_le_of_all better_ok.1 s)
  simp only [codeword_length, List.length_nil] at this
  rw [e4, eb] at this
  omega

/-- Three tokens in a block of their own: the theorem says that 11 bits is the least for them, with one bit for each distance and
two or less for each other symbol. -/
def threeTokens : List Token := [.lit 7, .mtch 3 1, .mtch 3 1]

example : (∀ t ∈ threeTokens, Legal t) ∧ threeTokens.length + 2 < 2 ^ 32 ∧ Moderate (threeTokens.map meaning) ∧
    litCounts (threeTokens.map meaning) = List.replicate 7 0 ++ [1] ++ List.replicate 248 0 ++ [1, 2] ++ List.replicate 28 0 ∧
    distUses (threeTokens.map meaning) = 2 :: List.replicate 29 0 := by
  refine ⟨by decide, by decide, .inl (by decide), by decide +kernel, by decide +kernel⟩

/-! ## C80 -/

/-- **C80**, full statement: the shorter of both encodings is returned. It does not hold, see `C80_fails`. -/
def C80_full : Prop := ∀ (env : Env) (ts : List Token) (out fixed dynamic : List UInt8), (∀ t ∈ ts, Legal t) →
  encodeBest env ts = .ok out → encodeFixed ts = .ok fixed → encodeDynamic env ts = .ok dynamic →
  out.length ≤ fixed.length ∧ out.length ≤ dynamic.length

theorem encodeFixed_size (ts : List Token) (h : ∀ t ∈ ts, Legal t) :
    ∃ out, encodeFixed ts = .ok out ∧ out.length = (3 + bodyBits (len fixedLit) (len fixedDist) (ts.map meaning) + 7) / 8 := by
  have ht : ∀ t ∈ ts, Lz77.TokOk t := fun t m => tokOk_of (h t m)
  have : Oks (encodeFixed ts) (fun out => out.length = (3 + bodyBits (len fixedLit) (len fixedDist) (ts.map meaning) + 7) / 8) := by
    unfold encodeFixed
    refine Oks.bind fixedLitRev_spec fun lit hl => ?_
    refine Oks.bind fixedDistRev_spec fun dist hd => ?_
    refine Oks.bind (write_spec BitWriter64.inv_new 1 1 (by decide)) fun w1 h1 => ?_
    refine Oks.bind (write_spec h1.1 1 2 (by decide)) fun w2 h2 => ?_
    have l1 : ∀ t ∈ ts, len fixedLit (litSymbol t.spec) ≠ 0 := fun t m => fixedLit_ne ⟨litSymbol t.spec, Nat.lt_trans (litSymbol_lt (ht t m)) (by decide)⟩
    have l2 : ∀ t ∈ ts, ∀ s, distSymbol t.spec = some s → len fixedDist s ≠ 0 :=
      fun t m s e => fixedDist_ne ⟨s, by have := distSymbol_lt (ht t m) e; omega⟩
    obtain ⟨w3, e3, bits, h3, _⟩ := (writeBody_spec hl hd (fixedLit_ne 256) ts (fun t m => coded_fixed (ht t m)) w2 h2.1).out
    obtain ⟨w4, e4, hs⟩ := (writeBody_size hl hd (fixedLit_ne 256) ts ht l1 l2 w2 h2.1).out
    rw [e3] at e4
    injection e4 with e4
    subst e4
    rw [e3, ok_bind]
    refine .pure ?_
    have hb : w2.bits.length = 3 := by
      rw [h2.2, h1.2, BitWriter64.bits_new, List.nil_append, List.length_append, bitsLSB_length, bitsLSB_length]
    have := congrArg List.length (w3.finish_spec h3.1)
    rw [bytesLSB_length, List.length_append, hs, hb] at this
    simp only [zeroPad, List.length_replicate] at this
    rw [meaning_eq]
    generalize bodyBits (len fixedLit) (len fixedDist) (ts.map Lz77.Token.spec) = B at *
    omega
  exact this.out

/-- **C80**, what is returned: fixed codes for up to 128 tokens, dynamic codes from there on; nothing is compared. -/
theorem C80_choice_partial (env : Env) (ts : List Token) :
    encodeBest env ts = if ts.length ≤ 128 then encodeFixed ts else encodeDynamic env ts := by
  unfold encodeBest
  by_cases h : ts.length ≤ 128
  · rw [if_pos h, if_pos h]
  · rw [if_neg h, if_neg h, if_pos (show ts.length ≥ 128 by omega)]

/-- **C80**, what holds: in moderate blocks at most 286 bytes are lost against fixed codes. -/
theorem C80_bound_partial (env : Env) (ts : List Token) (h : ∀ t ∈ ts, Legal t) (hm : Moderate (ts.map meaning))
    (hn : ts.length + 2 < 2 ^ 32) : ∃ out fixed, encodeBest env ts = .ok out ∧ encodeFixed ts = .ok fixed ∧ out.length ≤ fixed.length + 286 := by
  have ht : ∀ t ∈ ts, Lz77.TokOk t := fun t m => tokOk_of (h t m)
  obtain ⟨fixed, ef, hf⟩ := encodeFixed_size ts h
  rw [C80_choice_partial]
  split
  · exact ⟨fixed, fixed, ef, ef, by omega⟩
  · obtain ⟨w', bits, header, body, e, hw, hb, ⟨hbits, _⟩, hh, hmin⟩ := C79_minimal_partial env {} BitWriter64.inv_new ts h hn true
    refine ⟨w'.finish, fixed, by unfold encodeDynamic; rw [e, ok_bind]; rfl, ef, ?_⟩
    obtain ⟨p1, p2⟩ := prefix_of (ts := ts.map meaning) Inflate.fixedLit_ok Inflate.fixedDist_ok (fixedLit_ne 256) (by
      intro t m
      obtain ⟨u, hu, rfl⟩ := List.mem_map.1 m
      rw [meaning_eq]
      exact fixedLit_ne ⟨litSymbol u.spec, Nat.lt_trans (litSymbol_lt (ht u hu)) (by decide)⟩) (by
      intro t m s hs
      obtain ⟨u, hu, rfl⟩ := List.mem_map.1 m
      rw [meaning_eq] at hs
      exact fixedDist_ne ⟨s, by have := distSymbol_lt (ht u hu) hs; omega⟩)
    have hle := hmin hm _ _ p1 p2 (fun n e => nomatch e)
    simp only [codeword_length] at hle
    have := congrArg List.length (w'.finish_spec hw)
    rw [bytesLSB_length, List.length_append, hb, BitWriter64.bits_new, List.nil_append, hbits, List.length_cons, List.length_append] at this
    simp only [zeroPad, List.length_replicate] at this
    rw [hf]
    change body.length ≤ bodyBits (len fixedLit) (len fixedDist) (ts.map meaning) at hle
    generalize bodyBits (len fixedLit) (len fixedDist) (ts.map meaning) = B at *
    omega

/-- 129 literals of 44 kinds. -/
def spread : List Token := (List.range 129).map (fun i => .lit (UInt8.ofNat (i % 51 * (i % 51 + 1) / 2 % 144)))

theorem few_worse : (encodeBest plainEnv (List.replicate 20 (.lit 200))).map List.length = .ok 24 ∧
    (encodeDynamic plainEnv (List.replicate 20 (.lit 200))).map List.length = .ok 16 := by decide +kernel

theorem many_worse : (encodeDynamic plainEnv spread).map List.length = .ok 132 := by decide +kernel

theorem many_fixed : (encodeFixed spread).map List.length = .ok 131 := by decide +kernel

/-- **C80 fails** in both ways: twenty equal literals take 24 bytes instead of 16; 129 literals of 44 kinds take 132 instead of 131. -/
theorem C80_fails :
    ((encodeBest plainEnv (List.replicate 20 (.lit 200))).map List.length = .ok 24 ∧
      (encodeDynamic plainEnv (List.replicate 20 (.lit 200))).map List.length = .ok 16) ∧
    ((encodeBest plainEnv spread).map List.length = .ok 132 ∧ (encodeFixed spread).map List.length = .ok 131) ∧ ¬ C80_full := by
  have h1 := few_worse
  have h2 : encodeBest plainEnv spread = encodeDynamic plainEnv spread := by
    rw [C80_choice_partial, if_neg (by rw [spread, List.length_map, List.length_range]; decide)]
  rw [h2]
  refine ⟨h1, ⟨many_worse, many_fixed⟩, fun hf => ?_⟩
  have hl : ∀ t ∈ List.replicate 20 (Token.lit 200), Legal t := by decide
  obtain ⟨fixed, ef, _⟩ := encodeFixed_size _ hl
  obtain ⟨e1, e2⟩ := h1
  cases ha : encodeBest plainEnv (List.replicate 20 (.lit 200)) with
  | error e => rw [ha] at e1; cases e1
  | ok out =>
    cases hb : encodeDynamic plainEnv (List.replicate 20 (.lit 200)) with
    | error e => rw [hb] at e2; cases e2
    | ok dyn =>
      rw [ha] at e1
      rw [hb] at e2
      have e1 := map_inj e1
      have e2 := map_inj e2
      have := (hf plainEnv _ out fixed dyn hl ha ef hb).2
      omega

end Pixo.Props
