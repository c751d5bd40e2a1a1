import Verif.Model.Cli
import Verif.Spec.Pnm
import Verif.Proof.Safe
/-
Reading tokens of a PNM header.
-/
namespace Pixo.Cli
open Spec.Pnm

theorem space_ws {b : UInt8} (h : IsSpace b) : isAsciiWhitespace b = true := by
  rcases h with rfl | rfl | rfl | rfl <;> decide

theorem digit_not_ws {b : UInt8} (h : IsDigit b) : isAsciiWhitespace b = false ∧ b ≠ 35 := by
  obtain ⟨h1, h2⟩ := h
  have key : ∀ c : UInt8, c.toNat < 48 → b ≠ c := fun c hc e => by subst e; omega
  have hb : ∀ c : UInt8, c.toNat < 48 → (b == c) = false := fun c hc => by simpa using key c hc
  refine ⟨?_, key _ (by decide)⟩
  unfold isAsciiWhitespace
  rw [hb _ (by decide), hb _ (by decide), hb _ (by decide), hb _ (by decide), hb _ (by decide)]
  rfl

/-- A comment is skipped. -/
theorem readLoop_comment {inner : List UInt8} (hi : ∀ b ∈ inner, b ≠ 10) (token rest : List UInt8) :
    readLoop true token (inner ++ 10 :: rest) = readLoop false token rest := by
  induction inner with
  | nil => simp [readLoop]
  | cons b l ih =>
    have hb : b ≠ 10 := hi b (by simp)
    have : (b != 10) = true := by simpa using hb
    rw [List.cons_append, readLoop, if_pos rfl, this]
    exact ih (fun c hc => hi c (by simp [hc]))

/-- Comments between bytes of a token are skipped; the token ends at the delimiter. -/
theorem readLoop_token {l t : List UInt8} (h : Strips unix l t) (ht : ∀ b ∈ t, isAsciiWhitespace b = false)
    (token : List UInt8) (hne : token ++ t ≠ []) {w : UInt8} (hw : isAsciiWhitespace w = true) (rest : List UInt8) :
    readLoop false token (l ++ w :: rest) = (token ++ t, rest) := by
  have hw35 : (w == 35) = false := by
    simp only [beq_eq_false_iff_ne, ne_eq]
    rintro rfl
    exact absurd hw (by decide)
  induction h generalizing token with
  | nil =>
    rw [List.append_nil] at hne ⊢
    rw [List.nil_append, readLoop, if_neg (by decide), hw35, if_neg (by decide), if_pos hw, if_pos hne]
  | @byte b l t hb r ih =>
    have hb' : (b == 35) = false := by simpa using hb
    rw [List.cons_append, readLoop, if_neg (by decide), hb', if_neg (by decide),
      if_neg (by rw [ht b (by simp)]; decide), ih (fun c hc => ht c (by simp [hc])) _ (by simp)]
    simp
  | @comment inner e l t hi he r ih =>
    obtain rfl : e = 10 := he
    rw [List.cons_append, readLoop, if_neg (by decide), if_pos (by decide), List.append_assoc,
      List.cons_append, readLoop_comment hi]
    exact ih ht token hne

/-- White space before a token is skipped. -/
theorem readLoop_white {l ws t : List UInt8} (h : Strips unix l (ws ++ t)) (hs : ∀ b ∈ ws, isAsciiWhitespace b = true)
    (ht : ∀ b ∈ t, isAsciiWhitespace b = false) (hne : t ≠ []) {w : UInt8} (hw : isAsciiWhitespace w = true)
    (rest : List UInt8) : readToken (l ++ w :: rest) = (t, rest) := by
  unfold readToken
  generalize hu : ws ++ t = u at h
  induction h generalizing ws with
  | nil => exact absurd (List.append_eq_nil_iff.mp hu).2 hne
  | @byte b l u hb r ih =>
    cases ws with
    | nil =>
      rw [List.nil_append] at hu
      have := readLoop_token (Strips.byte hb r) (by rw [← hu]; exact ht) [] (by simp) hw rest
      rw [this, ← hu, List.nil_append]
    | cons c ws =>
      simp only [List.cons_append, List.cons.injEq] at hu
      obtain ⟨rfl, hu⟩ := hu
      have hb' : (c == 35) = false := by simpa using hb
      rw [List.cons_append, readLoop, if_neg (by decide), hb', if_neg (by decide),
        if_pos (hs c (by simp)), if_neg (by simp)]
      exact ih (fun d hd => hs d (by simp [hd])) hu
  | @comment inner e l u hi he r ih =>
    obtain rfl : e = 10 := he
    rw [List.cons_append, readLoop, if_neg (by decide), if_pos (by decide), List.append_assoc,
      List.cons_append, readLoop_comment hi]
    exact ih hs hu

/-- Where the stripped text is cut at a byte, so is the text. -/
theorem strips_split {c : Comments} {l a t : List UInt8} {w : UInt8} (h : Strips c l (a ++ w :: t)) :
    ∃ l1 l2, l = l1 ++ w :: l2 ∧ Strips c l1 a ∧ Strips c l2 t := by
  generalize hu : a ++ w :: t = u at h
  induction h generalizing a with
  | nil => simp at hu
  | @byte b l u hb r ih =>
    cases a with
    | nil =>
      simp only [List.nil_append, List.cons.injEq] at hu
      obtain ⟨rfl, rfl⟩ := hu
      exact ⟨[], l, rfl, .nil, r⟩
    | cons d a =>
      simp only [List.cons_append, List.cons.injEq] at hu
      obtain ⟨rfl, hu⟩ := hu
      obtain ⟨l1, l2, e, h1, h2⟩ := ih hu
      exact ⟨d :: l1, l2, by rw [e]; rfl, .byte hb h1, h2⟩
  | @comment inner e l u hi he r ih =>
    obtain ⟨l1, l2, e', h1, h2⟩ := ih hu
    exact ⟨35 :: (inner ++ e :: l1), l2, by rw [e']; simp, .comment hi he h1, h2⟩

theorem value_acc (l : List UInt8) (hd : ∀ b ∈ l, IsDigit b) (acc : Nat)
    (h : acc * 10 ^ l.length + value l < 2 ^ 32) : parseDigits acc l = some (acc * 10 ^ l.length + value l) := by
  induction l generalizing acc with
  | nil => simp [parseDigits, value]
  | cons b l ih =>
    obtain ⟨h1, h2⟩ := hd b (by simp)
    have hp : 0 < 10 ^ l.length := Nat.pow_pos (by decide)
    have hb : 48 ≤ b ∧ b ≤ 57 := ⟨by simpa [UInt8.le_iff_toNat_le] using h1, by simpa [UInt8.le_iff_toNat_le] using h2⟩
    simp only [value, List.length_cons, Nat.pow_succ] at h ⊢
    have e : acc * (10 ^ l.length * 10) + ((b.toNat - 48) * 10 ^ l.length + value l) =
        (acc * 10 + (b.toNat - 48)) * 10 ^ l.length + value l := by
      rw [Nat.add_mul, Nat.mul_assoc acc, Nat.mul_comm 10 (10 ^ _)]; omega
    rw [e] at h ⊢
    have hlt : acc * 10 + (b.toNat - 48) < 2 ^ 32 := by
      have := Nat.le_mul_of_pos_right (acc * 10 + (b.toNat - 48)) hp
      omega
    rw [parseDigits, if_pos hb]
    simp only []
    rw [if_pos hlt]
    exact ih (fun c hc => hd c (by simp [hc])) _ h

theorem parseU32_decimal {l : List UInt8} {n : Nat} (h : Decimal l n) (hn : n < 2 ^ 32) : parseU32 l = .ok n := by
  obtain ⟨hne, hd, hv⟩ := h
  cases l with
  | nil => exact absurd rfl hne
  | cons b l =>
    have hb : b ≠ 0x2B := fun e => by
      have := (hd b (by simp)).1
      rw [e] at this
      exact absurd this (by decide)
    have hm : skipPlus (b :: l) = b :: l := by
      rw [skipPlus, if_neg (by simpa using hb)]
    have hp := value_acc (b :: l) hd 0 (by omega)
    rw [Nat.zero_mul, Nat.zero_add, hv] at hp
    unfold parseU32
    rw [hm, if_neg (by simp), hp]

end Pixo.Cli

namespace Pixo.Cli
open Spec.Pnm

theorem readLoop_prefix (ic : Bool) (token data : List UInt8) : ∃ t, (readLoop ic token data).1 = token ++ t := by
  induction data generalizing ic token with
  | nil => exact ⟨[], by simp [readLoop]⟩
  | cons b l ih =>
    unfold readLoop
    split
    · exact ih _ _
    · split
      · exact ih _ _
      · split
        · split
          · exact ⟨[], by simp⟩
          · exact ih _ _
        · obtain ⟨t, e⟩ := ih false (token ++ [b])
          exact ⟨b :: t, by rw [e]; simp⟩

theorem readLoop_suffix (ic : Bool) (token data : List UInt8) : (readLoop ic token data).2 <:+ data := by
  induction data generalizing ic token with
  | nil => simp [readLoop]
  | cons b l ih =>
    unfold readLoop
    split
    · exact (ih _ _).trans (List.suffix_cons _ _)
    · split
      · exact (ih _ _).trans (List.suffix_cons _ _)
      · split
        · split
          · exact List.suffix_cons _ _
          · exact (ih _ _).trans (List.suffix_cons _ _)
        · exact (ih _ _).trans (List.suffix_cons _ _)

/-- The four tokens of a header. -/
theorem header_tokens {kind : Kind} {w h m : Nat} {text raster file : List UInt8}
    (hf : WellFormed unix kind w h m text raster file) :
    ∃ r1 r2 r3 d1 d2 d3 more, readToken file = (kind.magic, r1) ∧ readToken r1 = (d1, r2) ∧
      readToken r2 = (d2, r3) ∧ readToken r3 = (d3, raster ++ more) ∧ Decimal d1 w ∧ Decimal d2 h ∧ Decimal d3 m := by
  obtain ⟨t, del, more, w1, d1, w2, d2, w3, d3, e, hdel, hs, ht, hw1, hd1, hw2, hd2, hw3, hd3⟩ := hf.parts
  obtain ⟨a1, w1, rfl⟩ := List.exists_cons_of_ne_nil hw1.1
  obtain ⟨a2, w2, rfl⟩ := List.exists_cons_of_ne_nil hw2.1
  obtain ⟨a3, w3, rfl⟩ := List.exists_cons_of_ne_nil hw3.1
  have hws : ∀ {a : UInt8} {l : List UInt8}, White (a :: l) → isAsciiWhitespace a = true ∧
      ∀ b ∈ l, isAsciiWhitespace b = true := fun h =>
    ⟨space_ws (h.2 _ (by simp)), fun b hb => space_ws (h.2 b (by simp [hb]))⟩
  have hds : ∀ {l : List UInt8} {n : Nat}, Decimal l n → ∀ b ∈ l, isAsciiWhitespace b = false :=
    fun h b hb => (digit_not_ws (h.2.1 b hb)).1
  rw [ht] at hs
  have e1 : a1 :: w1 ++ d1 ++ (a2 :: w2) ++ d2 ++ (a3 :: w3) ++ d3 =
      [] ++ a1 :: (w1 ++ d1 ++ a2 :: (w2 ++ d2 ++ a3 :: (w3 ++ d3))) := by simp
  rw [e1] at hs
  obtain ⟨l1, k1, rfl, s1, hs⟩ := strips_split hs
  obtain ⟨l2, k2, rfl, s2, hs⟩ := strips_split hs
  obtain ⟨l3, l4, rfl, s3, s4⟩ := strips_split hs
  have sm : Strips unix (kind.magic ++ l1) kind.magic := by
    cases kind
    · exact .byte (by decide) (.byte (by decide) s1)
    · exact .byte (by decide) (.byte (by decide) s1)
  have hmag : ∀ b ∈ kind.magic, isAsciiWhitespace b = false := by cases kind <;> decide
  have hmne : kind.magic ≠ [] := by cases kind <;> decide
  refine ⟨l2 ++ a2 :: (l3 ++ a3 :: (l4 ++ del :: (raster ++ more))), l3 ++ a3 :: (l4 ++ del :: (raster ++ more)),
    l4 ++ del :: (raster ++ more), d1, d2, d3, more, ?_, ?_, ?_, ?_, hd1, hd2, hd3⟩
  · rw [e]
    have := readLoop_white (ws := []) (t := kind.magic) sm (by simp) hmag hmne (hws hw1).1
      (l2 ++ a2 :: (l3 ++ a3 :: (l4 ++ del :: (raster ++ more))))
    rw [← this]
    simp
  · exact readLoop_white s2 (hws hw1).2 (hds hd1) hd1.1 (hws hw2).1 _
  · exact readLoop_white s3 (hws hw2).2 (hds hd2) hd2.1 (hws hw3).1 _
  · exact readLoop_white s4 (hws hw3).2 (hds hd3) hd3.1 (space_ws hdel) _

theorem strips_length {c : Comments} {l t : List UInt8} (h : Strips c l t) : t.length ≤ l.length := by
  induction h with
  | nil => simp
  | byte _ _ ih => simp; omega
  | comment _ _ _ ih => simp; omega

/-- The format the tool finds. -/
def kindFormat : Kind → Format
  | .pgm => .pgm
  | .ppm => .ppm

theorem wellFormed_detect {c : Comments} {kind : Kind} {w h m : Nat} {text raster file : List UInt8}
    (hf : WellFormed c kind w h m text raster file) :
    detectFormat file = .ok (kindFormat kind) := by
  obtain ⟨t, del, more, w1, d1, w2, d2, w3, d3, e, hdel, hs, ht, hw1, hd1, hw2, hd2, hw3, hd3⟩ := hf.parts
  have hl := strips_length hs
  have hp : ∀ {l : List UInt8}, l ≠ [] → 1 ≤ l.length := fun h => List.length_pos_iff.mpr h
  have h1 := hp hw1.1
  have h2 := hp hw2.1
  have h3 := hp hw3.1
  have h4 := hp hd1.1
  have h5 := hp hd2.1
  have h6 := hp hd3.1
  have hlen : ¬ file.length < 8 := by
    rw [ht] at hl
    rw [e]
    simp only [List.length_append, List.length_cons] at hl ⊢
    have : kind.magic.length = 2 := by cases kind <;> rfl
    omega
  unfold detectFormat
  rw [if_neg hlen, e]
  cases kind
  · simp [Kind.magic, kindFormat, List.isPrefixOf]
  · simp [Kind.magic, kindFormat, List.isPrefixOf]

end Pixo.Cli
