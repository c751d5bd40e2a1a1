import Verif.Props.Lz77Cheapest
/-
C83: the matches of the greedy and the lazy parser are as long as their distance allows.
-/
namespace Pixo.Props
open Spec Pixo.Lz77
open Spec.Rfc1951 (expand)

/-- No match of the sequence can be replaced by a longer one of the same distance: what the tokens before it
and the longer match stand for is not what `data` begins with. -/
def Stretched (ts : List Lz77.Token) (data : List UInt8) : Prop :=
  ∀ before l d after m, ts = before ++ .mtch l d :: after → l < m → m ≤ 258 →
    ¬ ∃ x, expand (rfc (before ++ [.mtch m d])) = some x ∧ x <+: data

/-- No match of the sequence is three bytes long and more than 8192 bytes away. -/
def NearThrees (ts : List Lz77.Token) : Prop := ∀ d, Lz77.Token.mtch 3 d ∈ ts → d ≤ 8192

/-- At every match, no other distance would have given a longer match. -/
def Longest (ts : List Lz77.Token) (data : List UInt8) : Prop :=
  ∀ before l d after m d', ts = before ++ .mtch l d :: after → l < m → m ≤ 258 → 1 ≤ d' → d' ≤ 32768 →
    ¬ ∃ x, expand (rfc (before ++ [.mtch m d'])) = some x ∧ x <+: data

theorem steps_append {data : List UInt8} {p : Nat} {before after : List Lz77.Token} (h : Steps data p (before ++ after)) :
    Steps data (p + (before.map Token.span).sum) after := by
  induction before generalizing p with
  | nil => exact h
  | cons t ts ih =>
    rw [List.map_cons, List.sum_cons, ← Nat.add_assoc]
    cases h with
    | lit _ h => exact ih h
    | mtch _ h => exact ih h

theorem stretched_of_maxed {ts : List Lz77.Token} {data : List UInt8}
    (hl : ∀ l d, Lz77.Token.mtch l d ∈ ts → 3 ≤ l ∧ l ≤ 258 ∧ 1 ≤ d ∧ d ≤ 32768) (h : Maxed data ts data.length) :
    Stretched ts data := by
  rintro before l d after m e hlm hm ⟨x, hx, hpre⟩
  have hld := hl l d (by rw [e]; simp)
  have hv : Steps x 0 (before ++ [.mtch m d]) := by
    refine Denotes.steps ⟨hx, ?_⟩
    intro l' d' hmem
    rcases List.mem_append.1 hmem with hmem | hmem
    · exact hl l' d' (by rw [e]; exact List.mem_append_left _ hmem)
    · rw [List.mem_singleton] at hmem
      cases hmem
      omega
  have hs := (h.stops before l d after e).1
  have hv := steps_append hv
  rw [Nat.zero_add] at hv
  generalize (before.map Token.span).sum = pos at hs hv
  cases hv with
  | mtch hv hv' =>
    have hfit := hv.fits
    have hback := hv.back
    have hlen := hpre.length_le
    have get : ∀ i, i < x.length → data[i]? = x[i]? := by
      intro i hi
      obtain ⟨y, rfl⟩ := hpre
      exact List.getElem?_append_left hi
    rcases hs with hs | hs | hs
    · omega
    · omega
    · apply hs
      rw [get _ (by omega), get _ (by omega), show pos + l - d = pos - d + l by omega]
      exact hv.same l hlm

/-- C83: after any history, at every level and on every instruction set, no match of the tokens can be made
longer, and no match of three bytes comes from further than 8192 bytes away. -/
theorem C83_compress {level : Nat} {st : State} (h : History level st) (lv : Simd.Level) (data : List UInt8) :
    ∃ ts st', Lz77.compress lv st data = .ok (ts, st') ∧ Denotes ts data ∧ Stretched ts data ∧ NearThrees ts := by
  obtain ⟨⟨ts, st'⟩, e, hg, _⟩ := (compress_full lv h.ok.1 data).out
  refine ⟨ts, st', e, hg.toSound.denotes, stretched_of_maxed hg.toSound.limits hg.toMaxed, ?_⟩
  intro d hd
  obtain ⟨b, a, rfl⟩ := List.append_of_mem hd
  have := (hg.toMaxed.stops b 3 d a rfl).2
  omega

/-- C83, for consecutive matches: two matches of the same distance follow each other only when the first has
the greatest length there is. -/
theorem C83_consecutive {level : Nat} {st st' : State} (h : History level st) {lv : Simd.Level} {data : List UInt8}
    {before after : List Lz77.Token} {l l' d : Nat}
    (e : Lz77.compress lv st data = .ok (before ++ .mtch l d :: .mtch l' d :: after, st')) : l = 258 := by
  obtain ⟨⟨ts, st''⟩, e', hg, _⟩ := (compress_full lv h.ok.1 data).out
  rw [e] at e'
  cases e'
  have hs := (hg.toMaxed.stops before l d _ rfl).1
  have hv : Steps data 0 (before ++ .mtch l d :: .mtch l' d :: after) := hg.toSound.denotes.steps
  have hv := steps_append hv
  rw [Nat.zero_add] at hv
  generalize (before.map Token.span).sum = pos at hs hv
  cases hv with
  | mtch h1 hv =>
    generalize hq : pos + l = q at hv
    cases hv with
    | mtch h2 _ =>
      subst hq
      have := h2.min
      have := h2.fits
      have := h2.same 0 (by omega)
      rcases hs with hs | hs | hs
      · exact hs
      · omega
      · exact absurd this hs

/-- Eight bytes, twice their first four, and the eight bytes again. -/
def hidden : List UInt8 :=
  [97, 98, 99, 100, 101, 102, 103, 104, 1, 97, 98, 99, 100, 2, 97, 98, 99, 100, 3,
    97, 98, 99, 100, 101, 102, 103, 104, 4]

theorem hidden_tokens : (Lz77.compress .scalar (State.new 1) hidden).map Prod.fst =
    .ok [.lit 97, .lit 98, .lit 99, .lit 100, .lit 101, .lit 102, .lit 103, .lit 104, .lit 1, .mtch 4 9, .lit 2,
      .mtch 4 5, .lit 3, .mtch 4 5, .mtch 4 19, .lit 4] := by decide +kernel

/-- The matches are not the longest possible with every distance: the short hash chains of level 1 lead to
four bytes where eight were available. -/
theorem C83_longest_fails : ¬ ∀ (level : Nat) (lv : Simd.Level) (data : List UInt8) (ts : List Lz77.Token) (st' : State),
    Lz77.compress lv (State.new level) data = .ok (ts, st') → Longest ts data := by
  intro h
  obtain ⟨ts, st', e, _⟩ := C83_compress (level := 1) .new .scalar hidden
  have h1 := hidden_tokens
  rw [e] at h1
  simp only [Except.map, Except.ok.injEq] at h1
  refine h 1 .scalar hidden ts st' e
    [.lit 97, .lit 98, .lit 99, .lit 100, .lit 101, .lit 102, .lit 103, .lit 104, .lit 1, .mtch 4 9, .lit 2,
      .mtch 4 5, .lit 3] 4 5 [.mtch 4 19, .lit 4] 8 19 h1 (by decide) (by decide) (by decide)
    (by decide) ⟨hidden.take 27, by decide +kernel, List.take_prefix _ _⟩

/-- A match that ends before the input does. -/
example : (Lz77.compress .scalar (State.new 6) [97, 98, 99, 97, 98, 99, 97, 98, 99, 100]).map Prod.fst =
    .ok ([.lit 97, .lit 98, .lit 99] ++ .mtch 6 3 :: [.lit 100]) := by decide +kernel

/-- Two matches of the same distance in a row. -/
example : (Lz77.compress .scalar (State.new 6) (List.replicate 300 7)).map Prod.fst =
    .ok ([.lit 7] ++ .mtch 258 1 :: .mtch 41 1 :: []) := by decide +kernel

/-- A sequence for the same data that is not stretched. -/
example : ¬ Stretched [.lit 97, .lit 98, .lit 99, .mtch 3 3, .mtch 3 3, .lit 100]
    [97, 98, 99, 97, 98, 99, 97, 98, 99, 100] :=
  fun h => h [.lit 97, .lit 98, .lit 99] 3 3 [.mtch 3 3, .lit 100] 4 rfl (by decide) (by decide)
    ⟨[97, 98, 99, 97, 98, 99, 97], by decide, by decide⟩

end Pixo.Props
