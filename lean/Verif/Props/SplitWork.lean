import Verif.Props.BlockSplit
import Verif.Proof.SplitWork
/-
C104: how much work it is to place block splits.
-/
namespace Pixo.Props.SplitWork
open Spec Spec.BlockCost Pixo Pixo.Deflate Pixo.Props
open Pixo.Lz77 (Token)

/-- **C104** (partial). The search for splits gives what `find_block_splits` gives, and looks at tokens at most
`(2 max_blocks - 1) n (2 n + 108) / 9` times, if there are `n` of them. The full claim is that it looks at each a number of times that
does not depend on `n`. -/
theorem C104_bound_partial (env : Env) (tokens : List Token) (h : ∀ t ∈ tokens, Legal t) (hn : tokens.length + 2 < 2 ^ 32) (maxBlocks : Nat) :
    ∃ splits looks, findBlockSplits env tokens maxBlocks = .ok splits ∧ findBlockSplitsW env tokens maxBlocks = .ok (splits, looks) ∧
      9 * looks ≤ (2 * maxBlocks - 1) * (tokens.length * (2 * tokens.length + 108)) := by
  have ht : ∀ t ∈ tokens, Lz77.TokOk t := fun t m => tokOk_of (h t m)
  by_cases hp : 0 < tokens.length
  · obtain ⟨r, e, -⟩ := (findBlockSplits_spec env ht hn hp maxBlocks).out
    obtain ⟨k, e2, hk⟩ := findBlockSplitsW_of env ht hn maxBlocks e
    exact ⟨r, k, e, e2, hk⟩
  · refine ⟨[], 0, ?_, ?_, by omega⟩
    · unfold findBlockSplits; rw [if_pos (by omega)]
    · unfold findBlockSplitsW; rw [if_pos (by omega)]

/-- **C104** (violation, in general). Whenever more than one block is made of `n` tokens, each of them has been looked at
at least `n / 9` times on average. -/
theorem C104_quadratic (env : Env) (tokens : List Token) (h : ∀ t ∈ tokens, Legal t) (hn : tokens.length + 2 < 2 ^ 32) (h23 : 23 ≤ tokens.length)
    (maxBlocks : Nat) (splits : List Nat) (looks : Nat) (hs : splits ≠ []) (e : findBlockSplitsW env tokens maxBlocks = .ok (splits, looks)) :
    tokens.length * tokens.length ≤ 9 * looks := by
  have := findBlockSplitsW_ge env (fun t m => tokOk_of (h t m)) hn maxBlocks hs e
  rw [Nat.min_eq_left (by omega)] at this
  exact this

/-- Logarithms of powers of two are exact, and larger numbers have larger ones. -/
def LogBetween (log : Nat → Int) : Prop :=
  ∀ m k : Nat, 0 < m → m < 2 ^ 32 → k ≤ 32 → (2 ^ k ≤ m → (k : Int) * bit ≤ log m) ∧ (m ≤ 2 ^ k → log m ≤ (k : Int) * bit)

theorem between_ok {log : Nat → Int} (h : LogBetween log) : Log64Ok log := by
  intro n h1 h2
  have a := (h n 0 h1 h2 (by decide)).1 (by omega)
  have b := (h n 32 h1 h2 (by decide)).2 (by omega)
  rw [Int.natCast_zero, Int.zero_mul] at a
  refine ⟨a, ?_⟩
  rw [Int.natCast_mul, one_eq64]
  exact b

/-- `c` literals of one value and `d` of another. -/
def twoValues (c d : Nat) : List Token := List.replicate c (.lit 0) ++ List.replicate d (.lit 1)

theorem counts (c d : Nat) : litCounts ((twoValues c d).map meaning) = c :: d :: (List.replicate 254 0 ++ 1 :: List.replicate 29 0) := by
  have e : ∀ s, litCount ((twoValues c d).map meaning) s = (if s = 0 then c else 0) + (if s = 1 then d else 0) + (if s = 256 then 1 else 0) := by
    intro s
    unfold litCount twoValues
    simp only [List.map_append, List.map_replicate, meaning, litSymbol, List.count_append, List.count_replicate, List.count_cons, List.count_nil]
    rw [show (0 : UInt8).toNat = 0 from rfl, show (1 : UInt8).toNat = 1 from rfl]
    have hb : ∀ x : Nat, (x == s) = decide (s = x) := by
      intro x
      by_cases h : s = x
      · subst h; simp
      · rw [decide_eq_false h]; simp; omega
    rw [hb, hb, hb]
    simp only [decide_eq_true_eq]
    omega
  unfold litCounts
  have hr : List.range 286 = 0 :: 1 :: (List.range 284).map (· + 2) := by decide +kernel
  rw [hr, List.map_cons, List.map_cons, e, e, List.map_map]
  have ht : (List.range 284).map (litCount ((twoValues c d).map meaning) ∘ (· + 2)) = (List.range 284).map (fun s => if s = 254 then 1 else 0) := by
    refine List.map_congr_left fun s _ => ?_
    simp only [Function.comp, e]
    rw [if_neg (by omega), if_neg (by omega)]
    by_cases h : s = 254
    · subst h; rfl
    · rw [if_neg (by omega), if_neg h]
  rw [ht, show (List.range 284).map (fun s => if s = 254 then 1 else 0) = List.replicate 254 0 ++ 1 :: List.replicate 29 0 by decide +kernel]
  generalize (List.replicate 254 0 ++ 1 :: List.replicate 29 0 : List Nat) = X
  simp

theorem sum_zeros (n : Nat) : (List.replicate n (0 : Nat)).sum = 0 := by
  induction n with
  | zero => rfl
  | succ n ih => rw [List.replicate_succ, List.sum_cons, ih]

theorem sum_zerosI (n : Nat) : (List.replicate n (0 : Int)).sum = 0 := by
  induction n with
  | zero => rfl
  | succ n ih => rw [List.replicate_succ, List.sum_cons, ih]; rfl

theorem entropy_two (log : Nat → Int) (c d A B : Nat) : entropy log (c :: d :: (List.replicate A 0 ++ 1 :: List.replicate B 0)) =
    (if c = 0 then 0 else (c : Int) * (log (c + d + 1) - log c)) + (if d = 0 then 0 else (d : Int) * (log (c + d + 1) - log d)) +
      (log (c + d + 1) - log 1) := by
  unfold entropy
  have hs : (c :: d :: (List.replicate A 0 ++ 1 :: List.replicate B 0)).sum = c + d + 1 := by
    simp only [List.sum_cons, List.sum_append, sum_zeros]; omega
  rw [hs]
  simp only [List.map_cons, List.map_append, List.map_replicate, List.sum_cons, List.sum_append, if_true, sum_zerosI]
  rw [if_neg (show ¬(1 : Nat) = 0 by decide), Int.natCast_one, Int.one_mul]
  omega

theorem estimate_two (log : Nat → Int) (one c d : Nat) : estimate log one ((twoValues c d).map meaning) =
    300 * (one : Int) + (if c = 0 then 0 else (c : Int) * (log (c + d + 1) - log c)) + (if d = 0 then 0 else (d : Int) * (log (c + d + 1) - log d)) +
      (log (c + d + 1) - log 1) := by
  unfold estimate
  rw [counts]
  have hd : distCounts ((twoValues c d).map meaning) = 1 :: List.replicate 29 0 := by
    unfold distCounts
    rw [if_pos]
    simp [twoValues, meaning, distSymbol]
  have hx : (((twoValues c d).map meaning).map extraBits).sum = 0 := by
    simp [twoValues, meaning, extraBits]
  rw [hd, hx, entropy_two]
  have he : entropy log (1 :: List.replicate 29 0) = 0 := by
    unfold entropy
    rw [List.sum_cons, sum_zeros, List.map_cons, List.map_replicate, List.sum_cons, if_pos rfl, sum_zerosI, if_neg (by decide), Nat.add_zero]
    omega
  rw [he, Int.natCast_zero, Int.zero_mul]
  omega

theorem twoValues_length (c d : Nat) : (twoValues c d).length = c + d := by simp [twoValues]

theorem twoValues_legal (c d : Nat) : ∀ t ∈ twoValues c d, Legal t := by
  intro t m
  rcases List.mem_append.1 m with m | m <;> (rw [(List.mem_replicate.1 m).2]; trivial)

theorem twoValues_blocks (c d : Nat) : blockTokens (twoValues c d) 0 (c + d) = (twoValues c d).map meaning ∧
    blockTokens (twoValues c d) 0 c = (twoValues c 0).map meaning ∧ blockTokens (twoValues c d) c (c + d) = (twoValues 0 d).map meaning := by
  unfold blockTokens
  refine ⟨?_, ?_, ?_⟩
  · rw [List.take_of_length_le (by rw [twoValues_length]; omega), List.drop_zero]
  · simp [twoValues, List.take_append]
  · rw [List.take_of_length_le (by rw [twoValues_length]; omega)]
    simp [twoValues, List.drop_append]

/-- **C104** (violation). For every power of two from 2^10 up there are so many literals of which each is looked at `n / 9` times on average. -/
theorem C104_violation (env : Env) (hlog : LogBetween env.log64) (a : Nat) (h10 : 10 ≤ a) (h31 : a ≤ 31) (maxBlocks : Nat) (hm : 2 ≤ maxBlocks) :
    ∃ tokens splits looks, tokens.length = 2 ^ a ∧ (∀ t ∈ tokens, Legal t) ∧ findBlockSplits env tokens maxBlocks = .ok splits ∧
      findBlockSplitsW env tokens maxBlocks = .ok (splits, looks) ∧ 2 ^ a * 2 ^ a ≤ 9 * looks := by
  obtain ⟨n, hnp⟩ : ∃ n, n = 2 ^ a := ⟨_, rfl⟩
  have hn1 : 1024 ≤ n := by
    rw [hnp]; exact Nat.pow_le_pow_right (n := 2) (by decide) h10
  have hn2 : n ≤ 2 ^ 31 := by
    rw [hnp]; exact Nat.pow_le_pow_right (by decide) h31
  have hhalf : 2 * 2 ^ (a - 1) = n := by
    rw [hnp, ← Nat.pow_succ']; congr 1; omega
  obtain ⟨p, hp⟩ : ∃ p, p = 10 + 4 * (n / 9) := ⟨_, rfl⟩
  obtain ⟨q, hq⟩ : ∃ q, q = n - p := ⟨_, rfl⟩
  have hpq : p + q = n := by omega
  have hl : (twoValues p q).length = n := by rw [twoValues_length, hpq]
  have hleg := twoValues_legal p q
  have hok := between_ok hlog
  obtain ⟨splits, looks, e1, e2, -⟩ := C104_bound_partial env (twoValues p q) hleg (by omega) maxBlocks
  rw [← hnp]
  refine ⟨twoValues p q, splits, looks, hl, hleg, e1, e2, ?_⟩
  have hne : splits ≠ [] := by
    rintro rfl
    obtain ⟨splits, cost, e, hc, _, _, _, hd⟩ := C77_splits env hok (twoValues p q) hleg (by omega) maxBlocks
    rw [e1] at e
    injection e with e
    subst e
    have c1 := (hc 0 n (by omega) (by omega)).2
    have c2 := (hc 0 p (by omega) (by omega)).2
    have c3 := (hc p n (by omega) (by omega)).2
    have c4 := hd (by simp; omega) (0, n) (by rw [hl]; simp [pairs]) (by simp only; omega) 4 (by unfold stride; simp only; omega)
    have es : 0 + 10 + 4 * stride 0 n = p := by unfold stride; omega
    simp only at c4
    rw [es] at c4
    obtain ⟨b1, b2, b3⟩ := twoValues_blocks p q
    rw [hpq] at b1 b3
    rw [b1, estimate_two, if_neg (by omega), if_neg (by omega)] at c1
    rw [b2, estimate_two, if_neg (by omega), if_pos rfl] at c2
    rw [b3, estimate_two, if_pos rfl, if_neg (by omega)] at c3
    rw [hpq] at c1
    rw [Nat.add_zero] at c2
    rw [Nat.zero_add] at c3
    have hb : ((2 ^ 1074 : Nat) : Int) = bit := Int.natCast_pow 2 1074
    have hbp : 0 < bit := by decide +kernel
    have lN := (hlog (n + 1) a (by omega) (by omega) (by omega)).1 (by omega)
    have lP := (hlog (p + 1) (a - 1) (by omega) (by omega) (by omega)).2 (by omega)
    have lQ := (hlog (q + 1) a (by omega) (by omega) (by omega)).2 (by omega)
    have l1 := (hok 1 (by decide) (by decide)).1
    have ea : ((a - 1 : Nat) : Int) * bit = (a : Int) * bit - bit := by
      rw [Int.natCast_sub (by omega), Int.sub_mul]; simp
    rw [ea] at lP
    have m1 : (p : Int) * (env.log64 (p + 1) + bit) ≤ (p : Int) * env.log64 (n + 1) := Int.mul_le_mul_of_nonneg_left (by omega) (by omega)
    have m2 : (q : Int) * env.log64 (q + 1) ≤ (q : Int) * env.log64 (n + 1) := Int.mul_le_mul_of_nonneg_left (by omega) (by omega)
    have m3 : ((n : Int) + 50000) * bit ≤ (4096 * ((p : Int) - 300 - a)) * bit := by
      refine Int.mul_le_mul_of_nonneg_right ?_ (by omega)
      omega
    rw [Int.mul_assoc] at m3
    have f : ∀ k : Nat, (((k + 632) * 2 ^ 1074 : Nat) : Int) = ((k : Int) + 632) * bit := by
      intro k
      rw [Int.natCast_mul, hb, Int.natCast_add]; rfl
    have g1 := f (n - 0)
    have g2 := f (p - 0)
    have g3 := f (n - p)
    rw [show n - p = q by omega] at g3 c3
    rw [Nat.sub_zero] at g1 g2 c1 c2
    rw [hb] at c1 c2 c3
    generalize (n + 632) * 2 ^ 1074 = E1 at *
    generalize (p + 632) * 2 ^ 1074 = E2 at *
    generalize (q + 632) * 2 ^ 1074 = E3 at *
    have hq' : (q : Int) = n - p := by omega
    simp only [Int.mul_sub, Int.mul_add, Int.sub_mul, Int.add_mul] at c1 c2 c3 m1 m2 m3 g1 g2 g3
    have hq2 : (q : Int) * bit = n * bit - p * bit := by rw [hq', Int.sub_mul]
    clear hb f
    generalize bit = B at *
    omega
  exact hl ▸ C104_quadratic env (twoValues p q) hleg (by omega) (by omega) maxBlocks splits looks hne e2

/-- There are such logarithms: those rounded down. -/
theorem plain_between : LogBetween plainEnv.log64 := by
  intro m k h1 h2 h3
  have e : plainEnv.log64 m = (m.log2 : Int) * bit := rfl
  have hb : (0 : Int) ≤ bit := by decide +kernel
  rw [e]
  refine ⟨fun h => ?_, fun h => ?_⟩
  · refine Int.mul_le_mul_of_nonneg_right (Int.ofNat_le.mpr ?_) hb
    exact (Nat.le_log2 (by omega)).mpr h
  · refine Int.mul_le_mul_of_nonneg_right (Int.ofNat_le.mpr ?_) hb
    have : 2 ^ m.log2 ≤ 2 ^ k := Nat.le_trans (Nat.log2_self_le (by omega)) h
    exact (Nat.pow_le_pow_iff_right (by decide)).mp this

/-- Half a mebibyte of literals, as many as `compress` splits (src/compress/deflate.rs:366): they are looked at more than 30 thousand million times. -/
example : ∃ tokens splits looks, tokens.length = 512 * 1024 ∧ findBlockSplitsW plainEnv tokens 15 = .ok (splits, looks) ∧
    30000000000 ≤ looks := by
  obtain ⟨t, s, l, h1, -, -, h2, h3⟩ := C104_violation plainEnv plain_between 19 (by decide) (by decide) 15 (by decide)
  refine ⟨t, s, l, by rw [h1], h2, by omega⟩

end Pixo.Props.SplitWork
