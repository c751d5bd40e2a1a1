import Verif.Props.DeflateTokens
import Verif.Props.Deflate
import Verif.Proof.BlockSplitLoop
/-
C77: where a sequence of tokens is split into blocks.
-/
namespace Pixo.Props
open Spec Spec.BlockCost Pixo.Deflate
open Pixo.Lz77 (Token)

/-- The block of tokens from `a` up to `b`. -/
def blockTokens (tokens : List Token) (a b : Nat) : List Rfc1951.Token := ((tokens.take b).drop a).map meaning

/-- One bit, in units of `2^-1074`. -/
def bit : Int := 2 ^ 1074

/-- The step of the first search for a position. -/
def stride (a b : Nat) : Nat := max ((b - a) / 9) 1

theorem blockTokens_eq (tokens : List Token) (a b : Nat) : blockTokens tokens a b = blockOf tokens a b := by
  unfold blockTokens blockOf
  rw [List.drop_take, meaning_eq]

/-- **C77**. The estimated cost of a block is 300 bits, the entropies of its symbols and its extra bits, up to rounding (one part in 8192 of a bit for each token
and 632 more). `find_block_splits` gives ascending positions, at least ten tokens apart, that make at most `max_blocks` blocks. The sum of their
estimated costs is below the cost of the whole by ten bits for each split, up to rounding. If fewer blocks were made than allowed, then in each that has
20 tokens none of the positions tried first, a ninth of the block apart, would gain more. -/
theorem C77_splits (env : Env) (hlog : Log64Ok env.log64) (tokens : List Token) (h : ∀ t ∈ tokens, Legal t)
    (hn : tokens.length + 2 < 2 ^ 32) (maxBlocks : Nat) :
    ∃ (splits : List Nat) (cost : Nat → Nat → Int), findBlockSplits env tokens maxBlocks = .ok splits ∧
      (∀ a b, a < b → b ≤ tokens.length → estimateBlockCost env tokens a b = .ok (cost a b) ∧
        8192 * (cost a b - estimate env.log64 (2 ^ 1074) (blockTokens tokens a b)).natAbs ≤ (b - a + 632) * 2 ^ 1074) ∧
      (splits ≠ [] → ∀ p ∈ pairs (0 :: (splits ++ [tokens.length])), p.1 + 10 ≤ p.2) ∧
      splits.length + 1 ≤ max maxBlocks 1 ∧
      (tokens ≠ [] → 4096 * ((pairs (0 :: (splits ++ [tokens.length]))).map (fun p => cost p.1 p.2)).sum + splits.length * (40959 * bit) ≤
        4096 * cost 0 tokens.length) ∧
      (splits.length + 1 < maxBlocks → ∀ p ∈ pairs (0 :: (splits ++ [tokens.length])), p.1 + 20 ≤ p.2 →
        ∀ k, p.1 + 10 + k * stride p.1 p.2 < p.2 - 10 →
          4096 * cost p.1 p.2 ≤ 4096 * (cost p.1 (p.1 + 10 + k * stride p.1 p.2) + cost (p.1 + 10 + k * stride p.1 p.2) p.2) + 40961 * bit) := by
  have ht : ∀ t ∈ tokens, Lz77.TokOk t := fun t m => tokOk_of (h t m)
  have hbit : bit = 8192 * eps := by rw [← one_eps, one_eq64]; rfl
  have hone : (F64.one : Int) = bit := one_eq64
  have hcost : ∀ a b, a < b → b ≤ tokens.length → estimateBlockCost env tokens a b = .ok (costOf env tokens a b) ∧
      8192 * (costOf env tokens a b - estimate env.log64 (2 ^ 1074) (blockTokens tokens a b)).natAbs ≤ (b - a + 632) * 2 ^ 1074 := by
    intro a b h1 h2
    refine ⟨cost_ok env hlog ht hn h2, ?_⟩
    obtain ⟨_, c1, c2⟩ := cost_bound env hlog ht hn h1 h2
    rw [blockTokens_eq]
    have e1 : (((b - a + 632) * 2 ^ 1074 : Nat) : Int) = 8192 * (((b - a + 632 : Nat) : Int) * eps) := by
      rw [Int.natCast_mul, Int.natCast_pow, show ((2 : Nat) : Int) ^ 1074 = bit from rfl, hbit, Int.mul_left_comm]
    have e2 : estimate env.log64 F64.one (blockOf tokens a b) = estimate env.log64 (2 ^ 1074) (blockOf tokens a b) := rfl
    rw [e2] at c1 c2
    generalize ((b - a + 632 : Nat) : Int) * eps = E at *
    generalize estimate env.log64 (2 ^ 1074) (blockOf tokens a b) = X at *
    generalize (b - a + 632) * 2 ^ 1074 = Y at *
    omega
  by_cases h20 : tokens.length < 20 ∨ maxBlocks ≤ 1
  · refine ⟨[], costOf env tokens, by unfold findBlockSplits; rw [if_pos h20], hcost, fun h => absurd rfl h,
      by simp only [List.length_nil]; omega, fun _ => ?_, fun hm p hp h2 => ?_⟩
    · simp [pairs]
    · simp [pairs] at hp
      subst hp
      simp only [List.length_nil] at hm
      simp only at h2
      omega
  · obtain ⟨splits, e, hd⟩ := (findBlockSplits_done env hlog ht hn (maxBlocks := maxBlocks) (by omega) (by omega)).out
    refine ⟨splits, costOf env tokens, e, hcost, fun _ => hd.gap, by have := hd.most; omega, fun _ => ?_, fun hm p hp h2 k hk => ?_⟩
    · have hg := hd.gain
      have e1 : (10 * (F64.one : Int) - 2 * eps) = 81918 * eps := by rw [hone, hbit]; omega
      have e2 : (splits.length : Int) * (40959 * bit) = 4096 * ((splits.length : Int) * (81918 * eps)) := by
        rw [hbit, show (40959 * (8192 * eps) : Int) = 4096 * (81918 * eps) by omega, Int.mul_left_comm]
      rw [e1] at hg
      rw [e2]
      unfold boundaries at hg
      generalize (splits.length : Int) * (81918 * eps) = G at *
      omega
    · have := hd.dead hm p hp h2 k hk
      change _ ≤ costOf env tokens p.1 (p.1 + 10 + k * stride p.1 p.2) + costOf env tokens (p.1 + 10 + k * stride p.1 p.2) p.2 + _ + _ at this
      rw [hone, hbit] at this
      rw [hbit]
      omega

/-- The floor of the logarithm is allowed, as is the logarithm itself. -/
theorem plain_log64 : Log64Ok plainEnv.log64 := by
  intro n h1 h2
  have h : n.log2 < 32 := (Nat.log2_lt (by omega)).mpr h2
  have e : plainEnv.log64 n = ((n.log2 * F64.one : Nat) : Int) := by
    show ((n.log2 : Int) * 2 ^ 1074) = _
    rw [Int.natCast_mul, one_eq64]
  rw [e]
  exact ⟨Int.natCast_nonneg _, Int.ofNat_le.mpr (Nat.mul_le_mul_right _ (by omega))⟩

/-- Ninety matches of one kind and ninety of another. -/
def twoKinds : List Token := List.replicate 90 (.mtch 3 1) ++ List.replicate 90 (.mtch 4 2)

theorem twoKinds_legal : ∀ t ∈ twoKinds, Legal t := by
  intro t m
  rcases List.mem_append.1 m with m | m <;> (rw [(List.mem_replicate.1 m).2]; decide)

/-- They are split: the theorem does not allow one block, as one of the positions tried first is between the kinds. -/
example : findBlockSplits plainEnv twoKinds 15 ≠ .ok [] := by
  intro e0
  have hl : twoKinds.length = 180 := by decide +kernel
  obtain ⟨splits, cost, e, hc, _, _, _, hd⟩ := C77_splits plainEnv plain_log64 twoKinds twoKinds_legal (by omega) 15
  rw [e0] at e
  injection e with e
  subst e
  have h1 := (hc 0 180 (by decide) (by omega)).2
  have h2 := (hc 0 90 (by decide) (by omega)).2
  have h3 := (hc 90 180 (by decide) (by omega)).2
  have h4 := hd (by decide) (0, 180) (by rw [hl]; decide) (by decide) 4 (by decide)
  have e1 : estimate plainEnv.log64 (2 ^ 1074) (blockTokens twoKinds 0 180) = 667 * bit := by decide +kernel
  have e2 : estimate plainEnv.log64 (2 ^ 1074) (blockTokens twoKinds 0 90) = 306 * bit := by decide +kernel
  have e3 : estimate plainEnv.log64 (2 ^ 1074) (blockTokens twoKinds 90 180) = 306 * bit := by decide +kernel
  change 4096 * cost 0 180 ≤ 4096 * (cost 0 90 + cost 90 180) + 40961 * bit at h4
  rw [e1] at h1
  rw [e2] at h2
  rw [e3] at h3
  have hb : ((2 ^ 1074 : Nat) : Int) = bit := Int.natCast_pow 2 1074
  have hp : 0 < bit := by decide +kernel
  generalize bit = B at *
  generalize (2 ^ 1074 : Nat) = N at *
  omega

end Pixo.Props
