import Verif.Props.Deflate
/-
C73: what is known about the size of the result of `deflate_optimal`.
-/
namespace Pixo.Props
open Spec Spec.Rfc1951 Pixo.Lz77 Pixo.Deflate

theorem optimalLoop_le (env : Env) (data : List UInt8) {n iter : Nat} {s : Refine} {best out : List UInt8}
    (h : optimalLoop env data n iter s best = .ok out) : out.length ≤ best.length := by
  induction n generalizing iter s best with
  | zero => cases h; exact Nat.le_refl _
  | succ n ih =>
    rw [optimalLoop] at h
    cases e : refineStep env data iter s with
    | error x => rw [e] at h; cases h
    | ok r =>
      obtain ⟨ts, s', stop⟩ := r
      rw [e, ok_bind] at h
      simp only [] at h
      cases e2 : encodeDynamic env ts with
      | error x => rw [e2] at h; cases h
      | ok o =>
        rw [e2, ok_bind] at h
        have hle : (if o.length < best.length then o else best).length ≤ best.length := by split <;> omega
        split at h
        · cases h; exact hle
        · exact Nat.le_trans (ih h) hle

theorem optimalLoop_mono (env : Env) (data : List UInt8) {n m iter : Nat} (hm : n ≤ m) {s : Refine} {best out out' : List UInt8}
    (h : optimalLoop env data n iter s best = .ok out) (h' : optimalLoop env data m iter s best = .ok out') :
    out'.length ≤ out.length := by
  induction n generalizing m iter s best with
  | zero => cases h; exact optimalLoop_le env data h'
  | succ n ih =>
    obtain ⟨m, rfl⟩ : ∃ k, m = k + 1 := ⟨m - 1, by omega⟩
    rw [optimalLoop] at h h'
    cases e : refineStep env data iter s with
    | error x => rw [e] at h; cases h
    | ok r =>
      obtain ⟨ts, s', stop⟩ := r
      rw [e, ok_bind] at h h'
      simp only [] at h h'
      cases e2 : encodeDynamic env ts with
      | error x => rw [e2] at h; cases h
      | ok o =>
        rw [e2, ok_bind] at h h'
        split at h
        · rename_i hs
          rw [if_pos hs] at h'
          cases h; cases h'; exact Nat.le_refl _
        · rename_i hs
          rw [if_neg hs] at h'
          exact ih (by omega) h h'

/-- What one would expect of the slower of two ways to compress: the result is never longer than that of `deflate` at its highest level. It does
not hold, see `C73_fails`. -/
def C73_full : Prop :=
  ∀ (env : Env) (data out out' : List UInt8) (pool pool' : Pool) (iterations : Nat), LogOk env.log2 → PHistory pool →
    data.length + 1 < 2 ^ 30 → deflateOptimal env data iterations = .ok out →
    deflate env pool data 9 = .ok (out', pool') → out.length ≤ out'.length

/-- C73, greedy parsing: the result is no longer than the tokens of the greedy parser at level 9 written with dynamic codes. -/
theorem C73_greedy_partial (env : Env) (hl : LogOk env.log2) (data : List UInt8) (hn : data.length + 1 < 2 ^ 30) (h0 : data ≠ [])
    (iterations : Nat) :
    ∃ ts st best out, Lz77.compress env.level (State.new 9) data = .ok (ts, st) ∧ encodeDynamic env ts = .ok best ∧
      deflateOptimal env data iterations = .ok out ∧ out.length ≤ best.length := by
  obtain ⟨out, e, _⟩ := (deflateOptimal_ok env hl hn iterations).out
  have e0 := e
  unfold deflateOptimal at e
  rw [if_neg (by cases data with | nil => exact absurd rfl h0 | cons a l => simp)] at e
  unfold refineStart at e
  cases e1 : Lz77.compress env.level (State.new 9) data with
  | error x => rw [e1] at e; cases e
  | ok r =>
    obtain ⟨ts, st⟩ := r
    rw [e1] at e
    simp only [ok_bind] at e
    cases e2 : countSymbols ts with
    | error x => rw [e2] at e; cases e
    | ok c =>
      obtain ⟨lit, dist⟩ := c
      rw [e2] at e
      cases e3 : encodeDynamic env ts with
      | error x =>
        change (do let best ← encodeDynamic env ts; _ : R (List UInt8)) = _ at e
        rw [e3] at e; cases e
      | ok best =>
        change (do let best ← encodeDynamic env ts; _ : R (List UInt8)) = _ at e
        rw [e3, ok_bind] at e
        exact ⟨ts, st, best, out, rfl, e3, e0, optimalLoop_le env data e⟩

/-- C73, iterations: more iterations never make the result longer. -/
theorem C73_iterations_partial (env : Env) (hl : LogOk env.log2) (data : List UInt8) (hn : data.length + 1 < 2 ^ 30) {n m : Nat} (hm : n ≤ m) :
    ∃ out out', deflateOptimal env data n = .ok out ∧ deflateOptimal env data m = .ok out' ∧ out'.length ≤ out.length := by
  obtain ⟨out, e, _⟩ := (deflateOptimal_ok env hl hn n).out
  obtain ⟨out', e', _⟩ := (deflateOptimal_ok env hl hn m).out
  refine ⟨out, out', e, e', ?_⟩
  unfold deflateOptimal at e e'
  split at e
  · rename_i h
    rw [if_pos h] at e'
    rw [e] at e'; cases e'; exact Nat.le_refl _
  · rename_i h
    rw [if_neg h] at e'
    cases e1 : refineStart env data with
    | error x => rw [e1] at e; cases e
    | ok r =>
      obtain ⟨ts, s⟩ := r
      rw [e1, ok_bind] at e e'
      simp only [] at e e'
      cases e2 : encodeDynamic env ts with
      | error x => rw [e2] at e; cases e
      | ok best =>
        rw [e2, ok_bind] at e e'
        exact optimalLoop_mono env data hm e e'

/-- One byte: 13 bytes instead of 3, because `deflate_optimal` always writes dynamic codes. -/
theorem C73_fails : (deflateOptimal plainEnv [97] 1).map List.length = .ok 13 ∧
    (deflate plainEnv Pool.new [97] 9).map (fun r => r.1.length) = .ok 3 := by decide +kernel

theorem C73_not : ¬ C73_full := by
  intro h
  obtain ⟨h1, h2⟩ := C73_fails
  cases e1 : deflateOptimal plainEnv [97] 1 with
  | error x => rw [e1] at h1; cases h1
  | ok out =>
    cases e2 : deflate plainEnv Pool.new [97] 9 with
    | error x => rw [e2] at h2; cases h2
    | ok r =>
      obtain ⟨out', pool'⟩ := r
      rw [e1] at h1
      rw [e2] at h2
      simp only [Except.map, Except.ok.injEq] at h1 h2
      have := h plainEnv [97] out out' Pool.new pool' 1 plain_log .new (by decide) e1 e2
      omega

/-- `log2` of 1 to 64, as `f32` and times `2^23`. -/
def logTable : List Nat :=
  [0, 8388608, 13295629, 16777216, 19477744, 21684238, 23549800, 25165824, 26591258, 27866352, 29019816,
    30072846, 31041538, 31938408, 32773374, 33554432, 34288124, 34979868, 35634200, 36254960, 36845428, 37408424,
    37946388, 38461452, 38955488, 39430148, 39886888, 40327016, 40751700, 41161980, 41558812, 41943040, 42315444,
    42676732, 43027544, 43368476, 43700064, 44022808, 44337168, 44643568, 44942404, 45234036, 45518808, 45797032,
    46069004, 46334996, 46595268, 46850060, 47099600, 47344096, 47583752, 47818756, 48049280, 48275496, 48497560,
    48715624, 48929828, 49140308, 49347188, 49550588, 49750632, 49947420, 50141060, 50331648]

/-- An environment with the correctly rounded `log2` for counts up to 64. -/
def tableEnv : Env :=
  { plainEnv with
    log2 := fun n => if n ≤ 64 then ((logTable.getD (n - 1) 0 * 2 ^ 126 : Nat) : Int) else plainEnv.log2 n }

theorem tableEnv_log : LogOk tableEnv.log2 := by
  intro n h1 h2
  show 0 ≤ (if n ≤ 64 then ((logTable.getD (n - 1) 0 * 2 ^ 126 : Nat) : Int) else plainEnv.log2 n) ∧
    (if n ≤ 64 then ((logTable.getD (n - 1) 0 * 2 ^ 126 : Nat) : Int) else plainEnv.log2 n) ≤ _
  split
  · rename_i h
    have key : ∀ k < 64, logTable.getD k 0 ≤ 2 ^ 26 := by decide +kernel
    have e2 : Lz77.ofNatF 32 = ((2 ^ 26 * 2 ^ 128 : Nat) : Int) := by decide +kernel
    refine ⟨Int.natCast_nonneg _, ?_⟩
    rw [e2]
    exact Int.ofNat_le.mpr (Nat.mul_le_mul (key _ (by omega)) (Nat.pow_le_pow_right (by decide) (by decide)))
  · exact plain_log n h1 h2

/-- "bbccbcbacbccbcacbabcb". -/
def worse : List UInt8 := [98, 98, 99, 99, 98, 99, 98, 97, 99, 98, 99, 99, 98, 99, 97, 99, 98, 97, 98, 99, 98]

/-- C73 fails for `deflate_optimal_split`, with the parameters `deflate_optimal_zlib` calls it with (5 iterations, 15 blocks): it keeps the tokens of the
last iteration, not the best. Here the greedy tokens take 21 bytes, five iterations make it 22. -/
theorem C73_fails_split : (deflateOptimalSplit tableEnv worse 0 15).map List.length = .ok 21 ∧
    (deflateOptimalSplit tableEnv worse 5 15).map List.length = .ok 22 ∧
    (deflateOptimal tableEnv worse 5).map List.length = .ok 21 := by decide +kernel

/-- Iterations that help. -/
example : (deflateOptimal tableEnv [99, 97, 99, 98, 97, 99, 97, 99, 99, 99, 99, 99] 0).map List.length = .ok 19 ∧
    (deflateOptimal tableEnv [99, 97, 99, 98, 97, 99, 97, 99, 99, 99, 99, 99] 2).map List.length = .ok 18 := by decide +kernel

end Pixo.Props
