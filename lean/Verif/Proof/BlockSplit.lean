import Verif.Proof.SymbolCount
import Verif.Proof.F64
import Verif.Proof.F64Order
/-
Block splitting: how far the `f64` costs are from the entropies, and what each split gains.
-/
namespace Pixo.Deflate
open Spec Spec.BlockCost
open Spec.Rfc1951 (lengthTable distTable)
open Pixo.Lz77 (Token TokOk)

/-- What is needed of the logarithm. -/
def Log64Ok (log : Nat → Int) : Prop := ∀ n, 0 < n → n < 2 ^ 32 → 0 ≤ log n ∧ log n ≤ ((32 * F64.one : Nat) : Int)

/-! ### Arithmetic -/

theorem one_eq64 : (F64.one : Int) = 2 ^ 1074 := by
  unfold F64.one
  exact Int.natCast_pow 2 1074

theorem add_bound {a b : Int} {A : Nat} (hA : A ≤ 2 ^ 53) (h : -((A * F64.one : Nat) : Int) ≤ a + b ∧ a + b ≤ ((A * F64.one : Nat) : Int)) :
    -((A * F64.one : Nat) : Int) ≤ F64.add a b ∧ F64.add a b ≤ ((A * F64.one : Nat) : Int) := by
  have r := F64.rep_one hA
  unfold F64.add
  exact ⟨F64.le_rndI (by omega) r.neg (by rw [Int.natCast_one, Int.mul_one]; exact h.1),
    F64.rndI_le (by omega) r (by rw [Int.natCast_one, Int.mul_one]; exact h.2)⟩

/-- The error of an operation whose result is below `2^40`. -/
def eps : Int := 2 ^ 1061

theorem rnd_eps {x : Int} (h : -((2 ^ 40 * F64.one : Nat) : Int) ≤ x ∧ x ≤ ((2 ^ 40 * F64.one : Nat) : Int)) :
    -eps ≤ F64.rndI x 1 - x ∧ F64.rndI x 1 - x ≤ eps := by
  have hlt : 2 ^ 40 * F64.one < 1 * 2 ^ (53 + 1062) := by
    unfold F64.one
    rw [← Nat.pow_add, Nat.one_mul]
    exact Nat.pow_lt_pow_right (by decide) (by decide)
  have he := F64.rndI_err x 1 1062 (by omega) (by
    generalize 2 ^ 40 * F64.one = u at *
    generalize 1 * 2 ^ (53 + 1062) = v at *
    omega)
  have h2 : ((1 * 2 ^ 1062 : Nat) : Int) = 2 * eps := by
    unfold eps
    rw [Nat.one_mul, Int.natCast_pow, show (1062 : Nat) = 1061 + 1 from rfl, Int.pow_succ]
    omega
  rw [h2] at he
  simp only [Int.natCast_one, Int.mul_one] at he
  omega

theorem eps_pos : 0 < eps := by unfold eps; exact Int.pow_pos (by decide)

theorem one_eps : (F64.one : Int) = 8192 * eps := by
  rw [one_eq64, show (1074 : Nat) = 13 + 1061 from rfl, Int.pow_add]; rfl

/-- `2^1026`, the error of the difference of two logarithms. -/
theorem sub_err {L l : Int} (h : -((32 * F64.one : Nat) : Int) ≤ L - l ∧ L - l ≤ ((32 * F64.one : Nat) : Int)) :
    -(2 ^ 1026 : Int) ≤ F64.sub L l - (L - l) ∧ F64.sub L l - (L - l) ≤ 2 ^ 1026 := by
  have hlt : 32 * F64.one < 1 * 2 ^ (53 + 1027) := by
    unfold F64.one
    rw [show 32 = 2 ^ 5 from rfl, ← Nat.pow_add, Nat.one_mul]
    exact Nat.pow_lt_pow_right (by decide) (by decide)
  have he := F64.rndI_err (L - l) 1 1027 (by omega) (by
    generalize 32 * F64.one = u at *
    generalize 1 * 2 ^ (53 + 1027) = v at *
    omega)
  have h2 : ((1 * 2 ^ 1027 : Nat) : Int) = 2 * 2 ^ 1026 := by
    rw [Nat.one_mul, Int.natCast_pow, show (1027 : Nat) = 1026 + 1 from rfl, Int.pow_succ]
    omega
  rw [h2] at he
  simp only [Int.natCast_one, Int.mul_one] at he
  unfold F64.sub
  generalize (2 : Int) ^ 1026 = z at *
  omega

theorem sub_le32 {L l : Int} (h : -((32 * F64.one : Nat) : Int) ≤ L - l ∧ L - l ≤ ((32 * F64.one : Nat) : Int)) :
    -((32 * F64.one : Nat) : Int) ≤ F64.sub L l ∧ F64.sub L l ≤ ((32 * F64.one : Nat) : Int) := by
  have := add_bound (a := L) (b := -l) (A := 32) (by omega) (by rw [← Int.sub_eq_add_neg]; exact h)
  unfold F64.add at this
  rw [← Int.sub_eq_add_neg] at this
  exact this

/-- The cost of all occurrences of a symbol. -/
theorem term_spec {c : Nat} (hc : c < 2 ^ 32) {L l : Int} (hL : 0 ≤ L ∧ L ≤ ((32 * F64.one : Nat) : Int))
    (hl : 0 ≤ l ∧ l ≤ ((32 * F64.one : Nat) : Int)) :
    let t := F64.mul (F64.ofInt c) (F64.sub L l)
    (-((32 * c * F64.one : Nat) : Int) ≤ t ∧ t ≤ ((32 * c * F64.one : Nat) : Int)) ∧
      -eps ≤ t - c * (L - l) ∧ t - c * (L - l) ≤ eps := by
  intro t
  have hd : -((32 * F64.one : Nat) : Int) ≤ L - l ∧ L - l ≤ ((32 * F64.one : Nat) : Int) := by
    generalize 32 * F64.one = u at *; omega
  have hx := sub_le32 hd
  have hxe := sub_err hd
  have ho : F64.ofInt c = ((c * F64.one : Nat) : Int) := F64.ofInt_exact (by omega)
  have hx' : F64.mul (F64.ofInt c) (F64.sub L l) = F64.rndI ((c : Int) * F64.sub L l * (F64.one : Nat)) F64.one := by
    unfold F64.mul
    rw [ho, Int.natCast_mul, Int.mul_assoc, Int.mul_comm (F64.one : Int), ← Int.mul_assoc]
  have ht : t = F64.rndI ((c : Int) * F64.sub L l * (F64.one : Nat)) F64.one := hx'
  clear_value t
  generalize F64.sub L l = x at *
  have hb : -((32 * c * F64.one : Nat) : Int) ≤ c * x ∧ c * x ≤ ((32 * c * F64.one : Nat) : Int) := by
    have e : ((32 * c * F64.one : Nat) : Int) = c * ((32 * F64.one : Nat) : Int) := by
      rw [← Int.natCast_mul, Nat.mul_comm 32 c, Nat.mul_assoc]
    rw [e, ← Int.mul_neg]
    exact ⟨Int.mul_le_mul_of_nonneg_left hx.1 (by omega), Int.mul_le_mul_of_nonneg_left hx.2 (by omega)⟩
  have hr := F64.rep_one (m := 32 * c) (by omega)
  refine ⟨?_, ?_⟩
  · rw [ht]
    refine ⟨F64.le_rndI F64.one_pos hr.neg (Int.mul_le_mul_of_nonneg_right hb.1 (by omega)),
      F64.rndI_le F64.one_pos hr (Int.mul_le_mul_of_nonneg_right hb.2 (by omega))⟩
  · have hlt : 32 * c * F64.one < 2 ^ (53 + 1059) := by
      have : 32 * c * F64.one ≤ 2 ^ 37 * F64.one := Nat.mul_le_mul_right _ (by omega)
      refine Nat.lt_of_le_of_lt this ?_
      unfold F64.one
      rw [← Nat.pow_add]
      exact Nat.pow_lt_pow_right (by decide) (by decide)
    have hone : (0 : Int) < (F64.one : Nat) := by have := F64.one_pos; omega
    have he := F64.rndI_err ((c : Int) * x * (F64.one : Nat)) F64.one 1059 F64.one_pos (by
      rw [Int.natCast_mul, Int.mul_comm (F64.one : Int), ← Int.neg_mul]
      refine ⟨Int.mul_lt_mul_of_pos_right ?_ hone, Int.mul_lt_mul_of_pos_right ?_ hone⟩
      · generalize 32 * c * F64.one = u at *
        generalize 2 ^ (53 + 1059) = v at *
        omega
      · generalize 32 * c * F64.one = u at *
        generalize 2 ^ (53 + 1059) = v at *
        omega)
    rw [← ht] at he
    have e3 : ((F64.one * 2 ^ 1059 : Nat) : Int) = 2 ^ 1059 * (F64.one : Int) := by
      rw [Int.natCast_mul, Int.natCast_pow, Int.mul_comm]; rfl
    rw [e3, ← Int.mul_assoc, ← Int.mul_assoc, ← Int.add_mul, ← Int.add_mul] at he
    have he1 := Int.le_of_mul_le_mul_right he.1 hone
    have he2 := Int.le_of_mul_le_mul_right he.2 hone
    have h4 : eps = 4 * 2 ^ 1059 := by
      unfold eps
      rw [show (1061 : Nat) = 2 + 1059 from rfl, Int.pow_add]; rfl
    have h5 : (2 : Int) ^ 1059 = 2 ^ 33 * 2 ^ 1026 := by rw [← Int.pow_add]
    have h6 : -((2 : Int) ^ 1059) ≤ c * x - c * (L - l) ∧ c * x - c * (L - l) ≤ 2 ^ 1059 := by
      rw [← Int.mul_sub, h5]
      have hz : (0 : Int) < 2 ^ 1026 := Int.pow_pos (by decide)
      generalize (2 : Int) ^ 1026 = z at *
      have a1 := Int.mul_le_mul_of_nonneg_left hxe.1 (show (0 : Int) ≤ c by omega)
      have a2 := Int.mul_le_mul_of_nonneg_left hxe.2 (show (0 : Int) ≤ c by omega)
      have a3 : (c : Int) * z ≤ 2 ^ 33 * z := Int.mul_le_mul_of_nonneg_right (by omega) (by omega)
      rw [Int.mul_neg] at a1
      omega
    rw [h4]
    generalize (2 : Int) ^ 1059 = z at *
    generalize (c : Int) * x = cx at *
    generalize (c : Int) * (L - l) = cl at *
    omega

/-- The sum of `entropyLoop`. -/
theorem entropyLoop_spec (env : Env) (hlog : Log64Ok env.log64) {L : Int} (hL : 0 ≤ L ∧ L ≤ ((32 * F64.one : Nat) : Int))
    (cs : List Nat) (bits : Int) (A : Nat) (hs : cs.sum < 2 ^ 32) (hA : A + 32 * cs.sum ≤ 2 ^ 40)
    (hb : -((A * F64.one : Nat) : Int) ≤ bits ∧ bits ≤ ((A * F64.one : Nat) : Int)) :
    let r := entropyLoop env L cs bits
    (-(((A + 32 * cs.sum) * F64.one : Nat) : Int) ≤ r ∧ r ≤ (((A + 32 * cs.sum) * F64.one : Nat) : Int)) ∧
      (let x := bits + (cs.map (fun c : Nat => if c = 0 then 0 else (c : Int) * (L - env.log64 c))).sum;
      -(2 * cs.length * eps) ≤ r - x ∧ r - x ≤ 2 * cs.length * eps) := by
  induction cs generalizing bits A with
  | nil => simpa [entropyLoop] using hb
  | cons c cs ih =>
    rw [List.sum_cons] at hs hA
    simp only [entropyLoop, List.sum_cons, List.map_cons, List.length_cons]
    by_cases hc : c = 0
    · subst hc
      have := ih bits A (by omega) (by omega) hb
      simp only [] at this
      have hp := eps_pos
      rw [if_neg (by omega), if_pos rfl, Nat.zero_add, Int.zero_add]
      refine ⟨this.1, ?_⟩
      have e : 2 * ((cs.length + 1 : Nat) : Int) * eps = 2 * (cs.length : Int) * eps + 2 * eps := by
        rw [Int.natCast_add, Int.natCast_one, Int.mul_add, Int.add_mul]; rfl
      rw [e]
      omega
    · rw [if_pos (by omega), if_neg hc]
      obtain ⟨t1, t2⟩ := term_spec (c := c) (by omega) hL (hlog c (by omega) (by omega))
      generalize F64.mul (F64.ofInt c) (F64.sub L (env.log64 c)) = t at *
      have hA' : (A + 32 * c) * F64.one = A * F64.one + 32 * c * F64.one := Nat.add_mul _ _ _
      have hsum : -(((A + 32 * c) * F64.one : Nat) : Int) ≤ bits + t ∧ bits + t ≤ (((A + 32 * c) * F64.one : Nat) : Int) := by
        rw [hA']; omega
      have hadd := add_bound (a := bits) (b := t) (A := A + 32 * c) (by omega) hsum
      have hle : (A + 32 * c) * F64.one ≤ 2 ^ 40 * F64.one := Nat.mul_le_mul_right _ (by omega)
      have herr := rnd_eps (x := bits + t) (by omega)
      have hadde : F64.add bits t = F64.rndI (bits + t) 1 := rfl
      rw [← hadde] at herr
      have := ih (F64.add bits t) (A + 32 * c) (by omega) (by omega) hadd
      simp only [] at this
      have e1 : A + 32 * (c + cs.sum) = A + 32 * c + 32 * cs.sum := by omega
      rw [e1]
      refine ⟨this.1, ?_⟩
      have e : 2 * ((cs.length + 1 : Nat) : Int) * eps = 2 * (cs.length : Int) * eps + 2 * eps := by
        rw [Int.natCast_add, Int.natCast_one, Int.mul_add, Int.add_mul]; rfl
      rw [e]
      generalize (cs.map (fun c : Nat => if c = 0 then 0 else (c : Int) * (L - env.log64 c))).sum = S at *
      generalize (c : Int) * (L - env.log64 c) = cl at *
      omega

/-! ### The estimate of a block -/

theorem extra_le (t : Rfc1951.Token) : extraBits t ≤ 18 := by
  have h1 : ∀ r ∈ lengthTable, r.2 ≤ 5 := by decide
  have h2 : ∀ r ∈ distTable, r.2 ≤ 13 := by decide
  have g : ∀ (l : List (Nat × Nat)) (m i : Nat), (∀ r ∈ l, r.2 ≤ m) → (l.getD i (0, 0)).2 ≤ m := by
    intro l m i h
    rw [List.getD_eq_getElem?_getD]
    cases e : l[i]? with
    | none => exact Nat.zero_le _
    | some r => exact h r (List.mem_of_getElem? e)
  cases t with
  | lit b => exact Nat.zero_le _
  | copy l d =>
    have a := g lengthTable 5 (row lengthTable l) h1
    have b := g distTable 13 (row distTable d) h2
    simp only [extraBits]
    omega

theorem extraLoop_spec (ts : List Token) (hts : ∀ t ∈ ts, TokOk t) (bits : Int) (A : Nat) (hA : A + 18 * ts.length ≤ 2 ^ 40)
    (hb : -((A * F64.one : Nat) : Int) ≤ bits ∧ bits ≤ ((A * F64.one : Nat) : Int)) :
    Oks (extraLoop ts bits) (fun r =>
      (-(((A + 18 * ts.length) * F64.one : Nat) : Int) ≤ r ∧ r ≤ (((A + 18 * ts.length) * F64.one : Nat) : Int)) ∧
      (let x := bits + (((ts.map Token.spec).map extraBits).sum : Nat) * (F64.one : Int);
      -(ts.length * eps) ≤ r - x ∧ r - x ≤ ts.length * eps)) := by
  induction ts generalizing bits A with
  | nil => exact .ok (by simpa using hb)
  | cons t ts ih =>
    have ht := hts t List.mem_cons_self
    have ih := ih (fun t m => hts t (List.mem_cons_of_mem _ m))
    rw [List.length_cons] at hA
    have e : ((ts.length + 1 : Nat) : Int) * eps = (ts.length : Int) * eps + eps := by
      rw [Int.natCast_add, Int.natCast_one, Int.add_mul, Int.one_mul]
    have hp := eps_pos
    have hmono : A * F64.one ≤ (A + 18) * F64.one := Nat.mul_le_mul_right _ (by omega)
    have e1 : A + 18 * (ts.length + 1) = A + 18 + 18 * ts.length := by omega
    simp only [List.length_cons, List.map_cons, List.sum_cons, e, e1]
    cases t with
    | lit b =>
      rw [extraLoop]
      refine Oks.mono (ih bits (A + 18) (by omega) (by omega)) fun r hr => ⟨hr.1, ?_⟩
      have hr2 := hr.2
      simp only [] at hr2
      simp only [Token.spec, extraBits, Nat.zero_add]
      generalize (((ts.map Token.spec).map extraBits).sum : Nat) * (F64.one : Int) = X at *
      omega
    | mtch l d =>
      obtain ⟨a1, a2, a3, a4⟩ := ht
      obtain ⟨e', k1, k2⟩ := lengthCode_row a1 a2
      obtain ⟨e'', j1, j2⟩ := distanceCode_row a3 a4
      rw [extraLoop, k1, ok_bind]
      simp only [j1]
      rw [ok_bind]
      simp only []
      have hx := extra_le (.copy l d)
      have hxe : extraBits (Token.mtch l d).spec = extraBits (.copy l d) := rfl
      rw [hxe]
      have hxd : (lengthTable.getD (row lengthTable l) (0, 0)).2 + (distTable.getD (row distTable d) (0, 0)).2 =
        extraBits (.copy l d) := rfl
      rw [hxd]
      generalize extraBits (.copy l d) = X at *
      have ho : F64.ofInt (X : Nat) = ((X * F64.one : Nat) : Int) := F64.ofInt_exact (by omega)
      rw [ho]
      have hX : X * F64.one ≤ 18 * F64.one := Nat.mul_le_mul_right _ hx
      have hA' : (A + 18) * F64.one = A * F64.one + 18 * F64.one := Nat.add_mul _ _ _
      have hadd := add_bound (a := bits) (b := ((X * F64.one : Nat) : Int)) (A := A + 18) (by omega) (by omega)
      have hle : (A + 18) * F64.one ≤ 2 ^ 40 * F64.one := Nat.mul_le_mul_right _ (by omega)
      have herr := rnd_eps (x := bits + ((X * F64.one : Nat) : Int)) (by omega)
      have hadde : F64.add bits ((X * F64.one : Nat) : Int) = F64.rndI (bits + ((X * F64.one : Nat) : Int)) 1 := rfl
      rw [← hadde] at herr
      refine Oks.mono (ih _ (A + 18) (by omega) hadd) fun r hr => ⟨hr.1, ?_⟩
      have hr2 := hr.2
      simp only [] at hr2
      rw [Int.natCast_add, Int.add_mul, ← Int.natCast_mul]
      generalize (((ts.map Token.spec).map extraBits).sum : Nat) * (F64.one : Int) = Y at *
      omega

theorem headerBits_eq : headerBits = ((300 * F64.one : Nat) : Int) := by
  have h : F64.ofInt (300 : Nat) = ((300 * F64.one : Nat) : Int) := F64.ofInt_exact (by omega)
  rw [← h]; rfl

/-- The tokens of a block, for RFC 1951. -/
def blockOf (tokens : List Token) (a b : Nat) : List Rfc1951.Token := ((tokens.drop a).take (b - a)).map Token.spec

theorem estimate_spec (env : Env) (hlog : Log64Ok env.log64) {tokens : List Token} (ht : ∀ t ∈ tokens, TokOk t)
    (hn : tokens.length + 2 < 2 ^ 32) {a b : Nat} (h1 : a < b) (h2 : b ≤ tokens.length) :
    Oks (estimateBlockCost env tokens a b) (fun c =>
      (-(((82 * (b - a) + 364) * F64.one : Nat) : Int) ≤ c ∧ c ≤ (((82 * (b - a) + 364) * F64.one : Nat) : Int)) ∧
      -(((b - a + 632 : Nat) : Int) * eps) ≤ c - estimate env.log64 F64.one (blockOf tokens a b) ∧
      c - estimate env.log64 F64.one (blockOf tokens a b) ≤ ((b - a + 632 : Nat) : Int) * eps) := by
  unfold estimateBlockCost
  rw [if_neg (by omega)]
  obtain ⟨s1, s2, s3⟩ := sliceTokens_spec ht (Nat.le_of_lt h1) h2
  rw [s1, ok_bind]
  have hlen : ((tokens.drop a).take (b - a)).length = b - a := by
    rw [List.length_take, List.length_drop]; omega
  unfold blockOf
  generalize (tokens.drop a).take (b - a) = ts at *
  have hce := countSymbols_eq ts s3 (by omega)
  have hcs := countSymbols_spec ts s3 (by omega)
  rw [hce] at hcs ⊢
  rw [ok_bind]
  have hc := hcs.out
  obtain ⟨_, hce2, hc⟩ := hc
  cases hce2
  have c1 := hc.sumLit
  have c2 := hc.sumDist
  have c3 := hc.some
  have l1 := hc.lit
  have l2 := hc.dist
  have hd0 : 0 < (distCounts (ts.map Token.spec)).sum := by
    obtain ⟨s, hs⟩ := c3
    have := getD_le_sum (distCounts (ts.map Token.spec)) s
    simp only at hs
    omega
  simp only at c1 c2 l1 l2
  simp only
  rw [Lz77.sumU32_spec _ 0 (by omega), ok_bind, Lz77.sumU32_spec _ 0 (by omega), ok_bind]
  rw [if_neg (by omega)]
  simp only [Nat.zero_add]
  rw [if_pos hd0]
  unfold estimate entropy
  generalize litCounts (ts.map Token.spec) = lit at *
  generalize distCounts (ts.map Token.spec) = dist at *
  have hh : headerBits = ((300 * F64.one : Nat) : Int) := headerBits_eq
  obtain ⟨p1, p2⟩ := entropyLoop_spec env hlog (hlog lit.sum (by omega) (by omega)) lit headerBits 300 (by omega) (by omega)
    (by rw [hh]; omega)
  generalize entropyLoop env (env.log64 lit.sum) lit headerBits = x1 at *
  obtain ⟨q1, q2⟩ := entropyLoop_spec env hlog (hlog dist.sum (by omega) (by omega)) dist x1 _ (by omega) (by omega) p1
  generalize entropyLoop env (env.log64 dist.sum) dist x1 = x2 at *
  have hle : (300 + 32 * lit.sum + 32 * dist.sum) * F64.one ≤ (64 * (b - a) + 364) * F64.one := Nat.mul_le_mul_right _ (by omega)
  refine Oks.mono (extraLoop_spec ts s3 x2 (64 * (b - a) + 364) (by omega) (by omega)) fun c hc => ?_
  obtain ⟨r1, r2⟩ := hc
  simp only [] at p2 q2 r2
  rw [hlen] at r1 r2
  rw [l1] at p2
  rw [l2] at q2
  have e1 : 64 * (b - a) + 364 + 18 * (b - a) = 82 * (b - a) + 364 := by omega
  rw [e1] at r1
  refine ⟨r1, ?_⟩
  have e2 : ((b - a + 632 : Nat) : Int) * eps = ((b - a : Nat) : Int) * eps + 632 * eps := by
    rw [Int.natCast_add, Int.add_mul]; rfl
  have e3 : (2 * ((286 : Nat) : Int) * eps) = 572 * eps := rfl
  have e4 : (2 * ((30 : Nat) : Int) * eps) = 60 * eps := rfl
  rw [hh, e3] at p2
  rw [e4] at q2
  rw [e2]
  rw [Int.natCast_mul] at p2
  have e5 : ((300 : Nat) : Int) = 300 := rfl
  rw [e5] at p2
  generalize 300 * (F64.one : Int) = H at *
  generalize (lit.map fun c : Nat => if c = 0 then (0 : Int) else (c : Int) * (env.log64 lit.sum - env.log64 c)).sum = X at *
  generalize (dist.map fun c : Nat => if c = 0 then (0 : Int) else (c : Int) * (env.log64 dist.sum - env.log64 c)).sum = Y at *
  generalize (((ts.map Token.spec).map extraBits).sum : Nat) * (F64.one : Int) = Z at *
  generalize ((b - a : Nat) : Int) * eps = W at *
  omega

end Pixo.Deflate
