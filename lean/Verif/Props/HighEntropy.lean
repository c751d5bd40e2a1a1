import Verif.Props.Deflate
import Verif.Proof.F32Order
import Verif.Spec.Repeats
/-
C78: when data is taken to be incompressible and stored.
-/
namespace Pixo.Deflate
open Spec Spec.Repeats
open Pixo.Lz77 (word mulHash le32)

theorem slots_short (l : List UInt8) (h : l.length ≤ 3) : slots l = [] := by
  match l, h with
  | [], _ => rfl
  | [_], _ => rfl
  | [_, _], _ => rfl
  | [_, _, _], _ => rfl

theorem slots_length (l : List UInt8) : (slots l).length = l.length - 3 := by
  induction l with
  | nil => rfl
  | cons a l ih =>
    match l, ih with
    | [], _ => rfl
    | [_], _ => rfl
    | [_, _], _ => rfl
    | b :: c :: d :: l, ih =>
      rw [slots, List.length_cons, ih]
      simp only [List.length_cons]
      omega

theorem slot_lt (a b c d : UInt8) : slot a b c d < 4096 := by
  unfold slot
  omega

theorem hash_eq (a b c d : UInt8) : mulHash (le32 a b c d) 20 &&& (4096 - 1) = slot a b c d := by
  have h := slot_lt a b c d
  unfold mulHash
  rw [Nat.shiftRight_eq_div_pow, show 4096 - 1 = 2 ^ 12 - 1 from rfl, Nat.and_two_pow_sub_one_eq_mod]
  exact Nat.mod_eq_of_lt h

theorem word_at {sample : List UInt8} {i : Nat} {a b c d : UInt8} {rest : List UInt8}
    (h : sample.drop i = a :: b :: c :: d :: rest) : word sample i = .ok (le32 a b c d) := by
  have g : ∀ (k : Nat) (x : UInt8), (sample.drop i)[k]? = some x → getChecked sample (i + k) = .ok x := by
    intro k x e
    rw [List.getElem?_drop] at e
    unfold getChecked
    rw [e]
  rw [h] at g
  unfold word
  have g0 := g 0 a rfl
  have g1 := g 1 b rfl
  have g2 := g 2 c rfl
  have g3 := g 3 d rfl
  rw [Nat.add_zero] at g0
  rw [g0, ok_bind, g1, ok_bind, g2, ok_bind, g3, ok_bind]
  rfl

theorem count_set (l : List Bool) (i : Nat) (h : l[i]? = some false) :
    (l.set i true).count true = l.count true + 1 := by
  induction l generalizing i with
  | nil => simp at h
  | cons a l ih =>
    cases i with
    | zero => simp at h; subst h; simp
    | succ i =>
      have := ih i (by simpa using h)
      rw [List.set_cons_succ, List.count_cons, List.count_cons]; omega

theorem collisions_spec (sample : List UInt8) (l : List UInt8) (i : Nat) (hl : sample.drop i = l) (seen : List Bool)
    (hs : seen.length = 4096) (prev : List Nat) (hp : ∀ v, v < 4096 → seen[v]? = some (decide (v ∈ prev))) (c : Nat) :
    collisions sample (l.length - 3) i seen c = .ok (c + repeatsAfter prev (slots l)) ∧
      l.length - 3 + seen.count true ≤ repeatsAfter prev (slots l) + 4096 := by
  induction l generalizing i seen prev c with
  | nil =>
    refine ⟨rfl, ?_⟩
    have := List.count_le_length (a := true) (l := seen)
    simp only [List.length_nil]
    omega
  | cons a l ih =>
    by_cases h3 : l.length < 3
    · rw [slots_short (a :: l) (by rw [List.length_cons]; omega)]
      have e : (a :: l).length - 3 = 0 := by rw [List.length_cons]; omega
      rw [e]
      refine ⟨rfl, ?_⟩
      have := List.count_le_length (a := true) (l := seen)
      omega
    · obtain ⟨b, x, d, rest, rfl⟩ : ∃ b x d rest, l = b :: x :: d :: rest := by
        match l, h3 with
        | b :: x :: d :: rest, _ => exact ⟨b, x, d, rest, rfl⟩
        | [], h => exact absurd (by simp) h
        | [_], h => exact absurd (by simp) h
        | [_, _], h => exact absurd (by simp) h
      have e : (a :: b :: x :: d :: rest).length - 3 = (b :: x :: d :: rest).length - 3 + 1 := by
        simp only [List.length_cons]; omega
      have hnext : sample.drop (i + 1) = b :: x :: d :: rest := by
        rw [← List.drop_drop, hl]; rfl
      rw [e, slots, repeatsAfter, collisions, word_at hl, ok_bind]
      simp only [hash_eq]
      have hlt := slot_lt a b x d
      generalize slot a b x d = v at *
      have hg : getChecked seen v = .ok (decide (v ∈ prev)) := by
        unfold getChecked
        rw [hp v hlt]
      rw [hg, ok_bind]
      by_cases hv : v ∈ prev
      · simp only [hv, decide_true, if_true]
        have := ih (i + 1) hnext seen hs (v :: prev) (fun w hw => by
          rw [hp w hw]
          by_cases hwv : w = v
          · subst hwv; simp [hv]
          · simp [hwv]) (c + 1)
        rw [this.1]
        refine ⟨?_, ?_⟩
        · congr 1; omega
        · have h2 := this.2
          omega
      · simp only [hv, decide_false, if_false]
        have hset : setChecked seen v true = .ok (seen.set v true) := by
          unfold setChecked
          rw [if_pos (by omega)]
        have hcount := count_set seen v (by rw [hp v hlt]; simp [hv])
        have := ih (i + 1) hnext (seen.set v true) (by rw [List.length_set, hs]) (v :: prev) (fun w hw => by
          by_cases hwv : w = v
          · subst hwv; rw [List.getElem?_set_self (by omega)]; simp
          · rw [List.getElem?_set_ne (by omega), hp w hw]; simp [hwv]) c
        simp only [Bool.false_eq_true, if_false]
        rw [hset, ok_bind, this.1]
        refine ⟨?_, ?_⟩
        · congr 1; omega
        · have h2 := this.2
          rw [hcount] at h2
          omega

/-! ### The rate -/

theorem lit_rate : F32.lit 5 100 = ((13421773 * 2 ^ 121 : Nat) : Int) := by decide +kernel

theorem rnd_scale (k n d : Nat) (hk : 0 < k) : F32.rnd (k * n) (k * d) = F32.rnd n d := by
  unfold F32.rnd
  simp only []
  rw [Nat.mul_div_mul_left _ _ hk, Nat.mul_assoc, Nat.mul_div_mul_left _ _ hk, Nat.mul_mod_mul_left]
  generalize n % (d * 2 ^ ((n / d).log2 - 23)) = r
  generalize d * 2 ^ ((n / d).log2 - 23) = g
  have e1 : (2 * (k * r) > k * g) ↔ (2 * r > g) := by
    rw [Nat.mul_left_comm]; exact Nat.mul_lt_mul_left hk
  have e2 : (2 * (k * r) = k * g) ↔ (2 * r = g) := by
    rw [Nat.mul_left_comm]; exact Nat.mul_right_inj (Nat.pos_iff_ne_zero.1 hk)
  simp only [e1, e2]

/-- The comparison with 0.05 in `f32` is exact for these numbers. -/
theorem rate_iff {c n : Nat} (hc : c ≤ 8189) (h0 : 0 < n) (hn : n ≤ 8189) :
    F32.div (F32.ofInt c) (F32.ofInt (n : Nat)) < F32.lit 5 100 ↔ 20 * c < n := by
  have hx : F32.div (F32.ofInt c) (F32.ofInt (n : Nat)) = F32.rndI ((c * F32.one * F32.one : Nat) : Int) (n * F32.one) := by
    unfold F32.div
    rw [F32.ofInt_exact (show c ≤ 2 ^ 24 by omega), F32.ofInt_exact (show n ≤ 2 ^ 24 by omega), Int.toNat_natCast]
    rw [← Int.natCast_mul]
  rw [hx, lit_rate]
  have hd : 0 < n * F32.one := Nat.mul_pos h0 F32.one_pos
  have hone : F32.one = 2 ^ 28 * 2 ^ 121 := by unfold F32.one; rw [← Nat.pow_add]
  constructor
  · intro h
    apply Nat.lt_of_not_le
    intro hle
    refine absurd h (Int.not_lt.2 ?_)
    rcases Nat.lt_or_ge n (20 * c) with h1 | h1
    · have hr : F32.Rep ((13421773 * 2 ^ 121 : Nat) : Int) := F32.rep_nat 121 (by decide)
      refine F32.le_rndI hd hr ?_
      rw [← Int.natCast_mul]
      refine Int.ofNat_le.2 ?_
      have e : 13421773 * 2 ^ 121 * (n * F32.one) = (13421773 * n) * (2 ^ 121 * F32.one) := by
        rw [Nat.mul_mul_mul_comm]
      have e' : c * F32.one * F32.one = (c * 2 ^ 28) * (2 ^ 121 * F32.one) := by
        have : c * F32.one = c * 2 ^ 28 * 2 ^ 121 := by rw [hone, Nat.mul_assoc]
        rw [this, Nat.mul_assoc]
      rw [e, e']
      exact Nat.mul_le_mul_right _ (by omega)
    · have h2 : n = 20 * c := by omega
      have e : F32.rnd (c * F32.one * F32.one) (n * F32.one) = F32.rnd F32.one 20 := by
        rw [h2, show 20 * c * F32.one = c * F32.one * 20 by rw [Nat.mul_assoc, Nat.mul_comm 20]]
        exact rnd_scale _ _ _ (Nat.mul_pos (by omega) F32.one_pos)
      have e2 : F32.rnd F32.one 20 = 13421773 * 2 ^ 121 := by decide +kernel
      unfold F32.rndI
      rw [if_pos (Int.natCast_nonneg _), Int.toNat_natCast, e, e2]
      exact Int.le_refl _
  · intro h
    have hr : F32.Rep ((13421772 * 2 ^ 121 : Nat) : Int) := F32.rep_nat 121 (by decide)
    refine Int.lt_of_le_of_lt (F32.rndI_le hd hr ?_) (Int.ofNat_lt.2 (Nat.mul_lt_mul_of_pos_right (by decide) (Nat.two_pow_pos _)))
    rw [← Int.natCast_mul]
    refine Int.ofNat_le.2 ?_
    have e : 13421772 * 2 ^ 121 * (n * F32.one) = (13421772 * n) * (2 ^ 121 * F32.one) := by
      rw [Nat.mul_mul_mul_comm]
    have e' : c * F32.one * F32.one = (c * 2 ^ 28) * (2 ^ 121 * F32.one) := by
      have : c * F32.one = c * 2 ^ 28 * 2 ^ 121 := by rw [hone, Nat.mul_assoc]
      rw [this, Nat.mul_assoc]
    rw [e, e']
    exact Nat.mul_le_mul_right _ (by omega)

theorem repeatsAfter_le (prev l : List Nat) : repeatsAfter prev l ≤ l.length := by
  induction l generalizing prev with
  | nil => exact Nat.le_refl _
  | cons x xs ih =>
    have := ih (x :: prev)
    rw [repeatsAfter, List.length_cons]
    split <;> omega

theorem isHighEntropy_spec (data : List UInt8) (h : 4096 ≤ data.length) :
    let w := slots (data.take 8192)
    isHighEntropy data = .ok (decide (20 * repeats w < w.length)) ∧ w.length ≤ repeats w + 4096 ∧
      w.length = min data.length 8192 - 3 := by
  intro w
  have hl : (data.take 8192).length = min data.length 8192 := by rw [List.length_take]; omega
  have hw : w.length = min data.length 8192 - 3 := by rw [slots_length, hl]
  obtain ⟨h1, h2⟩ := collisions_spec (data.take 8192) (data.take 8192) 0 rfl (List.replicate 4096 false)
    (List.length_replicate) [] (fun v hv => by
      rw [List.getElem?_replicate, if_pos hv]; simp) 0
  have hz : (List.replicate 4096 false).count true = 0 := by rw [List.count_replicate]; rfl
  rw [hz, hl] at h2
  have hle : repeats w ≤ w.length := repeatsAfter_le [] w
  refine ⟨?_, ?_, hw⟩
  · unfold isHighEntropy
    rw [if_neg (by omega)]
    simp only []
    rw [h1, ok_bind, hl]
    change Except.ok _ = _
    rw [Nat.zero_add]
    have hq := rate_iff (c := repeats w) (n := min data.length 8192 - 3) (by omega) (by omega) (by omega)
    rw [hw]
    exact congrArg Except.ok (decide_eq_decide.2 hq)
  · change w.length ≤ repeatsAfter [] w + 4096
    rw [hw]
    exact h2

end Pixo.Deflate

namespace Pixo.Props
open Spec Spec.Repeats Pixo.Deflate

/-- What the comments say of the check: data of any size from 4 KiB on may be found to be incompressible, and is then
stored. It does not hold, see `C78_fails`. -/
def C78_full : Prop := ∀ n, 4096 ≤ n → ∃ data, data.length = n ∧ isHighEntropy data = .ok true

/-- **C78**, what is computed: data of at least 4096 bytes is found to be incompressible if and only if fewer than one in
twenty windows of four bytes among the first 8192 bytes have the hash value of an earlier window. -/
theorem C78_check_partial (data : List UInt8) (h : 4096 ≤ data.length) :
    isHighEntropy data = .ok (decide (20 * repeats (slots (data.take 8192)) < (slots (data.take 8192)).length)) :=
  (isHighEntropy_spec data h).1

/-- **C78 fails** for all data of at least 4315 bytes, random or not: there are only 4096 hash values, so that at least 216 of the 4312 windows
repeat one, and from there on it only gets worse. Nothing of that size is ever found to be incompressible. -/
theorem C78_never (data : List UInt8) (h : 4315 ≤ data.length) : isHighEntropy data = .ok false := by
  obtain ⟨h1, h2, h3⟩ := isHighEntropy_spec data (by omega)
  rw [h1]
  congr 1
  exact decide_eq_false (by omega)

theorem C78_fails : ¬ C78_full := by
  intro h
  obtain ⟨data, hl, e⟩ := h 4315 (by omega)
  rw [C78_never data (by omega)] at e
  cases e

/-- **C78**, consequence: `deflate_zlib` and `deflate_zlib_packed` always run LZ77 on data of that size. -/
theorem C78_zlib_partial (env : Env) (adler : List UInt8 → R Nat) (pool : Pool) (data : List UInt8) (level : Nat)
    (h : data.length < 4096 ∨ 4315 ≤ data.length) :
    deflateZlib env adler pool data level = withReusable pool level (fun d => d.compressZlib env adler data) ∧
    deflateZlibPacked env adler pool data level = withReusable pool level (fun d => d.compressPackedZlib env adler data) := by
  have hb : bail data = .ok false := by
    unfold bail
    rcases h with h | h
    · rw [if_neg (by omega)]
    · rw [if_pos (by omega), C78_never data h]
  unfold deflateZlib deflateZlibPacked
  rw [hb]
  exact ⟨rfl, rfl⟩

/-! ### Data that is found to be incompressible -/

/-- Bytes chosen so that each window gets a hash value not used before as long as there is one with the right low bits. `cs` has
sixteen counters of 16 bits. -/
def unrepeating : Nat → Nat → Nat → Nat → Nat → List UInt8
  | 0, _, _, _, _ => []
  | n + 1, a, b, c, cs =>
    let p := (a + 256 * b + 65536 * c) * 0x1E35A7BD % 4294967296
    let k := 65536 ^ (p / 1048576 % 16)
    let d := (cs / k % 256 + 256 - p / 16777216) * 149 % 256
    UInt8.ofNat d :: unrepeating n b c d (cs + k)

/-- 4096 bytes. -/
def unrepeated : List UInt8 := 1 :: 2 :: 3 :: unrepeating 4093 1 2 3 0

/-- The number of repeats, with a set of bits. -/
def repeatsFast : List Nat → Nat → Nat → Nat
  | [], _, c => c
  | x :: xs, m, c => if m.testBit x then repeatsFast xs m (c + 1) else repeatsFast xs (m ||| 2 ^ x) c

theorem repeatsFast_eq (l : List Nat) (m c : Nat) (prev : List Nat) (h : ∀ v, m.testBit v = decide (v ∈ prev)) :
    repeatsFast l m c = c + repeatsAfter prev l := by
  induction l generalizing m c prev with
  | nil => rfl
  | cons x xs ih =>
    rw [repeatsFast, repeatsAfter, h x]
    by_cases hx : x ∈ prev
    · simp only [hx, decide_true, if_true]
      rw [ih m (c + 1) (x :: prev) fun v => by
        rw [h v]
        by_cases hv : v = x
        · subst hv; simp [hx]
        · simp [hv]]
      omega
    · simp only [hx, decide_false, if_false, Bool.false_eq_true]
      rw [ih (m ||| 2 ^ x) c (x :: prev) fun v => by
        rw [Nat.testBit_or, h v, Nat.testBit_two_pow]
        by_cases hv : v = x
        · subst hv; simp
        · have : ¬ x = v := fun e => hv e.symm
          simp [hv, this]]
      omega

theorem unrepeated_length : unrepeated.length = 4096 := by
  have : ∀ n a b c cs, (unrepeating n a b c cs).length = n := by
    intro n
    induction n with
    | zero => intros; rfl
    | succ n ih => intros; rw [unrepeating, List.length_cons, ih]
  unfold unrepeated
  rw [List.length_cons, List.length_cons, List.length_cons, this]

theorem unrepeated_repeats : repeatsFast (slots unrepeated) 0 0 = 106 := by decide +kernel

/-- The check does find some data to be incompressible. -/
example : isHighEntropy unrepeated = .ok true := by
  have h := C78_check_partial unrepeated (by rw [unrepeated_length]; omega)
  rw [List.take_of_length_le (by rw [unrepeated_length]; omega)] at h
  have hr : repeats (slots unrepeated) = 106 := by
    have := repeatsFast_eq (slots unrepeated) 0 0 [] (by simp)
    rw [unrepeated_repeats, Nat.zero_add] at this
    exact this.symm
  rw [hr, slots_length, unrepeated_length] at h
  exact h

end Pixo.Props
