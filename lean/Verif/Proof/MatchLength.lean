import Verif.Model.MatchLength
import Verif.Proof.Safe
/-
Every match length function returns the length of the common prefix.
-/
namespace Pixo.MatchLength
open Pixo

/-- `cmp` finds the first difference of two `W` byte blocks. -/
def CmpOk (W : Nat) (cmp : List UInt8 → List UInt8 → Option Nat) : Prop :=
  ∀ a b : List UInt8, a.length = W → b.length = W →
    match cmp a b with
    | none => a = b
    | some k => k < W ∧ a.take k = b.take k ∧ a[k]? ≠ b[k]?

theorem tz_odd {n x : Nat} (h : x % 2 = 1) : tz n x = 0 := by
  cases n with
  | zero => rfl
  | succ n => rw [tz, if_pos h]

theorem tz_even {n x : Nat} (h : x % 2 = 0) : tz (n + 1) x = 1 + tz n (x / 2) := by
  rw [tz, if_neg (by omega)]

theorem tz_shift (k n x : Nat) (h : x % 2 ^ k = 0) : tz (n + k) x = k + tz n (x / 2 ^ k) := by
  induction k generalizing x with
  | zero => simp
  | succ k ih =>
    have h2 : x % 2 = 0 := by
      have : x % 2 ^ (k + 1) % 2 = x % 2 := Nat.mod_mod_of_dvd _ ⟨2 ^ k, by rw [Nat.pow_succ, Nat.mul_comm]⟩
      omega
    have hx : x = 2 * (x / 2) := by omega
    have h3 : (x / 2) % 2 ^ k = 0 := by
      rw [hx, Nat.pow_succ, Nat.mul_comm (2 ^ k) 2, Nat.mul_mod_mul_left] at h; omega
    rw [← Nat.add_assoc, tz_even h2, ih _ h3, Nat.div_div_eq_div_mul, Nat.pow_succ, Nat.mul_comm 2]; omega

theorem tz_lt (n x : Nat) (h : x % 2 ^ n ≠ 0) : tz n x < n := by
  induction n generalizing x with
  | zero => simp [Nat.mod_one] at h
  | succ n ih =>
    rw [tz]
    split
    · omega
    · have : (x / 2) % 2 ^ n ≠ 0 := by
        intro h0
        apply h
        have hx : x = 2 * (x / 2) := by omega
        rw [hx, Nat.pow_succ, Nat.mul_comm (2 ^ n) 2, Nat.mul_mod_mul_left, h0]
      have := ih _ this
      omega

/-! ### Eight bytes through `u64` -/

theorem leNat_xor (x y : UInt8) (a b : Nat) :
    (x.toNat + 256 * a) ^^^ (y.toNat + 256 * b) = (x.toNat ^^^ y.toNat) + 256 * (a ^^^ b) := by
  have key : ∀ (u v : Nat), u < 2 ^ 8 → u + 256 * v = 2 ^ 8 * v + u := by intro u v _; omega
  have hx : x.toNat < 2 ^ 8 := x.toNat_lt
  have hy : y.toNat < 2 ^ 8 := y.toNat_lt
  have hxy : x.toNat ^^^ y.toNat < 2 ^ 8 := Nat.xor_lt_two_pow hx hy
  rw [key _ _ hx, key _ _ hy, key _ _ hxy]
  apply Nat.eq_of_testBit_eq
  intro i
  rw [Nat.testBit_xor, Nat.testBit_two_pow_mul_add _ hx, Nat.testBit_two_pow_mul_add _ hy,
    Nat.testBit_two_pow_mul_add _ hxy]
  split
  · rw [Nat.testBit_xor]
  · rw [Nat.testBit_xor]

theorem leNat_inj {a b : List UInt8} (h : a.length = b.length) (e : leNat a = leNat b) : a = b := by
  induction a generalizing b with
  | nil => cases b with
    | nil => rfl
    | cons => simp at h
  | cons x a ih =>
    cases b with
    | nil => simp at h
    | cons y b =>
      simp only [leNat] at e
      have hx := x.toNat_lt
      have hy := y.toNat_lt
      have h1 : x.toNat = y.toNat := by omega
      rw [UInt8.toNat_inj.1 h1, ih (by simpa using h) (by omega)]

/-- First index where the lists differ. -/
theorem exists_diff {a b : List UInt8} (h : a.length = b.length) (hne : a ≠ b) :
    ∃ k, k < a.length ∧ a.take k = b.take k ∧ a[k]? ≠ b[k]? := by
  induction a generalizing b with
  | nil => cases b with
    | nil => exact absurd rfl hne
    | cons => simp at h
  | cons x a ih =>
    cases b with
    | nil => simp at h
    | cons y b =>
      by_cases hxy : x = y
      · subst hxy
        obtain ⟨k, hk, ht, hd⟩ := ih (b := b) (by simpa using h) (by rintro rfl; exact hne rfl)
        exact ⟨k + 1, by simpa using hk, by simp [ht], by simpa using hd⟩
      · exact ⟨0, by simp, rfl, by simpa using hxy⟩

theorem xor_tz {a b : List UInt8} (k m : Nat) (hk : k < a.length) (hkb : k < b.length) (hm : a.length ≤ k + m)
    (ht : a.take k = b.take k) (hd : a[k]? ≠ b[k]?) :
    tz (8 * (k + m)) (leNat a ^^^ leNat b) / 8 = k := by
  induction k generalizing a b with
  | zero =>
    cases a with
    | nil => simp at hk
    | cons x a =>
      cases b with
      | nil => simp at hkb
      | cons y b =>
        simp only [leNat, leNat_xor]
        have hxy : x.toNat ^^^ y.toNat ≠ 0 := by
          intro h0
          apply hd
          have : x.toNat = y.toNat := by
            have := congrArg (· ^^^ y.toNat) h0
            simpa [Nat.xor_assoc] using this
          simp [UInt8.toNat_inj.1 this]
        have hlt : x.toNat ^^^ y.toNat < 2 ^ 8 := Nat.xor_lt_two_pow x.toNat_lt y.toNat_lt
        have hm1 : 1 ≤ m := by simp at hm; omega
        have h8 : tz (8 * (0 + m)) ((x.toNat ^^^ y.toNat) + 256 * (leNat a ^^^ leNat b)) < 8 := by
          generalize x.toNat ^^^ y.toNat = u at *
          generalize leNat a ^^^ leNat b = v
          rw [show 8 * (0 + m) = (8 * m - 8) + 8 by omega]
          have step : ∀ (j n u v : Nat), u ≠ 0 → u < 2 ^ j → tz (n + j) (u + 2 ^ j * v) < j := by
            intro j
            induction j with
            | zero => intro n u v h1 h2; simp at h2; omega
            | succ j ih =>
              intro n u v h1 h2
              rw [← Nat.add_assoc, tz]
              have hp : 2 ^ (j + 1) * v = 2 * (2 ^ j * v) := by rw [Nat.pow_succ]; simp [Nat.mul_comm, Nat.mul_assoc, Nat.mul_left_comm]
              split
              · omega
              · rename_i hodd
                have hu : u % 2 = 0 := by omega
                rw [hp, show (u + 2 * (2 ^ j * v)) / 2 = u / 2 + 2 ^ j * v by omega]
                have := ih n (u / 2) v (by omega) (by rw [Nat.pow_succ] at h2; omega)
                omega
          exact step 8 _ u v hxy hlt
        omega
  | succ k ih =>
    cases a with
    | nil => simp at hk
    | cons x a =>
      cases b with
      | nil => simp at hkb
      | cons y b =>
        simp only [List.take_succ_cons, List.cons.injEq] at ht
        obtain ⟨rfl, ht⟩ := ht
        simp only [leNat, leNat_xor, Nat.xor_self, Nat.zero_add]
        have := ih (a := a) (b := b) (by simpa using hk) (by simpa using hkb) (by simp at hm; omega) ht (by simpa using hd)
        rw [show 8 * (k + 1 + m) = 8 * (k + m) + 8 by omega,
          tz_shift 8 _ _ (by rw [show (2:Nat) ^ 8 = 256 by decide, Nat.mul_mod_right]),
          show (2:Nat) ^ 8 = 256 by decide, Nat.mul_div_cancel_left _ (by decide)]
        omega

theorem cmp8_ok : CmpOk 8 cmp8 := by
  intro a b ha hb
  unfold cmp8
  by_cases h : leNat a = leNat b
  · rw [if_neg (by simpa using h)]
    exact leNat_inj (by omega) h
  · rw [if_pos h]
    have hne : a ≠ b := by rintro rfl; exact h rfl
    obtain ⟨k, hk, ht, hd⟩ := exists_diff (by omega) hne
    have := xor_tz (a := a) (b := b) k (8 - k) hk (by omega) (by omega) ht hd
    rw [show 8 * (k + (8 - k)) = 64 by omega] at this
    simp only [this]
    exact ⟨by omega, ht, hd⟩

/-! ### Byte masks -/

theorem movemask_lt {W : Nat} (a b : List UInt8) (ha : a.length = W) (hb : b.length = W) : movemask a b < 2 ^ W := by
  induction a generalizing b W with
  | nil => subst ha; simp [movemask]
  | cons x a ih =>
    cases b with
    | nil => simp [movemask]; exact Nat.two_pow_pos _
    | cons y b =>
      subst ha
      have := ih b rfl (by simpa using hb)
      simp only [movemask, List.length_cons, Nat.pow_succ]
      split <;> omega

theorem movemask_full (a b : List UInt8) (h : a.length = b.length) : movemask a b = 2 ^ a.length - 1 ↔ a = b := by
  induction a generalizing b with
  | nil => cases b with
    | nil => simp [movemask]
    | cons => simp at h
  | cons x a ih =>
    cases b with
    | nil => simp at h
    | cons y b =>
      have ih := ih b (by simpa using h)
      have hlt := movemask_lt a b rfl (by simpa using h.symm)
      have hp := Nat.two_pow_pos a.length
      simp only [movemask, List.length_cons, Nat.pow_succ, List.cons.injEq]
      by_cases hxy : x = y
      · rw [if_pos hxy]
        constructor
        · intro e; exact ⟨hxy, ih.1 (by omega)⟩
        · rintro ⟨_, e⟩; have := ih.2 e; omega
      · rw [if_neg hxy]
        constructor
        · intro e; omega
        · rintro ⟨e, _⟩; exact absurd e hxy

theorem mask_tz {a b : List UInt8} (k n : Nat) (hl : a.length = b.length) (hk : k < a.length) (hn : a.length ≤ n)
    (ht : a.take k = b.take k) (hd : a[k]? ≠ b[k]?) :
    tz n (2 ^ n - 1 - movemask a b) = k := by
  induction k generalizing a b n with
  | zero =>
    cases a with
    | nil => simp at hk
    | cons x a =>
      cases b with
      | nil => simp at hl
      | cons y b =>
        have hxy : x ≠ y := by simpa using hd
        simp only [movemask, if_neg hxy, Nat.zero_add]
        have hlt := movemask_lt a b rfl (by simpa using hl.symm)
        obtain ⟨n, rfl⟩ : ∃ n', n = n' + 1 := ⟨n - 1, by simp at hn; omega⟩
        have hp : 2 ^ a.length ≤ 2 ^ n := Nat.pow_le_pow_right (by decide) (by simpa using hn)
        apply tz_odd
        rw [Nat.pow_succ]; omega
  | succ k ih =>
    cases a with
    | nil => simp at hk
    | cons x a =>
      cases b with
      | nil => simp at hl
      | cons y b =>
        simp only [List.take_succ_cons, List.cons.injEq] at ht
        obtain ⟨rfl, ht⟩ := ht
        have hlt := movemask_lt a b rfl (by simpa using hl.symm)
        obtain ⟨n, rfl⟩ : ∃ n', n = n' + 1 := ⟨n - 1, by simp at hn; omega⟩
        have hp : 2 ^ a.length ≤ 2 ^ n := Nat.pow_le_pow_right (by decide) (by simpa using hn)
        simp only [movemask, if_pos]
        have ih := ih (a := a) (b := b) n (by simpa using hl) (by simpa using hk) (by simpa using hn) ht (by simpa using hd)
        rw [tz_even (by rw [Nat.pow_succ]; omega),
          show (2 ^ (n + 1) - 1 - (1 + 2 * movemask a b)) / 2 = 2 ^ n - 1 - movemask a b by rw [Nat.pow_succ]; omega, ih]
        omega

theorem cmp16_ok : CmpOk 16 cmp16 := by
  intro a b ha hb
  unfold cmp16
  simp only []
  have hf := movemask_full a b (by omega)
  rw [ha] at hf
  by_cases h : movemask a b = 0xFFFF
  · rw [if_neg (by simpa using h)]
    exact hf.1 h
  · rw [if_pos h]
    have hne : a ≠ b := fun e => h (hf.2 e)
    obtain ⟨k, hk, ht, hd⟩ := exists_diff (by omega) hne
    simp only [mask_tz k 32 (by omega) hk (by omega) ht hd]
    exact ⟨by omega, ht, hd⟩

theorem cmp32_ok : CmpOk 32 cmp32 := by
  intro a b ha hb
  unfold cmp32
  simp only []
  have hf := movemask_full a b (by omega)
  rw [ha] at hf
  by_cases h : movemask a b = 0xFFFFFFFF
  · rw [if_neg (by simpa using h)]
    exact hf.1 h
  · rw [if_pos h]
    have hne : a ≠ b := fun e => h (hf.2 e)
    obtain ⟨k, hk, ht, hd⟩ := exists_diff (by omega) hne
    simp only [mask_tz k 32 (by omega) hk (by omega) ht hd]
    exact ⟨by omega, ht, hd⟩

/-! ### NEON lanes -/

theorem foldl_min_all (l : List Nat) (h : ∀ x ∈ l, x = 255) : l.foldl min 255 = 255 := by
  induction l with
  | nil => rfl
  | cons a l ih =>
    rw [List.foldl_cons, h a (by simp), Nat.min_self]
    exact ih (fun x hx => h x (by simp [hx]))

theorem foldl_min_le (l : List Nat) (m : Nat) : l.foldl min m ≤ m ∧ ∀ x ∈ l, l.foldl min m ≤ x := by
  induction l generalizing m with
  | nil => simp
  | cons a l ih =>
    rw [List.foldl_cons]
    have h := ih (min m a)
    refine ⟨by omega, ?_⟩
    intro x hx
    rcases List.mem_cons.1 hx with rfl | hx
    · omega
    · exact h.2 x hx

theorem firstZero_spec {a b : List UInt8} (k i : Nat) (hl : a.length = b.length) (hk : k < a.length)
    (ht : a.take k = b.take k) (hd : a[k]? ≠ b[k]?) :
    firstZero (List.zipWith (fun x y => if x = y then 255 else 0) a b) i = some (i + k) := by
  induction k generalizing a b i with
  | zero =>
    cases a with
    | nil => simp at hk
    | cons x a =>
      cases b with
      | nil => simp at hl
      | cons y b =>
        have hxy : x ≠ y := by simpa using hd
        rw [List.zipWith_cons_cons, firstZero, if_neg hxy, if_pos rfl]; rfl
  | succ k ih =>
    cases a with
    | nil => simp at hk
    | cons x a =>
      cases b with
      | nil => simp at hl
      | cons y b =>
        simp only [List.take_succ_cons, List.cons.injEq] at ht
        obtain ⟨rfl, ht⟩ := ht
        rw [List.zipWith_cons_cons, firstZero, if_pos rfl, if_neg (by decide),
          ih (i + 1) (by simpa using hl) (by simpa using hk) ht (by simpa using hd)]
        congr 1; omega

theorem cmpNeon_ok : CmpOk 16 cmpNeon := by
  intro a b ha hb
  unfold cmpNeon
  simp only []
  by_cases hab : a = b
  · subst hab
    rw [if_neg]
    intro h
    apply h
    apply foldl_min_all
    intro x hx
    rw [List.zipWith_self] at hx
    simp at hx; exact hx.2.symm
  · obtain ⟨k, hk, ht, hd⟩ := exists_diff (by omega) hab
    have hz := firstZero_spec k 0 (by omega) hk ht hd
    rw [if_pos]
    · simp only [hz, Nat.zero_add]
      exact ⟨by omega, ht, hd⟩
    · intro h
      have h : ∀ x ∈ List.zipWith (fun x y => if x = y then 255 else 0) a b, 255 ≤ x := by
        intro x hx
        have := (foldl_min_le _ 255).2 x hx
        omega
      have : ∀ (l : List Nat) i j, (∀ x ∈ l, 255 ≤ x) → firstZero l i ≠ some j := by
        intro l
        induction l with
        | nil => intro i j _; simp [firstZero]
        | cons c l ih =>
          intro i j hl
          rw [firstZero, if_neg (by have := hl c (by simp); omega)]
          exact ih _ _ (fun x hx => hl x (by simp [hx]))
      exact this _ _ _ h hz

/-! ### The loops -/

/-- `l` is the length of the common prefix of the data at `pos1` and `pos2`, at most `maxLen`. -/
def Prefix (data : List UInt8) (pos1 pos2 l : Nat) : Prop := ∀ i, i < l → data[pos1 + i]? = data[pos2 + i]?

def IsLcp (data : List UInt8) (pos1 pos2 maxLen l : Nat) : Prop :=
  l ≤ maxLen ∧ Prefix data pos1 pos2 l ∧ (l < maxLen → data[pos1 + l]? ≠ data[pos2 + l]?)

theorem slice_ok {data : List UInt8} {a n : Nat} (h : a + n ≤ data.length) :
    slice data a n = .ok ((data.drop a).take n) := if_pos h

theorem slice_get (data : List UInt8) (a n i : Nat) (hi : i < n) :
    ((data.drop a).take n)[i]? = data[a + i]? := by
  rw [List.getElem?_take, if_pos hi, List.getElem?_drop]

theorem prefix_extend {data : List UInt8} {p1 p2 l k W : Nat} (h : Prefix data p1 p2 l) (hk : k ≤ W)
    (he : ((data.drop (p1 + l)).take W).take k = ((data.drop (p2 + l)).take W).take k) :
    Prefix data p1 p2 (l + k) := by
  intro i hi
  by_cases h1 : i < l
  · exact h i h1
  · have := congrArg (·[i - l]?) he
    simp only [List.getElem?_take] at this
    rw [if_pos (by omega), if_pos (by omega), if_pos (by omega), if_pos (by omega),
      List.getElem?_drop, List.getElem?_drop] at this
    rwa [show p1 + l + (i - l) = p1 + i by omega, show p2 + l + (i - l) = p2 + i by omega] at this

theorem blockLoop_spec {W : Nat} {cmp} (hW : 0 < W) (hc : CmpOk W cmp) (fuel : Nat) (data : List UInt8)
    (p1 p2 m l : Nat) (h1 : p1 + m ≤ data.length) (h2 : p2 + m ≤ data.length)
    (hl : l ≤ m) (hp : Prefix data p1 p2 l) (hf : m + 1 ≤ fuel + l) :
    Oks (blockLoop W cmp fuel data p1 p2 m l) (fun r =>
      if r.2 then IsLcp data p1 p2 m r.1 else r.1 ≤ m ∧ Prefix data p1 p2 r.1) := by
  induction fuel generalizing l with
  | zero => omega
  | succ fuel ih =>
    rw [blockLoop]
    by_cases hb : l + W ≤ m
    · rw [if_pos hb, slice_ok (by omega), ok_bind, slice_ok (by omega), ok_bind]
      have hcmp := hc ((data.drop (p1 + l)).take W) ((data.drop (p2 + l)).take W)
        (by rw [List.length_take, List.length_drop]; omega) (by rw [List.length_take, List.length_drop]; omega)
      split at hcmp
      · rename_i e
        rw [e]
        exact ih _ hb (prefix_extend hp (Nat.le_refl _) (congrArg (List.take W) hcmp)) (by omega)
      · rename_i k e
        rw [e]
        apply Oks.ok
        simp only [if_true]
        obtain ⟨hk, ht, hd⟩ := hcmp
        refine ⟨by omega, prefix_extend hp (by omega) ht, fun _ => ?_⟩
        rw [slice_get _ _ _ _ hk, slice_get _ _ _ _ hk] at hd
        rwa [← Nat.add_assoc, ← Nat.add_assoc]
    · rw [if_neg hb]
      exact Oks.ok ⟨hl, hp⟩

theorem byteLoop_spec (fuel : Nat) (data : List UInt8)
    (p1 p2 m l : Nat) (h1 : p1 + m ≤ data.length) (h2 : p2 + m ≤ data.length)
    (hl : l ≤ m) (hp : Prefix data p1 p2 l) (hf : m + 1 ≤ fuel + l) :
    Oks (byteLoop fuel data p1 p2 m l) (IsLcp data p1 p2 m) := by
  induction fuel generalizing l with
  | zero => omega
  | succ fuel ih =>
    rw [byteLoop]
    by_cases hb : l < m
    · rw [if_pos hb]
      refine Oks.bind (Oks.get (by omega) (P := fun a => data[p1 + l]? = some a) (List.getElem?_eq_getElem _)) ?_
      intro a ha
      refine Oks.bind (Oks.get (by omega) (P := fun a => data[p2 + l]? = some a) (List.getElem?_eq_getElem _)) ?_
      intro b hb'
      by_cases hab : a = b
      · rw [if_pos hab]
        refine ih _ (by omega) ?_ (by omega)
        intro i hi
        by_cases h : i < l
        · exact hp i h
        · obtain rfl : i = l := by omega
          rw [ha, hb', hab]
      · rw [if_neg hab]
        exact Oks.ok ⟨hl, hp, fun _ => by rw [ha, hb']; simpa using hab⟩
    · rw [if_neg hb]
      exact Oks.ok ⟨hl, hp, fun h => absurd h hb⟩

theorem tail_spec (data : List UInt8) (p1 p2 m l : Nat) (h1 : p1 + m ≤ data.length) (h2 : p2 + m ≤ data.length)
    (hl : l ≤ m) (hp : Prefix data p1 p2 l) : Oks (tail data p1 p2 m l) (IsLcp data p1 p2 m) := by
  unfold tail
  refine Oks.bind (blockLoop_spec (by decide) cmp8_ok _ data p1 p2 m l h1 h2 hl hp (by omega)) ?_
  rintro ⟨l', done⟩ h
  cases done with
  | true => exact Oks.ok h
  | false => exact byteLoop_spec _ data p1 p2 m l' h1 h2 h.1 h.2 (by omega)

theorem prefix_zero (data p1 p2) : Prefix data p1 p2 0 := fun i hi => by omega

theorem fallback_spec (data : List UInt8) (p1 p2 m : Nat) (h1 : p1 + m ≤ data.length) (h2 : p2 + m ≤ data.length) :
    Oks (fallback data p1 p2 m) (IsLcp data p1 p2 m) :=
  tail_spec data p1 p2 m 0 h1 h2 (by omega) (prefix_zero data p1 p2)

theorem sse2_spec (data : List UInt8) (p1 p2 m : Nat) (h1 : p1 + m ≤ data.length) (h2 : p2 + m ≤ data.length) :
    Oks (sse2 data p1 p2 m) (IsLcp data p1 p2 m) := by
  unfold sse2
  refine Oks.bind (blockLoop_spec (by decide) cmp16_ok _ data p1 p2 m 0 h1 h2 (by omega) (prefix_zero data p1 p2) (by omega)) ?_
  rintro ⟨l', done⟩ h
  cases done with
  | true => exact Oks.ok h
  | false => exact tail_spec data p1 p2 m l' h1 h2 h.1 h.2

theorem neon_spec (data : List UInt8) (p1 p2 m : Nat) (h1 : p1 + m ≤ data.length) (h2 : p2 + m ≤ data.length) :
    Oks (neon data p1 p2 m) (IsLcp data p1 p2 m) := by
  unfold neon
  refine Oks.bind (blockLoop_spec (by decide) cmpNeon_ok _ data p1 p2 m 0 h1 h2 (by omega) (prefix_zero data p1 p2) (by omega)) ?_
  rintro ⟨l', done⟩ h
  cases done with
  | true => exact Oks.ok h
  | false => exact tail_spec data p1 p2 m l' h1 h2 h.1 h.2

theorem avx2_spec (data : List UInt8) (p1 p2 m : Nat) (h1 : p1 + m ≤ data.length) (h2 : p2 + m ≤ data.length) :
    Oks (avx2 data p1 p2 m) (IsLcp data p1 p2 m) := by
  unfold avx2
  refine Oks.bind (blockLoop_spec (by decide) cmp32_ok _ data p1 p2 m 0 h1 h2 (by omega) (prefix_zero data p1 p2) (by omega)) ?_
  rintro ⟨l', done⟩ h
  cases done with
  | true => exact Oks.ok h
  | false =>
    simp only [Bool.false_eq_true, if_false] at h ⊢
    by_cases hlt : l' < m
    · rw [if_pos hlt]
      refine Oks.bind (sse2_spec data (p1 + l') (p2 + l') (m - l') (by omega) (by omega)) ?_
      intro k hk
      apply Oks.pure
      refine ⟨by have := hk.1; omega, ?_, ?_⟩
      · intro i hi
        by_cases h3 : i < l'
        · exact h.2 i h3
        · have := hk.2.1 (i - l') (by omega)
          rwa [show p1 + l' + (i - l') = p1 + i by omega, show p2 + l' + (i - l') = p2 + i by omega] at this
      · intro hh
        have := hk.2.2 (by omega)
        rwa [Nat.add_assoc, Nat.add_assoc] at this
    · rw [if_neg hlt]
      exact Oks.ok ⟨h.1, h.2, fun hh => absurd hh hlt⟩

theorem matchLength_spec (lv : Simd.Level) (data : List UInt8) (p1 p2 m : Nat) (h1 : p1 + m ≤ data.length)
    (h2 : p2 + m ≤ data.length) : Oks (Simd.matchLength lv data p1 p2 m) (IsLcp data p1 p2 m) := by
  cases lv
  · exact avx2_spec data p1 p2 m h1 h2
  · exact sse2_spec data p1 p2 m h1 h2
  · exact sse2_spec data p1 p2 m h1 h2
  · exact fallback_spec data p1 p2 m h1 h2
  · exact neon_spec data p1 p2 m h1 h2

theorem isLcp_unique {data : List UInt8} {p1 p2 m a b : Nat} (ha : IsLcp data p1 p2 m a) (hb : IsLcp data p1 p2 m b) :
    a = b := by
  rcases Nat.lt_trichotomy a b with h | h | h
  · exact absurd (hb.2.1 a h) (ha.2.2 (by have := hb.1; omega))
  · exact h
  · exact absurd (ha.2.1 b h) (hb.2.2 (by have := ha.1; omega))

end Pixo.MatchLength
