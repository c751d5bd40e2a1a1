import Verif.Spec.Json
import Verif.Model.CliReport
import Verif.Proof.F64Order
/-
Decimal digits and the reading of JSON texts.
-/
namespace Pixo.Cli
open Spec.Json

/-! ### Digits -/

theorem digit_toNat {d : Nat} (h : d < 10) : (Char.ofNat (48 + d)).toNat = 48 + d := by
  match d, h with
  | 0, _ => decide
  | 1, _ => decide
  | 2, _ => decide
  | 3, _ => decide
  | 4, _ => decide
  | 5, _ => decide
  | 6, _ => decide
  | 7, _ => decide
  | 8, _ => decide
  | 9, _ => decide

theorem digit_isDigit {d : Nat} (h : d < 10) : isDigit (Char.ofNat (48 + d)) = true := by
  match d, h with
  | 0, _ => decide
  | 1, _ => decide
  | 2, _ => decide
  | 3, _ => decide
  | 4, _ => decide
  | 5, _ => decide
  | 6, _ => decide
  | 7, _ => decide
  | 8, _ => decide
  | 9, _ => decide

theorem digits_all (n : Nat) : ∀ c ∈ digits n, isDigit c = true := by
  induction n using Nat.strongRecOn with
  | ind n ih =>
    unfold digits
    split
    · intro c hc
      rw [List.mem_singleton.mp hc]
      exact digit_isDigit (by omega)
    · intro c hc
      rcases List.mem_append.mp hc with hc | hc
      · exact ih (n / 10) (by omega) c hc
      · rw [List.mem_singleton.mp hc]
        exact digit_isDigit (by omega)

theorem ofDigits_append_one (l : List Char) (c : Char) : ofDigits (l ++ [c]) = 10 * ofDigits l + (c.toNat - 48) := by
  unfold ofDigits; rw [List.foldl_append]; rfl

theorem ofDigits_digits (n : Nat) : ofDigits (digits n) = n := by
  induction n using Nat.strongRecOn with
  | ind n ih =>
    unfold digits
    split
    · rename_i h
      show 10 * 0 + ((Char.ofNat (48 + n)).toNat - 48) = n
      rw [digit_toNat h]; omega
    · rw [ofDigits_append_one, ih (n / 10) (by omega), digit_toNat (by omega)]; omega

theorem digits_ne (n : Nat) : digits n ≠ [] := by
  unfold digits; split <;> simp

theorem digits_head (n : Nat) (h : (digits n).head? = some '0') : (digits n).length = 1 := by
  induction n using Nat.strongRecOn with
  | ind n ih =>
    unfold digits at h ⊢
    by_cases hn : n < 10
    · rw [if_pos hn]; rfl
    · rw [if_neg hn] at h ⊢
      have h : (digits (n / 10)).head? = some '0' := by
        match hd : digits (n / 10) with
        | [] => exact absurd hd (digits_ne _)
        | c :: l => rw [hd] at h; exact h
      have h1 := ih (n / 10) (by omega) h
      -- a one-digit quotient whose digit is 0 is 0
      have h2 := ofDigits_digits (n / 10)
      match hd : digits (n / 10), h1 with
      | [c], _ =>
        rw [hd] at h h2
        injection h with h
        subst h
        have : ofDigits ['0'] = 0 := by decide
        omega

theorem takeWhile_digits (l r : List Char) (h : ∀ c ∈ l, isDigit c = true) (hr : ∀ c, r.head? = some c → isDigit c = false) :
    (l ++ r).takeWhile isDigit = l ∧ (l ++ r).dropWhile isDigit = r := by
  induction l with
  | nil =>
    cases r with
    | nil => exact ⟨rfl, rfl⟩
    | cons c r =>
      have := hr c rfl
      rw [List.nil_append, List.takeWhile_cons, List.dropWhile_cons, this]
      exact ⟨rfl, rfl⟩
  | cons c l ih =>
    have h1 := h c List.mem_cons_self
    have h2 := ih (fun d hd => h d (List.mem_cons_of_mem _ hd))
    rw [List.cons_append, List.takeWhile_cons, List.dropWhile_cons, h1]
    exact ⟨by simpa using h2.1, by simpa using h2.2⟩

theorem isDigit_ne {c d : Char} (h : isDigit c = true) (hd : isDigit d = false) : c ≠ d := by
  rintro rfl; rw [h] at hd; cases hd

theorem head_digits (n : Nat) (r : List Char) : ∃ c, (digits n ++ r).head? = some c ∧ isDigit c = true ∧
    (digits n).head? = some c := by
  match hd : digits n with
  | [] => exact absurd hd (digits_ne n)
  | c :: l =>
    refine ⟨c, rfl, ?_, rfl⟩
    exact digits_all n c (by rw [hd]; exact List.mem_cons_self)

/-- A list does not go on with a character a number could go on with. -/
def Ends (r : List Char) : Prop :=
  ∀ c, r.head? = some c → isDigit c = false ∧ c ≠ '.' ∧ c ≠ 'e' ∧ c ≠ 'E'

theorem number_digits (n : Nat) (r : List Char) (hr : Ends r) : number (digits n ++ r) = some ((n : Int), 0, r) := by
  obtain ⟨c, h1, h2, h3⟩ := head_digits n r
  obtain ⟨t1, t2⟩ := takeWhile_digits (digits n) r (digits_all n) (fun c h => (hr c h).1)
  have hneg : ((digits n ++ r).head? == some '-') = false := by
    rw [h1]; simpa using isDigit_ne h2 (d := '-') (by decide)
  have hip : ¬(digits n = [] ∨ ((digits n).head? = some '0' ∧ 1 < (digits n).length)) := by
    rintro (h | ⟨h, h'⟩)
    · exact digits_ne n h
    · have := digits_head n h; omega
  have hdot : (r.head? == some '.') = false := by
    cases hh : r.head? with
    | none => rfl
    | some c => have := hr c hh; simpa using this.2.1
  have he : ¬(r.head? = some 'e' ∨ r.head? = some 'E') := by
    rintro (h | h)
    · exact (hr _ h).2.2.1 rfl
    · exact (hr _ h).2.2.2 rfl
  unfold number
  simp only [hneg, Bool.false_eq_true, if_false, t1, t2, hip, hdot, he, false_and, List.append_nil, ofDigits_digits,
    List.length_nil]
  rfl

theorem number_fraction (a : Nat) (f r : List Char) (hf : f ≠ []) (hd : ∀ c ∈ f, isDigit c = true) (hr : Ends r) :
    number (digits a ++ '.' :: (f ++ r)) = some ((ofDigits (digits a ++ f) : Int), -(f.length : Int), r) := by
  obtain ⟨c, h1, h2, h3⟩ := head_digits a ('.' :: (f ++ r))
  obtain ⟨t1, t2⟩ := takeWhile_digits (digits a) ('.' :: (f ++ r)) (digits_all _)
    (fun c h => by injection h with h; subst h; decide)
  obtain ⟨u1, u2⟩ := takeWhile_digits f r hd (fun c h => (hr c h).1)
  have hneg : ((digits a ++ '.' :: (f ++ r)).head? == some '-') = false := by
    rw [h1]; simpa using isDigit_ne h2 (d := '-') (by decide)
  have hip : ¬(digits a = [] ∨ ((digits a).head? = some '0' ∧ 1 < (digits a).length)) := by
    rintro (h | ⟨h, h'⟩)
    · exact digits_ne _ h
    · have := digits_head _ h; omega
  have he : ¬(r.head? = some 'e' ∨ r.head? = some 'E') := by
    rintro (h | h)
    · exact (hr _ h).2.2.1 rfl
    · exact (hr _ h).2.2.2 rfl
  unfold number
  simp only [hneg, Bool.false_eq_true, if_false, t1, t2, hip, List.head?_cons, beq_self_eq_true, if_true, List.tail_cons,
    u1, u2, hf, and_false, he]

theorem digits_one {n : Nat} (h : n < 10) : digits n = [Char.ofNat (48 + n)] := by unfold digits; rw [if_pos h]

theorem fixed_one (n : Nat) : fixed 1 n = digits (n / 10) ++ '.' :: [Char.ofNat (48 + n % 10)] := by
  unfold fixed
  rw [Nat.pow_one, digits_one (by omega)]
  rfl

theorem fixed_two (n : Nat) :
    fixed 2 n = digits (n / 100) ++ '.' :: [Char.ofNat (48 + n / 10 % 10), Char.ofNat (48 + n % 10)] := by
  have e : 10 ^ 2 = 100 := rfl
  unfold fixed
  rw [e]
  by_cases h : n % 100 < 10
  · rw [digits_one h, show n / 10 % 10 = 0 by omega, show n % 100 = n % 10 by omega]
    rfl
  · have : digits (n % 100) = [Char.ofNat (48 + n / 10 % 10), Char.ofNat (48 + n % 10)] := by
      rw [show digits (n % 100) = digits (n % 100 / 10) ++ [Char.ofNat (48 + n % 100 % 10)] by
        rw [digits.eq_def (n % 100), if_neg h]]
      rw [digits_one (by omega), show n % 100 / 10 = n / 10 % 10 by omega, show n % 100 % 10 = n % 10 by omega]
      rfl
    rw [this]
    rfl

theorem number_tenths (n : Nat) (r : List Char) (hr : Ends r) : number (fixed 1 n ++ r) = some ((n : Int), -1, r) := by
  rw [fixed_one, List.append_assoc, List.cons_append]
  rw [number_fraction _ _ r (by simp) (fun c hc => by rw [List.mem_singleton.mp hc]; exact digit_isDigit (by omega)) hr]
  rw [ofDigits_append_one, ofDigits_digits, digit_toNat (by omega), show 10 * (n / 10) + (48 + n % 10 - 48) = n by omega]
  rfl

theorem number_hundredths (n : Nat) (r : List Char) (hr : Ends r) :
    number (fixed 2 n ++ r) = some ((n : Int), -2, r) := by
  rw [fixed_two, List.append_assoc, List.cons_append]
  rw [number_fraction _ _ r (by simp) (fun c hc => by
    rcases List.mem_cons.mp hc with rfl | hc
    · exact digit_isDigit (by omega)
    · rw [List.mem_singleton.mp hc]; exact digit_isDigit (by omega)) hr]
  rw [show ∀ a b : Char, digits (n / 100) ++ [a, b] = digits (n / 100) ++ [a] ++ [b] from fun a b => by simp,
    ofDigits_append_one, ofDigits_append_one, ofDigits_digits, digit_toNat (by omega), digit_toNat (by omega),
    show 10 * (10 * (n / 100) + (48 + n / 10 % 10 - 48)) + (48 + n % 10 - 48) = n by omega]
  rfl

/-! ### Strings -/

/-- A character that stands for itself between quotation marks. -/
def PlainChar (c : Char) : Prop := c ≠ '"' ∧ c ≠ '\\' ∧ 0x20 ≤ c.toNat

theorem strBody_plain (s r : List Char) (h : ∀ c ∈ s, PlainChar c) :
    strBody (s ++ '"' :: r) = some (s.map Char.toNat, r) := by
  induction s with
  | nil => unfold strBody; rfl
  | cons c s ih =>
    obtain ⟨h1, h2, h3⟩ := h c List.mem_cons_self
    rw [List.cons_append]
    unfold strBody
    rw [if_neg h1, if_neg h2, if_neg (by omega), ih (fun d hd => h d (List.mem_cons_of_mem _ hd))]
    rfl

theorem skipWs_cons {c : Char} (r : List Char) (h : isWs c = false) : skipWs (c :: r) = c :: r := by
  unfold skipWs; rw [List.dropWhile_cons, h]; rfl

theorem value_str (fuel : Nat) (s r : List Char) (h : ∀ c ∈ s, PlainChar c) :
    value (fuel + 1) ('"' :: (s ++ '"' :: r)) = some (.str (s.map Char.toNat), r) := by
  unfold value
  rw [skipWs_cons _ (by decide)]
  simp only [if_true]
  rw [strBody_plain s r h]
  rfl

theorem digit_other {c : Char} (h : isDigit c = true) : isWs c = false ∧ c ≠ '"' ∧ c ≠ '{' ∧ c ≠ '[' ∧ c ≠ 't' ∧ c ≠ 'f' ∧ c ≠ 'n' := by
  refine ⟨?_, isDigit_ne h (by decide), isDigit_ne h (by decide), isDigit_ne h (by decide), isDigit_ne h (by decide),
    isDigit_ne h (by decide), isDigit_ne h (by decide)⟩
  cases hw : isWs c with
  | false => rfl
  | true =>
    unfold isWs at hw
    simp only [Bool.or_eq_true, beq_iff_eq] at hw
    rcases hw with ((rfl | rfl) | rfl) | rfl <;> exact absurd h (by decide)

theorem value_num (fuel : Nat) (l r : List Char) (m e : Int) {c : Char} (hc : l.head? = some c) (hd : isDigit c = true)
    (h : number l = some (m, e, r)) : value (fuel + 1) l = some (.num m e, r) := by
  match l, hc with
  | c :: l, rfl =>
    obtain ⟨h1, h2, h3, h4, h5, h6, h7⟩ := digit_other hd
    unfold value
    rw [skipWs_cons _ h1]
    simp only [h2, h3, h4, if_false]
    rw [if_neg (by rw [show "true".toList = ['t', 'r', 'u', 'e'] from rfl]; intro e; injection e with e; exact h5 e),
      if_neg (by rw [show "false".toList = ['f', 'a', 'l', 's', 'e'] from rfl]; intro e; injection e with e; exact h6 e),
      if_neg (by rw [show "null".toList = ['n', 'u', 'l', 'l'] from rfl]; intro e; injection e with e; exact h7 e), h]
    rfl

theorem members_last (fuel : Nat) (k t r : List Char) (v : Json) (hk : ∀ c ∈ k, PlainChar c)
    (hv : value fuel t = some (v, '}' :: r)) :
    members (fuel + 1) ('"' :: (k ++ '"' :: ':' :: t)) = some ([(k.map Char.toNat, v)], r) := by
  unfold members
  rw [skipWs_cons _ (by decide)]
  simp only [List.head?_cons, if_true, List.tail_cons]
  rw [strBody_plain k _ hk]
  simp only [Option.bind_eq_bind, Option.bind_some]
  rw [skipWs_cons _ (by decide)]
  simp only [List.head?_cons, if_true, List.tail_cons]
  rw [hv]
  simp only [Option.bind_some]
  rw [skipWs_cons _ (by decide)]
  simp

theorem members_more (fuel : Nat) (k t r r' : List Char) (v : Json) (ms : List (List Nat × Json))
    (hk : ∀ c ∈ k, PlainChar c) (hv : value fuel t = some (v, ',' :: r)) (hm : members fuel r = some (ms, r')) :
    members (fuel + 1) ('"' :: (k ++ '"' :: ':' :: t)) = some ((k.map Char.toNat, v) :: ms, r') := by
  unfold members
  rw [skipWs_cons _ (by decide)]
  simp only [List.head?_cons, if_true, List.tail_cons]
  rw [strBody_plain k _ hk]
  simp only [Option.bind_eq_bind, Option.bind_some]
  rw [skipWs_cons _ (by decide)]
  simp only [List.head?_cons, if_true, List.tail_cons]
  rw [hv]
  simp only [Option.bind_some]
  rw [skipWs_cons _ (by decide)]
  simp only [List.head?_cons, if_true, List.tail_cons]
  rw [hm]
  rfl

/-! ### Rounding -/

open F64 (one rnd rndI ofInt)

theorem rndI_nat (n d : Nat) : rndI (n : Int) d = (rnd n d : Nat) := by
  unfold rndI; rw [if_pos (by omega)]; rfl

theorem decimals_near (tie : Nat → Bool) (places v : Nat) :
    2 * (decimals tie places v * one) ≤ 2 * (v * 10 ^ places) + one ∧
      2 * (v * 10 ^ places) ≤ 2 * (decimals tie places v * one) + one := by
  have h0 : 0 < one := Nat.two_pow_pos _
  have h1 := Nat.div_add_mod (v * 10 ^ places) one
  have h2 := Nat.mod_lt (v * 10 ^ places) h0
  unfold decimals
  simp only
  generalize one = u at *
  generalize v * 10 ^ places = n at *
  rw [Nat.mul_comm u] at h1
  split
  · rename_i h
    have := Nat.succ_mul (n / u) u
    have e : (n / u + 1) * u = n / u * u + u := this
    rw [e]
    rcases h with h | ⟨h, _⟩ <;> omega
  · rename_i h
    have h3 : ¬2 * (n % u) > u := fun hh => h (.inl hh)
    omega

theorem divF64_nat {a b : Nat} (ha : a ≤ 2 ^ 53) (hb : b ≤ 2 ^ 53) :
    divF64 (ofInt a) (ofInt b) = (rnd (a * one * one) (b * one) : Nat) := by
  unfold divF64
  rw [F64.ofInt_exact ha, F64.ofInt_exact hb, Int.toNat_natCast]
  generalize one = u
  rw [← rndI_nat]
  congr 1

theorem ratio_near (tie : Nat → Bool) {i o : Nat} (hi : 0 < i) (hi' : i ≤ 2 ^ 53) (ho : o ≤ 2 ^ 53) :
    2 ^ 51 * (2 * (decimals tie 1 (ratio i o).toNat * i)) ≤ 2 ^ 51 * (2000 * o) + 2 ^ 51 * i + 2000 * o ∧
      2 ^ 51 * (2000 * o) ≤ 2 ^ 51 * (2 * (decimals tie 1 (ratio i o).toNat * i)) + 2 ^ 51 * i + 2000 * o := by
  have h0 : 2 ^ 200 ≤ one := Nat.pow_le_pow_right (by omega) (by omega)
  obtain ⟨p, q, hp, hq, hr⟩ : ∃ p q, q = rnd (o * one * one) (i * one) ∧ p = rnd (q * (100 * one)) one ∧
      ratio i o = (p : Nat) := by
    refine ⟨_, _, rfl, rfl, ?_⟩
    unfold ratio F64.mul
    rw [if_pos hi, divF64_nat ho hi', show (100 : Int) = ((100 : Nat) : Int) from rfl, F64.ofInt_exact (by omega), ← rndI_nat]
    generalize one = u
    congr 1
  rw [hr, Int.toNat_natCast]
  have f1 := F64.rnd_rel (o * one * one) (i * one) (Nat.mul_pos hi (by omega))
  rw [← hp] at f1
  have f2 := F64.rnd_rel (q * (100 * one)) one (by omega)
  rw [← hq] at f2
  have f3 := decimals_near tie 1 p
  generalize decimals tie 1 p = t at *
  generalize one = u at *
  clear hr hp hq
  have hu : 0 < u := by omega
  -- divide by the unit
  have g1 : 2 ^ 53 * (q * i) ≤ 2 ^ 53 * (o * u) + o * u + 2 ^ 52 * i ∧
      2 ^ 53 * (o * u) ≤ 2 ^ 53 * (q * i) + o * u + 2 ^ 52 * i := by
    constructor
    · refine Nat.le_of_mul_le_mul_right ?_ hu
      simpa only [Nat.add_mul, Nat.mul_assoc] using f1.1
    · refine Nat.le_of_mul_le_mul_right ?_ hu
      simpa only [Nat.add_mul, Nat.mul_assoc] using f1.2
  have g2 : 2 ^ 53 * p ≤ 2 ^ 53 * (q * 100) + q * 100 + 2 ^ 52 ∧ 2 ^ 53 * (q * 100) ≤ 2 ^ 53 * p + q * 100 + 2 ^ 52 := by
    constructor
    · refine Nat.le_of_mul_le_mul_right ?_ hu
      simpa only [Nat.add_mul, Nat.mul_assoc] using f2.1
    · refine Nat.le_of_mul_le_mul_right ?_ hu
      simpa only [Nat.add_mul, Nat.mul_assoc] using f2.2
  -- multiply by the size of the input
  have k2a := Nat.mul_le_mul_right i g2.1
  have k2b := Nat.mul_le_mul_right i g2.2
  have k3a := Nat.mul_le_mul_right i f3.1
  have k3b := Nat.mul_le_mul_right i f3.2
  have e1 : q * 100 * i = 100 * (q * i) := by rw [Nat.mul_comm q, Nat.mul_assoc]
  have e2 : p * 10 ^ 1 * i = 10 * (p * i) := by rw [Nat.pow_one, Nat.mul_comm p, Nat.mul_assoc]
  have e3 : t * u * i = t * i * u := by rw [Nat.mul_assoc, Nat.mul_comm u, Nat.mul_assoc]
  simp only [Nat.add_mul, Nat.mul_assoc (2 ^ 53), Nat.mul_assoc 2, e1, e2, e3] at k2a k2b k3a k3b
  rcases Nat.eq_zero_or_pos o with rfl | ho'
  · -- nothing written: the ratio is 0
    have hq : q ≤ 1 := by
      refine Nat.le_of_mul_le_mul_right (c := i) ?_ hi
      simp only [Nat.zero_mul, Nat.mul_zero, Nat.zero_add] at g1
      omega
    have ht : t = 0 := by
      refine Nat.eq_zero_of_not_pos fun hpos => ?_
      have h5 : u ≤ t * u := Nat.le_mul_of_pos_left u hpos
      have h6 := f3.1
      rw [Nat.pow_one] at h6
      have h7 := g2.1
      clear k2a k2b k3a k3b f1 f2 f3 g1
      generalize t * u = T at *
      omega
    rw [ht]
    omega
  · have h4 : i * 2 ^ 100 ≤ o * u := by
      have : 2 ^ 200 ≤ o * u := Nat.le_trans h0 (Nat.le_mul_of_pos_left u ho')
      have : i * 2 ^ 100 ≤ 2 ^ 53 * 2 ^ 100 := Nat.mul_le_mul_right _ hi'
      omega
    have e4 : u * i = i * u := Nat.mul_comm _ _
    rw [e4] at k3a k3b
    constructor
    · refine Nat.le_of_mul_le_mul_right (c := u) ?_ hu
      simp only [Nat.add_mul, Nat.mul_assoc (2 ^ 51), Nat.mul_assoc 2, Nat.mul_assoc 2000]
      generalize t * i * u = T at *; generalize p * i = X at *; generalize q * i = Y at *; generalize o * u = Z at *; generalize i * u = W at *
      omega
    · refine Nat.le_of_mul_le_mul_right (c := u) ?_ hu
      simp only [Nat.add_mul, Nat.mul_assoc (2 ^ 51), Nat.mul_assoc 2, Nat.mul_assoc 2000]
      generalize t * i * u = T at *; generalize p * i = X at *; generalize q * i = Y at *; generalize o * u = Z at *; generalize i * u = W at *
      omega

end Pixo.Cli
