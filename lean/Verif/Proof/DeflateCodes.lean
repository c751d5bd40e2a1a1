import Verif.Model.Deflate
import Verif.Proof.Lz77Optimal
import Verif.Proof.Inflate
import Verif.Proof.Huffman
import Verif.Proof.BitWriter
/-
Length and distance codes, reversed code tables, and the token writer.
-/
namespace Pixo.Deflate
open Pixo Spec Pixo.Huffman
open Pixo.Lz77 hiding DISTANCE_EXTRA LENGTH_BASE LENGTH_EXTRA
open Spec.Rfc1951 hiding Token clOrder

/-- Boolean test of a successful result, for finite checks. -/
def okAnd {α : Type} (x : R α) (p : α → Bool) : Bool :=
  match x with
  | .ok a => p a
  | .error _ => false

theorem okAnd_oks {α : Type} {x : R α} {p : α → Bool} (h : okAnd x p = true) : Oks x (fun a => p a = true) := by
  cases x with
  | ok a => exact .ok h
  | error e => cases h

/-! ### Length and distance codes -/

/-- What a length code has to satisfy. -/
def LenOk (l : Nat) (r : Nat × Nat × Nat) : Prop :=
  257 ≤ r.1 ∧ r.1 < 286 ∧ r.2.1 = (lengthTable.getD (r.1 - 257) (0, 0)).2 ∧ r.2.2 < 2 ^ r.2.1 ∧
    (lengthTable.getD (r.1 - 257) (0, 0)).1 + r.2.2 = l ∧ r.2.1 ≤ 5

instance (l : Nat) (r : Nat × Nat × Nat) : Decidable (LenOk l r) := by unfold LenOk; infer_instance

theorem lengthCode_fin : ∀ i : Fin 256, okAnd (lengthCode (i.val + 3)) (fun r => decide (LenOk (i.val + 3) r)) = true := by
  decide +kernel

theorem lengthCode_spec {l : Nat} (h1 : 3 ≤ l) (h2 : l ≤ 258) :
    ∃ k b x e, lengthTable[k]? = some (b, x) ∧ lengthCode l = .ok (257 + k, x, e) ∧ e < 2 ^ x ∧ b + e = l ∧
      k < 29 ∧ x ≤ 5 := by
  have h := lengthCode_fin ⟨l - 3, by omega⟩
  simp only [Nat.sub_add_cancel h1] at h
  obtain ⟨⟨k, x, e⟩, he, hr⟩ := (okAnd_oks h).out
  obtain ⟨g1, g2, g3, g4, g5, g6⟩ := of_decide_eq_true hr
  simp only at g1 g2 g3 g4 g5 g6
  have hk' : k - 257 < lengthTable.length := by show k - 257 < 29; omega
  refine ⟨k - 257, (lengthTable.getD (k - 257) (0, 0)).1, x, e, ?_, ?_, g4, g5, by omega, g6⟩
  · have : lengthTable.getD (k - 257) (0, 0) = lengthTable[k - 257] := by
      rw [List.getD_eq_getElem?_getD, List.getElem?_eq_getElem hk', Option.getD_some]
    rw [g3, this, List.getElem?_eq_getElem hk']
  · rw [Nat.add_sub_cancel' g1]; exact he

/-- What a distance code has to satisfy. -/
def DistOk (d : Nat) (r : Nat × Nat × Nat) : Prop :=
  distTable[r.1]? = some ((distTable.getD r.1 (0, 0)).1, r.2.1) ∧ r.2.2 < 2 ^ r.2.1 ∧
    (distTable.getD r.1 (0, 0)).1 + r.2.2 = d ∧ r.2.1 ≤ 13

instance (d : Nat) (r : Nat × Nat × Nat) : Decidable (DistOk d r) := by unfold DistOk; infer_instance

theorem distanceCode_small : ∀ i : Fin 511,
    okAnd (distanceCode (i.val + 1)) (fun r => decide (DistOk (i.val + 1) r)) = true := by decide +kernel

/-- The formula for large distances. -/
theorem distanceIndex_large {d m s : Nat} (hm : 9 ≤ m) (hm2 : m ≤ 14) (hs : s ≤ 1)
    (h1 : 2 ^ m + s * 2 ^ (m - 1) ≤ d - 1) (h2 : d - 1 < 2 ^ m + (s + 1) * 2 ^ (m - 1)) :
    distanceIndex d = .ok (2 * m + s) := by
  have hp : 2 ^ m = 2 * 2 ^ (m - 1) := by
    rw [Nat.mul_comm, ← Nat.pow_succ]; congr 1; omega
  have hp9 : 2 ^ 9 ≤ 2 ^ m := Nat.pow_le_pow_right (by decide) hm
  have hq : 0 < 2 ^ (m - 1) := Nat.two_pow_pos _
  have hlog : (d - 1).log2 = m := by
    rw [Nat.log2_eq_iff (by omega)]
    constructor
    · omega
    · rw [Nat.pow_succ]
      have : (s + 1) * 2 ^ (m - 1) ≤ 2 * 2 ^ (m - 1) := Nat.mul_le_mul_right _ (by omega)
      omega
  unfold distanceIndex
  rw [if_neg (by omega)]
  simp only [hlog]
  have hdiv : (d - 1) >>> (m - 1) = 2 + s := by
    rw [Nat.shiftRight_eq_div_pow]
    apply Nat.div_eq_of_lt_le
    · rw [Nat.add_mul, ← hp]; exact h1
    · rw [show 2 + s + 1 = 2 + (s + 1) from rfl, Nat.add_mul, ← hp]; exact h2
  rw [hdiv]
  have h3 : (2 + s) &&& 1 = s := by
    rw [Nat.and_one_is_mod]; omega
  rw [h3, Nat.min_eq_left (by omega)]

theorem distanceCode_of_index {d k b x : Nat} (h1 : 1 ≤ d) (h2 : d ≤ 32768) (hi : distanceIndex d = .ok k)
    (ht : distTable[k]? = some (b, x)) (hx : DISTANCE_EXTRA[k]? = some x) (hb : DISTANCE_BASE[k]? = some b)
    (hle : b ≤ d) (hlt : d < b + 2 ^ x) (hx13 : x ≤ 13) :
    Oks (distanceCode d) (DistOk d) := by
  unfold distanceCode
  rw [if_pos ⟨h1, h2⟩, hi, ok_bind]
  unfold getChecked
  rw [hx, hb]
  simp only [ok_bind]
  unfold subUsize
  rw [if_pos hle, ok_bind]
  refine .pure ⟨?_, ?_, ?_, hx13⟩
  · simp only [List.getD_eq_getElem?_getD, ht, Option.getD_some]
  · show d - b < 2 ^ x; omega
  · simp only [List.getD_eq_getElem?_getD, ht, Option.getD_some]; omega

theorem distanceCode_ok {d : Nat} (h1 : 1 ≤ d) (h2 : d ≤ 32768) : Oks (distanceCode d) (DistOk d) := by
  by_cases hs : d < 512
  · have := distanceCode_small ⟨d - 1, by omega⟩
    simp only [Nat.sub_add_cancel h1] at this
    exact (okAnd_oks this).mono fun r hr => of_decide_eq_true hr
  · have go : ∀ m s b x : Nat, 9 ≤ m → m ≤ 14 → s ≤ 1 → distTable[2 * m + s]? = some (b, x) →
        DISTANCE_EXTRA[2 * m + s]? = some x → DISTANCE_BASE[2 * m + s]? = some b → x ≤ 13 →
        b = 2 ^ m + s * 2 ^ (m - 1) + 1 → 2 ^ x = 2 ^ (m - 1) →
        2 ^ m + s * 2 ^ (m - 1) ≤ d - 1 → d - 1 < 2 ^ m + (s + 1) * 2 ^ (m - 1) →
        Oks (distanceCode d) (DistOk d) := by
      intro m s b x a1 a2 a3 a4 a5 a6 a7 a8 a9 a10 a11
      refine distanceCode_of_index h1 h2 (distanceIndex_large a1 a2 a3 a10 a11) a4 a5 a6 ?_ ?_ a7
      · omega
      · rw [Nat.add_mul] at a11; omega
    by_cases c : d ≤ 512
    · have : d = 512 := by omega
      subst this
      refine distanceCode_of_index (k := 17) (b := 385) (x := 7) (by decide) (by decide) (by decide +kernel) rfl rfl rfl
        (by decide) (by decide) (by decide)
    by_cases c0 : d ≤ 768
    · exact go 9 0 513 8 (by decide) (by decide) (by decide) rfl rfl rfl (by decide) rfl rfl (by omega) (by omega)
    by_cases c1 : d ≤ 1024
    · exact go 9 1 769 8 (by decide) (by decide) (by decide) rfl rfl rfl (by decide) rfl rfl (by omega) (by omega)
    by_cases c2 : d ≤ 1536
    · exact go 10 0 1025 9 (by decide) (by decide) (by decide) rfl rfl rfl (by decide) rfl rfl (by omega) (by omega)
    by_cases c3 : d ≤ 2048
    · exact go 10 1 1537 9 (by decide) (by decide) (by decide) rfl rfl rfl (by decide) rfl rfl (by omega) (by omega)
    by_cases c4 : d ≤ 3072
    · exact go 11 0 2049 10 (by decide) (by decide) (by decide) rfl rfl rfl (by decide) rfl rfl (by omega) (by omega)
    by_cases c5 : d ≤ 4096
    · exact go 11 1 3073 10 (by decide) (by decide) (by decide) rfl rfl rfl (by decide) rfl rfl (by omega) (by omega)
    by_cases c6 : d ≤ 6144
    · exact go 12 0 4097 11 (by decide) (by decide) (by decide) rfl rfl rfl (by decide) rfl rfl (by omega) (by omega)
    by_cases c7 : d ≤ 8192
    · exact go 12 1 6145 11 (by decide) (by decide) (by decide) rfl rfl rfl (by decide) rfl rfl (by omega) (by omega)
    by_cases c8 : d ≤ 12288
    · exact go 13 0 8193 12 (by decide) (by decide) (by decide) rfl rfl rfl (by decide) rfl rfl (by omega) (by omega)
    by_cases c9 : d ≤ 16384
    · exact go 13 1 12289 12 (by decide) (by decide) (by decide) rfl rfl rfl (by decide) rfl rfl (by omega) (by omega)
    by_cases c10 : d ≤ 24576
    · exact go 14 0 16385 13 (by decide) (by decide) (by decide) rfl rfl rfl (by decide) rfl rfl (by omega) (by omega)
    · exact go 14 1 24577 13 (by decide) (by decide) (by decide) rfl rfl rfl (by decide) rfl rfl (by omega) (by omega)

theorem distanceCode_spec {d : Nat} (h1 : 1 ≤ d) (h2 : d ≤ 32768) :
    ∃ k b x e, distTable[k]? = some (b, x) ∧ distanceCode d = .ok (k, x, e) ∧ e < 2 ^ x ∧ b + e = d ∧
      k < 30 ∧ x ≤ 13 := by
  obtain ⟨⟨k, x, e⟩, he, h3, h4, h5, h6⟩ := (distanceCode_ok h1 h2).out
  exact ⟨k, _, x, e, h3, he, h4, h5, (List.getElem?_eq_some_iff.mp h3).1, h6⟩

/-! ### Reversed codes -/

theorem reverseByte_fin (i : Fin 256) : ∃ r, REVERSE_BYTE[i.val]? = some r ∧ r < 256 ∧
    bitsLSB r 8 = bitsMSB i.val 8 := by
  have h : ∀ i : Fin 256, okAnd (getChecked REVERSE_BYTE i.val)
      (fun r => decide (r < 256 ∧ bitsLSB r 8 = bitsMSB i.val 8)) = true := by decide +kernel
  obtain ⟨r, hr, h2⟩ := (okAnd_oks (h i)).out
  refine ⟨r, ?_, of_decide_eq_true h2⟩
  unfold getChecked at hr
  rcases hq : REVERSE_BYTE[i.val]? with _ | q
  · rw [hq] at hr; cases hr
  · rw [hq] at hr; cases hr; rfl

theorem bitsLSB_drop (v n k : Nat) (h : k ≤ n) : (bitsLSB v n).drop k = bitsLSB (v / 2 ^ k) (n - k) := by
  have := bitsLSB_add v k (n - k)
  rw [Nat.add_sub_cancel' h] at this
  rw [this, List.drop_append_of_le_length (by simp), List.drop_of_length_le (by simp), List.nil_append]

theorem reverseBits_spec {code len : Nat} (hl : len ≤ 16) (hc : code < 2 ^ 16) :
    Oks (reverseBits code len) (fun r => bitsLSB r len = bitsMSB code len) := by
  unfold reverseBits
  split
  · rename_i h; subst h; exact .ok rfl
  · obtain ⟨lo, l1, l2, l3⟩ := reverseByte_fin ⟨code % 256, Nat.mod_lt _ (by decide)⟩
    obtain ⟨hi, g1, g2, g3⟩ := reverseByte_fin ⟨(code >>> 8) % 256, Nat.mod_lt _ (by decide)⟩
    unfold getChecked
    simp only at l1 g1 l3 g3
    rw [l1, g1]
    simp only [ok_bind]
    unfold subUsize
    rw [if_pos hl, ok_bind]
    refine .pure ?_
    have hsh : (lo <<< 8) % 2 ^ 16 = lo * 2 ^ 8 := by
      rw [Nat.shiftLeft_eq, Nat.mod_eq_of_lt]; omega
    have hor : (lo <<< 8) % 2 ^ 16 ||| hi = hi + lo * 2 ^ 8 := by
      have := or_shift hi lo 8 g2
      rw [Nat.shiftLeft_eq] at this
      rw [hsh, Nat.or_comm, this]
    rw [hor]
    have h16 : bitsLSB (hi + lo * 2 ^ 8) 16 = bitsMSB code 16 := by
      rw [bitsLSB_concat hi lo 8 8 g2, l3, g3]
      have := bitsMSB_add code 8 8
      rw [this]
      congr 1
      · rw [Nat.shiftRight_eq_div_pow]; unfold bitsMSB; rw [bitsLSB_mod _ 8 8 (Nat.le_refl _)]
      · unfold bitsMSB; rw [bitsLSB_mod code 8 8 (Nat.le_refl _)]
    have h2 := congrArg (List.drop (16 - len)) h16
    rw [bitsLSB_drop _ _ _ (by omega), show 16 - (16 - len) = len by omega] at h2
    rw [Nat.shiftRight_eq_div_pow, h2]
    unfold bitsMSB
    rw [List.drop_reverse, bitsLSB_length, show 16 - (16 - len) = len by omega]
    congr 1
    have := bitsLSB_add code len (16 - len)
    rw [Nat.add_sub_cancel' hl] at this
    rw [this, List.take_append_of_le_length (by simp), List.take_of_length_le (by simp)]

/-- A table of reversed codes for the code with lengths `lens`. -/
structure RevOf (rev : List (Nat × Nat)) (lens : List Nat) : Prop where
  le : ∀ s, len lens s ≤ 15
  code : ∀ s, len lens s ≠ 0 → ∃ c, rev[s]? = some (c, len lens s) ∧ bitsLSB c (len lens s) = codeword lens s

theorem mapM_oks {α β : Type} (f : α → R β) (P : α → β → Prop) (l : List α)
    (h : ∀ a ∈ l, Oks (f a) (P a)) :
    Oks (l.mapM f) (fun r => r.length = l.length ∧ ∀ (i : Nat) (a : α), l[i]? = some a → ∃ b, r[i]? = some b ∧ P a b) := by
  induction l with
  | nil => exact .pure ⟨rfl, by simp⟩
  | cons a l ih =>
    rw [List.mapM_cons]
    refine Oks.bind (h a (by simp)) fun b hb => ?_
    refine Oks.bind (ih (fun x hx => h x (by simp [hx]))) fun r hr => ?_
    refine .pure ⟨by simp [hr.1], ?_⟩
    intro i x hx
    cases i with
    | zero => simp only [List.getElem?_cons_zero, Option.some.injEq] at hx; subst hx; exact ⟨b, by simp, hb⟩
    | succ i => simp only [List.getElem?_cons_succ] at hx ⊢; exact hr.2 i x hx

theorem code_lt {codes : List (Nat × Nat)} {lens : List Nat} (hc : IsCanon codes lens)
    (hok : CodeOK lens) {c : Nat × Nat} (hm : c ∈ codes) (h0 : c.2 ≠ 0) : c.1 < 2 ^ 16 := by
  obtain ⟨s, hs, rfl⟩ := List.getElem_of_mem hm
  have hl : len lens s = codes[s].2 := by
    unfold len
    rw [← hc.snd, List.getD_eq_getElem?_getD, List.getElem?_map, List.getElem?_eq_getElem hs]; rfl
  have h1 := hc.code s (by rw [hl]; exact h0)
  rw [List.getD_eq_getElem?_getD, List.getElem?_eq_getElem hs, Option.getD_some] at h1
  rw [h1]
  have h2 := codeValue_lt hok (s := s) (by rw [hl]; exact h0)
  have h3 : 2 ^ len lens s ≤ 2 ^ 15 := Nat.pow_le_pow_right (by decide) (len_le_of_all hok.1 s)
  simp only; omega

theorem reversedCodes_spec {codes : List (Nat × Nat)} {lens : List Nat} (hc : IsCanon codes lens)
    (hok : CodeOK lens) :
    Oks (reversedCodes codes) (fun rev => RevOf rev lens) := by
  unfold reversedCodes
  refine Oks.mono (mapM_oks _ (fun c r => r.2 = c.2 ∧ bitsLSB r.1 c.2 = bitsMSB c.1 c.2) codes ?_) ?_
  · intro c hcm
    have h15 : c.2 ≤ 15 := by
      apply hok.1; rw [← hc.snd]; exact List.mem_map_of_mem hcm
    by_cases h0 : c.2 = 0
    · unfold reverseBits
      rw [if_pos h0, ok_bind]
      exact .pure ⟨rfl, by rw [h0]; rfl⟩
    · refine Oks.bind (reverseBits_spec (by omega) (code_lt hc hok hcm h0)) fun r hr => ?_
      exact .pure ⟨rfl, hr⟩
  · rintro rev ⟨_, h2⟩
    refine ⟨len_le_of_all hok.1, ?_⟩
    intro s hs
    have hl := lt_length_of_len hs
    rw [← hc.length] at hl
    have hcode := hc.code s hs
    rw [List.getD_eq_getElem?_getD, List.getElem?_eq_getElem hl, Option.getD_some] at hcode
    obtain ⟨⟨c, l⟩, g1, g2, g3⟩ := h2 s _ (List.getElem?_eq_getElem hl)
    rw [hcode] at g2 g3
    simp only at g2 g3
    subst g2
    exact ⟨c, g1, g3⟩

/-! ### Writing -/

/-- The writer went from `w` to `w'` by appending `bits`. -/
def Wrote (w : BitWriter64) (bits : List Bool) (w' : BitWriter64) : Prop :=
  w'.Inv ∧ w'.bits = w.bits ++ bits

theorem Wrote.trans {w w' w'' : BitWriter64} {a b : List Bool} (h1 : Wrote w a w') (h2 : Wrote w' b w'') :
    Wrote w (a ++ b) w'' := ⟨h2.1, by rw [h2.2, h1.2, List.append_assoc]⟩

theorem write_spec {w : BitWriter64} (hw : w.Inv) (v n : Nat) (hn : n < 32) :
    Oks (w.writeBitsChecked v n) (Wrote w (bitsLSB v n)) := by
  unfold BitWriter64.writeBitsChecked
  have := hw.lt
  rw [if_neg (by omega)]
  have h := BitWriter64.writeBits_spec w hw v n (by omega)
  exact .ok ⟨h.2, h.1⟩

theorem writeCode_spec {rev : List (Nat × Nat)} {lens : List Nat} (h : RevOf rev lens) {w : BitWriter64}
    (hw : w.Inv) {s : Nat} (hs : len lens s ≠ 0) : Oks (writeCode rev s w) (Wrote w (codeword lens s)) := by
  unfold writeCode
  obtain ⟨c, h1, h2⟩ := h.code s hs
  unfold getChecked
  rw [h1]
  simp only [ok_bind]
  rw [← h2]
  have := h.le s
  exact write_spec hw _ _ (by omega)

theorem writeExtra_spec {w : BitWriter64} (hw : w.Inv) (v n : Nat) (hn : n < 32) :
    Oks (writeExtra v n w) (Wrote w (bitsLSB v n)) := by
  unfold writeExtra
  split
  · exact write_spec hw v n hn
  · have : n = 0 := by omega
    subst this
    exact .ok ⟨hw, by simp⟩

/-- The symbols a token needs have codes. -/
def Coded (lit dist : List Nat) : Token → Prop
  | .lit b => len lit b.toNat ≠ 0
  | .mtch l d => 3 ≤ l ∧ l ≤ 258 ∧ 1 ≤ d ∧ d ≤ 32768 ∧
      (∀ k x e, lengthCode l = .ok (k, x, e) → len lit k ≠ 0) ∧
      (∀ k x e, distanceCode d = .ok (k, x, e) → len dist k ≠ 0)

theorem writeToken_mtch (lit dist : List (Nat × Nat)) (w : BitWriter64) (length distance : Nat) :
    writeToken lit dist w (.mtch length distance) = (do
      let (ls, lx, lv) ← lengthCode length
      let w ← writeCode lit ls w
      let w ← writeExtra lv lx w
      let (ds, dx, dv) ← distanceCode distance
      let w ← writeCode dist ds w
      writeExtra dv dx w) := rfl

theorem writeBody_spec {lr dr : List (Nat × Nat)} {lit dist : List Nat} (hl : RevOf lr lit) (hd : RevOf dr dist)
    (heob : len lit 256 ≠ 0) (ts : List Token) (hts : ∀ t ∈ ts, Coded lit dist t) (w : BitWriter64) (hw : w.Inv) :
    Oks (writeBody lr dr ts w) (fun w' => ∃ bits, Wrote w bits w' ∧ Body lit dist bits (ts.map Lz77.Token.spec)) := by
  induction ts generalizing w with
  | nil =>
    unfold writeBody
    refine Oks.mono (writeCode_spec hl hw heob) fun w' h => ⟨_, h, .eob heob⟩
  | cons t ts ih =>
    have ih := ih (fun x hx => hts x (by simp [hx]))
    have ht := hts t (by simp)
    unfold writeBody
    cases t with
    | lit b =>
      unfold writeToken
      refine Oks.bind (writeCode_spec hl hw ht) fun w1 h1 => ?_
      refine Oks.mono (ih w1 h1.1) ?_
      rintro w2 ⟨bits, h2, h3⟩
      exact ⟨_, h1.trans h2, .lit b ht h3⟩
    | mtch l d =>
      obtain ⟨a1, a2, a3, a4, a5, a6⟩ := ht
      obtain ⟨k, lb, lx, e, k1, k2, k3, k4, _, k5⟩ := lengthCode_spec a1 a2
      obtain ⟨j, db, dx, f, j1, j2, j3, j4, _, j5⟩ := distanceCode_spec a3 a4
      have hk := a5 _ _ _ k2
      have hj := a6 _ _ _ j2
      rw [writeToken_mtch, k2, ok_bind]
      simp only [j2]
      refine Oks.bind (P := fun w1 => Wrote w (codeword lit (257 + k) ++ bitsLSB e lx ++ codeword dist j ++ bitsLSB f dx) w1) ?_ ?_
      · refine Oks.bind (writeCode_spec hl hw hk) fun w1 h1 => ?_
        refine Oks.bind (writeExtra_spec h1.1 e lx (by omega)) fun w2 h2 => ?_
        rw [ok_bind]
        refine Oks.bind (writeCode_spec hd h2.1 hj) fun w3 h3 => ?_
        refine Oks.mono (writeExtra_spec h3.1 f dx (by omega)) fun w4 h4 => ?_
        exact ((h1.trans h2).trans h3).trans h4
      · intro w4 h4
        refine Oks.mono (ih w4 h4.1) ?_
        rintro w5 ⟨bits, h5, h6⟩
        refine ⟨_, h4.trans h5, ?_⟩
        have := Body.copy (lit := lit) (dist := dist) k e j f k1 k3 hk j1 j3 hj h6
        rw [k4, j4] at this
        exact this

end Pixo.Deflate
