import Verif.Proof.Lz77Search
import Verif.Spec.LzPrice
/-
From the cheapest path to the cheapest sequence of tokens.
-/
namespace Pixo.Lz77
open Pixo Pixo.MatchLength
open Spec.Rfc1951 (expandFrom expand copyBytes lengthTable distTable)

variable {cfg : Config} {data : List UInt8} {cm : CostModel} {tbl : Nat → List Nat × Nat}

/-! ### Token sequences that denote the data -/

/-- The tokens denote what follows position `p`. -/
inductive Steps (data : List UInt8) : Nat → List Token → Prop
  | nil : Steps data data.length []
  | lit {p b ts} : data[p]? = some b → Steps data (p + 1) ts → Steps data p (.lit b :: ts)
  | mtch {p l d ts} : Valid data p l d → Steps data (p + l) ts → Steps data p (.mtch l d :: ts)

theorem copyBytes_inv (n dist : Nat) (out out' : List UInt8) (h : copyBytes n dist out = some out') :
    (n = 0 ∨ (1 ≤ dist ∧ dist ≤ out.length)) ∧ out'.length = out.length + n ∧ out <+: out' ∧
      ∀ i, i < n → out'[out.length - dist + i]? = out'[out.length + i]? := by
  induction n generalizing out with
  | zero =>
    rw [copyBytes] at h
    cases h
    exact ⟨Or.inl rfl, rfl, List.prefix_refl _, fun i hi => by omega⟩
  | succ n ih =>
    rw [copyBytes] at h
    split at h
    · rename_i hd
      split at h
      · rename_i b hb
        obtain ⟨h1, h2, h3, h4⟩ := ih _ h
        rw [List.length_append, List.length_singleton] at h1 h2 h4
        refine ⟨Or.inr hd, by omega, List.IsPrefix.trans (List.prefix_append _ _) h3, ?_⟩
        intro i hi
        cases i with
        | zero =>
          obtain ⟨tl, rfl⟩ := h3
          rw [Nat.add_zero, Nat.add_zero, List.append_assoc, List.getElem?_append_left (by omega), hb,
            List.getElem?_append_right (Nat.le_refl _), Nat.sub_self]
          rfl
        | succ i =>
          have := h4 i (by omega)
          rw [show out.length - dist + (i + 1) = out.length + 1 - dist + i by omega, this]
          congr 1; omega
      · cases h
    · cases h

theorem expandFrom_prefix (ts : List Spec.Rfc1951.Token) (out r : List UInt8) (h : expandFrom out ts = some r) :
    out <+: r := by
  induction ts generalizing out with
  | nil => rw [expandFrom] at h; cases h; exact List.prefix_refl _
  | cons t ts ih =>
    cases t with
    | lit b =>
      rw [expandFrom] at h
      exact List.IsPrefix.trans (List.prefix_append _ _) (ih _ h)
    | copy l d =>
      rw [expandFrom] at h
      split at h
      · rename_i o ho
        exact List.IsPrefix.trans (copyBytes_inv l d out o ho).2.2.1 (ih _ h)
      · cases h

theorem steps_of_expand (ts : List Token) (p : Nat) (hp : p ≤ data.length)
    (h : expandFrom (data.take p) (ts.map Token.spec) = some data)
    (hl : ∀ l d, Token.mtch l d ∈ ts → 3 ≤ l ∧ l ≤ 258 ∧ 1 ≤ d ∧ d ≤ 32768) : Steps data p ts := by
  induction ts generalizing p with
  | nil =>
    rw [List.map_nil, expandFrom] at h
    have := congrArg List.length (Option.some.inj h)
    rw [List.length_take] at this
    obtain rfl : p = data.length := by omega
    exact .nil
  | cons t ts ih =>
    have htl : ∀ l d, Token.mtch l d ∈ ts → 3 ≤ l ∧ l ≤ 258 ∧ 1 ≤ d ∧ d ≤ 32768 :=
      fun l d hm => hl l d (List.mem_cons_of_mem _ hm)
    have hlen : (data.take p).length = p := by rw [List.length_take]; omega
    cases t with
    | lit b =>
      rw [List.map_cons, Token.spec, expandFrom] at h
      obtain ⟨tl, htl'⟩ := expandFrom_prefix _ _ _ h
      have hb : data[p]? = some b := by
        have := congrArg (fun l : List UInt8 => l[p]?) htl'
        rw [List.append_assoc, List.getElem?_append_right (by omega), hlen, Nat.sub_self] at this
        rw [← this]; rfl
      have hlt := (List.getElem?_eq_some_iff.1 hb).1
      rw [List.getElem?_eq_getElem hlt] at hb
      refine .lit (by rw [List.getElem?_eq_getElem hlt]; exact hb) (ih (p + 1) hlt ?_ htl)
      rw [List.take_succ_eq_append_getElem hlt, Option.some.inj hb]
      exact h
    | mtch l d =>
      obtain ⟨g1, g2, g3, g4⟩ := hl l d (List.mem_cons_self ..)
      rw [List.map_cons, Token.spec, expandFrom] at h
      split at h
      · rename_i o ho
        obtain ⟨c1, c2, c3, c4⟩ := copyBytes_inv l d _ o ho
        rw [hlen] at c1 c2 c4
        have hpre := expandFrom_prefix _ _ _ h
        have ho' : o = data.take (p + l) := by
          have := List.prefix_iff_eq_take.1 hpre
          rw [c2] at this; exact this
        have hfit : p + l ≤ data.length := by
          have := hpre.length_le; omega
        subst ho'
        refine .mtch ⟨g1, g2, hfit, g3, g4, by omega, ?_⟩ (ih (p + l) hfit h htl)
        intro i hi
        have := c4 i hi
        rw [List.getElem?_take, if_pos (by omega), List.getElem?_take, if_pos (by omega)] at this
        exact this
      · cases h

/-! ### The symbols of lengths and distances -/

theorem lengthToSymbol_all : ∀ l < 259, 3 ≤ l → ∃ i < 29, lengthToSymbol l = .ok (257 + i, (lengthTable.getD i (0, 0)).2) ∧
    (lengthTable.getD i (0, 0)).1 ≤ l ∧ l < (lengthTable.getD i (0, 0)).1 + 2 ^ (lengthTable.getD i (0, 0)).2 ∧
    (l = 258 → i = 28) := by decide +kernel

theorem lengthTable_getD {i : Nat} (hi : i < 29) : lengthTable[i]? = some (lengthTable.getD i (0, 0)) := by
  have : i < lengthTable.length := hi
  rw [List.getD_eq_getElem?_getD, List.getElem?_eq_getElem this]; rfl

theorem distTable_getD {i : Nat} (hi : i < 30) : distTable[i]? = some (distTable.getD i (0, 0)) := by
  have : i < distTable.length := hi
  rw [List.getD_eq_getElem?_getD, List.getElem?_eq_getElem this]; rfl

theorem lengthToSymbol_spec {l : Nat} (h3 : 3 ≤ l) (h : l ≤ 258) : ∃ i lb lx e, lengthTable[i]? = some (lb, lx) ∧
    lengthToSymbol l = .ok (257 + i, lx) ∧ e < 2 ^ lx ∧ lb + e = l ∧ (l = 258 → i = 28) := by
  obtain ⟨i, hi, h1, h2, h4, h5⟩ := lengthToSymbol_all l (by omega) h3
  exact ⟨i, (lengthTable.getD i (0, 0)).1, (lengthTable.getD i (0, 0)).2, l - (lengthTable.getD i (0, 0)).1,
    lengthTable_getD hi, h1, by omega, by omega, h5⟩

theorem lengthTable_apart : ∀ i < 29, ∀ j < 29, i < j → j < 28 →
    (lengthTable.getD i (0, 0)).1 + 2 ^ (lengthTable.getD i (0, 0)).2 ≤ (lengthTable.getD j (0, 0)).1 := by decide +kernel

theorem lengthTable_last : ∀ i < 29, (lengthTable.getD i (0, 0)).1 + 2 ^ (lengthTable.getD i (0, 0)).2 ≤ 259 ∧
    (lengthTable.getD 28 (0, 0)) = (258, 0) := by decide +kernel

theorem lengthTable_lt {i : Nat} {b x : Nat} (h : lengthTable[i]? = some (b, x)) : i < 29 ∧ lengthTable.getD i (0, 0) = (b, x) := by
  have hi : i < 29 := (List.getElem?_eq_some_iff.1 h).1
  have := lengthTable_getD hi
  rw [h] at this
  exact ⟨hi, (Option.some.inj this).symm⟩

theorem distTable_lt {i : Nat} {b x : Nat} (h : distTable[i]? = some (b, x)) : i < 30 ∧ distTable.getD i (0, 0) = (b, x) := by
  have hi : i < 30 := (List.getElem?_eq_some_iff.1 h).1
  have := distTable_getD hi
  rw [h] at this
  exact ⟨hi, (Option.some.inj this).symm⟩

theorem lengthTable_unique {i j b x b' x' e e' : Nat} (h : lengthTable[i]? = some (b, x)) (h' : lengthTable[j]? = some (b', x'))
    (he : e < 2 ^ x) (he' : e' < 2 ^ x') (hl : b + e = b' + e') (h258 : b + e = 258 → i = 28)
    (h258' : b' + e' = 258 → j = 28) : i = j := by
  obtain ⟨hi, ei⟩ := lengthTable_lt h
  obtain ⟨hj, ej⟩ := lengthTable_lt h'
  have a1 := lengthTable_apart i hi j hj
  have a2 := lengthTable_apart j hj i hi
  have l1 := lengthTable_last i hi
  have l2 := lengthTable_last j hj
  by_cases h1 : i = 28
  · subst h1
    rw [l1.2] at ei; cases ei
    have : e = 0 := by simpa using he
    omega
  · by_cases h2 : j = 28
    · subst h2
      rw [l1.2] at ej; cases ej
      have : e' = 0 := by simpa using he'
      omega
    · rw [ei, ej] at a1 a2
      simp only [] at a1 a2
      omega

theorem distTable_apart : ∀ i < 30, ∀ j < 30, i < j →
    (distTable.getD i (0, 0)).1 + 2 ^ (distTable.getD i (0, 0)).2 ≤ (distTable.getD j (0, 0)).1 := by decide +kernel

theorem distTable_le {i j b x b' x' e e' : Nat} (h : distTable[i]? = some (b, x)) (h' : distTable[j]? = some (b', x'))
    (he' : e' < 2 ^ x') (hl : b + e ≤ b' + e') : i ≤ j := by
  obtain ⟨hi, ei⟩ := distTable_lt h
  obtain ⟨hj, ej⟩ := distTable_lt h'
  have a2 := distTable_apart j hj i hi
  rw [ei, ej] at a2
  simp only [] at a2
  omega

theorem distTable_all : ∀ m < 15, ∀ s < 2, 1 ≤ m → distTable[2 * m + s]? = some ((2 + s) * 2 ^ (m - 1) + 1, m - 1) ∧
    DISTANCE_EXTRA[2 * m + s]? = some (m - 1) := by decide +kernel

theorem distTable_small : ∀ d < 5, 1 ≤ d → distTable[d - 1]? = some (d, 0) := by decide +kernel

theorem distanceToSymbol_spec {d : Nat} (h1 : 1 ≤ d) (h : d ≤ 32768) : ∃ j db dx f, distTable[j]? = some (db, dx) ∧
    distanceToSymbol d = .ok (j, dx) ∧ f < 2 ^ dx ∧ db + f = d := by
  unfold distanceToSymbol
  rw [if_pos ⟨h1, h⟩]
  by_cases h5 : d < 5
  · rw [if_pos h5]
    exact ⟨d - 1, d, 0, 0, distTable_small d h5 h1, rfl, by decide, by omega⟩
  · rw [if_neg h5]
    simp only []
    have h0 : d - 1 ≠ 0 := by omega
    have hlo := Nat.log2_self_le h0
    have hhi : d - 1 < 2 ^ ((d - 1).log2 + 1) := Nat.lt_log2_self
    generalize hm : (d - 1).log2 = m at *
    have hm2 : 2 ≤ m := by
      rcases Nat.lt_or_ge m 2 with g | g
      · have : 2 ^ (m + 1) ≤ 2 ^ 2 := Nat.pow_le_pow_right (by decide) (by omega)
        omega
      · exact g
    have hm14 : m ≤ 14 := by
      rcases Nat.lt_or_ge 14 m with g | g
      · have : 2 ^ 15 ≤ 2 ^ m := Nat.pow_le_pow_right (by decide) g
        omega
      · exact g
    have e1 : 2 ^ m = 2 * 2 ^ (m - 1) := by rw [← Nat.pow_succ']; congr 1; omega
    have e2 : 2 ^ (m + 1) = 4 * 2 ^ (m - 1) := by rw [Nat.pow_succ, e1]; omega
    have hpos := Nat.two_pow_pos (m - 1)
    rw [Nat.shiftRight_eq_div_pow, show (1 : Nat) = 2 ^ 1 - 1 by decide, Nat.and_two_pow_sub_one_eq_mod]
    have hq2 : 2 ≤ (d - 1) / 2 ^ (m - 1) := by
      rw [Nat.le_div_iff_mul_le hpos]; omega
    have hq4 : (d - 1) / 2 ^ (m - 1) < 4 := by
      rw [Nat.div_lt_iff_lt_mul hpos]; omega
    have hdm := Nat.div_add_mod (d - 1) (2 ^ (m - 1))
    have hml := Nat.mod_lt (d - 1) hpos
    generalize hq : (d - 1) / 2 ^ (m - 1) = q at *
    have hs : q % 2 ^ 1 = q - 2 := by omega
    have hmod : q % 2 ^ (2 ^ 1 - 1) = q - 2 := by
      rw [show 2 ^ 1 - 1 = 1 by decide]; omega
    obtain ⟨t1, t2⟩ := distTable_all m (by omega) (q - 2) (by omega) (by omega)
    have hmin : min (2 * m + (q - 2)) 29 = 2 * m + (q - 2) := by omega
    refine ⟨2 * m + (q - 2), (2 + (q - 2)) * 2 ^ (m - 1) + 1, m - 1, (d - 1) % 2 ^ (m - 1), t1, ?_, hml, ?_⟩
    · first
        | rw [hmod, hmin]
        | rw [hs, hmin]
      unfold getChecked
      rw [t2]; rfl
    · rw [show 2 + (q - 2) = q by omega, Nat.mul_comm]
      omega

/-! ### Prices -/

/-- The price of a token under a cost model. -/
abbrev Price (cm : CostModel) : Spec.Rfc1951.Token → Int → Prop :=
  Spec.LzPrice.Priced addF ofNatF cm.litLen cm.dist

/-- The total price of a sequence of tokens. -/
abbrev TotalPrice (cm : CostModel) : Int → List Spec.Rfc1951.Token → Int → Prop :=
  Spec.LzPrice.Total addF ofNatF cm.litLen cm.dist

theorem matchCost_price {l d : Nat} {c : Int} (hl : 3 ≤ l ∧ l ≤ 258) (hd : 1 ≤ d ∧ d ≤ 32768)
    (h : cm.matchCost l d = .ok c) : Price cm (.copy l d) c := by
  obtain ⟨i, lb, lx, e, a1, a2, a3, a4, a5⟩ := lengthToSymbol_spec hl.1 hl.2
  obtain ⟨j, db, dx, f, b1, b2, b3, b4⟩ := distanceToSymbol_spec hd.1 hd.2
  unfold CostModel.matchCost at h
  rw [a2, ok_bind, b2] at h
  simp only [] at h
  cases hlc : cm.litLen[257 + i]? with
  | none => unfold getChecked at h; rw [hlc] at h; cases h
  | some lc =>
    cases hdc : cm.dist[j]? with
    | none => unfold getChecked at h; rw [hlc, ok_bind, ok_bind] at h; simp only [] at h; rw [hdc] at h; cases h
    | some dc =>
      unfold getChecked at h
      rw [hlc, ok_bind, ok_bind] at h
      simp only [] at h
      rw [hdc, ok_bind] at h
      cases h
      subst a4 b4
      exact .copy i e j f a1 a3 a5 b1 b3 hlc hdc

theorem price_matchCost {l d : Nat} {c : Int} (h : Price cm (.copy l d) c) (hl : 3 ≤ l ∧ l ≤ 258)
    (hd : 1 ≤ d ∧ d ≤ 32768) : cm.matchCost l d = .ok c := by
  obtain ⟨i, lb, lx, e, a1, a2, a3, a4, a5⟩ := lengthToSymbol_spec hl.1 hl.2
  obtain ⟨j, db, dx, f, b1, b2, b3, b4⟩ := distanceToSymbol_spec hd.1 hd.2
  generalize hl' : l = l' at *
  generalize hd' : d = d' at *
  unfold CostModel.matchCost
  rw [a2, ok_bind, b2]
  simp only []
  cases h with
  | copy i' e' j' f' g1 g2 g3 g4 g5 g6 g7 =>
    have hii : i = i' := lengthTable_unique a1 g1 a3 g2 a4 (fun h => a5 (by omega)) g3
    subst hii
    rw [a1] at g1; cases g1
    have hjj : j = j' := Nat.le_antisymm (distTable_le b1 g4 g5 (Nat.le_of_eq b4)) (distTable_le g4 b1 b3 (Nat.le_of_eq b4.symm))
    subst hjj
    rw [b1] at g4; cases g4
    unfold getChecked
    rw [g6, ok_bind, ok_bind]
    simp only []
    rw [g7, ok_bind]
    rfl

/-! ### Paths and tokens -/

/-- The tokens of a path. -/
def pathTokens (data : List UInt8) : Nat → List (Nat × Nat) → List Token
  | _, [] => []
  | p, (l, d) :: rest =>
    (if d = 0 then .lit (data.getD p 0) else .mtch l d) :: pathTokens data (p + l) rest

theorem emit_path (hs : ∀ i, i < data.length → SubOk data i (tbl i)) {p q : Nat} {x y : Int} {pairs : List (Nat × Nat)}
    (h : Path cm data tbl p x pairs q y) (out : List Token) :
    emitTokens data pairs p out = .ok (out ++ pathTokens data p pairs) := by
  induction h generalizing out with
  | nil => rw [emitTokens, pathTokens, List.append_nil]
  | cons he _ ih =>
    rw [emitTokens, pathTokens]
    rcases he with ⟨rfl, rfl, b, hb, _⟩ | ⟨g1, _, g3, g4, g5, _⟩
    · rw [if_pos rfl, if_pos rfl]
      unfold getChecked
      rw [hb, ok_bind, ih, List.getD_eq_getElem?_getD, hb, List.append_assoc]; rfl
    · have hv := (hs _ g5).valid _ _ g1 g3 g4
      rw [if_neg g4, if_neg g4, ih, asU16_len hv, List.append_assoc]; rfl

theorem path_total (hs : ∀ i, i < data.length → SubOk data i (tbl i)) {p q : Nat} {x y : Int} {pairs : List (Nat × Nat)}
    (h : Path cm data tbl p x pairs q y) :
    TotalPrice cm x ((pathTokens data p pairs).map Token.spec) y := by
  induction h with
  | nil => exact .nil _
  | cons he _ ih =>
    rw [pathTokens, List.map_cons]
    refine .cons ?_ ih
    rcases he with ⟨rfl, rfl, b, hb, hc⟩ | ⟨g1, _, g3, g4, g5, g6⟩
    · rw [if_pos rfl, List.getD_eq_getElem?_getD, hb]
      exact .lit b hc
    · have hv := (hs _ g5).valid _ _ g1 g3 g4
      rw [if_neg g4]
      exact matchCost_price ⟨hv.min, hv.max⟩ ⟨hv.near, hv.far⟩ g6

/-- Every match of the sequence is among those on offer. -/
inductive OnOffer (data : List UInt8) (tbl : Nat → List Nat × Nat) : Nat → List Token → Prop
  | nil (p : Nat) : OnOffer data tbl p []
  | lit {p b ts} : OnOffer data tbl (p + 1) ts → OnOffer data tbl p (.lit b :: ts)
  | mtch {p l d ts} : l ≤ (tbl p).2 → (tbl p).1[l]? = some d → OnOffer data tbl (p + l) ts →
      OnOffer data tbl p (.mtch l d :: ts)

theorem path_onOffer {p q : Nat} {x y : Int} {pairs : List (Nat × Nat)}
    (h : Path cm data tbl p x pairs q y) : OnOffer data tbl p (pathTokens data p pairs) := by
  induction h with
  | nil => exact .nil _
  | cons he _ ih =>
    rw [pathTokens]
    rcases he with ⟨rfl, rfl, b, hb, hc⟩ | ⟨g1, g2, g3, g4, g5, g6⟩
    · rw [if_pos rfl]; exact .lit ih
    · rw [if_neg g4]; exact .mtch g2 g3 ih

/-- A sequence made of what is on offer is a path. -/
theorem path_of_steps {p : Nat} {ts : List Token} (h : Steps data p ts) (ho : OnOffer data tbl p ts) {x y : Int}
    (ht : TotalPrice cm x (ts.map Token.spec) y) : ∃ pairs, Path cm data tbl p x pairs data.length y := by
  induction h generalizing x with
  | nil => cases ht; exact ⟨[], .nil _ _⟩
  | lit hb _ ih =>
    cases ho with
    | lit ho =>
      rw [List.map_cons] at ht
      cases ht with
      | cons hc hr =>
        obtain ⟨pairs, hp⟩ := ih ho hr
        cases hc with
        | lit _ hc => exact ⟨(1, 0) :: pairs, .cons (Or.inl ⟨rfl, rfl, _, hb, hc⟩) hp⟩
  | mtch hv _ ih =>
    cases ho with
    | mtch h1 h2 ho =>
      rw [List.map_cons] at ht
      cases ht with
      | cons hc hr =>
        obtain ⟨pairs, hp⟩ := ih ho hr
        have hmc := price_matchCost hc ⟨hv.min, hv.max⟩ ⟨hv.near, hv.far⟩
        have := hv.min
        have := hv.near
        have := hv.fits
        exact ⟨(_, _) :: pairs, .cons (Or.inr ⟨hv.min, h1, h2, by omega, by omega, hmc⟩) hp⟩

/-- Longer distances do not cost less. -/
def Farther (cm : CostModel) : Prop :=
  ∀ l d d' c c', d ≤ d' → Price cm (.copy l d) c → Price cm (.copy l d') c' → c ≤ c'

theorem addF_comm (a b : Int) : addF a b = addF b a := by
  unfold addF; rw [Int.add_comm]

theorem addF_mono2 {a b c d : Int} (h : a ≤ b) (h' : c ≤ d) : addF a c ≤ addF b d := by
  refine Int.le_trans (addF_mono h c) ?_
  rw [addF_comm b c, addF_comm b d]
  exact addF_mono h' b

/-- When every match is on offer, at its distance or a shorter one, any sequence can be replaced
by one that is on offer. -/
theorem path_of_any (hc : CostOk cm) (hf : Farther cm)
    (hall : ∀ p, p < data.length → ∀ l d, Valid data p l d → Has (tbl p) l d)
    (hs : ∀ i, i < data.length → SubOk data i (tbl i)) {p : Nat} {ts : List Token} (h : Steps data p ts) {x x' y : Int}
    (hx : x' ≤ x) (ht : TotalPrice cm x (ts.map Token.spec) y) :
    ∃ pairs y', Path cm data tbl p x' pairs data.length y' ∧ y' ≤ y := by
  induction h generalizing x x' with
  | nil => cases ht; exact ⟨[], _, .nil _ _, hx⟩
  | lit hb _ ih =>
    rw [List.map_cons] at ht
    cases ht with
    | cons hc hr =>
      cases hc with
      | lit _ hc =>
        obtain ⟨pairs, y', hp, hle⟩ := ih (addF_mono hx _) hr
        exact ⟨(1, 0) :: pairs, y', .cons (Or.inl ⟨rfl, rfl, _, hb, hc⟩) hp, hle⟩
  | mtch hv _ ih =>
    rename_i p l d ts _
    rw [List.map_cons] at ht
    cases ht with
    | cons hcp hr =>
      have := hv.min
      have := hv.fits
      obtain ⟨⟨d', g1, g2, g3⟩, g4⟩ := hall p (by omega) l d hv
      have hv' := (hs p (by omega)).valid l d' hv.min g1 g2
      obtain ⟨c', ec, _⟩ := (matchCost_ok hc hv').out
      have hle := hf l d' d c' _ g3 (matchCost_price ⟨hv'.min, hv'.max⟩ ⟨hv'.near, hv'.far⟩ ec) hcp
      obtain ⟨pairs, y', hp, hle'⟩ := ih (addF_mono2 hx hle) hr
      exact ⟨(l, d') :: pairs, y', .cons (Or.inr ⟨hv.min, g4, g1, g2, by omega, ec⟩) hp, hle'⟩

/-! ### The parser -/

theorem compressOptimal_cheapest (lv : Simd.Level) {st : State} (hs : Sized st) (hc : CostOk cm)
    (hrep : Reports lv st data tbl) :
    ∃ ts st' v, compressOptimal lv st cm data = .ok (ts, st') ∧ OnOffer data tbl 0 ts ∧
      TotalPrice cm 0 (ts.map Token.spec) v ∧ Steps data 0 ts ∧
      (∃ pairs, ts = pathTokens data 0 pairs ∧ Path cm data tbl 0 0 pairs data.length v) ∧
      ∀ pairs v', Path cm data tbl 0 0 pairs data.length v' → v ≤ v' := by
  obtain ⟨⟨ts, st'⟩, e, hsound⟩ := (compressOptimal_spec lv hs hc data).out
  have hsteps : Steps data 0 ts := by
    refine steps_of_expand ts 0 (Nat.zero_le _) ?_ hsound.1.limits
    have := hsound.1.expands
    rw [List.take_length] at this
    exact this
  by_cases hd : data.isEmpty = true
  · have hd' := List.isEmpty_iff.1 hd
    subst hd'
    have e2 : compressOptimal lv st cm [] = .ok ([], st) := rfl
    rw [e2] at e
    cases e
    refine ⟨[], st, 0, rfl, .nil 0, .nil 0, hsteps, ⟨[], rfl, .nil 0 0⟩, ?_⟩
    intro pairs v' hp
    cases hp with
    | nil => exact Int.le_refl _
    | cons he _ =>
      exfalso
      rcases he with ⟨_, _, b, hb, _⟩ | ⟨_, _, _, _, g5, _⟩
      · cases hb
      · cases g5
  · obtain ⟨⟨dp, st1⟩, ef, pairs, v, ecol, hp, hmin⟩ := (forward_path lv hc hs hrep).out
    have hsub : ∀ i, i < data.length → SubOk data i (tbl i) := fun i hi => hrep.ok hs hi
    unfold compressOptimal traceBackwards at e
    rw [if_neg hd, ef, ok_bind] at e
    simp only [] at ecol e
    rw [ecol, ok_bind, emit_path hsub hp, ok_bind] at e
    cases e
    refine ⟨_, st', v, ?_, path_onOffer hp, path_total hsub hp, hsteps, ⟨pairs, rfl, hp⟩, hmin⟩
    unfold compressOptimal traceBackwards
    rw [if_neg hd, ef, ok_bind]
    simp only []
    rw [ecol, ok_bind, emit_path hsub hp, ok_bind]
    rfl

end Pixo.Lz77
