import Verif.Proof.JpegCodes
import Verif.Proof.BitMsb
import Verif.Proof.Canonical
/-
A scan determines its coefficients: what `Spec.T81.Scan` calls the entropy-coded data of some MCUs is
that of no others of the same shape. So every T.81 decoder gets the same result from it.
-/
namespace Spec.T81
open Pixo Pixo.Jpeg

/-! ### Prefix codes -/

theorem codesFrom_sorted (c s : Nat) (l : List Nat) (hs : (s :: l).Pairwise (· ≤ ·)) :
    (∀ p ∈ codesFrom c s l, s ≤ p.2 ∧ c * 2 ^ (p.2 - s) ≤ p.1) ∧
    (codesFrom c s l).Pairwise (fun a b => a.2 ≤ b.2 ∧ (a.1 + 1) * 2 ^ (b.2 - a.2) ≤ b.1) := by
  induction l generalizing c s with
  | nil => simp [codesFrom]
  | cons x l ih =>
    rw [List.pairwise_cons] at hs
    have hx := hs.1 x (by simp)
    obtain ⟨h1, h2⟩ := ih (c * 2 ^ (x - s) + 1) x hs.2
    rw [codesFrom]
    refine ⟨?_, ?_⟩
    · intro p hp
      rcases List.mem_cons.mp hp with rfl | hp
      · exact ⟨hx, Nat.le_refl _⟩
      · obtain ⟨g1, g2⟩ := h1 p hp
        refine ⟨by omega, Nat.le_trans ?_ g2⟩
        rw [Nat.add_mul, Nat.mul_assoc, ← Nat.pow_add, show x - s + (p.2 - x) = p.2 - s by omega]
        exact Nat.le_add_right _ _
    · rw [List.pairwise_cons]
      exact ⟨fun p hp => h1 p hp, h2⟩

theorem append_prefix {α} {a b r q : List α} (h : a ++ r = b ++ q) (hl : a.length ≤ b.length) :
    b.take a.length = a := by
  have := congrArg (List.take a.length) h
  rw [List.take_left', List.take_append_of_le_length hl] at this
  · exact this.symm
  · rfl

/-- The code of a legal table is prefix free. -/
theorem HasCode_unique {t : Table} (h : t.Legal) {a b : Nat} {w v r q : List Bool}
    (ha : t.HasCode a w) (hb : t.HasCode b v) (he : w ++ r = v ++ q) : a = b ∧ w = v ∧ r = q := by
  obtain ⟨j, c1, s1, e1, e2, rfl⟩ := ha
  obtain ⟨k, c2, s2, e3, e4, rfl⟩ := hb
  have hp : (codes t.bits).Pairwise (fun a b => a.2 ≤ b.2 ∧ (a.1 + 1) * 2 ^ (b.2 - a.2) ≤ b.1) := (codesFrom_sorted 0 0 (sizes t.bits) (by
    rw [List.pairwise_cons]; exact ⟨fun _ _ => Nat.zero_le _, sizesAt_sorted 0 t.bits⟩)).2
  obtain ⟨hj, hjc⟩ := List.getElem?_eq_some_iff.mp e2
  obtain ⟨hk, hkc⟩ := List.getElem?_eq_some_iff.mp e4
  have f1 := h.fits _ (List.mem_of_getElem? e2)
  have f2 := h.fits _ (List.mem_of_getElem? e4)
  simp only at f1 f2
  have key : ∀ (c1 s1 c2 s2 : Nat) (r q : List Bool), c1 + 1 < 2 ^ s1 → c2 + 1 < 2 ^ s2 → s1 ≤ s2 →
      (c1 + 1) * 2 ^ (s2 - s1) ≤ c2 → bitsMSB c1 s1 ++ r = bitsMSB c2 s2 ++ q → False := by
    intro c1 s1 c2 s2 r q f1 f2 hs hc he
    have := append_prefix he (by simpa using hs)
    rw [bitsMSB_length, bitsMSB_take hs] at this
    have hlt : c2 / 2 ^ (s2 - s1) < 2 ^ s1 := by
      rw [Nat.div_lt_iff_lt_mul (Nat.two_pow_pos _), ← Nat.pow_add, show s1 + (s2 - s1) = s2 by omega]; omega
    have := bitsMSB_inj hlt (by omega) this
    have := (Nat.le_div_iff_mul_le (Nat.two_pow_pos (s2 - s1))).2 hc
    omega
  rcases Nat.lt_trichotomy j k with hjk | rfl | hjk
  · have := List.pairwise_iff_getElem.mp hp j k hj hk hjk
    have e2' : (codes t.bits)[j] = (c1, s1) := hjc
    have e4' : (codes t.bits)[k] = (c2, s2) := hkc
    rw [e2', e4'] at this
    exact (key c1 s1 c2 s2 r q f1 f2 this.1 this.2 he).elim
  · rw [e1] at e3
    rw [e2] at e4
    injection e3 with e3
    injection e4 with e4
    injection e4 with e4 e5
    subst e3; subst e4; subst e5
    exact ⟨rfl, rfl, List.append_cancel_left he⟩
  · have := List.pairwise_iff_getElem.mp hp k j hk hj hjk
    have e2' : (codes t.bits)[j] = (c1, s1) := hjc
    have e4' : (codes t.bits)[k] = (c2, s2) := hkc
    rw [e2', e4'] at this
    exact (key c2 s2 c1 s1 q r f2 f1 this.1 this.2 he.symm).elim

/-! ### Blocks -/

theorem Dc_unique {t : Table} (h : t.Legal) {a b : Int} {w v r q : List Bool}
    (ha : Dc t a w) (hb : Dc t b v) (he : w ++ r = v ++ q) : a = b ∧ w = v ∧ r = q := by
  cases ha with
  | zero h1 =>
    cases hb with
    | zero h2 => obtain ⟨_, h3, h4⟩ := HasCode_unique h h1 h2 he; exact ⟨rfl, h3, h4⟩
    | bits g1 g2 g3 h2 =>
      rw [List.append_assoc] at he
      obtain ⟨h3, _, _⟩ := HasCode_unique h h1 h2 he
      omega
  | bits f1 f2 f3 h1 =>
    rw [List.append_assoc] at he
    cases hb with
    | zero h2 => obtain ⟨h3, _, _⟩ := HasCode_unique h h1 h2 he; omega
    | bits g1 g2 g3 h2 =>
      rw [List.append_assoc] at he
      obtain ⟨rfl, rfl, h4⟩ := HasCode_unique h h1 h2 he
      obtain ⟨h5, h6⟩ := List.append_inj h4 (by simp)
      have := bitsMSB_inj f3 g3 h5
      subst this
      exact ⟨rfl, rfl, h6⟩

theorem Ac_unique {t : Table} (h : t.Legal) {a b : List Int} {w v r q : List Bool}
    (ha : Ac t a w) (hb : Ac t b v) (hl : a.length = b.length) (he : w ++ r = v ++ q) :
    a = b ∧ w = v ∧ r = q := by
  induction ha generalizing b v r q with
  | done =>
    cases hb with
    | done => exact ⟨rfl, rfl, he⟩
    | eob g1 h2 => simp at hl; omega
    | zrl h2 h3 => simp at hl
    | coef g1 g2 g3 g4 h2 h3 => simp at hl
  | eob f1 h1 =>
    cases hb with
    | done => simp at hl; omega
    | eob g1 h2 =>
      simp only [List.length_replicate] at hl
      subst hl
      obtain ⟨_, h3, h4⟩ := HasCode_unique h h1 h2 he
      exact ⟨rfl, h3, h4⟩
    | zrl h2 h3 =>
      rw [List.append_assoc] at he
      have := (HasCode_unique h h1 h2 he).1
      omega
    | coef g1 g2 g3 g4 h2 h3 =>
      simp only [List.append_assoc] at he
      have := (HasCode_unique h h1 h2 he).1
      omega
  | zrl h1 ha ih =>
    rw [List.append_assoc] at he
    cases hb with
    | done => simp at hl
    | eob g1 h2 =>
      have := (HasCode_unique h h1 h2 he).1
      omega
    | zrl h2 h3 =>
      rw [List.append_assoc] at he
      obtain ⟨_, rfl, h4⟩ := HasCode_unique h h1 h2 he
      obtain ⟨rfl, rfl, h5⟩ := ih h3 (by simpa using hl) h4
      exact ⟨rfl, rfl, h5⟩
    | coef g1 g2 g3 g4 h2 h3 =>
      simp only [List.append_assoc] at he
      have := (HasCode_unique h h1 h2 he).1
      omega
  | coef f1 f2 f3 f4 h1 ha ih =>
    simp only [List.append_assoc] at he
    cases hb with
    | done => simp at hl
    | eob g1 h2 =>
      have := (HasCode_unique h h1 h2 he).1
      omega
    | zrl h2 h3 =>
      rw [List.append_assoc] at he
      have := (HasCode_unique h h1 h2 he).1
      omega
    | coef g1 g2 g3 g4 h2 h3 =>
      simp only [List.append_assoc] at he
      obtain ⟨e1, rfl, h4⟩ := HasCode_unique h h1 h2 he
      rename_i r1 s1 v1 _ _ _ r2 s2 v2 _ _
      have e2 : r1 = r2 := by omega
      have e3 : s1 = s2 := by omega
      subst e2; subst e3
      obtain ⟨h5, h6⟩ := List.append_inj h4 (by simp)
      have := bitsMSB_inj f4 g4 h5
      subst this
      obtain ⟨rfl, rfl, h7⟩ := ih h3 (by simpa using hl) h6
      exact ⟨rfl, rfl, h7⟩

theorem Block_unique {dc ac : Table} (hd : dc.Legal) (ha : ac.Legal) {pred : Int} {a b : List Int}
    {w v r q : List Bool} (h1 : Block dc ac pred a w) (h2 : Block dc ac pred b v) (he : w ++ r = v ++ q) :
    a = b ∧ w = v ∧ r = q := by
  cases h1 with
  | mk l1 d1 a1 =>
    cases h2 with
    | mk l2 d2 a2 =>
      simp only [List.append_assoc] at he
      obtain ⟨rfl, rfl, h3⟩ := Dc_unique hd d1 d2 he
      obtain ⟨rfl, rfl, h4⟩ := Ac_unique ha a1 a2 (by omega) h3
      exact ⟨rfl, rfl, h4⟩

/-- All tables are legal. -/
def Tables.Legal (ts : Tables) : Prop := ∀ c, (ts.dc c).Legal ∧ (ts.ac c).Legal

theorem Blocks_unique {ts : Tables} (hts : ts.Legal) {pred : Nat → Int} {a b : List (Nat × List Int)}
    {w v r q : List Bool} (h1 : Blocks ts pred a w) (h2 : Blocks ts pred b v)
    (hs : a.map (·.1) = b.map (·.1)) (he : w ++ r = v ++ q) : a = b ∧ w = v ∧ r = q := by
  induction h1 generalizing b v r q with
  | nil =>
    cases h2 with
    | nil => exact ⟨rfl, rfl, he⟩
    | cons g1 g2 => simp at hs
  | cons f1 f2 ih =>
    cases h2 with
    | nil => simp at hs
    | cons g1 g2 =>
      simp only [List.map_cons, List.cons.injEq] at hs
      obtain ⟨rfl, hs⟩ := hs
      simp only [List.append_assoc] at he
      obtain ⟨rfl, rfl, h3⟩ := Block_unique (hts _).1 (hts _).2 f1 g1 he
      obtain ⟨rfl, rfl, h4⟩ := ih g2 hs h3
      exact ⟨rfl, rfl, h4⟩

/-! ### Segments and scans -/

theorem stuff_cons (b : UInt8) (bs : List UInt8) :
    stuff (b :: bs) = (if b = 0xFF then [0xFF, 0] else [b]) ++ stuff bs := by simp [stuff]

/-- A stuffed string ends before the first marker, or at the end. -/
theorem stuff_unique {a b r q : List UInt8}
    (hr : r = [] ∨ ∃ x xs, r = 0xFF :: x :: xs ∧ x ≠ 0) (hq : q = [] ∨ ∃ x xs, q = 0xFF :: x :: xs ∧ x ≠ 0)
    (he : stuff a ++ r = stuff b ++ q) : a = b ∧ r = q := by
  have side : ∀ (b : List UInt8) (r q : List UInt8) (y : UInt8) (ys : List UInt8),
      (r = [] ∨ ∃ x xs, r = 0xFF :: x :: xs ∧ x ≠ 0) → b = y :: ys → r = stuff b ++ q → False := by
    intro b r q y ys hr hb he
    subst hb
    rw [stuff_cons] at he
    rcases hr with rfl | ⟨x, xs, rfl, hx⟩
    · have := congrArg List.length he
      split at this <;> simp at this
    · split at he
      · simp only [List.cons_append, List.nil_append, List.cons.injEq, true_and] at he
        exact hx he.1
      · rename_i hy
        simp only [List.cons_append, List.nil_append, List.cons.injEq] at he
        exact hy he.1.symm
  induction a generalizing b with
  | nil =>
    cases b with
    | nil => exact ⟨rfl, he⟩
    | cons y ys => exact (side _ r q y ys hr rfl he).elim
  | cons x xs ih =>
    cases b with
    | nil => exact (side _ q r x xs hq rfl he.symm).elim
    | cons y ys =>
      rw [stuff_cons, stuff_cons] at he
      have hxy : x = y ∧ stuff xs ++ r = stuff ys ++ q := by
        by_cases hx : x = 0xFF <;> by_cases hy : y = 0xFF
        · rw [if_pos hx, if_pos hy] at he
          simp only [List.cons_append, List.nil_append, List.cons.injEq, true_and] at he
          exact ⟨by rw [hx, hy], he⟩
        · rw [if_pos hx, if_neg hy] at he
          simp only [List.cons_append, List.nil_append, List.cons.injEq] at he
          exact (hy he.1.symm).elim
        · rw [if_neg hx, if_pos hy] at he
          simp only [List.cons_append, List.nil_append, List.cons.injEq] at he
          exact (hx he.1).elim
        · rw [if_neg hx, if_neg hy] at he
          simpa using he
      obtain ⟨rfl, h⟩ := hxy
      obtain ⟨rfl, h2⟩ := ih h
      exact ⟨rfl, h2⟩

/-- Something that is not entropy-coded data: nothing, or a marker. -/
def AtMarker (r : List UInt8) : Prop := r = [] ∨ ∃ x xs, r = 0xFF :: x :: xs ∧ x ≠ 0

theorem Segment_unique {ts : Tables} (hts : ts.Legal) {a b : List (Nat × List Int)}
    {w v r q : List UInt8} (h1 : Segment ts a w) (h2 : Segment ts b v)
    (hs : a.map (·.1) = b.map (·.1)) (hr : AtMarker r) (hq : AtMarker q) (he : w ++ r = v ++ q) :
    a = b ∧ w = v ∧ r = q := by
  obtain ⟨raw1, bits1, rfl, e1, g1⟩ := h1
  obtain ⟨raw2, bits2, rfl, e2, g2⟩ := h2
  obtain ⟨rfl, rfl⟩ := stuff_unique hr hq he
  rw [e1] at e2
  exact ⟨(Blocks_unique hts g1 g2 hs e2).1, rfl, rfl⟩

/-- The components of the blocks of each MCU. -/
def shape (mcus : List (List (Nat × List Int))) : List (List Nat) := mcus.map (fun m => m.map (·.1))

theorem shape_length (mcus) : (shape mcus).length = mcus.length := by simp [shape]

theorem flatten_inj {a b : List (List (Nat × List Int))} (hs : shape a = shape b) (h : a.flatten = b.flatten) :
    a = b := by
  induction a generalizing b with
  | nil => cases b with
    | nil => rfl
    | cons => simp [shape] at hs
  | cons x a ih =>
    cases b with
    | nil => simp [shape] at hs
    | cons y b =>
      simp only [shape, List.map_cons, List.cons.injEq] at hs
      have hl : x.length = y.length := by simpa using congrArg List.length hs.1
      simp only [List.flatten_cons] at h
      obtain ⟨h1, h2⟩ := List.append_inj h hl
      rw [h1, ih hs.2 h2]

theorem shape_flatten {a b : List (List (Nat × List Int))} (hs : shape a = shape b) :
    a.flatten.map (·.1) = b.flatten.map (·.1) := by
  rw [List.map_flatten, List.map_flatten]
  exact congrArg List.flatten hs

theorem Restarts_ne_nil {ts : Tables} {ri m : Nat} {a w} (h : Restarts ts ri m a w) : a ≠ [] := by
  induction h with
  | last _ h _ => exact h
  | more _ _ _ ih => intro h; rw [List.append_eq_nil_iff] at h; exact ih h.2

theorem Restarts_unique {ts : Tables} (hts : ts.Legal) {ri m : Nat} {a b : List (List (Nat × List Int))}
    {w v r q : List UInt8} (h1 : Restarts ts ri m a w) (h2 : Restarts ts ri m b v)
    (hs : shape a = shape b) (hr : AtMarker r) (hq : AtMarker q) (he : w ++ r = v ++ q) :
    a = b ∧ w = v ∧ r = q := by
  have hlen : ∀ (a b : List (List (Nat × List Int))), shape a = shape b → a.length = b.length := by
    intro a b h; rw [← shape_length, ← shape_length, h]
  have hmark : ∀ (m : Nat) (more : List UInt8), AtMarker (0xFF :: UInt8.ofNat (0xD0 + m % 8) :: more) := by
    intro m more
    refine Or.inr ⟨_, _, rfl, ?_⟩
    intro h
    have := congrArg UInt8.toNat h
    rw [UInt8.toNat_ofNat', Nat.mod_eq_of_lt (by omega)] at this
    simp at this
  induction h1 generalizing b v r q with
  | last f1 f2 f3 =>
    cases h2 with
    | last g1 g2 g3 =>
      obtain ⟨h3, h4, h5⟩ := Segment_unique hts f3 g3 (shape_flatten hs) hr hq he
      exact ⟨flatten_inj hs h3, h4, h5⟩
    | more g1 g2 g3 =>
      have := hlen _ _ hs
      have := List.length_pos_iff.mpr (Restarts_ne_nil g3)
      rw [List.length_append] at *
      omega
  | more f1 f2 f3 ih =>
    cases h2 with
    | last g1 g2 g3 =>
      have := hlen _ _ hs
      have := List.length_pos_iff.mpr (Restarts_ne_nil f3)
      rw [List.length_append] at *
      omega
    | more g1 g2 g3 =>
      simp only [List.append_assoc, List.cons_append, List.nil_append] at he
      simp only [shape, List.map_append] at hs
      obtain ⟨hs1, hs2⟩ := List.append_inj hs (by simp [f1, g1])
      obtain ⟨h3, h4, h5⟩ := Segment_unique hts f2 g2 (shape_flatten hs1) (hmark _ _) (hmark _ _) he
      simp only [List.cons.injEq, true_and] at h5
      obtain ⟨h6, h7, h8⟩ := ih g3 hs2 hr hq h5
      rw [flatten_inj hs1 h3, h6, h4, h7]
      exact ⟨rfl, rfl, h8⟩

/-- **A scan determines its coefficients**, and where it ends. -/
theorem Scan_unique {ts : Tables} (hts : ts.Legal) {interval : Option Nat}
    {a b : List (List (Nat × List Int))} {w v r q : List UInt8} (h1 : Scan ts interval a w)
    (h2 : Scan ts interval b v) (hs : shape a = shape b) (hr : AtMarker r) (hq : AtMarker q)
    (he : w ++ r = v ++ q) : a = b ∧ w = v ∧ r = q := by
  cases interval with
  | none =>
    obtain ⟨h3, h4, h5⟩ := Segment_unique hts h1 h2 (shape_flatten hs) hr hq he
    exact ⟨flatten_inj hs h3, h4, h5⟩
  | some ri => exact Restarts_unique hts h1 h2 hs hr hq he

end Spec.T81
