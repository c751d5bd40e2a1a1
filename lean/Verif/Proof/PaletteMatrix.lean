import Verif.Proof.PaletteSort
/-
The co-occurrence matrix: square, symmetric, with bounded row sums and a positive entry for every
two neighbouring pixels.
-/
namespace Pixo.Palette

/-- The entry of a matrix, zero outside. -/
def cell (m : List (List Nat)) (a b : Nat) : Nat := (m.getD a []).getD b 0

/-- The sum of a row. -/
def rowSum (m : List (List Nat)) (a : Nat) : Nat := (m.getD a []).sum

/-- A square symmetric matrix with row sums at most `K`. -/
structure Good (n K : Nat) (m : List (List Nat)) : Prop where
  rows : m.length = n
  cols : ∀ a, a < n → (m.getD a []).length = n
  sums : ∀ a, rowSum m a ≤ K

theorem getD_lt {α : Type} {l : List α} {i : Nat} {d : α} (h : i < l.length) : l.getD i d = l[i] := by
  simp [List.getD, h]

theorem getChecked_ok {α : Type} {l : List α} {i : Nat} (d : α) (h : i < l.length) :
    getChecked l i = .ok (l.getD i d) := by
  unfold getChecked; rw [List.getElem?_eq_getElem h, getD_lt h]

theorem setChecked_ok {α : Type} {l : List α} {i : Nat} (v : α) (h : i < l.length) :
    setChecked l i v = .ok (l.set i v) := by
  unfold setChecked; rw [if_pos h]

theorem getD_set {α : Type} {l : List α} {i j : Nat} {v d : α} (h : i < l.length) :
    (l.set i v).getD j d = if i = j then v else l.getD j d := by
  by_cases e : i = j
  · subst e; simp [List.getD, h]
  · simp [List.getD, e]

theorem bump_ok {n K : Nat} {m : List (List Nat)} {a b : Nat} (h : Good n K m) (ha : a < n) (hb : b < n)
    (hK : K + 1 < 2 ^ 32) :
    ∃ m', bump m a b = .ok m' ∧ Good n (K + 1) m' ∧
      ∀ x y, cell m' x y = cell m x y + if x = a ∧ y = b then 1 else 0 := by
  have hr := h.rows
  have hc := h.cols a ha
  have hs := h.sums a
  have hle : (m.getD a []).getD b 0 ≤ K := Nat.le_trans (get_le_sum _ _) hs
  refine ⟨m.set a ((m.getD a []).set b ((m.getD a []).getD b 0 + 1)), ?_, ⟨?_, ?_, ?_⟩, ?_⟩
  · unfold bump
    rw [getChecked_ok [] (by omega), ok_bind, getChecked_ok 0 (by omega), ok_bind]
    unfold addU32
    rw [if_pos (by omega), ok_bind, setChecked_ok _ (by omega), ok_bind, setChecked_ok _ (by omega)]
  · rw [List.length_set]; exact hr
  · intro x hx
    rw [getD_set (by omega)]
    split
    · rw [List.length_set]; exact hc
    · exact h.cols x hx
  · intro x
    unfold rowSum
    rw [getD_set (by omega)]
    split
    · have := sum_set (m.getD a []) b ((m.getD a []).getD b 0 + 1) (by omega)
      rw [← getD_lt (d := 0) (by omega : b < (m.getD a []).length)] at this
      unfold rowSum at hs
      omega
    · have := h.sums x; unfold rowSum at this; omega
  · intro x y
    unfold cell
    rw [getD_set (by omega)]
    by_cases e : a = x
    · subst e
      rw [if_pos rfl, getD_set (by omega)]
      by_cases e2 : b = y
      · subst e2; simp
      · rw [if_neg e2, if_neg (fun h => e2 h.2.symm)]; rfl
    · rw [if_neg e, if_neg (fun h => e h.1.symm)]; rfl

/-- Symmetric. -/
def Symm (m : List (List Nat)) : Prop := ∀ a b, cell m a b = cell m b a

/-- Entries only grow. -/
def Grows (m m' : List (List Nat)) : Prop := ∀ a b, cell m a b ≤ cell m' a b

theorem Grows.refl (m : List (List Nat)) : Grows m m := fun _ _ => Nat.le_refl _

theorem Grows.trans {a b c : List (List Nat)} (h1 : Grows a b) (h2 : Grows b c) : Grows a c :=
  fun x y => Nat.le_trans (h1 x y) (h2 x y)

/-- What a step of the loop does: the sums grow by at most `k`. -/
structure Step (n K : Nat) (m m' : List (List Nat)) : Prop where
  good : Good n K m'
  symm : Symm m'
  grows : Grows m m'

theorem neighbour_ok {n K : Nat} {m : List (List Nat)} {a b : Nat} (h : Good n K m) (hs : Symm m)
    (ha : a < n) (hb : b < n) (hK : K + 2 < 2 ^ 32) :
    Oks (neighbour m n a b) fun m' => Step n (K + 2) m m' ∧ 0 < cell m' a b := by
  obtain ⟨m1, e1, g1, c1⟩ := bump_ok h ha hb (by omega)
  obtain ⟨m2, e2, g2, c2⟩ := bump_ok (a := b) (b := a) g1 hb ha (by omega)
  unfold neighbour
  rw [if_pos hb, e1, ok_bind, e2]
  refine Oks.ok ⟨⟨g2, ?_, ?_⟩, ?_⟩
  · intro x y
    rw [c2, c1, c2, c1, hs x y]
    have e1 : (if x = a ∧ y = b then 1 else 0) = if y = b ∧ x = a then 1 else 0 := by simp [And.comm]
    have e2 : (if x = b ∧ y = a then 1 else 0) = if y = a ∧ x = b then 1 else 0 := by simp [And.comm]
    rw [e1, e2]; omega
  · intro x y; rw [c2, c1]; omega
  · rw [c2, c1, if_pos (c := a = a ∧ b = b) ⟨rfl, rfl⟩]; omega

/-- The facts about the indexed image that the loop relies on. -/
structure Image (indexed : List UInt8) (n w h : Nat) : Prop where
  len : indexed.length = w * h
  lt : ∀ k, k < indexed.length → (indexed.getD k 0).toNat < n

/-- The index of pixel `(x, y)`. -/
def px (indexed : List UInt8) (w y x : Nat) : Nat := (indexed.getD (y * w + x) 0).toNat

theorem place_lt {w h y x : Nat} (hx : x < w) (hy : y < h) : y * w + x < w * h := by
  have : (y + 1) * w ≤ h * w := Nat.mul_le_mul_right _ hy
  rw [Nat.add_mul] at this
  rw [Nat.mul_comm w h]; omega

variable {indexed : List UInt8} {n w h : Nat}

theorem Image.px_lt (hi : Image indexed n w h) {y x : Nat} (hx : x < w) (hy : y < h) : px indexed w y x < n :=
  hi.lt _ (by rw [hi.len]; exact place_lt hx hy)

theorem Image.get (hi : Image indexed n w h) {y x k : Nat} (hx : x < w) (hy : y < h) (hk : k = y * w + x) :
    getChecked indexed k = .ok (indexed.getD (y * w + x) 0) := by
  subst hk
  exact getChecked_ok 0 (by rw [hi.len]; exact place_lt hx hy)

/-- Pixel `(x, y)` is linked to its neighbours in `m`. -/
def Linked (indexed : List UInt8) (w h : Nat) (m : List (List Nat)) (y x : Nat) : Prop :=
  (x + 1 < w → 0 < cell m (px indexed w y x) (px indexed w y (x + 1))) ∧
  (y + 1 < h → 0 < cell m (px indexed w y x) (px indexed w (y + 1) x))

theorem Linked.grows {m m' : List (List Nat)} {y x : Nat} (hl : Linked indexed w h m y x) (hg : Grows m m') :
    Linked indexed w h m' y x :=
  ⟨fun hx => Nat.lt_of_lt_of_le (hl.1 hx) (hg _ _), fun hy => Nat.lt_of_lt_of_le (hl.2 hy) (hg _ _)⟩

theorem right_ok {K : Nat} {m : List (List Nat)} {y x : Nat} (hi : Image indexed n w h) (g : Good n K m) (hs : Symm m)
    (hx : x < w) (hy : y < h) (hK : K + 2 < 2 ^ 32) :
    Oks (rightNeighbour indexed n w m (y * w) x (px indexed w y x)) fun m' => Step n (K + 2) m m' ∧
      (x + 1 < w → 0 < cell m' (px indexed w y x) (px indexed w y (x + 1))) := by
  unfold rightNeighbour
  by_cases hc : x + 1 < w
  · rw [if_pos hc, hi.get hc hy (by omega), ok_bind]
    exact (neighbour_ok g hs (hi.px_lt hx hy) (hi.px_lt hc hy) hK).mono fun m' hm => ⟨hm.1, fun _ => hm.2⟩
  · rw [if_neg hc]
    exact Oks.ok ⟨⟨⟨g.rows, g.cols, fun a => Nat.le_trans (g.sums a) (by omega)⟩, hs, .refl _⟩, fun h => absurd h hc⟩

theorem below_ok {K : Nat} {m : List (List Nat)} {y x : Nat} (hi : Image indexed n w h) (g : Good n K m) (hs : Symm m)
    (hx : x < w) (hy : y < h) (hK : K + 2 < 2 ^ 32) :
    Oks (belowNeighbour indexed n w h m y (y * w) x (px indexed w y x)) fun m' => Step n (K + 2) m m' ∧
      (y + 1 < h → 0 < cell m' (px indexed w y x) (px indexed w (y + 1) x)) := by
  unfold belowNeighbour
  by_cases hc : y + 1 < h
  · rw [if_pos hc, hi.get hx hc (by rw [Nat.add_mul]; omega), ok_bind]
    exact (neighbour_ok g hs (hi.px_lt hx hy) (hi.px_lt hx hc) hK).mono fun m' hm => ⟨hm.1, fun _ => hm.2⟩
  · rw [if_neg hc]
    exact Oks.ok ⟨⟨⟨g.rows, g.cols, fun a => Nat.le_trans (g.sums a) (by omega)⟩, hs, .refl _⟩, fun h => absurd h hc⟩

theorem coPixel_ok {K : Nat} {m : List (List Nat)} {y x : Nat} (hi : Image indexed n w h) (g : Good n K m) (hs : Symm m)
    (hx : x < w) (hy : y < h) (hK : K + 4 < 2 ^ 32) :
    Oks (coPixel indexed n w h m y x) fun m' => Step n (K + 4) m m' ∧ Linked indexed w h m' y x := by
  unfold coPixel
  rw [hi.get hx hy rfl, ok_bind]
  have hlt := hi.px_lt hx hy
  unfold px at hlt
  rw [if_neg (by omega)]
  refine Oks.bind (right_ok hi g hs hx hy (by omega)) fun m1 h1 => ?_
  refine (below_ok hi h1.1.good h1.1.symm hx hy (by omega)).mono fun m2 h2 => ?_
  exact ⟨⟨h2.1.good, h2.1.symm, h1.1.grows.trans h2.1.grows⟩,
    fun hc => Nat.lt_of_lt_of_le (h1.2 hc) (h2.1.grows _ _), h2.2⟩

theorem coRow_ok (hi : Image indexed n w h) {y : Nat} (hy : y < h) : ∀ (k x K : Nat) (m : List (List Nat)),
    Good n K m → Symm m → x + k = w → K + 4 * k < 2 ^ 32 →
    Oks (coRow indexed n w h y x k m) fun m' => Step n (K + 4 * k) m m' ∧
      ∀ x', x ≤ x' → x' < w → Linked indexed w h m' y x'
  | 0, x, K, m, g, hs, hx, _ => Oks.ok ⟨⟨g, hs, .refl _⟩, fun x' h1 h2 => by omega⟩
  | k + 1, x, K, m, g, hs, hx, hK => by
    rw [coRow]
    refine Oks.bind (coPixel_ok hi g hs (by omega) hy (by omega)) fun m1 h1 => ?_
    refine (coRow_ok hi hy k (x + 1) (K + 4) m1 h1.1.good h1.1.symm (by omega) (by omega)).mono fun m2 h2 => ?_
    refine ⟨⟨by rw [show K + 4 * (k + 1) = K + 4 + 4 * k by omega]; exact h2.1.good, h2.1.symm,
      h1.1.grows.trans h2.1.grows⟩, fun x' hx1 hx2 => ?_⟩
    by_cases e : x' = x
    · subst e; exact h1.2.grows h2.1.grows
    · exact h2.2 x' (by omega) hx2

theorem coRows_ok (hi : Image indexed n w h) : ∀ (k y K : Nat) (m : List (List Nat)),
    Good n K m → Symm m → y + k = h → K + 4 * (w * k) < 2 ^ 32 →
    Oks (coRows indexed n w h y k m) fun m' => Step n (K + 4 * (w * k)) m m' ∧
      ∀ y', y ≤ y' → y' < h → ∀ x, x < w → Linked indexed w h m' y' x
  | 0, y, K, m, g, hs, hy, _ => Oks.ok ⟨⟨g, hs, .refl _⟩, fun y' h1 h2 => by omega⟩
  | k + 1, y, K, m, g, hs, hy, hK => by
    rw [coRows]
    have e : w * (k + 1) = w * k + w := Nat.mul_succ w k
    refine Oks.bind (coRow_ok hi (by omega) w 0 K m g hs (by omega) (by omega)) fun m1 h1 => ?_
    refine (coRows_ok hi k (y + 1) (K + 4 * w) m1 h1.1.good h1.1.symm (by omega) (by omega)).mono fun m2 h2 => ?_
    refine ⟨⟨by rw [show K + 4 * (w * (k + 1)) = K + 4 * w + 4 * (w * k) by omega]; exact h2.1.good, h2.1.symm,
      h1.1.grows.trans h2.1.grows⟩, fun y' hy1 hy2 x hx => ?_⟩
    by_cases e : y' = y
    · subst e; exact (h1.2 x (by omega) hx).grows h2.1.grows
    · exact h2.2 y' (by omega) hy2 x hx

theorem rowSum_zero (n a : Nat) : rowSum (List.replicate n (List.replicate n 0)) a = 0 := by
  unfold rowSum
  by_cases ha : a < n
  · rw [getD_lt (by simpa using ha)]; simp
  · simp [List.getD, Nat.le_of_not_lt ha]

theorem cell_zero (n a b : Nat) : cell (List.replicate n (List.replicate n 0)) a b = 0 := by
  have h := get_le_sum ((List.replicate n (List.replicate n 0)).getD a []) b
  have h2 := rowSum_zero n a
  unfold rowSum at h2
  unfold cell
  omega

/-- Everything the ordering needs from the matrix. -/
structure Matrix (indexed : List UInt8) (n w h : Nat) (m : List (List Nat)) : Prop where
  good : Good n (4 * (w * h)) m
  symm : Symm m
  linked : ∀ y, y < h → ∀ x, x < w → Linked indexed w h m y x

theorem coMatrix_ok (hi : Image indexed n w h) (hK : 4 * (w * h) < 2 ^ 32) :
    Oks (coMatrix indexed n w h) (Matrix indexed n w h) := by
  unfold coMatrix
  refine (coRows_ok hi h 0 0 _ ⟨by simp, fun a ha => ?_, fun a => by rw [rowSum_zero]; omega⟩ (fun a b => ?_)
    (by omega) (by omega)).mono fun m hm => ⟨?_, hm.1.symm, fun y hy x hx => hm.2 y (by omega) hy x hx⟩
  · rw [getD_lt (by simpa using ha)]; simp
  · rw [cell_zero, cell_zero]
  · have := hm.1.good; rw [Nat.zero_add] at this; exact this

/-! ### Connectivity -/

/-- A set of colours met by the image but not containing all of it is left somewhere: two
neighbouring pixels lie on different sides, and the matrix links their colours. -/
theorem crossing {m : List (List Nat)} (hm : Matrix indexed n w h m) (S : Nat → Prop)
    {y1 x1 y2 x2 : Nat} (hx1 : x1 < w) (hy1 : y1 < h) (hx2 : x2 < w) (hy2 : y2 < h)
    (h1 : S (px indexed w y1 x1)) (h2 : ¬ S (px indexed w y2 x2)) :
    ∃ y x y' x', x < w ∧ y < h ∧ x' < w ∧ y' < h ∧ S (px indexed w y x) ∧ ¬ S (px indexed w y' x') ∧
      0 < cell m (px indexed w y' x') (px indexed w y x) := by
  refine Classical.byContradiction fun hno => ?_
  have same : ∀ y x y' x', x < w → y < h → x' < w → y' < h →
      0 < cell m (px indexed w y x) (px indexed w y' x') →
      (S (px indexed w y x) ↔ S (px indexed w y' x')) := by
    intro y x y' x' hx hy hx' hy' hpos
    constructor
    · intro hs
      refine Classical.byContradiction fun hn => hno ⟨y, x, y', x', hx, hy, hx', hy', hs, hn, ?_⟩
      rw [hm.symm]; exact hpos
    · intro hs
      exact Classical.byContradiction fun hn => hno ⟨y', x', y, x, hx', hy', hx, hy, hs, hn, hpos⟩
  have row : ∀ y, y < h → ∀ x, x < w → (S (px indexed w y 0) ↔ S (px indexed w y x)) := by
    intro y hy x
    induction x with
    | zero => intro _; exact Iff.rfl
    | succ x ih =>
      intro hx
      exact (ih (by omega)).trans (same y x y (x + 1) (by omega) hy hx hy ((hm.linked y hy x (by omega)).1 hx))
  have col : ∀ y, y < h → (S (px indexed w 0 0) ↔ S (px indexed w y 0)) := by
    intro y
    induction y with
    | zero => intro _; exact Iff.rfl
    | succ y ih =>
      intro hy
      exact (ih (by omega)).trans (same y 0 (y + 1) 0 (by omega) (by omega) (by omega) hy
        ((hm.linked y (by omega) 0 (by omega)).2 hy))
  exact h2 ((row y2 hy2 x2 hx2).mp ((col y2 hy2).mp ((col y1 hy1).mpr ((row y1 hy1 x1 hx1).mpr h1))))

end Pixo.Palette
