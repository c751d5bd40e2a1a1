import Verif.Model.PngDecode
import Verif.Proof.FilterRows
/-
Unfiltering: the decoder's row loops invert the PNG filters.
-/
namespace Pixo.PngDecode
open Spec.Png
open Pixo.Filter (getD_eq getChecked_getD leftByte_eq leftAt_toNat byteAt_lt leftAt_lt predict_lt paethPredictor_eq)
open Pixo.MatchLength (slice)

/-! ### Totality -/

theorem addLoop_safe {f : List UInt8 → Nat → R UInt8} :
    ∀ (n i : Nat) (row : List UInt8), i + n ≤ row.length →
    (∀ r k, r.length = row.length → i ≤ k → k < row.length → ∃ p, f r k = .ok p) →
    ∃ r, addLoop f i n row = .ok r ∧ r.length = row.length
  | 0, _, row, _, _ => ⟨row, rfl, rfl⟩
  | n + 1, i, row, h, hf => by
    obtain ⟨p, e⟩ := hf row i rfl (Nat.le_refl _) (by omega)
    obtain ⟨r, e2, hl⟩ := addLoop_safe n (i + 1) (row.set i (row.getD i 0 + p)) (by simp; omega)
      (fun r k h1 h2 h3 => hf r k (by simpa using h1) (by omega) (by simpa using h3))
    refine ⟨r, ?_, by simpa using hl⟩
    rw [addLoop, getChecked_getD (by omega), ok_bind, e, ok_bind]
    unfold setChecked
    rw [if_pos (by omega), ok_bind, e2]

theorem unfilterRow_safe (ft : UInt8) {row prev : List UInt8} (bpp : Nat) (h : row.length ≤ prev.length) :
    Safe (unfilterRow ft row prev bpp) (fun r => r.length = row.length) := by
  have fin : ∀ {x : R (List UInt8)}, (∃ r, x = .ok r ∧ r.length = row.length) →
      Safe x (fun r => r.length = row.length) := by
    rintro x ⟨r, rfl, hl⟩; exact Safe.ok hl
  unfold unfilterRow
  split
  · exact Safe.ok rfl
  split
  · apply fin
    by_cases c : bpp ≤ row.length
    · refine addLoop_safe _ _ _ (by omega) ?_
      intro r k h1 h2 h3
      exact ⟨_, getChecked_getD (by omega)⟩
    · rw [show row.length - bpp = 0 by omega]; exact ⟨row, rfl, rfl⟩
  split
  · apply fin
    refine addLoop_safe _ _ _ (by omega) ?_
    intro r k h1 h2 h3
    exact ⟨_, getChecked_getD (by omega)⟩
  split
  · apply fin
    refine addLoop_safe _ _ _ (by omega) ?_
    intro r k h1 h2 h3
    unfold unAverage
    rw [leftByte_eq (by omega), ok_bind, getChecked_getD (by omega), ok_bind]
    exact ⟨_, rfl⟩
  split
  · apply fin
    refine addLoop_safe _ _ _ (by omega) ?_
    intro r k h1 h2 h3
    unfold unPaeth
    rw [leftByte_eq (by omega), ok_bind, getChecked_getD (by omega), ok_bind, leftByte_eq (by omega), ok_bind]
    exact ⟨_, rfl⟩
  · exact Safe.invalid

theorem slice_safe {l : List UInt8} {a n : Nat} (h : a + n ≤ l.length) :
    slice l a n = .ok ((l.drop a).take n) ∧ ((l.drop a).take n).length = n := by
  constructor
  · unfold slice; rw [if_pos h]
  · simp; omega

theorem rowLoop_safe {data : List UInt8} {bpp sb : Nat} : ∀ (n y : Nat) (prev : List UInt8),
    (y + n) * (1 + sb) ≤ data.length → prev.length = sb →
    Safe (rowLoop data bpp sb y n prev) (fun r => r.length = n * sb)
  | 0, _, _, _, _ => Safe.ok (by simp)
  | n + 1, y, prev, hd, hp => by
    have h1 : (y + 1 + n) * (1 + sb) ≤ data.length := by rw [show y + 1 + n = y + (n + 1) by omega]; exact hd
    have h2 : y * (1 + sb) + (1 + sb) ≤ data.length := by
      have := Nat.mul_le_mul_right (1 + sb) (show y + 1 ≤ y + 1 + n by omega)
      rw [Nat.succ_mul] at this; omega
    rw [rowLoop, getChecked_getD (by omega), ok_bind]
    obtain ⟨e, hl⟩ := slice_safe (l := data) (a := y * (1 + sb) + 1) (n := sb) (by omega)
    rw [e, ok_bind]
    refine Safe.bind (unfilterRow_safe _ bpp (by omega)) ?_
    intro row hr
    refine Safe.bind (rowLoop_safe n (y + 1) row h1 (by omega)) ?_
    intro rest hrest
    refine Safe.pure ?_
    rw [List.length_append, hrest, hr, hl, Nat.succ_mul]; omega

/-! ### Correctness -/

theorem mixed_get {raw filt : List UInt8} {i : Nat} (hl : filt.length = raw.length) {j : Nat} (h : j < i)
    (hj : j < raw.length) : (raw.take i ++ filt.drop i).getD j 0 = raw.getD j 0 := by
  rw [getD_eq _ _ (by simp; omega), getD_eq _ _ hj, List.getElem_append_left (by simp; omega)]
  simp

theorem mixed_get' {raw filt : List UInt8} {i : Nat} (hl : filt.length = raw.length) (hi : i < raw.length) :
    (raw.take i ++ filt.drop i).getD i 0 = filt.getD i 0 := by
  have : (raw.take i).length = i := by simp; omega
  rw [getD_eq _ _ (by simp; omega), getD_eq _ _ (by omega), List.getElem_append_right (by omega)]
  simp [this]

theorem mixed_set {raw filt : List UInt8} {i : Nat} (hl : filt.length = raw.length) (hi : i < raw.length) :
    (raw.take i ++ filt.drop i).set i (raw.getD i 0) = raw.take (i + 1) ++ filt.drop (i + 1) := by
  have e1 : raw.take (i + 1) = raw.take i ++ [raw.getD i 0] := by
    rw [getD_eq _ _ hi, List.take_succ_eq_append_getElem hi]
  have e2 : filt.drop i = filt[i] :: filt.drop (i + 1) := List.drop_eq_getElem_cons (by omega)
  rw [e1, e2, List.set_append_right _ _ (by simp; omega)]
  have : i - (raw.take i).length = 0 := by simp; omega
  rw [this, List.set_cons_zero, List.append_assoc]
  rfl

theorem addLoop_ok {f : List UInt8 → Nat → R UInt8} {raw filt : List UInt8} (hl : filt.length = raw.length)
    {P : Nat → UInt8} : ∀ (n i : Nat), i + n = raw.length →
    (∀ k, i ≤ k → k < raw.length → f (raw.take k ++ filt.drop k) k = .ok (P k) ∧
      raw.getD k 0 = filt.getD k 0 + P k) →
    addLoop f i n (raw.take i ++ filt.drop i) = .ok raw
  | 0, i, h, _ => by
    rw [addLoop, List.take_of_length_le (by omega), List.drop_eq_nil_of_le (by omega)]; simp
  | n + 1, i, h, hf => by
    obtain ⟨e, hp⟩ := hf i (Nat.le_refl _) (by omega)
    rw [addLoop, getChecked_getD (by simp; omega), ok_bind, e, ok_bind, mixed_get' hl (by omega), ← hp]
    unfold setChecked
    rw [if_pos (by simp; omega), ok_bind, mixed_set hl (by omega)]
    exact addLoop_ok hl n (i + 1) (by omega) (fun k h1 h2 => hf k (by omega) h2)

theorem uint8_of_mod {x y : UInt8} {p : Nat} (h : x.toNat = (y.toNat + p) % 256) : x = y + UInt8.ofNat p := by
  apply UInt8.toNat_inj.1
  rw [UInt8.toNat_add, UInt8.toNat_ofNat', h]
  simp only [show (2 : Nat) ^ 8 = 256 from rfl]
  omega

/-- A filtered line is restored. -/
theorem unfilterRow_ok {bpp : Nat} {prev raw filt : List UInt8} {ft : UInt8} (h : Filtered bpp prev raw ft filt)
    (hb : 0 < bpp) (hp : raw.length ≤ prev.length) : unfilterRow ft filt prev bpp = .ok raw := by
  obtain ⟨hft, hl, hv⟩ := h
  have hv' : ∀ k, k < raw.length → raw.getD k 0 = filt.getD k 0 +
      UInt8.ofNat (predict ft.toNat (leftAt raw bpp k) (byteAt prev k) (leftAt prev bpp k)) :=
    fun k hk => uint8_of_mod (hv k hk)
  have start : filt = raw.take 0 ++ filt.drop 0 := by simp
  have hleft : ∀ k, k < raw.length → (if k < bpp then (0 : UInt8) else (raw.take k ++ filt.drop k).getD (k - bpp) 0)
      = UInt8.ofNat (leftAt raw bpp k) := by
    intro k hk
    rw [Filter.leftAt_ofNat]
    split
    · rfl
    · exact mixed_get hl (by omega) (by omega)
  have small : ∀ n, n < 256 → (UInt8.ofNat n).toNat = n := by
    intro n hn; rw [UInt8.toNat_ofNat']; omega
  have mlen : ∀ k, k < raw.length → k < (raw.take k ++ filt.drop k).length := by
    intro k hk; simp; omega
  unfold unfilterRow
  have cases5 : ft = 0 ∨ ft = 1 ∨ ft = 2 ∨ ft = 3 ∨ ft = 4 := by
    have : ft.toNat = 0 ∨ ft.toNat = 1 ∨ ft.toNat = 2 ∨ ft.toNat = 3 ∨ ft.toNat = 4 := by omega
    rcases this with h | h | h | h | h
    · exact Or.inl (UInt8.toNat_inj.1 h)
    · exact Or.inr (Or.inl (UInt8.toNat_inj.1 h))
    · exact Or.inr (Or.inr (Or.inl (UInt8.toNat_inj.1 h)))
    · exact Or.inr (Or.inr (Or.inr (Or.inl (UInt8.toNat_inj.1 h))))
    · exact Or.inr (Or.inr (Or.inr (Or.inr (UInt8.toNat_inj.1 h))))
  rcases cases5 with rfl | rfl | rfl | rfl | rfl
  · rw [if_pos rfl]
    congr 1
    apply List.ext_getElem hl
    intro k h1 h2
    have := hv' k h2
    rw [getD_eq _ _ h1, getD_eq _ _ h2] at this
    rw [this]
    show _ = _ + UInt8.ofNat 0
    simp
  · rw [if_neg (by decide), if_pos rfl]
    have pre : ∀ k, k < raw.length → k < bpp → raw.getD k 0 = filt.getD k 0 := by
      intro k hk hkb
      rw [hv' k hk]
      show _ + UInt8.ofNat (leftAt raw bpp k) = _
      unfold leftAt; rw [if_pos hkb]; simp
    have e : filt = raw.take bpp ++ filt.drop bpp := by
      apply List.ext_getElem
      · simp; omega
      · intro k h1 h2
        have g : (raw.take bpp ++ filt.drop bpp).getD k 0 = filt.getD k 0 := by
          by_cases c : k < bpp
          · rw [mixed_get hl c (by omega), pre k (by omega) c]
          · have : (raw.take bpp).length = bpp := by simp; omega
            rw [getD_eq _ _ h2, List.getElem_append_right (by omega), getD_eq _ _ h1]
            simp [this, show bpp + (k - bpp) = k by omega]
        rw [getD_eq _ _ h1, getD_eq _ _ h2] at g
        exact g.symm
    by_cases c : bpp ≤ raw.length
    · rw [hl]
      conv => lhs; rw [e]
      refine addLoop_ok hl (P := fun k => UInt8.ofNat (leftAt raw bpp k)) _ _ (by omega) ?_
      intro k h1 h2
      refine ⟨?_, hv' k h2⟩
      unfold unSub
      have := mlen k h2
      rw [getChecked_getD (by omega), ← hleft k h2, if_neg (by omega)]
    · rw [show filt.length - bpp = 0 by omega, addLoop]
      congr 1
      rw [e, List.take_of_length_le (by omega), List.drop_eq_nil_of_le (by omega)]; simp
  · rw [if_neg (by decide), if_neg (by decide), if_pos rfl, hl]
    conv => lhs; rw [start]
    refine addLoop_ok hl (P := fun k => UInt8.ofNat (byteAt prev k)) _ _ (by omega) ?_
    intro k h1 h2
    refine ⟨?_, hv' k h2⟩
    rw [getChecked_getD (by omega)]
    unfold byteAt; simp
  · rw [if_neg (by decide), if_neg (by decide), if_neg (by decide), if_pos rfl, hl]
    conv => lhs; rw [start]
    refine addLoop_ok hl (P := fun k => UInt8.ofNat ((leftAt raw bpp k + byteAt prev k) / 2)) _ _ (by omega) ?_
    intro k h1 h2
    refine ⟨?_, hv' k h2⟩
    unfold unAverage
    rw [leftByte_eq (mlen k h2), ok_bind, getChecked_getD (by omega), ok_bind, hleft k h2]
    unfold Filter.average
    rw [small _ (leftAt_lt _ _ _)]; rfl
  · rw [if_neg (by decide), if_neg (by decide), if_neg (by decide), if_neg (by decide), if_pos rfl, hl]
    conv => lhs; rw [start]
    refine addLoop_ok hl (P := fun k => UInt8.ofNat (paeth (leftAt raw bpp k) (byteAt prev k) (leftAt prev bpp k)))
      _ _ (by omega) ?_
    intro k h1 h2
    refine ⟨?_, hv' k h2⟩
    unfold unPaeth
    rw [leftByte_eq (mlen k h2), ok_bind, getChecked_getD (by omega), ok_bind, leftByte_eq (by omega), ok_bind,
      hleft k h2, paethPredictor_eq, small _ (leftAt_lt _ _ _), leftAt_toNat]; rfl

/-- The row loop restores the scanlines. -/
theorem rowLoop_ok {data : List UInt8} {bpp sb : Nat} (hb : 0 < bpp) {prev : List UInt8} {rows : List (List UInt8)}
    {bytes : List UInt8} (h : Scanlines bpp sb prev rows bytes) : ∀ (y : Nat),
    data.drop (y * (1 + sb)) = bytes → prev.length = sb →
    rowLoop data bpp sb y rows.length prev = .ok rows.flatten := by
  induction h with
  | nil prev => intro y _ _; rfl
  | @cons prev raw ft filt rows bytes hn hf _ ih =>
    intro y hd hp
    have hfl : filt.length = sb := by rw [hf.2.1, hn]
    have hlen : data.length = y * (1 + sb) + (1 + sb + bytes.length) := by
      have := congrArg List.length hd
      simp only [List.length_drop, List.length_append, List.length_cons] at this
      omega
    have h0 : data[y * (1 + sb)]? = some ft := by
      have := congrArg (fun l => l[0]?) hd
      simpa using this
    have h1 : (data.drop (y * (1 + sb) + 1)).take sb = filt := by
      rw [← List.drop_drop, hd]
      simp [← hfl]
    have h2 : data.drop ((y + 1) * (1 + sb)) = bytes := by
      rw [Nat.succ_mul, ← List.drop_drop, hd, Nat.add_comm 1 sb]
      simp [← hfl]
    rw [List.length_cons, rowLoop]
    unfold getChecked
    rw [h0]
    simp only [ok_bind]
    rw [(slice_safe (by omega)).1, ok_bind, h1, unfilterRow_ok hf hb (by omega), ok_bind, ih (y + 1) h2 (by omega),
      ok_bind]
    rfl

end Pixo.PngDecode
