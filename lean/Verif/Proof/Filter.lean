import Verif.Model.Filter
import Verif.Spec.Png
import Verif.Proof.Safe
/-
Every version of every row filter computes the same bytes, and they satisfy the PNG filter
equations.
-/
namespace Pixo.Filter
open Spec.Png
open Pixo.Simd (Level)
open Pixo.MatchLength (slice)

/-! ### Loops -/

theorem idxLoop_map {f : Nat → R UInt8} {g : Nat → UInt8} : ∀ (n i : Nat),
    (∀ k, i ≤ k → k < i + n → f k = .ok (g k)) → idxLoop f i n = .ok ((List.range' i n).map g)
  | 0, _, _ => rfl
  | n + 1, i, h => by
    rw [idxLoop, h i (by omega) (by omega), ok_bind, idxLoop_map n (i + 1) (fun k h1 h2 => h k (by omega) (by omega)),
      ok_bind]
    rfl

theorem vecLoop_map {w : Nat} {v : Nat → R (List UInt8)} {g : Nat → UInt8} {len : Nat} (hw : 0 < w) :
    ∀ (fuel i : Nat), len - i < fuel → (∀ k, i ≤ k → k + w ≤ len → v k = .ok ((List.range' k w).map g)) →
    ∃ m, vecLoop w v fuel i len = .ok ((List.range' i m).map g, i + m) ∧ (i ≤ len → i + m ≤ len)
  | 0, i, hf, _ => by omega
  | fuel + 1, i, hf, h => by
    rw [vecLoop]
    by_cases c : i + w ≤ len
    · obtain ⟨m, e, hm⟩ := vecLoop_map hw fuel (i + w) (by omega) (fun k h1 h2 => h k (by omega) h2)
      refine ⟨w + m, ?_, fun _ => by have := hm c; omega⟩
      rw [if_pos c, h i (Nat.le_refl _) c, ok_bind, e, ok_bind]
      simp only [← List.map_append]
      rw [← List.range'_append_1 (s := i) (m := w) (n := m), Nat.add_assoc]
      rfl
    · exact ⟨0, by rw [if_neg c]; rfl, fun h => h⟩

theorem vecThenTail_map {w : Nat} {v : Nat → R (List UInt8)} {f : Nat → R UInt8} {g : Nat → UInt8}
    {i len : Nat} (hw : 0 < w) (hi : i ≤ len)
    (hv : ∀ k, i ≤ k → k + w ≤ len → v k = .ok ((List.range' k w).map g))
    (hf : ∀ k, i ≤ k → k < len → f k = .ok (g k)) :
    vecThenTail w v f i len = .ok ((List.range' i (len - i)).map g) := by
  obtain ⟨m, e, hm⟩ := vecLoop_map (g := g) hw (len + 1) i (by omega) hv
  have hm := hm hi
  rw [vecThenTail, e, ok_bind]
  simp only
  rw [idxLoop_map (g := g) (len - (i + m)) (i + m) (fun k h1 h2 => hf k (by omega) (by omega)), ok_bind]
  rw [show len - i = m + (len - (i + m)) by omega, ← List.range'_append_1 (s := i) (m := m), List.map_append]
  rfl

/-! ### Slices as maps over index ranges -/

theorem getD_eq {α : Type} (l : List α) (d : α) {i : Nat} (h : i < l.length) : l.getD i d = l[i] := by
  simp [List.getD, List.getElem?_eq_getElem h]


theorem getChecked_getD {l : List UInt8} {i : Nat} (h : i < l.length) : getChecked l i = .ok (l.getD i 0) := by
  unfold getChecked
  rw [List.getElem?_eq_getElem h]
  simp [List.getD, List.getElem?_eq_getElem h]

theorem slice_map {l : List UInt8} {i w : Nat} (h : i + w ≤ l.length) :
    slice l i w = .ok ((List.range' i w).map (fun k => l.getD k 0)) := by
  unfold slice
  rw [if_pos h]
  congr 1
  apply List.ext_getElem
  · simp; omega
  · intro n h1 h2
    simp at h1 h2 ⊢
    rw [List.getElem?_eq_getElem (by omega)]; rfl

theorem slice_shift {l : List UInt8} {i w d : Nat} (h : i + w ≤ l.length) (hd : d ≤ i) :
    slice l (i - d) w = .ok ((List.range' i w).map (fun k => l.getD (k - d) 0)) := by
  rw [slice_map (by omega)]
  congr 1
  apply List.ext_getElem
  · simp
  · intro n h1 h2
    simp at h1 h2 ⊢
    rw [show i - d + n = i + n - d by omega]

theorem leftByte_eq {row : List UInt8} {bpp i : Nat} (h : i < row.length) :
    leftByte row bpp i = .ok (if i < bpp then 0 else row.getD (i - bpp) 0) := by
  unfold leftByte
  by_cases c : i < bpp
  · rw [if_neg (by omega), if_pos c]
  · rw [if_pos (by omega), if_neg c, getChecked_getD (by omega)]

theorem zipWith_range {α β γ : Type} (f : α → β → γ) (a : Nat → α) (b : Nat → β) (i n : Nat) :
    List.zipWith f ((List.range' i n).map a) ((List.range' i n).map b)
      = (List.range' i n).map (fun k => f (a k) (b k)) := by
  apply List.ext_getElem
  · simp
  · intro k h1 h2; simp

/-! ### The reference bytes -/

/-- The byte the PNG filter equation demands at index `i`. -/
def refAt (ft : Nat) (row prev : List UInt8) (bpp i : Nat) : UInt8 :=
  row.getD i 0 - UInt8.ofNat (predict ft (leftAt row bpp i) (byteAt prev i) (leftAt prev bpp i))

/-- The whole row. -/
def refRow (ft : Nat) (row prev : List UInt8) (bpp : Nat) : List UInt8 :=
  (List.range' 0 row.length).map (refAt ft row prev bpp)

theorem byteAt_lt (row : List UInt8) (i : Nat) : byteAt row i < 256 := (row.getD i 0).toNat_lt

theorem leftAt_lt (row : List UInt8) (bpp i : Nat) : leftAt row bpp i < 256 := by
  unfold leftAt; split
  · omega
  · exact byteAt_lt _ _

theorem leftAt_ofNat (row : List UInt8) (bpp i : Nat) :
    UInt8.ofNat (leftAt row bpp i) = if i < bpp then 0 else row.getD (i - bpp) 0 := by
  unfold leftAt byteAt; split
  · rfl
  · simp

theorem leftAt_toNat (row : List UInt8) (bpp i : Nat) :
    (if i < bpp then (0 : UInt8) else row.getD (i - bpp) 0).toNat = leftAt row bpp i := by
  unfold leftAt byteAt; split <;> rfl

theorem paeth_lt {a b c : Nat} (ha : a < 256) (hb : b < 256) (hc : c < 256) : paeth a b c < 256 := by
  unfold paeth; simp only; split
  · exact ha
  · split
    · exact hb
    · exact hc

theorem predict_lt {ft a b c : Nat} (ha : a < 256) (hb : b < 256) (hc : c < 256) : predict ft a b c < 256 := by
  unfold predict; split
  · omega
  · exact ha
  · exact hb
  · omega
  · exact paeth_lt ha hb hc

theorem paethPredictor_eq (a b c : UInt8) : paethPredictor a b c = UInt8.ofNat (paeth a.toNat b.toNat c.toNat) := by
  unfold paethPredictor paeth
  simp only [Bool.and_eq_true, decide_eq_true_eq]
  split
  · simp
  · split <;> simp

theorem sub_add_back (b : UInt8) (p : Nat) (hp : p < 256) :
    b.toNat = ((b - UInt8.ofNat p).toNat + p) % 256 := by
  have := b.toNat_lt
  rw [UInt8.toNat_sub, UInt8.toNat_ofNat']
  simp only [show (2 : Nat) ^ 8 = 256 from rfl]
  rw [Nat.mod_eq_of_lt hp]
  omega

theorem refRow_filtered {ft : Nat} (hft : ft ≤ 4) (row prev : List UInt8) (bpp : Nat) :
    Filtered bpp prev row (UInt8.ofNat ft) (refRow ft row prev bpp) := by
  have e : (UInt8.ofNat ft).toNat = ft := by rw [UInt8.toNat_ofNat']; omega
  refine ⟨by omega, by simp [refRow], ?_⟩
  intro i hi
  have : byteAt (refRow ft row prev bpp) i = (refAt ft row prev bpp i).toNat := by
    unfold byteAt refRow
    rw [getD_eq _ _ (by simp; exact hi)]
    simp
  rw [this, e]
  exact sub_add_back _ _ (predict_lt (leftAt_lt _ _ _) (byteAt_lt _ _) (leftAt_lt _ _ _))

theorem subAt_ok {row prev : List UInt8} {bpp i : Nat} (h : i < row.length) :
    subAt row bpp i = .ok (refAt 1 row prev bpp i) := by
  unfold subAt
  rw [getChecked_getD h, ok_bind, leftByte_eq h, ok_bind, ← leftAt_ofNat]; rfl

theorem upAt_ok {row prev : List UInt8} {bpp i : Nat} (h : i < row.length) (hp : row.length ≤ prev.length) :
    upAt row prev i = .ok (refAt 2 row prev bpp i) := by
  unfold upAt
  rw [getChecked_getD h, ok_bind, getChecked_getD (by omega), ok_bind]
  unfold refAt predict byteAt
  simp [Pure.pure, Except.pure]

theorem averageAt_ok {row prev : List UInt8} {bpp i : Nat} (h : i < row.length) (hp : row.length ≤ prev.length) :
    averageAt row prev bpp i = .ok (refAt 3 row prev bpp i) := by
  unfold averageAt
  rw [getChecked_getD h, ok_bind, leftByte_eq h, ok_bind, getChecked_getD (by omega), ok_bind]
  unfold refAt predict average
  rw [leftAt_toNat]; rfl

theorem paethAt_ok {row prev : List UInt8} {bpp i : Nat} (h : i < row.length) (hp : row.length ≤ prev.length) :
    paethAt row prev bpp i = .ok (refAt 4 row prev bpp i) := by
  unfold paethAt
  rw [getChecked_getD h, ok_bind, leftByte_eq h, ok_bind, getChecked_getD (by omega), ok_bind,
    leftByte_eq (by omega), ok_bind, paethPredictor_eq, leftAt_toNat, leftAt_toNat]
  rfl

theorem subScalar_ok (row prev : List UInt8) (bpp : Nat) : subScalar row bpp = .ok (refRow 1 row prev bpp) :=
  idxLoop_map _ _ (fun _ _ h => subAt_ok (by omega))

theorem upScalar_ok {row prev : List UInt8} (bpp : Nat) (hp : row.length ≤ prev.length) :
    upScalar row prev = .ok (refRow 2 row prev bpp) :=
  idxLoop_map _ _ (fun _ _ h => upAt_ok (by omega) hp)

theorem averageScalar_ok {row prev : List UInt8} (bpp : Nat) (hp : row.length ≤ prev.length) :
    averageScalar row prev bpp = .ok (refRow 3 row prev bpp) :=
  idxLoop_map _ _ (fun _ _ h => averageAt_ok (by omega) hp)

theorem paethScalar_ok {row prev : List UInt8} (bpp : Nat) (hp : row.length ≤ prev.length) :
    paethScalar row prev bpp = .ok (refRow 4 row prev bpp) :=
  idxLoop_map _ _ (fun _ _ h => paethAt_ok (by omega) hp)

/-! ### Vector versions -/

theorem range'_split {i n m : Nat} (h : m ≤ n) :
    List.range' i n = List.range' i m ++ List.range' (i + m) (n - m) := by
  rw [List.range'_append_1]; congr 1; omega

theorem upWide_ok {w : Nat} (hw : 0 < w) {row prev : List UInt8} (bpp : Nat) (hp : row.length ≤ prev.length) :
    upWide w row prev = .ok (refRow 2 row prev bpp) := by
  refine vecThenTail_map hw (Nat.zero_le _) ?_ (fun k _ h => upAt_ok h hp)
  intro k _ hk
  unfold upVec
  rw [slice_map hk, ok_bind, slice_map (by omega), ok_bind]
  unfold subLanes
  rw [zipWith_range]
  unfold refAt predict byteAt
  simp [Pure.pure, Except.pure]

theorem subRest_ok {w : Nat} (hw : 0 < w) {row : List UInt8} (prev : List UInt8) {bpp : Nat} (hb : bpp ≤ row.length) :
    subRest w row bpp = .ok ((List.range' bpp (row.length - bpp)).map (refAt 1 row prev bpp)) := by
  unfold subRest
  simp only
  have hl : (row.drop bpp).length = row.length - bpp := by simp
  have hl2 : (row.take (row.length - bpp)).length = row.length - bpp := by simp
  have g1 : ∀ k, k < row.length - bpp → (row.drop bpp).getD k 0 = row.getD (bpp + k) 0 := by
    intro k _; simp [List.getD, List.getElem?_drop]
  have g2 : ∀ k, k < row.length - bpp → (row.take (row.length - bpp)).getD k 0 = row.getD k 0 := by
    intro k hk; rw [List.getD, List.getElem?_take, if_pos hk]; rfl
  have key := vecThenTail_map (w := w) (v := subVec w (row.drop bpp) (row.take (row.length - bpp)))
    (f := subTail (row.drop bpp) (row.take (row.length - bpp)))
    (g := fun k => refAt 1 row prev bpp (bpp + k)) (i := 0) (len := (row.drop bpp).length) hw (Nat.zero_le _)
    (by
      intro k _ hk
      unfold subVec
      rw [slice_map hk, ok_bind, slice_map (by omega), ok_bind]
      unfold subLanes
      rw [zipWith_range]
      show Except.ok _ = _
      congr 1
      apply List.map_congr_left
      intro j hj
      rw [List.mem_range'_1] at hj
      rw [g1 j (by omega), g2 j (by omega)]
      unfold refAt predict leftAt byteAt
      simp [show ¬ (bpp + j < bpp) by omega])
    (by
      intro k _ hk
      unfold subTail
      rw [getChecked_getD hk, ok_bind, getChecked_getD (by omega), ok_bind, g1 k (by omega), g2 k (by omega)]
      unfold refAt predict leftAt byteAt
      simp [Pure.pure, Except.pure, show ¬ (bpp + k < bpp) by omega])
  rw [key]
  congr 1
  apply List.ext_getElem
  · simp
  · intro n h1 h2; simp

theorem take_ref_sub {row : List UInt8} (prev : List UInt8) {bpp : Nat} (hb : bpp ≤ row.length) :
    row.take bpp = (List.range' 0 bpp).map (refAt 1 row prev bpp) := by
  apply List.ext_getElem
  · simp; omega
  · intro n h1 h2
    simp at h1 h2 ⊢
    unfold refAt predict leftAt
    simp [h2, List.getElem?_eq_getElem (show n < row.length by omega)]

theorem subSse2_ok {row : List UInt8} (prev : List UInt8) {bpp : Nat} (hb : bpp ≤ row.length) :
    subSse2 row bpp = .ok (refRow 1 row prev bpp) := by
  unfold subSse2
  have : slice row 0 bpp = .ok (row.take bpp) := by
    unfold slice; rw [if_pos (by omega)]; simp
  rw [this, ok_bind, subRest_ok (by decide) prev hb, ok_bind, take_ref_sub prev hb, ← List.map_append]
  unfold refRow
  rw [range'_split hb, Nat.zero_add]; rfl

theorem subWide_ok {w : Nat} (hw : 0 < w) (row prev : List UInt8) (bpp : Nat) :
    subWide w row bpp = .ok (refRow 1 row prev bpp) := by
  unfold subWide
  by_cases c : row.length ≤ bpp
  · rw [if_pos c, Nat.min_eq_right c]
    have h1 : row.take row.length = (List.range' 0 row.length).map (refAt 1 row prev bpp) := by
      apply List.ext_getElem
      · simp
      · intro n h1 h2
        simp at h1 h2 ⊢
        unfold refAt predict leftAt
        simp [show n < bpp by omega, List.getElem?_eq_getElem h1]
    rw [h1]; rfl
  · rw [if_neg c, subRest_ok hw prev (by omega), ok_bind, Nat.min_eq_left (by omega),
      take_ref_sub prev (by omega), ← List.map_append]
    unfold refRow
    rw [range'_split (show bpp ≤ row.length by omega), Nat.zero_add]; rfl

/-! #### Unpacking and packing -/

theorem satU8_small {n : Nat} (h : n < 256) : satU8 n = UInt8.ofNat n := by
  unfold satU8; rw [if_neg (by omega), if_neg (by omega)]

theorem packus_get {lo hi : List Nat} {m : Nat} (h1 : lo.length = m) (F : Nat → Nat)
    (hlo : ∀ k, k < m → lo.getD k 0 = F (k / 8 * 16 + k % 8))
    (hhi : ∀ k, k < m → hi.getD k 0 = F (k / 8 * 16 + k % 8 + 8)) (hm : 8 ∣ m)
    (hF : ∀ j, j < 2 * m → F j < 256) :
    packus lo hi = (List.range' 0 (2 * m)).map (fun j => UInt8.ofNat (F j)) := by
  unfold packus
  rw [h1, List.range_eq_range']
  apply List.map_congr_left
  intro j hj
  rw [List.mem_range'_1] at hj
  have hlt : j / 16 * 8 + j % 8 < m := by omega
  by_cases c : j % 16 < 8
  · rw [if_pos c, hlo _ hlt, show (j / 16 * 8 + j % 8) / 8 * 16 + (j / 16 * 8 + j % 8) % 8 = j by omega,
      satU8_small (hF j (by omega))]
  · rw [if_neg c, hhi _ hlt, show (j / 16 * 8 + j % 8) / 8 * 16 + (j / 16 * 8 + j % 8) % 8 + 8 = j by omega,
      satU8_small (hF j (by omega))]

theorem unpackLo_getD {v : List UInt8} {m k : Nat} (hv : v.length = 2 * m) (hk : k < m) :
    (unpackLo v).getD k 0 = (v.getD (k / 8 * 16 + k % 8) 0).toNat := by
  unfold unpackLo
  rw [getD_eq _ _ (by simp; omega)]
  simp

theorem unpackHi_getD {v : List UInt8} {m k : Nat} (hv : v.length = 2 * m) (hk : k < m) :
    (unpackHi v).getD k 0 = (v.getD (k / 8 * 16 + k % 8 + 8) 0).toNat := by
  unfold unpackHi
  rw [getD_eq _ _ (by simp; omega)]
  simp

theorem unpackLo_length (v : List UInt8) : (unpackLo v).length = v.length / 2 := by simp [unpackLo]
theorem unpackHi_length (v : List UInt8) : (unpackHi v).length = v.length / 2 := by simp [unpackHi]

theorem getD_zipWith {α β γ : Type} (f : α → β → γ) {a : List α} {b : List β} {k : Nat} (da : α) (db : β) (d : γ)
    (ha : k < a.length) (hb : k < b.length) :
    (List.zipWith f a b).getD k d = f (a.getD k da) (b.getD k db) := by
  rw [getD_eq _ _ (by simp; omega), getD_eq _ _ ha, getD_eq _ _ hb]
  simp

theorem avgAvx2_eq {l a : List UInt8} (hl : l.length = 32) (ha : a.length = 32) :
    avgAvx2 l a = List.zipWith average l a := by
  unfold avgAvx2
  rw [packus_get (m := 16) (by simp [unpackLo_length, hl, ha])
    (fun j => ((l.getD j 0).toNat + (a.getD j 0).toNat) / 2)]
  · apply List.ext_getElem
    · simp [hl, ha]
    · intro n h1 h2
      simp at h1 h2 ⊢
      unfold average
      rw [List.getElem?_eq_getElem (by omega), List.getElem?_eq_getElem (by omega)]
      rfl
  · intro k hk
    rw [getD_zipWith avgLane 0 0 0 (by rw [unpackLo_length]; omega) (by rw [unpackLo_length]; omega),
      unpackLo_getD (m := 16) hl hk, unpackLo_getD (m := 16) ha hk]
    unfold avgLane
    have := (l.getD (k / 8 * 16 + k % 8) 0).toNat_lt
    have := (a.getD (k / 8 * 16 + k % 8) 0).toNat_lt
    rw [Nat.mod_eq_of_lt (by omega)]
  · intro k hk
    rw [getD_zipWith avgLane 0 0 0 (by rw [unpackHi_length]; omega) (by rw [unpackHi_length]; omega),
      unpackHi_getD (m := 16) hl hk, unpackHi_getD (m := 16) ha hk]
    unfold avgLane
    have := (l.getD (k / 8 * 16 + k % 8 + 8) 0).toNat_lt
    have := (a.getD (k / 8 * 16 + k % 8 + 8) 0).toNat_lt
    rw [Nat.mod_eq_of_lt (by omega)]
  · decide
  · intro j _
    have := (l.getD j 0).toNat_lt
    have := (a.getD j 0).toNat_lt
    omega

theorem averageFirst_ok {row prev : List UInt8} {bpp i : Nat} (h : i < row.length) (hb : i < bpp)
    (hp : row.length ≤ prev.length) : averageFirst row prev i = .ok (refAt 3 row prev bpp i) := by
  unfold averageFirst
  rw [getChecked_getD (by omega), ok_bind, getChecked_getD h, ok_bind]
  unfold refAt predict leftAt average byteAt
  simp [hb, Pure.pure, Except.pure]

theorem averageWide_ok {w : Nat} (hw : 0 < w) {avg : List UInt8 → List UInt8 → List UInt8}
    (havg : ∀ l a, l.length = w → a.length = w → avg l a = List.zipWith average l a)
    {row prev : List UInt8} (bpp : Nat) (hp : row.length ≤ prev.length) :
    averageWide w avg row prev bpp = .ok (refRow 3 row prev bpp) := by
  unfold averageWide
  rw [idxLoop_map (g := refAt 3 row prev bpp) _ _
    (fun k _ h => averageFirst_ok (by omega) (by omega) hp), ok_bind]
  by_cases c : row.length ≤ bpp
  · rw [if_pos c, Nat.min_eq_right c]; rfl
  · rw [if_neg c, vecThenTail_map (g := refAt 3 row prev bpp) hw (by omega) ?_ (fun k _ h => averageAt_ok h hp),
      ok_bind, Nat.min_eq_left (by omega), ← List.map_append]
    · unfold refRow
      rw [range'_split (show bpp ≤ row.length by omega), Nat.zero_add]; rfl
    · intro k h1 h2
      unfold averageVec
      rw [slice_map h2, ok_bind, slice_map (by omega), ok_bind, slice_shift h2 h1, ok_bind,
        havg _ _ (by simp) (by simp), zipWith_range]
      unfold subLanes
      rw [zipWith_range]
      show Except.ok _ = _
      congr 1
      apply List.map_congr_left
      intro j hj
      rw [List.mem_range'_1] at hj
      unfold refAt predict leftAt average byteAt
      rw [if_neg (by omega)]
      rfl

/-! #### Paeth -/

theorem abs16_toInt {v : BitVec 16} (h : -2 ^ 15 < v.toInt) : (abs16 v).toInt = v.toInt.natAbs := by
  unfold abs16
  split
  · have := v.toInt_lt
    rw [BitVec.zero_sub, BitVec.toInt_neg, Int.bmod_def]
    split <;> omega
  · omega

theorem toInt_small {n : Nat} (h : n < 256) : (BitVec.ofNat 16 n).toInt = n := by
  rw [BitVec.toInt_eq_toNat_of_lt]
  · rw [BitVec.toNat_ofNat]; omega
  · rw [BitVec.toNat_ofNat]; omega

theorem mask_and (a b : Bool) : mask16 a &&& mask16 b = mask16 (a && b) := by
  cases a <;> cases b <;> decide

theorem mask_or (a b : Bool) : mask16 a ||| mask16 b = mask16 (a || b) := by
  cases a <;> cases b <;> decide

theorem mask_not (a : Bool) : ~~~mask16 a = mask16 (!a) := by cases a <;> decide

theorem and_mask (a : BitVec 16) (b : Bool) : a &&& mask16 b = if b then a else 0#16 := by
  cases b
  · simp [mask16]
  · unfold mask16; rw [if_pos rfl, BitVec.and_allOnes]; rfl

theorem paethLane_eq {a b c : Nat} (ha : a < 256) (hb : b < 256) (hc : c < 256) :
    (paethLane (BitVec.ofNat 16 a) (BitVec.ofNat 16 b) (BitVec.ofNat 16 c)).toNat = paeth a b c := by
  have ea := toInt_small ha
  have eb := toInt_small hb
  have ec := toInt_small hc
  have na : (BitVec.ofNat 16 a).toNat = a := by rw [BitVec.toNat_ofNat]; omega
  have nb : (BitVec.ofNat 16 b).toNat = b := by rw [BitVec.toNat_ofNat]; omega
  have nc : (BitVec.ofNat 16 c).toNat = c := by rw [BitVec.toNat_ofNat]; omega
  generalize BitVec.ofNat 16 a = A at *
  generalize BitVec.ofNat 16 b = B at *
  generalize BitVec.ofNat 16 c = C at *
  have bm : ∀ x : Int, -2 ^ 15 ≤ x → x < 2 ^ 15 → x.bmod (2 ^ 16) = x := by
    intro x h1 h2; rw [Int.bmod_def]; split <;> omega
  have ep : (A + B - C).toInt = (a : Int) + b - c := by
    rw [BitVec.toInt_sub, BitVec.toInt_add, ea, eb, ec, bm ((a : Int) + b) (by omega) (by omega),
      bm _ (by omega) (by omega)]
  have epa : (abs16 (A + B - C - A)).toInt = ((a : Int) + b - c - a).natAbs := by
    have : (A + B - C - A).toInt = (a : Int) + b - c - a := by
      rw [BitVec.toInt_sub, ep, ea, bm _ (by omega) (by omega)]
    rw [abs16_toInt (by omega), this]
  have epb : (abs16 (A + B - C - B)).toInt = ((a : Int) + b - c - b).natAbs := by
    have : (A + B - C - B).toInt = (a : Int) + b - c - b := by
      rw [BitVec.toInt_sub, ep, eb, bm _ (by omega) (by omega)]
    rw [abs16_toInt (by omega), this]
  have epc : (abs16 (A + B - C - C)).toInt = ((a : Int) + b - c - c).natAbs := by
    have : (A + B - C - C).toInt = (a : Int) + b - c - c := by
      rw [BitVec.toInt_sub, ep, ec, bm _ (by omega) (by omega)]
    rw [abs16_toInt (by omega), this]
  unfold paethLane paeth
  simp only [epa, epb, epc, Int.ofNat_le, mask_and, mask_or, mask_not]
  simp only [and_mask]
  by_cases c1 : ((a : Int) + b - c - a).natAbs ≤ ((a : Int) + b - c - b).natAbs
  · by_cases c2 : ((a : Int) + b - c - a).natAbs ≤ ((a : Int) + b - c - c).natAbs
    · simp [c1, c2, na]
    · by_cases c3 : ((a : Int) + b - c - b).natAbs ≤ ((a : Int) + b - c - c).natAbs
      · simp [c1, c2, c3, nb]
      · simp [c1, c2, c3, nc]
  · by_cases c3 : ((a : Int) + b - c - b).natAbs ≤ ((a : Int) + b - c - c).natAbs
    · simp [c1, c3, nb]
    · simp [c1, c3, nc]

theorem getD_zip3 {f : BitVec 16 → BitVec 16 → BitVec 16 → BitVec 16} {a b c : List Nat} {k : Nat}
    (ha : k < a.length) (hb : k < b.length) (hc : k < c.length) :
    (zip3 f a b c).getD k 0
      = (f (BitVec.ofNat 16 (a.getD k 0)) (BitVec.ofNat 16 (b.getD k 0)) (BitVec.ofNat 16 (c.getD k 0))).toNat := by
  unfold zip3
  rw [getD_eq _ _ (by simp; omega), getD_eq _ _ ha, getD_eq _ _ hb,
    getD_eq _ _ hc]
  simp

theorem zip3_length {f : BitVec 16 → BitVec 16 → BitVec 16 → BitVec 16} (a b c : List Nat) :
    (zip3 f a b c).length = min (min a.length b.length) c.length := by
  unfold zip3; simp

/-- Lanes of the predictor, as a map over the index range of the register. -/
def paethRef (l a c : List UInt8) (n : Nat) : List UInt8 :=
  (List.range' 0 n).map (fun j => UInt8.ofNat (paeth (l.getD j 0).toNat (a.getD j 0).toNat (c.getD j 0).toNat))

theorem paethX86_eq {l a c : List UInt8} {m : Nat} (hm : 8 ∣ m) (hl : l.length = 2 * m) (ha : a.length = 2 * m)
    (hc : c.length = 2 * m) : paethX86 l a c = paethRef l a c (2 * m) := by
  unfold paethX86 paethRef
  rw [packus_get (m := m) (by simp [zip3_length, unpackLo_length, hl, ha, hc])
    (fun j => paeth (l.getD j 0).toNat (a.getD j 0).toNat (c.getD j 0).toNat)]
  · intro k hk
    rw [getD_zip3 (by rw [unpackLo_length]; omega) (by rw [unpackLo_length]; omega) (by rw [unpackLo_length]; omega),
      unpackLo_getD hl hk, unpackLo_getD ha hk, unpackLo_getD hc hk,
      paethLane_eq (UInt8.toNat_lt _) (UInt8.toNat_lt _) (UInt8.toNat_lt _)]
  · intro k hk
    rw [getD_zip3 (by rw [unpackHi_length]; omega) (by rw [unpackHi_length]; omega) (by rw [unpackHi_length]; omega),
      unpackHi_getD hl hk, unpackHi_getD ha hk, unpackHi_getD hc hk,
      paethLane_eq (UInt8.toNat_lt _) (UInt8.toNat_lt _) (UInt8.toNat_lt _)]
  · exact hm
  · intro j _
    exact paeth_lt (UInt8.toNat_lt _) (UInt8.toNat_lt _) (UInt8.toNat_lt _)

theorem movl_getD {v : List UInt8} {k : Nat} (h : k < v.length) : (movl v).getD k 0 = (v.getD k 0).toNat := by
  unfold movl
  rw [getD_eq _ _ (by simp; omega), getD_eq _ _ h]; simp

theorem movn_zip3_get {l a c : List UInt8} {k : Nat} (hl : k < l.length) (ha : k < a.length) (hc : k < c.length) :
    (movn (zip3 paethLane (movl l) (movl a) (movl c)))[k]? =
      some (UInt8.ofNat (paeth (l.getD k 0).toNat (a.getD k 0).toNat (c.getD k 0).toNat)) := by
  have h := getD_zip3 (f := paethLane) (a := movl l) (b := movl a) (c := movl c) (k := k)
    (by simp [movl]; omega) (by simp [movl]; omega) (by simp [movl]; omega)
  rw [movl_getD hl, movl_getD ha, movl_getD hc,
    paethLane_eq (UInt8.toNat_lt _) (UInt8.toNat_lt _) (UInt8.toNat_lt _)] at h
  have hlen : k < (zip3 paethLane (movl l) (movl a) (movl c)).length := by
    rw [zip3_length]; simp [movl]; omega
  unfold movn
  rw [List.getElem?_map, List.getElem?_eq_getElem hlen]
  rw [getD_eq _ _ hlen] at h
  simp only [Option.map_some, h]

theorem paethNeon_eq {l a c : List UInt8} (hl : l.length = 16) (ha : a.length = 16) (hc : c.length = 16) :
    paethNeon l a c = paethRef l a c 16 := by
  apply List.ext_getElem?
  intro k
  unfold paethNeon
  have len1 : (movn (zip3 paethLane (movl (l.take 8)) (movl (a.take 8)) (movl (c.take 8)))).length = 8 := by
    simp [movn, zip3_length, movl, hl, ha, hc]
  have len2 : (movn (zip3 paethLane (movl (l.drop 8)) (movl (a.drop 8)) (movl (c.drop 8)))).length = 8 := by
    simp [movn, zip3_length, movl, hl, ha, hc]
  have ref : ∀ k, k < 16 → (paethRef l a c 16)[k]? =
      some (UInt8.ofNat (paeth (l.getD k 0).toNat (a.getD k 0).toNat (c.getD k 0).toNat)) := by
    intro k hk; unfold paethRef; simp [List.getElem?_range', hk]
  by_cases h : k < 8
  · rw [List.getElem?_append_left (by omega), movn_zip3_get (by simp; omega) (by simp; omega) (by simp; omega),
      ref k (by omega)]
    simp [List.getD, List.getElem?_take, h]
  · by_cases h2 : k < 16
    · rw [List.getElem?_append_right (by omega), len1,
        movn_zip3_get (by simp; omega) (by simp; omega) (by simp; omega), ref k h2]
      simp [List.getD, List.getElem?_drop, show 8 + (k - 8) = k by omega]
    · rw [List.getElem?_eq_none (by simp [len1, len2]; omega), List.getElem?_eq_none (by simp [paethRef]; omega)]

theorem paethWide_ok {w : Nat} (hw : 0 < w) {pred : List UInt8 → List UInt8 → List UInt8 → List UInt8}
    (hpred : ∀ l a c, l.length = w → a.length = w → c.length = w → pred l a c = paethRef l a c w)
    {row prev : List UInt8} {bpp : Nat} {first : Nat → R UInt8} (hp : row.length ≤ prev.length)
    (hfirst : ∀ i, i < row.length → i < bpp → first i = .ok (refAt 4 row prev bpp i)) :
    paethWide w pred first row prev bpp = .ok (refRow 4 row prev bpp) := by
  unfold paethWide
  rw [idxLoop_map (g := refAt 4 row prev bpp) _ _ (fun k _ h => hfirst k (by omega) (by omega)), ok_bind]
  by_cases c : row.length ≤ bpp
  · rw [if_pos c, Nat.min_eq_right c]; rfl
  · rw [if_neg c, vecThenTail_map (g := refAt 4 row prev bpp) hw (by omega) ?_ (fun k _ h => paethAt_ok h hp),
      ok_bind, Nat.min_eq_left (by omega), ← List.map_append]
    · unfold refRow
      rw [range'_split (show bpp ≤ row.length by omega), Nat.zero_add]; rfl
    · intro k h1 h2
      unfold paethVec
      rw [slice_map h2, ok_bind, slice_shift h2 h1, ok_bind, slice_map (by omega), ok_bind,
        slice_shift (by omega) h1, ok_bind, hpred _ _ _ (by simp) (by simp) (by simp)]
      unfold subLanes
      have : paethRef ((List.range' k w).map fun k => row.getD (k - bpp) 0) ((List.range' k w).map fun k => prev.getD k 0)
          ((List.range' k w).map fun k => prev.getD (k - bpp) 0) w
          = (List.range' k w).map (fun j => UInt8.ofNat (paeth (row.getD (j - bpp) 0).toNat (prev.getD j 0).toNat
            (prev.getD (j - bpp) 0).toNat)) := by
        apply List.ext_getElem
        · simp [paethRef]
        · intro n h1 h2
          simp [paethRef] at h1 h2 ⊢
          simp [h2]
      rw [this, zipWith_range]
      show Except.ok _ = _
      congr 1
      apply List.map_congr_left
      intro j hj
      rw [List.mem_range'_1] at hj
      unfold refAt predict leftAt byteAt
      rw [if_neg (by omega), if_neg (by omega)]
      rfl

theorem paeth_above (b : Nat) : paeth 0 b 0 = b := by
  unfold paeth
  simp only
  split
  · omega
  · split <;> omega

theorem paethFirstNeon_ok {row prev : List UInt8} {bpp i : Nat} (h : i < row.length) (hb : i < bpp)
    (hp : row.length ≤ prev.length) : paethFirstNeon row prev i = .ok (refAt 4 row prev bpp i) := by
  unfold paethFirstNeon
  rw [getChecked_getD (by omega), ok_bind, getChecked_getD h, ok_bind]
  unfold refAt predict leftAt byteAt
  simp only [if_pos hb, paeth_above]
  simp [Pure.pure, Except.pure]

theorem paethFirstX86_ok {row prev : List UInt8} {bpp i : Nat} (h : i < row.length) (hb : i < bpp)
    (hp : row.length ≤ prev.length) : paethFirstX86 row prev i = .ok (refAt 4 row prev bpp i) := by
  unfold paethFirstX86
  rw [getChecked_getD (by omega), ok_bind, getChecked_getD h, ok_bind, paethPredictor_eq]
  unfold refAt predict leftAt byteAt
  simp only [if_pos hb]
  rfl

/-! ### Dispatch -/

theorem filterSub_ok (lv : Level) {row : List UInt8} (prev : List UInt8) {bpp : Nat} (hb : bpp ≤ row.length) :
    filterSub lv row bpp = .ok (refRow 1 row prev bpp) := by
  cases lv
  · exact subWide_ok (by decide) _ _ _
  · exact subSse2_ok prev hb
  · exact subSse2_ok prev hb
  · exact subScalar_ok _ _ _
  · exact subWide_ok (by decide) _ _ _

theorem filterUp_ok (lv : Level) {row prev : List UInt8} (bpp : Nat) (hp : row.length ≤ prev.length) :
    filterUp lv row prev = .ok (refRow 2 row prev bpp) := by
  cases lv
  · exact upWide_ok (by decide) _ hp
  · exact upWide_ok (by decide) _ hp
  · exact upWide_ok (by decide) _ hp
  · exact upScalar_ok _ hp
  · exact upWide_ok (by decide) _ hp

theorem filterAverage_ok (lv : Level) {row prev : List UInt8} (bpp : Nat) (hp : row.length ≤ prev.length) :
    filterAverage lv row prev bpp = .ok (refRow 3 row prev bpp) := by
  cases lv
  · exact averageWide_ok (by decide) (fun _ _ => avgAvx2_eq) _ hp
  · exact averageScalar_ok _ hp
  · exact averageScalar_ok _ hp
  · exact averageScalar_ok _ hp
  · exact averageWide_ok (by decide) (fun _ _ _ _ => rfl) _ hp

theorem filterPaeth_ok (lv : Level) {row prev : List UInt8} (bpp : Nat) (hp : row.length ≤ prev.length) :
    filterPaeth lv row prev bpp = .ok (refRow 4 row prev bpp) := by
  cases lv
  case neon =>
    exact paethWide_ok (by decide) (fun _ _ _ h1 h2 h3 => paethNeon_eq h1 h2 h3) hp
      (fun i h hb => paethFirstNeon_ok h hb hp)
  all_goals exact paethScalar_ok _ hp

/-! ### Scores -/

theorem sadByte_eq (b : UInt8) : sadByte b = absI8 b := by
  have : ∀ k : Fin 256, sadByte (UInt8.ofNat k.val) = absI8 (UInt8.ofNat k.val) := by decide +kernel
  have h := this ⟨b.toNat, b.toNat_lt⟩
  simpa using h

theorem absLane_eq (b : UInt8) : absLane b = absI8 b := by
  have : ∀ k : Fin 256, absLane (UInt8.ofNat k.val) = absI8 (UInt8.ofNat k.val) := by decide +kernel
  have h := this ⟨b.toNat, b.toNat_lt⟩
  simpa using h

theorem scoreScalar_split (l : List UInt8) (n : Nat) :
    scoreScalar l = scoreScalar (l.take n) + scoreScalar (l.drop n) := by
  unfold scoreScalar
  rw [← List.sum_append, ← List.map_append, List.take_append_drop]

theorem sadLane_eq (v : List UInt8) (k : Nat) : sadLane v k = scoreScalar ((v.drop (8 * k)).take 8) := by
  unfold sadLane scoreScalar
  rw [show sadByte = absI8 from funext sadByte_eq]

theorem scoreSse2_eq : ∀ (fuel : Nat) (rem : List UInt8) (l0 l1 : Nat), rem.length ≤ fuel →
    scoreSse2 fuel rem l0 l1 = l0 + l1 + scoreScalar rem
  | 0, _, _, _, _ => rfl
  | fuel + 1, rem, l0, l1, h => by
    rw [scoreSse2]
    split
    · rename_i c
      rw [scoreSse2_eq fuel _ _ _ (by simp; omega), sadLane_eq, sadLane_eq]
      have e1 := scoreScalar_split rem 8
      have e2 := scoreScalar_split (rem.drop 8) 8
      rw [List.drop_drop] at e2
      simp only [Nat.mul_zero, Nat.mul_one, List.drop_zero]
      simp only [show 8 + 8 = 16 from rfl] at e2
      omega
    · rfl

theorem scoreAvx2_eq : ∀ (fuel : Nat) (rem : List UInt8) (l0 l1 l2 l3 : Nat), rem.length ≤ fuel →
    scoreAvx2 fuel rem l0 l1 l2 l3 = l0 + l1 + l2 + l3 + scoreScalar rem
  | 0, _, _, _, _, _, _ => rfl
  | fuel + 1, rem, l0, l1, l2, l3, h => by
    rw [scoreAvx2]
    split
    · rename_i c
      rw [scoreAvx2_eq fuel _ _ _ _ _ (by simp; omega), sadLane_eq, sadLane_eq, sadLane_eq, sadLane_eq]
      have e1 := scoreScalar_split rem 8
      have e2 := scoreScalar_split (rem.drop 8) 8
      have e3 := scoreScalar_split (rem.drop 16) 8
      have e4 := scoreScalar_split (rem.drop 24) 8
      rw [List.drop_drop] at e2 e3 e4
      simp only [Nat.reduceMul, Nat.mul_zero, List.drop_zero]
      simp only [Nat.reduceAdd] at e2 e3 e4
      omega
    · rfl

theorem paddLane_eq {v : List UInt8} {k : Nat} (h : 8 * k + 8 ≤ v.length) :
    paddLane v k = scoreScalar ((v.drop (8 * k)).take 8) := by
  have : (v.drop (8 * k)).take 8 = (List.range' (8 * k) 8).map (fun j => v.getD j 0) := by
    have := slice_map h
    unfold slice at this
    rw [if_pos h] at this
    exact Except.ok.inj this
  rw [this]
  unfold scoreScalar paddLane
  simp only [absLane_eq, List.map_map]
  simp [List.range', Nat.add_assoc]

theorem scoreNeon_eq : ∀ (fuel : Nat) (rem : List UInt8) (s : Nat), rem.length ≤ fuel →
    scoreNeon fuel rem s = s + scoreScalar rem
  | 0, _, _, _ => rfl
  | fuel + 1, rem, s, h => by
    rw [scoreNeon]
    split
    · rename_i c
      rw [scoreNeon_eq fuel _ _ (by simp; omega), paddLane_eq (by omega), paddLane_eq (by omega)]
      have e1 := scoreScalar_split rem 8
      have e2 := scoreScalar_split (rem.drop 8) 8
      rw [List.drop_drop] at e2
      simp only [Nat.mul_zero, Nat.mul_one, List.drop_zero]
      simp only [show 8 + 8 = 16 from rfl] at e2
      omega
    · rfl

theorem scoreFilter_eq (lv : Level) (l : List UInt8) : scoreFilter lv l = scoreScalar l := by
  cases lv
  · show scoreAvx2 _ _ 0 0 0 0 = _
    rw [scoreAvx2_eq _ _ _ _ _ _ (Nat.le_refl _)]; omega
  · show scoreSse2 _ _ 0 0 = _
    rw [scoreSse2_eq _ _ _ _ (Nat.le_refl _)]; omega
  · show scoreSse2 _ _ 0 0 = _
    rw [scoreSse2_eq _ _ _ _ (Nat.le_refl _)]; omega
  · rfl
  · show scoreNeon _ _ 0 = _
    rw [scoreNeon_eq _ _ _ (Nat.le_refl _)]; omega

end Pixo.Filter
