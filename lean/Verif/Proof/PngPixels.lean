import Verif.Proof.Unfilter
import Verif.Proof.Bits
/-
Conversion of unfiltered rows to pixels.
-/
namespace Pixo.PngDecode
open Spec Spec.Png
open Pixo.Filter (getD_eq getChecked_getD)
open Pixo.MatchLength (slice)

/-! ### Lists of equal blocks -/

theorem flatMap_get {α β : Type} {f : α → List β} {m : Nat} : ∀ (l : List α), (∀ a ∈ l, (f a).length = m) →
    ∀ (i j : Nat), j < m → (l.flatMap f)[i * m + j]? = l[i]?.bind (fun a => (f a)[j]?)
  | [], _, i, j, _ => by simp
  | a :: l, h, i, j, hj => by
    have ha := h a List.mem_cons_self
    rw [List.flatMap_cons]
    cases i with
    | zero =>
      rw [List.getElem?_append_left (by omega)]
      simp
    | succ i =>
      rw [List.getElem?_append_right (by rw [ha, Nat.succ_mul]; omega), ha,
        show (i + 1) * m + j - m = i * m + j by rw [Nat.succ_mul]; omega,
        flatMap_get l (fun b hb => h b (List.mem_cons_of_mem _ hb)) i j hj]
      simp

theorem flatMap_length {α β : Type} {f : α → List β} {m : Nat} : ∀ (l : List α), (∀ a ∈ l, (f a).length = m) →
    (l.flatMap f).length = l.length * m
  | [], _ => by simp
  | a :: l, h => by
    rw [List.flatMap_cons, List.length_append, h a List.mem_cons_self,
      flatMap_length l (fun b hb => h b (List.mem_cons_of_mem _ hb)), List.length_cons, Nat.succ_mul]; omega

theorem flatten_eq_flatMap {α : Type} (l : List (List α)) : l.flatten = l.flatMap id := by
  simp [List.flatMap_def]

theorem flatten_get {α : Type} {sb : Nat} {rows : List (List α)} (h : ∀ r ∈ rows, r.length = sb) (y j : Nat)
    (hj : j < sb) : rows.flatten[y * sb + j]? = rows[y]?.bind (fun r => r[j]?) := by
  rw [flatten_eq_flatMap]
  exact flatMap_get rows h y j hj

theorem byteAt_eq {l : List UInt8} {i : Nat} {x : UInt8} (h : l[i]? = some x) : byteAt l i = x.toNat := by
  simp [byteAt, List.getD, h]

/-! ### Samples -/

theorem bytesMSB_drop : ∀ (q : Nat) (l : List UInt8), (bytesMSB l).drop (8 * q) = bytesMSB (l.drop q)
  | 0, l => by simp
  | q + 1, [] => by simp [bytesMSB]
  | q + 1, b :: l => by
    have : (bitsMSB b.toNat 8).length = 8 := by simp
    rw [bytesMSB_cons, show 8 * (q + 1) = 8 + 8 * q by omega, ← List.drop_drop,
      List.drop_left' this, bytesMSB_drop q l]
    rfl

theorem sampleAt_8 {row : List UInt8} {k : Nat} (h : k < row.length) : sampleAt 8 row k = byteAt row k := by
  unfold sampleAt
  rw [Nat.mul_comm, bytesMSB_drop, List.drop_eq_getElem_cons h, bytesMSB_cons,
    List.take_append_of_le_length (by simp), List.take_of_length_le (by simp), ofBitsMSB_bitsMSB]
  unfold byteAt
  rw [getD_eq _ _ h]
  have := row[k].toNat_lt
  omega

theorem sampleAt_16 {row : List UInt8} {k : Nat} (h : 2 * k + 1 < row.length) :
    sampleAt 16 row k = byteAt row (2 * k) * 256 + byteAt row (2 * k + 1) := by
  unfold sampleAt
  have h1 := row[2 * k].toNat_lt
  have h2 := row[2 * k + 1].toNat_lt
  rw [show k * 16 = 8 * (2 * k) by omega, bytesMSB_drop, List.drop_eq_getElem_cons (by omega),
    List.drop_eq_getElem_cons h, bytesMSB_cons, bytesMSB_cons, ← List.append_assoc,
    List.take_append_of_le_length (by simp), List.take_of_length_le (by simp)]
  have : bitsMSB row[2 * k].toNat 8 ++ bitsMSB row[2 * k + 1].toNat 8
      = bitsMSB (row[2 * k].toNat * 256 + row[2 * k + 1].toNat) (8 + 8) := by
    rw [bitsMSB_add]
    congr 1
    · congr 1; omega
    · have := bitsLSB_mod (row[2 * k].toNat * 256 + row[2 * k + 1].toNat) 8 8 (Nat.le_refl _)
      unfold bitsMSB
      rw [← this]
      congr 2; omega
  rw [this, ofBitsMSB_bitsMSB]
  unfold byteAt
  rw [getD_eq _ _ h, getD_eq _ _ (by omega)]
  omega

/-- Sample `j` of a byte. -/
def subSample (d : Nat) (b : UInt8) (j : Nat) : Nat := ofBitsMSB (((bitsMSB b.toNat 8).drop (j * d)).take d)

theorem sampleAt_sub {d m : Nat} (hm : m * d = 8) {row : List UInt8} {k : Nat} (h : k / m < row.length) :
    sampleAt d row k = subSample d row[k / m] (k % m) := by
  unfold sampleAt subSample
  have hm0 : 0 < m := by rcases Nat.eq_zero_or_pos m with h | h; · subst h; omega
                         · exact h
  have e : k * d = 8 * (k / m) + k % m * d := by
    have := Nat.div_add_mod k m
    calc k * d = (m * (k / m) + k % m) * d := by rw [this]
      _ = m * d * (k / m) + k % m * d := by rw [Nat.add_mul]; congr 1; rw [Nat.mul_right_comm]
      _ = _ := by rw [hm]
  have le : k % m * d + d ≤ 8 := by
    have := Nat.mul_le_mul_right d (show k % m + 1 ≤ m from Nat.mod_lt _ hm0)
    rw [Nat.succ_mul] at this; omega
  rw [e, ← List.drop_drop, bytesMSB_drop, List.drop_eq_getElem_cons h, bytesMSB_cons,
    List.drop_append_of_le_length (by simp; omega), List.take_append_of_le_length (by simp; omega)]

/-- The samples of a byte as the decoder takes them out. -/
def byteSamples (d : Nat) (b : UInt8) : List UInt8 :=
  if d = 1 then bits1 b else if d = 2 then bits2 b else [b >>> 4, b &&& 0xF]

theorem byteSamples_spec {d m : Nat} (h : d = 1 ∧ m = 8 ∨ d = 2 ∧ m = 4 ∨ d = 4 ∧ m = 2) (b : UInt8) :
    byteSamples d b = (List.range m).map (fun j => UInt8.ofNat (subSample d b j)) := by
  have key1 : ∀ k : Fin 256, byteSamples 1 (UInt8.ofNat k.val)
      = (List.range 8).map (fun j => UInt8.ofNat (subSample 1 (UInt8.ofNat k.val) j)) := by decide +kernel
  have key2 : ∀ k : Fin 256, byteSamples 2 (UInt8.ofNat k.val)
      = (List.range 4).map (fun j => UInt8.ofNat (subSample 2 (UInt8.ofNat k.val) j)) := by decide +kernel
  have key4 : ∀ k : Fin 256, byteSamples 4 (UInt8.ofNat k.val)
      = (List.range 2).map (fun j => UInt8.ofNat (subSample 4 (UInt8.ofNat k.val) j)) := by decide +kernel
  rcases h with ⟨rfl, rfl⟩ | ⟨rfl, rfl⟩ | ⟨rfl, rfl⟩
  · have := key1 ⟨b.toNat, b.toNat_lt⟩; simpa using this
  · have := key2 ⟨b.toNat, b.toNat_lt⟩; simpa using this
  · have := key4 ⟨b.toNat, b.toNat_lt⟩; simpa using this

theorem pushLoop_eq (w : Nat) : ∀ (ss out : List UInt8), out.length ≤ w →
    pushLoop w ss out = (out ++ ss).take w
  | [], out, h => by rw [pushLoop, List.append_nil, List.take_of_length_le h]
  | s :: ss, out, h => by
    rw [pushLoop]
    split
    · rw [List.take_append_of_le_length (by omega), List.take_of_length_le h]
    · rw [pushLoop_eq w ss _ (by simp; omega)]; simp

theorem pushIf_eq (w : Nat) (s : UInt8) (out : List UInt8) (h : out.length ≤ w) :
    pushIf w out s = (out ++ [s]).take w := by
  unfold pushIf
  split
  · rw [List.take_of_length_le (by simp; omega)]
  · rw [List.take_append_of_le_length (by omega), List.take_of_length_le h]

theorem take_take_self {α : Type} (l : List α) (w : Nat) : (l.take w).take w = l.take w := by
  rw [List.take_take, Nat.min_self]

theorem take_take_append {α : Type} {w : Nat} {x : List α} (y : List α) (h : w ≤ x.length) :
    (x.take w ++ y).take w = (x ++ y).take w := by
  rw [List.take_append_of_le_length (by rw [List.length_take]; omega), List.take_append_of_le_length h,
    take_take_self]

theorem foldl_push {w : Nat} {g : List UInt8 → UInt8 → List UInt8} {f : UInt8 → List UInt8}
    (h : ∀ out b, out.length ≤ w → g out b = (out ++ f b).take w) :
    ∀ (packed out : List UInt8), out.length ≤ w →
    packed.foldl g out = (out ++ packed.flatMap f).take w
  | [], out, ho => by simp [List.take_of_length_le ho]
  | b :: packed, out, ho => by
    rw [List.foldl_cons, foldl_push h packed _ (by rw [h out b ho]; simp; omega), h out b ho, List.flatMap_cons,
      ← List.append_assoc]
    by_cases c : (out ++ f b).length ≤ w
    · rw [List.take_of_length_le c]
    · rw [take_take_append _ (by omega)]

theorem unpackRow_sub {d : Nat} (h : d = 1 ∨ d = 2 ∨ d = 4) (packed : List UInt8) (w : Nat) :
    unpackRow packed w d = (packed.flatMap (byteSamples d)).take w := by
  unfold unpackRow
  simp only
  rcases h with rfl | rfl | rfl
  · rw [if_pos rfl, foldl_push (f := bits1) (fun out b ho => pushLoop_eq w _ out ho) packed [] (by simp)]
    rw [take_take_self]; rfl
  · rw [if_neg (by decide), if_pos rfl,
      foldl_push (f := bits2) (fun out b ho => pushLoop_eq w _ out ho) packed [] (by simp)]
    rw [take_take_self]; rfl
  · rw [if_neg (by decide), if_neg (by decide), if_pos rfl, foldl_push (f := byteSamples 4) ?_ packed [] (by simp)]
    · rw [take_take_self]; rfl
    · intro out b ho
      rw [pushIf_eq w _ _ (by rw [pushIf_eq w _ _ ho]; simp; omega), pushIf_eq w _ _ ho]
      show _ = (out ++ [b >>> 4, b &&& 0xF]).take w
      by_cases c : (out ++ [b >>> 4]).length ≤ w
      · rw [List.take_of_length_le c]; simp
      · rw [show out ++ [b >>> 4, b &&& 0xF] = (out ++ [b >>> 4]) ++ [b &&& 0xF] by simp,
          take_take_append _ (by omega)]

/-- The unpacked samples of a row are its samples. -/
theorem unpackRow_ok {d : Nat} (h : d ∈ [1, 2, 4, 8]) {packed : List UInt8} {w : Nat}
    (hl : packed.length = ceil8 (w * d)) :
    (unpackRow packed w d).length = w ∧
      ∀ x, x < w → (unpackRow packed w d)[x]? = some (UInt8.ofNat (sampleAt d packed x)) := by
  by_cases h8 : d = 8
  · subst h8
    have hl' : packed.length = w := by rw [hl, ceil8]; omega
    have e : unpackRow packed w 8 = packed := by
      unfold unpackRow
      simp only
      rw [if_neg (by decide), if_neg (by decide), if_neg (by decide), if_pos (by decide), List.take_take,
        List.take_of_length_le (by omega)]
    refine ⟨by rw [e, hl'], ?_⟩
    intro x hx
    rw [e, sampleAt_8 (by omega), List.getElem?_eq_getElem (by omega)]
    unfold byteAt
    rw [getD_eq _ _ (by omega)]; simp
  · have h3 : d = 1 ∨ d = 2 ∨ d = 4 := by simp at h; omega
    obtain ⟨m, hdm⟩ : ∃ m, d = 1 ∧ m = 8 ∨ d = 2 ∧ m = 4 ∨ d = 4 ∧ m = 2 := by
      rcases h3 with rfl | rfl | rfl
      · exact ⟨8, by decide⟩
      · exact ⟨4, by decide⟩
      · exact ⟨2, by decide⟩
    have hmd : m * d = 8 := by rcases hdm with ⟨rfl, rfl⟩ | ⟨rfl, rfl⟩ | ⟨rfl, rfl⟩ <;> rfl
    have hm0 : 0 < m := by rcases hdm with ⟨_, rfl⟩ | ⟨_, rfl⟩ | ⟨_, rfl⟩ <;> decide
    have hb : ∀ b ∈ packed, (byteSamples d b).length = m := fun b _ => by rw [byteSamples_spec hdm]; simp
    have hlen : w ≤ packed.length * m := by
      rw [hl, ceil8]
      rcases hdm with ⟨rfl, rfl⟩ | ⟨rfl, rfl⟩ | ⟨rfl, rfl⟩ <;> omega
    rw [unpackRow_sub h3]
    refine ⟨by rw [List.length_take, flatMap_length packed hb]; omega, ?_⟩
    intro x hx
    have hq : x / m < packed.length := by rw [Nat.div_lt_iff_lt_mul hm0]; omega
    have hr : x % m < m := Nat.mod_lt _ hm0
    have := flatMap_get packed hb (x / m) (x % m) hr
    rw [Nat.mul_comm, Nat.div_add_mod] at this
    rw [List.getElem?_take_of_lt hx, this, List.getElem?_eq_getElem hq, Option.bind_some, byteSamples_spec hdm,
      sampleAt_sub hmd hq]
    simp [hr]

theorem sampleAt_lt (d : Nat) (row : List UInt8) (k : Nat) : sampleAt d row k < 2 ^ d := by
  unfold sampleAt
  have gen : ∀ (bs : List Bool) (a : Nat), bs.foldl (fun a b => 2 * a + b.toNat) a < (a + 1) * 2 ^ bs.length := by
    intro bs
    induction bs with
    | nil => simp
    | cons b bs ih =>
      intro a
      rw [List.foldl_cons, List.length_cons, Nat.pow_succ]
      refine Nat.lt_of_lt_of_le (ih _) ?_
      have : 2 * a + b.toNat + 1 ≤ 2 * (a + 1) := by cases b <;> simp <;> omega
      calc _ ≤ 2 * (a + 1) * 2 ^ bs.length := Nat.mul_le_mul_right _ this
        _ = _ := by rw [Nat.mul_comm 2, Nat.mul_assoc, Nat.mul_comm 2]
  have : ∀ bs : List Bool, ofBitsMSB bs < 2 ^ bs.length := by
    intro bs
    have := gen bs 0
    simpa [ofBitsMSB] using this
  refine Nat.lt_of_lt_of_le (this _) (Nat.pow_le_pow_right (by decide) ?_)
  simp; omega

/-- Linear scaling to 8 bits is bit replication. -/
theorem scaleTo8_eq {d : Nat} (h : d = 1 ∨ d = 2 ∨ d = 4) {s : Nat} (hs : s < 2 ^ d) :
    (scaleTo8 (UInt8.ofNat s) d).toNat = to8 d s := by
  have k1 : ∀ s : Fin 2, (scaleTo8 (UInt8.ofNat s.val) 1).toNat = to8 1 s.val := by decide +kernel
  have k2 : ∀ s : Fin 4, (scaleTo8 (UInt8.ofNat s.val) 2).toNat = to8 2 s.val := by decide +kernel
  have k4 : ∀ s : Fin 16, (scaleTo8 (UInt8.ofNat s.val) 4).toNat = to8 4 s.val := by decide +kernel
  rcases h with rfl | rfl | rfl
  · exact k1 ⟨s, hs⟩
  · exact k2 ⟨s, hs⟩
  · exact k4 ⟨s, hs⟩

/-! ### Rows -/

/-- The row buffer is made of rows of `sb` bytes. -/
structure RowsOk (raw : List UInt8) (rows : List (List UInt8)) (sb : Nat) : Prop where
  eq : raw = rows.flatten
  len : ∀ r ∈ rows, r.length = sb

theorem RowsOk.length {raw : List UInt8} {rows : List (List UInt8)} {sb : Nat} (h : RowsOk raw rows sb) :
    raw.length = rows.length * sb := by
  rw [h.eq, flatten_eq_flatMap, flatMap_length (f := id) rows h.len]

theorem RowsOk.slice {raw : List UInt8} {rows : List (List UInt8)} {sb : Nat} (h : RowsOk raw rows sb) {y : Nat}
    (hy : y < rows.length) : slice raw (y * sb) sb = .ok rows[y] := by
  have hl := h.length
  have : y * sb + sb ≤ rows.length * sb := by
    have := Nat.mul_le_mul_right sb (show y + 1 ≤ rows.length from hy)
    rw [Nat.succ_mul] at this; exact this
  rw [(slice_safe (by omega)).1]
  congr 1
  have hr := h.len _ (List.getElem_mem hy)
  apply List.ext_getElem?
  intro j
  by_cases hj : j < sb
  · rw [List.getElem?_take_of_lt hj, List.getElem?_drop, h.eq, flatten_get h.len y j hj,
      List.getElem?_eq_getElem hy]; rfl
  · rw [List.getElem?_eq_none (by simp; omega), List.getElem?_eq_none (by omega)]

theorem RowsOk.byte {raw : List UInt8} {rows : List (List UInt8)} {sb : Nat} (h : RowsOk raw rows sb) {y j : Nat}
    (hy : y < rows.length) (hj : j < sb) : byteAt raw (y * sb + j) = byteAt rows[y] j := by
  have := flatten_get h.len y j hj
  rw [← h.eq, List.getElem?_eq_getElem hy, Option.bind_some] at this
  unfold byteAt
  simp only [List.getD, this]

theorem unpackRows_ok {raw : List UInt8} {rows : List (List UInt8)} {sb : Nat} (h : RowsOk raw rows sb) (w d : Nat) :
    ∀ (n y : Nat), y + n = rows.length →
    unpackRows raw w d sb y n = .ok ((rows.drop y).flatMap (fun r => unpackRow r w d))
  | 0, y, hy => by rw [List.drop_eq_nil_of_le (by omega)]; rfl
  | n + 1, y, hy => by
    rw [unpackRows, h.slice (by omega), ok_bind, unpackRows_ok h w d n (y + 1) (by omega), ok_bind,
      List.drop_eq_getElem_cons (by omega : y < rows.length), List.flatMap_cons]
    rfl

/-- The unpacked samples of an image. -/
theorem unpackRows_get {raw : List UInt8} {rows : List (List UInt8)} {w d : Nat} (hd : d ∈ [1, 2, 4, 8])
    (h : RowsOk raw rows (ceil8 (w * d))) :
    ∃ idx, unpackRows raw w d (ceil8 (w * d)) 0 rows.length = .ok idx ∧ idx.length = rows.length * w ∧
      ∀ y x (hy : y < rows.length), x < w → idx[y * w + x]? = some (UInt8.ofNat (sampleAt d rows[y] x)) := by
  refine ⟨_, unpackRows_ok h w d rows.length 0 (by omega), ?_, ?_⟩
  · rw [List.drop_zero, flatMap_length rows (fun r hr => (unpackRow_ok hd (h.len r hr)).1)]
  · intro y x hy hx
    rw [List.drop_zero, flatMap_get rows (fun r hr => (unpackRow_ok hd (h.len r hr)).1) y x hx,
      List.getElem?_eq_getElem hy, Option.bind_some, (unpackRow_ok hd (h.len _ (List.getElem_mem hy))).2 x hx]

end Pixo.PngDecode
