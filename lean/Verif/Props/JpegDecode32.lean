import Verif.Model.JpegDecode32
import Verif.Props.JpegBomb
/-
C112: decoding JPEG on machines with a `usize` of 32 bits.
-/
namespace Pixo.Props.JpegDecode32
open Pixo Pixo.JpegDecode Pixo.JpegDecode32 Pixo.Idct
open Pixo.Resize32 (w32 alloc32)

theorem w32_id {n : Nat} (h : n < 2 ^ 32) : w32 n = n := Nat.mod_eq_of_lt h

theorem bind_parts {α β : Type} {x : R α} {f : α → R β} {b : β} (h : (x >>= f) = .ok b) : ∃ a, x = .ok a ∧ f a = .ok b := by
  cases x with
  | error e => cases h
  | ok a => exact ⟨a, rfl, h⟩

theorem err_bind {α β : Type} {x : R α} {e : Err} (h : x = .error e) (f : α → R β) : (x >>= f) = .error e := by
  rw [h]
  rfl

/-! ### Headers -/

/-- What four bits and two bytes can say. -/
structure Small (s : State) : Prop where
  w : s.width ≤ 65535
  h : s.height ≤ 65535
  maxH : 1 ≤ s.maxH ∧ s.maxH ≤ 15
  maxV : 1 ≤ s.maxV ∧ s.maxV ≤ 15

theorem Small.of_eq {s s' : State} (h : Small s) (h1 : s'.width = s.width) (h2 : s'.height = s.height) (h3 : s'.maxH = s.maxH)
    (h4 : s'.maxV = s.maxV) : Small s' :=
  ⟨by rw [h1]; exact h.w, by rw [h2]; exact h.h, by rw [h3]; exact h.maxH, by rw [h4]; exact h.maxV⟩

theorem be16_le (a b : UInt8) : be16 a b ≤ 65535 := by
  have := a.toNat_lt
  have := b.toNat_lt
  unfold be16
  omega

theorem sofComponents_small {seg : List UInt8} : ∀ (n i : Nat) (s s' : State), Small s → sofComponents seg n i s = .ok s' → Small s'
  | 0, _, _, _, hs, h => by cases h; exact hs
  | n + 1, i, s, s', hs, h => by
    rw [sofComponents] at h
    simp only at h
    obtain ⟨sm, -, h⟩ := bind_parts h
    split at h
    · cases h
    · obtain ⟨tq, -, h⟩ := bind_parts h
      split at h
      · cases h
      · have h1 : (sm.toNat >>> 4) &&& 0x0F ≤ 15 := Nat.and_le_right
        have h2 : sm.toNat &&& 0x0F ≤ 15 := Nat.and_le_right
        refine sofComponents_small n (i + 1) _ s' ?_ h
        refine ⟨hs.w, hs.h, ?_, ?_⟩
        · have := hs.maxH
          simp only
          omega
        · have := hs.maxV
          simp only
          omega

theorem parseSof0_small {seg : List UInt8} {s s' : State} (hs : Small s) (h : parseSof0 seg s = .ok s') : Small s' := by
  unfold parseSof0 at h
  split at h
  · cases h
  · obtain ⟨p, -, h⟩ := bind_parts h
    split at h
    · cases h
    · obtain ⟨a, -, h⟩ := bind_parts h
      obtain ⟨b, -, h⟩ := bind_parts h
      obtain ⟨c, -, h⟩ := bind_parts h
      obtain ⟨d, -, h⟩ := bind_parts h
      obtain ⟨n, -, h⟩ := bind_parts h
      simp only at h
      split at h
      · cases h
      · split at h
        · cases h
        · refine sofComponents_small _ _ _ _ ?_ h
          exact ⟨be16_le _ _, be16_le _ _, hs.maxH, hs.maxV⟩

theorem parseDht_small : ∀ (fuel : Nat) (seg : List UInt8) (s s' : State), Small s → parseDht fuel seg s = .ok s' → Small s'
  | _, [], _, _, hs, h => by
    rw [parseDht.eq_def] at h
    cases h
    exact hs
  | 0, _ :: _, _, _, _, h => by cases h
  | fuel + 1, info :: rest, s, s', hs, h => by
    rw [parseDht] at h
    simp only at h
    split at h
    · cases h
    · split at h
      · cases h
      · obtain ⟨bits, -, h⟩ := bind_parts h
        split at h
        · cases h
        · obtain ⟨values, -, h⟩ := bind_parts h
          split at h
          · obtain ⟨t, -, h⟩ := bind_parts h
            refine parseDht_small fuel _ _ _ ?_ h
            exact hs.of_eq rfl rfl rfl rfl
          · obtain ⟨t, -, h⟩ := bind_parts h
            refine parseDht_small fuel _ _ _ ?_ h
            exact hs.of_eq rfl rfl rfl rfl

theorem parseDqt_small : ∀ (fuel : Nat) (seg : List UInt8) (s s' : State), Small s → parseDqt fuel seg s = .ok s' → Small s'
  | _, [], _, _, hs, h => by
    rw [parseDqt.eq_def] at h
    cases h
    exact hs
  | 0, _ :: _, _, _, _, h => by cases h
  | fuel + 1, info :: rest, s, s', hs, h => by
    rw [parseDqt] at h
    split at h
    · cases h
    · split at h
      · split at h
        · cases h
        · obtain ⟨bytes, -, h⟩ := bind_parts h
          obtain ⟨q, -, h⟩ := bind_parts h
          refine parseDqt_small fuel _ _ _ ?_ h
          exact hs.of_eq rfl rfl rfl rfl
      · split at h
        · cases h
        · obtain ⟨bytes, -, h⟩ := bind_parts h
          obtain ⟨q, -, h⟩ := bind_parts h
          refine parseDqt_small fuel _ _ _ ?_ h
          exact hs.of_eq rfl rfl rfl rfl

theorem parseDri_small {seg : List UInt8} {s s' : State} (hs : Small s) (h : parseDri seg s = .ok s') : Small s' := by
  unfold parseDri at h
  split at h
  · cases h
    exact hs.of_eq rfl rfl rfl rfl
  · cases h

theorem parseSos_small {seg : List UInt8} {s s' : State} (hs : Small s) (h : parseSos seg s = .ok s') : Small s' := by
  unfold parseSos at h
  split at h
  · cases h
  · split at h
    · cases h
    · obtain ⟨cs, -, h⟩ := bind_parts h
      cases h
      exact hs.of_eq rfl rfl rfl rfl

/-! ### The buffers -/

/-- The size of the buffer of a component. -/
def plane (cols rows : Nat) (c : Component) : Nat := cols * c.h * 8 * (rows * c.v * 8)

theorem padded {w m k : Nat} (hm : 1 ≤ m ∧ m ≤ 15) (hk : k ≤ m) : divCeil w (m * 8) * k * 8 ≤ w + 119 := by
  unfold divCeil
  have h1 : (w + m * 8 - 1) / (m * 8) * (m * 8) ≤ w + m * 8 - 1 := Nat.div_mul_le_self _ _
  have h2 : (w + m * 8 - 1) / (m * 8) * k * 8 ≤ (w + m * 8 - 1) / (m * 8) * (m * 8) := by
    rw [Nat.mul_assoc]
    exact Nat.mul_le_mul_left _ (by omega)
  omega

theorem plane_le {s : State} (hs : Small s) {c : Component} (hc : c.Good s) :
    plane (divCeil s.width (s.maxH * 8)) (divCeil s.height (s.maxV * 8)) c ≤ (s.width + 119) * (s.height + 119) :=
  Nat.mul_le_mul (padded hs.maxH hc.h.2) (padded hs.maxV hc.v.2)

theorem plane32_eq {cols rows : Nat} {c : Component} (h1 : cols * c.h * 8 < 2 ^ 32) (h2 : rows * c.v * 8 < 2 ^ 32) :
    plane32 cols rows c = w32 (plane cols rows c) := by
  unfold plane32 plane
  rw [w32_id (n := cols * c.h) (by omega), w32_id (n := rows * c.v) (by omega), w32_id h1, w32_id h2]

theorem foldl_same {α β : Type} {f g : α → β → α} : ∀ (l : List β) (a : α), (∀ i ∈ l, ∀ a, f a i = g a i) → l.foldl f a = l.foldl g a
  | [], _, _ => rfl
  | i :: l, a, h => by
    rw [List.foldl_cons, List.foldl_cons, h i (by simp), foldl_same l _ (fun j hj => h j (by simp [hj]))]

theorem storeBlock_same {width x y n : Nat} (hx : x + 8 ≤ width) (hy : y + 8 ≤ n) (hn : width * n < 2 ^ 32) (pixels data : List UInt8) :
    storeBlock32 width x y pixels data = storeBlock width x y pixels data := by
  unfold storeBlock32 storeBlock
  refine foldl_same _ _ fun i hi d => ?_
  have hi : i < 64 := List.mem_range.1 hi
  have h0 : 1 * n ≤ width * n := Nat.mul_le_mul_right _ (by omega)
  have h0' : width * 1 ≤ width * n := Nat.mul_le_mul_left _ (by omega)
  have h1 : (y + i / 8 + 1) * width ≤ n * width := Nat.mul_le_mul_right _ (by omega)
  rw [Nat.add_mul _ 1, Nat.one_mul, Nat.mul_comm n] at h1
  simp only
  rw [w32_id (n := y + i / 8) (by omega), w32_id (n := x + i % 8) (by omega), w32_id (n := (y + i / 8) * width) (by omega),
    w32_id (by omega)]

/-! ### The blocks -/

/-- The block lies in the image. -/
def Inside (s : State) (cols rows : Nat) (b : Nat × Nat × Nat) : Prop :=
  ∀ c, s.components[b.1]? = some c → b.2.1 < cols * c.h ∧ b.2.2 < rows * c.v

theorem blockStep_same {s : State} {cols rows : Nat} (hp : ∀ c ∈ s.components, plane cols rows c < 2 ^ 30) (i bx byy : Nat) (st : Scan)
    (hb : Inside s cols rows (i, bx, byy)) : blockStep32 s cols i bx byy st = blockStep false s cols i bx byy st := by
  unfold blockStep32 blockStep
  cases hc : s.components[i]? with
  | none =>
    have hg : getChecked s.components i = .error .panic := by unfold getChecked; rw [hc]
    rw [err_bind hg, err_bind hg]
  | some c =>
    have hg : getChecked s.components i = .ok c := by unfold getChecked; rw [hc]
    obtain ⟨h1, h2⟩ := hb c hc
    simp only at h1 h2
    have h3 := hp c (List.mem_of_getElem? hc)
    unfold plane at h3
    have h4 : 1 * (rows * c.v * 8) ≤ cols * c.h * 8 * (rows * c.v * 8) := Nat.mul_le_mul_right _ (by omega)
    have h5 : cols * c.h * 8 * 1 ≤ cols * c.h * 8 * (rows * c.v * 8) := Nat.mul_le_mul_left _ (by omega)
    rw [hg, ok_bind, ok_bind]
    rw [w32_id (n := cols * c.h) (by omega), w32_id (n := cols * c.h * 8) (by omega), w32_id (n := bx * 8) (by omega), w32_id (n := byy * 8) (by omega)]
    have hst : ∀ px d, storeBlock32 (cols * c.h * 8) (bx * 8) (byy * 8) px d = storeBlock (cols * c.h * 8) (bx * 8) (byy * 8) px d :=
      fun px d => storeBlock_same (n := rows * c.v * 8) (by omega) (by omega) (by omega) px d
    refine bind_congr fun pred => bind_congr fun p => ?_
    obtain ⟨res, r⟩ := p
    cases res with
    | none => rfl
    | some q =>
      obtain ⟨coeffs, pred'⟩ := q
      simp only [hst]

theorem blocksLoop_same {s : State} {cols rows : Nat} (hp : ∀ c ∈ s.components, plane cols rows c < 2 ^ 30) :
    ∀ (bs : List (Nat × Nat × Nat)) (st : Scan), (∀ b ∈ bs, Inside s cols rows b) → blocksLoop32 s cols bs st = blocksLoop false s cols bs st
  | [], _, _ => rfl
  | (i, bx, byy) :: bs, st, hb => by
    rw [blocksLoop32, blocksLoop, blockStep_same hp i bx byy st (hb _ (by simp))]
    refine bind_congr fun p => ?_
    obtain ⟨go, st'⟩ := p
    simp only
    rw [blocksLoop_same hp bs st' (fun b h => hb b (by simp [h]))]

theorem mcuBlocks_inside {s : State} {cols rows mx my : Nat} (hx : mx < cols) (hy : my < rows) :
    ∀ b ∈ mcuBlocks s.components mx my, Inside s cols rows b := by
  intro b hb
  unfold mcuBlocks at hb
  obtain ⟨⟨c, i⟩, hc, hb⟩ := List.mem_flatMap.1 hb
  obtain ⟨y, hy', hb⟩ := List.mem_flatMap.1 hb
  obtain ⟨x, hx', rfl⟩ := List.mem_map.1 hb
  have hx' := List.mem_range.1 hx'
  have hy' := List.mem_range.1 hy'
  intro c' hc'
  have := List.mem_zipIdx_iff_getElem?.1 hc
  simp only at this hc' ⊢
  rw [this] at hc'
  cases hc'
  have h1 : (mx + 1) * c.h ≤ cols * c.h := Nat.mul_le_mul_right _ hx
  have h2 : (my + 1) * c.v ≤ rows * c.v := Nat.mul_le_mul_right _ hy
  rw [Nat.add_mul, Nat.one_mul] at h1 h2
  omega

theorem flatMap_same {α β : Type} {f g : α → List β} {l : List α} (h : ∀ a ∈ l, f a = g a) : l.flatMap f = l.flatMap g := by
  rw [List.flatMap_def, List.flatMap_def, List.map_congr_left h]

theorem mcuBlocks_same {s : State} (hs : s.Good) {cols rows mx my : Nat} (hp : ∀ c ∈ s.components, plane cols rows c < 2 ^ 30) (hx : mx < cols)
    (hy : my < rows) : mcuBlocks32 s.components mx my = mcuBlocks s.components mx my := by
  unfold mcuBlocks32 mcuBlocks
  refine flatMap_same ?_
  rintro ⟨c, i⟩ hc
  have hm : c ∈ s.components := List.mem_of_getElem? (List.mem_zipIdx_iff_getElem?.1 hc)
  have h0 := hp c hm
  have hg := hs.comps c hm
  unfold plane at h0
  have h1 : (mx + 1) * c.h ≤ cols * c.h := Nat.mul_le_mul_right _ hx
  have h2 : (my + 1) * c.v ≤ rows * c.v := Nat.mul_le_mul_right _ hy
  rw [Nat.add_mul, Nat.one_mul] at h1 h2
  have hh := hg.h.1
  have hv := hg.v.1
  have h4 : 1 * (rows * c.v * 8) ≤ cols * c.h * 8 * (rows * c.v * 8) := Nat.mul_le_mul_right _ (by omega)
  have h5 : cols * c.h * 8 * 1 ≤ cols * c.h * 8 * (rows * c.v * 8) := Nat.mul_le_mul_left _ (by omega)
  refine flatMap_same fun y hy' => ?_
  refine List.map_congr_left fun x hx' => ?_
  have hx' := List.mem_range.1 hx'
  have hy' := List.mem_range.1 hy'
  rw [w32_id (n := mx * c.h) (by omega), w32_id (n := my * c.v) (by omega), w32_id (by omega), w32_id (by omega)]

theorem mcuLoop_same {s : State} (hs : s.Good) {cols rows : Nat} (hp : ∀ c ∈ s.components, plane cols rows c < 2 ^ 30) :
    ∀ (ms : List (Nat × Nat)) (count : Nat) (st : Scan), (∀ m ∈ ms, m.1 < cols ∧ m.2 < rows) →
      mcuLoop32 s cols ms count st = mcuLoop false s cols ms count st
  | [], _, _, _ => rfl
  | (mx, my) :: ms, count, st, hm => by
    have h1 := hm (mx, my) (by simp)
    rw [mcuLoop32, mcuLoop, mcuBlocks_same hs hp h1.1 h1.2, blocksLoop_same hp _ _ (mcuBlocks_inside h1.1 h1.2)]
    simp only
    refine bind_congr fun p => ?_
    obtain ⟨go, st'⟩ := p
    simp only
    rw [mcuLoop_same hs hp ms _ st' (fun m h => hm m (by simp [h]))]

theorem mcus_inside {cols rows : Nat} : ∀ m ∈ (List.range rows).flatMap (fun my => (List.range cols).map (fun mx => (mx, my))),
    m.1 < cols ∧ m.2 < rows := by
  intro m hm
  obtain ⟨y, hy, hm⟩ := List.mem_flatMap.1 hm
  obtain ⟨x, hx, rfl⟩ := List.mem_map.1 hm
  exact ⟨List.mem_range.1 hx, List.mem_range.1 hy⟩

/-! ### The loop never fails -/

theorem blockStep32_ok {s : State} (hs : s.Good) (cols i bx byy : Nat) {st : Scan} (hst : st.Good s)
    (hi : i < s.components.length) : Oks (blockStep32 s cols i bx byy st) (fun p => p.2.Good s) := by
  unfold blockStep32
  refine (Pixo.Oks.get' hi).bind fun c hc => ?_
  refine (Pixo.Oks.get' (by rw [hst.preds]; exact hi)).bind fun pred _ => ?_
  refine (decodeBlock_ok hs (hs.comps c hc) pred _ hst.reader).bind ?_
  rintro ⟨res, r⟩ h1
  cases res with
  | none => exact Oks.pure ⟨h1, hst.preds, hst.data⟩
  | some p =>
    obtain ⟨cs, pr⟩ := p
    refine (Oks.set (by rw [hst.preds]; exact hi)).bind ?_
    rintro _ rfl
    refine (Pixo.Oks.get' (by rw [hs.quant]; exact (hs.comps c hc).quant)).bind fun q _ => ?_
    refine (idct_ok _).bind fun px _ => ?_
    refine (Pixo.Oks.get' (by rw [hst.data]; exact hi)).bind fun d _ => ?_
    refine (Oks.set (by rw [hst.data]; exact hi)).bind ?_
    rintro _ rfl
    exact Oks.pure ⟨h1, by rw [List.length_set, hst.preds], by rw [List.length_set, hst.data]⟩

theorem blocksLoop32_ok {s : State} (hs : s.Good) (cols : Nat) (bs : List (Nat × Nat × Nat))
    (hb : ∀ b ∈ bs, b.1 < s.components.length) {st : Scan} (hst : st.Good s) :
    Oks (blocksLoop32 s cols bs st) (fun p => p.2.Good s) := by
  induction bs generalizing st with
  | nil => exact Oks.ok hst
  | cons b bs ih =>
    obtain ⟨i, bx, byy⟩ := b
    unfold blocksLoop32
    refine (blockStep32_ok hs cols i bx byy hst (hb (i, bx, byy) (by simp))).bind ?_
    rintro ⟨go, st'⟩ h1
    cases go with
    | false => exact Oks.pure h1
    | true => exact ih (fun b hb' => hb b (by simp [hb'])) h1

theorem mcuBlocks32_lt {cs : List Component} {mx my : Nat} : ∀ b ∈ mcuBlocks32 cs mx my, b.1 < cs.length := by
  intro b hb
  unfold mcuBlocks32 at hb
  obtain ⟨⟨c, i⟩, hc, hb⟩ := List.mem_flatMap.1 hb
  obtain ⟨y, _, hb⟩ := List.mem_flatMap.1 hb
  obtain ⟨x, _, rfl⟩ := List.mem_map.1 hb
  have := List.mem_zipIdx hc
  simp only at this ⊢
  omega

theorem mcuLoop32_ok {s : State} (hs : s.Good) (cols : Nat) (ms : List (Nat × Nat)) (count : Nat) {st : Scan}
    (hst : st.Good s) : Oks (mcuLoop32 s cols ms count st) (fun st => st.Good s) := by
  induction ms generalizing count st with
  | nil => exact Oks.ok hst
  | cons m ms ih =>
    obtain ⟨mx, my⟩ := m
    unfold mcuLoop32
    have h0 : (if s.restart > 0 ∧ count > 0 ∧ count % s.restart = 0 then
        ({ st with preds := st.preds.map (fun _ => 0) } : Scan) else st).Good s := by
      split
      · exact ⟨hst.reader, by rw [List.length_map, hst.preds], hst.data⟩
      · exact hst
    simp only
    refine (blocksLoop32_ok hs cols _ mcuBlocks32_lt h0).bind ?_
    rintro ⟨go, st'⟩ h1
    cases go with
    | false => exact Oks.pure h1
    | true => exact ih _ h1

/-! ### Allocations -/

theorem alloc_ok {n : Nat} (h : n < 2 ^ 31) : alloc32 n = .ok () := by
  unfold alloc32
  rw [if_pos h]

theorem alloc_panic {α : Type} {n : Nat} (h : 2 ^ 31 ≤ n) (f : Unit → R α) : (alloc32 n >>= f) = .error .panic := by
  unfold alloc32
  rw [if_neg (by omega)]
  rfl

theorem alloc_then {α : Type} {n : Nat} {f : Unit → R α} (h : f () = .error .panic) : (alloc32 n >>= f) = .error .panic := by
  unfold alloc32
  split
  · exact h
  · rfl

theorem get_then {α β : Type} {l : List α} {i : Nat} {f : α → R β} (h : ∀ a, f a = .error .panic) : (getChecked l i >>= f) = .error .panic := by
  unfold getChecked
  cases l[i]? with
  | none => rfl
  | some a => exact h a

theorem div_then {β : Type} {a b : Nat} {f : Nat → R β} (h : ∀ a, f a = .error .panic) : (divChecked a b >>= f) = .error .panic := by
  unfold divChecked
  split
  · rfl
  · exact h _

theorem planes_same {cols rows : Nat} : ∀ cs : List Component, (∀ c ∈ cs, plane32 cols rows c = plane cols rows c ∧ plane cols rows c < 2 ^ 30) →
    planes32 cols rows cs = .ok (cs.map (fun c => List.replicate (plane cols rows c) (0 : UInt8)))
  | [], _ => rfl
  | c :: cs, h => by
    obtain ⟨h1, h2⟩ := h c (by simp)
    rw [planes32, h1, alloc_ok (by omega), ok_bind, planes_same cs (fun c hc => h c (by simp [hc])), ok_bind]
    rfl

theorem planes_panic {cols rows : Nat} : ∀ cs : List Component, (∃ c ∈ cs, 2 ^ 30 ≤ plane32 cols rows c) → planes32 cols rows cs = .error .panic
  | [], h => by simp at h
  | c :: cs, ⟨c', hc, h⟩ => by
    rw [planes32]
    rcases List.mem_cons.1 hc with rfl | hc
    · exact alloc_panic (by omega) _
    · refine alloc_then ?_
      rw [planes_panic cs ⟨c', hc, h⟩]
      rfl

theorem planes_cases (cols rows : Nat) : ∀ cs : List Component, planes32 cols rows cs = .error .panic ∨
    ∃ d, planes32 cols rows cs = .ok d ∧ d.length = cs.length
  | [] => Or.inr ⟨[], rfl, rfl⟩
  | c :: cs => by
    rw [planes32]
    unfold alloc32
    split
    · rcases planes_cases cols rows cs with h | ⟨d, h, hl⟩
      · refine Or.inl ?_
        rw [ok_bind, h]
        rfl
      · refine Or.inr ⟨List.replicate (plane32 cols rows c) 0 :: d, ?_, by rw [List.length_cons, List.length_cons, hl]⟩
        rw [ok_bind, h]
        rfl
    · exact Or.inl rfl

/-! ### Pixels -/

theorem index_lt {w h cw x y : Nat} (hh : h ≤ 65535) (hw : w * h < 2 ^ 31) (hcw : cw ≤ w + 119) (hx : x ≤ w) (hy : y < h) : y * cw + x < 2 ^ 32 := by
  have h1 : y * cw ≤ y * (w + 119) := Nat.mul_le_mul_left _ hcw
  have h2 : (y + 1) * w ≤ h * w := Nat.mul_le_mul_right _ hy
  rw [Nat.mul_add] at h1
  rw [Nat.add_mul, Nat.one_mul, Nat.mul_comm h] at h2
  omega

theorem w32_index {cw x y : Nat} (h : y * cw + x < 2 ^ 32) : w32 (w32 (y * cw) + x) = y * cw + x := by
  rw [w32_id (n := y * cw) (by omega), w32_id h]

theorem gray_same {d : List UInt8} {cw w h : Nat} (hh : h ≤ 65535) (hw : w * h < 2 ^ 31) (hcw : cw ≤ w + 119) :
    grayPixels32 d cw w h = .ok (grayPixels d cw w h) := by
  unfold grayPixels32 grayPixels
  rw [w32_id (by omega), alloc_ok hw, ok_bind, ok_bind]
  refine congrArg Except.ok (flatMap_same fun y hy => List.map_congr_left fun x hx => ?_)
  have hx := List.mem_range.1 hx
  rw [w32_index (index_lt hh hw hcw (by omega) (List.mem_range.1 hy))]

theorem gray_panic {d : List UInt8} {cw w h : Nat} (hw : 2 ^ 31 ≤ w * h) : grayPixels32 d cw w h = .error .panic := by
  unfold grayPixels32
  exact alloc_then (alloc_panic hw _)

theorem mapM_same {α β : Type} {f g : α → R β} : ∀ l : List α, (∀ a ∈ l, f a = g a) → l.mapM f = l.mapM g
  | [], _ => by rw [List.mapM_nil, List.mapM_nil]
  | a :: l, h => by
    rw [List.mapM_cons, List.mapM_cons, h a (by simp), mapM_same l (fun b hb => h b (by simp [hb]))]

theorem div_same {β : Type} {a b : Nat} {f g : Nat → R β} (h : f (a / b) = g (a / b)) : (divChecked a b >>= f) = (divChecked a b >>= g) := by
  unfold divChecked
  split
  · rfl
  · exact h

theorem get_same {α β : Type} {l : List α} {i : Nat} {f g : α → R β} (h : ∀ a ∈ l, f a = g a) : (getChecked l i >>= f) = (getChecked l i >>= g) := by
  unfold getChecked
  cases hi : l[i]? with
  | none => rfl
  | some a => exact h a (List.mem_of_getElem? hi)

theorem rgb_same {s : State} (hs : s.Good) (hsm : Small s) (hw : s.width * s.height * 3 < 2 ^ 31) (data : List (List UInt8)) :
    rgbPixels32 data s.width s.height s.components s.maxH s.maxV = rgbPixels data s.width s.height s.components s.maxH s.maxV := by
  unfold rgbPixels32 rgbPixels
  rw [w32_id (n := s.width * s.height) (by omega), w32_id (by omega), alloc_ok hw, ok_bind]
  have row : ∀ k, k ≤ s.maxH → w32 (w32 (divCeil s.width (s.maxH * 8) * k) * 8) = divCeil s.width (s.maxH * 8) * k * 8 ∧
      divCeil s.width (s.maxH * 8) * k * 8 ≤ s.width + 119 := by
    intro k hk
    have := padded (w := s.width) hsm.maxH hk
    have := hsm.w
    rw [w32_id (n := _ * k) (by omega), w32_id (by omega)]
    exact ⟨rfl, by omega⟩
  refine get_same fun c1 hc1 => get_same fun c2 hc2 => ?_
  refine bind_congr fun hCb => bind_congr fun vCb => bind_congr fun hCr => bind_congr fun vCr => ?_
  refine bind_congr fun d0 => bind_congr fun d1 => bind_congr fun d2 => ?_
  simp only
  rw [ok_bind]
  have r0 := row s.maxH (Nat.le_refl _)
  have r1 := row c1.h (hs.comps c1 hc1).h.2
  have r2 := row c2.h (hs.comps c2 hc2).h.2
  rw [r0.1, r1.1, r2.1]
  refine congrArg (· >>= _) (mapM_same _ fun y hy => ?_)
  have hy := List.mem_range.1 hy
  refine div_same (div_same ?_)
  refine congrArg (· >>= _) (mapM_same _ fun x hx => ?_)
  have hx := List.mem_range.1 hx
  refine div_same (div_same ?_)
  have hdiv : ∀ a b : Nat, a / b ≤ a := fun a b => Nat.div_le_self a b
  have hwh : s.width * s.height < 2 ^ 31 := by omega
  rw [w32_index (index_lt hsm.h hwh r0.2 (by omega) hy),
    w32_index (index_lt hsm.h hwh r1.2 (by have := hdiv x hCb; omega) (by have := hdiv y vCb; omega)),
    w32_index (index_lt hsm.h hwh r2.2 (by have := hdiv x hCr; omega) (by have := hdiv y vCr; omega))]

theorem rgb_panic {data : List (List UInt8)} {w h : Nat} {cs : List Component} {mh mv : Nat} (hw : 2 ^ 31 ≤ w * h * 3) :
    rgbPixels32 data w h cs mh mv = .error .panic := by
  unfold rgbPixels32
  refine alloc_then (get_then fun c1 => get_then fun c2 => div_then fun _ => div_then fun _ => div_then fun _ => div_then fun _ => ?_)
  exact get_then fun d0 => get_then fun d1 => get_then fun d2 => alloc_panic hw _

/-! ### The scan -/

/-- The bytes of the image. -/
def bytesOf (s : State) : Nat := if s.components.length = 1 then s.width * s.height else s.width * s.height * 3

theorem scan_same {s : State} (hs : s.Good) (hsm : Small s) (rest : List UInt8)
    (hp : ∀ c ∈ s.components, plane (divCeil s.width (s.maxH * 8)) (divCeil s.height (s.maxV * 8)) c < 2 ^ 30) (hb : bytesOf s < 2 ^ 31) :
    decodeScan32 s rest = decodeScan false s rest := by
  unfold decodeScan32 decodeScan
  simp only
  rw [planes_same s.components fun c hc => ⟨?_, hp c hc⟩, ok_bind, mcuLoop_same hs hp _ _ _ mcus_inside]
  · unfold bytesOf at hb
    refine bind_congr fun st => ?_
    split
    · rename_i h1
      rw [if_pos h1] at hb
      refine get_same fun c hc => bind_congr fun d => ?_
      have h2 := padded (w := s.width) hsm.maxH (hs.comps c hc).h.2
      have := hsm.w
      rw [w32_id (n := _ * c.h) (by omega), w32_id (by omega), gray_same hsm.h hb h2]
      rfl
    · rename_i h1
      rw [if_neg h1] at hb
      rw [rgb_same hs hsm hb]
  · have h1 := padded (w := s.width) hsm.maxH (hs.comps c hc).h.2
    have h2 := padded (w := s.height) hsm.maxV (hs.comps c hc).v.2
    have := hsm.w
    have := hsm.h
    rw [plane32_eq (by omega) (by omega), w32_id (by have := hp c hc; omega)]

theorem scan_panic {s : State} (hs : s.Good) (rest : List UInt8) (hb : 2 ^ 31 ≤ bytesOf s) : decodeScan32 s rest = .error .panic := by
  unfold decodeScan32
  simp only
  rcases planes_cases (divCeil s.width (s.maxH * 8)) (divCeil s.height (s.maxV * 8)) s.components with h | ⟨d, h, hl⟩
  · exact err_bind h _
  · rw [h, ok_bind]
    have hok := mcuLoop32_ok hs (divCeil s.width (s.maxH * 8))
      ((List.range (divCeil s.height (s.maxV * 8))).flatMap (fun my => (List.range (divCeil s.width (s.maxH * 8))).map (fun mx => (mx, my)))) 0
      (st := ⟨⟨rest.take (entropyEnd rest), 0, 0, 0⟩, s.components.map (fun _ => 0), d⟩) ⟨Nat.zero_le _, by simp, hl⟩
    cases hm : mcuLoop32 s (divCeil s.width (s.maxH * 8))
      ((List.range (divCeil s.height (s.maxV * 8))).flatMap (fun my => (List.range (divCeil s.width (s.maxH * 8))).map (fun mx => (mx, my)))) 0
      ⟨⟨rest.take (entropyEnd rest), 0, 0, 0⟩, s.components.map (fun _ => 0), d⟩ with
    | error e =>
      rw [hm] at hok
      exact absurd hok (by simp [Oks])
    | ok st =>
      rw [ok_bind]
      unfold bytesOf at hb
      split
      · rename_i h1
        rw [if_pos h1] at hb
        refine get_then fun c => get_then fun d => ?_
        exact err_bind (gray_panic hb) _
      · rename_i h1
        rw [if_neg h1] at hb
        exact err_bind (rgb_panic hb) _

theorem scan_plane {s : State} (hs : s.Good) (hsm : Small s) (rest : List UInt8) (hb : bytesOf s < 2 ^ 31) {c : Component} (hc : c ∈ s.components)
    (hp : 2 ^ 30 ≤ plane (divCeil s.width (s.maxH * 8)) (divCeil s.height (s.maxV * 8)) c) : decodeScan32 s rest = .error .panic := by
  unfold decodeScan32
  simp only
  refine err_bind (planes_panic _ ⟨c, hc, ?_⟩) _
  have h1 := padded (w := s.width) hsm.maxH (hs.comps c hc).h.2
  have h2 := padded (w := s.height) hsm.maxV (hs.comps c hc).v.2
  have h3 := plane_le hsm (hs.comps c hc)
  have hw := hsm.w
  have hh := hsm.h
  have h4 : s.width * s.height < 2 ^ 31 := by
    unfold bytesOf at hb
    split at hb <;> omega
  have h5 : (s.width + 119) * (s.height + 119) = s.width * s.height + 119 * s.width + 119 * s.height + 119 * 119 := by
    rw [Nat.add_mul, Nat.mul_add, Nat.mul_add, Nat.mul_comm s.width 119]
    omega
  rw [plane32_eq (by omega) (by omega), w32_id (by omega)]
  exact hp

/-- What the decoder with 32 bits gives, by what the other gives. -/
structure Rel (x y : R Image) : Prop where
  cases : x = y ∨ (x = .error .panic ∧ ∃ i, y = .ok i ∧ (2 ^ 31 ≤ i.pixels.length ∨ 2 ^ 30 ≤ (i.width + 119) * (i.height + 119)))
  big : ∀ i, y = .ok i → 2 ^ 31 ≤ i.pixels.length → x = .error .panic

theorem Rel.error (e : Err) : Rel (.error e) (.error e) := ⟨Or.inl rfl, fun _ h => by cases h⟩

theorem Rel.bind {α : Type} {x : R α} {f g : α → R Image} (h : ∀ a, x = .ok a → Rel (f a) (g a)) : Rel (x >>= f) (x >>= g) := by
  cases hx : x with
  | error e => exact Rel.error e
  | ok a => exact h a hx

theorem scan_rel {s : State} (hs : s.Good) (hsm : Small s) (rest : List UInt8) : Rel (decodeScan32 s rest) (decodeScan false s rest) := by
  by_cases h0 : s.components = []
  · have he := decodeScan_empty hs h0 rest
    rw [he]
    refine ⟨Or.inl ?_, fun i h => by cases h⟩
    by_cases hb : bytesOf s < 2 ^ 31
    · rw [scan_same hs hsm rest (by rw [h0]; simp) hb, he]
    · exact scan_panic hs rest (by omega)
  · have hok := decodeScan_ok hs h0 rest
    unfold Oks at hok
    obtain ⟨i, hi, hsz, h1, h2, h3⟩ := hok
    have hlen : i.pixels.length = bytesOf s := by
      unfold bytesOf
      rcases hsz with ⟨hc, hl⟩ | ⟨hc, hl⟩
      · rw [if_pos (h3.1 hc), hl, h1, h2]
      · rw [if_neg (fun h => by rw [h3.2 h] at hc; cases hc), hl, h1, h2]
    constructor
    · by_cases hb : bytesOf s < 2 ^ 31
      · by_cases hp : ∀ c ∈ s.components, plane (divCeil s.width (s.maxH * 8)) (divCeil s.height (s.maxV * 8)) c < 2 ^ 30
        · exact Or.inl (scan_same hs hsm rest hp hb)
        · have : ∃ c ∈ s.components, 2 ^ 30 ≤ plane (divCeil s.width (s.maxH * 8)) (divCeil s.height (s.maxV * 8)) c := by
            refine Classical.byContradiction fun hn => hp fun c hc => ?_
            rcases Nat.lt_or_ge (plane (divCeil s.width (s.maxH * 8)) (divCeil s.height (s.maxV * 8)) c) (2 ^ 30) with h | h
            · exact h
            · exact absurd ⟨c, hc, h⟩ hn
          obtain ⟨c, hc, hp⟩ := this
          refine Or.inr ⟨scan_plane hs hsm rest hb hc hp, i, hi, Or.inr ?_⟩
          rw [h1, h2]
          exact Nat.le_trans hp (plane_le hsm (hs.comps c hc))
      · exact Or.inr ⟨scan_panic hs rest (by omega), i, hi, Or.inl (by omega)⟩
    · intro i' hi' hbig
      rw [hi] at hi'
      cases hi'
      exact scan_panic hs rest (by omega)

theorem marker_rel : ∀ (fuel : Nat) (s : State) (d : List UInt8), s.Good → Small s → Rel (markerLoop32 fuel s d) (markerLoop false fuel s d)
  | 0, _, _, _, _ => Rel.error _
  | fuel + 1, s, d, hs, hsm => by
    rw [markerLoop32, markerLoop]
    refine Rel.bind ?_
    rintro ⟨m, seg, rest⟩ -
    simp only
    split
    · exact Rel.bind fun s' h => marker_rel fuel s' rest ((parseSof0_safe seg s hs).of_ok h).1 (parseSof0_small hsm h)
    split
    · exact Rel.error _
    split
    · exact Rel.bind fun s' h => marker_rel fuel s' rest ((parseDht_safe _ seg s hs (Nat.le_refl _)).of_ok h).1 (parseDht_small _ _ _ _ hsm h)
    split
    · exact Rel.bind fun s' h => marker_rel fuel s' rest ((parseDqt_safe _ seg s hs (Nat.le_refl _)).of_ok h).1 (parseDqt_small _ _ _ _ hsm h)
    split
    · exact Rel.bind fun s' h => marker_rel fuel s' rest ((parseDri_safe seg s hs).of_ok h).1 (parseDri_small hsm h)
    split
    · exact Rel.bind fun s' h => scan_rel ((parseSos_safe seg s hs).of_ok h).1 (parseSos_small hsm h) rest
    split
    · exact Rel.error _
    · exact marker_rel fuel s rest hs hsm

theorem decode_rel (data : List UInt8) : Rel (decodeJpeg32 data) (decodeJpeg false data) := by
  unfold decodeJpeg32 decodeJpeg
  split
  · simp only
    exact marker_rel _ _ _ start_good ⟨by decide, by decide, by decide, by decide⟩
  · rename_i hn
    split
    · exact absurd rfl (hn _)
    · exact Rel.error _

/-! ## C112 -/

/-- C112: no file is decoded to another image with 32 bits: what is decoded is what is decoded with 64 bits. -/
theorem C112_never_wrong (data : List UInt8) (i : Image) (h : decodeJpeg32 data = .ok i) : decodeJpeg false data = .ok i := by
  rcases (decode_rel data).cases with e | ⟨e, -⟩
  · rw [← e, h]
  · rw [e] at h
    cases h

/-- C112: the result is the same for every file, unless it is an image of at least `2^31` bytes, or of at least `2^30` pixels with up to 119 more
in each row and column (the sampling factors can be 15), for which it may be a panic. -/
theorem C112_same (data : List UInt8) :
    decodeJpeg32 data = decodeJpeg false data ∨ (decodeJpeg32 data = .error .panic ∧
      ∃ i, decodeJpeg false data = .ok i ∧ (2 ^ 31 ≤ i.pixels.length ∨ 2 ^ 30 ≤ (i.width + 119) * (i.height + 119))) :=
  (decode_rel data).cases

/-- C112 fails: every file of an image of `2^31` bytes or more is decoded with 64 bits, and a panic with 32. -/
theorem C112_panic (data : List UInt8) (i : Image) (h : decodeJpeg false data = .ok i) (hb : 2 ^ 31 ≤ i.pixels.length) :
    decodeJpeg32 data = .error .panic := (decode_rel data).big i h hb

/-- C112, violated: 22 bytes are enough. -/
theorem C112_violation : ∃ data : List UInt8, data.length = 22 ∧ (∃ i, decodeJpeg false data = .ok i) ∧ decodeJpeg32 data = .error .panic := by
  obtain ⟨data, i, h1, h2, -, -, h5, -⟩ := C95_violation
  refine ⟨data, h1, ⟨i, h2⟩, C112_panic data i h2 ?_⟩
  rw [h5, List.length_replicate]
  omega

/-- Some image that is decoded with 32 bits: the first alternative of `C112_same`. -/
example : ∃ i, decodeJpeg32 (category26.set 36 2) = .ok i ∧ decodeJpeg false (category26.set 36 2) = .ok i ∧ 0 < i.pixels.length := by
  have : ((decodeJpeg32 (category26.set 36 2)).toOption.map (fun i => decide (0 < i.pixels.length))) = some true := by decide +kernel
  cases h : decodeJpeg32 (category26.set 36 2) with
  | error e =>
    rw [h] at this
    cases this
  | ok i =>
    rw [h] at this
    exact ⟨i, rfl, C112_never_wrong _ i h, of_decide_eq_true (Option.some.inj this)⟩

end Pixo.Props.JpegDecode32
