import Verif.Proof.PngDecode
import Verif.Proof.InflateSound
import Verif.Spec.PngLenient
/-
`decode_png` reads exactly the lenient files.
-/
namespace Pixo.PngDecode
open Spec Spec.Png
open Pixo.Filter (getD_eq getChecked_getD)
open Pixo.MatchLength (slice)

/-! ### Scanlines -/

/-- Every line is the filtered form of some line. -/
theorem exists_raw {bpp : Nat} (hb : 0 < bpp) (prev filt : List UInt8) (ft : UInt8) (hft : ft.toNat ≤ 4) :
    ∃ raw, Filtered bpp prev raw ft filt := by
  have : ∀ n, n ≤ filt.length → ∃ raw : List UInt8, raw.length = n ∧ ∀ i, i < n →
      byteAt raw i = (byteAt filt i
        + predict ft.toNat (leftAt raw bpp i) (byteAt prev i) (leftAt prev bpp i)) % 256 := by
    intro n
    induction n with
    | zero => intro _; exact ⟨[], rfl, fun i hi => absurd hi (by omega)⟩
    | succ n ih =>
      intro hn
      obtain ⟨raw, hl, hr⟩ := ih (by omega)
      have old : ∀ v i, i < n → byteAt (raw ++ [v]) i = byteAt raw i := by
        intro v i hi
        unfold byteAt
        rw [getD_eq _ _ (by simp; omega), getD_eq _ _ (by omega), List.getElem_append_left (by omega)]
      have left : ∀ v i, i ≤ n → leftAt (raw ++ [v]) bpp i = leftAt raw bpp i := by
        intro v i hi
        unfold leftAt
        split
        · rfl
        · exact old v _ (by omega)
      refine ⟨raw ++ [UInt8.ofNat (byteAt filt n
        + predict ft.toNat (leftAt raw bpp n) (byteAt prev n) (leftAt prev bpp n))], by simp [hl], ?_⟩
      intro i hi
      rw [left _ _ (by omega)]
      by_cases c : i < n
      · rw [old _ _ c]; exact hr i c
      · have : i = n := by omega
        subst this
        unfold byteAt
        rw [getD_eq _ _ (by simp; omega), List.getElem_append_right (by omega)]
        simp only [List.getElem_singleton, UInt8.toNat_ofNat']
  obtain ⟨raw, hl, hr⟩ := this filt.length (Nat.le_refl _)
  exact ⟨raw, hft, hl.symm, fun i hi => hr i (by omega)⟩

theorem unfilterRow_sound {bpp : Nat} (hb : 0 < bpp) (ft : UInt8) {row prev : List UInt8} (hp : row.length ≤ prev.length) :
    Safe (unfilterRow ft row prev bpp) (fun r => Filtered bpp prev r ft row) := by
  by_cases h : ft.toNat ≤ 4
  · obtain ⟨raw, hr⟩ := exists_raw hb prev row ft h
    rw [unfilterRow_ok hr hb (by rw [← hr.2.1]; exact hp)]
    exact Safe.ok hr
  · unfold unfilterRow
    rw [if_neg (by rintro rfl; simp at h), if_neg (by rintro rfl; simp at h), if_neg (by rintro rfl; simp at h),
      if_neg (by rintro rfl; simp at h), if_neg (by rintro rfl; simp at h)]
    exact Safe.invalid

theorem rowLoop_sound {data : List UInt8} {bpp sb : Nat} (hb : 0 < bpp) : ∀ (n y : Nat) (prev : List UInt8),
    (y + n) * (1 + sb) = data.length → prev.length = sb →
    Safe (rowLoop data bpp sb y n prev) (fun r => ∃ rows, rows.length = n ∧
      Scanlines bpp sb prev rows (data.drop (y * (1 + sb))) ∧ r = rows.flatten)
  | 0, y, prev, hd, _ => by
    refine Safe.ok ⟨[], rfl, ?_, rfl⟩
    rw [List.drop_eq_nil_of_le (by rw [← hd]; simp)]
    exact .nil _
  | n + 1, y, prev, hd, hp => by
    have h1 : (y + 1 + n) * (1 + sb) = data.length := by rw [show y + 1 + n = y + (n + 1) by omega]; exact hd
    have h2 : y * (1 + sb) + (1 + sb) ≤ data.length := by
      have := Nat.mul_le_mul_right (1 + sb) (show y + 1 ≤ y + 1 + n by omega)
      rw [Nat.succ_mul] at this; omega
    rw [rowLoop, getChecked_getD (by omega), ok_bind]
    obtain ⟨e, hl⟩ := slice_safe (l := data) (a := y * (1 + sb) + 1) (n := sb) (by omega)
    rw [e, ok_bind]
    refine Safe.bind (unfilterRow_sound hb _ (by omega)) ?_
    intro row hr
    have hrl : row.length = sb := by rw [← hr.2.1, hl]
    refine Safe.bind (rowLoop_sound hb n (y + 1) row h1 hrl) ?_
    rintro rest ⟨rows, r1, r2, r3⟩
    refine Safe.pure ⟨row :: rows, by simp [r1], ?_, by rw [r3]; rfl⟩
    have := Scanlines.cons hrl hr r2
    have hdrop : data.drop (y * (1 + sb)) = data.getD (y * (1 + sb)) 0 ::
        (data.drop (y * (1 + sb) + 1)).take sb ++ data.drop ((y + 1) * (1 + sb)) := by
      rw [List.drop_eq_getElem_cons (by omega), getD_eq _ _ (by omega), List.cons_append]
      congr 1
      rw [show (y + 1) * (1 + sb) = y * (1 + sb) + 1 + sb by rw [Nat.succ_mul]; omega,
        ← List.drop_drop (i := sb) (j := y * (1 + sb) + 1), List.take_append_drop]
    rw [hdrop]
    exact this

/-! ### Chunks -/

theorem be32_of_bytes (a b c d : UInt8) :
    be32 (((a.toNat * 256 + b.toNat) * 256 + c.toNat) * 256 + d.toNat) = [a, b, c, d] := by
  have ha := a.toNat_lt
  have hb := b.toNat_lt
  have hc := c.toNat_lt
  have hd := d.toNat_lt
  unfold be32
  have f : ∀ (x : UInt8) (n : Nat), n % 256 = x.toNat → UInt8.ofNat n = x := by
    intro x n h
    apply UInt8.toNat_inj.1
    rw [UInt8.toNat_ofNat']
    exact h
  rw [f a _ (by omega), f b _ (by omega), f c _ (by omega), f d _ (by omega)]

theorem be32_inj {m n : Nat} (hm : m < 2 ^ 32) (hn : n < 2 ^ 32) (h : be32 m = be32 n) : m = n := by
  unfold be32 at h
  simp only [List.cons.injEq, and_true] at h
  obtain ⟨h1, h2, h3, h4⟩ := h
  have g : ∀ {x y : Nat}, UInt8.ofNat x = UInt8.ofNat y → x % 256 = y % 256 := by
    intro x y h
    have := congrArg UInt8.toNat h
    rw [UInt8.toNat_ofNat', UInt8.toNat_ofNat'] at this
    exact this
  have g1 := g h1
  have g2 := g h2
  have g3 := g h3
  have g4 := g h4
  omega

theorem readBe32_sound {data : List UInt8} {pos : Nat} (h : pos + 4 ≤ data.length) :
    ∃ n, readBe32 data pos = .ok n ∧ n < 2 ^ 32 ∧ data.drop pos = be32 n ++ data.drop (pos + 4) := by
  unfold readBe32
  rw [getChecked_getD (by omega), ok_bind, getChecked_getD (by omega), ok_bind, getChecked_getD (by omega), ok_bind,
    getChecked_getD (by omega), ok_bind]
  refine ⟨_, rfl, ?_, ?_⟩
  · have h0 := (data.getD pos 0).toNat_lt
    have h1 := (data.getD (pos + 1) 0).toNat_lt
    have h2 := (data.getD (pos + 2) 0).toNat_lt
    have h3 := (data.getD (pos + 3) 0).toNat_lt
    omega
  · rw [be32_of_bytes, getD_eq _ _ (by omega), getD_eq _ _ (by omega), getD_eq _ _ (by omega), getD_eq _ _ (by omega),
      List.drop_eq_getElem_cons (by omega), List.drop_eq_getElem_cons (by omega), List.drop_eq_getElem_cons (by omega),
      List.drop_eq_getElem_cons (by omega)]
    rfl

/-- The chunks one after the other. -/
def addAll (st : Chunks) (cs : List Chunk) : R Chunks := cs.foldlM (fun st c => st.add c.ty c.data) st

theorem chunkLoop_sound {data : List UInt8} : ∀ (fuel pos : Nat) (st st' : Chunks), pos ≤ data.length →
    chunkLoop data fuel pos st = .ok st' →
    ∃ cs fin tail, data.drop pos = stream (cs ++ [⟨IEND, fin⟩]) ++ tail ∧
      (∀ c ∈ cs, c.ty.length = 4 ∧ c.ty ≠ IEND) ∧ (∀ c ∈ cs, c.data.length < 2 ^ 32) ∧ fin.length < 2 ^ 32 ∧
      addAll st cs = .ok st'
  | 0, _, _, _, _, h => by rw [chunkLoop] at h; cases h
  | fuel + 1, pos, st, st', hpos, h => by
    rw [chunkLoop] at h
    split at h
    · rename_i hp
      obtain ⟨len, el, hlen, dl⟩ := readBe32_sound (data := data) (pos := pos) (by omega)
      obtain ⟨et, htl⟩ := slice_safe (l := data) (a := pos + 4) (n := 4) (by omega)
      rw [el, ok_bind, et, ok_bind] at h
      simp only at h
      split at h
      · cases h
      · rename_i hl
        obtain ⟨crc, ec, hcrc, dc⟩ := readBe32_sound (data := data) (pos := pos + 8 + len) (by omega)
        obtain ⟨ed, hdl⟩ := slice_safe (l := data) (a := pos + 8) (n := len) (by omega)
        rw [ed, ok_bind, ec, ok_bind, Crc.crc32_spec] at h
        generalize hty : (data.drop (pos + 4)).take 4 = ty at h htl
        generalize hdd : (data.drop (pos + 8)).take len = d at h hdl
        by_cases hs : crc = (Spec.crc32 (ty ++ d)).toNat
        · rw [if_neg (by simp [hs])] at h
          have hb : data.drop pos = (⟨ty, d⟩ : Chunk).bytes ++ data.drop (pos + 12 + len) := by
            unfold Chunk.bytes
            rw [dl, ← List.take_append_drop 4 (data.drop (pos + 4)), hty, List.drop_drop,
              ← List.take_append_drop len (data.drop (pos + 4 + 4)), List.drop_drop,
              show pos + 4 + 4 = pos + 8 by omega, hdd, dc, hs, hdl]
            simp only [List.append_assoc]
            rw [show pos + 8 + len + 4 = pos + 12 + len by omega]
          split at h
          · rename_i hend
            cases h
            refine ⟨[], d, data.drop (pos + 12 + len), ?_, by simp, by simp, by omega, rfl⟩
            rw [hb]
            simp only [stream, List.nil_append, List.flatMap_cons, List.flatMap_nil, List.append_nil]
            rw [show ty = IEND from hend]
          · rename_i hend
            cases ha : st.add ty d with
            | error e => rw [ha] at h; cases h
            | ok st1 =>
              rw [ha, ok_bind] at h
              obtain ⟨cs, fin, tail, h1, h2, h3, h4, h5⟩ := chunkLoop_sound fuel _ st1 st' (by omega) h
              refine ⟨⟨ty, d⟩ :: cs, fin, tail, ?_, ?_, ?_, h4, ?_⟩
              · rw [hb, show pos + 12 + len = pos + 8 + len + 4 by omega, h1]
                simp [stream]
              · intro c hc
                rcases List.mem_cons.1 hc with rfl | hc
                · exact ⟨htl, hend⟩
                · exact h2 c hc
              · intro c hc
                rcases List.mem_cons.1 hc with rfl | hc
                · show d.length < _; omega
                · exact h3 c hc
              · unfold addAll at h5 ⊢
                rw [List.foldlM_cons]
                show (st.add ty d >>= _) = _
                rw [ha, ok_bind]
                exact h5
        · rw [if_pos hs] at h; cases h
    · cases h

theorem chunkLoop_complete {data fin tail : List UInt8} (hfin : fin.length < 2 ^ 32) :
    ∀ (cs : List Chunk) (pos fuel : Nat) (st : Chunks),
    (∀ c ∈ cs, c.ty.length = 4 ∧ c.ty ≠ IEND) → (∀ c ∈ cs, c.data.length < 2 ^ 32) →
    data.drop pos = stream (cs ++ [⟨IEND, fin⟩]) ++ tail → data.length < fuel + pos →
    chunkLoop data fuel pos st = addAll st cs
  | [], pos, fuel, st, _, _, h, hf => by
    have h' : data.drop pos = (⟨IEND, fin⟩ : Chunk).bytes ++ tail := by rw [h]; simp [stream]
    obtain ⟨fuel, rfl⟩ : ∃ f, fuel = f + 1 := by
      have := congrArg List.length h'
      rw [List.length_drop, List.length_append, chunk_length' rfl] at this
      exact ⟨fuel - 1, by omega⟩
    rw [chunkLoop_step' rfl hfin h', if_pos (show IEND = tyIEND by decide)]
    rfl
  | c :: cs, pos, fuel, st, ht, hs, h, hf => by
    obtain ⟨t4, n2⟩ := ht c List.mem_cons_self
    have h' : data.drop pos = c.bytes ++ (stream (cs ++ [⟨IEND, fin⟩]) ++ tail) := by
      rw [h]; simp [stream]
    have hl : data.length - pos = 12 + c.data.length + (stream (cs ++ [⟨IEND, fin⟩]) ++ tail).length := by
      have := congrArg List.length h'
      rw [List.length_drop, List.length_append, chunk_length' t4] at this
      exact this
    obtain ⟨fuel, rfl⟩ : ∃ f, fuel = f + 1 := ⟨fuel - 1, by omega⟩
    rw [chunkLoop_step' t4 (hs c List.mem_cons_self) h', if_neg (show c.ty ≠ tyIEND from n2)]
    unfold addAll
    rw [List.foldlM_cons]
    congr 1
    funext st1
    refine chunkLoop_complete hfin (tail := tail) cs _ fuel _ (fun d hd => ht d (List.mem_cons_of_mem _ hd))
      (fun d hd => hs d (List.mem_cons_of_mem _ hd)) ?_ ?_
    · rw [← List.drop_drop, h', List.drop_left' rfl]
    · rw [chunk_length' t4]; omega

/-! ### What the chunks leave behind -/

/-- Effect of any chunk that is accepted. -/
def addAny (st : Chunks) (c : Chunk) : Chunks :=
  if c.ty = IHDR then { st with ihdr := (parseIhdr c.data).toOption } else addSpec st c

/-- The chunks that are accepted. -/
def Passes (c : Chunk) : Prop :=
  (c.ty = IHDR → ∃ ih, parseIhdr c.data = .ok ih) ∧ (c.ty = PLTE → c.data.length % 3 = 0)

theorem add_iff (st st' : Chunks) (c : Chunk) : st.add c.ty c.data = .ok st' ↔ Passes c ∧ st' = addAny st c := by
  unfold Passes addAny
  by_cases c1 : c.ty = IHDR
  · rw [if_pos c1]
    unfold Chunks.add
    rw [if_pos (show c.ty = tyIHDR from c1)]
    cases hp : parseIhdr c.data with
    | error e =>
      constructor
      · intro h; cases h
      · rintro ⟨⟨h, -⟩, -⟩
        obtain ⟨ih, h⟩ := h c1
        cases h
    | ok ih =>
      rw [ok_bind]
      constructor
      · intro h
        refine ⟨⟨fun _ => ⟨ih, rfl⟩, fun h => absurd (c1.symm.trans h) (by decide)⟩, ?_⟩
        cases h; rfl
      · rintro ⟨-, rfl⟩; rfl
  · rw [if_neg c1]
    by_cases hp : c.ty = PLTE → c.data.length % 3 = 0
    · rw [add_spec c1 hp]
      constructor
      · intro h; cases h; exact ⟨⟨fun h => absurd h c1, hp⟩, rfl⟩
      · rintro ⟨-, rfl⟩; rfl
    · constructor
      · intro h
        exfalso
        unfold Chunks.add parsePalette at h
        have hp1 : c.ty = PLTE := Classical.byContradiction fun hn => hp fun h => absurd h hn
        have hp2 : c.data.length % 3 ≠ 0 := fun hn => hp fun _ => hn
        rw [if_neg (show ¬ c.ty = tyIHDR from c1), if_pos (show c.ty = tyPLTE from hp1), if_pos hp2] at h
        cases h
      · rintro ⟨⟨-, h⟩, -⟩; exact absurd h hp

theorem addAll_iff : ∀ (cs : List Chunk) (st st' : Chunks),
    addAll st cs = .ok st' ↔ (∀ c ∈ cs, Passes c) ∧ st' = cs.foldl addAny st
  | [], st, st' => by
    constructor
    · intro h; cases h; exact ⟨by simp, rfl⟩
    · rintro ⟨-, rfl⟩; rfl
  | c :: cs, st, st' => by
    unfold addAll
    rw [List.foldlM_cons]
    cases ha : st.add c.ty c.data with
    | error e =>
      constructor
      · intro h; cases h
      · rintro ⟨h, -⟩
        have := (add_iff st _ c).2 ⟨h c List.mem_cons_self, rfl⟩
        rw [ha] at this; cases this
    | ok st1 =>
      obtain ⟨p, rfl⟩ := (add_iff _ _ _).1 ha
      rw [ok_bind]
      have := addAll_iff cs (addAny st c) st'
      unfold addAll at this
      rw [this]
      simp only [List.mem_cons, forall_eq_or_imp, List.foldl_cons, p, true_and]

theorem dataOf_cons (ty : List UInt8) (c : Chunk) (cs : List Chunk) :
    dataOf ty (c :: cs) = if c.ty = ty then c.data :: dataOf ty cs else dataOf ty cs := by
  unfold dataOf; rw [List.filter_cons]; split <;> simp_all

/-- A field that every chunk of one type sets, and no other: the last one counts. -/
theorem last_field {α : Type} (get : Chunks → α) (ty : List UInt8) (f : List UInt8 → α)
    (h1 : ∀ st c, c.ty = ty → get (addAny st c) = f c.data) (h2 : ∀ st c, c.ty ≠ ty → get (addAny st c) = get st) :
    ∀ (cs : List Chunk) (st : Chunks), get (cs.foldl addAny st) = match (dataOf ty cs).getLast? with
      | some d => f d
      | none => get st
  | [], st => rfl
  | c :: cs, st => by
    rw [List.foldl_cons, last_field get ty f h1 h2 cs (addAny st c), dataOf_cons]
    by_cases hc : c.ty = ty
    · rw [if_pos hc, h1 _ _ hc]
      cases hh : dataOf ty cs with
      | nil => rfl
      | cons a l => rw [List.getLast?_cons_cons]; cases hg : (a :: l).getLast? <;> simp at hg ⊢
    · rw [if_neg hc, h2 _ _ hc]

theorem addAny_idat : ∀ (cs : List Chunk) (st : Chunks),
    (cs.foldl addAny st).idat = st.idat ++ (dataOf IDAT cs).flatten
  | [], st => by simp [dataOf]
  | c :: cs, st => by
    rw [List.foldl_cons, addAny_idat cs, dataOf_cons]
    unfold addAny addSpec
    by_cases c0 : c.ty = IHDR
    · rw [if_pos c0, if_neg (by rw [c0]; decide)]
    rw [if_neg c0]
    by_cases c1 : c.ty = PLTE
    · rw [if_pos c1, if_neg (by rw [c1]; decide)]
    rw [if_neg c1]
    by_cases c2 : c.ty = tRNS
    · rw [if_pos c2, if_neg (by rw [c2]; decide)]
    rw [if_neg c2]
    by_cases c3 : c.ty = IDAT
    · rw [if_pos c3, if_pos c3]; simp
    · rw [if_neg c3, if_neg c3]

theorem addAny_rest (cs : List Chunk) :
    let st := cs.foldl addAny ⟨none, [], none, none⟩
    st.ihdr = (dataOf IHDR cs).getLast?.bind (fun d => (parseIhdr d).toOption) ∧
    st.palette = (dataOf PLTE cs).getLast?.map paletteOf ∧ st.trns = (dataOf tRNS cs).getLast? := by
  refine ⟨?_, ?_, ?_⟩
  · have := last_field Chunks.ihdr IHDR (fun d => (parseIhdr d).toOption)
      (fun st c hc => by unfold addAny; rw [if_pos hc])
      (fun st c hc => by
        unfold addAny addSpec
        rw [if_neg hc]; split <;> (try rfl); split <;> (try rfl); split <;> rfl) cs ⟨none, [], none, none⟩
    rw [this]
    cases (dataOf IHDR cs).getLast? <;> rfl
  · have := last_field Chunks.palette PLTE (fun d => some (paletteOf d))
      (fun st c hc => by unfold addAny addSpec; rw [if_neg (by rw [hc]; decide), if_pos hc])
      (fun st c hc => by
        unfold addAny addSpec
        rw [if_neg hc]; split <;> (try rfl); split <;> (try rfl); split <;> rfl) cs ⟨none, [], none, none⟩
    rw [this]
    cases (dataOf PLTE cs).getLast? <;> rfl
  · have := last_field Chunks.trns tRNS some
      (fun st c hc => by
        unfold addAny addSpec; rw [if_neg (by rw [hc]; decide), if_neg (by rw [hc]; decide), if_pos hc])
      (fun st c hc => by
        unfold addAny addSpec
        rw [if_neg hc]; split <;> (try rfl); split <;> (try rfl); split <;> rfl) cs ⟨none, [], none, none⟩
    rw [this]
    cases (dataOf tRNS cs).getLast? <;> rfl

/-! ### IHDR -/

theorem kind_iff (v : UInt8) : (∃ k, Kind.ofU8 v = .ok k) ↔ v.toNat ∈ [0, 2, 3, 4, 6] := by
  have : ∀ n : Fin 256, (∃ k, Kind.ofU8 (UInt8.ofNat n.val) = .ok k) ↔ n.val ∈ [0, 2, 3, 4, 6] := by
    intro n
    have d : (match Kind.ofU8 (UInt8.ofNat n.val) with | .ok _ => true | .error _ => false) = decide (n.val ∈ [0, 2, 3, 4, 6]) := by
      revert n; decide +kernel
    cases hk : Kind.ofU8 (UInt8.ofNat n.val) with
    | ok k => rw [hk] at d; simpa using d
    | error e => rw [hk] at d; simpa using d
  have h := this ⟨v.toNat, v.toNat_lt⟩
  simpa using h

theorem length13 {d : List UInt8} (h : d.length = 13) :
    ∃ a0 a1 a2 a3 a4 a5 a6 a7 a8 a9 a10 a11 a12, d = [a0, a1, a2, a3, a4, a5, a6, a7, a8, a9, a10, a11, a12] := by
  match d, h with
  | [a0, a1, a2, a3, a4, a5, a6, a7, a8, a9, a10, a11, a12], _ => exact ⟨_, _, _, _, _, _, _, _, _, _, _, _, _, rfl⟩

theorem parseIhdr_13 (a0 a1 a2 a3 a4 a5 a6 a7 a8 a9 a10 a11 a12 : UInt8) :
    parseIhdr [a0, a1, a2, a3, a4, a5, a6, a7, a8, a9, a10, a11, a12] = (Kind.ofU8 a9 >>= fun k =>
      .ok ⟨((a0.toNat * 256 + a1.toNat) * 256 + a2.toNat) * 256 + a3.toNat,
        ((a4.toNat * 256 + a5.toNat) * 256 + a6.toNat) * 256 + a7.toNat, a8.toNat, k, a10, a11, a12⟩) := rfl

theorem parseIhdr_iff (d : List UInt8) :
    (∃ ih, parseIhdr d = .ok ih) ↔ d.length = 13 ∧ byteAt d 9 ∈ [0, 2, 3, 4, 6] := by
  by_cases hl : d.length = 13
  · obtain ⟨a0, a1, a2, a3, a4, a5, a6, a7, a8, a9, a10, a11, a12, rfl⟩ := length13 hl
    rw [parseIhdr_13]
    have e : byteAt [a0, a1, a2, a3, a4, a5, a6, a7, a8, a9, a10, a11, a12] 9 = a9.toNat := rfl
    rw [e, ← kind_iff]
    cases hk : Kind.ofU8 a9 with
    | error e =>
      constructor
      · rintro ⟨ih, h⟩; cases h
      · rintro ⟨-, k, h⟩; cases h
    | ok k => exact ⟨fun _ => ⟨rfl, k, rfl⟩, fun _ => ⟨_, rfl⟩⟩
  · constructor
    · rintro ⟨ih, h⟩
      unfold parseIhdr at h
      rw [if_pos hl] at h; cases h
    · rintro ⟨h, -⟩; exact absurd h hl

theorem kind_colour {v : UInt8} {k : Kind} (h : Kind.ofU8 v = .ok k) (w ht d : Nat) (c f i : UInt8) :
    (headerOf ⟨w, ht, d, k, c, f, i⟩).colour = v.toNat := by
  unfold Kind.ofU8 at h
  split at h
  · cases h; rename_i e; rw [e]; rfl
  split at h
  · cases h; rename_i e; rw [e]; rfl
  split at h
  · cases h; rename_i e; rw [e]; rfl
  split at h
  · cases h; rename_i e; rw [e]; rfl
  split at h
  · cases h; rename_i e; rw [e]; rfl
  · cases h

theorem parseIhdr_bytes {d : List UInt8} {ih : Ihdr} (h : parseIhdr d = .ok ih) (h1 : ih.compression = 0)
    (h2 : ih.filter = 0) (h3 : ih.interlace = 0) : d = (headerOf ih).bytes := by
  have hl := ((parseIhdr_iff d).1 ⟨ih, h⟩).1
  obtain ⟨a0, a1, a2, a3, a4, a5, a6, a7, a8, a9, a10, a11, a12, rfl⟩ := length13 hl
  rw [parseIhdr_13] at h
  cases hk : Kind.ofU8 a9 with
  | error e => rw [hk] at h; cases h
  | ok k =>
    rw [hk, ok_bind] at h
    cases h
    simp only at h1 h2 h3
    subst h1 h2 h3
    unfold Header.bytes
    rw [kind_colour hk]
    simp only [headerOf, be32_of_bytes]
    simp

/-! ### zlib -/

theorem and_flag (flg : UInt8) : flg.toNat &&& 0x20 = 0 ↔ flg.toNat / 32 % 2 = 0 := by
  have : ∀ f : Fin 256, f.val &&& 0x20 = 0 ↔ f.val / 32 % 2 = 0 := by decide +kernel
  exact this ⟨flg.toNat, flg.toNat_lt⟩

theorem inflateZlib_iff (sum : List UInt8 → Nat) (bytes out : List UInt8) (n : Nat) :
    Inflate.inflateZlib sum bytes (some n) = .ok out ↔
      LooseZlib sum (fun b d => Inflate.inflate b = .ok d) bytes out ∧ out.length = n := by
  have mask : ∀ cmf : UInt8, cmf.toNat &&& 0x0F = cmf.toNat % 16 := by
    intro cmf
    rw [show (0x0F : Nat) = 2 ^ 4 - 1 from rfl, Nat.and_two_pow_sub_one_eq_mod]
  have word : ∀ cmf flg : UInt8, cmf.toNat <<< 8 ||| flg.toNat = 256 * cmf.toNat + flg.toNat := by
    intro cmf flg
    have hf := flg.toNat_lt
    rw [Nat.shiftLeft_eq, Nat.mul_comm, ← Nat.two_pow_add_eq_or_of_lt (by omega : flg.toNat < 2 ^ 8)]
  constructor
  · intro h
    unfold Inflate.inflateZlib at h
    split at h
    · rename_i cmf flg rest
      split at h
      · cases h
      rename_i hl
      split at h
      · cases h
      rename_i h1
      split at h
      · cases h
      rename_i h2
      split at h
      · cases h
      rename_i h3
      simp only at h
      cases hi : Inflate.inflate (rest.take (rest.length - 4)) with
      | error e => rw [hi] at h; cases h
      | ok o =>
        rw [hi, ok_bind] at h
        split at h
        · cases h
        rename_i h4
        split at h
        · cases h
        rename_i h5
        cases h
        rw [mask] at h1
        rw [word] at h2
        refine ⟨⟨cmf, flg, rest.take (rest.length - 4), rest.drop (rest.length - 4), ?_, by omega, by omega,
          (and_flag flg).1 (by omega), hi, by rw [List.length_drop]; omega, ?_⟩, by omega⟩
        · rw [List.append_assoc, List.take_append_drop]; rfl
        · unfold Rfc1950.ofBytesBE; omega
    · cases h
  · rintro ⟨⟨cmf, flg, body, trailer, rfl, h1, h2, h3, h4, h5, h6⟩, hn⟩
    unfold Inflate.inflateZlib
    simp only [List.cons_append, List.nil_append]
    have h3' := (and_flag flg).2 h3
    rw [if_neg (by rw [List.length_append]; omega), if_neg (by rw [mask]; omega), if_neg (by rw [word]; omega),
      if_neg (by omega)]
    have hl : (body ++ trailer).length - 4 = body.length := by rw [List.length_append]; omega
    simp only [hl]
    rw [List.take_left' rfl, List.drop_left' rfl, h4, ok_bind]
    unfold Rfc1950.ofBytesBE at h6
    rw [h6, if_neg (by simp), if_neg (by omega)]
    rfl

/-! ### The file -/

theorem bpp_pos {h : Header} (ok : h.Ok) : 0 < h.bpp := by
  unfold Header.bpp
  have hs : 0 < samples h.colour := by unfold samples; split <;> decide
  have hd0 : 0 < h.depth := by
    obtain ⟨-, -, -, -, d⟩ := ok
    rcases d with ⟨-, d⟩ | ⟨-, d⟩ | ⟨-, d⟩ | ⟨-, d⟩ | ⟨-, d⟩ <;> simp at d <;> omega
  have := Nat.mul_pos hs hd0
  omega

theorem outputType_channels {ih : Ihdr} {h : Header} (m : Matches ih h) (ok : h.Ok) (trns : Option (List UInt8)) :
    (outputType ih trns).bytesPerPixel = channels h (trns.getD []) := by
  unfold outputType channels
  rcases m.kinds ok with ⟨c, k, -⟩ | ⟨c, k, -⟩ | ⟨c, k, -⟩ | ⟨c, k, -⟩ | ⟨c, k, -⟩ <;> rw [k, c]
  · rfl
  · rfl
  · rw [if_pos rfl]
    have : hasAlpha trns = (trns.getD []).any (· ≠ 255) := by cases trns <;> rfl
    simp only [this]
    split <;> rfl
  · rfl
  · rfl

/-- What is left to do after the chunks. -/
theorem finish_sound {sum : List UInt8 → Nat} {st : Chunks} {img : PngImage} (h : finish sum st = .ok img)
    {plte : Option (List UInt8)} (hp : st.palette = plte.map paletteOf) (whole : ∀ p, plte = some p → p.length % 3 = 0) :
    ∃ ih rows scan, st.ihdr = some ih ∧ ih.compression = 0 ∧ ih.filter = 0 ∧ ih.interlace = 0 ∧ Valid ih ∧
      ((headerOf ih).colour = 3 → plte ≠ none) ∧ rows.length = (headerOf ih).height ∧
      LooseZlib sum (fun b d => Inflate.inflate b = .ok d) st.idat scan ∧
      Scanlines (headerOf ih).bpp (headerOf ih).rowBytes (List.replicate (headerOf ih).rowBytes 0) rows scan ∧
      Picture (headerOf ih) (plte.getD []) (st.trns.getD []) rows img.width img.height img.colorType.bytesPerPixel
        img.pixels := by
  unfold finish at h
  split at h
  · cases h
  rename_i ih hih
  rcases validate_cases ih with ⟨ev, v, v1, v2, v3⟩ | ⟨e, ev, -⟩
  · rw [ev, ok_bind] at h
    split at h
    · cases h
    rw [expectedSize_ok v, ok_bind] at h
    cases hz : Inflate.inflateZlib sum st.idat (some ((1 + (headerOf ih).rowBytes) * ih.height)) with
    | error e => rw [hz] at h; cases h
    | ok raw =>
      obtain ⟨z1, z2⟩ := (inflateZlib_iff _ _ _ _).1 hz
      rw [hz, ok_bind] at h
      have needed : (headerOf ih).colour = 3 → plte ≠ none := by
        rintro hc rfl
        have hk : ih.kind = .indexed := by
          unfold headerOf at hc
          cases hk : ih.kind <;> rw [hk] at hc <;> simp at hc ⊢
        have : Safe (reconstruct ih raw st.palette st.trns) (fun _ => False) := by
          unfold reconstruct
          rw [layout_eq (headerOf_matches ih) v.ok]
          simp only
          split
          · exact Safe.invalid
          · rename_i hd
            refine Safe.bind (rowLoop_safe _ _ _ (by rw [Nat.zero_add]; omega) (by simp)) ?_
            intro raw hl
            unfold convert
            rw [hk, hp]
            exact Safe.invalid
        cases hr : reconstruct ih raw st.palette st.trns with
        | error e => rw [hr] at h; cases h
        | ok px => exact this.of_ok hr
      have hs := rowLoop_sound (data := raw) (bpp_pos v.ok) ih.height 0 (List.replicate (headerOf ih).rowBytes 0)
        (by rw [Nat.zero_add, z2, Nat.mul_comm]) (by simp)
      unfold reconstruct at h
      rw [layout_eq (headerOf_matches ih) v.ok] at h
      simp only at h
      rw [if_neg (by rw [z2, Nat.mul_comm]; omega)] at h
      cases hr : rowLoop raw (headerOf ih).bpp (headerOf ih).rowBytes 0 ih.height
          (List.replicate (headerOf ih).rowBytes 0) with
      | error e => rw [hr] at h; cases h
      | ok flat =>
        obtain ⟨rows, r1, r2, r3⟩ := hs.of_ok hr
        rw [Nat.zero_mul, List.drop_zero] at r2
        obtain ⟨px, epx, hpx⟩ := convert_loose (trns := st.trns) (headerOf_matches ih) v.ok whole needed (fun _ => rfl)
          (rows := rows) r1 (raw := rows.flatten) ⟨rfl, (scanlines_length r2).2⟩
        rw [hr, ok_bind, hp, r3, epx, ok_bind] at h
        cases h
        refine ⟨ih, rows, raw, hih, v1, v2, v3, v, needed, r1, z1, r2, rfl, rfl, ?_, hpx.1, hpx.2⟩
        exact outputType_channels (headerOf_matches ih) v.ok _
  · rw [ev] at h; cases h

theorem mem_dataOf {ty d : List UInt8} {cs : List Chunk} : d ∈ dataOf ty cs ↔ ∃ c ∈ cs, c.ty = ty ∧ c.data = d := by
  unfold dataOf
  simp only [List.mem_map, List.mem_filter, decide_eq_true_eq, and_assoc]

theorem passes_iff (cs : List Chunk) : (∀ c ∈ cs, Passes c) ↔
    (∀ d ∈ dataOf IHDR cs, d.length = 13 ∧ byteAt d 9 ∈ [0, 2, 3, 4, 6]) ∧ (∀ d ∈ dataOf PLTE cs, d.length % 3 = 0) := by
  constructor
  · intro h
    refine ⟨?_, ?_⟩
    · intro d hd
      obtain ⟨c, hc, ht, rfl⟩ := mem_dataOf.1 hd
      exact (parseIhdr_iff _).1 ((h c hc).1 ht)
    · intro d hd
      obtain ⟨c, hc, ht, rfl⟩ := mem_dataOf.1 hd
      exact (h c hc).2 ht
  · rintro ⟨h1, h2⟩ c hc
    exact ⟨fun ht => (parseIhdr_iff _).2 (h1 _ (mem_dataOf.2 ⟨c, hc, ht, rfl⟩)),
      fun ht => h2 _ (mem_dataOf.2 ⟨c, hc, ht, rfl⟩)⟩

/-- What is decoded is a lenient file and comes out as the picture it holds. -/
theorem decodePng_sound {sum : List UInt8 → Nat} {data : List UInt8} {img : PngImage} (h : decodePng sum data = .ok img) :
    ∃ cs fin tail hd plte trns rows, Framed data cs fin tail ∧
      Lenient sum (fun b d => Inflate.inflate b = .ok d) hd plte trns rows cs ∧
      Picture hd (plte.getD []) (trns.getD []) rows img.width img.height img.colorType.bytesPerPixel img.pixels := by
  unfold decodePng at h
  split at h
  · cases h
  rename_i h8
  have hlen : 8 ≤ data.length := by
    rcases Nat.lt_or_ge data.length 8 with hh | hh
    · exact absurd (Or.inl hh) h8
    · exact hh
  have hsig : data.take 8 = Png.signature := Classical.byContradiction fun hn => h8 (Or.inr hn)
  cases hc : chunkLoop data (data.length + 1) 8 ⟨none, [], none, none⟩ with
  | error e => rw [hc] at h; cases h
  | ok st =>
    rw [hc, ok_bind] at h
    obtain ⟨cs, fin, tail, c1, c2, c3, c4, c5⟩ := chunkLoop_sound _ _ _ _ hlen hc
    obtain ⟨p, rfl⟩ := (addAll_iff _ _ _).1 c5
    obtain ⟨r1, r2, r3⟩ := addAny_rest cs
    have r4 := addAny_idat cs ⟨none, [], none, none⟩
    simp only at r1 r2 r3 r4
    obtain ⟨p1, p2⟩ := (passes_iff cs).1 p
    obtain ⟨ih, rows, scan, f1, f2, f3, f4, v, f5, f6, f7, f8, f9⟩ := finish_sound h r2
      (fun d hd => p2 d (List.mem_of_getLast? hd))
    rw [r4, List.nil_append] at f7
    rw [r3] at f9
    have hh : (dataOf IHDR cs).getLast? = some (headerOf ih).bytes := by
      rw [r1] at f1
      cases hg : (dataOf IHDR cs).getLast? with
      | none => rw [hg] at f1; cases f1
      | some d =>
        rw [hg, Option.bind_some] at f1
        cases hp : parseIhdr d with
        | error e => rw [hp] at f1; cases f1
        | ok ih' =>
          rw [hp] at f1
          cases f1
          rw [parseIhdr_bytes hp f2 f3 f4]
    refine ⟨cs, fin, tail, headerOf ih, _, _, rows, ⟨?_, c2, c3, c4⟩, ⟨v.ok, ⟨v.w, v.h⟩, p1, hh, p2, rfl, rfl, f5, f6,
      scan, f7, f8⟩, f9⟩
    rw [List.append_assoc, ← c1, ← hsig, List.take_append_drop]

/-- Every lenient file is decoded. -/
theorem decodePng_complete {sum : List UInt8 → Nat} {data : List UInt8} {cs : List Chunk} {fin tail : List UInt8}
    {hd : Header} {plte trns : Option (List UInt8)} {rows : List (List UInt8)} (hf : Framed data cs fin tail)
    (hl : Lenient sum (fun b d => Inflate.inflate b = .ok d) hd plte trns rows cs) :
    ∃ img, decodePng sum data = .ok img ∧
      Picture hd (plte.getD []) (trns.getD []) rows img.width img.height img.colorType.bytesPerPixel img.pixels := by
  obtain ⟨ok, ⟨lw, lh⟩, p1, hh, p2, hp, ht, needed, hrows, scan, hz, hscan⟩ := hl
  have hdrop : data.drop 8 = stream (cs ++ [⟨IEND, fin⟩]) ++ tail := by
    rw [hf.bytes, List.append_assoc, List.drop_left' (l₁ := Png.signature) (i := 8) rfl]
  have htake : data.take 8 = Png.signature := by
    rw [hf.bytes, List.append_assoc, List.take_left' (l₁ := Png.signature) (i := 8) rfl]
  have hlen : 8 ≤ data.length := by
    rw [hf.bytes, List.append_assoc, List.length_append]
    show 8 ≤ 8 + _
    omega
  obtain ⟨ih, ep, m, i1, i2, i3⟩ := parseIhdr_ok ok
  obtain ⟨r1, r2, r3⟩ := addAny_rest cs
  have r4 := addAny_idat cs ⟨none, [], none, none⟩
  simp only at r1 r2 r3 r4
  rw [hh, Option.bind_some, ep] at r1
  rw [hp] at r2
  rw [ht] at r3
  rw [List.nil_append] at r4
  have hidat : (dataOf IDAT cs).flatten ≠ [] := by
    obtain ⟨cmf, flg, body, tr, e, -⟩ := hz
    rw [e]; simp
  have v : Valid ih := by
    refine ⟨by rw [m.width]; exact ok.1, by rw [m.height]; exact ok.2.2.1, by rw [m.width]; exact lw,
      by rw [m.height]; exact lh, ?_⟩
    unfold validDepth
    rw [m.depth]
    rcases m.kinds ok with ⟨c, k, d⟩ | ⟨c, k, d⟩ | ⟨c, k, d⟩ | ⟨c, k, d⟩ | ⟨c, k, d⟩ <;> rw [k] <;> simpa using d
  have ev : validate ih = .ok () := by
    unfold validate
    have h1 := v.w0; have h2 := v.h0; have h3 := v.w; have h4 := v.h
    rw [if_neg (by omega), if_neg (by unfold maxDimension; omega), if_neg (by simp [i1]), if_neg (by simp [i2]),
      if_neg (by simp [i3]), if_pos v.depth]
  have hsl := scanlines_length hscan
  have es : expectedSize ih = .ok scan.length := by
    unfold expectedSize
    have := expectedSize_ok v
    unfold expectedSize at this
    simp only at this ⊢
    split at this
    · rename_i c
      rw [if_pos c, scanlineBytes_eq m ok, hsl.1, hrows, m.height, Nat.mul_comm]
    · cases this
  obtain ⟨px, epx, hpx⟩ := convert_loose (trns := trns) m ok (fun p hq => p2 p (List.mem_of_getLast? (hp.trans hq))) needed
    (fun _ => rfl) hrows (raw := rows.flatten) ⟨rfl, hsl.2⟩
  have er : reconstruct ih scan (plte.map paletteOf) trns = .ok px := by
    unfold reconstruct
    rw [layout_eq m ok]
    simp only
    rw [if_neg (by rw [hsl.1, hrows, m.height]; omega), m.height, ← hrows,
      rowLoop_ok (bpp_pos ok) hscan 0 (by simp) (by simp), ok_bind, epx]
  refine ⟨⟨ih.width, ih.height, px, outputType ih trns⟩, ?_, m.width, m.height, outputType_channels m ok trns,
    by rw [hpx.1, m.width, m.height], hpx.2⟩
  unfold decodePng
  rw [if_neg (by
      intro hn
      rcases hn with hn | hn
      · omega
      · exact hn htake),
    chunkLoop_complete hf.last cs 8 _ _ hf.types hf.sizes hdrop (by omega),
    (addAll_iff cs _ _).2 ⟨(passes_iff cs).2 ⟨p1, p2⟩, rfl⟩, ok_bind]
  unfold finish
  rw [r1]
  show (validate ih >>= _) = _
  rw [ev, ok_bind, r4, if_neg hidat, es, ok_bind, (inflateZlib_iff _ _ _ _).2 ⟨hz, rfl⟩, ok_bind, r2, r3, er, ok_bind]
  rfl

/-! ### Uniqueness -/

theorem chunk_unique {c d : Chunk} (hc : c.ty.length = 4) (hd : d.ty.length = 4) (lc : c.data.length < 2 ^ 32)
    (ld : d.data.length < 2 ^ 32) {x y : List UInt8} (h : c.bytes ++ x = d.bytes ++ y) : c = d ∧ x = y := by
  unfold Chunk.bytes at h
  simp only [List.append_assoc] at h
  obtain ⟨h1, h2⟩ := List.append_inj h rfl
  have hl := be32_inj lc ld h1
  obtain ⟨h3, h4⟩ := List.append_inj h2 (by rw [hc, hd])
  obtain ⟨h5, h6⟩ := List.append_inj h4 hl
  obtain ⟨-, h7⟩ := List.append_inj h6 rfl
  refine ⟨?_, h7⟩
  cases c; cases d
  simp only at h3 h5
  subst h3 h5
  rfl

theorem chunks_unique : ∀ {cs ds : List Chunk} {fin fin' x y : List UInt8},
    (∀ c ∈ cs, c.ty.length = 4 ∧ c.ty ≠ IEND) → (∀ c ∈ cs, c.data.length < 2 ^ 32) → fin.length < 2 ^ 32 →
    (∀ c ∈ ds, c.ty.length = 4 ∧ c.ty ≠ IEND) → (∀ c ∈ ds, c.data.length < 2 ^ 32) → fin'.length < 2 ^ 32 →
    stream (cs ++ [⟨IEND, fin⟩]) ++ x = stream (ds ++ [⟨IEND, fin'⟩]) ++ y → cs = ds ∧ fin = fin' ∧ x = y
  | [], [], fin, fin', x, y, _, _, l1, _, _, l2, h => by
    simp only [stream, List.nil_append, List.flatMap_cons, List.flatMap_nil, List.append_nil] at h
    obtain ⟨h1, h2⟩ := chunk_unique rfl rfl l1 l2 h
    exact ⟨rfl, by simpa using h1, h2⟩
  | [], d :: ds, fin, fin', x, y, _, _, l1, t2, s2, _, h => by
    simp only [stream, List.nil_append, List.cons_append, List.flatMap_cons, List.flatMap_nil, List.append_nil,
      List.append_assoc] at h
    obtain ⟨h1, -⟩ := chunk_unique rfl (t2 d List.mem_cons_self).1 l1 (s2 d List.mem_cons_self) h
    exact absurd (by rw [← h1]) (t2 d List.mem_cons_self).2
  | c :: cs, [], fin, fin', x, y, t1, s1, _, _, _, l2, h => by
    simp only [stream, List.nil_append, List.cons_append, List.flatMap_cons, List.flatMap_nil, List.append_nil,
      List.append_assoc] at h
    obtain ⟨h1, -⟩ := chunk_unique (t1 c List.mem_cons_self).1 rfl (s1 c List.mem_cons_self) l2 h
    exact absurd (by rw [h1]) (t1 c List.mem_cons_self).2
  | c :: cs, d :: ds, fin, fin', x, y, t1, s1, l1, t2, s2, l2, h => by
    simp only [stream, List.cons_append, List.flatMap_cons, List.append_assoc] at h
    obtain ⟨h1, h2⟩ := chunk_unique (t1 c List.mem_cons_self).1 (t2 d List.mem_cons_self).1 (s1 c List.mem_cons_self)
      (s2 d List.mem_cons_self) h
    obtain ⟨h3, h4, h5⟩ := chunks_unique (fun c hc => t1 c (List.mem_cons_of_mem _ hc))
      (fun c hc => s1 c (List.mem_cons_of_mem _ hc)) l1 (fun c hc => t2 c (List.mem_cons_of_mem _ hc))
      (fun c hc => s2 c (List.mem_cons_of_mem _ hc)) l2 h2
    exact ⟨by rw [h1, h3], h4, h5⟩

/-- A byte string is cut into chunks in one way only. -/
theorem framed_unique {data : List UInt8} {cs ds : List Chunk} {fin fin' x y : List UInt8} (h : Framed data cs fin x)
    (g : Framed data ds fin' y) : cs = ds ∧ fin = fin' ∧ x = y := by
  have e := h.bytes.symm.trans g.bytes
  rw [List.append_assoc, List.append_assoc] at e
  obtain ⟨-, e⟩ := List.append_inj e rfl
  exact chunks_unique h.types h.sizes h.last g.types g.sizes g.last e

theorem Picture.unique {h : Header} {plte trns : List UInt8} {rows : List (List UInt8)} {a b : PngImage}
    (hr : rows.length = h.height)
    (ha : Picture h plte trns rows a.width a.height a.colorType.bytesPerPixel a.pixels)
    (hb : Picture h plte trns rows b.width b.height b.colorType.bytesPerPixel b.pixels) : a = b := by
  have hw : a.width = b.width := ha.wide.trans hb.wide.symm
  have hh : a.height = b.height := ha.high.trans hb.high.symm
  have hch : a.colorType.bytesPerPixel = b.colorType.bytesPerPixel := ha.planes.trans hb.planes.symm
  have ht : a.colorType = b.colorType := by
    revert hch; cases a.colorType <;> cases b.colorType <;> decide
  have hl : a.pixels.length = b.pixels.length := by rw [ha.length, hb.length, hw, hh, hch]
  have hpos : 0 < a.colorType.bytesPerPixel ∧ a.colorType.bytesPerPixel ≤ 4 := by cases a.colorType <;> decide
  have key : ∀ ch (p q : List UInt8) k j, 0 < ch → ch ≤ 4 → j < ch → pixelOf ch p k = pixelOf ch q k →
      byteAt p (k * ch + j) = byteAt q (k * ch + j) := by
    intro ch p q k j h0 h4 hj he
    have : ch = 1 ∨ ch = 2 ∨ ch = 3 ∨ ch = 4 := by omega
    unfold pixelOf at he
    rcases this with rfl | rfl | rfl | rfl <;> simp only [Rgba.mk.injEq] at he
    · rw [show j = 0 by omega]; exact he.1
    · rcases (show j = 0 ∨ j = 1 by omega) with rfl | rfl
      · exact he.1
      · exact he.2.2.2
    · rcases (show j = 0 ∨ j = 1 ∨ j = 2 by omega) with rfl | rfl | rfl
      · exact he.1
      · exact he.2.1
      · exact he.2.2.1
    · rcases (show j = 0 ∨ j = 1 ∨ j = 2 ∨ j = 3 by omega) with rfl | rfl | rfl | rfl
      · exact he.1
      · exact he.2.1
      · exact he.2.2.1
      · exact he.2.2.2
  have hp : a.pixels = b.pixels := by
    apply List.ext_getElem hl
    intro i h1 h2
    obtain ⟨h0, h4⟩ := hpos
    generalize hc : a.colorType.bytesPerPixel = ch at *
    have hk : i / ch < h.width * h.height := by
      rw [Nat.div_lt_iff_lt_mul h0]
      rw [ha.length, ha.wide, ha.high] at h1
      exact h1
    have hw0 : 0 < h.width := Nat.pos_of_ne_zero fun hz => by rw [hz, Nat.zero_mul] at hk; exact Nat.not_lt_zero _ hk
    have hy : i / ch / h.width < rows.length := by
      rw [hr, Nat.div_lt_iff_lt_mul hw0, Nat.mul_comm]; exact hk
    have hx := Nat.mod_lt (i / ch) hw0
    have e1 := ha.colour _ _ hy hx
    have e2 := hb.colour _ _ hy hx
    rw [← hch] at e2
    have e := key ch a.pixels b.pixels _ (i % ch) h0 h4 (Nat.mod_lt _ h0) (e1.trans e2.symm)
    rw [Nat.mul_comm (i / ch / h.width), Nat.div_add_mod, Nat.mul_comm, Nat.div_add_mod] at e
    unfold byteAt at e
    rw [getD_eq _ _ h1, getD_eq _ _ h2] at e
    exact UInt8.toNat_inj.1 e
  cases a; cases b
  simp only at hw hh ht hp
  subst hw hh ht hp
  rfl

end Pixo.PngDecode
