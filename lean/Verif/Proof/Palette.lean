import Verif.Proof.PaletteZeng
/-
Reordering keeps the image, and the palette of an image reproduces every pixel.
-/
namespace Pixo.Palette

variable {indexed : List UInt8} {n w h : Nat} {m : List (List Nat)}

theorem countLoop_ok : ∀ (l : List UInt8) (counts : List Nat) (K : Nat), counts.length = 256 →
    (∀ i, counts.getD i 0 ≤ K) → K + l.length < 2 ^ 32 →
    Oks (countLoop l counts) fun c => c.length = 256
  | [], counts, _, hl, _, _ => Oks.ok hl
  | v :: l, counts, K, hl, hc, hK => by
    have hv := v.toNat_lt
    rw [List.length_cons] at hK
    have h1 := hc v.toNat
    rw [countLoop, getChecked_ok 0 (by omega), ok_bind]
    unfold addU32
    rw [if_pos (by omega), ok_bind, setChecked_ok _ (by omega), ok_bind]
    refine countLoop_ok l _ (K + 1) (by rw [List.length_set]; exact hl) (fun i => ?_) (by omega)
    rw [getD_set (by omega)]
    split
    · omega
    · have := hc i; omega

theorem rotateTo_perm (R : List Nat) (pos : Nat) : (rotateTo R pos).Perm R := by
  unfold rotateTo
  split
  · refine List.perm_append_comm.trans ?_
    rw [List.take_append_drop]; exact List.reverse_perm R
  · refine List.perm_append_comm.trans ?_
    rw [List.take_append_drop]

theorem popularFirst_ok {R : List Nat} (hR : ∀ i ∈ R, i < 256) (hlen : indexed.length < 2 ^ 30) :
    Oks (popularFirst indexed R) fun r => r.Perm R := by
  unfold popularFirst
  split
  · exact Oks.ok (.refl _)
  · refine Oks.bind (countLoop_ok indexed (List.replicate 256 0) 0 List.length_replicate (fun i => ?_) (by omega)) fun counts hc => ?_
    · have := get_le_sum (List.replicate 256 0) i
      rw [List.sum_replicate_nat] at this
      omega
    · have e : (R.mapM fun i => do return (i, ← getChecked counts i)) = (.ok (R.map fun i => (i, counts.getD i 0)) : Pixo.R _) := by
        refine mapM_ok R fun i hi => ?_
        have := hR i hi
        rw [getChecked_ok 0 (by omega), ok_bind]; rfl
      rw [e, ok_bind]
      unfold threshold
      rw [if_pos (by omega), ok_bind]
      split
      · exact Oks.pure (.refl _)
      · split
        · exact Oks.pure (rotateTo_perm _ _)
        · exact Oks.pure (.refl _)

theorem byteMapLoop_ok : ∀ (l : List Nat) (new : Nat) (map : List UInt8), l.Nodup → (∀ i ∈ l, i < map.length) →
    Oks (byteMapLoop l new map) fun r => r.length = map.length ∧ (∀ x, x ∉ l → r.getD x 0 = map.getD x 0) ∧
      ∀ j, (hj : j < l.length) → r.getD l[j] 0 = UInt8.ofNat (new + j)
  | [], new, map, _, _ => Oks.ok ⟨rfl, fun _ _ => rfl, fun j hj => by simp at hj⟩
  | o :: l, new, map, hn, hl => by
    have ⟨h1, h2⟩ := List.nodup_cons.mp hn
    have ho := hl o List.mem_cons_self
    rw [byteMapLoop, setChecked_ok _ ho, ok_bind]
    refine (byteMapLoop_ok l (new + 1) _ h2 (fun i hi => by
      rw [List.length_set]; exact hl i (List.mem_cons_of_mem _ hi))).mono fun r hr => ⟨?_, ?_, ?_⟩
    · rw [hr.1, List.length_set]
    · intro x hx
      rw [List.mem_cons, not_or] at hx
      rw [hr.2.1 x hx.2, getD_set ho, if_neg (fun e => hx.1 e.symm)]
    · intro j hj
      cases j with
      | zero =>
        rw [List.getElem_cons_zero, hr.2.1 o h1, getD_set ho, if_pos rfl]; rfl
      | succ j =>
        rw [List.getElem_cons_succ, hr.2.2 j (by simpa using hj)]
        congr 1; omega

/-- What reordering may do: the same colours, and the same colour at every place. -/
structure Reordered (indexed : List UInt8) (palette : List Rgba) (r : List UInt8 × List Rgba) : Prop where
  len : r.1.length = indexed.length
  perm : r.2.Perm palette
  same : ∀ k, k < indexed.length →
    r.2[(r.1.getD k 0).toNat]? = palette[(indexed.getD k 0).toNat]?

theorem Reordered.refl (indexed : List UInt8) (palette : List Rgba) : Reordered indexed palette (indexed, palette) :=
  ⟨rfl, .refl _, fun _ _ => rfl⟩

theorem map_getD_range {α : Type} (l : List α) (d : α) : (List.range l.length).map (fun i => l.getD i d) = l := by
  refine List.ext_getElem (by simp) fun i h1 h2 => ?_
  rw [List.getElem_map, List.getElem_range, getD_lt h2]

theorem applyRemapping_ok {palette : List Rgba} {R : List Nat} (hn : palette.length = n) (h256 : n ≤ 256)
    (hlt : ∀ k, k < indexed.length → (indexed.getD k 0).toNat < n) (hR : R.Perm (List.range n)) :
    Oks (applyRemapping indexed palette R) (Reordered indexed palette) := by
  have hmem : ∀ c, c ∈ R ↔ c < n := fun c => by rw [hR.mem_iff, List.mem_range]
  have hlen : R.length = n := by rw [hR.length_eq, List.length_range]
  unfold applyRemapping
  rw [mapM_ok (g := fun i => palette.getD i (0, 0, 0, 0)) R fun i hi => getChecked_ok _ (by rw [hn]; exact (hmem i).mp hi),
    ok_bind]
  refine Oks.bind (byteMapLoop_ok R 0 (List.replicate 256 0) (hR.nodup_iff.mpr List.nodup_range) fun i hi => ?_)
    fun map hmap => ?_
  · have := (hmem i).mp hi; rw [List.length_replicate]; omega
  have h256' : map.length = 256 := by rw [hmap.1, List.length_replicate]
  rw [mapM_ok (g := fun b : UInt8 => map.getD b.toNat 0) indexed fun b _ => getChecked_ok _ (by
    have := b.toNat_lt; omega), ok_bind]
  refine Oks.pure ⟨by simp, ?_, ?_⟩
  · have := hR.map (fun i => palette.getD i (0, 0, 0, 0))
    rw [← hn, map_getD_range] at this
    exact this
  · intro k hk
    dsimp only
    have hv := hlt k hk
    have e0 : (indexed.map fun b => map.getD b.toNat 0).getD k 0 = map.getD (indexed.getD k 0).toNat 0 := by
      rw [getD_lt (by simpa using hk), List.getElem_map, getD_lt (l := indexed) hk]
    rw [e0]
    generalize (indexed.getD k 0).toNat = v at hv ⊢
    obtain ⟨j, hj, rfl⟩ := List.mem_iff_getElem.mp ((hmem v).mpr hv)
    have hm := hmap.2.2 j hj
    rw [hm, Nat.zero_add, UInt8.toNat_ofNat', Nat.mod_eq_of_lt (by omega), List.getElem?_map,
      List.getElem?_eq_getElem hj, Option.map_some, List.getElem?_eq_getElem (by omega), getD_lt (by omega)]

theorem optimizeOrder_ok {palette : List Rgba} (h256 : palette.length ≤ 256) (hlen : indexed.length = w * h)
    (hlt : ∀ k, k < indexed.length → (indexed.getD k 0).toNat < palette.length)
    (ho : ∀ c, c < palette.length → ∃ k, k < indexed.length ∧ (indexed.getD k 0).toNat = c)
    (hK : w * h < 2 ^ 30) :
    Oks (optimizeOrder indexed palette w h) (Reordered indexed palette) := by
  unfold optimizeOrder
  dsimp only
  by_cases h2 : palette.length ≤ 2
  · rw [if_pos h2]; exact Oks.ok (.refl _ _)
  · rw [if_neg h2]
    have hi : Image indexed palette.length w h := ⟨hlen, hlt⟩
    have hoc : Occurs indexed palette.length w h := by
      intro c hc
      obtain ⟨k, hk, e⟩ := ho c hc
      rw [hlen] at hk
      have hw : 0 < w := Nat.pos_of_ne_zero fun e => by subst e; omega
      refine ⟨k / w, k % w, Nat.mod_lt _ hw, ?_, ?_⟩
      · exact Nat.div_lt_of_lt_mul hk
      · unfold px; rw [Nat.mul_comm, Nat.div_add_mod]; exact e
    refine Oks.bind (coMatrix_ok hi (by omega)) fun m hm => ?_
    split
    · exact Oks.pure (.refl _ _)
    · refine Oks.bind (zengReindex_ok hm hi hoc (by omega)) fun R hR => ?_
      have hmem : ∀ c ∈ R, c < palette.length := fun c hc => by
        rw [hR.mem_iff, List.mem_range] at hc; exact hc
      refine Oks.bind (popularFirst_ok (fun i hi => by have := hmem i hi; omega) (by omega)) fun R' hR' => ?_
      exact applyRemapping_ok rfl h256 hlt (hR'.trans hR)

/-- A palette and indices that reproduce the colours `px`. -/
structure Reproduces (px : List Rgba) (r : List UInt8 × List Rgba) : Prop where
  len : r.1.length = px.length
  nodup : r.2.Nodup
  le : r.2.length ≤ 256
  occurs : ∀ c, c ∈ r.2 ↔ c ∈ px
  same : ∀ k, k < px.length → r.2[(r.1.getD k 0).toNat]? = px[k]?

theorem paletteOfKeys_ok {px : List Rgba} (hlen : px.length = w * h) (hK : w * h < 2 ^ 30) :
    Oks (paletteOfKeys (px.map key) w h) fun r =>
      match r with
      | none => ∀ l : List Rgba, (∀ c ∈ px, c ∈ l) → 256 < l.length
      | some r => Reproduces px r := by
  unfold paletteOfKeys
  dsimp only
  have hmem : ∀ k, k ∈ dedup (sortKeys (px.map key)) ↔ k ∈ px.map key := fun k => mem_palette
  have hnd := palette_nodup (px.map key)
  generalize dedup (sortKeys (px.map key)) = sorted at hmem hnd
  by_cases h256 : sorted.length > 256
  · rw [if_pos h256]
    refine Oks.ok ?_
    intro l hl
    have hsub : sorted ⊆ l.map key := fun k hk => by
      obtain ⟨c, hc, rfl⟩ := List.mem_map.mp ((hmem k).mp hk)
      exact List.mem_map_of_mem (hl c hc)
    have := hnd.length_le_of_subset hsub
    rw [List.length_map] at this
    omega
  · rw [if_neg h256]
    have hsearch : ∀ k ∈ px.map key, search sorted k = .ok (sorted.idxOf k) ∧ sorted[sorted.idxOf k]? = some k := by
      intro k hk
      obtain ⟨i, e, hi⟩ := search_ok ((hmem k).mpr hk)
      have : i = sorted.idxOf k := by
        obtain ⟨hlt, he⟩ := List.getElem?_eq_some_iff.mp hi
        rw [← he]; exact (hnd.idxOf_getElem i hlt).symm
      rw [← this]; exact ⟨e, hi⟩
    rw [mapM_ok (g := fun k => sorted.idxOf k) _ fun k hk => (hsearch k hk).1, ok_bind, List.map_map]
    generalize hidx : ((px.map key).map ((UInt8.ofNat) ∘ fun k => sorted.idxOf k)) = indexed
    have hlen2 : indexed.length = px.length := by rw [← hidx]; simp
    have hval : ∀ k, (hk : k < px.length) →
        (indexed.getD k 0).toNat < sorted.length ∧ sorted[(indexed.getD k 0).toNat]? = some (key px[k]) := by
      intro k hk
      have hs := hsearch (key px[k]) (List.mem_map_of_mem (List.getElem_mem hk))
      obtain ⟨hlt, he⟩ := List.getElem?_eq_some_iff.mp hs.2
      have e : indexed.getD k 0 = UInt8.ofNat (sorted.idxOf (key px[k])) := by
        rw [getD_lt (by omega)]; simp only [← hidx, List.getElem_map, Function.comp]
      rw [e, UInt8.toNat_ofNat', Nat.mod_eq_of_lt (by omega)]
      exact ⟨hlt, hs.2⟩
    have hpal : (sorted.map unkey).length = sorted.length := List.length_map ..
    have hunk : ∀ k ∈ sorted, key (unkey k) = k := by
      intro k hk
      obtain ⟨c, _, rfl⟩ := List.mem_map.mp ((hmem k).mp hk)
      rw [unkey_key]
    refine Oks.bind (optimizeOrder_ok (palette := sorted.map unkey) (w := w) (h := h) (by omega) (by omega)
      (fun k hk => by rw [hpal]; exact (hval k (by omega)).1) ?_ hK) fun r hr => Oks.pure ⟨?_, ?_, ?_, ?_, ?_⟩
    · intro c hc
      rw [hpal] at hc
      obtain ⟨p, hp, e⟩ := List.mem_map.mp ((hmem _).mp (List.getElem_mem hc))
      obtain ⟨k, hk, rfl⟩ := List.mem_iff_getElem.mp hp
      refine ⟨k, by omega, ?_⟩
      have h1 := hval k hk
      rw [e] at h1
      exact (List.getElem?_inj h1.1 hnd).mp (by rw [h1.2, List.getElem?_eq_getElem hc])
    · rw [hr.len, hlen2]
    · refine hr.perm.nodup_iff.mpr ?_
      refine List.Pairwise.map _ (R := fun a b => a ∈ sorted ∧ b ∈ sorted ∧ a ≠ b) ?_ ?_
      · intro a b ⟨ha, hb, hne⟩ e
        exact hne (by rw [← hunk a ha, e, hunk b hb])
      · exact List.Pairwise.imp_of_mem (fun ha hb hne => ⟨ha, hb, hne⟩) hnd
    · rw [hr.perm.length_eq]; omega
    · intro c
      rw [hr.perm.mem_iff, List.mem_map]
      constructor
      · rintro ⟨k, hk, rfl⟩
        obtain ⟨d, hd, rfl⟩ := List.mem_map.mp ((hmem k).mp hk)
        rw [unkey_key]; exact hd
      · intro hc
        exact ⟨key c, (hmem _).mpr (List.mem_map_of_mem hc), unkey_key c⟩
    · intro k hk
      rw [hr.same k (by omega), List.getElem?_map, (hval k hk).2, Option.map_some, unkey_key,
        List.getElem?_eq_getElem hk]

/-! ### Pixels -/

open Pixo.PngDecode (chunksExact)

end Pixo.Palette
