import Verif.Proof.JpegDecodeScan
/-
The places of the blocks in the JPEG decoder are those of T.81.
-/
namespace Pixo.JpegDecode
open Pixo Pixo.Idct Spec Pixo.Jpeg

theorem range_grid (n m : Nat) :
    (List.range n).flatMap (fun y => (List.range m).map (fun x => (x, y))) =
      (List.range (m * n)).map (fun k => (k % m, k / m)) := by
  induction n with
  | zero => simp
  | succ n ih =>
    rw [List.range_succ, List.flatMap_append, ih, Nat.mul_succ, List.range_add, List.map_append, List.map_map]
    congr 1
    simp only [List.flatMap_cons, List.flatMap_nil, List.append_nil]
    apply List.map_congr_left
    intro x hx
    have hx' := List.mem_range.1 hx
    simp only [Function.comp_apply, Nat.mul_add_mod, Nat.mod_eq_of_lt hx', Nat.mul_add_div (show 0 < m by omega),
      Nat.div_eq_of_lt hx', Nat.add_zero]

/-- Samplings of components. -/
def Same (cs : List Component) (f : T81.Frame) : Prop := cs.map (fun c => (c.h, c.v)) = f.comps.map (fun c => (c.h, c.v))

/-- The blocks of an MCU from the sampling factors. -/
def gridOf (l : List (Nat × Nat)) (mx my : Nat) : List (Nat × Nat × Nat) :=
  l.zipIdx.flatMap (fun p => (List.range (p.1.1 * p.1.2)).map (fun b =>
    (p.2, mx * p.1.1 + b % p.1.1, my * p.1.2 + b / p.1.1)))

theorem mcuBlocks_grid (cs : List Component) (mx my : Nat) :
    mcuBlocks cs mx my = gridOf (cs.map (fun c => (c.h, c.v))) mx my := by
  unfold mcuBlocks gridOf
  rw [List.zipIdx_map, List.flatMap_map]
  simp only [List.flatMap_def]
  congr 1
  apply List.map_congr_left
  rintro ⟨c, i⟩ _
  simp only [Prod.map_fst, Prod.map_snd, id]
  have h := range_grid c.v c.h
  have h2 := congrArg (List.map (fun p : Nat × Nat => (i, mx * c.h + p.1, my * c.v + p.2))) h
  rw [List.map_flatMap, List.map_map] at h2
  simp only [List.map_map] at h2
  rw [List.flatMap_def] at h2
  exact h2

theorem blocksAt_grid (f : T81.Frame) (k : Nat) :
    (T81.blocksAt f k).map (fun p => (p.1, p.2.1 / 8, p.2.2 / 8)) =
      gridOf (f.comps.map (fun c => (c.h, c.v))) (k % T81.mcusPerRow f) (k / T81.mcusPerRow f) := by
  unfold T81.blocksAt gridOf
  rw [List.zipIdx_map, List.flatMap_map, List.map_flatMap]
  simp only [List.flatMap_def]
  congr 1
  apply List.map_congr_left
  rintro ⟨c, i⟩ _
  simp only [Prod.map_fst, Prod.map_snd, id, List.map_map]
  apply List.map_congr_left
  intro b _
  simp only [Function.comp_apply, Nat.mul_div_cancel_left _ (show 0 < 8 by decide)]

theorem gridOf_mem {l : List (Nat × Nat)} {mx my i bx byy : Nat} (h : (i, bx, byy) ∈ gridOf l mx my) :
    ∃ p, l[i]? = some p ∧ ∃ a b, a < p.1 ∧ b < p.2 ∧ bx = mx * p.1 + a ∧ byy = my * p.2 + b := by
  unfold gridOf at h
  obtain ⟨⟨p, j⟩, hp, hm⟩ := List.mem_flatMap.1 h
  obtain ⟨b, hb, he⟩ := List.mem_map.1 hm
  have hb' := List.mem_range.1 hb
  simp only [Prod.mk.injEq] at he hb'
  obtain ⟨rfl, rfl, rfl⟩ := he
  have h1 : 0 < p.1 := by
    rcases Nat.eq_zero_or_pos p.1 with h0 | h0
    · rw [h0, Nat.zero_mul] at hb'; omega
    · exact h0
  exact ⟨p, List.mk_mem_zipIdx_iff_getElem?.1 hp, b % p.1, b / p.1, Nat.mod_lt _ h1,
    (Nat.div_lt_iff_lt_mul h1).2 (by rw [Nat.mul_comm]; exact hb'), rfl, rfl⟩

theorem gridOf_mem' {l : List (Nat × Nat)} {mx my i : Nat} {p : Nat × Nat} (h : l[i]? = some p) {a b : Nat} (ha : a < p.1)
    (hb : b < p.2) : (i, mx * p.1 + a, my * p.2 + b) ∈ gridOf l mx my := by
  unfold gridOf
  refine List.mem_flatMap.2 ⟨(p, i), List.mk_mem_zipIdx_iff_getElem?.2 h, List.mem_map.2 ⟨b * p.1 + a, ?_, ?_⟩⟩
  · rw [List.mem_range]
    have : (b + 1) * p.1 ≤ p.2 * p.1 := Nat.mul_le_mul_right _ hb
    rw [Nat.succ_mul, Nat.mul_comm p.2] at this
    simp only; omega
  · simp only [Prod.mk.injEq, true_and]
    rw [Nat.mul_comm b, Nat.mul_add_mod, Nat.mod_eq_of_lt ha, Nat.mul_add_div (by omega), Nat.div_eq_of_lt ha]
    simp

theorem gridOf_nodup (l : List (Nat × Nat)) (mx my : Nat) : (gridOf l mx my).Nodup := by
  unfold gridOf List.Nodup
  rw [List.pairwise_flatMap]
  refine ⟨?_, ?_⟩
  · rintro ⟨p, i⟩ _
    rw [List.pairwise_map]
    refine List.Pairwise.imp_of_mem (R := (· ≠ ·)) ?_ List.nodup_range
    intro a b ha hb hab h
    simp only [Prod.mk.injEq, true_and] at h
    apply hab
    have h1 : a % p.1 = b % p.1 := by omega
    have h2 : a / p.1 = b / p.1 := by omega
    rw [← Nat.div_add_mod a p.1, ← Nat.div_add_mod b p.1, h1, h2]
  · have : l.zipIdx.Pairwise (fun a b => a.2 < b.2) := by
      have h : (l.zipIdx.map (·.2)).Pairwise (· < ·) := by
        rw [List.zipIdx_map_snd]
        exact List.pairwise_lt_range'
      exact List.pairwise_map.1 h
    refine this.imp ?_
    intro a b hab x hx y hy h
    obtain ⟨c, _, rfl⟩ := List.mem_map.1 hx
    obtain ⟨d, _, rfl⟩ := List.mem_map.1 hy
    simp only [Prod.mk.injEq] at h
    omega

/-- All places of a frame, in blocks. -/
def places (l : List (Nat × Nat)) (cols n : Nat) : List (Nat × Nat × Nat) :=
  (List.range n).flatMap (fun k => gridOf l (k % cols) (k / cols))

theorem places_nodup (l : List (Nat × Nat)) (cols n : Nat) : (places l cols n).Nodup := by
  unfold places List.Nodup
  rw [List.pairwise_flatMap]
  refine ⟨fun k _ => gridOf_nodup _ _ _, ?_⟩
  refine List.Pairwise.imp ?_ (List.nodup_range (n := n))
  rintro j k hjk ⟨i, bx, byy⟩ hx y hy rfl
  obtain ⟨p, hp, a, b, ha, hb, h1, h2⟩ := gridOf_mem hx
  obtain ⟨p', hp', a', b', ha', hb', h1', h2'⟩ := gridOf_mem hy
  rw [hp] at hp'
  injection hp' with hp'
  subst hp'
  rw [h1] at h1'
  rw [h2] at h2'
  have e1 := (pos_inj ha ha' h1').1
  have e2 := (pos_inj hb hb' h2').1
  apply hjk
  rw [← Nat.div_add_mod j cols, ← Nat.div_add_mod k cols, e1, e2]

/-- The loop over MCUs visits these places. -/
theorem mcus_places (cs : List Component) (cols rows : Nat) :
    ((List.range rows).flatMap (fun my => (List.range cols).map (fun mx => (mx, my)))).flatMap
      (fun m => mcuBlocks cs m.1 m.2) = places (cs.map (fun c => (c.h, c.v))) cols (cols * rows) := by
  rw [range_grid, List.flatMap_map]
  simp only [mcuBlocks_grid]
  rfl

end Pixo.JpegDecode
