import Verif.Model.JpegParallel
import Verif.Proof.Parallel
import Verif.Proof.JpegProgFile
/-
The part of C25 about JPEG.
-/
namespace Pixo.Props
open Pixo.Jpeg

theorem overCoords_eq {α : Type} (order : List Nat) (ps : List (Nat × Nat)) (f : Nat × Nat → R α)
    (ho : ∀ i, i ∈ order ↔ i < ps.length) (hf : ∀ p ∈ ps, ∃ v, f p = .ok v) : overCoords order ps f = ps.mapM f := by
  by_cases hps : ps = []
  · subst hps
    cases order with
    | nil => rfl
    | cons i _ => exact absurd ((ho i).1 (by simp)) (by simp)
  obtain ⟨d, hd⟩ : ∃ d : α, True := by
    obtain ⟨p, ps', rfl⟩ := List.exists_cons_of_ne_nil hps
    obtain ⟨v, _⟩ := hf p (by simp)
    exact ⟨v, trivial⟩
  let g : Nat × Nat → α := fun p => match f p with | .ok v => v | .error _ => d
  have hg : ∀ p ∈ ps, f p = .ok (g p) := by
    intro p hp
    obtain ⟨v, hv⟩ := hf p hp
    simp only [g, hv]
  have h1 := Parallel.loop_ok (sched := some order) (n := ps.length) (fun i => do
    let p ← getChecked ps i
    f p) (fun i => g (ps.getD i (0, 0))) (fun o e => by cases e; exact ho) (by
      intro i hi
      simp only [getChecked, List.getElem?_eq_getElem hi, List.getD_eq_getElem?_getD]
      rw [ok_bind, hg _ (List.getElem_mem hi)]
      rfl)
  rw [overCoords, h1, Parallel.mapM_ok f g ps hg]
  congr 1
  refine List.ext_getElem (by simp) fun i h1 h2 => ?_
  simp only [List.length_map, List.length_range] at h1 h2
  simp [h1]

theorem mapM_pure_bind {α β γ : Type} (f : α → R β) (k : β → γ) (l : List α) :
    (l.mapM fun a => do
      let b ← f a
      return k b) = (do
      let bs ← l.mapM f
      return bs.map k) := by
  induction l with
  | nil => rfl
  | cons a l ih =>
    rw [List.mapM_cons, List.mapM_cons, ih]
    cases f a with
    | error e => rfl
    | ok b =>
      simp only [ok_bind]
      cases l.mapM f with
      | error e => rfl
      | ok bs => rfl

theorem unzip3_eq {α β γ : Type} (l : List (α × β × γ)) :
    unzip3 l = (l.map (·.1), l.map (·.2.1), l.map (·.2.2)) := by
  induction l with
  | nil => rfl
  | cons a l ih => obtain ⟨a, b, c⟩ := a; rw [unzip3, ih]; rfl

/-- The blocks of a component in MCUs made from results. -/
theorem component_map {α : Type} (k : α → List (Nat × List Int)) (j : Nat) (l : List α) :
    (l.map k).flatMap (fun m => (m.filter (·.1 = j)).map (·.2))
      = l.flatMap (fun a => ((k a).filter (·.1 = j)).map (·.2)) := by
  rw [List.flatMap_map]

theorem allCoefficients_parallel {c : Ctx} (h : c.Baseline) (order : List Nat)
    (ho : ∀ i, i ∈ order ↔ i < (coords c.width c.height c.step).length) :
    allCoefficientsParallel order c = allCoefficients c := by
  unfold allCoefficientsParallel allCoefficients Ctx.mcus
  by_cases hg : c.colorType = .gray
  · have hs : c.step = 8 := by unfold Ctx.step; rw [if_pos hg]
    rw [hs] at ho ⊢
    have e : (fun p : Nat × Nat => c.mcu p.1 p.2) = fun p => (do
        let b ← (do
          let (yb, _, _) ← extractBlock c.data c.width c.height p.1 p.2 c.colorType
          c.coeffs false yb)
        return [(0, b)]) := by
      funext p
      unfold Ctx.mcu
      rw [if_pos hg]
      simp only [bind_assoc]
    rw [if_pos hg, overCoords_eq _ _ _ ho, e, mapM_pure_bind]
    · simp only [bind_assoc]
      congr 1
      funext bs
      simp only [pure_bind, component_map]
      have f0 : ∀ l : List (List Int), l.flatMap (fun _ => ([] : List (List Int))) = [] := by
        intro l; induction l with
        | nil => rfl
        | cons a l ih => rw [List.flatMap_cons, ih]; rfl
      simp [f0]
    · intro p _
      obtain ⟨m, hm, _⟩ := mcu_ok h p.1 p.2
      rw [show c.mcu p.1 p.2 = _ from congrFun e p] at hm
      revert hm
      simp only
      cases extractBlock c.data c.width c.height p.1 p.2 c.colorType >>= fun r => c.coeffs false r.1 with
      | error e => intro hm; cases hm
      | ok v => intro _; exact ⟨v, rfl⟩
  · rw [if_neg hg]
    by_cases h4 : c.subsampling = .s444
    · have hs : c.step = 8 := by unfold Ctx.step; rw [if_neg hg, if_pos h4]
      rw [hs] at ho ⊢
      have e : (fun p : Nat × Nat => c.mcu p.1 p.2) = fun p => (do
          let r ← c.processBlock444 p.1 p.2
          return [(0, r.1), (1, r.2.1), (2, r.2.2)]) := by
        funext p
        unfold Ctx.mcu Ctx.processBlock444
        rw [if_neg hg, if_pos h4]
        simp only [bind_assoc, pure_bind]
      rw [if_pos h4, overCoords_eq _ _ _ ho, e, mapM_pure_bind]
      · simp only [bind_assoc]
        congr 1
        funext bs
        simp only [pure_bind, component_map, unzip3_eq]
        simp [List.map_eq_flatMap]
      · intro p _
        obtain ⟨m, hm, _⟩ := mcu_ok h p.1 p.2
        rw [show c.mcu p.1 p.2 = _ from congrFun e p] at hm
        revert hm
        cases c.processBlock444 p.1 p.2 with
        | error e => intro hm; cases hm
        | ok v => intro _; exact ⟨v, rfl⟩
    · have hs : c.step = 16 := by unfold Ctx.step; rw [if_neg hg, if_neg h4]
      rw [hs] at ho ⊢
      have e : (fun p : Nat × Nat => c.mcu p.1 p.2) = fun p => (do
          let r ← c.processMcu420 p.1 p.2
          return r.1.map (fun b => (0, b)) ++ [(1, r.2.1), (2, r.2.2)]) := by
        funext p
        unfold Ctx.mcu Ctx.processMcu420
        rw [if_neg hg, if_neg h4]
        simp only [bind_assoc, pure_bind]
      rw [if_neg h4, overCoords_eq _ _ _ ho, e, mapM_pure_bind]
      · simp only [bind_assoc]
        congr 1
        funext bs
        simp only [pure_bind, component_map, unzip3_eq]
        have f0 : ∀ l : List (List Int), ((l.map (fun b => ((0 : Nat), b))).filter (fun q => decide (q.1 = 0))).map (·.2) = l := by
          intro l; induction l with
          | nil => rfl
          | cons a l ih => simp [ih]
        have fk : ∀ k : Nat, k ≠ 0 → ∀ l : List (List Int), (l.map (fun b => ((0 : Nat), b))).filter (fun q => decide (q.1 = k)) = [] := by
          intro k hk l; induction l with
          | nil => rfl
          | cons a l ih => simp [ih, Ne.symm hk]
        simp only [List.filter_append, List.map_append, f0, fk 1 (by decide), fk 2 (by decide)]
        have g1 : ∀ (g : List (List Int) × List Int × List Int → List Int), bs.flatMap (fun a => [g a]) = bs.map g := by
          intro g; exact (List.map_eq_flatMap).symm
        simp [g1]
        rfl
      · intro p _
        obtain ⟨m, hm, _⟩ := mcu_ok h p.1 p.2
        rw [show c.mcu p.1 p.2 = _ from congrFun e p] at hm
        revert hm
        cases c.processMcu420 p.1 p.2 with
        | error e => intro hm; cases hm
        | ok v => intro _; exact ⟨v, rfl⟩

/-- Side of the units the tasks work on. -/
def unitSide (o : Jpeg.Options) : Nat := if o.colorType = .rgb ∧ o.subsampling = .s420 then 16 else 8

/-- C25 for JPEG: with the `parallel` feature, in whatever order the blocks are computed, the bytes are
those of the sequential loop. -/
theorem C25_jpeg (data : List UInt8) (o : Jpeg.Options) (sched : Option (List Nat))
    (hf : Parallel.Fair sched ((o.width + (unitSide o - 1)) / unitSide o * ((o.height + (unitSide o - 1)) / unitSide o))) :
    encodeWith sched data o = Jpeg.encode data o := by
  unfold encodeWith Jpeg.encode encodeInto
  cases hv : validate data o with
  | error e => rfl
  | ok u =>
    rw [ok_bind]
    have key : encodeBodyWith sched data o = encodeBody data o := by
      cases sched with
      | none => rfl
      | some order =>
        unfold encodeBodyWith encodeBody
        by_cases hp : o.progressive = true
        · have hpb := (encodeBody_progressive data o hv hp).1
          have hside : (progCtx data o).step = unitSide o := by
            unfold Ctx.step unitSide
            have hc := (validate_baseline hv).1.color
            change (if o.colorType = .gray then 8 else if o.subsampling = .s444 then 8 else 16) = _
            change o.colorType = .rgb ∨ o.colorType = .gray at hc
            rcases hc with hc | hc <;> cases hsub : o.subsampling <;> simp [hc]
          have he := allCoefficients_parallel hpb order (by
            rw [coords_length, hside]
            exact hf order rfl)
          simp only [if_pos hp]
          unfold encodeProgressiveWith encodeProgressive allCoefficientsWith
          unfold progCtx at he
          simp only [he]
        · simp only [if_neg hp]
    rw [key]
    cases encodeBody data o with
    | error e => rfl
    | ok b => rfl

/-- Four blocks in another order than the sequential one. -/
example : Parallel.Fair (some [2, 0, 3, 1]) ((9 + (unitSide ⟨9, 10, .gray, 75, .s444, none, false, true, true⟩ - 1)) /
    unitSide ⟨9, 10, .gray, 75, .s444, none, false, true, true⟩ *
    ((10 + (unitSide ⟨9, 10, .gray, 75, .s444, none, false, true, true⟩ - 1)) /
    unitSide ⟨9, 10, .gray, 75, .s444, none, false, true, true⟩)) := by
  intro order ho i
  cases ho
  have : unitSide ⟨9, 10, .gray, 75, .s444, none, false, true, true⟩ = 8 := by decide
  rw [this]
  simp
  omega

end Pixo.Props
