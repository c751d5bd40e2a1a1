import Verif.Model.PngWork
import Verif.Props.InflateWork
import Verif.Props.InflateCap
import Verif.Props.JpegWork
/-
C114: the work of decoding PNG.
-/
namespace Pixo.Props.PngWork
open Pixo Pixo.PngDecode
open Pixo.MatchLength (slice)
open Spec
open Pixo.Inflate (Counted tick free free_same tick_same)
open Pixo.Props.JpegWork (Spend)

/-! ### The same results -/

theorem chunkLoopC_same (data : List UInt8) : ∀ (fuel pos : Nat) (c : Chunks), (chunkLoopC data fuel pos c).res = chunkLoop data fuel pos c
  | 0, _, _ => rfl
  | fuel + 1, pos, c => by
    rw [chunkLoopC, chunkLoop]
    split
    · rw [tick_same]
      refine free_same fun n => free_same fun ty => ?_
      simp only
      split
      · rfl
      · refine free_same fun d => free_same fun s => ?_
        rw [tick_same, tick_same]
        split
        · rfl
        · split
          · rfl
          · rw [tick_same]
            exact free_same fun c => chunkLoopC_same data fuel _ c
    · rfl

theorem rowLoopC_same (data : List UInt8) (bpp sb : Nat) : ∀ (n y : Nat) (prev : List UInt8),
    (rowLoopC data bpp sb y n prev).res = rowLoop data bpp sb y n prev
  | 0, _, _ => rfl
  | n + 1, y, prev => by
    rw [rowLoopC, rowLoop, tick_same]
    refine free_same fun ft => free_same fun d => ?_
    rw [tick_same, tick_same]
    refine free_same fun row => ?_
    rw [tick_same]
    exact Inflate.bind_same (rowLoopC_same data bpp sb n _ _) fun _ => rfl

theorem unpackRowsC_same (data : List UInt8) (width depth rb : Nat) : ∀ (n row : Nat),
    (unpackRowsC data width depth rb row n).res = unpackRows data width depth rb row n
  | 0, _ => rfl
  | n + 1, row => by
    rw [unpackRowsC, unpackRows, tick_same]
    refine free_same fun d => ?_
    rw [tick_same]
    exact Inflate.bind_same (unpackRowsC_same data width depth rb n _) fun _ => rfl

theorem convertC_same (h : Ihdr) (raw : List UInt8) (palette : Option (List (UInt8 × UInt8 × UInt8))) (trns : Option (List UInt8)) :
    (convertC h raw palette trns).res = convert h raw palette trns := by
  unfold convertC convert
  cases h.kind with
  | gray =>
    dsimp only
    split
    · rfl
    · split
      · rfl
      · exact Inflate.bind_same (unpackRowsC_same _ _ _ _ _ _) fun _ => rfl
  | rgb => dsimp only; split <;> rfl
  | grayAlpha => dsimp only; split <;> rfl
  | rgba => dsimp only; split <;> rfl
  | indexed =>
    cases palette with
    | none => rfl
    | some p =>
      refine Inflate.bind_same (unpackRowsC_same _ _ _ _ _ _) fun a => ?_
      rw [tick_same, tick_same]
      split <;> rfl

theorem reconstructC_same (h : Ihdr) (data : List UInt8) (palette : Option (List (UInt8 × UInt8 × UInt8))) (trns : Option (List UInt8)) :
    (reconstructC h data palette trns).res = reconstruct h data palette trns := by
  unfold reconstructC reconstruct
  simp only
  split
  · rfl
  · rw [tick_same]
    exact Inflate.bind_same (rowLoopC_same _ _ _ _ _ _) fun _ => convertC_same _ _ _ _

theorem inflateZlibC_same (adler : List UInt8 → Nat) (data : List UInt8) (expected : Option Nat) :
    (inflateZlibC adler data expected).res = Inflate.inflateZlib adler data expected := by
  unfold inflateZlibC Inflate.inflateZlib
  rcases data with _ | ⟨cmf, _ | ⟨flg, rest⟩⟩
  · rfl
  · rfl
  dsimp only
  by_cases h1 : rest.length < 4
  · rw [if_pos h1, if_pos h1]; rfl
  rw [if_neg h1, if_neg h1]
  by_cases h2 : cmf.toNat &&& 0x0F ≠ 8
  · rw [if_pos h2, if_pos h2]; rfl
  rw [if_neg h2, if_neg h2]
  by_cases h3 : ((cmf.toNat <<< 8) ||| flg.toNat) % 31 ≠ 0
  · rw [if_pos h3, if_pos h3]; rfl
  rw [if_neg h3, if_neg h3]
  by_cases h4 : flg.toNat &&& 0x20 ≠ 0
  · rw [if_pos h4, if_pos h4]; rfl
  rw [if_neg h4, if_neg h4]
  refine Inflate.bind_same (Inflate.inflateC_same _) fun out => ?_
  rw [tick_same]
  split
  · rfl
  · cases expected with
    | none => rfl
    | some e =>
      dsimp only
      split <;> rfl

theorem finishC_same (adler : List UInt8 → Nat) (c : Chunks) : (finishC adler c).res = finish adler c := by
  unfold finishC finish
  cases c.ihdr with
  | none => rfl
  | some h =>
    refine free_same fun _ => ?_
    split
    · rfl
    · refine free_same fun size => Inflate.bind_same (inflateZlibC_same _ _ _) fun raw => Inflate.bind_same (reconstructC_same _ _ _ _) fun p => ?_
      rw [tick_same]
      rfl

theorem decodePngC_same (adler : List UInt8 → Nat) (data : List UInt8) : (decodePngC adler data).res = decodePng adler data := by
  unfold decodePngC decodePng
  split
  · rfl
  · exact Inflate.bind_same (chunkLoopC_same _ _ _ _) fun c => finishC_same adler c

/-! ### Steps -/

theorem slice_len {l d : List UInt8} {a n : Nat} (h : slice l a n = .ok d) : d.length = n := by
  unfold slice at h
  split at h
  · cases h
    rw [List.length_take, List.length_drop]
    omega
  · cases h

/-- The bytes of IDAT and tRNS collected. -/
def weight (c : Chunks) : Nat := c.idat.length + alphaSteps c.trns

theorem armSteps_le (ty d : List UInt8) : armSteps ty d ≤ d.length + 1 := by
  unfold armSteps
  split
  · omega
  split
  · omega
  split
  · omega
  split <;> omega

theorem add_weight {c c' : Chunks} {ty d : List UInt8} (h : c.add ty d = .ok c') : weight c' ≤ weight c + d.length := by
  unfold Chunks.add at h
  split at h
  · cases hp : parseIhdr d with
    | error e => rw [hp] at h; cases h
    | ok i => rw [hp] at h; cases h; exact Nat.le_add_right _ _
  split at h
  · cases hp : parsePalette d with
    | error e => rw [hp] at h; cases h
    | ok i => rw [hp] at h; cases h; exact Nat.le_add_right _ _
  split at h
  · cases h
    unfold weight alphaSteps
    simp only [Option.getD_some]
    omega
  split at h
  · cases h
    unfold weight
    simp only [List.length_append]
    omega
  · cases h
    exact Nat.le_add_right _ _

/-- What is left pays for as many bytes as have been collected, at `k` each. -/
theorem chunkLoopC_spend (k : Nat) (data : List UInt8) : ∀ (fuel pos : Nat) (c : Chunks), pos ≤ data.length →
    Spend (chunkLoopC data fuel pos c) (k * weight c + (k + 3) * (data.length - pos)) (fun c => k * weight c)
  | 0, _, _, _ => Spend.free fun _ h => by cases h
  | fuel + 1, pos, c, hp => by
    rw [chunkLoopC]
    split
    · rename_i h12
      have e : k * weight c + (k + 3) * (data.length - pos) = 1 + (k * weight c + (k + 3) * (data.length - pos) - 1) := by
        have : 3 * (data.length - pos) ≤ (k + 3) * (data.length - pos) := Nat.mul_le_mul_right _ (by omega)
        omega
      rw [e]
      refine Spend.tick_bind (Spend.free_bind fun n _ => Spend.free_bind fun ty _ => ?_)
      simp only
      split
      · exact Spend.free fun _ h => by cases h
      · rename_i hc
        refine Spend.free_bind fun d hd => Spend.free_bind fun s _ => ?_
        have hdl := slice_len hd
        have hs : (k + 3) * (data.length - pos) = (k + 3) * (data.length - (pos + 8 + n + 4)) + (k * (n + 12) + 3 * (n + 12)) := by
          rw [← Nat.add_mul, ← Nat.mul_add]
          congr 1
          omega
        have hk : k * (n + 12) = k * n + k * 12 := Nat.mul_add _ _ _
        have e2 : k * weight c + (k + 3) * (data.length - pos) - 1 = (4 + n) + ((4 + n) + ((n + 1) +
            (k * (weight c + n) + (k + 3) * (data.length - (pos + 8 + n + 4)) + (26 + k * 12)))) := by
          rw [Nat.mul_add]
          omega
        rw [e2]
        refine Spend.tick_bind (Spend.tick_bind ?_)
        split
        · exact Spend.free fun _ h => by cases h
        · split
          · refine Spend.pure ?_
            rw [Nat.mul_add]
            omega
          · have ha := armSteps_le ty d
            rw [hdl] at ha
            refine Spend.mono (l := fun c => k * weight c) (Spend.tick_bind (b := k * (weight c + n) + (k + 3) * (data.length - (pos + 8 + n + 4)))
              (Spend.free_bind fun c' hc' => ?_)) (by omega) (fun _ => by omega)
            have hw := add_weight hc'
            rw [hdl] at hw
            refine (chunkLoopC_spend k data fuel _ c' (by omega)).mono ?_ (fun _ => ?_)
            all_goals
              have := Nat.mul_le_mul_left k hw
              omega
    · exact Spend.free fun _ h => by cases h

theorem unfilterRounds_le (f : UInt8) (n bpp : Nat) : unfilterRounds f n bpp ≤ n := by
  unfold unfilterRounds
  split
  · omega
  split
  · omega
  split <;> omega

theorem rowLoopC_steps (data : List UInt8) (bpp sb : Nat) : ∀ (n y : Nat) (prev : List UInt8),
    Spend (rowLoopC data bpp sb y n prev) (n * (1 + 3 * sb)) (fun _ => 0)
  | 0, _, _ => Spend.pure (Nat.zero_le _)
  | n + 1, y, prev => by
    rw [rowLoopC, show (n + 1) * (1 + 3 * sb) = 1 + (sb + (sb + (sb + n * (1 + 3 * sb)))) by rw [Nat.add_mul]; omega]
    refine Spend.tick_bind (Spend.free_bind fun ft _ => Spend.free_bind fun d _ => Spend.tick_bind ?_)
    have := unfilterRounds_le ft sb bpp
    refine Spend.mono (l := fun _ => 0) (Spend.tick_bind (b := sb + n * (1 + 3 * sb)) (Spend.free_bind fun row _ => Spend.tick_bind ?_)) (by omega) (fun _ => by omega)
    exact (rowLoopC_steps data bpp sb n _ _).bind fun _ _ => Spend.pure (Nat.le_refl _)

theorem unpackSteps_le (n width depth : Nat) : unpackSteps n width depth ≤ 9 * n := by
  unfold unpackSteps
  repeat' split
  all_goals omega

theorem pushLoop_len (width : Nat) : ∀ (ss out : List UInt8), (pushLoop width ss out).length ≤ out.length + ss.length
  | [], _ => Nat.le_refl _
  | s :: ss, out => by
    rw [pushLoop]
    split
    · exact Nat.le_add_right _ _
    · have := pushLoop_len width ss (out ++ [s])
      simp only [List.length_append, List.length_cons, List.length_nil] at *
      omega

theorem pushIf_len (width : Nat) (out : List UInt8) (s : UInt8) : (pushIf width out s).length ≤ out.length + 1 := by
  unfold pushIf
  split <;> simp

theorem foldl_len {f : List UInt8 → UInt8 → List UInt8} (h : ∀ out b, (f out b).length ≤ out.length + 8) : ∀ (l out : List UInt8),
    (l.foldl f out).length ≤ out.length + 8 * l.length
  | [], _ => Nat.le_refl _
  | b :: l, out => by
    have h1 := foldl_len h l (f out b)
    have h2 := h out b
    rw [List.foldl_cons, List.length_cons]
    omega

theorem unpackRow_len (d : List UInt8) (width depth : Nat) : (unpackRow d width depth).length ≤ 8 * d.length := by
  unfold unpackRow
  simp only
  refine Nat.le_trans (List.length_take_le' _ _) ?_
  split
  · have := foldl_len (f := fun out byte => pushLoop width (bits1 byte) out) (fun out b => pushLoop_len width (bits1 b) out) d []
    rwa [List.length_nil, Nat.zero_add] at this
  split
  · have := foldl_len (f := fun out byte => pushLoop width (bits2 byte) out)
      (fun out b => Nat.le_trans (pushLoop_len width (bits2 b) out) (Nat.add_le_add_left (show 4 ≤ 8 by decide) _)) d []
    rwa [List.length_nil, Nat.zero_add] at this
  split
  · have := foldl_len (f := fun out (byte : UInt8) => pushIf width (pushIf width out (byte >>> 4)) (byte &&& 0xF))
      (fun out b => by
        have h1 := pushIf_len width out (b >>> 4)
        have h2 := pushIf_len width (pushIf width out (b >>> 4)) (b &&& 0xF)
        omega) d []
    rwa [List.length_nil, Nat.zero_add] at this
  split
  · rw [List.length_take]
    omega
  · exact Nat.zero_le _

/-- Unpacking leaves a step for each sample. -/
theorem unpackRowsC_spend (data : List UInt8) (width depth rb : Nat) : ∀ (n row : Nat),
    Spend (unpackRowsC data width depth rb row n) (n * (1 + 17 * rb)) (fun l => l.length)
  | 0, _ => Spend.pure (Nat.zero_le _)
  | n + 1, row => by
    rw [unpackRowsC, show (n + 1) * (1 + 17 * rb) = 1 + (9 * rb + (8 * rb + n * (1 + 17 * rb))) by rw [Nat.add_mul]; omega]
    refine Spend.tick_bind (Spend.free_bind fun d hd => ?_)
    have hl := slice_len hd
    have hs := unpackSteps_le d.length width depth
    have hr := unpackRow_len d width depth
    rw [hl] at hs hr
    rw [hl]
    refine Spend.mono (Spend.tick_bind (b := 8 * rb + n * (1 + 17 * rb)) (Spend.bind (l := fun (l : List UInt8) => 8 * rb + l.length)
      ((unpackRowsC_spend data width depth rb n _).mono (by omega) (fun _ => by omega)) fun l _ => Spend.pure (l := fun (l : List UInt8) => l.length) ?_))
      (by omega) (fun _ => by omega)
    rw [List.length_append]
    omega

theorem highBytesC_steps (k : Nat) (places : List Nat) (l : List UInt8) (h : 1 + places.length ≤ k) : (highBytesC k places l).steps ≤ l.length := by
  show l.length / k * (1 + places.length) + 0 ≤ _
  have h1 := Nat.mul_le_mul_left (l.length / k) h
  have h2 := Nat.div_mul_le_self l.length k
  omega

theorem spend_steps {α : Type} {x : Counted α} {b : Nat} {l : α → Nat} (h : Spend x b l) : x.steps ≤ b := h.1

/-- Converting takes at most 17 steps for each byte of the scanlines. -/
theorem convertC_steps (h : Ihdr) (raw : List UInt8) (hraw : raw.length = h.height * (layout h).2) (palette : Option (List (UInt8 × UInt8 × UInt8)))
    (trns : Option (List UInt8)) : (convertC h raw palette trns).steps ≤ 17 * (h.height * (1 + (layout h).2)) + alphaSteps trns := by
  have hle : raw.length ≤ 17 * (h.height * (1 + (layout h).2)) + alphaSteps trns := by
    rw [hraw, Nat.mul_add]
    omega
  have hto : (toVecC raw).steps ≤ raw.length := Nat.le_refl _
  have hun : h.height * (1 + 17 * (layout h).2) ≤ 17 * (h.height * (1 + (layout h).2)) := by
    rw [Nat.mul_left_comm]
    exact Nat.mul_le_mul_left _ (by omega)
  unfold convertC
  cases hk : h.kind with
  | gray =>
    dsimp only
    split
    · omega
    · split
      · have := highBytesC_steps 2 [0] raw (by decide)
        omega
      · have hl : ceil8 (h.width * h.depth) = (layout h).2 := by unfold layout; rw [hk]
        unfold unpackGrayC
        rw [hl]
        have : Spend (unpackRowsC raw h.width h.depth (layout h).2 0 h.height >>= fun pixels => tick pixels.length >>= fun _ =>
            (pure (pixels.map (scaleTo8 · h.depth)) : Counted (List UInt8))) (h.height * (1 + 17 * (layout h).2)) (fun _ => 0) :=
          (unpackRowsC_spend raw h.width h.depth (layout h).2 h.height 0).bind fun p _ => Spend.tick_bind (b := 0) (Spend.pure (Nat.le_refl _))
        have := spend_steps this
        exact Nat.le_trans this (by omega)
  | rgb =>
    dsimp only
    split
    · omega
    · have := highBytesC_steps 6 [0, 2, 4] raw (by decide)
      omega
  | grayAlpha =>
    dsimp only
    split
    · omega
    · have := highBytesC_steps 4 [0, 2] raw (by decide)
      omega
  | rgba =>
    dsimp only
    split
    · omega
    · have := highBytesC_steps 8 [0, 2, 4, 6] raw (by decide)
      omega
  | indexed =>
    cases palette with
    | none => exact Nat.zero_le _
    | some p =>
      have hl : ceil8 (h.width * h.depth) = (layout h).2 := by unfold layout; rw [hk]
      dsimp only
      unfold convertIndexedC
      rw [hl]
      refine Nat.le_trans (spend_steps (b := h.height * (1 + 17 * (layout h).2) + alphaSteps trns) (l := fun _ => 0)
        (Spend.bind (l := fun (l : List UInt8) => alphaSteps trns + l.length) ((unpackRowsC_spend raw h.width h.depth (layout h).2 h.height 0).mono
          (by omega) (fun _ => by omega)) fun l _ => Spend.tick_bind (Spend.tick_bind (b := 0) ?_))) (by omega)
      split <;> exact Spend.pure (Nat.le_refl _)

theorem reconstructC_steps (h : Ihdr) (hh : 0 < h.height) (data : List UInt8) (palette : Option (List (UInt8 × UInt8 × UInt8)))
    (trns : Option (List UInt8)) : (reconstructC h data palette trns).steps ≤ 22 * data.length + alphaSteps trns := by
  unfold reconstructC
  simp only
  split
  · exact Nat.zero_le _
  · rename_i hd
    have h1 : 1 * (1 + (layout h).2) ≤ h.height * (1 + (layout h).2) := Nat.mul_le_mul_right _ hh
    have h2 : h.height * (1 + 3 * (layout h).2) ≤ 3 * (h.height * (1 + (layout h).2)) := by
      rw [Nat.mul_left_comm]
      exact Nat.mul_le_mul_left _ (by omega)
    refine Nat.le_trans (spend_steps (b := 2 * (layout h).2 + (h.height * (1 + 3 * (layout h).2) + (17 * (h.height * (1 + (layout h).2)) + alphaSteps trns)))
      (l := fun _ => 0) (Spend.tick_bind ?_)) (by omega)
    refine Spend.bind (l := fun _ => 17 * (h.height * (1 + (layout h).2)) + alphaSteps trns)
      ((rowLoopC_steps data _ _ h.height 0 _).mono (by omega) (fun _ => by omega)) fun raw hraw => ?_
    rw [rowLoopC_same] at hraw
    have hl : raw.length = h.height * (layout h).2 :=
      (rowLoop_safe (data := data) (bpp := (layout h).1) (sb := (layout h).2) h.height 0 (List.replicate (layout h).2 0) (by rw [Nat.zero_add]; omega) (by simp)).of_ok hraw
    have := convertC_steps h raw hl palette trns
    exact ⟨this, fun _ _ => this⟩

theorem inflateZlibC_steps (adler : List UInt8 → Nat) (data : List UInt8) (expected : Option Nat) :
    Spend (inflateZlibC adler data expected) (1423736 * data.length) (fun out => 22 * out.length) := by
  unfold inflateZlibC
  rcases data with _ | ⟨cmf, _ | ⟨flg, rest⟩⟩
  · exact Spend.free fun _ h => by cases h
  · exact Spend.free fun _ h => by cases h
  dsimp only
  split
  · exact Spend.free fun _ h => by cases h
  split
  · exact Spend.free fun _ h => by cases h
  split
  · exact Spend.free fun _ h => by cases h
  split
  · exact Spend.free fun _ h => by cases h
  have hs := Inflate.inflateC_steps (rest.take (rest.length - 4))
  have hl : (rest.take (rest.length - 4)).length = rest.length - 4 := by rw [List.length_take]; omega
  rw [hl] at hs
  refine Spend.bind (l := fun out => out.length + 22 * out.length) ⟨?_, fun out ho => ?_⟩ fun out _ => Spend.tick_bind ?_
  · simp only [List.length_cons]
    omega
  · rw [Inflate.inflateC_same] at ho
    have := C17_output_bound _ _ ho
    rw [hl] at this
    simp only [List.length_cons]
    omega
  · split
    · exact Spend.free fun _ h => by cases h
    · cases expected with
      | none => exact Spend.pure (Nat.le_refl _)
      | some e =>
        dsimp only
        split
        · exact Spend.free fun _ h => by cases h
        · exact Spend.pure (Nat.le_refl _)

theorem finishC_steps (adler : List UInt8 → Nat) (c : Chunks) : (finishC adler c).steps ≤ 1423736 * weight c := by
  unfold finishC
  cases c.ihdr with
  | none => exact Nat.zero_le _
  | some h =>
    refine Nat.le_trans (spend_steps (b := 1423736 * c.idat.length + (alphaSteps c.trns + alphaSteps c.trns)) (l := fun _ => 0)
      (Spend.free_bind fun u hu => ?_)) (by unfold weight; omega)
    have hh : 0 < h.height := by
      rcases validate_cases h with ⟨-, hv, -⟩ | ⟨e, he⟩
      · exact hv.h0
      · rw [he.1] at hu; cases hu
    split
    · exact Spend.free fun _ h => by cases h
    · refine Spend.free_bind fun size _ => Spend.bind (l := fun out => 22 * out.length + (alphaSteps c.trns + alphaSteps c.trns))
        ((inflateZlibC_steps adler c.idat (some size)).mono (by omega) (fun _ => by omega)) fun raw _ => ?_
      have hr := reconstructC_steps h hh raw c.palette c.trns
      refine Spend.bind (l := fun _ => alphaSteps c.trns) ⟨by omega, fun _ _ => by dsimp only; omega⟩ fun p _ => ?_
      exact Spend.tick_bind (b := 0) (Spend.pure (Nat.le_refl _))

/-! ## C114 -/

/-- C114: decoding a PNG file takes a number of steps proportional to the size of the file, whatever image it announces. -/
theorem C114 (adler : List UInt8 → Nat) (data : List UInt8) :
    (decodePngC adler data).res = decodePng adler data ∧ (decodePngC adler data).steps ≤ 1423739 * data.length := by
  refine ⟨decodePngC_same adler data, ?_⟩
  unfold decodePngC
  split
  · exact Nat.zero_le _
  · rename_i h
    have h8 : 8 ≤ data.length := by
      rcases Nat.lt_or_ge data.length 8 with h' | h'
      · exact absurd (Or.inl h') h
      · exact h'
    refine spend_steps (l := fun _ => 0) (((chunkLoopC_spend 1423736 data (data.length + 1) 8 ⟨none, [], none, none⟩ h8).mono (l' := fun c => 1423736 * weight c) ?_ ?_).bind fun c _ => ?_)
    · show 1423736 * 0 + _ ≤ _
      omega
    · intro c
      show 1423736 * weight c + (1423736 * 0 + _) ≤ 1423736 * weight c + _
      omega
    · have := finishC_steps adler c
      exact ⟨this, fun _ _ => this⟩

theorem bind_first {α β : Type} (x : Counted α) (f : α → Counted β) : x.steps ≤ (x >>= f).steps := by
  obtain ⟨res, n⟩ := x
  cases res with
  | error e => exact Nat.le_refl _
  | ok a => exact Nat.le_add_right _ _

theorem bind_second {α β : Type} {x : Counted α} {a : α} (h : x.res = .ok a) (f : α → Counted β) : (f a).steps ≤ (x >>= f).steps := by
  obtain ⟨res, n⟩ := x
  cases h
  exact Nat.le_add_left _ _

/-- C114: some files take many steps: there are files of at most `2 k + 120` bytes, announcing one pixel, that take 85484 steps for each
of the `k` bytes which are decompressed before they are refused. -/
theorem C114_slow (k : Nat) (hk : 3 ≤ k) (hk' : k < 2 ^ 29) : ∃ data : List UInt8, data.length ≤ 2 * k + 120 ∧
    ∀ adler, decodePng adler data = .error .invalid ∧ 85484 * k ≤ (decodePngC adler data).steps := by
  obtain ⟨bytes, hb, -, hr, hs⟩ := C111_slow k
  have he : Inflate.inflate bytes = .ok (List.replicate k 0) := by rw [← Inflate.inflateC_same]; exact hr
  refine ⟨dotFile (0x78 :: 0x01 :: (bytes ++ [0, 0, 0, 0])), ?_, fun adler => ?_⟩
  · rw [dotFile_length]
    simp only [List.length_cons, List.length_append, List.length_nil]
    omega
  have hz : (0x78 :: 0x01 :: (bytes ++ [0, 0, 0, 0]) : List UInt8).length < 2 ^ 31 := by
    simp only [List.length_cons, List.length_append, List.length_nil]
    omega
  have h4 : ¬ (bytes ++ [0, 0, 0, 0]).length < 4 := by simp
  have ht : (bytes ++ [0, 0, 0, 0]).take ((bytes ++ [0, 0, 0, 0]).length - 4) = bytes := by simp
  have hc := dotFile_chunks _ hz
  have g : ¬ ((dotFile (0x78 :: 0x01 :: (bytes ++ [0, 0, 0, 0]))).length < 8 ∨
      (dotFile (0x78 :: 0x01 :: (bytes ++ [0, 0, 0, 0]))).take 8 ≠ signature) := by
    rw [dotFile_length]
    have : (dotFile (0x78 :: 0x01 :: (bytes ++ [0, 0, 0, 0]))).take 8 = signature := by
      unfold dotFile; rw [List.take_left' (l₁ := Png.signature) (i := 8) rfl]; rfl
    rw [this]
    simp; omega
  generalize dotFile (0x78 :: 0x01 :: (bytes ++ [0, 0, 0, 0])) = data at hc g
  constructor
  · unfold decodePng
    rw [if_neg g, hc, ok_bind]
    unfold finish
    dsimp only
    rw [show validate ⟨1, 1, 8, .gray, 0, 0, 0⟩ = .ok () by decide, ok_bind, if_neg (by simp),
      show expectedSize ⟨1, 1, 8, .gray, 0, 0, 0⟩ = .ok 2 by decide, ok_bind]
    unfold Inflate.inflateZlib
    dsimp only
    rw [if_neg h4, if_neg (by decide), if_neg (by decide), if_neg (by decide), ht, he, ok_bind,
      if_pos (show (List.replicate k (0 : UInt8)).length ≠ 2 by rw [List.length_replicate]; omega)]
    split <;> rfl
  · unfold decodePngC
    rw [if_neg g]
    rw [← chunkLoopC_same] at hc
    refine Nat.le_trans ?_ (bind_second hc _)
    unfold finishC
    dsimp only
    refine Nat.le_trans ?_ (bind_second (a := ()) (show (free (validate ⟨1, 1, 8, .gray, 0, 0, 0⟩)).res = .ok () by decide) _)
    rw [if_neg (by simp)]
    refine Nat.le_trans ?_ (bind_second (a := 2) (show (free (expectedSize ⟨1, 1, 8, .gray, 0, 0, 0⟩)).res = .ok 2 by decide) _)
    refine Nat.le_trans ?_ (bind_first _ _)
    unfold inflateZlibC
    dsimp only
    rw [if_neg h4, if_neg (by decide), if_neg (by decide), if_neg (by decide), ht]
    exact Nat.le_trans hs (bind_first _ _)

/-- Each byte of the result is paid for, up to a factor of four. -/
def Paid {α : Type} (size : α → Nat) (x : Counted α) : Prop := ∀ a, x.res = .ok a → size a ≤ 4 * x.steps

theorem Paid.bind {α β : Type} {size : β → Nat} {x : Counted α} {f : α → Counted β} (h : ∀ a, x.res = .ok a → Paid size (f a)) : Paid size (x >>= f) := by
  intro b hb
  obtain ⟨res, n⟩ := x
  cases res with
  | error e => cases hb
  | ok a =>
    have h1 := h a rfl b hb
    have h2 := bind_second (x := ⟨.ok a, n⟩) rfl f
    omega

theorem Paid.error {α : Type} {size : α → Nat} (e : Err) : Paid size (free (.error e)) := fun _ h => by cases h

theorem Paid.tick {α : Type} {size : α → Nat} {n : Nat} {x : Unit → Counted α} (h : ∀ a, (x ()).res = .ok a → size a ≤ 4 * n) :
    Paid size (Inflate.tick n >>= x) := by
  intro a ha
  rw [tick_same] at ha
  have := h a ha
  have := bind_first (Inflate.tick n) x
  have e : (Inflate.tick n).steps = n := rfl
  omega

theorem mapM_lengths {α : Type} {f : α → R (List UInt8)} {n : Nat} (hf : ∀ a b, f a = .ok b → b.length = n) : ∀ (l : List α) {out : List (List UInt8)},
    l.mapM f = .ok out → out.flatten.length = l.length * n
  | [], out, h => by cases h; simp
  | a :: l, out, h => by
    rw [List.mapM_cons] at h
    cases ha : f a with
    | error e => rw [ha] at h; cases h
    | ok b =>
      rw [ha, ok_bind] at h
      cases hl : l.mapM f with
      | error e => rw [hl] at h; cases h
      | ok bs =>
        rw [hl, ok_bind] at h
        cases h
        rw [List.flatten_cons, List.length_append, mapM_lengths hf l hl, hf a b ha, List.length_cons, Nat.add_mul]
        omega

theorem mapM_length {α : Type} {f : α → R UInt8} : ∀ (l : List α) {out : List UInt8}, l.mapM f = .ok out → out.length = l.length
  | [], out, h => by cases h; rfl
  | a :: l, out, h => by
    rw [List.mapM_cons] at h
    cases ha : f a with
    | error e => rw [ha] at h; cases h
    | ok b =>
      rw [ha, ok_bind] at h
      cases hl : l.mapM f with
      | error e => rw [hl] at h; cases h
      | ok bs =>
        rw [hl, ok_bind] at h
        cases h
        rw [List.length_cons, List.length_cons, mapM_length l hl]

theorem highBytesC_paid (k : Nat) (places : List Nat) (l : List UInt8) : Paid List.length (highBytesC k places l) := by
  refine Paid.tick fun a ha => ?_
  change highBytes k places l = .ok a at ha
  unfold highBytes at ha
  cases hp : (chunksExact k l).mapM fun c => places.mapM (getChecked c) with
  | error e => rw [hp] at ha; cases ha
  | ok parts =>
    rw [hp, ok_bind] at ha
    cases ha
    rw [mapM_lengths (n := places.length) (fun c b h => mapM_length _ h) _ hp]
    have : (chunksExact k l).length = l.length / k := by simp [chunksExact]
    rw [this, Nat.mul_add]
    omega

theorem toVecC_paid (raw : List UInt8) : Paid List.length (toVecC raw) :=
  Paid.tick fun a ha => by
    cases ha
    omega

theorem convertC_paid (h : Ihdr) (raw : List UInt8) (palette : Option (List (UInt8 × UInt8 × UInt8))) (trns : Option (List UInt8)) :
    Paid List.length (convertC h raw palette trns) := by
  unfold convertC
  cases h.kind with
  | gray =>
    dsimp only
    split
    · exact toVecC_paid _
    · split
      · exact highBytesC_paid _ _ _
      · refine Paid.bind fun pixels _ => Paid.tick fun a ha => ?_
        cases ha
        rw [List.length_map]
        omega
  | rgb => dsimp only; split; exacts [toVecC_paid _, highBytesC_paid _ _ _]
  | grayAlpha => dsimp only; split; exacts [toVecC_paid _, highBytesC_paid _ _ _]
  | rgba => dsimp only; split; exacts [toVecC_paid _, highBytesC_paid _ _ _]
  | indexed =>
    cases palette with
    | none => exact Paid.error _
    | some p =>
      refine Paid.bind fun idx _ => Paid.bind fun _ _ => Paid.tick fun a ha => ?_
      have len : ∀ (f : UInt8 → List UInt8) (l : List UInt8), (∀ i, (f i).length ≤ 4) → (l.flatMap f).length ≤ 4 * l.length := by
        intro f l hf
        induction l with
        | nil => simp
        | cons i l ih =>
          have := hf i
          rw [List.flatMap_cons, List.length_append, List.length_cons]
          omega
      split at ha
      · cases ha
        exact len _ _ fun i => by unfold expandRgba; split <;> simp
      · cases ha
        exact len _ _ fun i => by unfold expandRgb; split <;> simp

/-- C114, a lower bound: an image that is decoded took at least a step for each four of its bytes. -/
theorem C114_paid (adler : List UInt8 → Nat) (data : List UInt8) {img : PngImage} (h : decodePng adler data = .ok img) :
    img.pixels.length ≤ 4 * (decodePngC adler data).steps := by
  have key : Paid (fun i : PngImage => i.pixels.length) (decodePngC adler data) := by
    unfold decodePngC
    split
    · exact Paid.error _
    · refine Paid.bind fun c _ => ?_
      unfold finishC
      split
      · exact Paid.error _
      · rename_i ih _
        refine Paid.bind fun _ _ => ?_
        split
        · exact Paid.error _
        · refine Paid.bind fun size _ => Paid.bind fun raw _ => ?_
          intro i hi
          have hr : ∀ px, (reconstructC ih raw c.palette c.trns).res = .ok px → px.length ≤ 4 * (reconstructC ih raw c.palette c.trns).steps := by
            show Paid List.length _
            unfold reconstructC
            dsimp only
            split
            · exact Paid.error _
            · exact Paid.bind fun _ _ => Paid.bind fun _ _ => convertC_paid _ _ _ _
          have hb := bind_first (reconstructC ih raw c.palette c.trns)
            fun pixels => Inflate.tick (alphaSteps c.trns) >>= fun _ => (pure ⟨ih.width, ih.height, pixels, outputType ih c.trns⟩ : Counted PngImage)
          refine Nat.le_trans ?_ (Nat.mul_le_mul_left 4 hb)
          cases hp : (reconstructC ih raw c.palette c.trns).res with
          | error e =>
            rw [Inflate.bind_res, hp] at hi
            cases hi
          | ok px =>
            rw [Inflate.bind_res, hp] at hi
            cases hi
            exact hr px hp
  exact key img (by rw [decodePngC_same]; exact h)

/-- A file of less than 40 kB with one pixel that takes more than a thousand million steps. -/
example : ∃ data : List UInt8, data.length < 40000 ∧ 10 ^ 9 < (decodePngC Spec.adler32 data).steps ∧
    (decodePngC Spec.adler32 data).steps ≤ 1423739 * data.length := by
  obtain ⟨data, h, hs⟩ := C114_slow 19000 (by decide) (by decide)
  have := (hs Spec.adler32).2
  exact ⟨data, by omega, by omega, (C114 _ _).2⟩

/-- The image of 2 by 2 pixels of C107: its file has 88 bytes and takes 159 steps. -/
example : (decodePngC Spec.adler32 keyPng).res = .ok ⟨2, 2, [10, 200, 7, 9], .gray⟩ ∧
    keyPng.length = 88 ∧ (decodePngC Spec.adler32 keyPng).steps = 159 := by
  decide +kernel

example : 4 ≤ 4 * (decodePngC Spec.adler32 keyPng).steps :=
  C114_paid Spec.adler32 keyPng (img := ⟨2, 2, [10, 200, 7, 9], .gray⟩) (by decide +kernel)

end Pixo.Props.PngWork
