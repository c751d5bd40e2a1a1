import Verif.Model.QuantizeWork
import Verif.Proof.InflateWork
import Verif.Props.SampleCap
/-
C117: the work of quantization.
-/
namespace Pixo.Props.QuantizeWork
open Pixo Pixo.Quantize
open Pixo.Palette (Rgba key sortBy sortKeys sortBy_perm)
open Pixo.PngDecode (chunksExact)
open Pixo.Inflate (Counted tick free free_same tick_same)

/-! ### The same results -/

theorem cutLoopC_same (m : Nat) : ∀ (fuel : Nat) (bs : List (List ColorCount)), (cutLoopC m fuel bs).res = cutLoop m fuel bs
  | 0, _ => rfl
  | fuel + 1, bs => by
    rw [cutLoopC, cutLoop]
    by_cases h : bs.length < m
    · rw [if_pos h, if_pos h, tick_same]
      refine free_same fun w => ?_
      cases w with
      | none => rfl
      | some w =>
        refine free_same fun b => ?_
        by_cases hb : b.length > 1
        · rw [if_pos hb, if_pos hb, tick_same]
          exact free_same fun q => cutLoopC_same m fuel _
        · rw [if_neg hb, if_neg hb]
          rfl
    · rw [if_neg h, if_neg h]
      rfl

theorem medianCutC_same (colors : List ColorCount) (m : Nat) : (medianCutC colors m).res = medianCut colors m := by
  unfold medianCutC medianCut
  by_cases h : colors.isEmpty = true
  · rw [if_pos h, if_pos h]
    rfl
  · rw [if_neg h, if_neg h, tick_same]
    exact Inflate.bind_same (cutLoopC_same _ _ _) fun _ => rfl

theorem quantizeWithC_same (env : Env) (px : List Rgba) (colors : List ColorCount) (m : Nat) (d : Bool) :
    (quantizeWithC env px colors m d).res = quantizeWith env px colors m d := by
  unfold quantizeWithC quantizeWith
  by_cases h : colors.length ≤ m
  · rw [if_pos h, if_pos h]
    rfl
  · rw [if_neg h, if_neg h]
    refine Inflate.bind_same (medianCutC_same _ _) fun p => ?_
    rw [tick_same, tick_same]
    cases d with
    | false => rfl
    | true => exact free_same fun _ => rfl

theorem quantizeImageC_same (env : Env) (data : List UInt8) (ct : ColorType) (m : Nat) (d : Bool) :
    (quantizeImageC env data ct m d).res = quantizeImage env data ct m d := by
  unfold quantizeImageC quantizeImage
  dsimp only
  by_cases h : ct.bytesPerPixel ≠ 3 ∧ ct.bytesPerPixel ≠ 4
  · rw [if_pos h, if_pos h]
    rfl
  · rw [if_neg h, if_neg h]
    refine free_same fun keys => ?_
    rw [tick_same]
    exact free_same fun px => quantizeWithC_same _ _ _ _ _

/-! ### Costs -/

/-- At most `b` steps, and a result with `P` if there is one. -/
def Cost {α : Type} (x : Counted α) (b : Nat) (P : α → Prop) : Prop := x.steps ≤ b ∧ ∀ a, x.res = .ok a → P a

theorem Cost.bind {α β : Type} {x : Counted α} {f : α → Counted β} {b c : Nat} {P : α → Prop} {Q : β → Prop} (hx : Cost x b P)
    (hf : ∀ a, x.res = .ok a → P a → Cost (f a) c Q) : Cost (x >>= f) (b + c) Q := by
  obtain ⟨res, n⟩ := x
  cases res with
  | error e => exact ⟨Nat.le_trans hx.1 (Nat.le_add_right _ _), fun a h => by cases h⟩
  | ok a =>
    have h := hf a rfl (hx.2 a rfl)
    exact ⟨Nat.add_le_add hx.1 h.1, fun c hc => h.2 c hc⟩

theorem Cost.free_bind {α β : Type} {x : R α} {f : α → Counted β} {c : Nat} {Q : β → Prop} (hf : ∀ a, x = .ok a → Cost (f a) c Q) :
    Cost (free x >>= f) c Q := by
  have := Cost.bind (x := free x) (b := 0) (P := fun _ => True) (c := c) (Q := Q) (f := f) ⟨Nat.le_refl _, fun _ _ => trivial⟩ fun a h _ => hf a h
  rwa [Nat.zero_add] at this

theorem Cost.tick_bind {β : Type} {n b c : Nat} {f : Unit → Counted β} {Q : β → Prop} (hn : n ≤ b) (hf : Cost (f ()) c Q) :
    Cost (tick n >>= f) (b + c) Q := Cost.bind (P := fun _ => True) ⟨hn, fun _ _ => trivial⟩ fun _ _ _ => hf

theorem Cost.pure {α : Type} {a : α} {b : Nat} {P : α → Prop} (h : P a) : Cost (Pure.pure a : Counted α) b P :=
  ⟨Nat.zero_le _, fun c hc => by cases hc; exact h⟩

theorem Cost.error {α : Type} {e : Err} {b : Nat} {P : α → Prop} : Cost (free (.error e)) b P := ⟨Nat.zero_le _, fun c hc => by cases hc⟩

theorem Cost.mono {α : Type} {x : Counted α} {b c : Nat} {P Q : α → Prop} (h : Cost x b P) (hb : b ≤ c) (hp : ∀ a, P a → Q a) : Cost x c Q :=
  ⟨Nat.le_trans h.1 hb, fun a ha => hp a (h.2 a ha)⟩

/-- The colours in all boxes. -/
def total (bs : List (List ColorCount)) : Nat := (bs.map List.length).sum

theorem split_length {b l r : List ColorCount} (h : split b = .ok (l, r)) : l.length + r.length = b.length := by
  unfold split at h
  cases hr : range b with
  | error e => rw [hr] at h; cases h
  | ok q =>
    rw [hr, ok_bind] at h
    dsimp only at h
    have hp := (sortBy_perm (fun a b => channel a.rgba q.1 < channel b.rgba q.1) b).length_eq
    generalize sortBy (fun a b => channel a.rgba q.1 < channel b.rgba q.1) b = s at h hp
    cases ht : totalCount s 0 with
    | error e => rw [ht] at h; cases h
    | ok t =>
      rw [ht, ok_bind] at h
      cases hi : splitIndex (t / 2) s 0 0 with
      | error e => rw [hi] at h; cases h
      | ok i =>
        rw [hi, ok_bind] at h
        split at h
        · cases h
          rw [List.length_take, List.length_drop]
          omega
        · cases h

theorem pushBox_total (bs : List (List ColorCount)) (b : List ColorCount) : total (pushBox bs b) = total bs + b.length ∧ (pushBox bs b).length ≤ bs.length + 1 := by
  unfold pushBox
  split
  · rename_i h
    rw [List.isEmpty_iff] at h
    subst h
    exact ⟨by simp, by omega⟩
  · exact ⟨by simp [total], by simp⟩

theorem erase_total : ∀ (bs : List (List ColorCount)) (i : Nat) (b : List ColorCount), bs[i]? = some b → total (bs.eraseIdx i) + b.length = total bs
  | [], _, _, h => by simp at h
  | a :: bs, 0, b, h => by
    simp at h
    subst h
    simp [total, Nat.add_comm]
  | a :: bs, i + 1, b, h => by
    have := erase_total bs i b (by simpa using h)
    unfold total at *
    rw [List.eraseIdx_cons_succ, List.map_cons, List.sum_cons, List.map_cons, List.sum_cons]
    omega

theorem get_some {α : Type} {l : List α} {i : Nat} {a : α} (h : getChecked l i = .ok a) : l[i]? = some a := by
  unfold getChecked at h
  split at h
  · cases h
    assumption
  · cases h

theorem cutLoopC_cost (m n : Nat) : ∀ (fuel : Nat) (bs : List (List ColorCount)), total bs ≤ n → bs.length ≤ max 1 m →
    Cost (cutLoopC m fuel bs) (fuel * (2 * m + 4 * n)) fun r => r.length ≤ max 1 m
  | 0, _, _, _ => Cost.error
  | fuel + 1, bs, ht, hl => by
    rw [cutLoopC, Nat.succ_mul]
    by_cases h : bs.length < m
    · rw [if_pos h]
      have e : fuel * (2 * m + 4 * n) + (2 * m + 4 * n) = m + ((m + 4 * n) + fuel * (2 * m + 4 * n)) := by omega
      rw [e]
      refine Cost.tick_bind (by omega) (Cost.free_bind fun w _ => ?_)
      cases w with
      | none => exact Cost.error
      | some w =>
        obtain ⟨idx, s⟩ := w
        refine Cost.free_bind fun b hb => ?_
        have hb := get_some hb
        have h1 := erase_total _ _ _ hb
        have hi : idx < bs.length := by
          have := List.getElem?_eq_some_iff.1 hb
          exact this.1
        have h2 := List.length_eraseIdx_of_lt hi
        split
        · refine Cost.tick_bind (by omega) (Cost.free_bind fun q hq => ?_)
          obtain ⟨l, r⟩ := q
          have h3 := split_length hq
          have h4 := pushBox_total (bs.eraseIdx idx) l
          have h5 := pushBox_total (pushBox (bs.eraseIdx idx) l) r
          exact cutLoopC_cost m n fuel _ (by omega) (by omega)
        · exact Cost.pure hl
    · rw [if_neg h]
      exact Cost.pure hl

theorem refine_length (p : List Rgba) (colors : List ColorCount) : (refine p colors).length = p.length := by
  unfold refine
  split
  · rfl
  · simp [refineOnce]

theorem medianCutC_cost (colors : List ColorCount) (m n : Nat) (hn : colors.length ≤ n) (hm : 0 < m) :
    Cost (medianCutC colors m) (2 * n + ((m + 1) * (2 * m + 4 * n) + ((n + m) + 2 * (m + n * (m + 1) + m)))) fun p => p.length ≤ m := by
  unfold medianCutC
  split
  · exact Cost.pure hm
  · refine Cost.tick_bind (by omega) (Cost.bind (cutLoopC_cost m n _ _ (by simp [total]; exact hn) (by simp; omega)) fun bs _ hb => ?_)
    have hb : bs.length ≤ m := by omega
    have h1 : colors.length * (bs.length + 1) ≤ n * (m + 1) := Nat.mul_le_mul hn (by omega)
    have := Cost.pure (α := List Rgba) (a := refine (bs.map paletteEntry) colors) (b := 0) (P := fun p => p.length ≤ m)
      (by rw [refine_length, List.length_map]; exact hb)
    have h2 : 2 * (bs.length + colors.length * (bs.length + 1) + bs.length) ≤ 2 * (m + n * (m + 1) + m) := by omega
    exact Cost.tick_bind (by omega) (Cost.tick_bind (c := 0) h2 this)

theorem sum_le {α : Type} {f : α → Nat} {k : Nat} (h : ∀ a, f a ≤ k) : ∀ l : List α, (l.map f).sum ≤ k * l.length
  | [] => by simp
  | a :: l => by
    have := sum_le h l
    have := h a
    rw [List.map_cons, List.sum_cons, List.length_cons, Nat.mul_succ]
    omega

theorem lookupSteps_le (p : List Rgba) (c : Rgba) : lookupSteps p c ≤ 1 + p.length := by
  unfold lookupSteps
  split <;> omega

theorem exactSteps_le (p : List Rgba) (c : Rgba) : exactSteps p c ≤ 1 + p.length := by
  unfold exactSteps
  split <;> omega

theorem quantizeWithC_cost (env : Env) (px : List Rgba) (colors : List ColorCount) {m : Nat} (d : Bool) (h0 : 0 < m) (hm : m ≤ 256)
    (hc : colors.length ≤ 8192) : (quantizeWithC env px colors m d).steps ≤ 130000000 + 257 * px.length := by
  unfold quantizeWithC
  split
  · rename_i h
    have h1 := sum_le (fun c => Nat.le_trans (exactSteps_le (colors.map ColorCount.rgba) c)
      (show _ ≤ 257 by rw [List.length_map]; omega)) px
    rw [Inflate.tick_steps, Inflate.tick_steps]
    show _ + (_ + 0) ≤ _
    omega
  · have hk : Cost (medianCutC colors m) 50000000 fun p => p.length ≤ 256 := by
      obtain ⟨n, hn⟩ : ∃ n, n = 8192 := ⟨_, rfl⟩
      have h3 := medianCutC_cost colors m n (by omega) h0
      have h1 : (m + 1) * (2 * m + 4 * n) ≤ 257 * 33280 := Nat.mul_le_mul (by omega) (by omega)
      have h2 : n * (m + 1) ≤ 8192 * 257 := Nat.mul_le_mul (by omega) (by omega)
      refine ⟨Nat.le_trans h3.1 ?_, fun p hp => Nat.le_trans (h3.2 p hp) hm⟩
      generalize (m + 1) * (2 * m + 4 * n) = t at h1 ⊢
      generalize n * (m + 1) = u at h2 ⊢
      omega
    have hall : Cost (medianCutC colors m >>= fun palette => do
        tick (palette.length + 64 * 64 * 64 * (1 + palette.length))
        tick (px.map (lookupSteps palette)).sum
        if d then do
          let indices ← free (ditherLoop env palette px 0)
          return (palette, indices)
        else return (palette, px.map (lookup palette))) (50000000 + ((256 + 262144 * 257) + (257 * px.length + 0))) fun _ => True := by
      refine Cost.bind hk fun p _ hp => Cost.tick_bind (by omega) (Cost.tick_bind (c := 0) ?_ ?_)
      · exact sum_le (fun c => Nat.le_trans (lookupSteps_le p c) (by omega)) px
      · split
        · exact Cost.free_bind fun _ _ => Cost.pure trivial
        · exact Cost.pure trivial
    have := hall.1
    refine Nat.le_trans this ?_
    omega

theorem pixels_length : ∀ (l : List (List UInt8)) {px : List Rgba}, l.mapM pixel = .ok px → px.length = l.length
  | [], px, h => by cases h; rfl
  | a :: l, px, h => by
    rw [List.mapM_cons] at h
    cases ha : pixel a with
    | error e => rw [ha] at h; cases h
    | ok b =>
      rw [ha, ok_bind] at h
      cases hl : l.mapM pixel with
      | error e => rw [hl] at h; cases h
      | ok bs =>
        rw [hl, ok_bind] at h
        cases h
        rw [List.length_cons, List.length_cons, pixels_length l hl]

theorem truncateHist_length (env : Env) (colors : List ColorCount) : (truncateHist env colors).length ≤ 8192 := by
  unfold truncateHist
  split
  · rw [List.length_take]
    omega
  · omega

/-! ### C117 -/

/-- C117: whatever the image, quantization to at most 256 colours takes no more than a fixed number of steps and 257 for each pixel. Partial: the fixed
part does not depend on the image, so that it is not in proportion to a small one, see `C117_violated`. -/
theorem C117_partial (env : Env) (data : List UInt8) (ct : ColorType) {m : Nat} (d : Bool) (h0 : 0 < m) (hm : m ≤ 256) :
    (quantizeImageC env data ct m d).res = quantizeImage env data ct m d ∧
    (quantizeImageC env data ct m d).steps ≤ 2 ^ 27 + 257 * (data.length / ct.bytesPerPixel) := by
  refine ⟨quantizeImageC_same env data ct m d, ?_⟩
  unfold quantizeImageC
  dsimp only
  split
  · exact Nat.zero_le _
  · rename_i hb
    have hb : ct.bytesPerPixel = 3 ∨ ct.bytesPerPixel = 4 := by omega
    obtain ⟨keys, hk, -, k1, k2⟩ := SampleCap.C116_partial (data := data) hb (cap := 50000) (by decide)
    rw [hk, Inflate.free_steps, Inflate.tick_steps]
    have hlen : keys.length ≤ 100000 := by omega
    cases hp : (chunksExact ct.bytesPerPixel data).mapM pixel with
    | error e =>
      show _ + 0 ≤ _
      omega
    | ok px =>
      rw [Inflate.free_steps]
      have h1 := pixels_length _ hp
      have h2 : (chunksExact ct.bytesPerPixel data).length = data.length / ct.bytesPerPixel := by simp [chunksExact]
      have h3 := quantizeWithC_cost env px (truncateHist env (histogram (max (data.length / ct.bytesPerPixel / 50000) 1) (sortKeys keys))) d h0 hm
        (truncateHist_length _ _)
      rw [h1, h2] at h3
      omega

theorem quantizeWithC_slow (env : Env) (px : List Rgba) {colors : List ColorCount} {m : Nat} (d : Bool) (hc : m < colors.length) {p : List Rgba}
    (hp : medianCut colors m = .ok p) : 2 ^ 18 * (1 + p.length) ≤ (quantizeWithC env px colors m d).steps := by
  unfold quantizeWithC
  rw [if_neg (by omega)]
  have hp : (medianCutC colors m).res = .ok p := by rw [medianCutC_same]; exact hp
  generalize medianCutC colors m = x at hp
  obtain ⟨res, n⟩ := x
  cases hp
  show _ ≤ n + (p.length + 64 * 64 * 64 * (1 + p.length) + _)
  omega

/-- C117 is false: with a palette of one colour, black and white, two pixels, take more than half a million steps, so there is no constant
below 87381 for each byte of the image. -/
theorem C117_violated (env : Env) (d : Bool) : 2 ^ 19 ≤ (quantizeImageC env [0, 0, 0, 255, 255, 255] .rgb 1 d).steps ∧
    ∀ c, c ≤ 87381 → ¬ ∀ (data : List UInt8) (m : Nat), (quantizeImageC env data .rgb m d).steps ≤ c * data.length := by
  have slow : 2 ^ 19 ≤ (quantizeImageC env [0, 0, 0, 255, 255, 255] .rgb 1 d).steps := by
    have hk : sampleLoop [0, 0, 0, 255, 255, 255] 3 1 3 0 = .ok [0xFF, 0xFFFFFFFF] := by decide +kernel
    have hp : (chunksExact 3 [0, 0, 0, 255, 255, 255]).mapM pixel = .ok [(0, 0, 0, 255), (255, 255, 255, 255)] := by decide +kernel
    have ht : truncateHist env (histogram 1 (sortKeys [0xFF, 0xFFFFFFFF])) = [⟨(0, 0, 0, 255), 1⟩, ⟨(255, 255, 255, 255), 1⟩] := by
      have : histogram 1 (sortKeys [0xFF, 0xFFFFFFFF]) = [⟨(0, 0, 0, 255), 1⟩, ⟨(255, 255, 255, 255), 1⟩] := by decide +kernel
      rw [this]
      rfl
    have hm : medianCut [⟨(0, 0, 0, 255), 1⟩, ⟨(255, 255, 255, 255), 1⟩] 1 = .ok [(127, 127, 127, 255)] := by decide +kernel
    have h := quantizeWithC_slow env [(0, 0, 0, 255), (255, 255, 255, 255)] d (by decide) hm
    have e : quantizeImageC env [0, 0, 0, 255, 255, 255] .rgb 1 d = (do
      let keys ← free (sampleLoop [0, 0, 0, 255, 255, 255] 3 1 3 0)
      tick (2 * keys.length)
      let px ← free ((chunksExact 3 [0, 0, 0, 255, 255, 255]).mapM pixel)
      quantizeWithC env px (truncateHist env (histogram 1 (sortKeys keys))) 1 d) := rfl
    rw [e, hk, hp, Inflate.free_steps, Inflate.tick_steps, Inflate.free_steps, ht]
    exact Nat.le_trans (Nat.le_trans (by decide) h) (Nat.le_add_left _ _)
  refine ⟨slow, fun c hc h => ?_⟩
  have := h [0, 0, 0, 255, 255, 255] 1
  simp only [List.length_cons, List.length_nil] at this
  omega

example : (quantizeImageC ⟨id, fun _ => (0, 0, 0)⟩ [1, 2, 3, 1, 2, 3, 9, 9, 9] .rgb 2 false).steps = 13 := by decide +kernel
example : (quantizeImageC ⟨id, fun _ => (0, 0, 0)⟩ [0, 0, 0, 255, 255, 255] .rgb 1 false).steps = 524314 := by decide +kernel
/-- Colours that are not opaque are compared with the whole palette. -/
example : (quantizeImageC ⟨id, fun _ => (0, 0, 0)⟩ [0, 0, 0, 255, 9, 9, 9, 200, 50, 50, 50, 50] .rgba 2 true).steps = 786498 := by decide +kernel
/-- A thousand megapixels take fewer than 400 steps for each pixel. -/
example (env : Env) (data : List UInt8) (h : data.length = 4 * 10 ^ 9) : (quantizeImageC env data .rgba 256 true).steps ≤ 400 * 10 ^ 9 := by
  have := (C117_partial env data .rgba (m := 256) true (by decide) (by decide)).2
  rw [h, show ColorType.rgba.bytesPerPixel = 4 from rfl] at this
  omega

end Pixo.Props.QuantizeWork
