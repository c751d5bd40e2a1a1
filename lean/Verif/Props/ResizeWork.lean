import Verif.Model.ResizeWork
import Verif.Proof.InflateWork
import Verif.Props.Resize
/-
C115: the work of resizing.
-/
namespace Pixo.Props.ResizeWork
open Pixo Pixo.Resize Pixo.F32
open Pixo.Inflate (Counted tick free free_same tick_same)

/-! ### The same results -/

theorem contributionsC_same (sin : Int → Int) (src dst : Nat) : (contributionsC sin src dst).res = contributions sin src dst := by
  unfold contributionsC
  rw [Inflate.bind_res]
  show (contributions sin src dst >>= fun cs => .ok cs) = _
  cases contributions sin src dst <;> rfl

theorem lanczos3C_same (env : Env) (data : List UInt8) (sw sh dw dh bpp : Nat) :
    (lanczos3C env data sw sh dw dh bpp).res = lanczos3 env data sw sh dw dh bpp := by
  unfold lanczos3C lanczos3
  refine Inflate.bind_same (contributionsC_same _ _ _) fun hc => Inflate.bind_same (contributionsC_same _ _ _) fun vc => ?_
  rw [tick_same, tick_same]
  refine free_same fun temp => ?_
  rw [tick_same]
  exact free_same fun out => rfl

theorem runC_same (env : Env) (data : List UInt8) (o : Options) : (runC env data o).res = run env data o := by
  unfold runC run
  cases o.algorithm with
  | nearest => rfl
  | bilinear => rfl
  | lanczos3 => exact lanczos3C_same _ _ _ _ _ _ _

theorem resizeC_same (env : Env) (data : List UInt8) (o : Options) : (resizeC env data o).res = resize env data o := by
  unfold resizeC resize resizeInto
  rw [Inflate.bind_res]
  show (validate data o >>= fun _ => _) = _
  cases validate data o with
  | error e => rfl
  | ok u =>
    show (runC env data o).res = _
    rw [runC_same]
    dsimp only
    cases run env data o <;> rfl

/-! ### Windows -/

/-- C115: how many source pixels there are to a new one: about six times the ratio, or six when the image grows. -/
theorem C115_window (sin : Int → Int) {src dst d : Nat} (hs : src ≤ 2 ^ 24) (ht : dst ≤ 2 ^ 24) (hd : d < dst) {k : Contribution}
    (hk : contribution sin src dst d = .ok k) : k.weights.length * dst ≤ 6 * max src dst + 27 * dst := by
  unfold contribution at hk
  simp only at hk
  have hm := middle_le hs ht hd
  have hr : F32.div (F32.ofInt src) (F32.ofInt dst) = (F32.rnd (src * one * one) (dst * one) : Nat) := by
    rw [ofInt_exact hs, ofInt_exact ht, F32.div, Int.toNat_natCast, rndI, if_pos]
    · rfl
    · exact Int.mul_nonneg (Int.natCast_nonneg _) (Int.natCast_nonneg _)
  have hb : F32.rnd (src * one * one) (dst * one) * dst ≤ (src + 2) * one := by
    have h := (rnd_rel (src * one * one) (dst * one) (Nat.mul_pos (by omega) one_pos)).1
    generalize F32.rnd (src * one * one) (dst * one) = r at *
    have e1 : r * (dst * one) = r * dst * one := by rw [Nat.mul_assoc]
    rw [e1] at h
    have h2 : 2 ^ 24 * (r * dst) ≤ 2 ^ 24 * (src * one) + src * one + 2 ^ 23 * dst := by
      refine Nat.le_of_mul_le_mul_right (?_ : _ * one ≤ _ * one) one_pos
      simp only [Nat.add_mul, Nat.mul_assoc] at *
      exact h
    generalize r * dst = R at *
    rw [one_eq] at *
    omega
  have hr24 : F32.rnd (src * one * one) (dst * one) ≤ 2 ^ 24 * one := by
    rw [one_eq]
    refine rnd_le (m := 2 ^ 24) (e := 149) (Nat.mul_pos (by omega) (by decide)) (Nat.le_refl _) ?_
    calc src * 2 ^ 149 * 2 ^ 149 ≤ 2 ^ 24 * 2 ^ 149 * 2 ^ 149 := Nat.mul_le_mul_right _ (Nat.mul_le_mul_right _ hs)
      _ ≤ 2 ^ 24 * 2 ^ 149 * (dst * 2 ^ 149) := Nat.mul_le_mul_left _ (Nat.le_mul_of_pos_left _ (by omega))
  have hmid0 : 0 ≤ F32.mul (F32.add (F32.ofInt d) (F32.lit 1 2)) (F32.div (F32.ofInt src) (F32.ofInt dst)) := by
    refine le_rndI one_pos rep_zero ?_
    rw [Int.zero_mul, hr]
    refine Int.mul_nonneg (le_rndI (by omega) rep_zero ?_) (Int.natCast_nonneg _)
    rw [ofInt_exact (by omega), lit_half, one_eq]
    omega
  generalize F32.mul (F32.add (F32.ofInt d) (F32.lit 1 2)) (F32.div (F32.ofInt src) (F32.ofInt dst)) = mid at *
  rw [hr] at hk
  generalize F32.rnd (src * one * one) (dst * one) = r at *
  have hc : -(2 * one : Int) ≤ F32.sub mid (F32.lit 1 2) ∧ F32.sub mid (F32.lit 1 2) ≤ (((src + 5) * one : Nat) : Int) := by
    have := rndI_err (mid - F32.lit 1 2) 1 150 (by omega) (by rw [lit_half]; rw [one_eq] at *; omega)
    unfold F32.sub
    rw [lit_half] at *
    rw [one_eq] at *
    omega
  generalize F32.sub mid (F32.lit 1 2) = center at *
  have hf : (max (r : Int) (F32.lit 1 1)) = ((max r one : Nat) : Int) := by rw [lit_one]; omega
  rw [hf] at hk
  have hfs : max r one * dst ≤ (max src dst + 2) * one := by
    rcases Nat.le_total r one with h | h
    · rw [Nat.max_eq_right h, Nat.mul_comm]
      exact Nat.mul_le_mul_right _ (by omega)
    · rw [Nat.max_eq_left h]
      exact Nat.le_trans hb (Nat.mul_le_mul_right _ (by omega))
  have hfs24 : max r one ≤ 2 ^ 24 * one := by rw [one_eq] at *; omega
  generalize max r one = fs at *
  have hsup : 0 ≤ F32.mul (F32.lit 3 1) fs ∧ F32.mul (F32.lit 3 1) fs ≤ (3 * fs + 2 * one : Int) := by
    have h0 : 0 ≤ F32.mul (F32.lit 3 1) fs := by
      refine le_rndI one_pos rep_zero ?_
      rw [Int.zero_mul, lit_three]
      exact Int.mul_nonneg (Int.natCast_nonneg _) (Int.natCast_nonneg _)
    refine ⟨h0, ?_⟩
    have e : F32.lit 3 1 * (fs : Int) = ((3 * fs * one : Nat) : Int) := by
      rw [lit_three, ← Int.natCast_mul, Nat.mul_right_comm]
    have := rndI_err (F32.lit 3 1 * (fs : Int)) one 151 one_pos (by
      rw [e]
      rw [one_eq] at *
      omega)
    rw [e] at this
    unfold F32.mul
    rw [e]
    rw [one_eq] at *
    omega
  generalize F32.mul (F32.lit 3 1) fs = sup at *
  have hlo : center - sup - 4 * one ≤ F32.sub center sup := by
    have := rndI_err (center - sup) 1 152 (by omega) (by rw [one_eq] at *; omega)
    unfold F32.sub
    rw [one_eq] at *
    omega
  have hhi : F32.add center sup ≤ center + sup + 4 * one := by
    have := rndI_err (center + sup) 1 152 (by omega) (by rw [one_eq] at *; omega)
    unfold F32.add
    rw [one_eq] at *
    omega
  generalize F32.sub center sup = lo at *
  generalize F32.add center sup = hi at *
  have hw : (((min ((F32.ceil hi).toNat + 1) src - (F32.floor lo).toNat : Nat) : Int)) * one ≤ 6 * fs + 15 * one := by
    unfold F32.ceil F32.floor
    rw [one_eq] at *
    omega
  have hlen : k.weights.length = min ((F32.ceil hi).toNat + 1) src - (F32.floor lo).toNat := by
    split at hk
    · cases hk
    · cases hk
      simp only
      split <;> simp
  rw [← hlen] at hw
  have hw' : k.weights.length * one ≤ 6 * fs + 15 * one := by exact_mod_cast hw
  have h1 := Nat.mul_le_mul_right dst hw'
  refine Nat.le_of_mul_le_mul_right (?_ : _ * one ≤ _ * one) one_pos
  have e1 : k.weights.length * one * dst = k.weights.length * dst * one := Nat.mul_right_comm _ _ _
  have e2 : (6 * fs + 15 * one) * dst = 6 * (fs * dst) + 15 * (dst * one) := by
    rw [Nat.add_mul, Nat.mul_assoc, Nat.mul_assoc, Nat.mul_comm one dst]
  rw [e1, e2] at h1
  have e3 : (6 * max src dst + 27 * dst) * one = 6 * (max src dst * one) + 27 * (dst * one) := by
    rw [Nat.add_mul, Nat.mul_assoc, Nat.mul_assoc]
  rw [e3]
  rw [Nat.add_mul] at hfs
  have := Nat.mul_le_mul_right one (show 1 ≤ dst by omega)
  omega

theorem mapM_all {α : Type} {f : Nat → R α} {P : α → Prop} : ∀ {l : List Nat} {out : List α}, l.mapM f = .ok out → (∀ d ∈ l, ∀ a, f d = .ok a → P a) →
    out.length = l.length ∧ ∀ a ∈ out, P a
  | [], out, h, _ => by
    cases h
    exact ⟨rfl, by simp⟩
  | d :: l, out, h, hp => by
    rw [List.mapM_cons] at h
    cases hd : f d with
    | error e => rw [hd] at h; cases h
    | ok a =>
      rw [hd, ok_bind] at h
      cases hl : l.mapM f with
      | error e => rw [hl] at h; cases h
      | ok as =>
        rw [hl, ok_bind] at h
        cases h
        obtain ⟨h1, h2⟩ := mapM_all hl fun d hd => hp d (by simp [hd])
        refine ⟨by simp [h1], fun b hb => ?_⟩
        rcases List.mem_cons.1 hb with rfl | hb
        · exact hp d (by simp) b hd
        · exact h2 b hb

/-- All weights of one direction. -/
def total (cs : List Contribution) : Nat := (cs.map (fun k => k.weights.length)).sum

theorem total_le (sin : Int → Int) {src dst : Nat} (hs : src ≤ 2 ^ 24) (ht : dst ≤ 2 ^ 24) (h0 : 0 < dst) {cs : List Contribution}
    (h : contributions sin src dst = .ok cs) : cs.length = dst ∧ total cs ≤ 6 * max src dst + 27 * dst := by
  obtain ⟨h1, h2⟩ := mapM_all (P := fun k => k.weights.length * dst ≤ 6 * max src dst + 27 * dst) h
    fun d hd k hk => C115_window sin hs ht (List.mem_range.1 hd) hk
  rw [List.length_range] at h1
  refine ⟨h1, Nat.le_of_mul_le_mul_right (?_ : _ * dst ≤ _ * dst) h0⟩
  rw [← h1] at *
  generalize 6 * max src cs.length + 27 * cs.length = B at *
  generalize hn : cs.length = n at h2 ⊢
  have : ∀ l : List Contribution, (∀ k ∈ l, k.weights.length * n ≤ B) → total l * n ≤ B * l.length := by
    intro l
    induction l with
    | nil => intro _; exact Nat.le_of_eq (Nat.zero_mul _)
    | cons k l ih =>
      intro hl
      have h1 := hl k (by simp)
      have h2 := ih fun k hk => hl k (by simp [hk])
      unfold total at *
      rw [List.map_cons, List.sum_cons, List.length_cons, Nat.add_mul, Nat.mul_add]
      omega
  have := this cs h2
  rwa [hn] at this

theorem sum_steps (cs : List Contribution) (bpp : Nat) : (cs.map (pixelSteps · bpp)).sum = cs.length * (1 + bpp) + total cs * bpp := by
  induction cs with
  | nil => simp [total]
  | cons k l ih =>
    unfold total at *
    rw [List.map_cons, List.sum_cons, ih, List.map_cons, List.sum_cons, List.length_cons]
    unfold pixelSteps
    simp only [Nat.add_mul, Nat.mul_add, Nat.one_mul, Nat.mul_one]
    omega

theorem sum_weights (cs : List Contribution) : (cs.map (fun k => 1 + 2 * k.weights.length)).sum = cs.length + 2 * total cs := by
  induction cs with
  | nil => rfl
  | cons k l ih =>
    unfold total at *
    rw [List.map_cons, List.sum_cons, ih, List.map_cons, List.sum_cons, List.length_cons]
    omega

theorem contributionsC_steps {sin : Int → Int} {src dst : Nat} {cs : List Contribution} (h : contributions sin src dst = .ok cs) :
    contributionsC sin src dst = ⟨.ok cs, cs.length + 2 * total cs⟩ := by
  unfold contributionsC
  rw [h, ← sum_weights]
  show Counted.mk (Except.ok cs) (0 + (_ + 0)) = _
  rw [Nat.zero_add, Nat.add_zero]
  rfl

theorem ok_steps {α β : Type} (a : α) (n : Nat) (f : α → Counted β) : ((⟨.ok a, n⟩ : Counted α) >>= f).steps = n + (f a).steps := rfl

theorem lanczos3C_steps (env : Env) (data : List UInt8) {sw sh dw dh bpp : Nat} (h1 : sw ≤ 2 ^ 24) (h2 : sh ≤ 2 ^ 24) (h3 : dw ≤ 2 ^ 24) (h4 : dh ≤ 2 ^ 24)
    (hdw : 0 < dw) (hdh : 0 < dh) :
    sh * dw * bpp ≤ (lanczos3C env data sw sh dw dh bpp).steps ∧
    (lanczos3C env data sw sh dw dh bpp).steps ≤ (dw + 2 * (6 * max sw dw + 27 * dw)) + ((dh + 2 * (6 * max sh dh + 27 * dh)) + (sh * dw * bpp +
      (sh * (dw * (1 + bpp) + (6 * max sw dw + 27 * dw) * bpp) + dw * (dh * (1 + bpp) + (6 * max sh dh + 27 * dh) * bpp)))) := by
  obtain ⟨hc, e1, -⟩ := contributions_ok env.sin h1 h3
  obtain ⟨vc, e2, -⟩ := contributions_ok env.sin h2 h4
  obtain ⟨l1, t1⟩ := total_le env.sin h1 h3 hdw e1
  obtain ⟨l2, t2⟩ := total_le env.sin h2 h4 hdh e2
  unfold lanczos3C
  rw [contributionsC_steps e1, contributionsC_steps e2, ok_steps, ok_steps, Inflate.tick_steps, Inflate.tick_steps, sum_steps, sum_steps, l1, l2]
  have u1 := Nat.mul_le_mul_left sh (Nat.add_le_add_left (Nat.mul_le_mul_right bpp t1) (dw * (1 + bpp)))
  have u2 := Nat.mul_le_mul_left dw (Nat.add_le_add_left (Nat.mul_le_mul_right bpp t2) (dh * (1 + bpp)))
  constructor
  · omega
  · refine Nat.add_le_add (by omega) (Nat.add_le_add (by omega) (Nat.add_le_add_left (Nat.add_le_add u1 ?_) _))
    cases Parallel.loop env.horizontal sh (fun y => do
      let row ← slice data (y * (sw * bpp)) (sw * bpp)
      horizontalRow row hc bpp) with
    | error e => exact Nat.zero_le _
    | ok temp =>
      rw [Inflate.free_steps, Inflate.tick_steps]
      refine Nat.le_trans (Nat.le_of_eq ?_) u2
      cases Parallel.loop env.vertical dh (fun y => do
        let k ← getChecked vc y
        verticalRow temp.flatten k dw bpp) <;> rfl

/-! ### C115 -/

theorem bpp_pos (c : ColorType) : 1 ≤ c.bytesPerPixel := by cases c <;> decide

theorem resizeC_steps (env : Env) {data : List UInt8} {o : Options} (h : Accepted data o) :
    (resizeC env data o).steps = o.dstWidth * o.dstHeight * o.colorType.bytesPerPixel + (runC env data o).steps := by
  unfold resizeC
  rw [validate_ok h, Inflate.free_steps]
  exact Inflate.tick_steps _ _

/-- C115: a call that is refused takes no steps, nearest and bilinear take two for each byte of the new image and one for each pixel, and Lanczos
at most 206 for each byte of the two images and of the one between them, whose height is the old one and whose width is the new one. Partial: the image between the
two need not be small beside them, see `C115_violated`. -/
theorem C115_partial (env : Env) (data : List UInt8) (o : Options) :
    (resizeC env data o).res = resize env data o ∧
    (¬ Accepted data o → (resizeC env data o).steps = 0) ∧
    (Accepted data o → o.algorithm ≠ .lanczos3 → (resizeC env data o).steps = o.dstWidth * o.dstHeight * (1 + 2 * o.colorType.bytesPerPixel)) ∧
    (resizeC env data o).steps ≤ 206 * ((o.srcWidth * o.srcHeight + o.dstWidth * o.dstHeight + o.srcHeight * o.dstWidth) * o.colorType.bytesPerPixel) := by
  refine ⟨resizeC_same env data o, ?_⟩
  by_cases h : Accepted data o
  · refine ⟨fun hn => absurd h hn, ?_⟩
    rw [resizeC_steps env h]
    have hb := bpp_pos o.colorType
    have exact : o.dstWidth * o.dstHeight * o.colorType.bytesPerPixel + o.dstHeight * o.dstWidth * (1 + o.colorType.bytesPerPixel) =
        o.dstWidth * o.dstHeight * (1 + 2 * o.colorType.bytesPerPixel) := by ring
    have small : o.dstWidth * o.dstHeight * o.colorType.bytesPerPixel + o.dstHeight * o.dstWidth * (1 + o.colorType.bytesPerPixel) ≤
        3 * (o.dstWidth * o.dstHeight * o.colorType.bytesPerPixel) := by
      have := Nat.mul_le_mul_left (o.dstWidth * o.dstHeight) hb
      rw [Nat.mul_comm o.dstHeight, Nat.mul_add]
      omega
    have big : 3 * (o.dstWidth * o.dstHeight * o.colorType.bytesPerPixel) ≤
        206 * ((o.srcWidth * o.srcHeight + o.dstWidth * o.dstHeight + o.srcHeight * o.dstWidth) * o.colorType.bytesPerPixel) := by
      rw [Nat.add_mul, Nat.add_mul]
      omega
    have hs : ∀ x : R (List UInt8), (free x).steps = 0 := fun x => rfl
    cases ha : o.algorithm with
    | nearest =>
      have e : (runC env data o).steps = o.dstHeight * o.dstWidth * (1 + o.colorType.bytesPerPixel) := by
        unfold runC; rw [ha]; exact (Inflate.tick_steps _ _).trans (by rw [hs]; rfl)
      rw [e]
      exact ⟨fun _ _ => exact, Nat.le_trans small big⟩
    | bilinear =>
      have e : (runC env data o).steps = o.dstHeight * o.dstWidth * (1 + o.colorType.bytesPerPixel) := by
        unfold runC; rw [ha]; exact (Inflate.tick_steps _ _).trans (by rw [hs]; rfl)
      rw [e]
      exact ⟨fun _ _ => exact, Nat.le_trans small big⟩
    | lanczos3 =>
      refine ⟨fun _ hn => absurd rfl hn, ?_⟩
      have e : (runC env data o).steps = (lanczos3C env data o.srcWidth o.srcHeight o.dstWidth o.dstHeight o.colorType.bytesPerPixel).steps := by
        unfold runC; rw [ha]
      rw [e]
      have hu := (lanczos3C_steps env data (bpp := o.colorType.bytesPerPixel) h.srcWidth.2 h.srcHeight.2 h.dstWidth.2 h.dstHeight.2 h.dstWidth.1 h.dstHeight.1).2
      have q1 := h.srcHeight.1
      have q2 := h.dstWidth.1
      have q3 := h.srcWidth.1
      have q4 := h.dstHeight.1
      generalize (lanczos3C env data o.srcWidth o.srcHeight o.dstWidth o.dstHeight o.colorType.bytesPerPixel).steps = S at *
      generalize o.srcWidth = sw at *
      generalize o.srcHeight = sh at *
      generalize o.dstWidth = dw at *
      generalize o.dstHeight = dh at *
      generalize o.colorType.bytesPerPixel = b at *
      have p1 : dw ≤ dw * sh * b := Nat.le_trans (Nat.le_mul_of_pos_right _ q1) (Nat.le_mul_of_pos_right _ hb)
      have p2 : sw ≤ sw * sh * b := Nat.le_trans (Nat.le_mul_of_pos_right _ q1) (Nat.le_mul_of_pos_right _ hb)
      have p3 : dh ≤ dw * dh * b := Nat.le_trans (Nat.le_mul_of_pos_left _ q2) (Nat.le_mul_of_pos_right _ hb)
      have p4 : sh ≤ dw * sh * b := Nat.le_trans (Nat.le_mul_of_pos_left _ q2) (Nat.le_mul_of_pos_right _ hb)
      have p5 : dw * sh ≤ dw * sh * b := Nat.le_mul_of_pos_right _ hb
      have p6 : dw * dh ≤ dw * dh * b := Nat.le_mul_of_pos_right _ hb
      have m1 : max sw dw ≤ sw + dw := by omega
      have m2 : max sh dh ≤ sh + dh := by omega
      have k1 : sh * (max sw dw * b) ≤ sw * sh * b + dw * sh * b := by
        refine Nat.le_trans (Nat.mul_le_mul_left sh (Nat.mul_le_mul_right b m1)) (Nat.le_of_eq ?_)
        rw [Nat.add_mul, Nat.mul_add, ← Nat.mul_assoc, ← Nat.mul_assoc, Nat.mul_comm sh sw, Nat.mul_comm sh dw]
      have k2 : dw * (max sh dh * b) ≤ dw * sh * b + dw * dh * b := by
        refine Nat.le_trans (Nat.mul_le_mul_left dw (Nat.mul_le_mul_right b m2)) (Nat.le_of_eq ?_)
        rw [Nat.add_mul, Nat.mul_add, ← Nat.mul_assoc, ← Nat.mul_assoc]
      have x1 : sh * (dw * (1 + b) + (6 * max sw dw + 27 * dw) * b) = dw * sh + dw * sh * b + (6 * (sh * (max sw dw * b)) + 27 * (dw * sh * b)) := by
        ring
      have x2 : dw * (dh * (1 + b) + (6 * max sh dh + 27 * dh) * b) = dw * dh + dw * dh * b + (6 * (dw * (max sh dh * b)) + 27 * (dw * dh * b)) := by
        ring
      rw [x1, x2, Nat.mul_comm sh dw] at hu
      rw [Nat.add_mul, Nat.add_mul, Nat.mul_comm sh dw]
      omega
  · have hv : ∃ e, validate data o = .error e := by
      cases hv : validate data o with
      | error e => exact ⟨e, rfl⟩
      | ok u => exact absurd (accepted_of_validate hv) h
    obtain ⟨e, hv⟩ := hv
    have h0 : (resizeC env data o).steps = 0 := by
      unfold resizeC
      rw [hv]
      rfl
    rw [h0]
    exact ⟨fun _ => rfl, fun ha => absurd ha h, Nat.zero_le _⟩

/-- C115: a column of `n` gray pixels to a row of `n` with Lanczos. -/
def turned (n : Nat) : Options := ⟨1, n, n, 1, .gray, .lanczos3⟩

/-- C115 is false: a column of `n` pixels to a row of `n` takes at least `n * n` steps, so no constant below `2 ^ 23` is enough for each byte of
the two images. -/
theorem C115_violated (env : Env) :
    (∀ n, 0 < n → n ≤ 2 ^ 24 → ∀ data : List UInt8, data.length = n → Accepted data (turned n) ∧ n * n ≤ (resizeC env data (turned n)).steps) ∧
    ∀ c, c < 2 ^ 23 → ¬ ∀ (data : List UInt8) (o : Options), Accepted data o →
      (resizeC env data o).steps ≤ c * ((o.srcWidth * o.srcHeight + o.dstWidth * o.dstHeight) * o.colorType.bytesPerPixel) := by
  have slow : ∀ n, 0 < n → n ≤ 2 ^ 24 → ∀ data : List UInt8, data.length = n → Accepted data (turned n) ∧ n * n ≤ (resizeC env data (turned n)).steps := by
    intro n h0 hn data hd
    have ha : Accepted data (turned n) := ⟨⟨Nat.one_pos, Nat.one_le_two_pow⟩, ⟨h0, hn⟩, ⟨h0, hn⟩, ⟨Nat.one_pos, Nat.one_le_two_pow⟩, by
      show data.length = 1 * n * 1
      omega⟩
    refine ⟨ha, ?_⟩
    rw [resizeC_steps env ha]
    have := (lanczos3C_steps env data (sw := 1) (sh := n) (dw := n) (dh := 1) (bpp := 1) (by decide) hn hn (by decide) h0 Nat.one_pos).1
    rw [Nat.mul_one] at this
    exact Nat.le_trans this (Nat.le_add_left _ _)
  refine ⟨slow, fun c hc h => ?_⟩
  obtain ⟨ha, hs⟩ := slow (2 ^ 24) (by decide) (Nat.le_refl _) (List.replicate (2 ^ 24) 0) List.length_replicate
  have hu := h _ _ ha
  have e : ((turned (2 ^ 24)).srcWidth * (turned (2 ^ 24)).srcHeight + (turned (2 ^ 24)).dstWidth * (turned (2 ^ 24)).dstHeight) *
      (turned (2 ^ 24)).colorType.bytesPerPixel = 2 ^ 25 := by decide +kernel
  rw [e] at hu
  generalize (resizeC env (List.replicate (2 ^ 24) 0) (turned (2 ^ 24))).steps = S at *
  omega

example : (resizeC ⟨fun _ => 0, none, none⟩ [10, 20, 30, 40] ⟨2, 2, 3, 1, .gray, .nearest⟩).steps = 9 := by decide +kernel
example : (resizeC ⟨fun _ => 0, none, none⟩ [10, 20, 30] ⟨2, 2, 3, 1, .gray, .nearest⟩).steps = 0 := by decide +kernel
example : (resizeC ⟨fun _ => 0, none, none⟩ [10, 20, 30] (turned 3)).steps = 70 := by decide +kernel
example : (resizeC ⟨fun _ => 0, none, none⟩ [1, 2, 3, 4, 5, 6, 7, 8] ⟨2, 2, 1, 3, .grayAlpha, .lanczos3⟩).steps = 65 := by decide +kernel
/-- Both images have 5000 pixels. -/
example (env : Env) : 25000000 ≤ (resizeC env (List.replicate 5000 7) (turned 5000)).steps :=
  ((C115_violated env).1 5000 (by decide) (by decide) _ List.length_replicate).2
/-- Ten old pixels to each new one: at most 87 weights. -/
example {k : Contribution} (h : contribution (fun _ => 0) 1000 100 50 = .ok k) : k.weights.length ≤ 87 := by
  have := C115_window (fun _ => 0) (by decide) (by decide) (by decide) h
  omega

end Pixo.Props.ResizeWork
