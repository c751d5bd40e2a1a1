import Verif.Proof.TrellisReal
/-
The search of the trellis quantizer with at most seven coefficients: a beginning that is dropped costs no less than
one that is kept and ends with a value, and whatever follows costs no more behind that one.
-/
namespace Pixo.Jpeg
open Pixo Spec.Trellis
open Pixo.Resize (val)

/-! ### The cost in real numbers -/

/-- `Spec.Trellis.tally` in real numbers. -/
noncomputable def tallyR (weight : ℝ) (coefs : List (Int × Int)) (values : List Int) : Nat × ℝ :=
  (coefs.zip values).foldl (fun s p => stepR weight p.1 s p.2) (0, 0)

/-- The cost with that of zeros at the end. -/
noncomputable def finishR (s : Nat × ℝ) : ℝ := if 0 < s.1 then s.2 + 4 else s.2

theorem tallyR_snoc {weight : ℝ} {coefs : List (Int × Int)} {values : List Int} (h : values.length = coefs.length)
    (c : Int × Int) (v : Int) :
    tallyR weight (coefs ++ [c]) (values ++ [v]) = stepR weight c (tallyR weight coefs values) v := by
  unfold tallyR
  rw [List.zip_append h.symm, List.foldl_append]
  rfl

theorem foldR_total (weight : ℝ) (coefs : List (Int × Int)) (values : List Int) (h : values.length = coefs.length)
    (s : Nat × ℝ) : finishR ((coefs.zip values).foldl (fun s p => stepR weight p.1 s p.2) s) =
      s.2 + bits s.1 values + weight * squares coefs values := by
  induction coefs generalizing values s with
  | nil =>
    have hv : values = [] := List.length_eq_zero_iff.mp h
    subst hv
    rw [List.zip_nil_left, List.foldl_nil, finishR, bits]
    split <;> simp [squares]
  | cons c cs ih =>
    cases values with
    | nil => simp at h
    | cons v vs =>
      rw [List.zip_cons_cons, List.foldl_cons, ih vs (by simpa using h)]
      exact stepR_rest weight c cs s.1 s.2 v vs

theorem tallyR_total {weight : ℝ} {coefs : List (Int × Int)} {values : List Int} (h : values.length = coefs.length) :
    finishR (tallyR weight coefs values) = total weight coefs values := by
  unfold tallyR
  rw [foldR_total _ _ _ h]
  unfold total
  simp

/-- The cost of a beginning is the real one, up to rounding. -/
theorem tally_real {lambda : Int} (hl : 0 ≤ val lambda) (hl' : val lambda ≤ 1024) (coefs : List (Int × Int))
    (values : List Int) (hf : ∀ c ∈ coefs, Fine c) (ha : AllowedSeq coefs values) (hk : coefs.length ≤ 63) :
    (tally lambda coefs values).1 = (tallyR (val lambda) coefs values).1 ∧ (tallyR (val lambda) coefs values).1 < 16 ∧
    0 ≤ (tallyR (val lambda) coefs values).2 ∧
    |val (tally lambda coefs values).2 - (tallyR (val lambda) coefs values).2| ≤
      (16 + 4 * (coefs.length : ℝ)) / 2 ^ 24 * (tallyR (val lambda) coefs values).2 + coefs.length * (1 / 2 ^ 109) := by
  induction hn : coefs.length generalizing coefs values with
  | zero =>
    have hc : coefs = [] := List.length_eq_zero_iff.mp hn
    subst hc
    have hv : values = [] := List.length_eq_zero_iff.mp ha.1
    subst hv
    refine ⟨rfl, by simp [tallyR], by simp [tallyR], by simp [tally, tallyR, val]⟩
  | succ n ih =>
    obtain ⟨pre, c, rfl⟩ : ∃ pre c, coefs = pre ++ [c] := by
      rcases List.eq_nil_or_concat coefs with rfl | ⟨pre, c, rfl⟩
      · simp at hn
      · exact ⟨pre, c, by simp⟩
    obtain ⟨w, v, rfl, hw, hv⟩ := allowedSeq_split ha
    have hlen : pre.length = n := by simpa using hn
    rw [List.length_append] at hk
    simp only [List.length_cons, List.length_nil] at hk
    obtain ⟨h1, h2, h3, h4⟩ := ih pre w (fun d hd => hf d (by simp [hd])) hw (by omega) hlen
    rw [tally_snoc hw.1, tallyR_snoc hw.1]
    have h := step_real hl hl' (hf c (by simp)) hv h2 h3 (k := n) (by omega) h4
    rw [show tally lambda pre w = ((tallyR (val lambda) pre w).1, (tally lambda pre w).2) from Prod.ext h1 rfl]
    exact ⟨h.1, stepR_run h2, stepR_nonneg hl h3, h.2⟩

/-! ### Beginnings that are as good -/

theorem codeBits_mono {a b : Nat} (h : a ≤ b) (s : Nat) : codeBits a s ≤ codeBits b s := by
  have h1 := codeTenths_real a s
  have h2 := codeTenths_real b s
  have : codeTenths a s ≤ codeTenths b s := by
    rcases a with _ | _ | _ | a <;> rcases b with _ | _ | _ | b <;> rcases s with _ | _ | _ | _ | _ | s <;>
      simp [codeTenths] <;> omega
  have : (codeTenths a s : ℝ) ≤ codeTenths b s := by exact_mod_cast this
  linarith

theorem codeBits_near {a : Nat} (h : a < 16) (b s : Nat) : codeBits a s ≤ codeBits b s + 10 := by
  have h1 := codeTenths_real a s
  have h2 := codeTenths_real b s
  have : codeTenths a s ≤ codeTenths b s + 100 := by
    rcases a with _ | _ | _ | a <;> rcases b with _ | _ | _ | b <;> rcases s with _ | _ | _ | _ | _ | s <;>
      simp [codeTenths] <;> omega
  have : (codeTenths a s : ℝ) ≤ codeTenths b s + 100 := by exact_mod_cast this
  linarith

/-- `a` is as good as `b` up to a factor and a little: it costs no more and no more zeros are behind the last value,
or it costs less by the ten bits of sixteen zeros. -/
def Good (f t : ℝ) (a b : Nat × ℝ) : Prop := a.1 ≤ b.1 ∧ a.2 ≤ f * b.2 + t ∨ a.2 + 10 ≤ f * b.2 + t

theorem Good.mono {f f' t t' : ℝ} {a b : Nat × ℝ} (h : Good f t a b) (hf : f ≤ f') (ht : t ≤ t') (hb : 0 ≤ b.2) :
    Good f' t' a b := by
  have := mul_le_mul_of_nonneg_right hf hb
  rcases h with ⟨h1, h2⟩ | h
  · exact .inl ⟨h1, by linarith⟩
  · exact .inr (by linarith)

/-- It remains as good, whatever follows. -/
theorem Good.step {f t weight : ℝ} {a b : Nat × ℝ} (h : Good f t a b) (hf : 1 ≤ f) (hw : 0 ≤ weight) (ha : a.1 < 16)
    (hb : b.1 < 16) (c : Int × Int) (v : Int) : Good f t (stepR weight c a v) (stepR weight c b v) := by
  have he : 0 ≤ weight * errR c v := mul_nonneg hw (by unfold errR; positivity)
  have hf0 : 0 ≤ f := by linarith
  have up : ∀ x y : ℝ, 0 ≤ y → x ≤ y → x ≤ f * y := fun x y hy hxy => by nlinarith
  have e1 := up _ _ he le_rfl
  have e10 := up 10 10 (by norm_num) le_rfl
  unfold stepR
  by_cases h0 : v = 0
  · simp only [if_pos h0]
    by_cases ha15 : a.1 = 15
    · rw [if_pos ha15]
      by_cases hb15 : b.1 = 15
      · rw [if_pos hb15]
        refine .inl ⟨le_rfl, ?_⟩
        simp only [mul_add]
        rcases h with ⟨_, h⟩ | h <;> linarith
      · rw [if_neg hb15]
        refine .inl ⟨Nat.zero_le _, ?_⟩
        simp only [mul_add, mul_zero]
        rcases h with ⟨h, _⟩ | h
        · omega
        · linarith
    · rw [if_neg ha15]
      by_cases hb15 : b.1 = 15
      · rw [if_pos hb15]
        refine .inr ?_
        simp only [mul_add]
        rcases h with ⟨_, h⟩ | h <;> linarith
      · rw [if_neg hb15]
        rcases h with ⟨h1, h2⟩ | h
        · refine .inl ⟨by simp only; omega, ?_⟩
          simp only [mul_add, mul_zero]
          linarith
        · refine .inr ?_
          simp only [mul_add, mul_zero]
          linarith
  · simp only [if_neg h0]
    refine .inl ⟨le_rfl, ?_⟩
    have hs : (0 : ℝ) ≤ size v := Nat.cast_nonneg _
    have hcb := codeBits_ge b.1 (size v)
    have e2 := up (codeBits b.1 (size v) + size v) _ (by linarith) le_rfl
    rw [mul_add, mul_add f b.2]
    rcases h with ⟨h1, h2⟩ | h
    · have := codeBits_mono h1 (size v)
      linarith
    · have := codeBits_near ha b.1 (size v)
      linarith

theorem Good.finish {f t : ℝ} {a b : Nat × ℝ} (h : Good f t a b) (hf : 1 ≤ f) :
    finishR a ≤ f * finishR b + t := by
  unfold finishR
  have h4 : f * (b.2 + 4) = f * b.2 + 4 * f := by ring
  rcases h with ⟨h1, h2⟩ | h
  · by_cases ha : 0 < a.1
    · rw [if_pos ha, if_pos (by omega), h4]; linarith
    · rw [if_neg ha]
      split
      · rw [h4]; linarith
      · exact h2
  · split <;> split <;> first | (rw [h4]; linarith) | linarith

/-- Replaced by one that ends with a value. -/
theorem Good.replace {f t g u : ℝ} {a b x : Nat × ℝ} (h : Good f t a b) (hg : 1 ≤ g) (hx : x.1 = 0) (hx' : x.2 ≤ g * a.2 + u) :
    Good (g * f) (g * t + u) x b := by
  have hg0 : 0 ≤ g := by linarith
  rcases h with ⟨h1, h2⟩ | h
  · refine .inl ⟨by omega, ?_⟩
    have := mul_le_mul_of_nonneg_left h2 hg0
    linarith
  · refine .inr ?_
    have := mul_le_mul_of_nonneg_left h hg0
    linarith

/-! ### The columns -/

/-- The share lost at a column that drops something. -/
noncomputable def share : ℝ := 1 + 1 / 2 ^ 14

/-- The beginnings that end with zeros. -/
theorem zero_endings (lambda : Int) (pre : List (Int × Int)) (c : Int × Int) :
    ∃ ends : List (Int × Nat), ends.length ≤ 1 + nonzeros pre ∧
      ∀ w, AllowedSeq (pre ++ [c]) w → w.getLastD 0 = 0 → ending lambda (pre ++ [c]) w ∈ ends := by
  obtain ⟨runs, h1, h2⟩ := runs_few lambda pre [0]
  refine ⟨runs.map fun run => ((0 : Int), if run = 15 then 0 else run + 1), by simpa using h1, ?_⟩
  intro w hw h0
  obtain ⟨values, v, rfl, hv, ha⟩ := allowedSeq_split hw
  rw [List.getLastD_concat] at h0
  subst h0
  unfold ending
  rw [tally_snoc hv.1, List.mem_map]
  have hr := h2 values (0, 0) hv (by simp)
  change (tally lambda pre values).1 ∈ runs at hr
  refine ⟨_, hr, ?_⟩
  rw [List.getLastD_concat]
  unfold step
  rw [if_pos rfl]
  split <;> rfl

theorem nonzeros_snoc (pre : List (Int × Int)) (c : Int × Int) :
    nonzeros (pre ++ [c]) = nonzeros pre + if c.1 = 0 then 0 else 1 := by
  unfold nonzeros
  rw [List.filter_append, List.length_append]
  split
  · rename_i h; rw [List.filter_cons_of_neg (by simpa using h)]; simp
  · rename_i h; rw [List.filter_cons_of_pos (by simpa using h)]; simp

/-- Real costs of beginnings compared by their costs. -/
theorem real_le {lambda : Int} (hl : 0 ≤ val lambda) (hl' : val lambda ≤ 1024) {coefs : List (Int × Int)} {u w : List Int}
    (hf : ∀ c ∈ coefs, Fine c) (hu : AllowedSeq coefs u) (hw : AllowedSeq coefs w) (hk : coefs.length ≤ 63)
    (h : (tally lambda coefs u).2 ≤ (tally lambda coefs w).2) :
    (tallyR (val lambda) coefs u).2 ≤ share * (tallyR (val lambda) coefs w).2 + 1 / 2 ^ 100 := by
  obtain ⟨_, _, u3, u4⟩ := tally_real hl hl' coefs u hf hu hk
  obtain ⟨_, _, w3, w4⟩ := tally_real hl hl' coefs w hf hw hk
  have hv : val (tally lambda coefs u).2 ≤ val (tally lambda coefs w).2 := by
    unfold val
    exact div_le_div_of_nonneg_right (by exact_mod_cast h) (by positivity)
  have hk' : (coefs.length : ℝ) ≤ 63 := by exact_mod_cast hk
  have hη : (16 + 4 * (coefs.length : ℝ)) / 2 ^ 24 ≤ 3 / 2 ^ 17 := by
    rw [div_le_div_iff₀ (by positivity) (by positivity)]; linarith
  have hδ : (coefs.length : ℝ) * (1 / 2 ^ 109) ≤ 63 * (1 / 2 ^ 109) := by gcongr
  have u5 := u4.trans (add_le_add (mul_le_mul_of_nonneg_right hη u3) hδ)
  have w5 := w4.trans (add_le_add (mul_le_mul_of_nonneg_right hη w3) hδ)
  rw [abs_le] at u5 w5
  unfold share
  have n : (63 : ℝ) * (1 / 2 ^ 109) ≤ 1 / 2 ^ 103 := by norm_num
  have n2 : (1 : ℝ) / 2 ^ 100 = 8 * (1 / 2 ^ 103) := by norm_num
  have n3 : (0 : ℝ) ≤ 1 / 2 ^ 103 := by positivity
  rw [n2]
  generalize (1 : ℝ) / 2 ^ 103 = d at *
  norm_num at *
  linarith

/-- The columns, with at most seven coefficients: for everything considered there is something as good, beaten by a
state that is kept. -/
structure Seven (lambda : Int) (coefs : List (Int × Int)) (cols : List (List TrellisState)) : Prop where
  searched : Searched lambda coefs cols
  kept : ∀ w, AllowedSeq coefs w → ∃ q, AllowedSeq coefs q ∧
    Good (share ^ (nonzeros coefs - 5)) (share ^ (nonzeros coefs - 5) * ((nonzeros coefs - 5 : Nat) * (1 / 2 ^ 100)))
      (tallyR (val lambda) coefs q) (tallyR (val lambda) coefs w) ∧
    ∃ s ∈ (cols ++ [rootColumn]).headD [], s.key = ending lambda coefs q ∧ s.cost ≤ (tally lambda coefs q).2

theorem one_le_share : 1 ≤ share := by unfold share; norm_num

theorem seven_nil {lambda : Int} : Seven lambda [] [] := by
  refine ⟨searched_nil, ?_⟩
  intro w hw
  refine ⟨w, hw, .inl ⟨le_rfl, by simp [nonzeros]⟩, ?_⟩
  have : w = [] := List.length_eq_zero_iff.mp hw.1
  subst this
  exact ⟨⟨0, 0, 0, 0⟩, by simp [rootColumn], rfl, Int.le_refl _⟩

theorem seven_step {lambda : Int} (hl : 0 ≤ val lambda) (hl' : val lambda ≤ 1024) {coefs : List (Int × Int)}
    {cols : List (List TrellisState)} (h : Seven lambda coefs cols) {c : Int × Int} (hc : Small (F32.div c.1 c.2))
    (hf : ∀ d ∈ coefs ++ [c], Fine d) (hk : (coefs ++ [c]).length ≤ 63) (h7 : nonzeros (coefs ++ [c]) ≤ 7)
    {next : List TrellisState} (e : trellisStep lambda c.1 c.2 ((cols ++ [rootColumn]).headD []) = .ok next) :
    Seven lambda (coefs ++ [c]) (next :: cols) := by
  have hS := searched_step h.searched hc e
  refine ⟨hS, ?_⟩
  obtain ⟨cands, e1, e2⟩ := step_states e
  obtain ⟨l, e3, hcand⟩ := candidates_iff hc
  rw [e1] at e3
  injection e3 with e3
  subst e3
  obtain ⟨hsub, hnd, hkeep⟩ := step_kept e2
  have hfp : ∀ d ∈ coefs, Fine d := fun d hd => hf d (by simp [hd])
  have hkp : coefs.length ≤ 63 := by rw [List.length_append] at hk; omega
  intro w' hw'
  obtain ⟨w, v, rfl, hw, hv⟩ := allowedSeq_split hw'
  obtain ⟨q, hq, hgood, p, hp, hkey, hcost⟩ := h.kept w hw
  obtain ⟨j, hj⟩ := List.getElem?_of_mem hp
  obtain ⟨_, _, _, h4, h5⟩ := h.searched.path j p hj
  obtain ⟨s1, s2, s3, s4, s5⟩ := nextState_step (coef := c.1) (q := c.2) (i := j) h4 h5 (allowed_small hc hv)
  have hrun : p.zeroRun = (tally lambda coefs q).1 := congrArg Prod.snd hkey
  have hqv : AllowedSeq (coefs ++ [c]) (q ++ [v]) := allowedSeq_snoc hq hv
  have htk : (nextState lambda c.1 c.2 p j v).key = ending lambda (coefs ++ [c]) (q ++ [v]) := by
    unfold TrellisState.key ending
    rw [s2, tally_snoc hq.1]
    have := (step_mono lambda c v (run := p.zeroRun) hcost).1
    rw [← s1, hrun] at this
    simp only at this
    rw [this]
    simp
  have htc : (nextState lambda c.1 c.2 p j v).cost ≤ (tally lambda (coefs ++ [c]) (q ++ [v])).2 := by
    rw [tally_snoc hq.1]
    have := (step_mono lambda c v (run := p.zeroRun) hcost).2
    rw [← s1, hrun] at this
    exact this
  obtain ⟨_, q2, q3, _⟩ := tally_real hl hl' coefs q hfp hq hkp
  obtain ⟨_, w2, w3, _⟩ := tally_real hl hl' coefs w hfp hw hkp
  have hn := nonzeros_snoc coefs c
  have hsh := one_le_share
  have hgood' := hgood.step (one_le_pow₀ hsh) hl q2 w2 c v
  have hw3' : 0 ≤ (stepR (val lambda) c (tallyR (val lambda) coefs w) v).2 := stepR_nonneg hl w3
  have hm : ∀ {a b : Nat}, a ≤ b → share ^ a ≤ share ^ b ∧
      share ^ a * ((a : ℝ) * (1 / 2 ^ 100)) ≤ share ^ b * ((b : ℝ) * (1 / 2 ^ 100)) := by
    intro a b hab
    have h1 : share ^ a ≤ share ^ b := pow_le_pow_right₀ hsh hab
    have h2 : (a : ℝ) ≤ b := by exact_mod_cast hab
    have h3 : 0 ≤ share ^ b := by have : 0 ≤ share := by linarith
                                  positivity
    exact ⟨h1, by gcongr⟩
  rcases hkeep _ (mem_successors.mpr ⟨p, j, v, hj, (hcand v).mpr hv, rfl⟩) with ⟨u, hu, h1, h2⟩ | ⟨hl8, hall⟩
  · refine ⟨q ++ [v], hqv, ?_, u, hu, h1.trans htk, Int.le_trans h2 htc⟩
    rw [tallyR_snoc hq.1, tallyR_snoc hw.1]
    have := hm (a := nonzeros coefs - 5) (b := nonzeros (coefs ++ [c]) - 5) (by omega)
    exact hgood'.mono this.1 this.2 hw3'
  · -- every state kept is the ending of something considered
    have hends : ∀ u ∈ next, ∃ o, AllowedSeq (coefs ++ [c]) o ∧ tally lambda (coefs ++ [c]) o = (u.zeroRun, u.cost) ∧
        o.getLastD 0 = u.value ∧ ending lambda (coefs ++ [c]) o = u.key := by
      intro u hu
      obtain ⟨i, hi⟩ := List.getElem?_of_mem hu
      obtain ⟨p1, p2, p3, _⟩ := hS.path i u hi
      exact ⟨_, p1, p2, p3, by unfold ending TrellisState.key; rw [p2, p3]⟩
    have hnd9 : (next.map TrellisState.key ++ [ending lambda (coefs ++ [c]) (q ++ [v])]).Nodup := by
      rw [List.nodup_append]
      refine ⟨hnd, by simp, ?_⟩
      intro a ha b hb e
      obtain ⟨u, hu, rfl⟩ := List.mem_map.mp ha
      rw [List.mem_singleton] at hb
      exact (hall u hu).1 (e.trans (hb.trans htk.symm))
    have nine : ∀ ends : List (Int × Nat), ends.length ≤ 8 →
        (∀ o, AllowedSeq (coefs ++ [c]) o → ending lambda (coefs ++ [c]) o ∈ ends) → False := by
      intro ends h8 hin
      have := Png.nodup_le hnd9 (m := ends) (by
        intro a ha
        rcases List.mem_append.mp ha with ha | ha
        · obtain ⟨u, hu, rfl⟩ := List.mem_map.mp ha
          obtain ⟨o, o1, _, _, o4⟩ := hends u hu
          rw [← o4]
          exact hin o o1
        · rw [List.mem_singleton] at ha
          subst ha
          exact hin _ hqv)
      rw [List.length_append, List.length_map] at this
      simp only [List.length_cons, List.length_nil] at this
      omega
    obtain ⟨ends, z1, z2⟩ := zero_endings lambda coefs c
    have hc0 : c.1 ≠ 0 := by
      intro h0
      rw [if_pos h0] at hn
      refine nine ends (by omega) fun o ho => z2 o ho ?_
      obtain ⟨o', x, rfl, _, hx⟩ := allowedSeq_split ho
      rw [List.getLastD_concat]
      rw [h0, div_zero_left] at hx
      exact allowed_zero hx
    rw [if_neg hc0] at hn
    have h6 : 6 ≤ nonzeros (coefs ++ [c]) := by
      by_contra hlt
      obtain ⟨ends', f1, f2⟩ := endings_few lambda (coefs ++ [c]) (.inl (by omega))
      exact nine ends' f1 f2
    obtain ⟨u, hu, hu0⟩ : ∃ u ∈ next, u.value ≠ 0 := by
      by_contra hno
      have := Png.nodup_le hnd (m := ends) (by
        intro a ha
        obtain ⟨u, hu, rfl⟩ := List.mem_map.mp ha
        obtain ⟨o, o1, _, o3, o4⟩ := hends u hu
        rw [← o4]
        refine z2 o o1 ?_
        rw [o3]
        by_contra h0
        exact hno ⟨u, hu, h0⟩)
      rw [List.length_map] at this
      omega
    obtain ⟨o, o1, o2, o3, o4⟩ := hends u hu
    refine ⟨o, o1, ?_, u, hu, o4.symm, by rw [o2]⟩
    have hle := real_le hl hl' hf o1 hqv hk (by rw [o2]; exact Int.le_trans (hall u hu).2 htc)
    rw [tallyR_snoc hq.1] at hle
    rw [tallyR_snoc hw.1]
    have ho0 : (tallyR (val lambda) (coefs ++ [c]) o).1 = 0 := by
      obtain ⟨o', x, rfl, ho', _⟩ := allowedSeq_split o1
      rw [tallyR_snoc ho'.1]
      rw [List.getLastD_concat] at o3
      unfold stepR
      rw [if_neg (by rw [o3]; exact hu0)]
    have hr := hgood'.replace hsh ho0 hle
    refine hr.mono ?_ ?_ hw3'
    · rw [show nonzeros (coefs ++ [c]) - 5 = nonzeros coefs - 5 + 1 by omega, pow_succ']
    · rw [show nonzeros (coefs ++ [c]) - 5 = nonzeros coefs - 5 + 1 by omega]
      have h1 : 1 ≤ share ^ (nonzeros coefs - 5 + 1) := one_le_pow₀ hsh
      have h2 : (0 : ℝ) ≤ 1 / 2 ^ 100 := by positivity
      generalize (1 : ℝ) / 2 ^ 100 = d at *
      have h3 := mul_le_mul_of_nonneg_right h1 h2
      rw [pow_succ'] at h3 ⊢
      push_cast
      linarith

theorem seven_columns {lambda : Int} (hl : 0 ≤ val lambda) (hl' : val lambda ≤ 1024) (rest : List (Int × Int))
    (hs : ∀ c ∈ rest, Small (F32.div c.1 c.2)) (cols : List (List TrellisState))
    (hne : (cols ++ [rootColumn]).headD [] ≠ []) (coefs : List (Int × Int)) (hf : ∀ d ∈ coefs ++ rest, Fine d)
    (hk : (coefs ++ rest).length ≤ 63) (h7 : nonzeros (coefs ++ rest) ≤ 7) (h : Seven lambda coefs cols) :
    ∃ cols', trellisColumns lambda rest (cols ++ [rootColumn]) = .ok (cols' ++ [rootColumn]) ∧
      (cols' ++ [rootColumn]).headD [] ≠ [] ∧ Seven lambda (coefs ++ rest) cols' := by
  induction rest generalizing cols coefs with
  | nil => exact ⟨cols, rfl, hne, by simpa using h⟩
  | cons c rest ih =>
    have hsm := hs c List.mem_cons_self
    obtain ⟨nx, e, h1, _⟩ := trellisStep_spec (lambda := lambda) hsm hne
    have ea : coefs ++ c :: rest = coefs ++ [c] ++ rest := by simp
    rw [ea] at hf hk h7 ⊢
    have h7' : nonzeros (coefs ++ [c]) ≤ 7 := by
      unfold nonzeros at *
      rw [List.filter_append, List.length_append] at h7
      omega
    obtain ⟨cols', e', h2, h3⟩ := ih (fun d hd => hs d (List.mem_cons_of_mem _ hd)) (nx :: cols) h1
      (coefs ++ [c]) hf hk h7 (seven_step hl hl' h hsm (fun d hd => hf d (List.mem_append_left _ hd))
        (by rw [List.length_append] at hk; omega) h7' e)
    refine ⟨cols', ?_, h2, h3⟩
    obtain ⟨coef, q⟩ := c
    rw [trellisColumns, e, ok_bind, if_neg h1]
    exact e'

/-- With at most seven coefficients nothing considered costs less in real numbers than what is returned, but for
rounding. -/
theorem trellisQuantizeWith_seven {lambda : Int} (hl : 0 ≤ val lambda) (hl' : val lambda ≤ 1024) {dct : List Int}
    {table : List Nat} (hs : ∀ n < 64, Small (F32.div (dct.getD n 0) (F32.ofInt (table.getD n 1))))
    (hf : ∀ c ∈ acCoefs dct table, Fine c) (h7 : nonzeros (acCoefs dct table) ≤ 7) {r : List Int}
    (e : trellisQuantizeWith lambda dct table = .ok r) {w : List Int} (hw : AllowedSeq (acCoefs dct table) w) :
    total (val lambda) (acCoefs dct table) (acValues r) ≤
      (1 + 1 / 2 ^ 11) * total (val lambda) (acCoefs dct table) w + 1 / 2 ^ 97 := by
  have hlen : (acCoefs dct table).length ≤ 63 := by simp [acCoefs]
  obtain ⟨cols, e1, hne, hS⟩ := seven_columns hl hl' (acCoefs dct table) (acCoefs_small hs) [] (by simp [rootColumn]) []
    (by simpa using hf) (by simpa using hlen) (by simpa using h7) seven_nil
  rw [List.nil_append] at e1 hS
  obtain ⟨a, hbest⟩ := trellisQuantizeWith_best e1 hne hS.searched e
  obtain ⟨q, hq, hgood, t, ht, hkey, hcost⟩ := hS.kept w hw
  have hp := hbest t ht q (congrArg Prod.snd hkey) hcost
  have hv : val (price lambda (acCoefs dct table) (acValues r)) ≤ val (price lambda (acCoefs dct table) q) := by
    unfold val
    exact div_le_div_of_nonneg_right (by exact_mod_cast hp) (by positivity)
  have p1 := price_real hl hl' hf a hlen
  have p2 := price_real hl hl' hf hq hlen
  rw [abs_le] at p1 p2
  have hg := hgood.finish (one_le_pow₀ one_le_share)
  rw [tallyR_total hq.1, tallyR_total hw.1] at hg
  have nn : ∀ v, 0 ≤ total (val lambda) (acCoefs dct table) v := fun v => by
    have := bits_nonneg 0 v
    have := squares_nonneg (acCoefs dct table) v
    unfold total
    positivity
  have hr0 := nn (acValues r)
  have hw0 := nn w
  have hq0 := nn q
  have hsh := one_le_share
  have hj : nonzeros (acCoefs dct table) - 5 ≤ 2 := by omega
  have hs2 : share ^ (nonzeros (acCoefs dct table) - 5) ≤ 1 + 5 / 2 ^ 15 := by
    refine (pow_le_pow_right₀ hsh hj).trans ?_
    unfold share
    norm_num
  have hs0 : 0 ≤ share ^ (nonzeros (acCoefs dct table) - 5) := pow_nonneg (by linarith) _
  have ht2 : share ^ (nonzeros (acCoefs dct table) - 5) *
      (((nonzeros (acCoefs dct table) - 5 : Nat) : ℝ) * (1 / 2 ^ 100)) ≤ (1 + 5 / 2 ^ 15) * (2 * (1 / 2 ^ 100)) := by
    have : ((nonzeros (acCoefs dct table) - 5 : Nat) : ℝ) ≤ 2 := by exact_mod_cast hj
    gcongr
  have hg2 := hg.trans (add_le_add (mul_le_mul_of_nonneg_right hs2 hw0) ht2)
  have n97 : (1 : ℝ) / 2 ^ 97 = 8 * (1 / 2 ^ 100) := by norm_num
  have n0 : (0 : ℝ) ≤ 1 / 2 ^ 100 := by positivity
  rw [n97]
  generalize (1 : ℝ) / 2 ^ 100 = d at *
  norm_num at *
  linarith

end Pixo.Jpeg
