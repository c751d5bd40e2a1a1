import Verif.Proof.JpegProgRuns
/-
Progressive files with optimized tables: which symbols the scans need, and which the statistics of the baseline
scan count.
-/
namespace Pixo.Jpeg
open Pixo Spec Spec.T81

/-! ### Symbols of a band -/

theorem category_iff {v : Int} (h : v ≠ 0) (c : Nat) :
    category v = c ↔ 1 ≤ c ∧ 2 ^ (c - 1) ≤ v.natAbs ∧ v.natAbs < 2 ^ c := by
  have hn : v.natAbs ≠ 0 := by omega
  unfold category
  rw [if_neg h]
  constructor
  · rintro rfl
    exact ⟨by omega, Nat.log2_self_le hn, Nat.lt_log2_self⟩
  · rintro ⟨h1, h2, h3⟩
    have a := (Nat.le_log2 hn).mpr h2
    have b := (Nat.log2_lt hn).mpr h3
    omega

theorem first_nonzero (run : Nat) (v : Int) (vs : List Int) (pre : List Int) (r : Nat) (v' : Int) (post : List Int)
    (h : List.replicate run 0 ++ v :: vs = pre ++ List.replicate r 0 ++ v' :: post) (hv : v ≠ 0) (hv' : v' ≠ 0)
    (hp : pre.getLast? ≠ some 0) :
    (pre = [] ∧ r = run ∧ v' = v) ∨ ∃ pre2, pre2.getLast? ≠ some 0 ∧ vs = pre2 ++ List.replicate r 0 ++ v' :: post := by
  induction run generalizing pre r with
  | zero =>
    cases pre with
    | nil =>
      left
      cases r with
      | zero => simp at h; exact ⟨rfl, rfl, h.1.symm⟩
      | succ r => simp [List.replicate_succ] at h; exact absurd h.1 hv
    | cons a pre =>
      right
      simp at h
      refine ⟨pre, ?_, by simpa using h.2⟩
      cases pre with
      | nil => simp
      | cons b pre => simpa [List.getLast?_cons_cons] using hp
  | succ run ih =>
    rw [List.replicate_succ, List.cons_append] at h
    cases pre with
    | nil =>
      cases r with
      | zero => simp at h; exact absurd h.1.symm hv'
      | succ r =>
        rw [List.nil_append, List.replicate_succ, List.cons_append] at h
        injection h with _ h
        rcases ih [] r (by simpa using h) (by simp) with ⟨_, h2, h3⟩ | ⟨pre2, h2, h3⟩
        · exact Or.inl ⟨rfl, by omega, h3⟩
        · right
          refine ⟨[], by simp, ?_⟩
          exfalso
          -- the zeros before `v` cannot reach beyond it
          have : ∀ (n m : Nat) (a b : Int) (x y : List Int), a ≠ 0 → b ≠ 0 →
              List.replicate n 0 ++ a :: x = List.replicate m 0 ++ b :: y → x = y := by
            intro n
            induction n with
            | zero =>
              intro m a b x y ha hb hx
              cases m with
              | zero => simp at hx; exact hx.2
              | succ m => simp [List.replicate_succ] at hx; exact absurd hx.1 ha
            | succ n ih =>
              intro m a b x y ha hb hx
              cases m with
              | zero => simp [List.replicate_succ] at hx; exact absurd hx.1.symm hb
              | succ m =>
                simp only [List.replicate_succ, List.cons_append, List.cons.injEq, true_and] at hx
                exact ih m a b x y ha hb hx
          have hlen := congrArg List.length (this run r v v' vs post hv hv' h)
          have hlen2 := congrArg List.length h3
          simp at hlen2
          omega
    | cons a pre =>
      rw [List.cons_append, List.cons_append] at h
      injection h with h1 h
      subst h1
      cases pre with
      | nil => simp at hp
      | cons b pre =>
        rcases ih (b :: pre) r h (by simpa [List.getLast?_cons_cons] using hp) with ⟨h2, _⟩ | h2
        · cases h2
        · exact Or.inr h2

theorem mem_coefSyms (l : List Int) (run s : Nat) :
    s ∈ coefSyms l run ↔ CoefSymbol (List.replicate run 0 ++ l) s := by
  induction l generalizing run with
  | nil =>
    constructor
    · intro h; cases h
    · rintro ⟨pre, r, v, post, h, hv, _⟩
      have : v ∈ List.replicate run (0 : Int) ++ [] := by rw [h]; simp
      simp at this
      exact absurd this.2 hv
  | cons v vs ih =>
    rw [coefSyms]
    by_cases h0 : v = 0
    · subst h0
      rw [if_pos rfl, ih, List.replicate_succ', List.append_assoc]
      rfl
    · rw [if_neg h0, List.mem_append, List.mem_cons, ih]
      constructor
      · rintro (h | h | ⟨pre, r, v', post, h, h1, h2, h3⟩)
        · obtain ⟨h1, h2⟩ := List.mem_replicate.mp h
          exact ⟨[], run, v, vs, by simp, h0, by simp, Or.inl ⟨by omega, h2⟩⟩
        · exact ⟨[], run, v, vs, by simp, h0, by simp, Or.inr ⟨category v, ((category_iff h0 _).mp rfl).1,
            ((category_iff h0 _).mp rfl).2.1, ((category_iff h0 _).mp rfl).2.2, h⟩⟩
        · refine ⟨List.replicate run 0 ++ v :: pre, r, v', post, ?_, h1, ?_, h3⟩
          · have h : vs = pre ++ List.replicate r 0 ++ v' :: post := h
            rw [h]; simp
          · rw [List.getLast?_append]
            cases pre with
            | nil => simpa using h0
            | cons b pre =>
              rw [List.getLast?_cons_cons]
              rw [List.getLast?_eq_some_getLast (List.cons_ne_nil b pre)] at h2 ⊢
              simpa using h2
      · rintro ⟨pre, r, v', post, h, h1, h2, h3⟩
        rcases first_nonzero run v vs pre r v' post h h0 h1 h2 with ⟨_, rfl, rfl⟩ | ⟨pre2, g1, g2⟩
        · rcases h3 with ⟨h3, rfl⟩ | ⟨c, c1, c2, c3, rfl⟩
          · exact Or.inl (List.mem_replicate.mpr ⟨by omega, rfl⟩)
          · exact Or.inr (Or.inl (by rw [(category_iff h0 c).mpr ⟨c1, c2, c3⟩]))
        · exact Or.inr (Or.inr ⟨pre2, r, v', post, by simpa using g2, h1, g1, h3⟩)

theorem coefSyms_zeros (l : List Int) (run n : Nat) : coefSyms (l ++ List.replicate n 0) run = coefSyms l run := by
  induction l generalizing run with
  | nil =>
    induction n generalizing run with
    | zero => rfl
    | succ n ih => 
      have : coefSyms (0 :: List.replicate n 0) run = coefSyms (List.replicate n 0) (run + 1) := by
        conv => lhs; unfold coefSyms
        rw [if_pos rfl]
      rw [List.replicate_succ, List.nil_append, this]
      exact ih (run + 1)
  | cons v vs ih =>
    rw [List.cons_append, coefSyms, coefSyms, ih, ih]

theorem coefSyms_trim (b : List Int) : coefSyms (trimZeros b) 0 = coefSyms b 0 := by
  conv => rhs; rw [trimZeros_eq b, coefSyms_zeros]

theorem mem_acSyms (l : List Int) (run s : Nat) :
    s ∈ acSyms l run ↔ s ∈ coefSyms l run ∨ (s = 0 ∧ (List.replicate run (0 : Int) ++ l).getLast? = some 0) := by
  induction l generalizing run with
  | nil =>
    rw [acSyms, coefSyms, List.append_nil]
    cases run with
    | zero => simp
    | succ n => rw [if_pos (by omega), List.replicate_succ']; simp
  | cons v vs ih =>
    rw [acSyms, coefSyms]
    by_cases h0 : v = 0
    · subst h0
      rw [if_pos rfl, if_pos rfl, ih, List.replicate_succ', List.append_assoc]
      rfl
    · rw [if_neg h0, if_neg h0, List.mem_append, List.mem_cons, ih, List.mem_append, List.mem_cons]
      have : (List.replicate run (0 : Int) ++ v :: vs).getLast? = some 0 ↔ (List.replicate 0 (0 : Int) ++ vs).getLast? = some 0 := by
        rw [List.replicate_zero, List.nil_append, List.getLast?_append]
        cases vs with
        | nil => simp [h0]
        | cons b vs =>
          rw [List.getLast?_cons_cons, List.getLast?_eq_some_getLast (List.cons_ne_nil b vs)]
          simp
      rw [this]
      simp only [or_assoc]

theorem mem_acSyms_band (zz : List Int) (hl : zz.length = 64) (s : Nat) :
    s ∈ acSyms (zz.drop 1) 0 ↔ BandSymbol (bandOf 1 63 zz) s := by
  rw [mem_acSyms, mem_coefSyms]
  have : bandOf 1 63 zz = zz.drop 1 := by
    unfold bandOf
    rw [List.take_of_length_le (by simp [hl])]
  rw [this]
  rfl

/-- Without runs of ends of band the symbols of a scan are those of its bands. -/
theorem bandSyms_each (Q : Nat → Prop) (bands : List (List Int)) (run : Nat)
    (hr : run = 0 ∨ (run = 1 ∧ Q 0 ∧ ∀ b l, bands = b :: l → trimZeros b ≠ []))
    (hn : NoRun bands) (hb : ∀ b ∈ bands, b ≠ []) (h1 : ∀ b ∈ bands, ∀ s ∈ coefSyms b 0, Q s)
    (h2 : ∀ b ∈ bands, b.getLast? = some 0 → Q 0) : ∀ s ∈ bandSyms bands run, Q s := by
  induction bands generalizing run with
  | nil =>
    intro s hs
    rw [bandSyms] at hs
    rcases hr with rfl | ⟨rfl, hq, _⟩
    · simp at hs
    · simp at hs
      rw [hs]; exact hq
  | cons b bs ih =>
    have hn2 : NoRun bs := by
      cases bs with
      | nil => trivial
      | cons c l => exact hn.2
    have ih := fun run hr => ih run hr hn2 (fun x hx => hb x (List.mem_cons_of_mem _ hx))
      (fun x hx => h1 x (List.mem_cons_of_mem _ hx)) (fun x hx => h2 x (List.mem_cons_of_mem _ hx))
    have hnext : b.getLast? = some 0 → ∀ c l, bs = c :: l → trimZeros c ≠ [] := by
      rintro g1 c l rfl g2
      exact hn.1 ⟨g1, g2⟩
    have hq := h2 b (by simp)
    intro s hs
    rw [bandSyms] at hs
    by_cases hz : trimZeros b = []
    · have h0 : run = 0 := by
        rcases hr with h | ⟨_, _, h⟩
        · exact h
        · exact absurd hz (h b bs rfl)
      subst h0
      rw [if_pos hz, if_neg (by decide)] at hs
      have hlast := last_of_zero hz (hb b (by simp))
      exact ih 1 (Or.inr ⟨rfl, hq hlast, hnext hlast⟩) s hs
    · rw [if_neg hz] at hs
      rcases List.mem_append.mp hs with hs | hs
      · rcases hr with rfl | ⟨rfl, h, _⟩
        · simp at hs
        · simp at hs
          rw [hs]; exact h
      · rcases List.mem_append.mp hs with hs | hs
        · rw [coefSyms_trim] at hs
          exact h1 b (by simp) s hs
        · by_cases hlt : (trimZeros b).length < b.length
          · rw [if_pos hlt] at hs
            have hlast := (trim_lt_iff hz).mp hlt
            exact ih 1 (Or.inr ⟨rfl, hq hlast, hnext hlast⟩) s hs
          · rw [if_neg hlt] at hs
            exact ih 0 (Or.inl rfl) s hs

/-! ### Symbols that cannot be done without -/

theorem extend_category {v c : Nat} (h1 : 1 ≤ c) (hv : v < 2 ^ c) : extend v c ≠ 0 ∧ category (extend v c) = c := by
  have hp : (2:Nat) ^ c = 2 * 2 ^ (c - 1) := by
    conv => lhs; rw [show c = c - 1 + 1 by omega, Nat.pow_succ]
    omega
  have hpos := Nat.two_pow_pos (c - 1)
  have key : extend v c ≠ 0 ∧ 2 ^ (c - 1) ≤ (extend v c).natAbs ∧ (extend v c).natAbs < 2 ^ c := by
    have hi : ((2 ^ c : Int)) = ((2 ^ c : Nat) : Int) := by simp
    unfold extend
    split <;> omega
  exact ⟨key.1, (category_iff key.1 c).mpr ⟨h1, key.2⟩⟩

theorem hasCode_mem {t : T81.Table} {s : Nat} {w : List Bool} (h : t.HasCode s w) : s ∈ t.vals := by
  obtain ⟨i, _, _, h, _⟩ := h
  exact List.mem_of_getElem? h

theorem coefSyms_replicate (n run : Nat) : coefSyms (List.replicate n 0) run = [] := by
  have := coefSyms_zeros [] run n
  exact this

/-- Whatever the bits: bands can be read only if the symbols of their coefficients have codes. -/
theorem acFirst_needs {t : T81.Table} {len : Nat} {cur : List Int} {bands : List (List Int)} {bits : List Bool}
    (h : AcFirst t len cur bands bits) :
    (∀ s ∈ coefSyms cur 0, s ∈ t.vals) ∧ ∀ b ∈ bands, ∀ s ∈ coefSyms b 0, s ∈ t.vals := by
  have shift : ∀ (n : Nat) (l : List Int) (run : Nat), coefSyms (List.replicate n 0 ++ l) run = coefSyms l (run + n) := by
    intro n
    induction n with
    | zero => intro l run; rfl
    | succ n ih =>
      intro l run
      rw [List.replicate_succ, List.cons_append, coefSyms, if_pos rfl, ih]
      congr 1; omega
  have step : ∀ (l : List Int) (run : Nat), ∀ s ∈ coefSyms l (run + 16), s = 0xF0 ∨ s ∈ coefSyms l run := by
    intro l
    induction l with
    | nil => intro run s hs; cases hs
    | cons v vs ih =>
      intro run s hs
      rw [coefSyms] at hs ⊢
      by_cases h0 : v = 0
      · rw [if_pos h0] at hs ⊢
        exact ih (run + 1) s (by rwa [show run + 1 + 16 = run + 16 + 1 by omega])
      · rw [if_neg h0] at hs ⊢
        rw [Nat.add_mod_right] at hs
        rcases List.mem_append.mp hs with hs | hs
        · exact Or.inl (List.mem_replicate.mp hs).2
        · exact Or.inr (List.mem_append_right _ hs)
  induction h with
  | done => exact ⟨(fun s hs => by cases hs), (fun b hb => by cases hb)⟩
  | next _ _ ih =>
    refine ⟨fun s hs => (by cases hs), ?_⟩
    intro b hb
    rcases List.mem_cons.mp hb with rfl | hb
    · exact ih.1
    · exact ih.2 b hb
  | zrl hc _ ih =>
    refine ⟨fun s hs => ?_, ih.2⟩
    rw [shift] at hs
    rcases step _ 0 s hs with rfl | hs
    · exact hasCode_mem hc
    · exact ih.1 s hs
  | @coef r c v cur bands word bits h16 h1 h2 h3 hc _ ih =>
    refine ⟨fun s hs => ?_, ih.2⟩
    obtain ⟨e1, e2⟩ : extend v c ≠ 0 ∧ category (extend v c) = c := extend_category h1 h3
    rw [shift, Nat.zero_add, coefSyms, if_neg e1, e2, Nat.div_eq_of_lt h16, Nat.mod_eq_of_lt h16] at hs
    simp only [List.replicate_zero, List.nil_append] at hs
    rcases List.mem_cons.mp hs with rfl | hs
    · exact hasCode_mem hc
    · exact ih.1 s hs
  | eob _ _ _ _ _ ih =>
    refine ⟨(fun s hs => by rw [coefSyms_replicate] at hs; cases hs), ?_⟩
    intro b hb
    rcases List.mem_append.mp hb with hb | hb
    · intro s hs
      rw [(List.mem_replicate.mp hb).2, coefSyms_replicate] at hs
      cases hs
    · exact ih.2 b hb

/-! ### The statistics -/

/-- The DC coefficients of a component in an MCU. -/
def mcuDcs (k : Nat) (m : Mcu) : List Int := (m.filter (fun p => decide (p.1 = k))).map (fun p => p.2.headD 0)

theorem mcuSyms_dc (k : Nat) (m : Mcu) (prev : List Int) (hm : ∀ p ∈ m, p.1 < 3) (hp : prev.length = 3) (hk : k < 3)
    (rest : List Int) : ∀ s ∈ dcSyms (prev.getD k 0) (mcuDcs k m ++ rest),
      (true, decide (k = 0), s) ∈ mcuSyms m prev ∨ s ∈ dcSyms ((endPrev m prev).getD k 0) rest := by
  induction m generalizing prev with
  | nil => intro s hs; exact Or.inr hs
  | cons p m ih =>
    obtain ⟨c, b⟩ := p
    intro s hs
    have hc := hm (c, b) (by simp)
    simp only at hc
    have ih := ih (prev.set c ((zigzagReorder b).headD 0)) (fun q hq => hm q (List.mem_cons_of_mem _ hq)) (by simpa using hp)
    rw [mcuSyms, endPrev]
    by_cases h : c = k
    · subst h
      have hd : mcuDcs c ((c, b) :: m) = b.headD 0 :: mcuDcs c m := by simp [mcuDcs]
      rw [hd, List.cons_append, dcSyms] at hs
      rcases List.mem_cons.mp hs with rfl | hs
      · left
        refine List.mem_append_left _ ?_
        rw [blockSyms, headD_zigzag]
        exact List.mem_cons_self ..
      · have hset : (prev.set c ((zigzagReorder b).headD 0)).getD c 0 = b.headD 0 := by
          rw [headD_zigzag, List.getD_eq_getElem?_getD, List.getElem?_set_self (by omega)]; rfl
        rw [hset] at ih
        exact (ih s hs).imp (List.mem_append_right _) id
    · have hd : mcuDcs k ((c, b) :: m) = mcuDcs k m := by simp [mcuDcs, h]
      have hset : (prev.set c ((zigzagReorder b).headD 0)).getD k 0 = prev.getD k 0 := by
        rw [List.getD_eq_getElem?_getD, List.getElem?_set_ne h, ← List.getD_eq_getElem?_getD]
      rw [hset] at ih
      rw [hd] at hs
      exact (ih s hs).imp (List.mem_append_right _) id

theorem endPrev_length (m : Mcu) (prev : List Int) : (endPrev m prev).length = prev.length := by
  induction m generalizing prev with
  | nil => rfl
  | cons p m ih => rw [endPrev, ih, List.length_set]

/-- Without restarts the differences of a component's DC coefficients are counted. -/
theorem scanSyms_dc (interval : Option Nat) (total k : Nat) (hk : k < 3) (mcus : List Mcu) (count : Nat) (prev : List Int)
    (hm : ∀ m ∈ mcus, ∀ p ∈ m, p.1 < 3) (hp : prev.length = 3)
    (hr : ∀ c, count < c → c ≤ count + mcus.length → restartDue interval c total = false) :
    ∀ s ∈ dcSyms (prev.getD k 0) (mcus.flatMap (mcuDcs k)), (true, decide (k = 0), s) ∈ scanSyms interval total mcus count prev := by
  induction mcus generalizing count prev with
  | nil => intro s hs; cases hs
  | cons m mcus ih =>
    intro s hs
    rw [List.flatMap_cons] at hs
    rw [scanSyms, hr (count + 1) (by omega) (by rw [List.length_cons]; omega), if_neg (by decide)]
    rcases mcuSyms_dc k m prev (hm m (by simp)) hp hk _ s hs with h | h
    · exact List.mem_append_left _ h
    · refine List.mem_append_right _ (ih (count + 1) _ (fun x hx => hm x (List.mem_cons_of_mem _ hx))
        (by rw [endPrev_length, hp]) (fun c h1 h2 => hr c (by omega) (by rw [List.length_cons]; omega)) s h)

theorem mcuSyms_ac (m : Mcu) (prev : List Int) (lum : Bool) (s : Nat) :
    (false, lum, s) ∈ mcuSyms m prev ↔ ∃ p ∈ m, decide (p.1 = 0) = lum ∧ s ∈ acSyms ((zigzagReorder p.2).drop 1) 0 := by
  induction m generalizing prev with
  | nil => simp [mcuSyms]
  | cons p m ih =>
    obtain ⟨c, b⟩ := p
    rw [mcuSyms, List.mem_append, ih]
    constructor
    · rintro (h | ⟨q, h1, h2⟩)
      · rw [blockSyms] at h
        rcases List.mem_cons.mp h with h | h
        · cases h
        · obtain ⟨x, hx, e⟩ := List.mem_map.mp h
          injection e with _ e
          injection e with e1 e2
          subst e2
          exact ⟨(c, b), by simp, e1, hx⟩
      · exact ⟨q, List.mem_cons_of_mem _ h1, h2⟩
    · rintro ⟨q, h1, h2, h3⟩
      rcases List.mem_cons.mp h1 with rfl | h1
      · left
        rw [blockSyms]
        refine List.mem_cons_of_mem _ (List.mem_map.mpr ⟨s, h3, ?_⟩)
        simp only at h2
        rw [h2]
      · exact Or.inr ⟨q, h1, h2, h3⟩

/-- The AC symbols counted are those of the blocks. -/
theorem scanSyms_ac (interval : Option Nat) (total : Nat) (mcus : List Mcu) (count : Nat) (prev : List Int) (lum : Bool)
    (s : Nat) : (false, lum, s) ∈ scanSyms interval total mcus count prev ↔
      ∃ m ∈ mcus, ∃ p ∈ m, decide (p.1 = 0) = lum ∧ s ∈ acSyms ((zigzagReorder p.2).drop 1) 0 := by
  induction mcus generalizing count prev with
  | nil => simp [scanSyms]
  | cons m mcus ih => rw [scanSyms, List.mem_append, ih, mcuSyms_ac]; simp

/-! ### The tables of a file -/

/-- The block as in a baseline file. -/
def baseBlock (data : List UInt8) (o : Options) (i x y : Nat) : List Int :=
  (Ctx.of data o (QuantTables.withQuality o.quality)).blockAt i x y

/-- Trellis quantization leaves the DC coefficient as it is. -/
theorem blockAt_dc {data : List UInt8} {o : Options} (hb : (progCtx data o).Baseline) (i x y : Nat) :
    ((progCtx data o).blockAt i x y).headD 0 = (baseBlock data o i x y).headD 0 := by
  have h := (blockAt_eq hb i x y).1
  unfold baseBlock Ctx.blockAt
  by_cases ht : o.trellisQuant = true
  · have hq : (progCtx data o).quant = trellisQuantize := by
      unfold progCtx Ctx.progressive
      simp only [if_pos ht]
    have e1 : (progCtx data o).data = (Ctx.of data o (QuantTables.withQuality o.quality)).data := rfl
    rw [hq] at h ⊢
    rw [h]
    change ((progCtx data o).blockAt i x y).headD 0 = (quantizeBlock (dct2d (blockSamples (progCtx data o).data
      (progCtx data o).width (progCtx data o).height (progCtx data o).colorType (progCtx data o).subsampling i x y))
      (tableFor (progCtx data o).tables i)).headD 0
    generalize dct2d (blockSamples (progCtx data o).data (progCtx data o).width (progCtx data o).height
      (progCtx data o).colorType (progCtx data o).subsampling i x y) = d at *
    generalize tableFor (progCtx data o).tables i = q at *
    generalize (progCtx data o).blockAt i x y = r at *
    unfold trellisQuantize trellisQuantizeWith at h
    simp only at h
    cases hc : trellisColumns (F32.lit 1 1) ((List.range 63).map (fun k => (d.getD (zigzag.getD (k + 1) 0) 0,
      F32.ofInt (q.getD (zigzag.getD (k + 1) 0) 1)))) [[⟨0, 0, 0, 0⟩]] with
    | error e => rw [hc] at h; cases h
    | ok cols =>
      rw [hc, ok_bind] at h
      have h := Except.ok.inj h
      rw [← h]
      rfl
  · have hq : (progCtx data o).quant = (Ctx.of data o (QuantTables.withQuality o.quality)).quant := by
      unfold progCtx Ctx.progressive
      simp only [if_neg ht]
    rw [hq]
    rfl

theorem statMcus_dcs {data : List UInt8} {o : Options} (hb : (progCtx data o).Baseline) (k : Nat) :
    (statMcus data o).flatMap (mcuDcs k) = ((progCtx data o).blocks k).map (fun b => b.headD 0) := by
  unfold statMcus Ctx.blocks mcuDcs
  simp only
  rw [List.flatMap_map, List.map_flatMap]
  congr 1
  funext j
  rw [List.filter_map, List.map_map, List.map_map]
  apply List.map_congr_left
  intro p _
  exact (blockAt_dc hb p.1 p.2.1 p.2.2).symm

theorem restartDue_none {interval : Option Nat} {total c : Nat} (hr : ∀ i, interval = some i → total ≤ i) (h1 : 0 < c) :
    restartDue interval c total = false := by
  unfold restartDue
  cases hi : interval with
  | none => rfl
  | some i =>
    have := hr i hi
    simp only [Bool.and_eq_false_iff, decide_eq_false_iff_not, beq_eq_false_iff_ne]
    by_cases hlt : c < total
    · left; right
      rw [Nat.mod_eq_of_lt (by omega)]
      omega
    · exact Or.inr hlt

/-- The tables of a file have codes for the DC coefficients of its scans if there are no restarts. -/
theorem dc_covered {data : List UInt8} {o : Options} (hb : (progCtx data o).Baseline) {t : HuffTables}
    (hr : ∀ i, o.restartInterval = some i → (statMcus data o).length ≤ i)
    (hm : ∀ m ∈ statMcus data o, McuRange m)
    (hc : Covers t (scanSyms o.restartInterval (statMcus data o).length (statMcus data o) 0 [0, 0, 0]))
    {s : ScanSpec} (hs : s ∈ script) :
    ∀ k ∈ dcSyms 0 (((progCtx data o).blocks s.component).map (fun b => b.headD 0)), k ∈ (t.get true (lumOf s)).vals := by
  obtain ⟨_, _, _, h3, _⟩ := script_cases hs
  intro k hk
  rw [← statMcus_dcs hb] at hk
  have hz : ([0, 0, 0] : List Int).getD s.component 0 = 0 := by
    match s.component, h3 with
    | 0, _ => rfl
    | 1, _ => rfl
    | 2, _ => rfl
  have := scanSyms_dc o.restartInterval (statMcus data o).length s.component h3 (statMcus data o) 0 [0, 0, 0]
    (fun m h p hp => (hm m h p hp).1) rfl ?_ k (by rw [hz]; exact hk)
  · exact hc _ this
  · intro c h1 _
    exact restartDue_none hr h1

end Pixo.Jpeg
