import Verif.Proof.Lz77
/-
Packed tokens and the optimal parser.
-/
namespace Pixo.Lz77
open Pixo Pixo.MatchLength

/-! ### Packed tokens -/

theorem and_bit31 (p : Nat) (h : p < 2 ^ 31) : p &&& 0x80000000 = 0 := by
  apply Nat.eq_of_testBit_eq
  intro i
  rw [Nat.testBit_and, Nat.zero_testBit, show (0x80000000 : Nat) = 2 ^ 31 by decide, Nat.testBit_two_pow]
  by_cases hi : 31 = i
  · subst hi; rw [Nat.testBit_lt_two_pow h]; rfl
  · simp [hi]

theorem isLiteral_literal (b : UInt8) : isLiteral (packLiteral b) = true := by
  unfold isLiteral packLiteral
  rw [bne_iff_ne]
  intro h
  have := congrArg (·.testBit 31) h
  simp only [Nat.testBit_and, Nat.testBit_or, Nat.zero_testBit] at this
  rw [show Nat.testBit 0x80000000 31 = true by decide] at this
  simp at this

theorem asLiteral_literal (b : UInt8) : asLiteral (packLiteral b) = some b := by
  unfold asLiteral
  rw [isLiteral_literal, if_pos rfl]
  congr 1
  apply UInt8.toNat_inj.1
  rw [UInt8.toNat_ofNat']
  unfold packLiteral
  apply Nat.eq_of_testBit_eq
  intro i
  rw [Nat.testBit_mod_two_pow, Nat.testBit_or, show (0x80000000 : Nat) = 2 ^ 31 by decide, Nat.testBit_two_pow]
  by_cases hi : i < 8
  · have : (31 = i) = False := eq_false (by omega)
    simp [hi, this]
  · have : b.toNat.testBit i = false := Nat.testBit_lt_two_pow (Nat.lt_of_lt_of_le b.toNat_lt (Nat.pow_le_pow_right (by decide) (by omega)))
    simp [hi, this]

theorem packMatch_eq {l d : Nat} (hl : l ≤ 258) (hd : 1 ≤ d) :
    packMatch l d = .ok ((d - 1) * 65536 + l) := by
  unfold packMatch
  rw [if_pos hd, ← Nat.shiftLeft_add_eq_or_of_lt (show l < 2 ^ 16 by omega), Nat.shiftLeft_eq]

theorem isLiteral_match {l d : Nat} (hl : l ≤ 258) (hd : d ≤ 32768) (h1 : 1 ≤ d) :
    isLiteral ((d - 1) * 65536 + l) = false := by
  unfold isLiteral
  rw [and_bit31 _ (by omega)]; rfl

theorem asMatch_match {l d : Nat} (hl : l ≤ 258) (h1 : 1 ≤ d) (hd : d ≤ 32768) :
    asMatch ((d - 1) * 65536 + l) = .ok (some (l, d)) := by
  unfold asMatch
  rw [isLiteral_match hl hd h1, if_neg (by decide)]
  simp only []
  have e1 : ((d - 1) * 65536 + l) &&& 0xFFFF = l := by
    rw [show (0xFFFF : Nat) = 2 ^ 16 - 1 by decide, Nat.and_two_pow_sub_one_eq_mod]; omega
  have e2 : asU16 (((d - 1) * 65536 + l) >>> 16) = d - 1 := by
    unfold asU16; rw [Nat.shiftRight_eq_div_pow]; omega
  rw [e1, e2, if_pos (by omega), show d - 1 + 1 = d by omega]

/-- What a packed token reads back as. -/
def unpack (p : Nat) : R (Option Token) :=
  match asLiteral p with
  | some b => .ok (some (.lit b))
  | none => do
    match ← asMatch p with
    | some (l, d) => return some (.mtch l d)
    | none => return none

/-- Limits of a token. -/
def TokOk : Token → Prop
  | .lit _ => True
  | .mtch l d => 3 ≤ l ∧ l ≤ 258 ∧ 1 ≤ d ∧ d ≤ 32768

theorem pack_spec (t : Token) (h : TokOk t) : Oks (pack t) (fun p => unpack p = .ok (some t)) := by
  cases t with
  | lit b =>
    refine .ok ?_
    unfold unpack; rw [asLiteral_literal]
  | mtch l d =>
    obtain ⟨_, h2, h3, h4⟩ := h
    show Oks (packMatch l d) _
    rw [packMatch_eq h2 h3]
    refine .ok ?_
    unfold unpack asLiteral
    rw [isLiteral_match h2 h4 h3, if_neg (by decide), asMatch_match h2 h3 h4]; rfl

theorem pack_mapM (ts : List Token) (h : ∀ t ∈ ts, TokOk t) :
    Oks (ts.mapM pack) (fun ps => ps.map unpack = ts.map (fun t => .ok (some t))) := by
  induction ts with
  | nil => exact .pure rfl
  | cons t ts ih =>
    rw [List.mapM_cons]
    refine Oks.bind (pack_spec t (h t (by simp))) fun p hp => ?_
    refine Oks.bind (ih (fun t ht => h t (by simp [ht]))) fun ps hps => ?_
    exact .pure (by rw [List.map_cons, List.map_cons, hp, hps])

theorem Sound.tokOk {data out pos} (h : Sound data out pos) : ∀ t ∈ out, TokOk t := by
  intro t ht
  cases t with
  | lit => trivial
  | mtch l d => exact h.limits l d ht

/-- The tables the optimal parser uses; it leaves the buckets of the fast matcher alone. -/
structure CWF (cfg : Config) (st : State) (b : Nat) : Prop where
  sized : Sized st
  config : st.config = cfg
  head : st.head.Le b
  head3 : st.head3.Le b
  prev : st.prev.Le b

variable {cfg : Config}

theorem CWF.sHead {st : State} {b : Nat} (h : CWF cfg st b) : st.head.size = HASH_SIZE := h.sized.head
theorem CWF.sHead3 {st : State} {b : Nat} (h : CWF cfg st b) : st.head3.size = HASH3_SIZE := h.sized.head3
theorem CWF.sPrev {st : State} {b : Nat} (h : CWF cfg st b) : st.prev.size = MAX_DISTANCE := h.sized.prev

theorem CWF.mono {st : State} {a b : Nat} (h : CWF cfg st a) (hab : a ≤ b) : CWF cfg st b :=
  ⟨h.sized, h.config, h.head.mono hab, h.head3.mono hab, h.prev.mono hab⟩

theorem updateHashC_spec {st : State} {data : List UInt8} {pos b : Nat} (hw : CWF cfg st b) (hb : pos ≤ b) :
    Oks (updateHash st data pos) (fun st' => CWF cfg st' b) := by
  unfold updateHash
  split
  · exact .ok hw
  · have hv : asI32 pos ≤ (b : Int) := by have := asI32_le pos; omega
    refine Oks.bind (hash3_spec data pos) fun h3 hh3 => ?_
    refine Oks.bind (Tab.set_spec hw.sHead3 hh3 hw.head3 hv) fun t3 ht3 => ?_
    refine Oks.bind (hash4_spec data pos) fun h4 hh4 => ?_
    refine Oks.bind (Tab.get_spec hw.sHead hh4 hw.head) fun old hold => ?_
    refine Oks.bind (Tab.set_spec hw.sPrev (Nat.mod_lt _ (by decide)) hw.prev hold) fun tp htp => ?_
    refine Oks.bind (Tab.set_spec hw.sHead hh4 hw.head hv) fun th hth => ?_
    exact .pure ⟨⟨hth.1, ht3.1, hw.sized.ht0, hw.sized.ht1, htp.1⟩, hw.config, hth.2, ht3.2, htp.2⟩

theorem cwf_resetChains {st : State} (h : Sized st) : CWF st.config st.resetChains 0 := by
  have hle : ∀ t : Tab, t.fill.Le 0 := fun t i => by show (-1 : Int) ≤ _; decide
  exact ⟨⟨h.head, h.head3, h.ht0, h.ht1, h.prev⟩, rfl, hle _, hle _, hle _⟩

/-! ### Matches per length -/

structure SubOk (data : List UInt8) (pos : Nat) (s : List Nat × Nat) : Prop where
  size : s.1.length = 259
  max : s.2 ≤ 258
  valid : ∀ len d, 3 ≤ len → s.1[len]? = some d → d ≠ 0 → Valid data pos len d

theorem SubOk.zero (data : List UInt8) (pos : Nat) : SubOk data pos (List.replicate 259 0, 0) := by
  refine ⟨List.length_replicate, by simp only []; omega, ?_⟩
  intro len d _ h hd
  simp only [List.getElem?_replicate] at h
  split at h
  · cases h; exact absurd rfl hd
  · cases h

theorem Valid.shorter {data : List UInt8} {pos l l' d : Nat} (h : Valid data pos l d) (h3 : 3 ≤ l') (hl : l' ≤ l) :
    Valid data pos l' d :=
  ⟨h3, Nat.le_trans hl h.max, by have := h.fits; omega, h.near, h.far, h.back,
   fun i hi => h.same i (by omega)⟩

theorem SubOk.set {data : List UInt8} {pos : Nat} {s : List Nat × Nat} {len d : Nat} (h : SubOk data pos s)
    (hv : Valid data pos len d) : SubOk data pos (s.1.set len d, s.2) := by
  refine ⟨by simpa using h.size, h.max, ?_⟩
  intro len' d' h3 he hd
  simp only [List.getElem?_set] at he
  split at he
  · rename_i e
    subst e
    split at he
    · cases he; exact hv
    · cases he
  · exact h.valid len' d' h3 he hd

theorem fillSublen_spec {data : List UInt8} {pos m d len : Nat} (hv : Valid data pos len d)
    (n lo : Nat) (hlo : 3 ≤ lo) (hn : lo + n ≤ len + 1) (sub : List Nat) (hs : SubOk data pos (sub, m)) :
    Oks (fillSublen d n lo sub) (fun sub' => SubOk data pos (sub', m)) := by
  induction n generalizing lo sub with
  | zero => exact .ok hs
  | succ n ih =>
    rw [fillSublen]
    have := hv.max
    have hsz := hs.size
    simp only [] at hsz
    unfold setChecked
    rw [if_pos (by omega), ok_bind]
    exact ih (lo + 1) (by omega) (by omega) _ (hs.set (hv.shorter hlo (by omega)))

theorem improve_spec {data : List UInt8} {pos m d len : Nat} (hv : Valid data pos len d) (sub : List Nat)
    (hs : SubOk data pos (sub, m)) : Oks (improve sub len d) (fun sub' => SubOk data pos (sub', m)) := by
  have := hv.max
  have hsz := hs.size
  simp only [] at hsz
  unfold improve
  refine Oks.bind (get_ok (by omega)) fun old _ => ?_
  rw [asU16_dist hv]
  split
  · unfold setChecked
    rw [if_pos (by omega)]
    exact .ok (hs.set hv)
  · exact .ok hs

theorem improveRange_spec {data : List UInt8} {pos m d len : Nat} (hv : Valid data pos len d)
    (n lo : Nat) (hlo : 3 ≤ lo) (hn : lo + n ≤ len + 1) (sub : List Nat) (hs : SubOk data pos (sub, m)) :
    Oks (improveRange d n lo sub) (fun sub' => SubOk data pos (sub', m)) := by
  induction n generalizing lo sub with
  | zero => exact .ok hs
  | succ n ih =>
    rw [improveRange]
    refine Oks.bind (improve_spec (hv.shorter hlo (by omega)) sub hs) fun sub' hs' => ?_
    exact ih (lo + 1) (by omega) (by omega) _ hs'

theorem sublenProbe_spec {st : State} {data : List UInt8} {pos : Nat} {s : List Nat × Nat}
    (hw : CWF cfg st pos) (hp : pos + 3 ≤ data.length) (hs : SubOk data pos s) :
    Oks (sublenProbe st data pos s) (SubOk data pos) := by
  unfold sublenProbe
  refine Oks.bind (hash3_spec data pos) fun h hh => ?_
  refine Oks.bind (Tab.get_spec hw.sHead3 hh hw.head3) fun cand hc => ?_
  split
  · simp only []
    have hle := toNat_le hc
    refine Oks.bind (subUsize_spec hle) ?_
    rintro _ rfl
    split
    · exact .ok hs
    · split
      · rename_i h0 h1
        refine Oks.bind (same3_spec hp h1.2) fun same hsame => ?_
        split
        · rename_i hst
          have hv : Valid data pos 3 (pos - cand.toNat) :=
            valid_match (by omega) h1.1 (by omega) (by omega) hp (hsame hst)
          refine Oks.bind (improve_spec (m := s.2) hv s.1 hs) fun sub hsub => ?_
          refine .pure ⟨hsub.size, ?_, hsub.valid⟩
          have := hs.max
          simp only []; omega
        · exact .ok hs
      · exact .ok hs
  · exact .ok hs

theorem sublenStep_spec (lv : Simd.Level) {data : List UInt8} {pos m : Nat} {s : List Nat × Nat}
    (hp : pos + 3 ≤ data.length) (hle : m ≤ pos) (hs : SubOk data pos s) :
    Oks (sublenStep lv data pos m s) (fun r => SubOk data pos r.1) := by
  unfold sublenStep
  refine Oks.bind (subUsize_spec hle) ?_
  rintro _ rfl
  split
  · exact .ok hs
  · split
    · exact .ok hs
    · rename_i h0 h1
      refine Oks.bind (matchLen_spec lv data m pos hle (by omega)) fun l hl => ?_
      split
      · rename_i hc
        have h2 : min pos MAX_DISTANCE ≤ 32768 := Nat.min_le_right _ _
        have h3 : 3 ≤ l := hc.1
        have hv : Valid data pos l (pos - m) := valid_match (by omega) (by omega) h3 hl.1 hl.2.1 hl.2.2
        refine Oks.bind (improveRange_spec (m := s.2) hv _ _ (Nat.le_refl 3) (by unfold MIN_MATCH_LENGTH; omega) s.1 hs) fun sub hsub => ?_
        split
        · exact .ok ⟨hsub.size, hl.1, hsub.valid⟩
        · exact .ok hsub
      · exact .ok hs

theorem sublenSearch_spec (lv : Simd.Level) {st : State} {data : List UInt8} {pos : Nat} {s : List Nat × Nat}
    (hw : CWF cfg st pos) (hp : pos + 3 ≤ data.length) (hs : SubOk data pos s) :
    Oks (sublenSearch lv st data pos s) (SubOk data pos) := by
  unfold sublenSearch
  refine Oks.bind (sublenProbe_spec hw hp hs) fun s hs => ?_
  refine Oks.bind (hash4_spec data pos) fun h hh => ?_
  refine Oks.bind (Tab.get_spec hw.sHead hh hw.head) fun first hf => ?_
  exact chainLoop_spec (P := SubOk data pos) hw.sPrev hw.prev
    (fun m s hm hs => sublenStep_spec lv hp hm hs) _ first s hf hs

theorem findSublen_spec (lv : Simd.Level) {st : State} {data : List UInt8} {pos : Nat} (hw : CWF cfg st pos) :
    Oks (findSublen lv st data pos) (SubOk data pos) := by
  unfold findSublen
  simp only []
  split
  · exact .ok (SubOk.zero data pos)
  · rename_i h
    have hp : pos + 3 ≤ data.length := by unfold MIN_MATCH_LENGTH at h; omega
    refine Oks.bind (detectRun_spec data pos (by omega)) fun run hr => ?_
    refine Oks.bind (continuesRun_spec (by omega)) fun b hb => ?_
    split
    · rename_i h1
      have hb := hb h1
      have h3 : 3 ≤ run := hb.1
      have hv := valid_run (by omega) hb.2.1 h3 hr.2.1 hr.2.2 hr.1 hb.2.2
      have h0 : SubOk data pos (List.replicate 259 0, run) :=
        ⟨(SubOk.zero data pos).size, hr.2.1, (SubOk.zero data pos).valid⟩
      refine Oks.bind (fillSublen_spec hv _ _ (Nat.le_refl 3) (by unfold MIN_MATCH_LENGTH; omega) _ h0) fun sub hsub => ?_
      split
      · exact .ok hsub
      · exact sublenSearch_spec lv hw hp hsub
    · exact sublenSearch_spec lv hw hp (SubOk.zero data pos)

/-! ### Costs -/

theorem roundNat_le {k y : Nat} (hk : 25 ≤ k) (hy : y ≤ 2 ^ k + 2 ^ (k - 25)) : roundNat y ≤ 2 ^ k := by
  unfold roundNat
  simp only []
  by_cases h0 : y = 0
  · subst h0; simp
  have hlo : 2 ^ y.log2 ≤ y := Nat.log2_self_le h0
  have hhi : y < 2 ^ (y.log2 + 1) := Nat.lt_log2_self
  generalize y.log2 = L at *
  by_cases hL : L < 23
  · have he : L - 23 = 0 := by omega
    rw [he]
    simp only [Nat.pow_zero, Nat.mod_one, Nat.shiftRight_zero, Nat.shiftLeft_zero]
    rw [if_neg (by omega)]
    have : 2 ^ (L + 1) ≤ 2 ^ k := Nat.pow_le_pow_right (by decide) (by omega)
    omega
  · rw [Nat.shiftRight_eq_div_pow, Nat.shiftLeft_eq]
    have hq : y / 2 ^ (L - 23) < 2 ^ 24 := by
      rw [Nat.div_lt_iff_lt_mul (Nat.two_pow_pos _), ← Nat.pow_add]
      rwa [show 24 + (L - 23) = L + 1 by omega]
    by_cases hlt : L < k
    · have hle : (if 2 * (y % 2 ^ (L - 23)) > 2 ^ (L - 23) ∨ 2 * (y % 2 ^ (L - 23)) = 2 ^ (L - 23) ∧
          y / 2 ^ (L - 23) % 2 = 1 then y / 2 ^ (L - 23) + 1 else y / 2 ^ (L - 23)) ≤ 2 ^ 24 := by
        split <;> omega
      refine Nat.le_trans (Nat.mul_le_mul_right _ hle) ?_
      rw [← Nat.pow_add]
      exact Nat.pow_le_pow_right (by decide) (by omega)
    · have hkp : 2 ^ (k - 25) < 2 ^ k := Nat.pow_lt_pow_right (by decide) (by omega)
      have hLk : L = k := by
        rcases Nat.lt_or_ge k L with h | h
        · have : 2 ^ (k + 1) ≤ 2 ^ L := Nat.pow_le_pow_right (by decide) h
          rw [Nat.pow_succ] at this
          omega
        · omega
      subst hLk
      have e1 : 2 ^ L = 2 ^ 23 * 2 ^ (L - 23) := by rw [← Nat.pow_add]; congr 1; omega
      have e2 : 2 ^ (L - 23) = 4 * 2 ^ (L - 25) := by
        rw [show L - 23 = 2 + (L - 25) by omega, Nat.pow_add]
      have hp := Nat.two_pow_pos (L - 25)
      have hqe : y / 2 ^ (L - 23) = 2 ^ 23 := by
        apply Nat.div_eq_of_lt_le
        · rw [← e1]; exact hlo
        · rw [Nat.succ_mul, ← e1]; omega
      have hr : y % 2 ^ (L - 23) = y - 2 ^ L := by
        have := Nat.div_add_mod y (2 ^ (L - 23))
        rw [hqe, Nat.mul_comm, ← e1] at this
        omega
      rw [hqe, hr, if_neg (by omega), ← e1]
      exact Nat.le_refl _

theorem addF_le {k : Nat} {a b : Int} (hk : 25 ≤ k) (h : a + b ≤ 2 ^ k + 2 ^ (k - 25)) : addF a b ≤ 2 ^ k := by
  have e1 : ((2 ^ k : Nat) : Int) = 2 ^ k := by rw [Int.natCast_pow]; rfl
  have e2 : ((2 ^ (k - 25) : Nat) : Int) = 2 ^ (k - 25) := by rw [Int.natCast_pow]; rfl
  rw [← e1, ← e2] at h
  rw [← e1]
  have key := fun y => @roundNat_le k y hk
  unfold addF
  simp only []
  generalize 2 ^ k = u at *
  generalize 2 ^ (k - 25) = v at *
  split
  · have := key (a + b).toNat (by omega)
    omega
  · omega

/-- A usable cost model: 286 and 30 entries, literals cost at most 64 bits. -/
structure CostOk (cm : CostModel) : Prop where
  lit : cm.litLen.length = 286
  dist : cm.dist.length = 30
  bound : ∀ c ∈ cm.litLen, c ≤ 2 ^ 155

theorem costOk_fixed : CostOk CostModel.fixed := by
  refine ⟨by simp only [CostModel.fixed, List.length_append, List.length_replicate], by simp only [CostModel.fixed, List.length_replicate], ?_⟩
  intro c hc
  simp only [CostModel.fixed, List.mem_append, List.mem_replicate] at hc
  unfold ofNatF at hc
  rcases hc with ((⟨_, rfl⟩ | ⟨_, rfl⟩) | ⟨_, rfl⟩) | ⟨_, rfl⟩ <;> decide

/-- What is assumed of `f32::log2`: for a count it lies between 0 and 32. -/
def LogOk (log2 : Nat → Int) : Prop := ∀ n, 1 ≤ n → n < 2 ^ 32 → 0 ≤ log2 n ∧ log2 n ≤ ofNatF 32

theorem sumU32_spec (l : List Nat) (acc : Nat) (h : acc + l.sum < 2 ^ 32) : sumU32 l acc = .ok (acc + l.sum) := by
  induction l generalizing acc with
  | nil => simp [sumU32]
  | cons c cs ih =>
    rw [List.sum_cons] at h
    rw [sumU32, if_pos (by omega), ih _ (by omega), List.sum_cons, Nat.add_assoc]

theorem entropy_bound {log2 : Nat → Int} (hl : LogOk log2) {total : Nat} (ht : 1 ≤ total) (ht2 : total < 2 ^ 32)
    (counts : List Nat) (hc : ∀ c ∈ counts, c ≤ total) : ∀ x ∈ entropyCosts log2 total counts, x ≤ 2 ^ 155 := by
  intro x hx
  unfold entropyCosts at hx
  rw [List.mem_map] at hx
  obtain ⟨c, hcm, rfl⟩ := hx
  split
  · rename_i hpos
    apply addF_le (by decide)
    have h1 := (hl total ht ht2).2
    have h2 := (hl c hpos (by have := hc c hcm; omega)).1
    unfold ofNatF at h1
    have e1 : (2 : Int) ^ 155 = 64 * 2 ^ 149 := by decide
    have e2 : (0 : Int) ≤ 2 ^ (155 - 25) := by decide
    have e3 : (0 : Int) ≤ 2 ^ 149 := by decide
    generalize (2 : Int) ^ 149 = u at *
    generalize (2 : Int) ^ (155 - 25) = v at *
    omega
  · decide

theorem sum_ge_mem (l : List Nat) : ∀ c ∈ l, c ≤ l.sum := by
  induction l with
  | nil => simp
  | cons a l ih =>
    intro c hc
    rw [List.sum_cons]
    rcases List.mem_cons.1 hc with rfl | hc
    · omega
    · have := ih c hc; omega

theorem fromStatistics_spec {log2 : Nat → Int} (hl : LogOk log2) {lit dist : List Nat} (h1 : lit.length = 286)
    (h2 : dist.length = 30) (h3 : lit.sum < 2 ^ 32) (h4 : dist.sum < 2 ^ 32) :
    Oks (CostModel.fromStatistics log2 lit dist) CostOk := by
  unfold CostModel.fromStatistics
  rw [sumU32_spec lit 0 (by omega), ok_bind]
  simp only [Nat.zero_add]
  split
  · rename_i hpos
    have hb := entropy_bound hl hpos h3 lit (sum_ge_mem lit)
    rw [sumU32_spec dist 0 (by omega), ok_bind]
    split
    · exact .ok ⟨by simp [entropyCosts, h1], by simp [entropyCosts, h2], hb⟩
    · exact .ok ⟨by simp [entropyCosts, h1], List.length_replicate, hb⟩
  · exact .ok costOk_fixed

theorem lengthScan_ok (length n i : Nat) (h : i + n ≤ 28) : Oks (lengthScan length n i) (fun r => r.1 < 286) := by
  induction n generalizing i with
  | zero => exact .ok (by decide)
  | succ n ih =>
    rw [lengthScan]
    refine Oks.bind (get_ok (by simp [LENGTH_BASE]; omega)) fun base _ => ?_
    split
    · refine Oks.bind (get_ok (by simp [LENGTH_EXTRA]; omega)) fun e _ => ?_
      exact .pure (by simp only []; omega)
    · exact ih (i + 1) (by omega)

theorem matchCost_ok' {cm : CostModel} (hc : CostOk cm) {l d : Nat} (h1 : 3 ≤ l ∧ l ≤ 258) (h2 : 1 ≤ d ∧ d ≤ 32768) :
    Oks (cm.matchCost l d) (fun _ => True) := by
  unfold CostModel.matchCost lengthToSymbol distanceToSymbol
  rw [if_pos (show MIN_MATCH_LENGTH ≤ l ∧ l ≤ MAX_MATCH_LENGTH from h1)]
  refine Oks.bind (lengthScan_ok l 28 0 (by omega)) fun r hr => ?_
  obtain ⟨ls, le⟩ := r
  simp only [] at hr ⊢
  refine Oks.bind (get_ok (by rw [hc.lit]; exact hr)) fun lc _ => ?_
  rw [if_pos h2]
  have key : Oks (if d < 5 then .ok (d - 1, 0) else do
      let extra ← getChecked DISTANCE_EXTRA (min (2 * (d - 1).log2 + ((d - 1) >>> ((d - 1).log2 - 1) &&& 1)) 29)
      return (min (2 * (d - 1).log2 + ((d - 1) >>> ((d - 1).log2 - 1) &&& 1)) 29, extra)) (fun r : Nat × Nat => r.1 < 30) := by
    split
    · exact .ok (by simp only []; omega)
    · have hmin : min (2 * (d - 1).log2 + ((d - 1) >>> ((d - 1).log2 - 1) &&& 1)) 29 ≤ 29 := Nat.min_le_right _ _
      refine Oks.bind (get_ok (by simp only [DISTANCE_EXTRA, List.length_cons, List.length_nil]; omega)) fun e _ => ?_
      exact .pure (by simp only []; omega)
  refine Oks.bind key fun r hr => ?_
  obtain ⟨ds, de⟩ := r
  simp only [] at hr ⊢
  refine Oks.bind (get_ok (by rw [hc.dist]; exact hr)) fun dc _ => ?_
  exact .pure trivial

theorem matchCost_ok {cm : CostModel} (hc : CostOk cm) {data : List UInt8} {pos l d : Nat} (hv : Valid data pos l d) :
    Oks (cm.matchCost l d) (fun _ => True) := matchCost_ok' hc ⟨hv.min, hv.max⟩ ⟨hv.near, hv.far⟩

/-! ### Dynamic programming -/

structure DpOk (data : List UInt8) (dp : Dp) : Prop where
  sCosts : dp.costs.length = data.length + 1
  sLengths : dp.lengths.length = data.length + 1
  sDists : dp.dists.length = data.length + 1
  entry : ∀ j l d, dp.lengths[j]? = some l → dp.dists[j]? = some d →
    l = 0 ∨ (l = 1 ∧ d = 0 ∧ 1 ≤ j) ∨ (l ≤ j ∧ Valid data (j - l) l d)
  set : ∀ j c, 1 ≤ j → dp.costs[j]? = some c → c < f32Max → dp.lengths[j]? ≠ some 0

/-- Costs only go down. -/
def Down (dp dp' : Dp) : Prop :=
  ∀ (j : Nat) (c : Int), dp.costs[j]? = some c → ∃ c', dp'.costs[j]? = some c' ∧ c' ≤ c

theorem Down.refl (dp : Dp) : Down dp dp := fun _ c h => ⟨c, h, Int.le_refl _⟩

theorem Down.trans {a b c : Dp} (h1 : Down a b) (h2 : Down b c) : Down a c := by
  intro j x hx
  obtain ⟨y, hy, hxy⟩ := h1 j x hx
  obtain ⟨z, hz, hyz⟩ := h2 j y hy
  exact ⟨z, hz, Int.le_trans hyz hxy⟩

theorem relax_spec {data : List UInt8} {dp : Dp} (h : DpOk data dp) {p : Nat} {cost : Int} {l d : Nat}
    (hp : p ≤ data.length) (he : (l = 1 ∧ d = 0 ∧ 1 ≤ p) ∨ (l ≤ p ∧ Valid data (p - l) l d)) :
    Oks (dp.relax p cost l d) (fun dp' => DpOk data dp' ∧ Down dp dp' ∧
      ∃ c, dp'.costs[p]? = some c ∧ c ≤ cost) := by
  have hl0 : l ≠ 0 := by
    rcases he with he | he
    · omega
    · have := he.2.min; omega
  have s1 := h.sCosts
  have s2 := h.sLengths
  have s3 := h.sDists
  unfold Dp.relax
  refine Oks.bind (get_ok (by omega)) fun old hold => ?_
  split
  · rename_i hlt
    unfold setChecked
    rw [if_pos (by omega), ok_bind, if_pos (by omega), ok_bind, if_pos (by omega), ok_bind]
    refine .pure ⟨⟨by simpa using s1, by simpa using s2, by simpa using s3, ?_, ?_⟩, ?_, ?_⟩
    · intro j l' d' h1 h2
      simp only [List.getElem?_set] at h1 h2
      by_cases hj : p = j
      · subst hj
        rw [if_pos rfl, if_pos (by omega)] at h1
        rw [if_pos rfl, if_pos (by omega)] at h2
        cases h1; cases h2
        exact Or.inr he
      · rw [if_neg hj] at h1 h2
        exact h.entry j l' d' h1 h2
    · intro j c hj h1 h2
      simp only [List.getElem?_set] at h1 ⊢
      by_cases hjp : p = j
      · subst hjp
        rw [if_pos rfl, if_pos (by omega)]
        simpa using hl0
      · rw [if_neg hjp] at h1 ⊢
        exact h.set j c hj h1 h2
    · intro j c hc
      simp only [List.getElem?_set]
      by_cases hjp : p = j
      · subst hjp
        rw [if_pos rfl, if_pos (by omega)]
        rw [hold] at hc; cases hc
        exact ⟨cost, rfl, Int.le_of_lt hlt⟩
      · rw [if_neg hjp]; exact ⟨c, hc, Int.le_refl _⟩
    · refine ⟨cost, ?_, Int.le_refl _⟩
      simp only [List.getElem?_set]
      rw [if_pos trivial, if_pos (by omega)]
  · rename_i hge
    exact .ok ⟨h, Down.refl _, old, hold, by omega⟩

theorem tryMatches_spec {cm : CostModel} (hc : CostOk cm) {data : List UInt8} {i : Nat} {base : Int} {sub : List Nat}
    {mx : Nat} (hs : SubOk data i (sub, mx)) (count len : Nat) (hl : 3 ≤ len) (hn : len + count ≤ 259) (dp : Dp)
    (h : DpOk data dp) :
    Oks (tryMatches cm data.length i base sub count len dp) (fun dp' => DpOk data dp' ∧ Down dp dp') := by
  induction count generalizing len dp with
  | zero => exact .ok ⟨h, Down.refl _⟩
  | succ count ih =>
    have hsz := hs.size
    simp only [] at hsz
    rw [tryMatches]
    refine Oks.bind (get_ok (by omega)) fun d hd => ?_
    split
    · exact ih (len + 1) (by omega) (by omega) dp h
    · rename_i hd0
      have hv := hs.valid len d hl hd hd0
      rw [asU16_len hv]
      refine Oks.bind (matchCost_ok hc hv) fun c _ => ?_
      rw [if_pos hv.fits]
      refine Oks.bind (relax_spec h hv.fits (Or.inr ⟨by omega, ?_⟩)) ?_
      · rwa [show i + len - len = i by omega]
      · rintro dp' ⟨h1, h2, _⟩
        refine Oks.mono (ih (len + 1) (by omega) (by omega) dp' h1) ?_
        rintro dp'' ⟨h3, h4⟩
        exact ⟨h3, h2.trans h4⟩

/-- Everything up to `i` has been reached, at a finite cost. -/
def Reached (dp : Dp) (i : Nat) : Prop := ∀ j, j ≤ i → ∃ c, dp.costs[j]? = some c ∧ c ≤ 2 ^ 189

theorem tryAt_spec {α : Type} {cm : CostModel} (hc : CostOk cm) {data : List UInt8} {i : Nat} {base : Int} {dp : Dp}
    (h : DpOk data dp) (hi : i < data.length) (hr : Reached dp i) (hb : base ≤ 2 ^ 189)
    {m : R ((List Nat × Nat) × α)} {Q : α → Prop} (hm : Oks m (fun r => SubOk data i r.1 ∧ Q r.2)) :
    Oks (tryAt cm data i base dp m) (fun r => DpOk data r.1 ∧ Reached r.1 (i + 1) ∧ Q r.2) := by
  unfold tryAt
  refine Oks.bind (get_ok hi) fun b _ => ?_
  unfold CostModel.literalCost
  have hb8 := b.toNat_lt
  refine Oks.bind (get_ok (by rw [hc.lit]; omega)) fun lc hlc => ?_
  have hlc := hc.bound lc (List.mem_of_getElem? hlc)
  have hadd : addF base lc ≤ 2 ^ 189 := by
    apply addF_le (by decide)
    have e1 : (2 : Int) ^ 155 ≤ 2 ^ (189 - 25) := by decide
    generalize (2 : Int) ^ 189 = u at *
    generalize (2 : Int) ^ 155 = v at *
    generalize (2 : Int) ^ (189 - 25) = w at *
    omega
  refine Oks.bind (relax_spec h (show i + 1 ≤ data.length from hi) (Or.inl ⟨rfl, rfl, by omega⟩)) ?_
  rintro dp1 ⟨h1, hd1, c1, hc1, hle1⟩
  refine Oks.bind hm ?_
  rintro ⟨⟨sub, mx⟩, a⟩ ⟨hsub, hq⟩
  simp only [] at hsub hq ⊢
  have hmx := hsub.max
  simp only [] at hmx
  refine Oks.bind (tryMatches_spec hc hsub _ _ (Nat.le_refl 3) (by unfold MIN_MATCH_LENGTH; omega) dp1 h1) ?_
  rintro dp2 ⟨h2, hd2⟩
  refine .pure ⟨h2, ?_, hq⟩
  intro j hj
  by_cases hji : j ≤ i
  · obtain ⟨c, hc, hle⟩ := hr j hji
    obtain ⟨c', hc', hle'⟩ := (hd1.trans hd2) j c hc
    exact ⟨c', hc', Int.le_trans hle' hle⟩
  · obtain rfl : j = i + 1 := by omega
    obtain ⟨c', hc', hle'⟩ := hd2 _ c1 hc1
    exact ⟨c', hc', Int.le_trans hle' (Int.le_trans hle1 hadd)⟩

theorem base_lt {base : Int} (h : base ≤ 2 ^ 189) : ¬ base ≥ f32Max := by
  have : (2 : Int) ^ 189 < f32Max := by decide
  omega

theorem forward_spec (lv : Simd.Level) {cm : CostModel} (hc : CostOk cm) {data : List UInt8} (count i : Nat)
    (hn : i + count = data.length) (st : State) (hw : CWF cfg st i) (dp : Dp) (h : DpOk data dp) (hr : Reached dp i) :
    Oks (forward lv cm data count i st dp) (fun r => DpOk data r.1 ∧ Reached r.1 data.length ∧ CWF cfg r.2 data.length) := by
  induction count generalizing i st dp with
  | zero =>
    rw [Nat.add_zero] at hn
    subst hn
    exact .ok ⟨h, hr, hw⟩
  | succ count ih =>
    have s1 := h.sCosts
    rw [forward]
    refine Oks.bind (get_ok (by omega)) fun base hbase => ?_
    have hb : base ≤ 2 ^ 189 := by
      obtain ⟨c, hc, hle⟩ := hr i (Nat.le_refl _)
      rw [hbase] at hc; cases hc; exact hle
    rw [if_neg (base_lt hb)]
    refine Oks.bind (tryAt_spec (Q := fun _ => True) hc h (by omega) hr hb ?_) ?_
    · refine Oks.bind (findSublen_spec lv hw) fun m hm => ?_
      exact .pure ⟨hm, trivial⟩
    · rintro ⟨dp1, _⟩ ⟨h1, hr1, _⟩
      simp only [] at h1 hr1 ⊢
      refine Oks.bind (updateHashC_spec (b := i + 1) (hw.mono (Nat.le_succ _)) (Nat.le_succ _)) fun st1 hst1 => ?_
      exact ih (i + 1) (by omega) st1 hst1 dp1 h1 hr1

theorem dpOk_new (data : List UInt8) : DpOk data (Dp.new data.length) := by
  refine ⟨by simp [Dp.new], by simp [Dp.new], by simp [Dp.new], ?_, ?_⟩
  · intro j l d h1 _
    left
    simp only [Dp.new, List.getElem?_replicate] at h1
    split at h1
    · cases h1; rfl
    · cases h1
  · intro j c hj h1 h2
    exfalso
    cases j with
    | zero => omega
    | succ j =>
      simp only [Dp.new, List.getElem?_cons_succ, List.getElem?_replicate] at h1
      split at h1
      · cases h1; omega
      · cases h1

theorem reached_new (n : Nat) : Reached (Dp.new n) 0 := by
  intro j hj
  obtain rfl : j = 0 := by omega
  exact ⟨0, rfl, by decide⟩

/-- A list of pairs that, emitted from position 0, covers the first `p` bytes. -/
inductive Cover (data : List UInt8) : List (Nat × Nat) → Nat → Nat → Prop
  | nil (p : Nat) : Cover data [] p p
  | lit {rest p q} : p < data.length → Cover data rest (p + 1) q → Cover data ((1, 0) :: rest) p q
  | mtch {rest p q l d} : Valid data p l d → Cover data rest (p + l) q → Cover data ((l, d) :: rest) p q

theorem collect_spec {data : List UInt8} {dp : Dp} (h : DpOk data dp) (hr : Reached dp data.length) (fuel p : Nat)
    (hf : p < fuel) (hp : p ≤ data.length) (acc : List (Nat × Nat)) (ha : Cover data acc p data.length) :
    Oks (collect dp fuel p acc) (fun r => Cover data r 0 data.length) := by
  induction fuel generalizing p acc with
  | zero => omega
  | succ fuel ih =>
    have s2 := h.sLengths
    have s3 := h.sDists
    rw [collect]
    split
    · rename_i hpos
      refine Oks.bind (get_ok (by omega)) fun l hl => ?_
      refine Oks.bind (get_ok (by omega)) fun d hd => ?_
      have hl0 : l ≠ 0 := by
        rintro rfl
        obtain ⟨c, hc, hle⟩ := hr p hp
        exact h.set p c hpos hc (by have : (2 : Int) ^ 189 < f32Max := by decide
                                    omega) hl
      rw [if_neg hl0]
      have he := (h.entry p l d hl hd).resolve_left hl0
      rcases he with ⟨rfl, rfl, h1⟩ | ⟨hle, hv⟩
      · refine Oks.bind (subUsize_spec h1) ?_
        rintro _ rfl
        refine ih (p - 1) (by omega) (by omega) _ (Cover.lit (by omega) ?_)
        rwa [show p - 1 + 1 = p by omega]
      · refine Oks.bind (subUsize_spec hle) ?_
        rintro _ rfl
        refine ih (p - l) (by omega) (by omega) _ (Cover.mtch hv ?_)
        rwa [show p - l + l = p by omega]
    · obtain rfl : p = 0 := by omega
      exact .ok ha

theorem emitTokens_spec {data : List UInt8} {pairs : List (Nat × Nat)} {p q : Nat} (hc : Cover data pairs p q)
    (out : List Token) (hs : Sound data out p) : Oks (emitTokens data pairs p out) (fun ts => Sound data ts q) := by
  induction hc generalizing out with
  | nil p => exact .ok hs
  | lit hp _ ih =>
    rw [emitTokens, if_pos rfl]
    refine Oks.bind (get_ok hp) fun b hb => ?_
    exact ih _ (hs.lit hb)
  | mtch hv _ ih =>
    rw [emitTokens, if_neg (by have := hv.near; omega), asU16_len hv]
    exact ih _ (hs.mtch hv)

theorem traceBackwards_spec {data : List UInt8} {dp : Dp} (h : DpOk data dp) (hr : Reached dp data.length) :
    Oks (traceBackwards dp data) (fun ts => Sound data ts data.length) := by
  unfold traceBackwards
  refine Oks.bind (collect_spec h hr _ _ (Nat.lt_succ_self _) (Nat.le_refl _) [] (Cover.nil _)) fun pairs hp => ?_
  exact emitTokens_spec hp [] (Sound.nil data)

theorem sound_empty {data : List UInt8} (h : data.isEmpty = true) : Sound data [] data.length := by
  rw [List.isEmpty_iff.1 h]; exact Sound.nil []

theorem compressOptimal_spec (lv : Simd.Level) {st : State} (hs : Sized st) {cm : CostModel} (hc : CostOk cm)
    (data : List UInt8) :
    Oks (compressOptimal lv st cm data) (fun r => Sound data r.1 data.length ∧ Sized r.2 ∧ r.2.config = st.config) := by
  unfold compressOptimal
  split
  · rename_i he
    exact .ok ⟨sound_empty he, hs, rfl⟩
  · refine Oks.bind (forward_spec lv hc _ 0 (Nat.zero_add _) _ (cwf_resetChains hs) _ (dpOk_new data)
      (reached_new _)) ?_
    rintro ⟨dp, st1⟩ ⟨h1, h2, h3⟩
    refine Oks.bind (traceBackwards_spec h1 h2) fun ts hts => ?_
    exact .pure ⟨hts, h3.sized, h3.config⟩

/-- A cache whose entries describe `data`. -/
def CacheOk (data : List UInt8) (c : Cache) : Prop :=
  ∀ (i : Nat) (e : List Nat × Nat), c[i]? = some e → SubOk data i e

theorem cacheOk_new (data : List UInt8) (n : Nat) : CacheOk data (Cache.new n) := by
  intro i e h
  unfold Cache.new at h
  rw [List.getElem?_replicate] at h
  split at h
  · cases h; exact SubOk.zero data i
  · cases h

theorem lookup_spec {data : List UInt8} {c : Cache} (h : CacheOk data c) (i : Nat) : SubOk data i (c.lookup i) := by
  unfold Cache.lookup
  split
  · rename_i e he; exact h i e he
  · exact SubOk.zero data i

theorem put_spec {data : List UInt8} {c : Cache} (h : CacheOk data c) {i : Nat} {e : List Nat × Nat}
    (he : SubOk data i e) : CacheOk data (c.put i e) := by
  intro j e' hj
  unfold Cache.put at hj
  have hu : asU16 e.2 = e.2 := by have := he.max; unfold asU16; omega
  rw [hu, List.getElem?_set] at hj
  split at hj
  · rename_i hij
    subst hij
    split at hj
    · cases hj; exact he
    · cases hj
  · exact h j e' hj

theorem cachedMatches_spec (lv : Simd.Level) (useCache : Bool) {st : State} {data : List UInt8} {i : Nat} {cache : Cache}
    (hs : Sized st ∧ st.config = cfg) (hw : useCache = false → CWF cfg st i) (hk : CacheOk data cache) :
    Oks (cachedMatches lv useCache st data i cache) (fun r => SubOk data i r.1 ∧
      ((Sized r.2.1 ∧ r.2.1.config = cfg) ∧ (useCache = false → CWF cfg r.2.1 (i + 1)) ∧ CacheOk data r.2.2)) := by
  unfold cachedMatches
  cases useCache with
  | true => exact .ok ⟨lookup_spec hk i, hs, (fun h => by cases h), hk⟩
  | false =>
    have hw := hw rfl
    rw [if_neg (by decide)]
    refine Oks.bind (findSublen_spec lv hw) fun m hm => ?_
    simp only []
    refine Oks.bind (updateHashC_spec (b := i + 1) (hw.mono (Nat.le_succ _)) (Nat.le_succ _)) fun st1 hst1 => ?_
    exact .pure ⟨lookup_spec (put_spec hk hm) i, ⟨hst1.sized, hst1.config⟩, (fun _ => hst1), put_spec hk hm⟩

theorem forwardCached_spec (lv : Simd.Level) (useCache : Bool) {cm : CostModel} (hc : CostOk cm) {data : List UInt8}
    (count i : Nat) (hn : i + count = data.length) (st : State) (hs : Sized st ∧ st.config = cfg) (hw : useCache = false → CWF cfg st i)
    (cache : Cache) (hk : CacheOk data cache) (dp : Dp) (h : DpOk data dp) (hr : Reached dp i) :
    Oks (forwardCached lv cm useCache data count i st cache dp) (fun r => DpOk data r.1 ∧
      Reached r.1 data.length ∧ (Sized r.2.1 ∧ r.2.1.config = cfg) ∧ CacheOk data r.2.2) := by
  induction count generalizing i st cache dp with
  | zero =>
    rw [Nat.add_zero] at hn
    subst hn
    exact .ok ⟨h, hr, hs, hk⟩
  | succ count ih =>
    have s1 := h.sCosts
    rw [forwardCached]
    refine Oks.bind (get_ok (by omega)) fun base hbase => ?_
    have hb : base ≤ 2 ^ 189 := by
      obtain ⟨c, hc, hle⟩ := hr i (Nat.le_refl _)
      rw [hbase] at hc; cases hc; exact hle
    rw [if_neg (base_lt hb)]
    refine Oks.bind (tryAt_spec (Q := fun r => (Sized r.1 ∧ r.1.config = cfg) ∧ (useCache = false → CWF cfg r.1 (i + 1)) ∧ CacheOk data r.2) hc h
      (by omega) hr hb (cachedMatches_spec lv useCache hs hw hk)) ?_
    rintro ⟨dp1, st1, cache1⟩ ⟨h1, hr1, hs1, hw1, hk1⟩
    exact ih (i + 1) (by omega) st1 hs1 hw1 cache1 hk1 dp1 h1 hr1

theorem compressOptimalCached_spec (lv : Simd.Level) {st : State} (hs : Sized st) {cm : CostModel} (hc : CostOk cm)
    {data : List UInt8} {cache : Cache} (hk : CacheOk data cache) :
    Oks (compressOptimalCached lv st cm data cache) (fun r => Sound data r.1 data.length ∧ Sized r.2.1 ∧ r.2.1.config = st.config ∧
      CacheOk data r.2.2) := by
  unfold compressOptimalCached
  split
  · rename_i he
    exact .ok ⟨sound_empty he, hs, rfl, hk⟩
  · simp only []
    have hs' : Sized (if cache.populated then st else st.resetChains) ∧
        (if cache.populated then st else st.resetChains).config = st.config := by
      split
      · exact ⟨hs, rfl⟩
      · exact ⟨(cwf_resetChains hs).sized, rfl⟩
    have hw' : cache.populated = false → CWF st.config (if cache.populated then st else st.resetChains) 0 := by
      intro h
      rw [h, if_neg (by decide)]; exact cwf_resetChains hs
    refine Oks.bind (forwardCached_spec lv _ hc _ 0 (Nat.zero_add _) _ hs' hw' _ hk _ (dpOk_new data)
      (reached_new _)) ?_
    rintro ⟨dp, st1, cache1⟩ ⟨h1, h2, h3, h4⟩
    refine Oks.bind (traceBackwards_spec h1 h2) fun ts hts => ?_
    exact .pure ⟨hts, h3.1, h3.2, h4⟩

theorem compressPacked_spec (lv : Simd.Level) {st : State} (hs : Sized st) (data : List UInt8) :
    Oks (compressPacked lv st data) (fun r => Sized r.2 ∧ r.2.config = st.config ∧ ∃ ts, Sound data ts data.length ∧
      compress lv st data = .ok (ts, r.2) ∧ r.1.map unpack = ts.map (fun t => .ok (some t))) := by
  unfold compressPacked
  obtain ⟨⟨ts, st1⟩, he, h1, h2, h3⟩ := (compress_spec lv hs data).out
  rw [he, ok_bind]
  simp only []
  refine Oks.bind (pack_mapM ts h1.tokOk) fun ps hps => ?_
  exact .pure ⟨h2, h3, ts, h1, rfl, hps⟩

end Pixo.Lz77
