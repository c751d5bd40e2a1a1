import Verif.Proof.JpegScan
import Verif.Proof.HuffmanLimit
/-
`build_optimized_huffman_tables` counts exactly the symbols `encode_scan` will write.
-/
namespace Pixo.Jpeg
open Pixo Spec.T81

/-- `c'` is `c` with the symbols counted. -/
structure Bumped (c : List Nat) (syms : List Nat) (c' : List Nat) : Prop where
  len : c'.length = c.length
  sum : c'.sum = c.sum + syms.length
  get : ∀ i, c'.getD i 0 = c.getD i 0 + syms.count i

theorem Bumped.refl (c : List Nat) : Bumped c [] c := ⟨rfl, rfl, fun _ => rfl⟩

theorem Bumped.trans {a b c : List Nat} {x y : List Nat} (h : Bumped a x b) (g : Bumped b y c) :
    Bumped a (x ++ y) c :=
  ⟨by rw [g.len, h.len], by rw [g.sum, h.sum, List.length_append]; omega,
   fun i => by rw [g.get, h.get, List.count_append]; omega⟩

theorem getD_le_sum (c : List Nat) (i : Nat) : c.getD i 0 ≤ c.sum := by
  induction c generalizing i with
  | nil => simp
  | cons a c ih =>
    cases i with
    | zero => simp
    | succ i => have := ih i; simp only [List.getD_cons_succ, List.sum_cons]; omega

theorem bump_spec {c : List Nat} {s : Nat} (hs : s < c.length) (hsum : c.sum + 1 < 2 ^ 64) :
    ∃ c', bump c s = .ok c' ∧ Bumped c [s] c' := by
  have hle := getD_le_sum c s
  refine ⟨c.set s (c.getD s 0 + 1), ?_, by simp, ?_, ?_⟩
  · rw [bump, Huffman.getChecked_getD hs, ok_bind, addU64, if_pos (by omega), ok_bind, setChecked, if_pos hs]
  · have := Huffman.sum_set id c s (c.getD s 0 + 1) hs
    simp only [List.map_id, id] at this
    simp only [List.length_singleton]; omega
  · intro i
    rw [Huffman.getD_set _ _ _ _ hs]
    by_cases h : i = s
    · subst h; simp
    · have h' : ¬ s = i := fun x => h x.symm
      rw [if_neg h]; simp [List.count_cons, h']

theorem countZrl_spec (n : Nat) (c : List Nat) (hl : c.length = 256) (hsum : c.sum + n < 2 ^ 64) :
    ∃ c', countZrl n c = .ok c' ∧ Bumped c (List.replicate n 0xF0) c' := by
  induction n generalizing c with
  | zero => exact ⟨c, rfl, Bumped.refl c⟩
  | succ n ih =>
    obtain ⟨c1, e1, h1⟩ := bump_spec (c := c) (s := 0xF0) (by omega) (by omega)
    have hs1 := h1.sum
    simp only [List.length_singleton] at hs1
    obtain ⟨c2, e2, h2⟩ := ih c1 (by rw [h1.len, hl]) (by omega)
    refine ⟨c2, by rw [countZrl, e1, ok_bind, e2], ?_⟩
    have := h1.trans h2
    rwa [show [0xF0] ++ List.replicate n 0xF0 = List.replicate (n + 1) 0xF0 from rfl] at this

theorem countAc_spec (acs : List Int) (run : Nat) (c : List Nat) (hr : AcRange acs) (hl : c.length = 256)
    (hsum : c.sum + (acSyms acs run).length < 2 ^ 64) :
    ∃ c', countAc acs run c = .ok c' ∧ Bumped c (acSyms acs run) c' := by
  induction acs generalizing run c with
  | nil =>
    rw [acSyms] at hsum ⊢
    rw [countAc]
    by_cases h0 : run > 0
    · rw [if_pos h0] at hsum ⊢
      rw [if_pos h0]
      exact bump_spec (by omega) (by simpa using hsum)
    · rw [if_neg h0, if_neg h0]
      exact ⟨c, rfl, Bumped.refl c⟩
  | cons v vs ih =>
    have hrv : AcRange vs := fun x hx => hr x (List.mem_cons_of_mem _ hx)
    rw [acSyms] at hsum ⊢
    rw [countAc]
    by_cases h0 : v = 0
    · rw [if_pos h0] at hsum ⊢
      rw [if_pos h0]
      exact ih (run + 1) c hrv hl hsum
    · rw [if_neg h0] at hsum ⊢
      rw [if_neg h0]
      simp only [List.length_append, List.length_replicate, List.length_cons] at hsum
      have hcat : category v ≤ 10 := category_le (by have := hr v (by simp); omega)
      obtain ⟨c1, e1, h1⟩ := countZrl_spec (run / 16) c hl (by omega)
      have hs1 := h1.sum
      rw [List.length_replicate] at hs1
      obtain ⟨c2, e2, h2⟩ := bump_spec (c := c1) (s := 16 * (run % 16) + category v)
        (by rw [h1.len, hl]; omega) (by omega)
      have hs2 := h2.sum
      simp only [List.length_singleton] at hs2
      obtain ⟨c3, e3, h3⟩ := ih 0 c2 hrv (by rw [h2.len, h1.len, hl]) (by omega)
      refine ⟨c3, ?_, ?_⟩
      · rw [e1, ok_bind]
        simp only
        rw [rs_eq (by omega), e2, ok_bind, e3]
      · have := h1.trans (h2.trans h3)
        exact this

/-- The counts of a class. -/
def Counts.get (k : Counts) (dc lum : Bool) : List Nat :=
  if dc then (if lum then k.dcLum else k.dcChrom) else (if lum then k.acLum else k.acChrom)

/-- The symbols of a class. -/
def ofClass (dc lum : Bool) (syms : List (Bool × Bool × Nat)) : List Nat :=
  (syms.filter (fun s => s.1 = dc ∧ s.2.1 = lum)).map (·.2.2)

theorem ofClass_append (dc lum a b) : ofClass dc lum (a ++ b) = ofClass dc lum a ++ ofClass dc lum b := by
  simp [ofClass]

theorem ofClass_length_le (dc lum syms) : (ofClass dc lum syms).length ≤ syms.length := by
  rw [ofClass, List.length_map]; exact List.length_filter_le _ _

theorem mem_ofClass {dc lum s syms} : s ∈ ofClass dc lum syms ↔ (dc, lum, s) ∈ syms := by
  simp only [ofClass, List.mem_map, List.mem_filter, decide_eq_true_eq]
  constructor
  · rintro ⟨⟨a, b, c⟩, ⟨hm, h1, h2⟩, h3⟩
    simp only at h1 h2 h3
    subst h1; subst h2; subst h3
    exact hm
  · intro h; exact ⟨_, ⟨h, rfl, rfl⟩, rfl⟩

theorem ofClass_block (dc l lum : Bool) (zz : List Int) (prev : Int) :
    ofClass dc l (blockSyms lum zz prev) =
      if l = lum then (if dc then [category (zz.headD 0 - prev)] else acSyms (zz.drop 1) 0) else [] := by
  unfold ofClass blockSyms
  cases dc <;> cases l <;> cases lum <;> simp [List.filter_map, Function.comp_def]

/-- All four arrays count the symbols. -/
def Counted (k : Counts) (syms : List (Bool × Bool × Nat)) (k' : Counts) : Prop :=
  ∀ dc lum, Bumped (k.get dc lum) (ofClass dc lum syms) (k'.get dc lum)

theorem Counted.refl (k : Counts) : Counted k [] k := fun _ _ => Bumped.refl _

theorem Counted.trans {a b c : Counts} {x y} (h : Counted a x b) (g : Counted b y c) :
    Counted a (x ++ y) c := fun dc lum => by rw [ofClass_append]; exact (h dc lum).trans (g dc lum)

/-- Arrays of the right sizes with room for `n` more symbols. -/
structure Room (k : Counts) (n : Nat) : Prop where
  len : ∀ dc lum, (k.get dc lum).length = if dc then 12 else 256
  sum : ∀ dc lum, (k.get dc lum).sum + n < 2 ^ 64

theorem Room.after {k k' : Counts} {syms} {n : Nat} (h : Room k (syms.length + n)) (g : Counted k syms k') :
    Room k' n := by
  refine ⟨fun dc lum => by rw [(g dc lum).len, h.len], fun dc lum => ?_⟩
  have := h.sum dc lum
  have := ofClass_length_le dc lum syms
  rw [(g dc lum).sum]; omega

theorem countBlock_spec (k : Counts) (block : List Int) (prev : Int) (lum : Bool)
    (hr : BlockRange (zigzagReorder block)) (hp : -1024 ≤ prev ∧ prev ≤ 1023)
    (hroom : Room k (blockSyms lum (zigzagReorder block) prev).length) :
    ∃ k', countBlock k block prev lum = .ok (k', (zigzagReorder block).headD 0) ∧
      Counted k (blockSyms lum (zigzagReorder block) prev) k' := by
  unfold countBlock
  generalize zigzagReorder block = zz at *
  obtain ⟨hdc, hac⟩ := hr
  have hd : subI16 (zz.headD 0) prev = .ok (zz.headD 0 - prev) := by rw [subI16, if_pos (by omega)]
  have hcat : category (zz.headD 0 - prev) ≤ 11 := category_le (by omega)
  simp only [blockSyms, List.length_cons, List.length_map] at hroom
  have hdl := hroom.len true lum
  have hds := hroom.sum true lum
  have hal := hroom.len false lum
  have has := hroom.sum false lum
  simp only [if_true, Bool.false_eq_true, if_false] at hdl hal
  obtain ⟨d', e1, h1⟩ := bump_spec (c := k.get true lum) (s := category (zz.headD 0 - prev))
    (by omega) (by omega)
  obtain ⟨a', e2, h2⟩ := countAc_spec (zz.drop 1) 0 (k.get false lum) hac hal (by omega)
  simp only
  rw [hd, ok_bind]
  have e1' : bump (if lum = true then k.dcLum else k.dcChrom) (category (zz.headD 0 - prev)) = .ok d' := by
    cases lum <;> exact e1
  have e2' : countAc (zz.drop 1) 0 (if lum = true then k.acLum else k.acChrom) = .ok a' := by
    cases lum <;> exact e2
  rw [e1', ok_bind, e2', ok_bind]
  refine ⟨_, rfl, ?_⟩
  intro dc l
  rw [ofClass_block]
  cases lum <;> cases l <;> cases dc
  · exact h2
  · exact h1
  · exact Bumped.refl _
  · exact Bumped.refl _
  · exact Bumped.refl _
  · exact Bumped.refl _
  · exact h2
  · exact h1

theorem countMcu_spec (m : Mcu) (k : Counts) (prev : List Int) (hm : McuRange m) (hp : PrevOk prev)
    (n : Nat) (hroom : Room k ((mcuSyms m prev).length + n)) :
    ∃ k', countMcu m k prev = .ok (k', endPrev m prev) ∧ Counted k (mcuSyms m prev) k' ∧ Room k' n := by
  induction m generalizing k prev with
  | nil => exact ⟨k, rfl, Counted.refl k, by simpa [mcuSyms] using hroom⟩
  | cons p ms ih =>
    obtain ⟨comp, block⟩ := p
    obtain ⟨hc3, hb⟩ := hm (comp, block) (by simp)
    simp only at hc3 hb
    rw [mcuSyms, List.length_append, Nat.add_assoc] at hroom
    have hroom0 : Room k (blockSyms (decide (comp = 0)) (zigzagReorder block) (prev.getD comp 0)).length :=
      ⟨hroom.len, fun dc lum => by have := hroom.sum dc lum; omega⟩
    obtain ⟨k1, e1, h1⟩ := countBlock_spec k block (prev.getD comp 0) (decide (comp = 0)) hb (hp.get comp) hroom0
    obtain ⟨k2, e2, h2, hr2⟩ := ih k1 (prev.set comp ((zigzagReorder block).headD 0))
      (fun q hq => hm q (List.mem_cons_of_mem _ hq)) (hp.set comp hb.dc) (hroom.after h1)
    refine ⟨k2, ?_, h1.trans h2, hr2⟩
    rw [countMcu, e1, ok_bind]
    exact e2

theorem countMcus_spec (interval : Option Nat) (total : Nat) (mcus : List Mcu) (count : Nat) (k : Counts)
    (prev : List Int) (hm : ∀ m ∈ mcus, McuRange m) (hp : PrevOk prev)
    (hcount : count + mcus.length < 2 ^ 32)
    (hroom : Room k (scanSyms interval total mcus count prev).length) :
    ∃ k', countMcus interval total mcus count k prev = .ok k' ∧
      Counted k (scanSyms interval total mcus count prev) k' := by
  induction mcus generalizing count k prev with
  | nil => exact ⟨k, rfl, Counted.refl k⟩
  | cons m ms ih =>
    rw [scanSyms, List.length_append] at hroom
    obtain ⟨k1, e1, h1, hr1⟩ := countMcu_spec m k prev (hm m (by simp)) hp _ hroom
    simp only [List.length_cons] at hcount
    obtain ⟨k2, e2, h2⟩ := ih (count + 1) k1
      (if restartDue interval (count + 1) total then [0, 0, 0] else endPrev m prev)
      (fun q hq => hm q (List.mem_cons_of_mem _ hq))
      (by
        split
        · exact prevOk_zero
        · exact endPrev_ok (hm m (by simp)) hp)
      (by omega) hr1
    refine ⟨k2, ?_, h1.trans h2⟩
    rw [countMcus, e1, ok_bind]
    simp only
    rw [addU32_ok' (by omega), ok_bind]
    exact e2

/-! ### How many and which symbols -/

theorem acSyms_length (acs : List Int) (run : Nat) : (acSyms acs run).length ≤ acs.length + run := by
  induction acs generalizing run with
  | nil => rw [acSyms]; split <;> simp <;> omega
  | cons v vs ih =>
    rw [acSyms]
    split
    · have := ih (run + 1); simp only [List.length_cons]; omega
    · have := ih 0
      simp only [List.length_append, List.length_replicate, List.length_cons]; omega

theorem blockSyms_length (lum : Bool) (block : List Int) (prev : Int) :
    (blockSyms lum (zigzagReorder block) prev).length ≤ 64 := by
  have := acSyms_length ((zigzagReorder block).drop 1) 0
  rw [List.length_drop, zigzagReorder_length] at this
  simp only [blockSyms, List.length_cons, List.length_map]; omega

theorem mcuSyms_length (m : Mcu) (prev : List Int) : (mcuSyms m prev).length ≤ 64 * m.length := by
  induction m generalizing prev with
  | nil => simp [mcuSyms]
  | cons p ms ih =>
    obtain ⟨comp, block⟩ := p
    have h1 := blockSyms_length (decide (comp = 0)) block (prev.getD comp 0)
    have h2 := ih (prev.set comp ((zigzagReorder block).headD 0))
    rw [mcuSyms, List.length_append, List.length_cons]; omega

theorem scanSyms_length (interval total) (mcus : List Mcu) (count prev) (B : Nat) (hB : ∀ m ∈ mcus, m.length ≤ B) :
    (scanSyms interval total mcus count prev).length ≤ 64 * B * mcus.length := by
  induction mcus generalizing count prev with
  | nil => simp [scanSyms]
  | cons m ms ih =>
    have h1 := mcuSyms_length m prev
    have h3 := hB m (by simp)
    have h2 := ih (count + 1) (if restartDue interval (count + 1) total then [0, 0, 0] else endPrev m prev)
      (fun q hq => hB q (List.mem_cons_of_mem _ hq))
    rw [scanSyms, List.length_append, List.length_cons, Nat.mul_add]; omega

theorem acSyms_symbol (acs : List Int) (run : Nat) (hr : AcRange acs) :
    ∀ s ∈ acSyms acs run, acSymbol s := by
  induction acs generalizing run with
  | nil =>
    intro s hs
    rw [acSyms] at hs
    split at hs
    · left; simpa using hs
    · simp at hs
  | cons v vs ih =>
    have hrv : AcRange vs := fun x hx => hr x (List.mem_cons_of_mem _ hx)
    intro s hs
    rw [acSyms] at hs
    by_cases h0 : v = 0
    · rw [if_pos h0] at hs; exact ih _ hrv s hs
    · rw [if_neg h0] at hs
      rcases List.mem_append.mp hs with hs | hs
      · rw [List.mem_replicate] at hs; right; left; exact hs.2
      · rcases List.mem_cons.mp hs with rfl | hs
        · right; right
          have h1 : category v ≤ 10 := category_le (by have := hr v (by simp); omega)
          have h2 := category_pos h0
          omega
        · exact ih _ hrv s hs

/-- Symbols a baseline scan may contain. -/
def symOk (s : Bool × Bool × Nat) : Prop := if s.1 then s.2.2 ≤ 11 else acSymbol s.2.2

theorem blockSyms_ok (lum : Bool) (zz : List Int) (prev : Int) (hr : BlockRange zz)
    (hp : -1024 ≤ prev ∧ prev ≤ 1023) : ∀ s ∈ blockSyms lum zz prev, symOk s := by
  intro s hs
  rcases List.mem_cons.mp hs with rfl | hs
  · have := hr.dc
    exact category_le (by omega)
  · obtain ⟨a, ha, rfl⟩ := List.mem_map.mp hs
    exact acSyms_symbol _ 0 hr.ac a ha

theorem mcuSyms_ok (m : Mcu) (prev : List Int) (hm : McuRange m) (hp : PrevOk prev) :
    ∀ s ∈ mcuSyms m prev, symOk s := by
  induction m generalizing prev with
  | nil => intro s hs; simp [mcuSyms] at hs
  | cons p ms ih =>
    obtain ⟨comp, block⟩ := p
    obtain ⟨_, hb⟩ := hm (comp, block) (by simp)
    intro s hs
    rcases List.mem_append.mp hs with hs | hs
    · exact blockSyms_ok _ _ _ hb (hp.get comp) s hs
    · exact ih _ (fun q hq => hm q (List.mem_cons_of_mem _ hq)) (hp.set comp hb.dc) s hs

theorem scanSyms_ok (interval total) (mcus : List Mcu) (count) (prev : List Int)
    (hm : ∀ m ∈ mcus, McuRange m) (hp : PrevOk prev) :
    ∀ s ∈ scanSyms interval total mcus count prev, symOk s := by
  induction mcus generalizing count prev with
  | nil => intro s hs; simp [scanSyms] at hs
  | cons m ms ih =>
    intro s hs
    rcases List.mem_append.mp hs with hs | hs
    · exact mcuSyms_ok m prev (hm m (by simp)) hp s hs
    · refine ih _ _ (fun q hq => hm q (List.mem_cons_of_mem _ hq)) ?_ s hs
      split
      · exact prevOk_zero
      · exact endPrev_ok (hm m (by simp)) hp

end Pixo.Jpeg
