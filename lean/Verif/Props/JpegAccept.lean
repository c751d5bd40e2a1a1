import Verif.Props.JpegDecode
import Verif.Spec.T81Lenient
import Verif.Spec.T81Decode
/-
Properties C94 and C95: which files the JPEG decoder accepts.
-/
namespace Pixo.Props
open Pixo Pixo.JpegDecode Spec.Markers

/-! ### The headers -/

theorem nibble_low (b : UInt8) : b.toNat &&& 0x0F = b.toNat % 16 := Nat.and_two_pow_sub_one_eq_mod _ 4

theorem nibble_high (b : UInt8) : (b.toNat >>> 4) &&& 0x0F = b.toNat / 16 := by
  have := b.toNat_lt
  rw [Nat.shiftRight_eq_div_pow, show (0x0F : Nat) = 2 ^ 4 - 1 from rfl, Nat.and_two_pow_sub_one_eq_mod]
  omega

theorem setChecked_lt {α : Type} {l : List α} {i : Nat} (h : i < l.length) (a : α) : setChecked l i a = .ok (l.set i a) := by
  unfold setChecked
  rw [if_pos h]

theorem parseDht_accepts (fuel : Nat) (seg : List UInt8) (s : State) (hs : s.Good) (hf : seg.length ≤ fuel) :
    (∃ s', parseDht fuel seg s = .ok s') ↔ HuffmanTables seg := by
  induction fuel generalizing seg s with
  | zero =>
    have : seg = [] := List.length_eq_zero_iff.1 (by omega)
    subst this
    exact ⟨fun _ => .done, fun _ => ⟨s, rfl⟩⟩
  | succ fuel ih =>
    cases seg with
    | nil => exact ⟨fun _ => .done, fun _ => ⟨s, rfl⟩⟩
    | cons info rest =>
      have step : ∀ (counts vals tail : List UInt8), info.toNat % 16 < 4 → counts.length = 16 →
          vals.length = (counts.map UInt8.toNat).sum → rest = counts ++ (vals ++ tail) →
          ∃ s' : State, s'.Good ∧ parseDht (fuel + 1) (info :: rest) s = parseDht fuel tail s' := by
        intro counts vals tail h1 h2 h3 h4
        subst h4
        rw [parseDht]
        simp only [nibble_low, nibble_high]
        rw [if_neg (by omega), if_neg (by simp; omega)]
        have e1 : takeChecked (counts ++ (vals ++ tail)) 16 = .ok counts := by
          unfold takeChecked
          rw [if_neg (by simp; omega), ← h2, List.take_left]
        have e2 : (counts ++ (vals ++ tail)).drop 16 = vals ++ tail := by rw [← h2, List.drop_left]
        have e3 : takeChecked (vals ++ tail) (counts.map UInt8.toNat).sum = .ok vals := by
          unfold takeChecked
          rw [if_neg (by simp; omega), ← h3, List.take_left]
        have e4 : (vals ++ tail).drop (counts.map UInt8.toNat).sum = tail := by rw [← h3, List.drop_left]
        rw [e1, ok_bind, e2, if_neg (by simp; omega), e3, ok_bind]
        have hb : (Huff.build (counts.map UInt8.toNat) (vals.map UInt8.toNat)).Good := build_good (by simp [h2])
        split
        · rw [setChecked_lt (by rw [hs.dc.1]; exact h1), ok_bind, e4]
          refine ⟨{ s with dc := s.dc.set (info.toNat % 16) (Huff.build (counts.map UInt8.toNat) (vals.map UInt8.toNat)) },
            ⟨hs.quant, ⟨by simp [hs.dc.1], fun t ht => ?_⟩, hs.ac, fun c hc => ⟨(hs.comps c hc).h, (hs.comps c hc).v,
            (hs.comps c hc).quant, (hs.comps c hc).dc, (hs.comps c hc).ac⟩, hs.count⟩, rfl⟩
          rcases List.mem_or_eq_of_mem_set ht with h | rfl
          · exact hs.dc.2 t h
          · exact hb
        · rw [setChecked_lt (by rw [hs.ac.1]; exact h1), ok_bind, e4]
          refine ⟨{ s with ac := s.ac.set (info.toNat % 16) (Huff.build (counts.map UInt8.toNat) (vals.map UInt8.toNat)) },
            ⟨hs.quant, hs.dc, ⟨by simp [hs.ac.1], fun t ht => ?_⟩, fun c hc => ⟨(hs.comps c hc).h, (hs.comps c hc).v,
            (hs.comps c hc).quant, (hs.comps c hc).dc, (hs.comps c hc).ac⟩, hs.count⟩, rfl⟩
          rcases List.mem_or_eq_of_mem_set ht with h | rfl
          · exact hs.ac.2 t h
          · exact hb
      have hl : rest.length ≤ fuel := by simpa using hf
      constructor
      · intro h
        by_cases h1 : info.toNat % 16 < 4
        · by_cases h2 : rest.length < 16
          · exfalso
            obtain ⟨s', h⟩ := h
            unfold parseDht at h
            simp only [nibble_low, nibble_high] at h
            rw [if_neg (by omega), if_pos h2] at h
            cases h
          · by_cases h3 : (rest.drop 16).length < ((rest.take 16).map UInt8.toNat).sum
            · exfalso
              obtain ⟨s', h⟩ := h
              unfold parseDht at h
              simp only [nibble_low, nibble_high] at h
              have e1 : takeChecked rest 16 = .ok (rest.take 16) := by unfold takeChecked; rw [if_neg h2]
              rw [if_neg (by omega), if_neg h2, e1, ok_bind, if_pos h3] at h
              cases h
            · generalize hn : ((rest.take 16).map UInt8.toNat).sum = n at h3
              have hr : rest = rest.take 16 ++ ((rest.drop 16).take n ++ (rest.drop 16).drop n) := by
                rw [List.take_append_drop, List.take_append_drop]
              have h16 : (rest.take 16).length = 16 := by rw [List.length_take]; omega
              have hv : ((rest.drop 16).take n).length = ((rest.take 16).map UInt8.toNat).sum := by
                rw [List.length_take, hn]; omega
              obtain ⟨s', hg, he⟩ := step _ _ _ h1 h16 hv hr
              rw [he] at h
              rw [hr]
              exact HuffmanTables.table _ _ _ _ h1 h16 hv ((ih _ _ hg (by simp; omega)).1 h)
        · exfalso
          obtain ⟨s', h⟩ := h
          unfold parseDht at h
          simp only [nibble_low, nibble_high] at h
          rw [if_pos (by omega)] at h
          cases h
      · intro h
        generalize hx : info :: rest = x at h
        cases h with
        | done => cases hx
        | table info' counts vals tail h1 h2 h3 h4 =>
          cases hx
          obtain ⟨s', hg, he⟩ := step counts vals tail h1 h2 h3 rfl
          rw [he]
          exact (ih _ _ hg (by simp at hl; omega)).2 h4

theorem parseDqt_accepts (fuel : Nat) (seg : List UInt8) (s : State) (hs : s.Good) (hf : seg.length ≤ fuel) :
    (∃ s', parseDqt fuel seg s = .ok s') ↔ QuantizationTables seg := by
  induction fuel generalizing seg s with
  | zero =>
    have : seg = [] := List.length_eq_zero_iff.1 (by omega)
    subst this
    exact ⟨fun _ => .done, fun _ => ⟨s, rfl⟩⟩
  | succ fuel ih =>
    cases seg with
    | nil => exact ⟨fun _ => .done, fun _ => ⟨s, rfl⟩⟩
    | cons info rest =>
      have hl : rest.length ≤ fuel := by simpa using hf
      have set_good : ∀ q : List Nat, State.Good { s with quant := s.quant.set (info.toNat % 16) q } := fun q =>
        ⟨by simp [hs.quant], hs.dc, hs.ac, fun c hc => ⟨(hs.comps c hc).h, (hs.comps c hc).v,
            (hs.comps c hc).quant, (hs.comps c hc).dc, (hs.comps c hc).ac⟩, hs.count⟩
      unfold parseDqt
      simp only [nibble_low, nibble_high]
      by_cases h1 : info.toNat % 16 < 4
      · rw [if_neg (by omega)]
        by_cases h2 : info.toNat / 16 = 0
        · rw [if_pos h2]
          by_cases h3 : rest.length < 64
          · rw [if_pos h3]
            refine ⟨fun ⟨_, h⟩ => (by cases h), fun h => ?_⟩
            generalize hx : info :: rest = x at h
            cases h with
            | done => cases hx
            | one info' e tail a b _ => cases hx; simp at h3; omega
            | two info' e tail a b c _ => cases hx; omega
          · rw [if_neg h3]
            have e1 : takeChecked rest 64 = .ok (rest.take 64) := by unfold takeChecked; rw [if_neg h3]
            rw [e1, ok_bind, setChecked_lt (by rw [hs.quant]; exact h1), ok_bind, ih _ _ (set_good _) (by simp; omega)]
            constructor
            · intro h
              have := QuantizationTables.one info (rest.take 64) (rest.drop 64) (by omega) (by rw [List.length_take]; omega) h
              rwa [List.take_append_drop] at this
            · intro h
              generalize hx : info :: rest = x at h
              cases h with
              | done => cases hx
              | one info' e tail a b c => cases hx; rwa [← b, List.drop_left]
              | two info' e tail a b c _ => cases hx; omega
        · rw [if_neg h2]
          by_cases h3 : rest.length < 128
          · rw [if_pos h3]
            refine ⟨fun ⟨_, h⟩ => (by cases h), fun h => ?_⟩
            generalize hx : info :: rest = x at h
            cases h with
            | done => cases hx
            | one info' e tail a b _ => cases hx; omega
            | two info' e tail a b c _ => cases hx; simp at h3; omega
          · rw [if_neg h3]
            have e1 : takeChecked rest 128 = .ok (rest.take 128) := by unfold takeChecked; rw [if_neg h3]
            rw [e1, ok_bind, setChecked_lt (by rw [hs.quant]; exact h1), ok_bind, ih _ _ (set_good _) (by simp; omega)]
            constructor
            · intro h
              have := QuantizationTables.two info (rest.take 128) (rest.drop 128) (by omega) h1 (by rw [List.length_take]; omega) h
              rwa [List.take_append_drop] at this
            · intro h
              generalize hx : info :: rest = x at h
              cases h with
              | done => cases hx
              | one info' e tail a b _ => cases hx; omega
              | two info' e tail a b c d => cases hx; rwa [← c, List.drop_left]
      · rw [if_pos (by omega)]
        refine ⟨fun ⟨_, h⟩ => (by cases h), fun h => ?_⟩
        generalize hx : info :: rest = x at h
        cases h with
        | done => cases hx
        | one info' e tail a b _ => cases hx; omega
        | two info' e tail a b c _ => cases hx; omega

theorem parseDri_accepts (seg : List UInt8) (s : State) : (∃ s', parseDri seg s = .ok s') ↔ seg.length = 2 := by
  unfold parseDri
  split
  · exact ⟨fun _ => rfl, fun _ => ⟨_, rfl⟩⟩
  · rename_i h
    refine ⟨fun ⟨_, h'⟩ => (by cases h'), fun h' => ?_⟩
    match seg, h' with
    | [a, b], _ => exact absurd rfl (h a b)

theorem sofComponents_accepts (seg tail : List UInt8) (n i : Nat) (s : State) (h : seg.drop (6 + i * 3) = tail) (hl : n * 3 ≤ tail.length) :
    (∃ s', sofComponents seg n i s = .ok s') ↔ FrameComponents n tail := by
  induction n generalizing i s tail with
  | zero => exact ⟨fun _ => trivial, fun _ => ⟨s, rfl⟩⟩
  | succ n ih =>
    match tail, hl with
    | [], hl => simp at hl
    | [_], hl => simp at hl; omega
    | [_, _], hl => simp at hl; omega
    | id :: hv :: tq :: rest, hl =>
      have g : ∀ j, seg[6 + i * 3 + j]? = (id :: hv :: tq :: rest)[j]? := fun j => by rw [← h, List.getElem?_drop]
      have g1 : getChecked seg (6 + i * 3 + 1) = .ok hv := by
        unfold getChecked; rw [g]; rfl
      have g2 : getChecked seg (6 + i * 3 + 2) = .ok tq := by
        unfold getChecked; rw [g]; rfl
      unfold sofComponents
      simp only [nibble_low, nibble_high]
      rw [g1, ok_bind]
      show _ ↔ 16 ≤ hv.toNat ∧ hv.toNat % 16 ≠ 0 ∧ tq.toNat < 4 ∧ FrameComponents n rest
      by_cases h1 : hv.toNat / 16 = 0 ∨ hv.toNat % 16 = 0
      · rw [if_pos h1]
        exact ⟨fun ⟨_, h⟩ => (by cases h), fun h => by omega⟩
      · rw [if_neg h1, g2, ok_bind]
        by_cases h2 : tq.toNat > 3
        · rw [if_pos h2]
          exact ⟨fun ⟨_, h⟩ => (by cases h), fun h => by omega⟩
        · rw [if_neg h2, ih rest (i + 1) _ ?_ (by simp at hl; omega)]
          · exact ⟨fun h => ⟨by omega, by omega, by omega, h⟩, fun h => h.2.2.2⟩
          · have : seg.drop (6 + (i + 1) * 3) = (seg.drop (6 + i * 3)).drop 3 := by
              rw [List.drop_drop]; congr 1; omega
            rw [this, h]; rfl

theorem frameComponents_length (n : Nat) (l : List UInt8) (h : FrameComponents n l) : n * 3 ≤ l.length := by
  induction n generalizing l with
  | zero => omega
  | succ n ih =>
    match l, h with
    | _ :: _ :: _ :: rest, h =>
      have := ih rest h.2.2.2
      simp
      omega

theorem parseSof0_accepts (seg : List UInt8) (s : State) : (∃ s', parseSof0 seg s = .ok s') ↔ ∃ n, FrameHeader seg n := by
  unfold parseSof0
  by_cases h8 : seg.length < 8
  · rw [if_pos h8]
    refine ⟨fun ⟨_, h⟩ => (by cases h), ?_⟩
    rintro ⟨n, _, _, _, _, _, tail, rfl, _, h, hc⟩
    have := frameComponents_length n tail hc
    simp at h8
    omega
  · rw [if_neg h8]
    match seg, h8 with
    | [], h8 => simp at h8
    | [_], h8 => simp at h8
    | [_, _], h8 => simp at h8
    | [_, _, _], h8 => simp at h8
    | [_, _, _, _], h8 => simp at h8
    | [_, _, _, _, _], h8 => simp at h8
    | p :: h1 :: h0 :: w1 :: w0 :: b :: tail, h8 =>
      show (∃ s', (if p ≠ 8 then _ else _) = _) ↔ _
      by_cases hp : p = 8
      · subst hp
        rw [if_neg (by simp)]
        show (∃ s', (if b.toNat ≠ 1 ∧ b.toNat ≠ 3 then _ else _) = _) ↔ _
        by_cases hn : b.toNat ≠ 1 ∧ b.toNat ≠ 3
        · rw [if_pos hn]
          refine ⟨fun ⟨_, h⟩ => (by cases h), ?_⟩
          rintro ⟨n, _, _, _, _, _, _, hx, h, h', _⟩
          cases hx
          omega
        · rw [if_neg hn]
          by_cases hl : (8 :: h1 :: h0 :: w1 :: w0 :: b :: tail).length < 6 + b.toNat * 3
          · rw [if_pos hl]
            refine ⟨fun ⟨_, h⟩ => (by cases h), ?_⟩
            rintro ⟨n, _, _, _, _, _, _, hx, h, h', hc⟩
            cases hx
            have := frameComponents_length n tail hc
            simp at hl
            omega
          · rw [if_neg hl, sofComponents_accepts _ tail _ 0 _ rfl (by simp at hl; omega)]
            constructor
            · intro h
              exact ⟨b.toNat, h1, h0, w1, w0, b, tail, rfl, rfl, by omega, h⟩
            · rintro ⟨n, _, _, _, _, _, _, hx, h, h', hc⟩
              cases hx
              rwa [h]
      · rw [if_pos hp]
        refine ⟨fun ⟨_, h⟩ => (by cases h), ?_⟩
        rintro ⟨n, _, _, _, _, _, _, hx, _⟩
        cases hx
        exact absurd rfl hp

theorem sosComponents_accepts (seg tail : List UInt8) (n i : Nat) (cs : List Component) (h : seg.drop (1 + i * 2) = tail)
    (hi : i + n ≤ cs.length) : (∃ cs', sosComponents seg n i cs = .ok cs') ↔ ScanComponents n tail := by
  induction n generalizing i cs tail with
  | zero => exact ⟨fun _ => trivial, fun _ => ⟨cs, rfl⟩⟩
  | succ n ih =>
    have hlen : tail.length = seg.length - (1 + i * 2) := by rw [← h, List.length_drop]
    unfold sosComponents
    simp only [nibble_low, nibble_high]
    by_cases hl : 1 + i * 2 + 1 ≥ seg.length
    · rw [if_pos hl]
      refine ⟨fun ⟨_, h⟩ => (by cases h), fun h' => ?_⟩
      match tail, h' with
      | _ :: _ :: _, _ => simp at hlen; omega
    · rw [if_neg hl]
      match tail, hlen with
      | [], hlen => simp at hlen; omega
      | [_], hlen => simp at hlen; omega
      | id :: t :: rest, hlen =>
        have g1 : getChecked seg (1 + i * 2 + 1) = .ok t := by
          have : seg[1 + i * 2 + 1]? = (id :: t :: rest)[1]? := by rw [← h, List.getElem?_drop]
          unfold getChecked; rw [this]; rfl
        rw [g1, ok_bind]
        show _ ↔ t.toNat / 16 < 4 ∧ t.toNat % 16 < 4 ∧ ScanComponents n rest
        by_cases h1 : t.toNat / 16 > 3
        · rw [if_pos h1]
          exact ⟨fun ⟨_, h⟩ => (by cases h), fun h => by omega⟩
        · rw [if_neg h1]
          by_cases h2 : t.toNat % 16 > 3
          · rw [if_pos h2]
            exact ⟨fun ⟨_, h⟩ => (by cases h), fun h => by omega⟩
          · rw [if_neg h2]
            have g2 : getChecked cs i = .ok (cs[i]'(by omega)) := by
              unfold getChecked; rw [List.getElem?_eq_getElem (by omega)]
            rw [g2, ok_bind, ih rest (i + 1) _ ?_ (by simp; omega)]
            · exact ⟨fun h => ⟨by omega, by omega, h⟩, fun h => h.2.2⟩
            · have : seg.drop (1 + (i + 1) * 2) = (seg.drop (1 + i * 2)).drop 2 := by
                rw [List.drop_drop]; congr 1; omega
              rw [this, h]; rfl

theorem parseSos_accepts (seg : List UInt8) (s : State) : (∃ s', parseSos seg s = .ok s') ↔ ScanHeader seg s.components.length := by
  unfold parseSos
  cases seg with
  | nil => exact ⟨fun ⟨_, h⟩ => (by cases h), by rintro ⟨_, _, h, _⟩; cases h⟩
  | cons b tail =>
    simp only
    by_cases hn : b.toNat = s.components.length
    · rw [if_neg (by simpa using hn), hn]
      have := sosComponents_accepts (b :: tail) tail s.components.length 0 s.components rfl (by omega)
      constructor
      · rintro ⟨s', h⟩
        cases hx : sosComponents (b :: tail) s.components.length 0 s.components with
        | error e => rw [hx] at h; cases h
        | ok cs => exact ⟨b, tail, rfl, hn, this.1 ⟨cs, hx⟩⟩
      · rintro ⟨_, _, hx, _, h⟩
        cases hx
        obtain ⟨cs, hc⟩ := this.2 h
        rw [hc]
        exact ⟨_, rfl⟩
    · rw [if_pos hn]
      refine ⟨fun ⟨_, h⟩ => (by cases h), ?_⟩
      rintro ⟨_, _, hx, h, _⟩
      cases hx
      exact absurd h hn

/-! ### The file -/

/-- The number of components known after the segments `l`, where `k` were known before. -/
def CountAfter (k : Nat) (l : List (UInt8 × List UInt8)) (n : Nat) : Prop :=
  LastFrame l n ∨ (∀ p ∈ l, p.1 ≠ 0xC0) ∧ n = k ∧ n ≠ 0

theorem lastFrame_cons {p : UInt8 × List UInt8} {l : List (UInt8 × List UInt8)} {n : Nat} :
    LastFrame (p :: l) n ↔ LastFrame l n ∨ (p.1 = 0xC0 ∧ FrameHeader p.2 n ∧ ∀ p ∈ l, p.1 ≠ 0xC0) := by
  constructor
  · rintro ⟨pre, seg, post, h1, h2, h3⟩
    cases pre with
    | nil => cases h1; exact Or.inr ⟨rfl, h3, h2⟩
    | cons q pre => cases h1; exact Or.inl ⟨pre, seg, post, rfl, h2, h3⟩
  · rintro (⟨pre, seg, post, rfl, h2, h3⟩ | ⟨h1, h2, h3⟩)
    · exact ⟨p :: pre, seg, post, rfl, h2, h3⟩
    · obtain ⟨m, seg⟩ := p
      cases h1
      exact ⟨[], seg, l, rfl, h3, h2⟩

theorem countAfter_step {k n : Nat} {p : UInt8 × List UInt8} {l : List (UInt8 × List UInt8)} (h : p.1 ≠ 0xC0) :
    CountAfter k (p :: l) n ↔ CountAfter k l n := by
  unfold CountAfter
  rw [lastFrame_cons]
  constructor
  · rintro ((a | a) | ⟨a, b⟩)
    · exact Or.inl a
    · exact absurd a.1 h
    · exact Or.inr ⟨fun q hq => a q (by simp [hq]), b⟩
  · rintro (a | ⟨a, b⟩)
    · exact Or.inl (Or.inl a)
    · refine Or.inr ⟨fun q hq => ?_, b⟩
      rcases List.mem_cons.1 hq with rfl | hq
      · exact h
      · exact a q hq

theorem countAfter_frame {k k' n : Nat} {seg : List UInt8} {l : List (UInt8 × List UInt8)} (h : FrameHeader seg k) :
    CountAfter k' ((0xC0, seg) :: l) n ↔ CountAfter k l n := by
  have uniq : ∀ {a b}, FrameHeader seg a → FrameHeader seg b → a = b := by
    rintro a b ⟨_, _, _, _, _, _, rfl, ha, _⟩ ⟨_, _, _, _, _, _, hx, hb, _⟩
    cases hx
    omega
  unfold CountAfter
  rw [lastFrame_cons]
  constructor
  · rintro ((a | a) | ⟨a, b⟩)
    · exact Or.inl a
    · refine Or.inr ⟨a.2.2, uniq a.2.1 h, ?_⟩
      obtain ⟨_, _, _, _, _, _, _, _, h', _⟩ := a.2.1
      omega
    · exact absurd rfl (a _ List.mem_cons_self)
  · rintro (a | ⟨a, rfl, _⟩)
    · exact Or.inl (Or.inl a)
    · exact Or.inl (Or.inr ⟨rfl, h, a⟩)

/-- What has to follow when `k` components are known. -/
def ScanFollows (k : Nat) (d scan : List UInt8) : Prop :=
  ∃ l d' seg n, Segments d l d' ∧ (∀ p ∈ l, Legible p) ∧ CountAfter k l n ∧ Segment d' 0xDA seg scan ∧ ScanHeader seg n

theorem segment_unique {d : List UInt8} {m m' : UInt8} {seg seg' rest rest' : List UInt8} (h : Segment d m seg rest)
    (h' : Segment d m' seg' rest') : m = m' ∧ seg = seg' ∧ rest = rest' := by
  have a := (C36_markers _ _ _ _).2 h
  have b := (C36_markers _ _ _ _).2 h'
  rw [a] at b
  cases b
  exact ⟨rfl, rfl, rfl⟩

/-- A segment which is no scan header is passed over. -/
theorem follows_step {k k' : Nat} {d : List UInt8} {m : UInt8} {seg d' scan : List UInt8} (h : Segment d m seg d') (hm : m ≠ 0xDA)
    (hk : ∀ l n, Legible (m, seg) → (CountAfter k ((m, seg) :: l) n ↔ CountAfter k' l n)) :
    ScanFollows k d scan ↔ Legible (m, seg) ∧ ScanFollows k' d' scan := by
  constructor
  · rintro ⟨l, d2, sg, n, h1, h2, h3, h4, h5⟩
    cases h1 with
    | nil => exact absurd (segment_unique h h4).1 hm
    | cons a b =>
      obtain ⟨rfl, rfl, rfl⟩ := segment_unique h a
      exact ⟨h2 _ List.mem_cons_self, _, d2, sg, n, b, fun p hp => h2 p (by simp [hp]),
        (hk _ _ (h2 _ List.mem_cons_self)).1 h3, h4, h5⟩
  · rintro ⟨h0, l, d2, sg, n, h1, h2, h3, h4, h5⟩
    refine ⟨(m, seg) :: l, d2, sg, n, Segments.cons h h1, fun p hp => ?_, (hk _ _ h0).2 h3, h4, h5⟩
    rcases List.mem_cons.1 hp with rfl | hp
    · exact h0
    · exact h2 p hp

theorem exists_bind {α β : Type} {x : R α} {f : α → R β} :
    (∃ b, (x >>= f) = .ok b) ↔ ∃ a, x = .ok a ∧ ∃ b, f a = .ok b := by
  cases x with
  | ok a =>
    rw [ok_bind]
    exact ⟨fun h => ⟨a, rfl, h⟩, fun ⟨_, h, h'⟩ => by cases h; exact h'⟩
  | error e =>
    refine ⟨?_, ?_⟩
    · rintro ⟨b, h⟩; cases h
    · rintro ⟨b, h, _⟩; cases h

theorem safe_of_ok {α : Type} {x : R α} {P : α → Prop} {a : α} (h : Safe x P) (hx : x = .ok a) : P a := by
  rw [hx] at h
  simpa [Safe] using h

theorem markerLoop_accepts (fuel : Nat) (s : State) (d : List UInt8) (hs : s.Good) (hf : d.length < fuel) :
    (∃ i, markerLoop false fuel s d = .ok i) ↔ ∃ scan, ScanFollows s.components.length d scan := by
  induction fuel generalizing s d with
  | zero => omega
  | succ fuel ih =>
    unfold markerLoop
    cases hr : readMarker d with
    | error e =>
      refine ⟨?_, ?_⟩
      · rintro ⟨b, h⟩; cases h
      · rintro ⟨scan, l, d2, sg, n, h1, _, _, h4, _⟩
        cases h1 with
        | nil => rw [(C36_markers _ _ _ _).2 h4] at hr; cases hr
        | cons a _ => rw [(C36_markers _ _ _ _).2 a] at hr; cases hr
    | ok p =>
      obtain ⟨m, seg, d'⟩ := p
      have hm := (C36_markers _ _ _ _).1 hr
      have hl := segment_length hm
      rw [ok_bind]
      simp only
      by_cases h1 : m = 0xC0
      · subst h1
        rw [if_pos rfl, exists_bind]
        constructor
        · rintro ⟨s', hx, hi⟩
          obtain ⟨n, hn⟩ := (parseSof0_accepts seg s).1 ⟨s', hx⟩
          obtain ⟨hg, hne, _, _, _, _, b, _, rfl, _, _, hc⟩ := safe_of_ok (parseSof0_safe seg s hs) hx
          obtain ⟨scan, hi⟩ := (ih s' d' hg (by omega)).1 hi
          have hb : b.toNat = n := by
            obtain ⟨_, _, _, _, _, _, hx, hb, _⟩ := hn
            cases hx
            exact hb
          refine ⟨scan, (follows_step hm (by decide) (fun l m _ => countAfter_frame hn)).2 ⟨?_, ?_⟩⟩
          · exact ⟨by simp, by simp, by simp, fun _ => ⟨n, hn⟩, by simp, by simp, by simp⟩
          · rw [hc, hb] at hi
            exact hi
        · rintro ⟨scan, h⟩
          have hleg : Legible (0xC0, seg) := by
            obtain ⟨l, d2, sg, n, h1, h2, h3, h4, h5⟩ := h
            cases h1 with
            | nil => exact absurd (segment_unique hm h4).1 (by decide)
            | cons a b =>
              obtain ⟨rfl, rfl, rfl⟩ := segment_unique hm a
              exact h2 _ List.mem_cons_self
          obtain ⟨n, hn⟩ := hleg.2.2.2.1 rfl
          obtain ⟨s', hx⟩ := (parseSof0_accepts seg s).2 ⟨n, hn⟩
          obtain ⟨hg, hne, _, _, _, _, b, _, rfl, _, _, hc⟩ := safe_of_ok (parseSof0_safe seg s hs) hx
          have hb : b.toNat = n := by
            obtain ⟨_, _, _, _, _, _, hx, hb, _⟩ := hn
            cases hx
            exact hb
          refine ⟨s', hx, (ih s' d' hg (by omega)).2 ⟨scan, ?_⟩⟩
          rw [hc, hb]
          exact ((follows_step hm (by decide) (fun l m _ => countAfter_frame hn)).1 h).2
      · rw [if_neg h1]
        have pass : ∀ scan, m ≠ 0xDA → (ScanFollows s.components.length d scan ↔
            Legible (m, seg) ∧ ScanFollows s.components.length d' scan) := fun scan h =>
          follows_step hm h (fun l n _ => countAfter_step h1)
        -- a segment read by `x`, of which `Q` tells when it is accepted
        have read : ∀ (x : R State) (Q : Prop), ((∃ s', x = .ok s') ↔ Q) →
            Safe x (fun s' => s'.Good ∧ s'.components = s.components ∧ s'.width = s.width ∧ s'.height = s.height) →
            m ≠ 0xDA → (Legible (m, seg) ↔ Q) →
            ((∃ i, (x >>= fun s => markerLoop false fuel s d') = .ok i) ↔ ∃ scan, ScanFollows s.components.length d scan) := by
          intro x Q hx hsafe hm hq
          rw [exists_bind]
          constructor
          · rintro ⟨s', e, hi⟩
            have g := safe_of_ok hsafe e
            obtain ⟨scan, hi⟩ := (ih s' d' g.1 (by omega)).1 hi
            rw [g.2.1] at hi
            exact ⟨scan, (pass scan hm).2 ⟨hq.2 (hx.1 ⟨s', e⟩), hi⟩⟩
          · rintro ⟨scan, h⟩
            have h := (pass scan hm).1 h
            obtain ⟨s', e⟩ := hx.2 (hq.1 h.1)
            have g := safe_of_ok hsafe e
            refine ⟨s', e, (ih s' d' g.1 (by omega)).2 ⟨scan, ?_⟩⟩
            rw [g.2.1]
            exact h.2
        by_cases h2 : m = 0xC2
        · subst h2
          rw [if_pos rfl]
          refine ⟨?_, ?_⟩
          · rintro ⟨_, h⟩; cases h
          · rintro ⟨scan, h⟩
            exact absurd rfl ((pass scan (by decide)).1 h).1.1
        · rw [if_neg h2]
          by_cases h3 : m = 0xC4
          · subst h3
            rw [if_pos rfl]
            exact read _ _ (parseDht_accepts _ seg s hs (Nat.le_refl _)) (parseDht_safe _ seg s hs (Nat.le_refl _)) (by decide)
              ⟨fun h => h.2.2.2.2.1 rfl, fun h => ⟨by simp, by simp, by simp, by simp, fun _ => h, by simp, by simp⟩⟩
          · rw [if_neg h3]
            by_cases h4 : m = 0xDB
            · subst h4
              rw [if_pos rfl]
              exact read _ _ (parseDqt_accepts _ seg s hs (Nat.le_refl _)) (parseDqt_safe _ seg s hs (Nat.le_refl _)) (by decide)
                ⟨fun h => h.2.2.2.2.2.1 rfl, fun h => ⟨by simp, by simp, by simp, by simp, by simp, fun _ => h, by simp⟩⟩
            · rw [if_neg h4]
              by_cases h5 : m = 0xDD
              · subst h5
                rw [if_pos rfl]
                exact read _ _ (parseDri_accepts seg s) (parseDri_safe seg s hs) (by decide)
                  ⟨fun h => h.2.2.2.2.2.2 rfl, fun h => ⟨by simp, by simp, by simp, by simp, by simp, by simp, fun _ => h⟩⟩
              · rw [if_neg h5]
                by_cases h6 : m = 0xDA
                · subst h6
                  rw [if_pos rfl, exists_bind]
                  constructor
                  · rintro ⟨s', hx, i, hi⟩
                    have g := safe_of_ok (parseSos_safe seg s hs) hx
                    have hne : s.components.length ≠ 0 := by
                      intro h0
                      have h1 : s'.components = [] := List.length_eq_zero_iff.1 (by rw [g.2.1, h0])
                      rw [decodeScan_empty g.1 h1] at hi
                      cases hi
                    exact ⟨d', [], d, seg, s.components.length, Segments.nil d, by simp, Or.inr ⟨by simp, rfl, hne⟩, hm,
                      (parseSos_accepts seg s).1 ⟨s', hx⟩⟩
                  · rintro ⟨scan, l, d2, sg, n, a1, a2, a3, a4, a5⟩
                    cases a1 with
                    | cons a b =>
                      obtain ⟨rfl, rfl, rfl⟩ := segment_unique hm a
                      exact absurd rfl (a2 _ List.mem_cons_self).2.1
                    | nil =>
                      obtain ⟨_, rfl, rfl⟩ := segment_unique hm a4
                      rcases a3 with ⟨pre, _, _, h, _⟩ | ⟨_, rfl, hne⟩
                      · cases pre <;> cases h
                      · obtain ⟨s', hx⟩ := (parseSos_accepts seg s).2 a5
                        have g := safe_of_ok (parseSos_safe seg s hs) hx
                        have hne' : s'.components ≠ [] := by
                          intro h0
                          rw [← g.2.1, h0] at hne
                          exact hne rfl
                        obtain ⟨i, hi, _⟩ := (decodeScan_ok g.1 hne' d').out
                        exact ⟨s', hx, i, hi⟩
                · rw [if_neg h6]
                  by_cases h7 : m = 0xD9
                  · subst h7
                    rw [if_pos rfl]
                    refine ⟨?_, ?_⟩
                    · rintro ⟨_, h⟩; cases h
                    · rintro ⟨scan, h⟩
                      exact absurd rfl ((pass scan (by decide)).1 h).1.2.2.1
                  · rw [if_neg h7, ih s d' hs (by omega)]
                    constructor
                    · rintro ⟨scan, h⟩
                      refine ⟨scan, (pass scan h6).2 ⟨⟨h2, h6, h7, fun h => absurd h h1, fun h => absurd h h3, fun h => absurd h h4,
                        fun h => absurd h h5⟩, h⟩⟩
                    · rintro ⟨scan, h⟩
                      exact ⟨scan, ((pass scan h6).1 h).2⟩

/-! ### C94 -/

/-- C94, the exact condition: in builds without overflow checks the decoder accepts a file if and only if it
is legible up to the header of its first scan, whatever follows.

Missing for C94: such a file need not be a JPEG file; see `C94_any_scan`, `C94_violation` and the examples. -/
theorem C94_partial (data : List UInt8) : (∃ i, decodeJpeg false data = .ok i) ↔ ∃ scan, UpToScan data scan := by
  constructor
  · rintro ⟨i, h⟩
    unfold decodeJpeg at h
    split at h
    · rename_i rest
      obtain ⟨scan, l, d, seg, n, h1, h2, h3, h4, h5⟩ := (markerLoop_accepts (rest.length + 1) {} rest start_good (by omega)).1 ⟨i, h⟩
      rcases h3 with h3 | ⟨_, h3, h3'⟩
      · exact ⟨scan, rest, l, d, seg, n, rfl, h1, h2, h3, h4, h5⟩
      · exact absurd h3 h3'
    · cases h
  · rintro ⟨scan, rest, l, d, seg, n, rfl, h1, h2, h3, h4, h5⟩
    exact (markerLoop_accepts (rest.length + 1) {} rest start_good (by omega)).2 ⟨scan, l, d, seg, n, h1, h2, Or.inl h3, h4, h5⟩

/-- C94 in builds with overflow checks: what they accept is legible up to its scan. -/
theorem C94_checked (data : List UInt8) (i : Image) (h : decodeJpeg true data = .ok i) : ∃ scan, UpToScan data scan := by
  rcases C36_checked_partial data with e | e
  · exact (C94_partial data).1 ⟨i, e ▸ h⟩
  · rw [h] at e; cases e

theorem segment_prefix {d : List UInt8} {m : UInt8} {seg rest : List UInt8} (h : Segment d m seg rest) :
    ∃ pre, d = pre ++ rest ∧ ∀ rest', Segment (pre ++ rest') m seg rest' := by
  cases h with
  | bare junk fill _ _ h1 h2 h3 hs =>
    refine ⟨junk ++ List.replicate fill 0xFF ++ [m], by simp, fun rest' => ?_⟩
    have := Segment.bare junk fill m rest' h1 h2 h3 hs
    simpa using this
  | params junk fill _ hi lo _ _ h1 h2 h3 hs hl =>
    refine ⟨junk ++ List.replicate fill 0xFF ++ m :: hi :: lo :: seg, by simp, fun rest' => ?_⟩
    have := Segment.params junk fill m hi lo seg rest' h1 h2 h3 hs hl
    simpa using this

theorem segments_prefix {d : List UInt8} {l : List (UInt8 × List UInt8)} {rest : List UInt8} (h : Segments d l rest) :
    ∃ pre, d = pre ++ rest ∧ ∀ rest', Segments (pre ++ rest') l rest' := by
  induction h with
  | nil d => exact ⟨[], rfl, fun rest' => Segments.nil rest'⟩
  | cons a _ ih =>
    obtain ⟨p, rfl, hp⟩ := segment_prefix a
    obtain ⟨q, rfl, hq⟩ := ih
    refine ⟨p ++ q, by simp, fun rest' => ?_⟩
    rw [List.append_assoc]
    exact Segments.cons (hp _) (hq rest')

theorem segments_unique {d : List UInt8} {l l' : List (UInt8 × List UInt8)} {e e' : List UInt8} (h : Segments d l e) (h' : Segments d l' e')
    {seg rest seg' rest' : List UInt8} (hs : Segment e 0xDA seg rest) (hs' : Segment e' 0xDA seg' rest')
    (hl : ∀ p ∈ l, p.1 ≠ 0xDA) (hl' : ∀ p ∈ l', p.1 ≠ 0xDA) : l = l' ∧ e = e' := by
  induction h generalizing l' with
  | nil d =>
    cases h' with
    | nil => exact ⟨rfl, rfl⟩
    | cons a _ =>
      obtain ⟨rfl, _⟩ := segment_unique hs a
      exact absurd rfl (hl' _ List.mem_cons_self)
  | cons a _ ih =>
    cases h' with
    | nil =>
      obtain ⟨rfl, _⟩ := segment_unique hs' a
      exact absurd rfl (hl _ List.mem_cons_self)
    | cons b h' =>
      obtain ⟨rfl, rfl, rfl⟩ := segment_unique a b
      obtain ⟨rfl, rfl⟩ := ih h' hs (fun p hp => hl p (by simp [hp])) (fun p hp => hl' p (by simp [hp]))
      exact ⟨rfl, rfl⟩

theorem frameOf_unique {l : List (UInt8 × List UInt8)} {w h w' h' : Nat} {g g' : Prop} (a : FrameOf l w h g) (b : FrameOf l w' h' g') :
    w = w' ∧ h = h' ∧ (g ↔ g') := by
  obtain ⟨pre, h1, h0, w1, w0, n, tail, post, rfl, hp, rfl, rfl, hg⟩ := a
  obtain ⟨pre', h1', h0', w1', w0', n', tail', post', e, hp', rfl, rfl, hg'⟩ := b
  have : ∀ (pre pre' : List (UInt8 × List UInt8)) (x x' : UInt8 × List UInt8), x.1 = 0xC0 → x'.1 = 0xC0 →
      pre ++ x :: post = pre' ++ x' :: post' → x = x' := by
    intro pre
    induction pre with
    | nil =>
      intro pre' x x' hx hx' e
      cases pre' with
      | nil => exact (List.cons.inj e).1
      | cons y pre' =>
        have := (List.cons.inj e).2
        exact absurd hx' (hp x' (by rw [this]; simp))
    | cons y pre ih =>
      intro pre' x x' hx hx' e
      cases pre' with
      | nil =>
        have := (List.cons.inj e).2
        exact absurd hx (hp' x (by rw [← this]; simp))
      | cons z pre' => exact ih pre' x x' hx hx' (List.cons.inj e).2
  have := this pre pre' _ _ rfl rfl e
  cases this
  exact ⟨rfl, rfl, hg.trans hg'.symm⟩

/-- C94 fails as badly as it can: whatever the decoder accepts, it accepts with every other scan too, with
the same size and the same kind of pixels: cut off anywhere after the header of the scan, or with other
bytes in its place. -/
theorem C94_any_scan (data : List UInt8) (i : Image) (h : decodeJpeg false data = .ok i) :
    ∃ head scan, data = head ++ scan ∧ UpToScan data scan ∧ ∀ scan', UpToScan (head ++ scan') scan' ∧
      ∃ i', decodeJpeg false (head ++ scan') = .ok i' ∧ i'.width = i.width ∧ i'.height = i.height ∧
        (i'.colorType = .gray ↔ i.colorType = .gray) := by
  obtain ⟨scan, hu⟩ := (C94_partial data).1 ⟨i, h⟩
  obtain ⟨body, l, d, seg, n, rfl, h1, h2, h3, h4, h5⟩ := id hu
  obtain ⟨p, rfl, hp⟩ := segments_prefix h1
  obtain ⟨q, rfl, hq⟩ := segment_prefix h4
  refine ⟨0xFF :: 0xD8 :: (p ++ q), scan, by simp, hu, fun scan' => ?_⟩
  have e : 0xFF :: 0xD8 :: (p ++ q) ++ scan' = 0xFF :: 0xD8 :: (p ++ (q ++ scan')) := by simp
  have hu' : UpToScan (0xFF :: 0xD8 :: (p ++ q) ++ scan') scan' := by
    rw [e]
    exact ⟨_, l, _, seg, n, rfl, hp _, h2, h3, hq _, h5⟩
  obtain ⟨i', hi'⟩ := (C94_partial _).2 ⟨scan', hu'⟩
  refine ⟨hu', i', hi', ?_⟩
  -- the size is that of the last frame header
  have size : ∀ {x y j}, Segment y 0xDA seg x → Segments (p ++ y) l y → decodeJpeg false (0xFF :: 0xD8 :: (p ++ y)) = .ok j →
      FrameOf l j.width j.height (j.colorType = .gray) := by
    intro x y j a1 a2 a3
    rcases C36_partial (0xFF :: 0xD8 :: (p ++ y)) with ⟨k, b1, _, body, l', d', seg', rest', b2, b3, b4, b5, b6⟩ | b | b | ⟨b, _⟩
    · rw [a3] at b1
      cases b1
      cases b2
      obtain ⟨rfl, _⟩ := segments_unique a2 b3 a1 b4 (fun p hp => (h2 p hp).2.1) b5
      exact b6
    · rw [a3] at b; cases b
    · rw [a3] at b; cases b
    · rw [a3] at b; cases b
  have f := size h4 h1 h
  rw [e] at hi'
  have f' := size (hq scan') (hp _) hi'
  exact frameOf_unique f' f

theorem bind_ok {α β : Type} {x : R α} {f : α → R β} {b : β} (h : (x >>= f) = .ok b) : ∃ a, x = .ok a ∧ f a = .ok b := by
  cases x with
  | ok a => exact ⟨a, rfl, h⟩
  | error e => cases h

/-- The bytes after the scan header are all that the scan is decoded from. -/
theorem markerLoop_scan (fuel : Nat) (s : State) (d : List UInt8) (hs : s.Good) (i : Image) (h : markerLoop false fuel s d = .ok i) :
    ∃ l d' seg rest s', Segments d l d' ∧ (∀ p ∈ l, p.1 ≠ 0xDA) ∧ Segment d' 0xDA seg rest ∧ State.Good s' ∧
      decodeScan false s' rest = .ok i := by
  induction fuel generalizing s d with
  | zero => cases h
  | succ fuel ih =>
    unfold markerLoop at h
    obtain ⟨⟨m, seg, d'⟩, hr, h⟩ := bind_ok h
    have hm := (C36_markers _ _ _ _).1 hr
    simp only at h
    have pass : ∀ s' : State, m ≠ 0xDA → s'.Good → markerLoop false fuel s' d' = .ok i →
        ∃ l d' seg rest s', Segments d l d' ∧ (∀ p ∈ l, p.1 ≠ 0xDA) ∧ Segment d' 0xDA seg rest ∧ State.Good s' ∧
          decodeScan false s' rest = .ok i := by
      intro s' hne hg hx
      obtain ⟨l, d2, sg, rest, s2, h1, h2, h3⟩ := ih s' d' hg hx
      refine ⟨(m, seg) :: l, d2, sg, rest, s2, Segments.cons hm h1, fun p hp => ?_, h3⟩
      rcases List.mem_cons.1 hp with rfl | hp
      · exact hne
      · exact h2 p hp
    split at h
    · obtain ⟨s', e, h⟩ := bind_ok h
      exact pass s' (by subst_vars; decide) (safe_of_ok (parseSof0_safe seg s hs) e).1 h
    · split at h
      · cases h
      · split at h
        · obtain ⟨s', e, h⟩ := bind_ok h
          exact pass s' (by subst_vars; decide) (safe_of_ok (parseDht_safe _ seg s hs (Nat.le_refl _)) e).1 h
        · split at h
          · obtain ⟨s', e, h⟩ := bind_ok h
            exact pass s' (by subst_vars; decide) (safe_of_ok (parseDqt_safe _ seg s hs (Nat.le_refl _)) e).1 h
          · split at h
            · obtain ⟨s', e, h⟩ := bind_ok h
              exact pass s' (by subst_vars; decide) (safe_of_ok (parseDri_safe seg s hs) e).1 h
            · split at h
              · obtain ⟨s', e, h⟩ := bind_ok h
                subst_vars
                exact ⟨[], d, seg, d', s', Segments.nil d, by simp, hm, (safe_of_ok (parseSos_safe seg s hs) e).1, h⟩
              · rename_i hda
                split at h
                · cases h
                · exact pass s hda hs h

/-- There is no symbol in no bytes. -/
theorem decode_nothing (ck : Bool) (t : Huff) : t.decode ck ⟨[], 0, 0, 0⟩ = .ok (none, ⟨[], 0, 0, 0⟩) := by
  cases ck <;> rfl

theorem mcuLoop_nothing {s : State} (hs : s.Good) (cols : Nat) (ms : List (Nat × Nat)) (count : Nat) (preds : List Int)
    (data : List (List UInt8)) (hp : preds.length = s.components.length) (h0 : s.components ≠ []) :
    ∃ st, mcuLoop false s cols ms count ⟨⟨[], 0, 0, 0⟩, preds, data⟩ = .ok st ∧ st.data = data := by
  cases ms with
  | nil => exact ⟨_, rfl, rfl⟩
  | cons m ms =>
    obtain ⟨mx, my⟩ := m
    obtain ⟨c, cs, hc⟩ := List.exists_cons_of_ne_nil h0
    have g : c.Good s := hs.comps c (by rw [hc]; simp)
    have hb : ∃ tail, mcuBlocks s.components mx my = (0, mx * c.h + 0, my * c.v + 0) :: tail := by
      unfold mcuBlocks
      rw [hc, List.zipIdx_cons, List.flatMap_cons]
      obtain ⟨v, hv⟩ : ∃ v, c.v = v + 1 := ⟨c.v - 1, by have := g.v.1; omega⟩
      obtain ⟨w, hw⟩ : ∃ w, c.h = w + 1 := ⟨c.h - 1, by have := g.h.1; omega⟩
      simp only [hv, hw, List.range_succ_eq_map, List.flatMap_cons, List.map_cons, List.cons_append]
      exact ⟨_, rfl⟩
    obtain ⟨tail, hb⟩ := hb
    have step : ∀ ps : List Int, ps.length = s.components.length →
        blocksLoop false s cols (mcuBlocks s.components mx my) ⟨⟨[], 0, 0, 0⟩, ps, data⟩ =
          .ok (false, ⟨⟨[], 0, 0, 0⟩, ps, data⟩) := by
      intro ps hps
      rw [hb, blocksLoop]
      have e1 : getChecked s.components 0 = .ok c := by rw [hc]; rfl
      have e2 : ∃ p, getChecked ps 0 = .ok p := by
        cases ps with
        | nil => rw [hc] at hps; cases hps
        | cons p _ => exact ⟨p, rfl⟩
      obtain ⟨p, e2⟩ := e2
      have e3 : ∃ t, getChecked s.dc c.dc = .ok t := by
        obtain ⟨t, ht, _⟩ := (Pixo.Oks.get' (l := s.dc) (i := c.dc) (by rw [hs.dc.1]; exact g.dc)).out
        exact ⟨t, ht⟩
      obtain ⟨t, e3⟩ := e3
      have e4 : blockStep false s cols 0 (mx * c.h + 0) (my * c.v + 0) ⟨⟨[], 0, 0, 0⟩, ps, data⟩ =
          .ok (false, ⟨⟨[], 0, 0, 0⟩, ps, data⟩) := by
        unfold blockStep decodeBlock
        rw [e1, ok_bind, e2, ok_bind, e3, ok_bind, decode_nothing]
        rfl
      rw [e4]
      rfl
    rw [mcuLoop]
    simp only
    split
    · rw [step _ (by simpa using hp)]
      exact ⟨_, rfl, rfl⟩
    · rw [step _ hp]
      exact ⟨_, rfl, rfl⟩

theorem decodeScan_nothing {s : State} (hs : s.Good) (i : Image) (h : decodeScan false s [] = .ok i) (hg : i.colorType = .gray) :
    i.pixels = List.replicate (i.width * i.height) 0 := by
  by_cases h0 : s.components = []
  · rw [decodeScan_empty hs h0] at h
    cases h
  · unfold decodeScan at h
    simp only at h
    obtain ⟨st, e, hst⟩ := mcuLoop_nothing hs (divCeil s.width (s.maxH * 8)) ((List.range (divCeil s.height (s.maxV * 8))).flatMap
      (fun my => (List.range (divCeil s.width (s.maxH * 8))).map (fun mx => (mx, my)))) 0 (s.components.map (fun _ => 0))
      (s.components.map (fun c =>
        List.replicate (divCeil s.width (s.maxH * 8) * c.h * 8 * (divCeil s.height (s.maxV * 8) * c.v * 8)) (0 : UInt8)))
      (by simp) h0
    have e' : (List.take (entropyEnd []) ([] : List UInt8)) = [] := rfl
    rw [e', e, ok_bind] at h
    split at h
    · obtain ⟨c, _, h⟩ := bind_ok h
      obtain ⟨d, hd, h⟩ := bind_ok h
      cases h
      have hz : ∀ k, d.getD k 0 = 0 := by
        intro k
        unfold getChecked at hd
        rw [hst, List.getElem?_map] at hd
        cases hx : s.components[0]? with
        | none => rw [hx] at hd; cases hd
        | some c =>
          rw [hx] at hd
          cases hd
          rw [List.getD_eq_getElem?_getD, List.getElem?_replicate]
          split <;> rfl
      rw [List.eq_replicate_iff]
      refine ⟨grayPixels_length _ _ _ _, fun b hb => ?_⟩
      unfold grayPixels at hb
      obtain ⟨y, _, hb⟩ := List.mem_flatMap.1 hb
      obtain ⟨x, _, rfl⟩ := List.mem_map.1 hb
      exact hz _
    · obtain ⟨p, _, h⟩ := bind_ok h
      cases h
      cases hg

/-- C94: a file cut off right after the header of its scan gives an image all the same, and a grayscale one
is black. -/
theorem C94_cut (head : List UInt8) (h : UpToScan head []) :
    ∃ i, decodeJpeg false head = .ok i ∧ (i.colorType = .gray → i.pixels = List.replicate (i.width * i.height) 0) := by
  obtain ⟨i, hi⟩ := (C94_partial head).2 ⟨[], h⟩
  refine ⟨i, hi, fun hg => ?_⟩
  obtain ⟨body, l, d, seg, n, rfl, h1, h2, h3, h4, h5⟩ := h
  obtain ⟨l', d', seg', rest', s', a1, a2, a3, a4, a5⟩ := markerLoop_scan (body.length + 1) {} body start_good i hi
  obtain ⟨rfl, rfl⟩ := segments_unique h1 a1 h4 a3 (fun p hp => (h2 p hp).2.1) a2
  obtain ⟨_, _, rfl⟩ := segment_unique h4 a3
  exact decodeScan_nothing a4 i a5 hg

/-- Such a file is no baseline file, which ends with a marker. -/
theorem C94_cut_not_baseline (head : List UInt8) (h : UpToScan head []) (f : Spec.T81.Frame) (quant : List (List Nat)) (interval : Nat)
    (mcus : List (List (Nat × List Int))) : ¬Spec.T81.Baseline head f quant interval mcus := by
  obtain ⟨body, l, d, seg, n, rfl, h1, h2, h3, h4, h5⟩ := h
  rintro ⟨⟨body', l', d', hdr, data, env, sel, ts, scan, tail, e, a1, a2, a3, _, _, _, _, _, _, _, e'⟩, _, _⟩
  cases e
  have hm : ∀ {l e e'}, Spec.T81.Miscs l e e' → ∀ p ∈ l, p.1 ≠ 0xDA := by
    intro l e e' h
    induction h with
    | done => simp
    | step a _ ih =>
      intro p hp
      rcases List.mem_cons.1 hp with rfl | hp
      · cases a with
        | other hx =>
          simp only
          rintro rfl
          revert hx
          decide
        | _ => simp
      · exact ih p hp
  obtain ⟨rfl, rfl⟩ := segments_unique h1 a1 h4 a3 (fun p hp => (h2 p hp).2.1) (hm a2)
  obtain ⟨_, _, rfl⟩ := segment_unique h4 a3
  cases scan <;> cases e'

/-- A legible file: a frame header for an image of eight by eight, the header of a scan, and no table. -/
theorem shortest_legible : UpToScan [0xFF, 0xD8, 0xFF, 0xC0, 0, 11, 8, 0, 8, 0, 8, 1, 1, 0x11, 0, 0xFF, 0xDA, 0, 5, 1, 1, 0] [] :=
  ⟨_, [(0xC0, [8, 0, 8, 0, 8, 1, 1, 0x11, 0])], [0xFF, 0xDA, 0, 5, 1, 1, 0], [1, 1, 0], 1, rfl,
    Segments.cons (Segment.params [] 1 0xC0 0 11 [8, 0, 8, 0, 8, 1, 1, 0x11, 0] _ (by decide) (by decide) (by decide)
      (by unfold Standalone; decide) (by decide)) (Segments.nil _),
    (by
      intro p hp
      rw [List.mem_singleton] at hp
      subst hp
      exact ⟨by simp, by simp, by simp, fun _ => ⟨1, 0, 8, 0, 8, 1, [1, 0x11, 0], rfl, rfl, Or.inl rfl, by decide, by decide, by decide, trivial⟩,
        by simp, by simp, by simp⟩),
    ⟨[], _, [], rfl, by simp, 0, 8, 0, 8, 1, [1, 0x11, 0], rfl, rfl, Or.inl rfl, by decide, by decide, by decide, trivial⟩,
    Segment.params [] 1 0xDA 0 5 [1, 1, 0] [] (by decide) (by decide) (by decide) (by unfold Standalone; decide) (by decide),
    1, [1, 0], rfl, rfl, by decide, by decide, trivial⟩

example : ∃ i, decodeJpeg false [0xFF, 0xD8, 0xFF, 0xC0, 0, 11, 8, 0, 8, 0, 8, 1, 1, 0x11, 0, 0xFF, 0xDA, 0, 5, 1, 1, 0] = .ok i :=
  (C94_partial _).2 ⟨_, shortest_legible⟩

/-- A file that is not legible: the frame header names quantization table 4. -/
example : ¬∃ scan, UpToScan [0xFF, 0xD8, 0xFF, 0xC0, 0, 11, 8, 0, 8, 0, 8, 1, 1, 0x11, 4, 0xFF, 0xDA, 0, 5, 1, 1, 0] scan := by
  rw [← C94_partial]
  have : (decodeJpeg false [0xFF, 0xD8, 0xFF, 0xC0, 0, 11, 8, 0, 8, 0, 8, 1, 1, 0x11, 4, 0xFF, 0xDA, 0, 5, 1, 1, 0]).toOption.isSome = false := by
    decide +kernel
  rintro ⟨i, h⟩
  rw [h] at this
  cases this

/-- C94 fails: the decoder accepts a file which is no baseline file. -/
theorem C94_violation : ∃ data i, decodeJpeg false data = .ok i ∧ ∀ f quant interval mcus, ¬Spec.T81.Baseline data f quant interval mcus := by
  obtain ⟨i, hi, _⟩ := C94_cut _ shortest_legible
  exact ⟨_, i, hi, C94_cut_not_baseline _ shortest_legible⟩

end Pixo.Props
