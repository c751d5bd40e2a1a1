import Verif.Spec.T81Decode
import Verif.Proof.JpegDecodeFile
import Verif.Props.JpegDecode
/-
The headers of any baseline file, read by the JPEG decoder.
-/
namespace Pixo.JpegDecode
open Pixo Pixo.Idct Spec Pixo.Jpeg

/-! ### Tables -/

/-- The tables of the decoder are those of the file. -/
structure HoldsTables (e : T81.Env) (s : State) : Prop where
  quantLen : s.quant.length = 4
  dcLen : s.dc.length = 4
  acLen : s.ac.length = 4
  quant : ∀ i q, e.quant i = some q → s.quant[i]? = some q
  dc : ∀ i t, e.dc i = some t → t.Legal ∧ s.dc[i]? = some (Huff.build t.bits t.vals)
  ac : ∀ i t, e.ac i = some t → t.Legal ∧ s.ac[i]? = some (Huff.build t.bits t.vals)

/-- The rest of the state of the decoder. -/
def Others (s s' : State) : Prop :=
  s'.width = s.width ∧ s'.height = s.height ∧ s'.components = s.components ∧ s'.restart = s.restart ∧ s'.maxH = s.maxH ∧
    s'.maxV = s.maxV

theorem Others.refl (s : State) : Others s s := ⟨rfl, rfl, rfl, rfl, rfl, rfl⟩

theorem Others.trans {a b c : State} (h : Others a b) (g : Others b c) : Others a c := by
  obtain ⟨h1, h2, h3, h4, h5, h6⟩ := h
  obtain ⟨g1, g2, g3, g4, g5, g6⟩ := g
  exact ⟨g1.trans h1, g2.trans h2, g3.trans h3, g4.trans h4, g5.trans h5, g6.trans h6⟩

theorem set_put {α β : Type} {f : Nat → Option α} {l : List β} {P : α → β → Prop} {i : Nat} {a : α} {b : β}
    (h : ∀ j x, f j = some x → ∃ y, l[j]? = some y ∧ P x y) (hi : i < l.length) (hab : P a b) :
    ∀ j x, T81.put f i a j = some x → ∃ y, (l.set i b)[j]? = some y ∧ P x y := by
  intro j x hx
  unfold T81.put at hx
  rw [List.getElem?_set]
  by_cases hj : j = i
  · subst hj
    rw [if_pos rfl] at hx
    injection hx with hx
    subst hx
    exact ⟨b, by rw [if_pos rfl, if_pos hi], hab⟩
  · rw [if_neg hj] at hx
    obtain ⟨y, h1, h2⟩ := h j x hx
    exact ⟨y, by rw [if_neg (fun h => hj h.symm)]; exact h1, h2⟩

theorem HoldsTables.putQuant {e : T81.Env} {s : State} (h : HoldsTables e s) {i : Nat} (hi : i < 4) (q : List Nat) :
    HoldsTables { e with quant := T81.put e.quant i q } { s with quant := s.quant.set i q } := by
  refine ⟨by simpa using h.quantLen, h.dcLen, h.acLen, ?_, h.dc, h.ac⟩
  intro j x hx
  obtain ⟨y, h1, rfl⟩ := set_put (P := fun a b => b = a) (b := q) (fun j x hx => ⟨x, h.quant j x hx, rfl⟩)
    (show i < s.quant.length by rw [h.quantLen]; exact hi) rfl j x hx
  exact h1

theorem HoldsTables.putDc {e : T81.Env} {s : State} (h : HoldsTables e s) {i : Nat} (hi : i < 4) {t : T81.Table} (ht : t.Legal) :
    HoldsTables { e with dc := T81.put e.dc i t } { s with dc := s.dc.set i (Huff.build t.bits t.vals) } := by
  refine ⟨h.quantLen, by simpa using h.dcLen, h.acLen, h.quant, ?_, h.ac⟩
  intro j x hx
  obtain ⟨y, h1, h2, rfl⟩ := set_put (P := fun (a : T81.Table) b => a.Legal ∧ b = Huff.build a.bits a.vals)
    (fun j x hx => ⟨_, (h.dc j x hx).2, (h.dc j x hx).1, rfl⟩) (show i < s.dc.length by rw [h.dcLen]; exact hi) ⟨ht, rfl⟩ j x hx
  exact ⟨h2, h1⟩

theorem HoldsTables.putAc {e : T81.Env} {s : State} (h : HoldsTables e s) {i : Nat} (hi : i < 4) {t : T81.Table} (ht : t.Legal) :
    HoldsTables { e with ac := T81.put e.ac i t } { s with ac := s.ac.set i (Huff.build t.bits t.vals) } := by
  refine ⟨h.quantLen, h.dcLen, by simpa using h.acLen, h.quant, h.dc, ?_⟩
  intro j x hx
  obtain ⟨y, h1, h2, rfl⟩ := set_put (P := fun (a : T81.Table) b => a.Legal ∧ b = Huff.build a.bits a.vals)
    (fun j x hx => ⟨_, (h.ac j x hx).2, (h.ac j x hx).1, rfl⟩) (show i < s.ac.length by rw [h.acLen]; exact hi) ⟨ht, rfl⟩ j x hx
  exact ⟨h2, h1⟩

theorem info_byte (p i : Nat) (hp : p < 2) (hi : i < 4) :
    ((UInt8.ofNat (16 * p + i)).toNat >>> 4) &&& 0x0F = p ∧ (UInt8.ofNat (16 * p + i)).toNat &&& 0x0F = i := by
  have c1 : p = 0 ∨ p = 1 := by omega
  have c2 : i = 0 ∨ i = 1 ∨ i = 2 ∨ i = 3 := by omega
  rcases c1 with rfl | rfl <;> rcases c2 with rfl | rfl | rfl | rfl <;> decide

theorem be16s_flatMap (l : List Nat) (h : ∀ v ∈ l, v < 65536) : be16s (l.flatMap T81.be16) = l := by
  induction l with
  | nil => rfl
  | cons a l ih =>
    have e : (a :: l).flatMap T81.be16 = UInt8.ofNat (a / 256) :: UInt8.ofNat (a % 256) :: l.flatMap T81.be16 := rfl
    rw [e, be16s, ih (fun v hv => h v (List.mem_cons_of_mem _ hv))]
    have hb : JpegDecode.be16 (UInt8.ofNat (a / 256)) (UInt8.ofNat (a % 256)) = a := be16_val (h a List.mem_cons_self)
    rw [hb]

theorem be16_flatMap_length (l : List Nat) : (l.flatMap T81.be16).length = 2 * l.length := by
  induction l with
  | nil => rfl
  | cons a l ih => rw [List.flatMap_cons, List.length_append, ih]; simp [T81.be16]; omega

theorem parseDqt_any {seg : List UInt8} {e e' : T81.Env} (h : T81.Dqt seg e e') (s : State) (hs : HoldsTables e s) (fuel : Nat)
    (hf : seg.length ≤ fuel) : ∃ s', parseDqt fuel seg s = .ok s' ∧ HoldsTables e' s' ∧ Others s s' ∧ e'.frame = e.frame ∧
      e'.interval = e.interval := by
  induction h generalizing s fuel with
  | done => exact ⟨s, by cases fuel <;> rfl, hs, .refl s, rfl, rfl⟩
  | eight ht hl hrest ih =>
    rename_i tq entries rest e e'
    simp only [List.cons_append, List.length_cons, List.length_append] at hf
    obtain ⟨fuel, rfl⟩ : ∃ f, fuel = f + 1 := ⟨fuel - 1, by omega⟩
    have h1 := info_byte 0 tq (by decide) ht
    rw [Nat.mul_zero, Nat.zero_add] at h1
    obtain ⟨s', e1, h2, h3, h4, h5⟩ := ih _ (hs.putQuant ht _) fuel (by omega)
    refine ⟨s', ?_, h2, h3, h4, h5⟩
    rw [List.cons_append, parseDqt]
    simp only [h1.1, h1.2]
    rw [if_neg (by omega), if_pos trivial, if_neg (by simp; omega), takeChecked_ok (by simp; omega), ok_bind,
      setChecked_lt _ (by rw [hs.quantLen]; exact ht), ok_bind, List.take_left' hl, List.drop_left' hl]
    exact e1
  | sixteen ht hl hv hrest ih =>
    rename_i tq entries rest e e'
    have hl2 : (entries.flatMap T81.be16).length = 128 := by rw [be16_flatMap_length, hl]
    simp only [List.cons_append, List.length_cons, List.length_append] at hf
    obtain ⟨fuel, rfl⟩ : ∃ f, fuel = f + 1 := ⟨fuel - 1, by omega⟩
    have h1 := info_byte 1 tq (by decide) ht
    rw [Nat.mul_one] at h1
    obtain ⟨s', e1, h2, h3, h4, h5⟩ := ih _ (hs.putQuant ht _) fuel (by omega)
    refine ⟨s', ?_, h2, h3, h4, h5⟩
    rw [List.cons_append, parseDqt]
    simp only [h1.1, h1.2]
    rw [if_neg (by omega), if_neg (by decide), if_neg (by rw [List.length_append]; omega),
      takeChecked_ok (by rw [List.length_append]; omega), ok_bind,
      setChecked_lt _ (by rw [hs.quantLen]; exact ht), ok_bind, List.take_left' hl2, List.drop_left' hl2, be16s_flatMap _ hv]
    exact e1

theorem parseDht_any {seg : List UInt8} {e e' : T81.Env} (h : T81.Dht seg e e') (s : State) (hs : HoldsTables e s) (fuel : Nat)
    (hf : seg.length ≤ fuel) : ∃ s', parseDht fuel seg s = .ok s' ∧ HoldsTables e' s' ∧ Others s s' ∧ e'.frame = e.frame ∧
      e'.interval = e.interval := by
  induction h generalizing s fuel with
  | done => exact ⟨s, by cases fuel <;> rfl, hs, .refl s, rfl, rfl⟩
  | dc ht hL hrest ih =>
    rename_i th counts vals rest e e'
    have hc : counts.length = 16 := by simpa using hL.bits_length
    have hv : vals.length = (counts.map UInt8.toNat).sum := by simpa using hL.vals_length
    simp only [List.cons_append, List.length_cons, List.length_append] at hf
    obtain ⟨fuel, rfl⟩ : ∃ f, fuel = f + 1 := ⟨fuel - 1, by omega⟩
    have h1 := info_byte 0 th (by decide) ht
    rw [Nat.mul_zero, Nat.zero_add] at h1
    obtain ⟨s', e1, h2, h3, h4, h5⟩ := ih _ (hs.putDc ht hL) fuel (by omega)
    refine ⟨s', ?_, h2, h3, h4, h5⟩
    rw [List.cons_append, List.cons_append, List.append_assoc, parseDht]
    simp only [h1.1, h1.2]
    rw [if_neg (by omega), if_neg (by simp; omega), takeChecked_ok (by simp; omega), ok_bind, List.take_left' hc,
      List.drop_left' hc, if_neg (by simp; omega), takeChecked_ok (by simp; omega), ok_bind, List.take_left' hv,
      List.drop_left' hv, if_pos trivial, setChecked_lt _ (by rw [hs.dcLen]; exact ht), ok_bind]
    exact e1
  | ac ht hL hrest ih =>
    rename_i th counts vals rest e e'
    have hc : counts.length = 16 := by simpa using hL.bits_length
    have hv : vals.length = (counts.map UInt8.toNat).sum := by simpa using hL.vals_length
    simp only [List.cons_append, List.length_cons, List.length_append] at hf
    obtain ⟨fuel, rfl⟩ : ∃ f, fuel = f + 1 := ⟨fuel - 1, by omega⟩
    have h1 := info_byte 1 th (by decide) ht
    rw [Nat.mul_one] at h1
    obtain ⟨s', e1, h2, h3, h4, h5⟩ := ih _ (hs.putAc ht hL) fuel (by omega)
    refine ⟨s', ?_, h2, h3, h4, h5⟩
    rw [List.cons_append, List.cons_append, List.append_assoc, parseDht]
    simp only [h1.1, h1.2]
    rw [if_neg (by omega), if_neg (by simp; omega), takeChecked_ok (by simp; omega), ok_bind, List.take_left' hc,
      List.drop_left' hc, if_neg (by simp; omega), takeChecked_ok (by simp; omega), ok_bind, List.take_left' hv,
      List.drop_left' hv, if_neg (by decide), setChecked_lt _ (by rw [hs.acLen]; exact ht), ok_bind]
    exact e1

/-! ### The frame header -/

/-- A component of the frame header as the decoder keeps it. -/
def ofSof (c : T81.Component) : Component := ⟨c.h, c.v, c.tq, 0, 0⟩

theorem sampling_byte (b : UInt8) : (b.toNat >>> 4) &&& 0x0F = b.toNat / 16 ∧ b.toNat &&& 0x0F = b.toNat % 16 := by
  have : b.toNat < 256 := b.toNat_lt
  have h : ∀ v, v &&& 0x0F = v % 16 := fun v => and_mask v 4
  rw [Nat.shiftRight_eq_div_pow, h, h]
  omega

theorem getChecked_drop {α : Type} {l r : List α} {k : Nat} (h : l.drop k = r) (j : Nat) : getChecked l (k + j) = getChecked r j := by
  unfold getChecked
  rw [← h, List.getElem?_drop]

theorem foldl_max (l : List Nat) (a : Nat) : l.foldl max a = max a (l.foldr max 0) := by
  induction l generalizing a with
  | nil => simp
  | cons b l ih => rw [List.foldl_cons, List.foldr_cons, ih]; omega

theorem sofComponents_any (seg : List UInt8) (bytes : List UInt8) (cs : List T81.Component) (h : T81.components bytes = some cs)
    (hleg : ∀ c ∈ cs, 1 ≤ c.h ∧ 1 ≤ c.v ∧ c.tq < 4) (i : Nat) (hd : seg.drop (6 + i * 3) = bytes) (s : State) :
    sofComponents seg cs.length i s = .ok { s with
      maxH := (cs.map (·.h)).foldl max s.maxH, maxV := (cs.map (·.v)).foldl max s.maxV,
      components := s.components ++ cs.map ofSof } := by
  induction bytes using T81.components.induct generalizing cs i s with
  | case1 =>
    rw [T81.components] at h
    injection h with h
    subst h
    simp [sofComponents]
  | case2 id hv tq rest ih =>
    rw [T81.components] at h
    obtain ⟨cs', h1, rfl⟩ := Option.map_eq_some_iff.1 h
    have h0 := hleg _ List.mem_cons_self
    simp only at h0
    have hs := sampling_byte hv
    rw [List.length_cons, sofComponents]
    simp only
    have e1 : getChecked seg (6 + i * 3 + 1) = .ok hv := by rw [getChecked_drop hd]; rfl
    have e2 : getChecked seg (6 + i * 3 + 2) = .ok tq := by rw [getChecked_drop hd]; rfl
    rw [e1, ok_bind, hs.1, hs.2, if_neg (by omega), e2, ok_bind, if_neg (by omega)]
    rw [ih cs' h1 (fun c hc => hleg c (List.mem_cons_of_mem _ hc)) (i + 1)
      (by rw [show 6 + (i + 1) * 3 = 6 + i * 3 + 3 by omega, ← List.drop_drop, hd]; rfl)]
    simp [ofSof]
  | case3 => simp [T81.components] at h

theorem components_length (bytes : List UInt8) (cs : List T81.Component) (h : T81.components bytes = some cs) :
    bytes.length = 3 * cs.length := by
  induction bytes using T81.components.induct generalizing cs with
  | case1 => rw [T81.components] at h; injection h with h; subst h; rfl
  | case2 id hv tq rest ih =>
    rw [T81.components] at h
    obtain ⟨cs', h1, rfl⟩ := Option.map_eq_some_iff.1 h
    have := ih cs' h1
    simp only [List.length_cons]; omega
  | case3 => simp [T81.components] at h

theorem parseSof0_any {seg : List UInt8} {f : T81.Frame} (h : T81.frame seg = some f) (hleg : f.Legal)
    (hn : f.comps.length = 1 ∨ f.comps.length = 3) (s : State) (hmax : s.maxH = 1 ∧ s.maxV = 1) :
    parseSof0 seg s = .ok { s with
      width := f.width, height := f.height, components := f.comps.map ofSof,
      maxH := (f.comps.map (·.h)).foldr max 0, maxV := (f.comps.map (·.v)).foldr max 0 } := by
  unfold T81.frame at h
  split at h
  · rename_i yh yl xh xl n rest
    obtain ⟨cs, h1, h2⟩ := Option.bind_eq_some_iff.1 h
    split at h2
    · rename_i hlen
      injection h2 with h2
      subst h2
      simp only at hn hleg ⊢
      have hl := components_length _ _ h1
      have hpos : 1 ≤ (cs.map (·.h)).foldr max 0 ∧ 1 ≤ (cs.map (·.v)).foldr max 0 := by
        cases cs with
        | nil => simp at hn
        | cons c cs =>
          have := hleg c List.mem_cons_self
          simp only [List.map_cons, List.foldr_cons]
          omega
      have hc := sofComponents_any (8 :: yh :: yl :: xh :: xl :: n :: rest) rest cs h1
        (fun c hc => by have := hleg c hc; omega) 0 rfl
        { s with height := be16 yh yl, width := be16 xh xl, components := [] }
      unfold parseSof0
      rw [if_neg (by simp; omega)]
      rw [getChecked_some (a := 8) rfl, ok_bind, if_neg (by simp), getChecked_some (a := yh) rfl, ok_bind,
        getChecked_some (a := yl) rfl, ok_bind, getChecked_some (a := xh) rfl, ok_bind, getChecked_some (a := xl) rfl, ok_bind,
        getChecked_some (a := n) rfl, ok_bind]
      simp only
      rw [if_neg (by omega), if_neg (by simp; omega), ← hlen, hc]
      simp only [foldl_max, hmax.1, hmax.2, List.nil_append, Nat.max_eq_right hpos.1, Nat.max_eq_right hpos.2]
      rfl
    · cases h2
  · cases h

/-! ### The segments before the scan -/

/-- What the decoder knows of the file. -/
structure Holds (e : T81.Env) (s : State) : Prop where
  tables : HoldsTables e s
  interval : s.restart = e.interval
  none : e.frame = none → s.maxH = 1 ∧ s.maxV = 1
  some : ∀ f, e.frame = some f → s.width = f.width ∧ s.height = f.height ∧ s.components = f.comps.map ofSof ∧
    s.maxH = (f.comps.map (·.h)).foldr max 0 ∧ s.maxV = (f.comps.map (·.v)).foldr max 0 ∧ f.Legal

theorem Holds.others {e e' : T81.Env} {s s' : State} (h : Holds e s) (ht : HoldsTables e' s') (ho : Others s s')
    (hf : e'.frame = e.frame) (hi : e'.interval = e.interval) : Holds e' s' := by
  obtain ⟨o1, o2, o3, o4, o5, o6⟩ := ho
  refine ⟨ht, by rw [o4, hi]; exact h.interval, ?_, ?_⟩
  · rw [hf, o5, o6]; exact h.none
  · rw [hf, o1, o2, o3, o5, o6]; exact h.some

theorem miscs_frame {l : List (UInt8 × List UInt8)} {e e' : T81.Env} (h : T81.Miscs l e e') {f : T81.Frame} (hf : e.frame = some f) :
    e'.frame = some f := by
  induction h with
  | done => exact hf
  | step hm _ ih =>
    apply ih
    cases hm with
    | dqt h =>
      have key : ∀ {seg e e'}, T81.Dqt seg e e' → e'.frame = e.frame := by
        intro seg e e' h
        induction h with
        | done => rfl
        | eight _ _ _ ih => exact ih
        | sixteen _ _ _ _ ih => exact ih
      rw [key h]; exact hf
    | dht h =>
      have key : ∀ {seg e e'}, T81.Dht seg e e' → e'.frame = e.frame := by
        intro seg e e' h
        induction h with
        | done => rfl
        | dc _ _ _ ih => exact ih
        | ac _ _ _ ih => exact ih
      rw [key h]; exact hf
    | dri => exact hf
    | sof h => rw [hf] at h; cases h
    | other => exact hf

theorem loop_step (ck : Bool) (fuel : Nat) (s : State) {d : List UInt8} {m : UInt8} {p rest : List UInt8}
    (h : Markers.Segment d m p rest) :
    markerLoop ck (fuel + 1) s d =
    if m = 0xC0 then do
      let s ← parseSof0 p s
      markerLoop ck fuel s rest
    else if m = 0xC2 then .error .unsupported
    else if m = 0xC4 then do
      let s ← parseDht p.length p s
      markerLoop ck fuel s rest
    else if m = 0xDB then do
      let s ← parseDqt p.length p s
      markerLoop ck fuel s rest
    else if m = 0xDD then do
      let s ← parseDri p s
      markerLoop ck fuel s rest
    else if m = 0xDA then do
      let s ← parseSos p s
      decodeScan ck s rest
    else if m = 0xD9 then .error .invalid
    else markerLoop ck fuel s rest := by
  rw [markerLoop, (Props.C36_markers d m p rest).2 h, ok_bind]

theorem loop_miscs (ck : Bool) {d : List UInt8} {l : List (UInt8 × List UInt8)} {d' : List UInt8} (h : Markers.Segments d l d')
    {e e' : T81.Env} (hm : T81.Miscs l e e') {f : T81.Frame} (hf : e'.frame = some f)
    (hn : f.comps.length = 1 ∨ f.comps.length = 3) (s : State) (hs : Holds e s) (fuel : Nat) (hfuel : d.length < fuel) :
    ∃ fuel' s', markerLoop ck fuel s d = markerLoop ck fuel' s' d' ∧ Holds e' s' ∧ d'.length < fuel' := by
  induction h generalizing e s fuel with
  | nil => cases hm; exact ⟨fuel, s, rfl, hs, hfuel⟩
  | cons hseg _ ih =>
    rename_i d m seg d1 l rest _
    cases hm with
    | step h1 h2 =>
      rename_i e1
      have hlen := Props.segment_length hseg
      obtain ⟨fuel, rfl⟩ : ∃ g, fuel = g + 1 := ⟨fuel - 1, by omega⟩
      rw [loop_step ck fuel s hseg]
      cases h1 with
      | dqt h =>
        obtain ⟨s', e2, h3, h4, h5, h6⟩ := parseDqt_any h s hs.tables _ (Nat.le_refl _)
        rw [if_neg (by decide), if_neg (by decide), if_neg (by decide), if_pos rfl, e2, ok_bind]
        exact ih h2 s' (hs.others h3 h4 h5 h6) fuel (by omega)
      | dht h =>
        obtain ⟨s', e2, h3, h4, h5, h6⟩ := parseDht_any h s hs.tables _ (Nat.le_refl _)
        rw [if_neg (by decide), if_neg (by decide), if_pos rfl, e2, ok_bind]
        exact ih h2 s' (hs.others h3 h4 h5 h6) fuel (by omega)
      | dri =>
        rename_i hi lo
        rw [if_neg (by decide), if_neg (by decide), if_neg (by decide), if_neg (by decide), if_pos rfl, parseDri, ok_bind]
        exact ih h2 { s with restart := be16 hi lo }
          ⟨⟨hs.tables.1, hs.tables.2, hs.tables.3, hs.tables.4, hs.tables.5, hs.tables.6⟩, rfl, hs.none, hs.some⟩ fuel (by omega)
      | sof h0 h1 hleg =>
        rename_i f'
        have := miscs_frame h2 (f := f') rfl
        rw [hf] at this
        injection this with this
        subst this
        rw [if_pos rfl, parseSof0_any h1 hleg hn s (hs.none h0), ok_bind]
        refine (fun hS => ih h2 _ hS fuel (by omega)) ?_
        refine ⟨⟨hs.tables.1, hs.tables.2, hs.tables.3, hs.tables.4, hs.tables.5, hs.tables.6⟩, hs.interval,
          (fun h => by cases h), fun f' hf' => ?_⟩
        injection hf' with hf'
        subst hf'
        exact ⟨rfl, rfl, rfl, rfl, rfl, hleg⟩
      | other h =>
        have : m ≠ 0xC0 ∧ m ≠ 0xC2 ∧ m ≠ 0xC4 ∧ m ≠ 0xDB ∧ m ≠ 0xDD ∧ m ≠ 0xDA ∧ m ≠ 0xD9 := by
          rcases h with ⟨h, _⟩ | h
          · refine ⟨?_, ?_, ?_, ?_, ?_, ?_, ?_⟩ <;> (rintro rfl; exact absurd h (by decide))
          · subst h; decide
        rw [if_neg this.1, if_neg this.2.1, if_neg this.2.2.1, if_neg this.2.2.2.1, if_neg this.2.2.2.2.1,
          if_neg this.2.2.2.2.2.1, if_neg this.2.2.2.2.2.2]
        exact ih h2 s hs fuel (by omega)

/-! ### The scan header -/

/-- A component with the tables of the scan. -/
def ofSos (c : Component) (x : Nat × Nat × Nat) : Component := { c with dc := x.2.1, ac := x.2.2 }

theorem sosComponents_any (seg bytes : List UInt8) (sel : List (Nat × Nat × Nat)) (h : T81.selectors bytes = some sel)
    (hsel : ∀ x ∈ sel, x.2.1 < 4 ∧ x.2.2 < 4) (i : Nat) (hd : seg.drop (1 + i * 2) = bytes) (pre cs : List Component)
    (hpre : pre.length = i) (hcs : cs.length = sel.length) :
    sosComponents seg sel.length i (pre ++ cs) = .ok (pre ++ cs.zipWith ofSos sel) := by
  induction bytes using T81.selectors.induct generalizing sel i pre cs with
  | case1 =>
    rw [T81.selectors] at h
    injection h with h
    subst h
    have : cs = [] := List.length_eq_zero_iff.1 hcs
    subst this
    simp [sosComponents]
  | case2 id t rest hne ih =>
    rw [T81.selectors] at h
    · obtain ⟨sel', h1, rfl⟩ := Option.map_eq_some_iff.1 h
      have h0 := hsel _ List.mem_cons_self
      simp only at h0
      cases cs with
      | nil => simp at hcs
      | cons c cs =>
        have hs := sampling_byte t
        have e1 : getChecked seg (1 + i * 2 + 1) = .ok t := by rw [getChecked_drop hd]; rfl
        have hl : 1 + i * 2 + 2 ≤ seg.length := by
          have := congrArg List.length hd
          simp only [List.length_drop, List.length_cons] at this
          omega
        have e2 : getChecked (pre ++ c :: cs) i = .ok c := by
          apply getChecked_some
          rw [List.getElem?_append_right (by omega), hpre, Nat.sub_self]
          rfl
        rw [List.length_cons, sosComponents]
        simp only
        rw [if_neg (by omega), e1, ok_bind, hs.1, hs.2, if_neg (by omega), if_neg (by omega), e2, ok_bind]
        have e3 : (pre ++ c :: cs).set i { c with dc := t.toNat / 16, ac := t.toNat % 16 } =
            (pre ++ [ofSos c (id.toNat, t.toNat / 16, t.toNat % 16)]) ++ cs := by
          rw [List.set_append, if_neg (by omega), hpre, Nat.sub_self]
          simp [ofSos]
        rw [e3, ih sel' h1 (fun x hx => hsel x (List.mem_cons_of_mem _ hx)) (i + 1)
          (by rw [show 1 + (i + 1) * 2 = 1 + i * 2 + 2 by omega, ← List.drop_drop, hd]; rfl) _ cs (by simp [hpre])
          (by simpa using hcs)]
        simp
    · exact hne
  | case3 l h1 h2 =>
    rw [T81.selectors] at h
    · cases h
    · exact h1
    · exact h2

theorem parseSos_any {hdr : List UInt8} {sel : List (Nat × Nat × Nat)} (h : T81.scanHeader hdr = some sel)
    (hsel : ∀ x ∈ sel, x.2.1 < 4 ∧ x.2.2 < 4) (s : State) (hc : s.components.length = sel.length) :
    parseSos hdr s = .ok { s with components := s.components.zipWith ofSos sel } := by
  unfold T81.scanHeader at h
  split at h
  · cases h
  · rename_i n rest
    obtain ⟨l, h1, h2⟩ := Option.bind_eq_some_iff.1 h
    split at h2
    · rename_i hl
      injection h2 with h2
      subst h2
      unfold parseSos
      simp only
      rw [if_neg (by omega), ← hl]
      have := sosComponents_any (n :: rest) rest l h1 hsel 0 rfl [] s.components rfl hc
      rw [List.nil_append, List.nil_append] at this
      rw [this, ok_bind]
      rfl
    · cases h2

end Pixo.JpegDecode
