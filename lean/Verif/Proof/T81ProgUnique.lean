import Verif.Proof.T81Unique
import Verif.Spec.T81Prog
/-
A progressive file determines its coefficients.
-/
namespace Spec.T81
open Pixo Pixo.Jpeg

/-- Two readings of DC coefficients agree as far as both go. -/
theorem DcFirst_prefix {t : Table} (h : t.Legal) {p : Int} {a b : List Int} {w v r q : List Bool}
    (ha : DcFirst t p a w) (hb : DcFirst t p b v) (hl : a.length ≤ b.length) (he : w ++ r = v ++ q) :
    ∃ p' b' v', b = a ++ b' ∧ v = w ++ v' ∧ r = v' ++ q ∧ DcFirst t p' b' v' := by
  induction ha generalizing b v r q with
  | nil => exact ⟨_, b, v, rfl, rfl, he, hb⟩
  | cons f1 f2 ih =>
    cases hb with
    | nil => simp at hl
    | cons g1 g2 =>
      simp only [List.append_assoc] at he
      obtain ⟨rfl, rfl, h3⟩ := Dc_unique h f1 g1 he
      obtain ⟨p', b', v', rfl, rfl, h4, h5⟩ := ih g2 (by simpa using hl) h3
      exact ⟨p', b', v', rfl, by simp, h4, h5⟩

theorem DcFirst_unique {t : Table} (h : t.Legal) {p : Int} {a b : List Int} {w v r q : List Bool}
    (ha : DcFirst t p a w) (hb : DcFirst t p b v) (hl : a.length = b.length) (he : w ++ r = v ++ q) :
    a = b ∧ w = v ∧ r = q := by
  obtain ⟨p', b', v', rfl, rfl, h3, h4⟩ := DcFirst_prefix h ha hb (by omega) he
  have : b' = [] := by
    rw [List.length_append] at hl
    exact List.eq_nil_of_length_eq_zero (by omega)
  subst this
  cases h4
  exact ⟨by simp, by simp, h3⟩

theorem AcFirst_unique {t : Table} (h : t.Legal) {len : Nat} (hlen : 0 < len) {a b : List Int}
    {as bs : List (List Int)} {w v r q : List Bool} (ha : AcFirst t len a as w) (hb : AcFirst t len b bs v)
    (hl : a.length = b.length) (hls : as.length = bs.length) (he : w ++ r = v ++ q) :
    a = b ∧ as = bs ∧ w = v ∧ r = q := by
  induction ha generalizing b bs v r q with
  | done =>
    cases hb with
    | done => exact ⟨rfl, rfl, rfl, he⟩
    | next g1 g2 => simp at hls
    | eob g1 g2 g3 h2 h3 => simp at hl; omega
    | zrl h2 h3 => simp at hl
    | coef g1 g2 g3 g4 h2 h3 => simp at hl
  | next f1 f2 ih =>
    cases hb with
    | done => simp at hls
    | next g1 g2 =>
      obtain ⟨rfl, rfl, rfl, h3⟩ := ih g2 (by omega) (by simpa using hls) he
      exact ⟨rfl, rfl, rfl, h3⟩
    | eob g1 g2 g3 h2 h3 => simp at hl; omega
    | zrl h2 h3 => simp at hl
    | coef g1 g2 g3 g4 h2 h3 => simp at hl
  | zrl h1 ha ih =>
    simp only [List.append_assoc] at he
    cases hb with
    | done => simp at hl
    | next g1 g2 => simp at hl
    | eob g1 g2 g3 h2 h3 =>
      simp only [List.append_assoc] at he
      have := (HasCode_unique h h1 h2 he).1
      omega
    | zrl h2 h3 =>
      simp only [List.append_assoc] at he
      obtain ⟨_, rfl, h4⟩ := HasCode_unique h h1 h2 he
      obtain ⟨rfl, rfl, rfl, h5⟩ := ih h3 (by simpa using hl) hls h4
      exact ⟨rfl, rfl, rfl, h5⟩
    | coef g1 g2 g3 g4 h2 h3 =>
      simp only [List.append_assoc] at he
      have := (HasCode_unique h h1 h2 he).1
      omega
  | coef f1 f2 f3 f4 h1 ha ih =>
    simp only [List.append_assoc] at he
    cases hb with
    | done => simp at hl
    | next g1 g2 => simp at hl
    | eob g1 g2 g3 h2 h3 =>
      simp only [List.append_assoc] at he
      have := (HasCode_unique h h1 h2 he).1
      omega
    | zrl h2 h3 =>
      simp only [List.append_assoc] at he
      have := (HasCode_unique h h1 h2 he).1
      omega
    | coef g1 g2 g3 g4 h2 h3 =>
      simp only [List.append_assoc] at he
      obtain ⟨e1, rfl, h4⟩ := HasCode_unique h h1 h2 he
      rename_i r1 s1 v1 _ _ _ _ r2 s2 v2 _ _
      have e2 : r1 = r2 := by omega
      have e3 : s1 = s2 := by omega
      subst e2; subst e3
      obtain ⟨h5, h6⟩ := List.append_inj h4 (by simp)
      have := bitsMSB_inj f4 g4 h5
      subst this
      obtain ⟨rfl, rfl, rfl, h7⟩ := ih h3 (by simpa using hl) hls h6
      exact ⟨rfl, rfl, rfl, h7⟩
  | eob f1 f2 f3 h1 ha ih =>
    simp only [List.append_assoc] at he
    cases hb with
    | done => simp at hl; omega
    | next g1 g2 => simp at hl; omega
    | zrl h2 h3 =>
      simp only [List.append_assoc] at he
      have := (HasCode_unique h h1 h2 he).1
      omega
    | coef g1 g2 g3 g4 h2 h3 =>
      simp only [List.append_assoc] at he
      have := (HasCode_unique h h1 h2 he).1
      omega
    | eob g1 g2 g3 h2 h3 =>
      simp only [List.append_assoc] at he
      obtain ⟨e1, rfl, h4⟩ := HasCode_unique h h1 h2 he
      rename_i n1 r1 v1 _ _ _ n2 r2 v2 _ _
      have e2 : r1 = r2 := by omega
      subst e2
      obtain ⟨h5, h6⟩ := List.append_inj h4 (by simp)
      have := bitsMSB_inj f3 g3 h5
      subst this
      simp only [List.length_append, List.length_replicate] at hl hls
      obtain ⟨_, rfl, rfl, h7⟩ := ih h3 rfl (by omega) h6
      subst hl
      exact ⟨rfl, rfl, rfl, h7⟩

theorem BandSegment_unique {dc ac : Table} (hd : dc.Legal) (ha : ac.Legal) {ss se : Nat} {a b : List (List Int)}
    {w v r q : List UInt8} (h1 : BandSegment dc ac ss se a w) (h2 : BandSegment dc ac ss se b v)
    (hl : a.length = b.length) (hr : AtMarker r) (hq : AtMarker q) (he : w ++ r = v ++ q) :
    a = b ∧ w = v ∧ r = q := by
  obtain ⟨raw1, bits1, rfl, e1, g1⟩ := h1
  obtain ⟨raw2, bits2, rfl, e2, g2⟩ := h2
  obtain ⟨rfl, rfl⟩ := stuff_unique hr hq he
  rw [e1] at e2
  refine ⟨?_, rfl, rfl⟩
  by_cases h0 : ss = 0
  · rw [if_pos h0] at g1 g2
    obtain ⟨_, x, rfl, k1⟩ := g1
    obtain ⟨_, y, rfl, k2⟩ := g2
    rw [(DcFirst_unique hd k1 k2 (by simpa using hl) e2).1]
  · rw [if_neg h0] at g1 g2
    obtain ⟨_, _, k1⟩ := g1
    obtain ⟨_, _, k2⟩ := g2
    exact (AcFirst_unique ha (by omega) k1 k2 rfl hl e2).2.1

theorem rst_marker (m : Nat) (more : List UInt8) : AtMarker (0xFF :: UInt8.ofNat (0xD0 + m % 8) :: more) := by
  refine Or.inr ⟨_, _, rfl, ?_⟩
  intro h
  have := congrArg UInt8.toNat h
  rw [UInt8.toNat_ofNat', Nat.mod_eq_of_lt (by omega)] at this
  simp at this

theorem BandRestarts_ne_nil {dc ac : Table} {ss se ri m : Nat} {a w} (h : BandRestarts dc ac ss se ri m a w) :
    a ≠ [] := by
  induction h with
  | last _ h _ => exact h
  | more _ _ _ ih => intro h; rw [List.append_eq_nil_iff] at h; exact ih h.2

theorem BandRestarts_unique {dc ac : Table} (hd : dc.Legal) (ha : ac.Legal) {ss se ri m : Nat} {a b : List (List Int)}
    {w v r q : List UInt8} (h1 : BandRestarts dc ac ss se ri m a w) (h2 : BandRestarts dc ac ss se ri m b v)
    (hl : a.length = b.length) (hr : AtMarker r) (hq : AtMarker q) (he : w ++ r = v ++ q) :
    a = b ∧ w = v ∧ r = q := by
  induction h1 generalizing b v r q with
  | last f1 f2 f3 =>
    cases h2 with
    | last g1 g2 g3 => exact BandSegment_unique hd ha f3 g3 hl hr hq he
    | more g1 g2 g3 =>
      have := List.length_pos_iff.mpr (BandRestarts_ne_nil g3)
      rw [List.length_append] at *
      omega
  | more f1 f2 f3 ih =>
    cases h2 with
    | last g1 g2 g3 =>
      have := List.length_pos_iff.mpr (BandRestarts_ne_nil f3)
      rw [List.length_append] at *
      omega
    | more g1 g2 g3 =>
      simp only [List.append_assoc, List.cons_append, List.nil_append] at he
      rw [List.length_append, List.length_append] at hl
      obtain ⟨rfl, rfl, h5⟩ := BandSegment_unique hd ha f2 g2 (by omega) (rst_marker _ _) (rst_marker _ _) he
      simp only [List.cons.injEq, true_and] at h5
      obtain ⟨rfl, rfl, h8⟩ := ih g3 (by omega) hr hq h5
      exact ⟨rfl, rfl, h8⟩

theorem BandScan_unique {dc ac : Table} (hd : dc.Legal) (ha : ac.Legal) {interval : Option Nat} {ss se : Nat}
    {a b : List (List Int)} {w v r q : List UInt8} (h1 : BandScan dc ac interval ss se a w)
    (h2 : BandScan dc ac interval ss se b v) (hl : a.length = b.length) (hr : AtMarker r) (hq : AtMarker q)
    (he : w ++ r = v ++ q) : a = b ∧ w = v ∧ r = q := by
  cases interval with
  | none => exact BandSegment_unique hd ha h1 h2 hl hr hq he
  | some ri => exact BandRestarts_unique hd ha h1 h2 hl hr hq he

theorem nodup_index {l : List Component} (h : (l.map (·.id)).Nodup) {i j : Nat} {a b : Component}
    (hi : l[i]? = some a) (hj : l[j]? = some b) (he : a.id = b.id) : i = j := by
  have h1 : (l.map (·.id))[i]? = some a.id := by rw [List.getElem?_map, hi]; rfl
  have h2 : (l.map (·.id))[j]? = some a.id := by rw [List.getElem?_map, hj, he]; rfl
  have hlt := (List.getElem?_eq_some_iff.mp h1).1
  have hlt2 := (List.getElem?_eq_some_iff.mp h2).1
  rcases Nat.lt_trichotomy i j with hij | hij | hij
  · have := List.pairwise_iff_getElem.mp h i j hlt hlt2 hij
    rw [List.getElem?_eq_getElem hlt] at h1
    rw [List.getElem?_eq_getElem hlt2] at h2
    exact absurd (Option.some.inj (h1.trans h2.symm)) this
  · exact hij
  · have := List.pairwise_iff_getElem.mp h j i hlt2 hlt hij
    rw [List.getElem?_eq_getElem hlt] at h1
    rw [List.getElem?_eq_getElem hlt2] at h2
    exact absurd (Option.some.inj (h2.trans h1.symm)) this

theorem walk_eoi (n : Nat) : walk 0xDA n [0xFF, 0xD9] = none := by
  cases n <;> rfl

/-- The scans of a file determine the bands. -/
theorem Scans_unique {f : Frame} (hf : (f.comps.map (·.id)).Nodup) {segs data a b} (h1 : Scans f segs data a)
    (h2 : Scans f segs data b) : a = b := by
  induction h1 generalizing b with
  | eoi =>
    cases h2 with
    | eoi => rfl
    | scan hw => rw [walk_eoi] at hw; cases hw
  | scan hw hh hc hid hdc hac ld la hl hs he hm hrest ih =>
    cases h2 with
    | eoi => rw [walk_eoi] at hw; cases hw
    | scan hw' hh' hc' hid' hdc' hac' ld' la' hl' hs' he' hm' hrest' =>
      rw [hw] at hw'
      injection hw' with hw'
      injection hw' with e1 e2
      subst e1; subst e2
      rw [hh] at hh'
      simp only [Option.some.injEq, Prod.mk.injEq, List.cons.injEq, true_and, and_true] at hh'
      obtain ⟨rfl, rfl, rfl, rfl⟩ := hh'
      have := nodup_index hf hc hc' (by omega)
      subst this
      rw [hc] at hc'
      injection hc' with hc'
      subst hc'
      rw [hdc] at hdc'
      rw [hac] at hac'
      injection hdc' with hdc'
      injection hac' with hac'
      subst hdc'; subst hac'
      obtain ⟨rfl, rfl, rfl⟩ := BandScan_unique ld la hs hs' (by omega) (Or.inr hm) (Or.inr hm') (he.symm.trans he')
      rw [ih hrest']

theorem ReadsProg_unique {file : List UInt8} {f f' : Frame} {q q' : List (List Nat)} {a b : List BandData}
    (h1 : ReadsProg file f q a) (h2 : ReadsProg file f' q' b) : f = f' ∧ q = q' ∧ a = b := by
  obtain ⟨body, segs, rest, e1, e2, e3, e4, e5, e6⟩ := h1
  obtain ⟨body', segs', rest', g1, g2, g3, g4, g5, g6⟩ := h2
  rw [e1] at g1
  have := List.append_cancel_left g1
  subst this
  rw [e2] at g2
  injection g2 with g2
  injection g2 with i1 i2
  subst i1; subst i2
  rw [e3] at g3
  injection g3 with g3
  subst g3
  rw [e4] at g4
  injection g4 with g4
  exact ⟨rfl, g4, Scans_unique e5 e6 g6⟩

/-! ### What bits can begin with -/

/-- `bits` begin with a coding of the rest `cur` of a band and the bands after it. -/
def Begins (t : Table) (len : Nat) (cur : List Int) (bands : List (List Int)) (bits : List Bool) : Prop :=
  ∃ v q, AcFirst t len cur bands v ∧ bits = v ++ q

theorem Begins.next {t : Table} {len : Nat} {band : List Int} {bands bits} (h : Begins t len [] (band :: bands) bits) :
    Begins t len band bands bits := by
  obtain ⟨v, q, h, rfl⟩ := h
  generalize hx : ([] : List Int) = x at h
  generalize hy : band :: bands = y at h
  cases h with
  | done => cases hy
  | next h1 h2 =>
    injection hy with e1 e2
    subst e1; subst e2
    exact ⟨v, q, h2, rfl⟩
  | zrl h1 h2 => simp at hx
  | coef f1 f2 f3 f4 h1 h2 => simp at hx
  | eob f1 f2 f3 h1 h2 =>
    have := congrArg List.length hx
    simp at this; omega

theorem Begins.zrl {t : Table} (h : t.Legal) {len : Nat} {cur : List Int} {bands word bits} (hc : t.HasCode 0xF0 word)
    (hb : Begins t len (List.replicate 16 0 ++ cur) bands (word ++ bits)) : Begins t len cur bands bits := by
  obtain ⟨v, q, hb, he⟩ := hb
  generalize hx : List.replicate 16 0 ++ cur = x at hb
  cases hb with
  | done => simp at hx
  | next h1 h2 => simp at hx
  | zrl h1 h2 =>
    simp only [List.append_assoc] at he
    obtain ⟨_, _, e⟩ := HasCode_unique h hc h1 he
    have := List.append_cancel_left hx
    subst this
    exact ⟨_, q, h2, e⟩
  | coef f1 f2 f3 f4 h1 h2 =>
    simp only [List.append_assoc] at he
    have := (HasCode_unique h hc h1 he).1
    omega
  | eob f1 f2 f3 h1 h2 =>
    simp only [List.append_assoc] at he
    have := (HasCode_unique h hc h1 he).1
    omega

theorem Begins.coef {t : Table} (h : t.Legal) {len r s v : Nat} {cur : List Int} {bands word bits} (hr : r < 16)
    (hs1 : 1 ≤ s) (hs2 : s ≤ 10) (hv : v < 2 ^ s) (hc : t.HasCode (16 * r + s) word)
    (hb : Begins t len (List.replicate r 0 ++ extend v s :: cur) bands (word ++ (bitsMSB v s ++ bits))) :
    Begins t len cur bands bits := by
  obtain ⟨v', q, hb, he⟩ := hb
  generalize hx : List.replicate r 0 ++ extend v s :: cur = x at hb
  cases hb with
  | done => simp at hx
  | next h1 h2 => simp at hx
  | zrl h1 h2 =>
    simp only [List.append_assoc] at he
    have := (HasCode_unique h hc h1 he).1
    omega
  | coef f1 f2 f3 f4 h1 h2 =>
    rename_i r2 s2 v2 _ _ _
    simp only [List.append_assoc] at he
    obtain ⟨e1, _, e⟩ := HasCode_unique h hc h1 he
    have e2 : r = r2 := by omega
    have e3 : s = s2 := by omega
    subst e2; subst e3
    obtain ⟨h5, h6⟩ := List.append_inj e (by simp)
    have := bitsMSB_inj hv f4 h5
    subst this
    have := List.append_cancel_left hx
    injection this with _ this
    subst this
    exact ⟨_, q, h2, h6⟩
  | eob f1 f2 f3 h1 h2 =>
    simp only [List.append_assoc] at he
    have := (HasCode_unique h hc h1 he).1
    omega

theorem Begins.eob {t : Table} (h : t.Legal) {len n r v : Nat} {bands word bits} (hn : 0 < n) (hr : r < 15)
    (hv : v < 2 ^ r) (hc : t.HasCode (16 * r) word)
    (hb : Begins t len (List.replicate n 0) (List.replicate (2 ^ r + v - 1) (List.replicate len 0) ++ bands)
      (word ++ (bitsMSB v r ++ bits))) : Begins t len [] bands bits := by
  obtain ⟨v', q, hb, he⟩ := hb
  generalize hx : List.replicate n (0 : Int) = x at hb
  generalize hy : List.replicate (2 ^ r + v - 1) (List.replicate len (0 : Int)) ++ bands = y at hb
  cases hb with
  | done =>
    have := congrArg List.length hx
    simp at this; omega
  | next h1 h2 =>
    have := congrArg List.length hx
    simp at this; omega
  | zrl h1 h2 =>
    simp only [List.append_assoc] at he
    have := (HasCode_unique h hc h1 he).1
    omega
  | coef f1 f2 f3 f4 h1 h2 =>
    simp only [List.append_assoc] at he
    have := (HasCode_unique h hc h1 he).1
    omega
  | eob f1 f2 f3 h1 h2 =>
    rename_i n2 r2 v2 _ _ _
    simp only [List.append_assoc] at he
    obtain ⟨e1, _, e⟩ := HasCode_unique h hc h1 he
    have e2 : r = r2 := by omega
    subst e2
    obtain ⟨h5, h6⟩ := List.append_inj e (by simp)
    have := bitsMSB_inj hv f3 h5
    subst this
    have := List.append_cancel_left hy
    subst this
    exact ⟨_, q, h2, h6⟩

/-- If two zero bits are the code for a coefficient, and there are no codes for ends of bands but the plain
one, then zeros cannot be coded beginning with two zero bits. -/
theorem not_begins {t : Table} (h : t.Legal) (h1 : t.HasCode 0x01 [false, false]) {len n : Nat} (hn : 0 < n)
    {bands : List (List Int)} {bits : List Bool} : ¬ Begins t len (List.replicate n 0) bands (false :: false :: bits) := by
  rintro ⟨v, q, hb, he⟩
  have he' : [false, false] ++ bits = v ++ q := he
  generalize hx : List.replicate n (0 : Int) = x at hb
  cases hb with
  | done =>
    have := congrArg List.length hx
    simp at this; omega
  | next g1 g2 =>
    have := congrArg List.length hx
    simp at this; omega
  | zrl g1 g2 =>
    simp only [List.append_assoc] at he'
    have := (HasCode_unique h h1 g1 he').1
    omega
  | coef f1 f2 f3 f4 g1 g2 =>
    rename_i r s v _ _ _
    have hz : extend v s = 0 := by
      have : extend v s ∈ List.replicate n (0 : Int) := by rw [hx]; simp
      exact (List.mem_replicate.mp this).2
    have hpow : (2:Nat) ^ s = 2 * 2 ^ (s - 1) := by rw [← Nat.pow_succ']; congr 1; omega
    have hpos := Nat.two_pow_pos (s - 1)
    unfold extend at hz
    have hcast : ((2:Int) ^ s) = ((2 ^ s : Nat) : Int) := by norm_cast
    rw [hcast] at hz
    split at hz <;> omega
  | eob f1 f2 f3 g1 g2 =>
    simp only [List.append_assoc] at he'
    have := (HasCode_unique h h1 g1 he').1
    omega

end Spec.T81
