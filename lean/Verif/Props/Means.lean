import Verif.Props.Cuts
import Verif.Proof.QuantizeNearest
/-
C120: the entries of a median-cut palette are means of the colours.
-/
namespace Pixo.Props.Means
open Pixo Pixo.Quantize Spec.Colour
open Pixo.Palette (Rgba key unkey unkey_key sortBy sortKeys sortBy_perm mem_dedup)
open Pixo.Props.MedianCut
open Pixo.Props.QuantizeWork (get_some)

/-! ### Means -/

theorem weighted_ge {lo ch : Nat} : ∀ (l : List ColorCount), (∀ c ∈ l, lo ≤ channel c.rgba ch) → lo * weight l ≤ weighted l ch
  | [], _ => by simp [weight, weighted]
  | c :: l, h => by
    have h1 := weighted_ge l fun d hd => h d (by simp [hd])
    have h2 : lo * c.count ≤ channel c.rgba ch * c.count := Nat.mul_le_mul_right _ (h c (by simp))
    rw [weight_cons, Nat.mul_add]
    simp only [weighted, List.map_cons, List.sum_cons] at *
    omega

theorem weighted_le {hi ch : Nat} : ∀ (l : List ColorCount), (∀ c ∈ l, channel c.rgba ch ≤ hi) → weighted l ch ≤ hi * weight l
  | [], _ => by simp [weight, weighted]
  | c :: l, h => by
    have h1 := weighted_le l fun d hd => h d (by simp [hd])
    have h2 : channel c.rgba ch * c.count ≤ hi * c.count := Nat.mul_le_mul_right _ (h c (by simp))
    rw [weight_cons, Nat.mul_add]
    simp only [weighted, List.map_cons, List.sum_cons] at *
    omega

theorem mean_channel {l : List ColorCount} (hw : 0 < weight l) {ch : Nat} (hc : ch < 4) :
    channel (mean l) ch = weighted l ch / weight l := by
  have key : ∀ ch, (UInt8.ofNat (weighted l ch / weight l)).toNat = weighted l ch / weight l := by
    intro ch
    rw [UInt8.toNat_ofNat']
    refine Nat.mod_eq_of_lt ?_
    have h1 := weighted_le (hi := 255) (ch := ch) l fun c _ => by have := channel_lt c.rgba ch; omega
    have h2 : weighted l ch / weight l ≤ 255 * weight l / weight l := Nat.div_le_div_right h1
    rw [Nat.mul_div_cancel _ hw] at h2
    omega
  match ch, hc with
  | 0, _ => exact key 0
  | 1, _ => exact key 1
  | 2, _ => exact key 2
  | 3, _ => exact key 3

/-- `p` is the mean of the colours of `l`, every one taken as often as it was counted, rounded down. -/
def IsMean (l : List ColorCount) (p : Rgba) : Prop :=
  ∀ f ∈ [fun c : Rgba => c.1.toNat, fun c => c.2.1.toNat, fun c => c.2.2.1.toNat, fun c => c.2.2.2.toNat],
    f p * (l.map fun c => c.count).sum ≤ (l.map fun c => f c.rgba * c.count).sum ∧
      (l.map fun c => f c.rgba * c.count).sum < (f p + 1) * (l.map fun c => c.count).sum

theorem mean_isMean {l : List ColorCount} (hw : 0 < weight l) : IsMean l (mean l) := by
  have key : ∀ ch, ch < 4 → channel (mean l) ch * weight l ≤ weighted l ch ∧ weighted l ch < (channel (mean l) ch + 1) * weight l := by
    intro ch hc
    rw [mean_channel hw hc]
    exact ⟨Nat.div_mul_le_self _ _, by rw [Nat.mul_comm]; exact Nat.lt_mul_div_succ _ hw⟩
  intro f hf
  simp only [List.mem_cons, List.not_mem_nil, or_false] at hf
  rcases hf with rfl | rfl | rfl | rfl
  · exact key 0 (by decide)
  · exact key 1 (by decide)
  · exact key 2 (by decide)
  · exact key 3 (by decide)

/-! ### One iteration -/

theorem nearest_is (c : Rgba) {ps : List Rgba} (hne : ps ≠ []) : IsNearest (Png.num c) (ps.map Png.num) (nearest c ps) := by
  obtain ⟨p, a, b, d⟩ := nearestLoop_spec c ps ps [] 0 (2 ^ 32 - 1) rfl (fun _ => ⟨rfl, rfl⟩) (fun h => absurd rfl h) hne
  rw [List.length_nil] at a d
  unfold nearest
  refine ⟨Png.num p, by rw [List.getElem?_map, a]; rfl, fun q hq => ?_, fun j q hj hq => ?_⟩
  · obtain ⟨q', hq', rfl⟩ := List.mem_map.mp hq
    rw [← distance_eq, ← distance_eq]
    exact b q' hq'
  · rw [List.getElem?_map] at hq
    obtain ⟨q', hq', rfl⟩ := Option.map_eq_some_iff.mp hq
    rw [← distance_eq, ← distance_eq]
    exact d j q' hj hq'

theorem nearest_unique {c : Spec.Png.Rgba} {ps : List Spec.Png.Rgba} {i j : Nat} (hi : IsNearest c ps i) (hj : IsNearest c ps j) : i = j := by
  obtain ⟨p, p1, p2, p3⟩ := hi
  obtain ⟨q, q1, q2, q3⟩ := hj
  have a := p2 q (List.mem_of_getElem? q1)
  have b := q2 p (List.mem_of_getElem? p1)
  rcases Nat.lt_trichotomy i j with h | h | h
  · have := q3 i p h p1
    omega
  · exact h
  · have := p3 j q h q1
    omega

/-- One iteration of k-means, from the palette `old` to `new`: every entry becomes the mean of the
colours to which it is the nearest, and stays if there are none. -/
def KMeans (old new : List Rgba) (colors : List ColorCount) : Prop :=
  new.length = old.length ∧ ∀ i p q, old[i]? = some p → new[i]? = some q →
    ∃ own : ColorCount → Bool, (∀ c, own c = true ↔ IsNearest (Png.num c.rgba) (old.map Png.num) i) ∧
      ((∃ c ∈ colors, own c = true ∧ 0 < c.count) → IsMean (colors.filter own) q) ∧
      ((∀ c ∈ colors, own c = true → c.count = 0) → q = p)

theorem weight_pos : ∀ {l : List ColorCount}, (∃ c ∈ l, 0 < c.count) → 0 < weight l
  | [], h => by simp at h
  | d :: l, ⟨c, hc, h⟩ => by
    rw [weight_cons]
    rcases List.mem_cons.1 hc with rfl | hc
    · omega
    · have := weight_pos (l := l) ⟨c, hc, h⟩
      omega

theorem weight_zero : ∀ {l : List ColorCount}, (∀ c ∈ l, c.count = 0) → weight l = 0
  | [], _ => rfl
  | c :: l, h => by
    rw [weight_cons, h c (by simp), weight_zero fun d hd => h d (by simp [hd])]

theorem refineOnce_kmeans {old : List Rgba} (hne : old ≠ []) (colors : List ColorCount) : KMeans old (refineOnce old colors) colors := by
  refine ⟨refineOnce_length _ _, fun i p q hp hq => ?_⟩
  refine ⟨fun c => decide (nearest c.rgba old = i), fun c => ?_, ?_, ?_⟩
  · rw [decide_eq_true_iff]
    constructor
    · rintro rfl
      exact nearest_is _ hne
    · exact fun h => nearest_unique (nearest_is _ hne) h
  all_goals
    unfold refineOnce at hq
    simp only [List.getElem?_map, List.getElem?_zipIdx, hp, Option.map_some, Nat.zero_add, Option.some.injEq] at hq
  · rintro ⟨c, hc, ho, h0⟩
    have := weight_pos (l := colors.filter fun c => decide (nearest c.rgba old = i)) ⟨c, List.mem_filter.2 ⟨hc, ho⟩, h0⟩
    rw [if_pos this] at hq
    rw [← hq]
    exact mean_isMean this
  · intro h
    have := weight_zero (l := colors.filter fun c => decide (nearest c.rgba old = i)) fun c hc => h c (List.mem_filter.1 hc).1 (List.mem_filter.1 hc).2
    rw [if_neg (by omega)] at hq
    exact hq.symm

/-! ### The boxes -/

theorem cutLoop_from {m : Nat} {colors : List ColorCount} : ∀ (fuel : Nat) (bs : List (List ColorCount)) {r : List (List ColorCount)},
    cutLoop m fuel bs = .ok r → (bs ≠ [] ∧ (∀ b ∈ bs, b ≠ []) ∧ bs.flatten.Perm colors) → r ≠ [] ∧ (∀ b ∈ r, b ≠ []) ∧ r.flatten.Perm colors
  | 0, _, _, h, _ => by cases h
  | fuel + 1, bs, r, h, hg => by
    rw [cutLoop] at h
    by_cases hm : bs.length < m
    · rw [if_pos hm] at h
      cases hw : widest bs 0 none with
      | error e => rw [hw] at h; cases h
      | ok w =>
        rw [hw, ok_bind] at h
        cases w with
        | none => cases h
        | some w =>
          obtain ⟨j, s⟩ := w
          dsimp only at h
          cases hb : getChecked bs j with
          | error e => rw [hb] at h; cases h
          | ok b =>
            rw [hb, ok_bind] at h
            have hb := get_some hb
            by_cases h2 : b.length > 1
            · rw [if_pos h2] at h
              cases hs : split b with
              | error e => rw [hs] at h; cases h
              | ok q =>
                obtain ⟨l, r'⟩ := q
                rw [hs, ok_bind] at h
                obtain ⟨p1, p2, p3⟩ := split_parts h2 hs
                refine cutLoop_from fuel (pushBox (pushBox (bs.eraseIdx j) l) r') h ?_
                unfold pushBox
                rw [if_neg (by simpa using p2), if_neg (by simpa using p1)]
                refine ⟨by simp, fun c hc => ?_, ?_⟩
                · rw [List.mem_append, List.mem_append, List.mem_singleton, List.mem_singleton] at hc
                  rcases hc with (hc | rfl) | rfl
                  · exact hg.2.1 c (List.mem_of_mem_eraseIdx hc)
                  · exact p1
                  · exact p2
                · have he : (b :: bs.eraseIdx j).Perm bs := by
                    obtain ⟨hj, rfl⟩ := List.getElem?_eq_some_iff.1 hb
                    rw [List.eraseIdx_eq_take_drop_succ]
                    conv => rhs; rw [← List.take_append_drop j bs, List.drop_eq_getElem_cons hj]
                    exact List.perm_middle.symm
                  refine List.Perm.trans ?_ hg.2.2
                  refine List.Perm.trans ?_ he.flatten
                  rw [List.append_assoc, List.flatten_append, List.flatten_cons]
                  refine List.perm_append_comm.trans ?_
                  refine List.Perm.append_right _ ?_
                  simpa using p3
            · rw [if_neg h2] at h
              cases h
              exact hg
    · rw [if_neg hm] at h
      cases h
      exact hg

/-- C120: the palette comes by two iterations of k-means from the means of boxes of colours, and
every colour is in one box. -/
theorem C120 {colors : List ColorCount} (hne : colors ≠ []) (hpos : ∀ c ∈ colors, 0 < c.count) {m : Nat} {p : List Rgba}
    (h : medianCut colors m = .ok p) :
    ∃ (boxes : List (List ColorCount)) (first second : List Rgba), (∀ b ∈ boxes, b ≠ []) ∧ boxes.flatten.Perm colors ∧
      first.length = boxes.length ∧ (∀ (i : Nat) b q, boxes[i]? = some b → first[i]? = some q → IsMean b q) ∧
      KMeans first second colors ∧ KMeans second p colors := by
  unfold medianCut at h
  rw [if_neg (by simpa using hne)] at h
  cases hc : cutLoop m (m + 1) [colors] with
  | error e => rw [hc] at h; cases h
  | ok bs =>
    rw [hc, ok_bind] at h
    cases h
    obtain ⟨b1, b2, b3⟩ := cutLoop_from (colors := colors) _ _ hc ⟨by simp, fun b hb => by rw [List.mem_singleton] at hb; subst hb; exact hne, by simp⟩
    have hf : bs.map paletteEntry ≠ [] := by simpa using b1
    have hs : refineOnce (bs.map paletteEntry) colors ≠ [] := fun e => by
      have := refineOnce_length (bs.map paletteEntry) colors
      rw [e] at this
      exact hf (List.eq_nil_of_length_eq_zero this.symm)
    refine ⟨bs, bs.map paletteEntry, refineOnce (bs.map paletteEntry) colors, b2, b3, by simp, fun i b q hb hq => ?_,
      refineOnce_kmeans hf colors, ?_⟩
    · rw [List.getElem?_map, hb, Option.map_some, Option.some.injEq] at hq
      have hmem := List.mem_of_getElem? hb
      obtain ⟨c, hc⟩ := List.exists_mem_of_ne_nil b (b2 b hmem)
      have hw : 0 < weight b := weight_pos ⟨c, hc, hpos c (b3.mem_iff.1 (List.mem_flatten.2 ⟨b, hmem, hc⟩))⟩
      rw [← hq, paletteEntry, if_neg (by omega)]
      exact mean_isMean hw
    · unfold refine
      rw [if_neg (by simp; exact ⟨by simpa using hf, hne⟩)]
      exact refineOnce_kmeans hs colors

/-! ### Bounds -/

theorem isMean_between {l : List ColorCount} {p : Rgba} (h : IsMean l p) {f : Rgba → Nat}
    (hf : f ∈ [fun c : Rgba => c.1.toNat, fun c => c.2.1.toNat, fun c => c.2.2.1.toNat, fun c => c.2.2.2.toNat]) {lo hi : Nat}
    (hl : ∀ c ∈ l, lo ≤ f c.rgba ∧ f c.rgba ≤ hi) : lo ≤ f p ∧ f p ≤ hi := by
  obtain ⟨h1, h2⟩ := h f hf
  have key : ∀ l : List ColorCount, (∀ c ∈ l, lo ≤ f c.rgba ∧ f c.rgba ≤ hi) →
      lo * (l.map fun c => c.count).sum ≤ (l.map fun c => f c.rgba * c.count).sum ∧
        (l.map fun c => f c.rgba * c.count).sum ≤ hi * (l.map fun c => c.count).sum := by
    intro l
    induction l with
    | nil => simp
    | cons c l ih =>
      intro hl
      obtain ⟨i1, i2⟩ := ih fun d hd => hl d (by simp [hd])
      have h3 := Nat.mul_le_mul_right c.count (hl c (by simp)).1
      have h4 := Nat.mul_le_mul_right c.count (hl c (by simp)).2
      simp only [List.map_cons, List.sum_cons, Nat.mul_add]
      omega
  obtain ⟨k1, k2⟩ := key l hl
  constructor
  · have := Nat.lt_of_mul_lt_mul_right (Nat.lt_of_le_of_lt k1 h2)
    omega
  · have hp : 0 < (l.map fun c => c.count).sum := by
      rcases Nat.eq_zero_or_pos (l.map fun c => c.count).sum with h0 | h0
      · rw [h0] at h2; omega
      · exact h0
    exact Nat.le_of_mul_le_mul_right (Nat.le_trans h1 k2) hp

theorem isMean_same {l : List ColorCount} {p : Rgba} (h : IsMean l p) {f g : Rgba → Nat}
    (hf : f ∈ [fun c : Rgba => c.1.toNat, fun c => c.2.1.toNat, fun c => c.2.2.1.toNat, fun c => c.2.2.2.toNat])
    (hg : g ∈ [fun c : Rgba => c.1.toNat, fun c => c.2.1.toNat, fun c => c.2.2.1.toNat, fun c => c.2.2.2.toNat])
    (hl : ∀ c ∈ l, f c.rgba = g c.rgba) : f p = g p := by
  obtain ⟨h1, h2⟩ := h f hf
  obtain ⟨h3, h4⟩ := h g hg
  have e : (l.map fun c => f c.rgba * c.count) = l.map fun c => g c.rgba * c.count := List.map_congr_left fun c hc => by rw [hl c hc]
  rw [e] at h1 h2
  have a := Nat.lt_of_mul_lt_mul_right (Nat.lt_of_le_of_lt h1 h4)
  have b := Nat.lt_of_mul_lt_mul_right (Nat.lt_of_le_of_lt h3 h2)
  omega

/-- What is true of all colours and kept by means is true of the palette. -/
theorem kept {P : Rgba → Prop} (hP : ∀ (l : List ColorCount) p, (∀ c ∈ l, P c.rgba) → IsMean l p → P p) {colors : List ColorCount} (hne : colors ≠ [])
    (hpos : ∀ c ∈ colors, 0 < c.count) (hall : ∀ c ∈ colors, P c.rgba) {m : Nat} {p : List Rgba} (h : medianCut colors m = .ok p) :
    ∀ q ∈ p, P q := by
  obtain ⟨boxes, first, second, -, b2, b3, b4, k1, k2⟩ := C120 hne hpos h
  have step : ∀ {old new : List Rgba}, KMeans old new colors → (∀ q ∈ old, P q) → ∀ q ∈ new, P q := by
    intro old new ⟨hl, hk⟩ ho q hq
    obtain ⟨i, hi, rfl⟩ := List.getElem_of_mem hq
    obtain ⟨own, -, o2, o3⟩ := hk i old[i] new[i] (List.getElem?_eq_getElem (by omega)) (List.getElem?_eq_getElem hi)
    by_cases hc : ∃ c ∈ colors, own c = true ∧ 0 < c.count
    · exact hP _ _ (fun c hc => hall c (List.mem_filter.1 hc).1) (o2 hc)
    · rw [o3 fun c h1 h2 => Nat.eq_zero_of_not_pos fun h3 => hc ⟨c, h1, h2, h3⟩]
      exact ho _ (List.getElem_mem _)
  refine step k2 (step k1 fun q hq => ?_)
  obtain ⟨i, hi, rfl⟩ := List.getElem_of_mem hq
  have hb : boxes[i]? = some (boxes[i]'(by omega)) := List.getElem?_eq_getElem (by omega)
  refine hP _ _ (fun c hc => hall c ?_) (b4 i _ _ hb (List.getElem?_eq_getElem hi))
  exact b2.mem_iff.1 (List.mem_flatten.2 ⟨_, List.mem_of_getElem? hb, hc⟩)

/-! ### Images -/

theorem histLoop_pos {s : Nat} (hs : 0 < s % 2 ^ 32) : ∀ (ks : List Nat) (prev c : Nat), 0 < c → ∀ x ∈ histLoop s ks prev c, 0 < x.count
  | [], prev, c, hc, x, hx => by
    rw [histLoop, List.mem_singleton] at hx
    subst hx
    exact hc
  | k :: ks, prev, c, hc, x, hx => by
    rw [histLoop] at hx
    split at hx
    · exact histLoop_pos hs ks prev _ (by unfold satAdd; omega) x hx
    · rcases List.mem_cons.1 hx with rfl | hx
      · exact hc
      · exact histLoop_pos hs ks k _ hs x hx

theorem truncate_mem (env : Env) {l : List ColorCount} {c : ColorCount} (h : c ∈ truncateHist env l) : c ∈ l := by
  unfold truncateHist at h
  split at h
  · obtain ⟨x, hx, rfl⟩ := List.mem_map.1 (List.mem_of_mem_take h)
    have := (sortBy_perm _ _).mem_iff.1 hx
    have h2 := List.mem_map_of_mem (f := Prod.fst) this
    rwa [List.zipIdx_map_fst] at h2
  · exact h

/-- What is true of all pixels and kept by means is true of the palette of the image. -/
theorem image_kept {P : Rgba → Prop} (hP : ∀ (l : List ColorCount) p, (∀ c ∈ l, P c.rgba) → IsMean l p → P p) (env : Env) {ct : ColorType}
    (hct : ct = .rgb ∨ ct = .rgba) (data : List UInt8) (n : Nat) (hl : data.length = n * ct.bytesPerPixel) (h1 : 1 ≤ n) (hn : n < 2 ^ 32)
    (hall : ∀ k, k < n → P (pixelAt data ct.bytesPerPixel k)) {m : Nat} (d : Bool) {q : List Rgba × List UInt8}
    (h : quantizeImage env data ct m d = .ok q) : ∀ c ∈ q.1, P c := by
  have hb : ct.bytesPerPixel = 3 ∨ ct.bytesPerPixel = 4 := bpp_colour hct
  unfold quantizeImage at h
  dsimp only at h
  generalize ct.bytesPerPixel = bpp at *
  rw [if_neg (by omega), hl, Nat.mul_div_cancel _ (by omega : 0 < bpp)] at h
  have hs := sampleLoop_ok hb hl (stride := max (n / 50000) 1) (by omega) (n + 1) 0 (by omega) (by omega)
  rw [Nat.zero_mul] at hs
  obtain ⟨keys, ek, hk⟩ := hs.out
  rw [ek, ok_bind, pixels_ok hb hl, ok_bind] at h
  have hstride : 0 < max (n / 50000) 1 % 2 ^ 32 := by rw [Nat.mod_eq_of_lt (by omega)]; omega
  have hperm : (sortKeys keys).Perm keys := sortBy_perm _ _
  have hknil : sortKeys keys ≠ [] := fun e => hk.some h1 (by
    have := hperm.length_eq; rw [e] at this; exact List.eq_nil_of_length_eq_zero this.symm)
  have hcol : ∀ c ∈ histogram (max (n / 50000) 1) (sortKeys keys), P c.rgba := by
    intro c hc
    have hc := List.mem_map_of_mem (f := ColorCount.rgba) hc
    rw [histogram_colours] at hc
    obtain ⟨k, hk', e⟩ := List.mem_map.1 hc
    obtain ⟨j, hj, rfl⟩ := hk.from' k (hperm.mem_iff.mp ((mem_dedup _).mp hk'))
    rw [← e, unkey_key]
    exact hall j hj
  have hcnt : ∀ c ∈ histogram (max (n / 50000) 1) (sortKeys keys), 0 < c.count := by
    obtain ⟨k, ks, e⟩ := List.exists_cons_of_ne_nil hknil
    rw [e]
    exact histLoop_pos hstride ks k _ hstride
  generalize histogram (max (n / 50000) 1) (sortKeys keys) = hist at *
  have hcol : ∀ c ∈ truncateHist env hist, P c.rgba := fun c hc => hcol c (truncate_mem env hc)
  have hcnt : ∀ c ∈ truncateHist env hist, 0 < c.count := fun c hc => hcnt c (truncate_mem env hc)
  generalize truncateHist env hist = colors at *
  unfold quantizeWith at h
  by_cases hc : colors.length ≤ m
  · rw [if_pos hc] at h
    cases h
    intro c hc
    obtain ⟨x, hx, rfl⟩ := List.mem_map.1 hc
    exact hcol x hx
  · rw [if_neg hc] at h
    cases hp : medianCut colors m with
    | error e => rw [hp] at h; cases h
    | ok p =>
      rw [hp, ok_bind] at h
      have : q.1 = p := by
        cases d with
        | false => cases h; rfl
        | true =>
          rw [if_pos rfl] at h
          cases hd : ditherLoop env p ((List.range n).map (pixelAt data bpp)) 0 with
          | error e => rw [hd] at h; cases h
          | ok idx => rw [hd] at h; cases h; rfl
      rw [this]
      exact kept hP (fun e => by rw [e, List.length_nil] at hc; omega) hcnt hcol hp

/-- C120: in every channel the palette keeps to the range of the pixels. -/
theorem C120_range (env : Env) {ct : ColorType} (hct : ct = .rgb ∨ ct = .rgba) (data : List UInt8) (n : Nat)
    (hl : data.length = n * ct.bytesPerPixel) (h1 : 1 ≤ n) (hn : n < 2 ^ 32) {m : Nat} (d : Bool) {q : List Rgba × List UInt8}
    (h : quantizeImage env data ct m d = .ok q) (f : Rgba → Nat)
    (hf : f ∈ [fun c : Rgba => c.1.toNat, fun c => c.2.1.toNat, fun c => c.2.2.1.toNat, fun c => c.2.2.2.toNat]) (lo hi : Nat)
    (hall : ∀ k, k < n → lo ≤ f (pixelAt data ct.bytesPerPixel k) ∧ f (pixelAt data ct.bytesPerPixel k) ≤ hi) :
    ∀ c ∈ q.1, lo ≤ f c ∧ f c ≤ hi :=
  image_kept (P := fun c => lo ≤ f c ∧ f c ≤ hi) (fun _ _ hl hm => isMean_between hm hf hl) env hct data n hl h1 hn hall d h

/-- C120: an opaque image gets an opaque palette. -/
theorem C120_opaque (env : Env) {ct : ColorType} (hct : ct = .rgb ∨ ct = .rgba) (data : List UInt8) (n : Nat)
    (hl : data.length = n * ct.bytesPerPixel) (h1 : 1 ≤ n) (hn : n < 2 ^ 32) {m : Nat} (d : Bool) {q : List Rgba × List UInt8}
    (h : quantizeImage env data ct m d = .ok q) (hall : ∀ k, k < n → (Spec.Png.pixelOf ct.bytesPerPixel data k).a = 255) :
    ∀ c ∈ q.1, c.2.2.2 = 255 := by
  intro c hc
  have := C120_range env hct data n hl h1 hn d h (fun c => c.2.2.2.toNat) (by simp) 255 255 (fun k hk => by
    have h := hall k hk
    rw [← Png.num_pixelAt hct k] at h
    exact ⟨Nat.le_of_eq h.symm, Nat.le_of_eq h⟩) c hc
  exact UInt8.toNat_inj.1 (Nat.le_antisymm this.2 this.1)

/-- C120: a grey image gets a grey palette. -/
theorem C120_grey (env : Env) {ct : ColorType} (hct : ct = .rgb ∨ ct = .rgba) (data : List UInt8) (n : Nat)
    (hl : data.length = n * ct.bytesPerPixel) (h1 : 1 ≤ n) (hn : n < 2 ^ 32) {m : Nat} (d : Bool) {q : List Rgba × List UInt8}
    (h : quantizeImage env data ct m d = .ok q)
    (hall : ∀ k, k < n → (Spec.Png.pixelOf ct.bytesPerPixel data k).r = (Spec.Png.pixelOf ct.bytesPerPixel data k).g ∧
      (Spec.Png.pixelOf ct.bytesPerPixel data k).g = (Spec.Png.pixelOf ct.bytesPerPixel data k).b) :
    ∀ c ∈ q.1, c.1 = c.2.1 ∧ c.2.1 = c.2.2.1 := by
  refine image_kept (P := fun c => c.1 = c.2.1 ∧ c.2.1 = c.2.2.1) (fun l p hl hm => ⟨?_, ?_⟩) env hct data n hl h1 hn (fun k hk => ?_) d h
  rotate_right
  · have h := hall k hk
    rw [← Png.num_pixelAt hct k] at h
    exact ⟨UInt8.toNat_inj.1 h.1, UInt8.toNat_inj.1 h.2⟩
  · exact UInt8.toNat_inj.1 (isMean_same hm (f := fun c => c.1.toNat) (g := fun c => c.2.1.toNat) (by simp) (by simp)
      fun c hc => by rw [(hl c hc).1])
  · exact UInt8.toNat_inj.1 (isMean_same hm (f := fun c => c.2.1.toNat) (g := fun c => c.2.2.1.toNat) (by simp) (by simp)
      fun c hc => by rw [(hl c hc).2])

/-- A mean with weights. -/
example : medianCut [⟨(0, 10, 0, 255), 1⟩, ⟨(4, 0, 0, 255), 3⟩, ⟨(200, 200, 200, 255), 2⟩] 2 = .ok [(3, 2, 0, 255), (200, 200, 200, 255)] := by
  decide +kernel

example : IsMean [⟨(0, 10, 0, 255), 1⟩, ⟨(4, 0, 0, 255), 3⟩] (3, 2, 0, 255) := by
  intro f hf
  simp only [List.mem_cons, List.not_mem_nil, or_false] at hf
  rcases hf with rfl | rfl | rfl | rfl <;> decide

/-- A grey image with four levels and a palette of two. -/
example : (quantizeImage ⟨id, fun _ => (0, 0, 0)⟩ [0, 0, 0, 9, 9, 9, 200, 200, 200, 220, 220, 220] .rgb 2 false).map Prod.fst =
    .ok [(4, 4, 4, 255), (210, 210, 210, 255)] := by decide +kernel

end Pixo.Props.Means
