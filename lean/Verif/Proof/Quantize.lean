import Verif.Model.Quantize
import Verif.Proof.PaletteSort
import Verif.Proof.PngStored
/-
The quantizer yields a palette within its limit and an index into it for every pixel, and
reproduces images whose colours fit.
-/
namespace Pixo.Quantize
open Pixo.Palette (Rgba key unkey key_inj unkey_key sortBy sortKeys sortBy_perm dedup mem_dedup)
open Pixo.PngDecode (chunksExact)
open Pixo.MatchLength (slice slice_ok)
open Pixo.Png (take_eq_range getD_drop getD_take chunksExact_eq)

/-! ### Pixels -/

/-- Pixel `i` of an image with `bpp` bytes per pixel. -/
def pixelAt (data : List UInt8) (bpp i : Nat) : Rgba :=
  (data.getD (i * bpp) 0, data.getD (i * bpp + 1) 0, data.getD (i * bpp + 2) 0,
    if bpp = 3 then 255 else data.getD (i * bpp + 3) 0)

theorem pixel_ok {data : List UInt8} {bpp : Nat} (hb : bpp = 3 ∨ bpp = 4) (i : Nat) :
    pixel ((List.range bpp).map fun j => data.getD (i * bpp + j) 0) = .ok (pixelAt data bpp i) := by
  rcases hb with rfl | rfl
  · rfl
  · rfl

theorem pixels_ok {data : List UInt8} {bpp n : Nat} (hb : bpp = 3 ∨ bpp = 4) (hl : data.length = n * bpp) :
    (chunksExact bpp data).mapM pixel = .ok ((List.range n).map (pixelAt data bpp)) := by
  rw [chunksExact_eq (by omega) hl, List.mapM_map]
  exact Palette.mapM_ok _ fun i _ => pixel_ok hb i

theorem mul_lt {a b n : Nat} (hb : 0 < b) : a * b + b ≤ n * b ↔ a < n := by
  rw [← Nat.succ_mul]
  exact ⟨fun h => Nat.le_of_mul_le_mul_right h hb, fun h => Nat.mul_le_mul_right b h⟩

/-- What the sampling loop collects from pixel `j` on. -/
structure Sampled (data : List UInt8) (bpp n stride j : Nat) (keys : List Nat) : Prop where
  from' : ∀ k ∈ keys, ∃ i, i < n ∧ k = key (pixelAt data bpp i)
  none : n ≤ j → keys = []
  some : j < n → keys ≠ []
  count : j < n → keys.length * stride ≤ n - j + stride
  all : stride = 1 → keys = (List.range' j (n - j)).map fun i => key (pixelAt data bpp i)

theorem sampleLoop_ok {data : List UInt8} {bpp n stride : Nat} (hb : bpp = 3 ∨ bpp = 4) (hl : data.length = n * bpp)
    (hs : 1 ≤ stride) : ∀ (fuel j : Nat), 0 < fuel → n < j + fuel →
    Oks (sampleLoop data bpp stride fuel (j * bpp)) (Sampled data bpp n stride j) := by
  have hb0 : 0 < bpp := by omega
  intro fuel
  induction fuel with
  | zero => intro j h; exact absurd h (by decide)
  | succ fuel ih =>
    intro j _ hf
    rw [sampleLoop]
    by_cases h : j < n
    · rw [if_pos (by rw [hl]; exact (mul_lt hb0).mpr h), slice_ok (by rw [hl]; exact (mul_lt hb0).mpr h), ok_bind]
      have e : (data.drop (j * bpp)).take bpp = (List.range bpp).map fun i => data.getD (j * bpp + i) 0 := by
        rw [take_eq_range (by rw [List.length_drop, hl]; have := (mul_lt (a := j) (n := n) hb0).mpr h; omega)]
        simp only [getD_drop]
      rw [e, pixel_ok hb, ok_bind]
      have hj : j * bpp + stride * bpp = (j + stride) * bpp := by rw [Nat.add_mul]
      rw [hj]
      refine Oks.bind (ih (j + stride) (by omega) (by omega)) fun rest hr => Oks.pure ?_
      refine ⟨?_, fun h' => absurd h (by omega), fun _ => by simp, fun _ => ?_, fun h1 => ?_⟩
      · intro k hk
        rcases List.mem_cons.mp hk with rfl | hk
        · exact ⟨j, h, rfl⟩
        · exact hr.from' k hk
      · rw [List.length_cons, Nat.succ_mul]
        by_cases hn : j + stride < n
        · have := hr.count hn; omega
        · rw [hr.none (by omega)]; simp
      · rw [hr.all h1, h1]
        obtain ⟨m, hm⟩ : ∃ m, n - j = m + 1 := ⟨n - j - 1, by omega⟩
        rw [hm, List.range'_succ, List.map_cons, show n - (j + 1) = m by omega]
    · rw [if_neg (by rw [hl]; intro h'; exact h ((mul_lt hb0).mp h'))]
      refine Oks.ok ⟨fun k hk => (by cases hk), fun _ => rfl, fun h' => absurd h' h, fun h' => absurd h' h, fun _ => ?_⟩
      rw [show n - j = 0 by omega]; rfl

/-! ### The histogram -/

theorem histLoop_colours (s : Nat) : ∀ (ks : List Nat) (prev c : Nat),
    (histLoop s ks prev c).map ColorCount.rgba = (dedup (prev :: ks)).map unkey
  | [], _, _ => rfl
  | k :: ks, prev, c => by
    rw [histLoop, dedup]
    by_cases h : k = prev
    · subst h
      rw [if_pos rfl, if_pos rfl]; exact histLoop_colours s ks k _
    · rw [if_neg h, if_neg (Ne.symm h), List.map_cons, List.map_cons, histLoop_colours s ks k _]

theorem histogram_colours (s : Nat) (ks : List Nat) :
    (histogram s ks).map ColorCount.rgba = (dedup ks).map unkey := by
  cases ks with
  | nil => rfl
  | cons k ks => exact histLoop_colours s ks k _

theorem weight_cons (c : ColorCount) (l : List ColorCount) : weight (c :: l) = c.count + weight l := by simp [weight]

theorem weight_append (a b : List ColorCount) : weight (a ++ b) = weight a + weight b := by simp [weight]

theorem weight_perm {a b : List ColorCount} (h : a.Perm b) : weight a = weight b := (h.map _).sum_nat

theorem histLoop_weight (s : Nat) : ∀ (ks : List Nat) (prev c : Nat), weight (histLoop s ks prev c) ≤ c + ks.length * s
  | [], _, c => by simp [histLoop, weight]
  | k :: ks, prev, c => by
    rw [histLoop, List.length_cons, Nat.succ_mul]
    have hm := Nat.mod_le s (2 ^ 32)
    split
    · have := histLoop_weight s ks prev (satAdd c (s % 2 ^ 32))
      unfold satAdd at this ⊢
      omega
    · have := histLoop_weight s ks k (s % 2 ^ 32)
      rw [weight_cons]
      simp only
      omega

theorem histogram_weight (s : Nat) (ks : List Nat) : weight (histogram s ks) ≤ ks.length * s := by
  cases ks with
  | nil => simp [histogram, weight]
  | cons k ks =>
    have := histLoop_weight s ks k (s % 2 ^ 32)
    have hm := Nat.mod_le s (2 ^ 32)
    rw [List.length_cons, Nat.succ_mul]
    unfold histogram
    simp only
    omega

theorem truncate_ok (env : Env) (l : List ColorCount) :
    weight (truncateHist env l) ≤ weight l ∧ (l ≠ [] → truncateHist env l ≠ []) ∧
      (l.length ≤ 8192 → truncateHist env l = l) ∧ (8192 < l.length → (truncateHist env l).length = 8192) := by
  unfold truncateHist
  by_cases h : l.length > 8192
  · rw [if_pos h]
    generalize hs : sortBy _ l.zipIdx = s
    have hp : s.Perm l.zipIdx := by rw [← hs]; exact sortBy_perm _ _
    have hpm : (s.map Prod.fst).Perm l := by
      have := hp.map Prod.fst
      rwa [List.zipIdx_map_fst] at this
    have hlen : (s.map Prod.fst).length = l.length := hpm.length_eq
    refine ⟨?_, fun _ => ?_, fun h' => absurd h (by omega), fun _ => ?_⟩
    · rw [← weight_perm hpm]
      conv => rhs; rw [← List.take_append_drop 8192 (s.map Prod.fst)]
      rw [weight_append]; omega
    · intro he
      have := congrArg List.length he
      rw [List.length_take, hlen, List.length_nil] at this; omega
    · rw [List.length_take, hlen]; omega
  · rw [if_neg h]
    exact ⟨Nat.le_refl _, id, fun _ => rfl, fun h' => absurd h' (by omega)⟩

/-! ### Median cut -/

theorem foldl_min_le (f : ColorCount → Nat) : ∀ (l : List ColorCount) (m : Nat),
    l.foldl (fun m c => min m (f c)) m ≤ m ∧ ∀ c ∈ l, l.foldl (fun m c => min m (f c)) m ≤ f c
  | [], m => ⟨Nat.le_refl _, fun c h => by cases h⟩
  | c :: l, m => by
    have ⟨h1, h2⟩ := foldl_min_le f l (min m (f c))
    refine ⟨Nat.le_trans h1 (Nat.min_le_left _ _), fun d hd => ?_⟩
    rcases List.mem_cons.mp hd with rfl | hd
    · exact Nat.le_trans h1 (Nat.min_le_right _ _)
    · exact h2 d hd

theorem foldl_max_ge (f : ColorCount → Nat) : ∀ (l : List ColorCount) (m : Nat),
    m ≤ l.foldl (fun m c => max m (f c)) m ∧ ∀ c ∈ l, f c ≤ l.foldl (fun m c => max m (f c)) m
  | [], m => ⟨Nat.le_refl _, fun c h => by cases h⟩
  | c :: l, m => by
    have ⟨h1, h2⟩ := foldl_max_ge f l (max m (f c))
    refine ⟨Nat.le_trans (Nat.le_max_left _ _) h1, fun d hd => ?_⟩
    rcases List.mem_cons.mp hd with rfl | hd
    · exact Nat.le_trans (Nat.le_max_right _ _) h1
    · exact h2 d hd

theorem spread_ok {box : List ColorCount} (h : box ≠ []) (ch : Nat) : Oks (spread box ch) fun _ => True := by
  obtain ⟨c, l, rfl⟩ := List.exists_cons_of_ne_nil h
  unfold spread Lz77.subUsize
  dsimp only
  rw [if_pos]
  · exact Oks.ok trivial
  · exact Nat.le_trans ((foldl_min_le (fun c => channel c.rgba ch) _ _).2 c List.mem_cons_self)
      ((foldl_max_ge (fun c => channel c.rgba ch) _ _).2 c List.mem_cons_self)

theorem range_ok {box : List ColorCount} (h : box ≠ []) : Oks (range box) fun _ => True := by
  unfold range
  exact Oks.bind (spread_ok h 0) fun _ _ => Oks.bind (spread_ok h 1) fun _ _ => Oks.bind (spread_ok h 2) fun _ _ =>
    Oks.bind (spread_ok h 3) fun _ _ => Oks.pure trivial

theorem addU32_ok {a b : Nat} (h : a + b < 2 ^ 32) : addU32 a b = .ok (a + b) := by
  unfold addU32; rw [if_pos h]

theorem totalCount_ok : ∀ (l : List ColorCount) (acc : Nat), acc + weight l < 2 ^ 32 →
    totalCount l acc = .ok (acc + weight l)
  | [], acc, _ => by simp [totalCount, weight]
  | c :: l, acc, h => by
    rw [weight_cons] at h ⊢
    rw [totalCount, addU32_ok (by omega), ok_bind, totalCount_ok l _ (by omega), Nat.add_assoc]

theorem splitIndex_ok (half : Nat) : ∀ (l : List ColorCount) (i acc : Nat), acc + weight l < 2 ^ 32 →
    Oks (splitIndex half l i acc) fun _ => True
  | [], _, _, _ => Oks.ok trivial
  | c :: l, i, acc, h => by
    rw [weight_cons] at h
    rw [splitIndex, addU32_ok (by omega), ok_bind]
    split
    · exact Oks.pure trivial
    · exact splitIndex_ok half l _ _ (by omega)

theorem split_ok {box : List ColorCount} (h2 : 2 ≤ box.length) (hw : weight box < 2 ^ 32) :
    Oks (split box) fun q => q.1 ≠ [] ∧ q.2 ≠ [] ∧ (q.1 ++ q.2).Perm box := by
  have hne : box ≠ [] := by rintro rfl; simp at h2
  unfold split
  refine Oks.bind (range_ok hne) fun r _ => ?_
  dsimp only
  generalize hs : sortBy _ box = s
  have hp : s.Perm box := by rw [← hs]; exact sortBy_perm _ _
  have hl := hp.length_eq
  rw [totalCount_ok _ _ (by rw [weight_perm hp]; omega), ok_bind]
  refine Oks.bind (splitIndex_ok _ s 0 0 (by rw [weight_perm hp]; omega)) fun i _ => ?_
  rw [if_pos (by omega)]
  refine Oks.pure ⟨?_, ?_, by rw [List.take_append_drop]; exact hp⟩
  · intro he
    have := congrArg List.length he
    rw [List.length_take, List.length_nil] at this; omega
  · intro he
    have := congrArg List.length he
    rw [List.length_drop, List.length_nil] at this; omega

/-- The boxes of the loop. -/
def Boxes (bs : List (List ColorCount)) : Prop := ∀ b ∈ bs, b ≠ [] ∧ weight b < 2 ^ 32

theorem widest_ok : ∀ (bs : List (List ColorCount)) (i : Nat) (best : Option (Nat × Nat)), Boxes bs →
    (∀ j s, best = some (j, s) → j < i + bs.length) → (bs = [] → best ≠ none) →
    Oks (widest bs i best) fun r => ∃ j s, r = some (j, s) ∧ j < i + bs.length
  | [], i, best, _, h, hn => by
    rw [widest]
    obtain ⟨⟨j, s⟩, rfl⟩ := Option.ne_none_iff_exists'.mp (hn rfl)
    exact Oks.ok ⟨j, s, rfl, h j s rfl⟩
  | b :: bs, i, best, hb, h, _ => by
    rw [widest]
    refine Oks.bind (range_ok (hb b List.mem_cons_self).1) fun r _ => ?_
    have hb' : Boxes bs := fun c hc => hb c (List.mem_cons_of_mem _ hc)
    rw [List.length_cons] at h ⊢
    cases best with
    | none =>
      refine (widest_ok bs (i + 1) (some (i, r.2)) hb' (fun j s e => ?_) fun _ => by simp).mono ?_
      · cases e; omega
      · rintro q ⟨j, s, e, hj⟩; exact ⟨j, s, e, by omega⟩
    | some p =>
      obtain ⟨j, s⟩ := p
      have := h j s rfl
      refine (widest_ok bs (i + 1) (some (if r.2 ≥ s then (i, r.2) else (j, s))) hb' (fun j' s' e => ?_) fun _ => by simp).mono ?_
      · have e := Option.some.inj e
        split at e <;> cases e <;> omega
      · rintro q ⟨j, s, e, hj⟩; exact ⟨j, s, e, by omega⟩

theorem cutLoop_ok {m : Nat} : ∀ (fuel : Nat) (bs : List (List ColorCount)), Boxes bs → bs ≠ [] → 0 < fuel →
    m < bs.length + fuel → bs.length ≤ max 1 m → Oks (cutLoop m fuel bs) fun r => r ≠ [] ∧ r.length ≤ max 1 m
  | 0, _, _, _, h, _, _ => absurd h (by decide)
  | fuel + 1, bs, hb, hne, _, hf, hm => by
    rw [cutLoop]
    have hpos : 0 < bs.length := List.length_pos_iff.mpr hne
    by_cases h : bs.length < m
    · rw [if_pos h]
      refine Oks.bind (widest_ok bs 0 none hb (fun j s e => by cases e) fun e => absurd e hne) fun w hw => ?_
      obtain ⟨j, s, rfl, hj⟩ := hw
      simp only [Nat.zero_add] at hj
      dsimp only
      rw [Palette.getChecked_ok [] hj, ok_bind]
      have hmem : bs.getD j [] ∈ bs := by rw [Palette.getD_lt hj]; exact List.getElem_mem hj
      obtain ⟨hn, hw⟩ := hb _ hmem
      generalize bs.getD j [] = b at hmem hn hw
      by_cases h2 : b.length > 1
      · rw [if_pos h2]
        refine Oks.bind (split_ok h2 hw) fun q hq => ?_
        obtain ⟨h3, h4, hp⟩ := hq
        have e1 : q.1.isEmpty = false := by simpa using h3
        have e2 : q.2.isEmpty = false := by simpa using h4
        unfold pushBox
        rw [e1, e2, if_neg (by decide), if_neg (by decide)]
        have hwt := weight_perm hp
        rw [weight_append] at hwt
        have hel : (bs.eraseIdx j).length = bs.length - 1 := List.length_eraseIdx_of_lt hj
        refine cutLoop_ok fuel _ ?_ (by simp) (by omega) ?_ ?_
        · intro c hc
          rw [List.mem_append, List.mem_append, List.mem_singleton, List.mem_singleton] at hc
          rcases hc with (hc | rfl) | rfl
          · exact hb c (List.mem_of_mem_eraseIdx hc)
          · exact ⟨h3, by omega⟩
          · exact ⟨h4, by omega⟩
        · simp only [List.length_append, List.length_cons, List.length_nil, hel]; omega
        · simp only [List.length_append, List.length_cons, List.length_nil, hel]; omega
      · rw [if_neg h2]; exact Oks.pure ⟨hne, hm⟩
    · rw [if_neg h]; exact Oks.ok ⟨hne, hm⟩

theorem refineOnce_length (p : List Rgba) (c : List ColorCount) : (refineOnce p c).length = p.length := by
  simp [refineOnce]

theorem medianCut_ok {colors : List ColorCount} (hw : weight colors < 2 ^ 32) (m : Nat) :
    Oks (medianCut colors m) fun p => 1 ≤ p.length ∧ p.length ≤ max 1 m := by
  unfold medianCut
  by_cases he : colors.isEmpty = true
  · rw [if_pos he]; exact Oks.ok ⟨by simp, by simp; omega⟩
  · rw [if_neg he]
    have hne : colors ≠ [] := by simpa using he
    refine Oks.bind (cutLoop_ok (m := m) (m + 1) [colors] (fun b hb => ?_) (by simp) (by omega) (by simp; omega) (by simp; omega))
      fun bs hbs => Oks.pure ?_
    · rw [List.mem_singleton] at hb; subst hb; exact ⟨hne, hw⟩
    · have : (refine (bs.map paletteEntry) colors).length = bs.length := by
        unfold refine
        split
        · simp
        · rw [refineOnce_length, refineOnce_length, List.length_map]
      have hpos : 0 < bs.length := List.length_pos_iff.mpr hbs.1
      rw [this]
      exact ⟨hpos, hbs.2⟩

/-! ### Indices -/

theorem nearestLoop_lt (c : Rgba) : ∀ (ps : List Rgba) (i best d n : Nat), best < n → i + ps.length ≤ n →
    nearestLoop c ps i best d < n
  | [], _, _, _, _, h, _ => h
  | p :: ps, i, best, d, n, h, hi => by
    rw [List.length_cons] at hi
    rw [nearestLoop]
    split
    · exact nearestLoop_lt c ps _ _ _ n (by omega) (by omega)
    · exact nearestLoop_lt c ps _ _ _ n h (by omega)

theorem nearestIndex_lt (c : Rgba) {ps : List Rgba} (h1 : 1 ≤ ps.length) (h2 : ps.length ≤ 256) :
    (nearestIndex c ps).toNat < ps.length := by
  unfold nearestIndex nearest
  have := nearestLoop_lt c ps 0 0 (2 ^ 32 - 1) ps.length h1 (by omega)
  rw [UInt8.toNat_ofNat']
  rw [Nat.mod_eq_of_lt (by omega)]; exact this

theorem lookup_lt (c : Rgba) {ps : List Rgba} (h1 : 1 ≤ ps.length) (h2 : ps.length ≤ 256) :
    (lookup ps c).toNat < ps.length := by
  unfold lookup
  split <;> exact nearestIndex_lt _ h1 h2

theorem exactIndex_lt (c : Rgba) {ps : List Rgba} (h1 : 1 ≤ ps.length) (h2 : ps.length ≤ 256) :
    (exactIndex ps c).toNat < ps.length := by
  unfold exactIndex
  split
  · rename_i i hi
    obtain ⟨h, -⟩ := List.idxOf?_eq_some_iff.mp hi
    rw [List.length_map] at h
    rw [UInt8.toNat_ofNat', Nat.mod_eq_of_lt (by omega)]; exact h
  · exact nearestIndex_lt _ h1 h2

theorem exactIndex_eq {c : Rgba} {ps : List Rgba} (h : c ∈ ps) (h2 : ps.length ≤ 256) :
    ps[(exactIndex ps c).toNat]? = some c := by
  unfold exactIndex
  split
  · rename_i i hi
    obtain ⟨h, he, -⟩ := List.idxOf?_eq_some_iff.mp hi
    rw [List.length_map] at h
    rw [List.getElem_map] at he
    rw [UInt8.toNat_ofNat', Nat.mod_eq_of_lt (by omega), List.getElem?_eq_getElem h, key_inj he]
  · rename_i hi
    rw [List.idxOf?_eq_none_iff] at hi
    exact absurd (List.mem_map_of_mem h) hi

theorem ditherLoop_ok (env : Env) {ps : List Rgba} (h1 : 1 ≤ ps.length) (h2 : ps.length ≤ 256) :
    ∀ (px : List Rgba) (i : Nat), Oks (ditherLoop env ps px i) fun r =>
      r.length = px.length ∧ ∀ j ∈ r, j.toNat < ps.length
  | [], _ => Oks.ok ⟨rfl, fun j h => by cases h⟩
  | c :: px, i => by
    rw [ditherLoop]
    dsimp only
    have hlt := lookup_lt ((env.adjust i).1, (env.adjust i).2.1, (env.adjust i).2.2, c.2.2.2) h1 h2
    refine Oks.bind (Oks.get (P := fun _ => True) hlt trivial) fun _ _ => ?_
    refine Oks.bind (ditherLoop_ok env h1 h2 px (i + 1)) fun r hr => Oks.pure ⟨by simp [hr.1], fun j hj => ?_⟩
    rcases List.mem_cons.mp hj with rfl | hj
    · exact hlt
    · exact hr.2 j hj

/-! ### The quantizer -/

/-- Palette and indices for `n` pixels. -/
structure Quantized (n m : Nat) (q : List Rgba × List UInt8) : Prop where
  one : 1 ≤ q.1.length
  le : q.1.length ≤ max 1 m
  len : q.2.length = n
  lt : ∀ j ∈ q.2, j.toNat < q.1.length

theorem quantizeWith_ok (env : Env) {px : List Rgba} {colors : List ColorCount} (hne : colors ≠ [])
    (hw : weight colors < 2 ^ 32) {m : Nat} (hm : m ≤ 256) (dithering : Bool) :
    Oks (quantizeWith env px colors m dithering) fun q => Quantized px.length m q ∧
      (colors.length ≤ m → q.1 = colors.map ColorCount.rgba ∧ q.2 = px.map (exactIndex q.1)) := by
  unfold quantizeWith
  by_cases h : colors.length ≤ m
  · rw [if_pos h]
    dsimp only
    have hpos : 0 < colors.length := List.length_pos_iff.mpr hne
    refine Oks.ok ⟨⟨?_, ?_, ?_, ?_⟩, fun _ => ⟨rfl, rfl⟩⟩
    · simp; omega
    · simp; omega
    · simp
    · intro j hj
      obtain ⟨c, -, rfl⟩ := List.mem_map.mp hj
      exact exactIndex_lt c (by rw [List.length_map]; omega) (by rw [List.length_map]; omega)
  · rw [if_neg h]
    refine Oks.bind (medianCut_ok hw m) fun p hp => ?_
    cases dithering with
    | true =>
      rw [if_pos rfl]
      exact Oks.bind (ditherLoop_ok env hp.1 (by omega) px 0) fun r hr =>
        Oks.pure ⟨⟨hp.1, hp.2, hr.1, hr.2⟩, fun h' => absurd h' h⟩
    | false =>
      rw [if_neg (by decide)]
      refine Oks.pure ⟨⟨hp.1, hp.2, by simp, fun j hj => ?_⟩, fun h' => absurd h' h⟩
      obtain ⟨c, -, rfl⟩ := List.mem_map.mp hj
      exact lookup_lt c hp.1 (by omega)

/-- The quantizer succeeds; it is exact when all colours are sampled and fit. -/
theorem quantizeImage_ok (env : Env) {data : List UInt8} {ct : ColorType} (hct : ct = .rgb ∨ ct = .rgba) {n : Nat}
    (hl : data.length = n * ct.bytesPerPixel) (h1 : 1 ≤ n) (hn : n < 2 ^ 30) {m : Nat} (hm : m ≤ 256)
    (dithering : Bool) :
    Oks (quantizeImage env data ct m dithering) fun q => Quantized n m q ∧
      (n < 100000 → ∀ l : List Rgba, (∀ i, i < n → pixelAt data ct.bytesPerPixel i ∈ l) → l.length ≤ m →
        ∀ i, i < n → q.1[(q.2.getD i 0).toNat]? = some (pixelAt data ct.bytesPerPixel i)) := by
  have hb : ct.bytesPerPixel = 3 ∨ ct.bytesPerPixel = 4 := by rcases hct with rfl | rfl <;> simp [ColorType.bytesPerPixel]
  unfold quantizeImage
  dsimp only
  generalize ct.bytesPerPixel = bpp at hb hl
  rw [if_neg (by omega), hl, Nat.mul_div_cancel _ (by omega : 0 < bpp)]
  have h0 := sampleLoop_ok hb hl (stride := max (n / 50000) 1) (by omega) (n + 1) 0 (by omega) (by omega)
  rw [Nat.zero_mul] at h0
  refine Oks.bind h0 fun keys hk => ?_
  rw [pixels_ok hb hl, ok_bind]
  generalize hS : max (n / 50000) 1 = stride at hk
  have hperm : (sortKeys keys).Perm keys := sortBy_perm _ _
  have hknil : sortKeys keys ≠ [] := fun e => hk.some h1 (by
    have := hperm.length_eq; rw [e] at this; exact List.eq_nil_of_length_eq_zero this.symm)
  have hcols := histogram_colours stride (sortKeys keys)
  have hhne : histogram stride (sortKeys keys) ≠ [] := by
    intro e
    rw [e] at hcols
    obtain ⟨k, ks, e2⟩ := List.exists_cons_of_ne_nil hknil
    have : k ∈ dedup (sortKeys keys) := (mem_dedup _).mpr (by rw [e2]; exact List.mem_cons_self)
    have h3 : unkey k ∈ (dedup (sortKeys keys)).map unkey := List.mem_map_of_mem this
    rw [← hcols] at h3
    cases h3
  have hwt : weight (histogram stride (sortKeys keys)) < 2 ^ 32 := by
    have a := histogram_weight stride (sortKeys keys)
    have b := hk.count (by omega)
    rw [hperm.length_eq] at a
    omega
  obtain ⟨t1, t2, t3, t4⟩ := truncate_ok env (histogram stride (sortKeys keys))
  refine (quantizeWith_ok env (px := (List.range n).map (pixelAt data bpp)) (t2 hhne) (by omega) hm dithering).mono
    fun q hq => ⟨?_, fun hsm l hall hlm i hi => ?_⟩
  · have := hq.1
    rw [List.length_map, List.length_range] at this
    exact this
  · have hs1 : stride = 1 := by omega
    have hkeys := hk.all hs1
    -- the palette is made of the distinct colours
    have hsub : ∀ c ∈ (histogram stride (sortKeys keys)).map ColorCount.rgba, c ∈ l := by
      intro c hc
      rw [hcols] at hc
      obtain ⟨k, hk1, rfl⟩ := List.mem_map.mp hc
      obtain ⟨j, hj, rfl⟩ := hk.from' k (hperm.mem_iff.mp ((mem_dedup _).mp hk1))
      rw [unkey_key]; exact hall j hj
    have hnd : ((histogram stride (sortKeys keys)).map ColorCount.rgba).Nodup := by
      rw [hcols]
      have hd := Palette.palette_nodup keys
      rw [List.nodup_iff_pairwise_ne] at hd ⊢
      rw [List.pairwise_map]
      refine hd.imp_of_mem ?_
      intro a b ha hb' hab he
      obtain ⟨j, hj, rfl⟩ := hk.from' a (hperm.mem_iff.mp ((mem_dedup _).mp ha))
      obtain ⟨j', hj', rfl⟩ := hk.from' b (hperm.mem_iff.mp ((mem_dedup _).mp hb'))
      rw [unkey_key, unkey_key] at he
      exact hab (by rw [he])
    have hlen : (histogram stride (sortKeys keys)).length ≤ m := by
      have := hnd.length_le_of_subset hsub
      rw [List.length_map] at this
      omega
    rw [t3 (by omega)] at hq
    obtain ⟨e1, e2⟩ := hq.2 hlen
    have hin : pixelAt data bpp i ∈ q.1 := by
      rw [e1, hcols]
      refine List.mem_map.mpr ⟨key (pixelAt data bpp i), (mem_dedup _).mpr (hperm.mem_iff.mpr ?_), unkey_key _⟩
      rw [hkeys]
      exact List.mem_map.mpr ⟨i, by rw [List.mem_range'_1]; omega, rfl⟩
    have := exactIndex_eq hin (by rw [e1, List.length_map]; omega)
    rw [e2]
    rw [← this]
    congr 2
    simp [List.getD, hi]

/-- The heuristic does not fail. -/
theorem shouldQuantizeAuto_ok {data : List UInt8} {bpp n : Nat} (hb : bpp = 3 ∨ bpp = 4) (hl : data.length = n * bpp)
    (m : Nat) : Oks (shouldQuantizeAuto data bpp m) fun _ => True := by
  unfold shouldQuantizeAuto
  dsimp only
  split
  · exact Oks.ok trivial
  split
  · exact Oks.ok trivial
  rw [hl, Nat.mul_div_cancel _ (by omega : 0 < bpp)]
  have h0 := sampleLoop_ok hb hl (stride := max (n / 20000) 1) (by omega) (n + 1) 0 (by omega) (by omega)
  rw [Nat.zero_mul] at h0
  refine Oks.bind h0 fun keys hk => ?_
  split <;> exact Oks.pure trivial

end Pixo.Quantize
