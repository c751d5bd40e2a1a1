import Verif.Proof.PngEncode
import Verif.Spec.Colour
/-
The palette entries chosen by the quantizer without dithering are the nearest ones, up to the
rounding of opaque colours to six bits.
-/
namespace Pixo.Quantize
open Pixo.Palette (Rgba key unkey unkey_key sortBy sortKeys sortBy_perm dedup mem_dedup)
open Spec.Colour
open Pixo.Png (num)

theorem sq_eq (a b : UInt8) : (sq a.toNat b.toNat : Int) = ((a.toNat : Int) - b.toNat) * ((a.toNat : Int) - b.toNat) := by
  unfold sq
  rcases Nat.le_total a.toNat b.toNat with h | h
  · rw [Nat.sub_eq_zero_of_le h, Nat.zero_mul, Nat.zero_add, Int.natCast_mul, Int.ofNat_sub h]
    rw [← Int.neg_mul_neg, Int.neg_sub]
  · rw [Nat.sub_eq_zero_of_le h, Nat.zero_mul, Nat.add_zero, Int.natCast_mul, Int.ofNat_sub h]

theorem distance_eq (c d : Rgba) : distance c d = redmean (num c) (num d) := by
  obtain ⟨r, g, b, a⟩ := c
  obtain ⟨r', g', b', a'⟩ := d
  simp only [distance, redmean, meanRed, num, channel]
  have hr := sq_eq r r'
  have hg := sq_eq g g'
  have hb := sq_eq b b'
  have ha := sq_eq a a'
  rw [Int.mul_assoc, Int.mul_assoc, Int.mul_assoc, ← hr, ← hg, ← hb, ← ha]
  have h1 := r.toNat_lt
  have h2 := r'.toNat_lt
  have hm : (((r.toNat : Int) + r'.toNat) / 2) = (((r.toNat + r'.toNat) / 2 : Nat) : Int) := by omega
  rw [hm]
  have hs : (767 : Int) - ((r.toNat + r'.toNat) / 2 : Nat) = ((767 - (r.toNat + r'.toNat) / 2 : Nat) : Int) := by omega
  rw [hs]
  generalize (r.toNat + r'.toNat) / 2 = m
  generalize sq r.toNat r'.toNat = S
  generalize sq g.toNat g'.toNat = T
  generalize 767 - m = w
  generalize sq b.toNat b'.toNat = U
  have e1 : (512 + (m : Int)) * (S : Int) = (((512 + m) * S : Nat) : Int) := by
    rw [Int.natCast_mul, Int.natCast_add]; rfl
  have e2 : (w : Int) * (U : Int) = ((w * U : Nat) : Int) := by rw [Int.natCast_mul]
  rw [e1, e2]
  omega

theorem sq_le {a b : Nat} (ha : a < 256) (hb : b < 256) : sq a b ≤ 65025 := by
  unfold sq
  have h1 : (a - b) * (a - b) + (b - a) * (b - a) ≤ 255 * 255 := by
    rcases Nat.le_total a b with h | h
    · rw [Nat.sub_eq_zero_of_le h, Nat.zero_mul, Nat.zero_add]; exact Nat.mul_le_mul (by omega) (by omega)
    · rw [Nat.sub_eq_zero_of_le h, Nat.zero_mul, Nat.add_zero]; exact Nat.mul_le_mul (by omega) (by omega)
  omega

theorem redmean_lt (c d : Rgba) : redmean (num c) (num d) < 2 ^ 20 := by
  obtain ⟨r, g, b, a⟩ := c
  obtain ⟨r', g', b', a'⟩ := d
  unfold redmean meanRed num
  dsimp only
  have hr := sq_le r.toNat_lt r'.toNat_lt
  have hg := sq_le g.toNat_lt g'.toNat_lt
  have hb := sq_le b.toNat_lt b'.toNat_lt
  have ha := sq_le a.toNat_lt a'.toNat_lt
  have h1 := r.toNat_lt
  have h2 := r'.toNat_lt
  have e1 : (512 + (r.toNat + r'.toNat) / 2) * sq r.toNat r'.toNat ≤ 767 * 65025 := Nat.mul_le_mul (by omega) hr
  have e2 : (767 - (r.toNat + r'.toNat) / 2) * sq b.toNat b'.toNat ≤ 767 * 65025 := Nat.mul_le_mul (by omega) hb
  omega

/-- The loop finds the first of the nearest. -/
theorem nearestLoop_spec (c : Rgba) (all : List Rgba) : ∀ (ps done : List Rgba) (best d : Nat), done ++ ps = all →
    (done = [] → best = 0 ∧ d = 2 ^ 32 - 1) →
    (done ≠ [] → ∃ p, done[best]? = some p ∧ d = distance c p ∧ (∀ q ∈ done, distance c p ≤ distance c q) ∧
      ∀ j q, j < best → done[j]? = some q → distance c p < distance c q) → all ≠ [] →
    ∃ p, all[nearestLoop c ps done.length best d]? = some p ∧ (∀ q ∈ all, distance c p ≤ distance c q) ∧
      ∀ j q, j < nearestLoop c ps done.length best d → all[j]? = some q → distance c p < distance c q
  | [], done, best, d, e, _, h1, hne => by
    rw [List.append_nil] at e
    subst e
    obtain ⟨p, a, -, b⟩ := h1 hne
    exact ⟨p, a, b⟩
  | p :: ps, done, best, d, e, h0, h1, hne => by
    rw [nearestLoop]
    have e' : (done ++ [p]) ++ ps = all := by rw [← e]; simp
    have hlen : (done ++ [p]).length = done.length + 1 := by simp
    have hget : (done ++ [p])[done.length]? = some p := by simp
    have hold : ∀ {j q}, j < done.length → (done ++ [p])[j]? = some q → done[j]? = some q := by
      intro j q hj h; rwa [List.getElem?_append_left hj] at h
    by_cases hlt : distance c p < d
    · rw [if_pos hlt, ← hlen]
      refine nearestLoop_spec c all ps (done ++ [p]) done.length _ e' (fun h => by simp at h) (fun _ => ?_) hne
      refine ⟨p, hget, rfl, fun q hq => ?_, fun j q hj hq => ?_⟩
      · rcases List.mem_append.mp hq with hq | hq
        · obtain ⟨p0, -, hd, h2, -⟩ := h1 (List.ne_nil_of_mem hq)
          have := h2 q hq
          omega
        · rw [List.mem_singleton] at hq; subst hq; exact Nat.le_refl _
      · have hq := hold hj hq
        have hm := List.mem_of_getElem? hq
        obtain ⟨p0, -, hd, h2, -⟩ := h1 (List.ne_nil_of_mem hm)
        have := h2 q hm
        omega
    · rw [if_neg hlt, ← hlen]
      have hdn : done ≠ [] := by
        intro h
        have := (h0 h).2
        have h3 := redmean_lt c p
        rw [← distance_eq] at h3
        omega
      refine nearestLoop_spec c all ps (done ++ [p]) best _ e' (fun h => by simp at h) (fun _ => ?_) hne
      obtain ⟨p0, a, hd, h2, h3⟩ := h1 hdn
      have hb : best < done.length := (List.getElem?_eq_some_iff.mp a).1
      refine ⟨p0, by rw [List.getElem?_append_left hb]; exact a, hd, fun q hq => ?_, fun j q hj hq => h3 j q hj (hold (by omega) hq)⟩
      rcases List.mem_append.mp hq with hq | hq
      · exact h2 q hq
      · rw [List.mem_singleton] at hq; subst hq; omega

theorem nearestIndex_nearest (c : Rgba) {ps : List Rgba} (h1 : 1 ≤ ps.length) (h2 : ps.length ≤ 256) :
    IsNearest (num c) (ps.map num) (nearestIndex c ps).toNat := by
  have hne : ps ≠ [] := by intro e; rw [e] at h1; simp at h1
  have hlt := nearestLoop_lt c ps 0 0 (2 ^ 32 - 1) ps.length h1 (by omega)
  have e : (nearestIndex c ps).toNat = nearestLoop c ps 0 0 (2 ^ 32 - 1) := by
    unfold nearestIndex nearest
    rw [UInt8.toNat_ofNat', Nat.mod_eq_of_lt (by omega)]
  rw [e]
  obtain ⟨p, a, b, d⟩ := nearestLoop_spec c ps ps [] 0 (2 ^ 32 - 1) rfl (fun _ => ⟨rfl, rfl⟩) (fun h => absurd rfl h) hne
  rw [List.length_nil] at a d
  refine ⟨num p, by rw [List.getElem?_map, a]; rfl, fun q hq => ?_, fun j q hj hq => ?_⟩
  · obtain ⟨q', hq', rfl⟩ := List.mem_map.mp hq
    rw [← distance_eq, ← distance_eq]
    exact b q' hq'
  · rw [List.getElem?_map] at hq
    obtain ⟨q', hq', rfl⟩ := Option.map_eq_some_iff.mp hq
    rw [← distance_eq, ← distance_eq]
    exact d j q' hj hq'

theorem expand6_eq : ∀ v : UInt8, (expand6 (v >>> 2)).toNat = six v.toNat := by
  intro v
  have : ∀ n : Fin 256, (expand6 (UInt8.ofNat n.val >>> 2)).toNat = six n.val := by decide +kernel
  have h := this ⟨v.toNat, v.toNat_lt⟩
  dsimp only at h
  rwa [UInt8.ofNat_toNat] at h

theorem lookup_nearest (c : Rgba) {ps : List Rgba} (h1 : 1 ≤ ps.length) (h2 : ps.length ≤ 256) :
    IsNearest (if (num c).a = 255 then sixBits (num c) else num c) (ps.map num) (lookup ps c).toNat := by
  obtain ⟨r, g, b, a⟩ := c
  unfold lookup
  by_cases h : a = 255
  · subst h
    rw [if_pos (show (num (r, g, b, 255)).a = 255 from rfl), if_pos (show (r, g, b, (255 : UInt8)).2.2.2 = 255 from rfl)]
    have := nearestIndex_nearest (expand6 (r >>> 2), expand6 (g >>> 2), expand6 (b >>> 2), 255) h1 h2
    have e : num (expand6 (r >>> 2), expand6 (g >>> 2), expand6 (b >>> 2), 255) = sixBits (num (r, g, b, 255)) := by
      unfold num sixBits
      dsimp only
      rw [expand6_eq, expand6_eq, expand6_eq]
    rw [e] at this
    exact this
  · rw [if_neg h, if_neg]
    · exact nearestIndex_nearest _ h1 h2
    · intro h'
      exact h (UInt8.toNat_inj.mp h')

theorem sq_self (a : Nat) : sq a a = 0 := by simp [sq]

theorem redmean_self (c : Spec.Png.Rgba) : redmean c c = 0 := by simp [redmean, sq_self]

theorem sq_zero {a b : Nat} (h : sq a b = 0) : a = b := by
  unfold sq at h
  have h1 : (a - b) * (a - b) = 0 := by omega
  have h2 : (b - a) * (b - a) = 0 := by omega
  have := Nat.mul_eq_zero.mp h1
  have := Nat.mul_eq_zero.mp h2
  omega

theorem redmean_zero {c d : Rgba} (h : redmean (num c) (num d) = 0) : c = d := by
  apply Png.num_inj
  obtain ⟨r, g, b, a⟩ := c
  obtain ⟨r', g', b', a'⟩ := d
  unfold redmean meanRed num at *
  dsimp only at *
  have h1 := r.toNat_lt
  have h2 := r'.toNat_lt
  have ha : sq a.toNat a'.toNat = 0 := by omega
  have hx : ∀ {w s : Nat}, 256 ≤ w → s ≠ 0 → 256 ≤ w * s := by
    intro w s hw hs
    exact Nat.le_trans hw (Nat.le_mul_of_pos_right _ (by omega))
  have hr : sq r.toNat r'.toNat = 0 := by
    rcases Nat.eq_zero_or_pos (sq r.toNat r'.toNat) with h0 | h0
    · exact h0
    · have := hx (w := 512 + (r.toNat + r'.toNat) / 2) (by omega) (Nat.pos_iff_ne_zero.1 h0)
      omega
  have hb : sq b.toNat b'.toNat = 0 := by
    rcases Nat.eq_zero_or_pos (sq b.toNat b'.toNat) with h0 | h0
    · exact h0
    · have := hx (w := 767 - (r.toNat + r'.toNat) / 2) (by omega) (Nat.pos_iff_ne_zero.1 h0)
      omega
  have hg : sq g.toNat g'.toNat = 0 := by omega
  rw [sq_zero ha, sq_zero hr, sq_zero hb, sq_zero hg]

theorem exactIndex_nearest (c : Rgba) {ps : List Rgba} (hn : ps.Nodup) (h1 : 1 ≤ ps.length) (h2 : ps.length ≤ 256) :
    IsNearest (num c) (ps.map num) (exactIndex ps c).toNat := by
  by_cases h : c ∈ ps
  · have e := exactIndex_eq h h2
    refine ⟨num c, by rw [List.getElem?_map, e]; rfl, fun q _ => by rw [redmean_self]; omega, fun j q hj hq => ?_⟩
    rw [List.getElem?_map] at hq
    obtain ⟨q', hq', rfl⟩ := Option.map_eq_some_iff.mp hq
    rw [redmean_self]
    refine Nat.pos_of_ne_zero fun h0 => ?_
    rw [← redmean_zero h0] at hq'
    have hj' := (List.getElem?_eq_some_iff.mp hq').1
    have := (List.getElem?_inj hj' hn).mp (hq'.trans e.symm)
    omega
  · unfold exactIndex
    split
    · rename_i i hi
      obtain ⟨hl, he, -⟩ := List.idxOf?_eq_some_iff.mp hi
      rw [List.getElem_map] at he
      rw [List.length_map] at hl
      exact absurd (Palette.key_inj he ▸ List.getElem_mem hl) h
    · exact nearestIndex_nearest c h1 h2

/-! ### The quantizer without dithering -/

/-- The colours counted by the histogram. -/
structure Counted (data : List UInt8) (bpp n : Nat) (colors : List ColorCount) : Prop where
  some : colors ≠ []
  light : weight colors < 2 ^ 32
  nodup : colors.length ≤ 256 → (colors.map ColorCount.rgba).Nodup
  all : colors.length ≤ 256 → n < 100000 → ∀ i, i < n → pixelAt data bpp i ∈ colors.map ColorCount.rgba

theorem counted (env : Env) {data : List UInt8} {bpp : Nat} (hb : bpp = 3 ∨ bpp = 4) {n : Nat}
    (hl : data.length = n * bpp) (h1 : 1 ≤ n) (hn : n < 2 ^ 30) :
    ∃ keys, sampleLoop data bpp (max (n / 50000) 1) (n + 1) 0 = .ok keys ∧
      Counted data bpp n (truncateHist env (histogram (max (n / 50000) 1) (sortKeys keys))) := by
  have h0 := sampleLoop_ok hb hl (stride := max (n / 50000) 1) (by omega) (n + 1) 0 (by omega) (by omega)
  rw [Nat.zero_mul] at h0
  obtain ⟨keys, ek, hk⟩ := h0.out
  refine ⟨keys, ek, ?_⟩
  clear ek
  generalize hS : max (n / 50000) 1 = stride at hk
  have hperm : (sortKeys keys).Perm keys := sortBy_perm _ _
  have hknil : sortKeys keys ≠ [] := fun e => hk.some h1 (by
    have := hperm.length_eq; rw [e] at this; exact List.eq_nil_of_length_eq_zero this.symm)
  have hcols := histogram_colours stride (sortKeys keys)
  have hhne : histogram stride (sortKeys keys) ≠ [] := by
    intro e
    rw [e] at hcols
    obtain ⟨k, ks, e2⟩ := List.exists_cons_of_ne_nil hknil
    have : k ∈ dedup (sortKeys keys) := (mem_dedup _).mpr (by rw [e2]; exact List.mem_cons_self)
    have h3 : unkey k ∈ (dedup (sortKeys keys)).map unkey := List.mem_map_of_mem this
    rw [← hcols] at h3
    cases h3
  have hwt : weight (histogram stride (sortKeys keys)) < 2 ^ 32 := by
    have a := histogram_weight stride (sortKeys keys)
    have b := hk.count (by omega)
    rw [hperm.length_eq] at a
    omega
  obtain ⟨t1, t2, t3, t4⟩ := truncate_ok env (histogram stride (sortKeys keys))
  have hnt : (truncateHist env (histogram stride (sortKeys keys))).length ≤ 256 →
      (histogram stride (sortKeys keys)).length ≤ 8192 := by
    intro hle
    refine Nat.le_of_not_lt fun h => ?_
    unfold truncateHist at hle
    rw [if_pos h, List.length_take, List.length_map] at hle
    have := (sortBy_perm (fun a b => a.1.count > b.1.count ∨ (a.1.count = b.1.count ∧ env.tie a.2 < env.tie b.2))
      (histogram stride (sortKeys keys)).zipIdx).length_eq
    rw [List.length_zipIdx] at this
    omega
  refine ⟨t2 hhne, by omega, fun hle => ?_, fun hle hsm i hi => ?_⟩
  · rw [t3 (hnt hle), hcols]
    have hd := Palette.palette_nodup keys
    rw [List.nodup_iff_pairwise_ne] at hd ⊢
    rw [List.pairwise_map]
    refine hd.imp_of_mem ?_
    intro a b ha hb' hab he
    obtain ⟨j, hj, rfl⟩ := hk.from' a (hperm.mem_iff.mp ((mem_dedup _).mp ha))
    obtain ⟨j', hj', rfl⟩ := hk.from' b (hperm.mem_iff.mp ((mem_dedup _).mp hb'))
    rw [unkey_key, unkey_key] at he
    exact hab (by rw [he])
  · rw [t3 (hnt hle), hcols]
    refine List.mem_map.mpr ⟨key (pixelAt data bpp i), (mem_dedup _).mpr (hperm.mem_iff.mpr ?_), unkey_key _⟩
    rw [hk.all (by omega)]
    exact List.mem_map.mpr ⟨i, by rw [List.mem_range'_1]; omega, rfl⟩

theorem bpp_colour {ct : ColorType} (hct : ct = .rgb ∨ ct = .rgba) : ct.bytesPerPixel = 3 ∨ ct.bytesPerPixel = 4 := by
  rcases hct with rfl | rfl <;> simp [ColorType.bytesPerPixel]

/-- `quantize_image` after the histogram. -/
theorem quantizeImage_with (env : Env) {data : List UInt8} {ct : ColorType} (hct : ct = .rgb ∨ ct = .rgba) {n : Nat}
    (hl : data.length = n * ct.bytesPerPixel) (h1 : 1 ≤ n) (hn : n < 2 ^ 30) :
    ∃ colors : List ColorCount, Counted data ct.bytesPerPixel n colors ∧
      ∀ m dithering, quantizeImage env data ct m dithering =
        quantizeWith env ((List.range n).map (pixelAt data ct.bytesPerPixel)) colors m dithering := by
  have hb := bpp_colour hct
  unfold quantizeImage
  dsimp only
  generalize ct.bytesPerPixel = bpp at hb hl
  obtain ⟨keys, ek, hc⟩ := counted env hb hl h1 hn
  refine ⟨_, hc, fun m d => ?_⟩
  rw [if_neg (by omega), hl, Nat.mul_div_cancel _ (by omega : 0 < bpp), ek, ok_bind, pixels_ok hb hl, ok_bind]

/-- Every pixel gets the nearest entry, or the one nearest to its colour in six bits. -/
theorem quantizeImage_nearest (env : Env) {data : List UInt8} {ct : ColorType} (hct : ct = .rgb ∨ ct = .rgba) {n : Nat}
    (hl : data.length = n * ct.bytesPerPixel) (h1 : 1 ≤ n) (hn : n < 2 ^ 30) {m : Nat} (hm : m ≤ 256) :
    Oks (quantizeImage env data ct m false) fun q => q.1.length ≤ 256 ∧ q.2.length = n ∧
      ((∀ k, k < n → IsNearest (Spec.Png.pixelOf ct.bytesPerPixel data k) (q.1.map num) (q.2.getD k 0).toNat) ∨
        ∀ k, k < n → IsNearest (if (Spec.Png.pixelOf ct.bytesPerPixel data k).a = 255 then
          sixBits (Spec.Png.pixelOf ct.bytesPerPixel data k) else Spec.Png.pixelOf ct.bytesPerPixel data k)
          (q.1.map num) (q.2.getD k 0).toNat) := by
  obtain ⟨colors, ⟨hne, hw, hnd, -⟩, e⟩ := quantizeImage_with env hct hl h1 hn
  rw [e]
  unfold quantizeWith
  have hpos : 0 < colors.length := List.length_pos_iff.mpr hne
  have hget : ∀ (f : Rgba → UInt8) k, k < n →
      (((List.range n).map (pixelAt data ct.bytesPerPixel)).map f).getD k 0 = f (pixelAt data ct.bytesPerPixel k) := by
    intro f k hk
    simp [List.getD, hk]
  by_cases h : colors.length ≤ m
  · rw [if_pos h]
    dsimp only
    refine Oks.ok ⟨by simp; omega, by simp, .inl fun k hk => ?_⟩
    dsimp only
    rw [hget _ k hk, ← Png.num_pixelAt hct k]
    exact exactIndex_nearest _ (hnd (by omega)) (by simp; omega) (by simp; omega)
  · rw [if_neg h]
    refine Oks.bind (medianCut_ok hw m) fun p hp => ?_
    rw [if_neg (by decide)]
    refine Oks.pure ⟨by dsimp only; omega, by simp, .inr fun k hk => ?_⟩
    dsimp only
    rw [hget _ k hk, ← Png.num_pixelAt hct k]
    exact lookup_nearest _ hp.1 (by omega)

/-! ### How far from the nearest -/

theorem six_near (v : Nat) (h : v < 256) : six v ≤ v + 3 ∧ v ≤ six v + 3 ∧ six v < 256 := by unfold six; omega

/-- `(a - b)²` changes by at most 1530 when `a` changes by at most 3. -/
theorem sq_near {a a' b : Nat} (h1 : a' ≤ a + 3) (h2 : a ≤ a' + 3) (ha : a < 256) (ha' : a' < 256) (hb : b < 256) :
    sq a' b ≤ sq a b + 1530 := by
  unfold sq
  have key : ∀ x y : Nat, x ≤ 255 → y ≤ 255 → x ≤ y + 3 → x * x ≤ y * y + 1530 := by
    intro x y hx hy hxy
    rcases Nat.le_total x y with h | h
    · exact Nat.le_trans (Nat.mul_le_mul h h) (by omega)
    · obtain ⟨d, rfl⟩ : ∃ d, x = y + d := ⟨x - y, by omega⟩
      have : (y + d) * (y + d) = y * y + d * (y + (y + d)) := by
        rw [Nat.add_mul, Nat.mul_add, Nat.mul_add, Nat.mul_add, Nat.mul_add, Nat.mul_comm y d]; omega
      rw [this]
      have : d * (y + (y + d)) ≤ 3 * 510 := Nat.mul_le_mul (by omega) (by omega)
      omega
  rcases Nat.le_total a b with h | h <;> rcases Nat.le_total a' b with h' | h'
  · rw [Nat.sub_eq_zero_of_le h, Nat.sub_eq_zero_of_le h', Nat.zero_mul, Nat.zero_add, Nat.zero_add]
    exact key _ _ (by omega) (by omega) (by omega)
  · rw [Nat.sub_eq_zero_of_le h, Nat.sub_eq_zero_of_le h', Nat.zero_mul, Nat.zero_add, Nat.add_zero]
    exact key _ _ (by omega) (by omega) (by omega)
  · rw [Nat.sub_eq_zero_of_le h, Nat.sub_eq_zero_of_le h', Nat.zero_mul, Nat.zero_add, Nat.add_zero]
    exact key _ _ (by omega) (by omega) (by omega)
  · rw [Nat.sub_eq_zero_of_le h, Nat.sub_eq_zero_of_le h', Nat.zero_mul, Nat.add_zero, Nat.add_zero]
    exact key _ _ (by omega) (by omega) (by omega)

/-- The weights move by at most 2. -/
theorem weigh {m m' s s' t t' : Nat} (hm : m ≤ 255) (hm' : m' ≤ 255) (h1 : m' ≤ m + 2) (h2 : m ≤ m' + 2)
    (hs : s' ≤ s + 1530) (ht : t' ≤ t + 1530) (hs1 : s ≤ 65025) (ht1 : t ≤ 65025) :
    (512 + m') * s' + (767 - m') * t' ≤ (512 + m) * s + (767 - m) * t + 1279 * 1530 + 2 * 65025 := by
  have a : (512 + m') * s' ≤ (512 + m') * (s + 1530) := Nat.mul_le_mul_left _ hs
  have b : (767 - m') * t' ≤ (767 - m') * (t + 1530) := Nat.mul_le_mul_left _ ht
  rw [Nat.mul_add] at a b
  rcases Nat.le_total m m' with h | h
  · obtain ⟨d, rfl⟩ : ∃ d, m' = m + d := ⟨m' - m, by omega⟩
    have c : (512 + (m + d)) * s = (512 + m) * s + d * s := by rw [← Nat.add_assoc, Nat.add_mul]
    have e : (767 - (m + d)) * t ≤ (767 - m) * t := Nat.mul_le_mul_right _ (by omega)
    have f : d * s ≤ 2 * 65025 := Nat.mul_le_mul (by omega) hs1
    omega
  · obtain ⟨d, rfl⟩ : ∃ d, m = m' + d := ⟨m - m', by omega⟩
    have c : (767 - m') * t = (767 - (m' + d)) * t + d * t := by rw [← Nat.add_mul]; congr 1; omega
    have e : (512 + m') * s ≤ (512 + (m' + d)) * s := Nat.mul_le_mul_right _ (by omega)
    have f : d * t ≤ 2 * 65025 := Nat.mul_le_mul (by omega) ht1
    omega

/-- Moving every channel of one colour by at most 3 changes the difference by at most 14273. -/
theorem redmean_near {c c' d : Spec.Png.Rgba} (hc : c.r < 256 ∧ c.g < 256 ∧ c.b < 256)
    (hc' : c'.r < 256 ∧ c'.g < 256 ∧ c'.b < 256) (hd : d.r < 256 ∧ d.g < 256 ∧ d.b < 256)
    (hr : c'.r ≤ c.r + 3 ∧ c.r ≤ c'.r + 3) (hg : c'.g ≤ c.g + 3 ∧ c.g ≤ c'.g + 3)
    (hb : c'.b ≤ c.b + 3 ∧ c.b ≤ c'.b + 3) (ha : c'.a = c.a) : redmean c' d ≤ redmean c d + 14273 := by
  unfold redmean meanRed
  rw [ha]
  have h1 := sq_near hr.1 hr.2 hc.1 hc'.1 hd.1
  have h2 := sq_near hg.1 hg.2 hc.2.1 hc'.2.1 hd.2.1
  have h3 := sq_near hb.1 hb.2 hc.2.2 hc'.2.2 hd.2.2
  have := weigh (m := (c.r + d.r) / 2) (m' := (c'.r + d.r) / 2) (by omega) (by omega) (by omega) (by omega) h1 h3
    (sq_le hc.1 hd.1) (sq_le hc.2.2 hd.2.2)
  omega

end Pixo.Quantize
