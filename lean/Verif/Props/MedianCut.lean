import Verif.Props.QuantizeWork
/-
C118: median cut uses every entry of the palette.
-/
namespace Pixo.Props.MedianCut
open Pixo Pixo.Quantize
open Pixo.Palette (Rgba key unkey unkey_key key_inj sortBy sortKeys sortBy_perm dedup mem_dedup)
open Pixo.Props.QuantizeWork (total pushBox_total erase_total get_some refine_length)

/-! ### Ranges -/

theorem channel_lt (c : Rgba) (ch : Nat) : channel c ch < 256 := by
  unfold channel
  split <;> exact UInt8.toNat_lt _

theorem spread_spec {box : List ColorCount} {ch v : Nat} (h : spread box ch = .ok v) :
    (∀ c ∈ box, ∀ d ∈ box, channel c.rgba ch ≤ channel d.rgba ch + v) ∧ (box.length = 1 → v = 0) := by
  unfold spread Lz77.subUsize at h
  dsimp only at h
  have h1 := foldl_min_le (fun c => channel c.rgba ch) box 255
  have h2 := foldl_max_ge (fun c => channel c.rgba ch) box 0
  split at h
  · cases h
    refine ⟨fun c hc d hd => ?_, fun hl => ?_⟩
    · have := h1.2 d hd
      have := h2.2 c hc
      omega
    · obtain ⟨c, rfl⟩ := List.length_eq_one_iff.1 hl
      have := channel_lt c.rgba ch
      simp only [List.foldl_cons, List.foldl_nil]
      omega
  · cases h

theorem better_score (b : Nat × Nat) (ch s : Nat) : (better b ch s).2 = max b.2 s := by
  unfold better
  split
  · exact (Nat.max_eq_right (by omega)).symm
  · exact (Nat.max_eq_left (by omega)).symm

theorem range_spec {box : List ColorCount} {q : Nat × Nat} (h : range box = .ok q) :
    (q.2 = 0 → ∀ c ∈ box, ∀ d ∈ box, c.rgba = d.rgba) ∧ (box.length = 1 → q.2 = 0) := by
  unfold range at h
  cases h0 : spread box 0 with
  | error e => rw [h0] at h; cases h
  | ok v0 =>
  rw [h0, ok_bind] at h
  cases h1 : spread box 1 with
  | error e => rw [h1] at h; cases h
  | ok v1 =>
  rw [h1, ok_bind] at h
  cases h2 : spread box 2 with
  | error e => rw [h2] at h; cases h
  | ok v2 =>
  rw [h2, ok_bind] at h
  cases h3 : spread box 3 with
  | error e => rw [h3] at h; cases h
  | ok v3 =>
  rw [h3, ok_bind] at h
  cases h
  rw [better_score, better_score, better_score]
  have s0 := spread_spec h0
  have s1 := spread_spec h1
  have s2 := spread_spec h2
  have s3 := spread_spec h3
  refine ⟨fun hz c hc d hd => ?_, fun hl => ?_⟩
  · simp only at hz
    have e : ∀ ch v, ((∀ c ∈ box, ∀ d ∈ box, channel c.rgba ch ≤ channel d.rgba ch + v) ∧ (box.length = 1 → v = 0)) → v = 0 →
        channel c.rgba ch = channel d.rgba ch := by
      intro ch v hs hv
      have a := hs.1 c hc d hd
      have b := hs.1 d hd c hc
      omega
    have e0 := e 0 v0 s0 (by omega)
    have e1 := e 1 v1 s1 (by omega)
    have e2 := e 2 v2 s2 (by omega)
    have e3 := e 3 v3 s3 (by omega)
    exact Prod.ext (UInt8.toNat_inj.1 e0) (Prod.ext (UInt8.toNat_inj.1 e1) (Prod.ext (UInt8.toNat_inj.1 e2) (UInt8.toNat_inj.1 e3)))
  · have := s0.2 hl
    have := s1.2 hl
    have := s2.2 hl
    have := s3.2 hl
    simp only
    omega

theorem widest_spec : ∀ (bs : List (List ColorCount)) (i : Nat) (best : Option (Nat × Nat)) {j s : Nat}, widest bs i best = .ok (some (j, s)) →
    (∀ b ∈ bs, ∃ ch r, range b = .ok (ch, r) ∧ r ≤ s) ∧ (∀ j' s', best = some (j', s') → s' ≤ s) ∧
      (best = some (j, s) ∨ ∃ k b ch, bs[k]? = some b ∧ j = i + k ∧ range b = .ok (ch, s))
  | [], i, best, j, s, h => by
    rw [widest] at h
    cases h
    exact ⟨fun b hb => (by cases hb), fun j' s' e => (by cases e; exact Nat.le_refl _), .inl rfl⟩
  | b :: bs, i, best, j, s, h => by
    rw [widest] at h
    cases hr : range b with
    | error e => rw [hr] at h; cases h
    | ok q =>
      obtain ⟨ch, r⟩ := q
      rw [hr, ok_bind] at h
      have tail : ∀ x, (∃ k b' ch, bs[k]? = some b' ∧ j = i + 1 + k ∧ range b' = .ok (ch, s)) →
          (x ∨ ∃ k b' ch, (b :: bs)[k]? = some b' ∧ j = i + k ∧ range b' = .ok (ch, s)) := by
        rintro x ⟨k, b', ch, h1, h2, h3⟩
        exact .inr ⟨k + 1, b', ch, by simpa using h1, by omega, h3⟩
      have here : r = s → j = i → (False ∨ ∃ k b' ch, (b :: bs)[k]? = some b' ∧ j = i + k ∧ range b' = .ok (ch, s)) := by
        rintro rfl rfl
        exact .inr ⟨0, b, ch, rfl, rfl, hr⟩
      cases best with
      | none =>
        obtain ⟨h1, h2, h3⟩ := widest_spec bs _ _ h
        have hle := h2 _ _ rfl
        refine ⟨fun b' hb => ?_, fun j' s' e => (by cases e), ?_⟩
        · rcases List.mem_cons.1 hb with rfl | hb
          · exact ⟨ch, r, hr, hle⟩
          · exact h1 b' hb
        · rcases h3 with h3 | h3
          · cases h3
            exact (here rfl rfl).elim (fun f => f.elim) .inr
          · exact tail _ h3
      | some p =>
        obtain ⟨j0, s0⟩ := p
        dsimp only at h
        obtain ⟨h1, h2, h3⟩ := widest_spec bs _ _ h
        have hle : r ≤ s ∧ s0 ≤ s := by
          by_cases hc : r ≥ s0
          · rw [if_pos hc] at h2
            have := h2 _ _ rfl
            omega
          · rw [if_neg hc] at h2
            have := h2 _ _ rfl
            omega
        refine ⟨fun b' hb => ?_, fun j' s' e => (by cases e; exact hle.2), ?_⟩
        · rcases List.mem_cons.1 hb with rfl | hb
          · exact ⟨ch, r, hr, hle.1⟩
          · exact h1 b' hb
        · rcases h3 with h3 | h3
          · by_cases hc : r ≥ s0
            · rw [if_pos hc] at h3
              cases h3
              exact (here rfl rfl).elim (fun f => f.elim) .inr
            · rw [if_neg hc] at h3
              exact .inl h3
          · exact tail _ h3

/-! ### Cuts -/

theorem split_parts {b l r : List ColorCount} (h2 : 1 < b.length) (h : split b = .ok (l, r)) : l ≠ [] ∧ r ≠ [] ∧ (l ++ r).Perm b := by
  unfold split at h
  cases hr : range b with
  | error e => rw [hr] at h; cases h
  | ok q =>
    rw [hr, ok_bind] at h
    dsimp only at h
    have hp := sortBy_perm (fun a b => channel a.rgba q.1 < channel b.rgba q.1) b
    generalize sortBy (fun a b => channel a.rgba q.1 < channel b.rgba q.1) b = s at h hp
    have hl := hp.length_eq
    cases ht : totalCount s 0 with
    | error e => rw [ht] at h; cases h
    | ok t =>
      rw [ht, ok_bind] at h
      cases hi : splitIndex (t / 2) s 0 0 with
      | error e => rw [hi] at h; cases h
      | ok i =>
        rw [hi, ok_bind] at h
        split at h
        · cases h
          refine ⟨fun e => ?_, fun e => ?_, by rw [List.take_append_drop]; exact hp⟩
          · have := congrArg List.length e
            rw [List.length_take, List.length_nil] at this
            omega
          · have := congrArg List.length e
            rw [List.length_drop, List.length_nil] at this
            omega
        · cases h

/-- Boxes that together hold different colours. -/
def Good (bs : List (List ColorCount)) : Prop := ∀ b ∈ bs, b ≠ [] ∧ (b.map ColorCount.rgba).Nodup

theorem total_single {bs : List (List ColorCount)} (h : ∀ b ∈ bs, b.length ≤ 1) : total bs ≤ bs.length := by
  induction bs with
  | nil => exact Nat.le_refl _
  | cons b bs ih =>
    have h1 := h b (by simp)
    have h2 := ih fun c hc => h c (by simp [hc])
    unfold total at *
    rw [List.map_cons, List.sum_cons, List.length_cons]
    omega

theorem cutLoop_full {m : Nat} : ∀ (fuel : Nat) (bs : List (List ColorCount)) {r : List (List ColorCount)}, cutLoop m fuel bs = .ok r → Good bs →
    m ≤ total bs → bs.length ≤ m → r.length = m
  | 0, _, _, h, _, _, _ => by cases h
  | fuel + 1, bs, r, h, hg, ht, hl => by
    rw [cutLoop] at h
    by_cases hm : bs.length < m
    · rw [if_pos hm] at h
      cases hw : widest bs 0 none with
      | error e => rw [hw] at h; cases h
      | ok w =>
        rw [hw, ok_bind] at h
        cases w with
        | none => cases h
        | some w =>
          obtain ⟨j, s⟩ := w
          dsimp only at h
          cases hb : getChecked bs j with
          | error e => rw [hb] at h; cases h
          | ok b =>
            rw [hb, ok_bind] at h
            have hb := get_some hb
            have hj : j < bs.length := (List.getElem?_eq_some_iff.1 hb).1
            have hmem : b ∈ bs := List.mem_of_getElem? hb
            by_cases h2 : b.length > 1
            · rw [if_pos h2] at h
              cases hs : split b with
              | error e => rw [hs] at h; cases h
              | ok q =>
                obtain ⟨l, r'⟩ := q
                rw [hs, ok_bind] at h
                obtain ⟨p1, p2, p3⟩ := split_parts h2 hs
                have hlen := p3.length_eq
                rw [List.length_append] at hlen
                have t0 := erase_total _ _ _ hb
                have t1 := pushBox_total (bs.eraseIdx j) l
                have t2 := pushBox_total (pushBox (bs.eraseIdx j) l) r'
                have hel : (bs.eraseIdx j).length = bs.length - 1 := List.length_eraseIdx_of_lt hj
                refine cutLoop_full fuel (pushBox (pushBox (bs.eraseIdx j) l) r') h ?_ (by omega) (by omega)
                have hnd : ((l ++ r').map ColorCount.rgba).Nodup := (p3.map ColorCount.rgba).nodup_iff.2 (hg b hmem).2
                rw [List.map_append, List.nodup_append] at hnd
                intro c hc
                unfold pushBox at hc
                rw [if_neg (by simpa using p2), if_neg (by simpa using p1)] at hc
                rw [List.mem_append, List.mem_append, List.mem_singleton, List.mem_singleton] at hc
                rcases hc with (hc | rfl) | rfl
                · exact hg c (List.mem_of_mem_eraseIdx hc)
                · exact ⟨p1, hnd.1⟩
                · exact ⟨p2, hnd.2.1⟩
            · exfalso
              obtain ⟨w1, -, w3⟩ := widest_spec _ _ _ hw
              have hs0 : s = 0 := by
                rcases w3 with w3 | ⟨k, b', ch, k1, k2, k3⟩
                · cases w3
                · rw [Nat.zero_add] at k2
                  subst k2
                  rw [hb] at k1
                  cases k1
                  have : b.length ≠ 0 := fun e => (hg b hmem).1 (List.eq_nil_of_length_eq_zero e)
                  exact (range_spec k3).2 (by omega)
              have := total_single (bs := bs) fun c hc => by
                obtain ⟨ch, r, c1, c2⟩ := w1 c hc
                have same := (range_spec c1).1 (by simp only; omega)
                have hn := (hg c hc).2
                match c, same, hn with
                | [], _, _ => exact Nat.zero_le _
                | [_], _, _ => exact Nat.le_refl _
                | x :: y :: t, same, hn =>
                  have e := same x (by simp) y (by simp)
                  rw [List.map_cons, List.map_cons, List.nodup_cons] at hn
                  exact absurd (by rw [e]; exact List.mem_cons_self) hn.1
              omega
    · rw [if_neg hm] at h
      cases h
      omega

/-- C118: as many entries as asked for, when there are as many different colours. -/
theorem C118_cut {colors : List ColorCount} {m : Nat} (hn : (colors.map ColorCount.rgba).Nodup) (h0 : 0 < m) (hm : m ≤ colors.length)
    {p : List Rgba} (h : medianCut colors m = .ok p) : p.length = m := by
  unfold medianCut at h
  have hne : colors ≠ [] := fun e => by rw [e, List.length_nil] at hm; omega
  rw [if_neg (by simpa using hne)] at h
  cases hc : cutLoop m (m + 1) [colors] with
  | error e => rw [hc] at h; cases h
  | ok bs =>
    rw [hc, ok_bind] at h
    cases h
    rw [refine_length, List.length_map]
    refine cutLoop_full _ _ hc (fun b hb => ?_) (by simpa [total] using hm) h0
    rw [List.mem_singleton] at hb
    subst hb
    exact ⟨hne, hn⟩

theorem histogram_nodup (stride : Nat) {keys : List Nat} (hk : ∀ k ∈ keys, ∃ c, k = key c) :
    ((histogram stride (sortKeys keys)).map ColorCount.rgba).Nodup := by
  rw [histogram_colours]
  have hd := Palette.palette_nodup keys
  have hperm : (sortKeys keys).Perm keys := sortBy_perm _ _
  rw [List.nodup_iff_pairwise_ne] at hd ⊢
  rw [List.pairwise_map]
  refine hd.imp_of_mem ?_
  intro a b ha hb hab he
  obtain ⟨c, rfl⟩ := hk a (hperm.mem_iff.mp ((mem_dedup _).mp ha))
  obtain ⟨d, rfl⟩ := hk b (hperm.mem_iff.mp ((mem_dedup _).mp hb))
  rw [unkey_key, unkey_key] at he
  exact hab (by rw [he])

theorem truncate_nodup (env : Env) {l : List ColorCount} (h : (l.map ColorCount.rgba).Nodup) : ((truncateHist env l).map ColorCount.rgba).Nodup := by
  unfold truncateHist
  split
  · have hp := sortBy_perm (fun a b => a.1.count > b.1.count ∨ (a.1.count = b.1.count ∧ env.tie a.2 < env.tie b.2)) l.zipIdx
    generalize sortBy _ l.zipIdx = s at hp ⊢
    have hpm := hp.map Prod.fst
    rw [List.zipIdx_map_fst] at hpm
    have hn := (hpm.map ColorCount.rgba).nodup_iff.2 h
    exact hn.sublist ((List.take_sublist _ _).map _)
  · exact h

/-- C118: the palette has as many entries as asked for, or one for each of the colours that are looked at if there are fewer. -/
theorem C118 (env : Env) {ct : ColorType} (hct : ct = .rgb ∨ ct = .rgba) (data : List UInt8) (n : Nat) (hl : data.length = n * ct.bytesPerPixel)
    {m : Nat} (h0 : 0 < m) (hm : m ≤ 256) (d : Bool) {q : List Rgba × List UInt8} (h : quantizeImage env data ct m d = .ok q)
    (l : List Rgba) (hn : l.Nodup) (hall : ∀ c, c ∈ l ↔ ∃ t, t * max (n / 50000) 1 < n ∧ c = pixelAt data ct.bytesPerPixel (t * max (n / 50000) 1)) :
    q.1.length = min m l.length := by
  have hb : ct.bytesPerPixel = 3 ∨ ct.bytesPerPixel = 4 := by rcases hct with rfl | rfl <;> simp [ColorType.bytesPerPixel]
  unfold quantizeImage at h
  dsimp only at h
  generalize ct.bytesPerPixel = bpp at *
  rw [if_neg (by omega), hl, Nat.mul_div_cancel _ (by omega : 0 < bpp)] at h
  have hs := sampleLoop_mem hb hl (stride := max (n / 50000) 1) (by omega) (n + 1) 0 (by omega) (by omega)
  unfold Oks at hs
  obtain ⟨keys, hk, hmem⟩ := hs
  rw [Nat.zero_mul] at hk
  rw [hk, ok_bind, pixels_ok hb hl, ok_bind] at h
  generalize max (n / 50000) 1 = stride at *
  simp only [Nat.zero_add] at hmem
  have hkey : ∀ k ∈ keys, ∃ c, k = key c := fun k hk => by
    obtain ⟨t, -, e⟩ := (hmem k).1 hk
    exact ⟨_, e⟩
  have hnd := histogram_nodup stride hkey
  have htr := truncate_nodup env hnd
  obtain ⟨-, -, t3, t4⟩ := truncate_ok env (histogram stride (sortKeys keys))
  have hlen : (histogram stride (sortKeys keys)).length = l.length := by
    rw [← List.length_map (f := ColorCount.rgba)]
    refine (List.perm_ext_iff_of_nodup hnd hn).2 (fun c => ?_) |>.length_eq
    rw [histogram_colours, List.mem_map, hall]
    have hperm : (sortKeys keys).Perm keys := sortBy_perm _ _
    constructor
    · rintro ⟨k, hk, rfl⟩
      obtain ⟨t, ht, rfl⟩ := (hmem k).1 (hperm.mem_iff.mp ((mem_dedup _).mp hk))
      exact ⟨t, ht, unkey_key _⟩
    · rintro ⟨t, ht, rfl⟩
      exact ⟨_, (mem_dedup _).mpr (hperm.mem_iff.mpr ((hmem _).2 ⟨t, ht, rfl⟩)), unkey_key _⟩
  generalize histogram stride (sortKeys keys) = hist at *
  generalize truncateHist env hist = colors at *
  have hcl : (hist.length ≤ 8192 → colors.length = hist.length) := fun h => by rw [t3 h]
  unfold quantizeWith at h
  by_cases hc : colors.length ≤ m
  · rw [if_pos hc] at h
    cases h
    show (colors.map ColorCount.rgba).length = _
    rw [List.length_map]
    omega
  · rw [if_neg hc] at h
    cases hp : medianCut colors m with
    | error e => rw [hp] at h; cases h
    | ok p =>
      rw [hp, ok_bind] at h
      have hpl := C118_cut htr h0 (by omega) hp
      have : q.1 = p := by
        cases d with
        | false => cases h; rfl
        | true =>
          rw [if_pos rfl] at h
          cases hd : ditherLoop env p ((List.range n).map (pixelAt data bpp)) 0 with
          | error e => rw [hd] at h; cases h
          | ok idx => rw [hd] at h; cases h; rfl
      rw [this, hpl]
      omega

/-- Three colours and a palette of two. -/
example : (quantizeImage ⟨id, fun _ => (0, 0, 0)⟩ [0, 0, 0, 9, 9, 9, 200, 200, 200, 9, 9, 9] .rgb 2 false).map (fun q => q.1.length) = .ok 2 := by
  decide +kernel

example {q : List Rgba × List UInt8} (h : quantizeImage ⟨id, fun _ => (0, 0, 0)⟩ [0, 0, 0, 9, 9, 9, 200, 200, 200, 9, 9, 9] .rgb 2 true = .ok q) :
    q.1.length = 2 := by
  refine C118 _ (.inl rfl) _ 4 rfl (by decide) (by decide) true h [(0, 0, 0, 255), (9, 9, 9, 255), (200, 200, 200, 255)] (by decide) fun c => ?_
  constructor
  · intro hc
    simp only [List.mem_cons, List.not_mem_nil, or_false] at hc
    rcases hc with rfl | rfl | rfl
    · exact ⟨0, by decide, by decide⟩
    · exact ⟨1, by decide, by decide⟩
    · exact ⟨2, by decide, by decide⟩
  · rintro ⟨t, ht, rfl⟩
    have : t < 4 := by simpa using ht
    match t, this with
    | 0, _ => decide
    | 1, _ => decide
    | 2, _ => decide
    | 3, _ => decide

end Pixo.Props.MedianCut
