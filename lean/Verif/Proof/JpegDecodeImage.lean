import Verif.Proof.JpegDecodePlaces
import Verif.Proof.JpegSamples
import Verif.Proof.Resize
/-
The image the JPEG decoder makes of a scan without restart intervals.
-/
namespace Pixo.JpegDecode
open Pixo Pixo.Idct Spec Pixo.Jpeg

theorem entropyEnd_stuff (raw tail : List UInt8) :
    entropyEnd (stuff raw ++ 0xFF :: 0xD9 :: tail) = (stuff raw).length := by
  induction raw with
  | nil => rfl
  | cons b raw ih =>
    rw [T81.stuff_cons]
    have hne : ∃ c tl, stuff raw ++ 0xFF :: 0xD9 :: tail = c :: tl := by
      cases stuff raw with
      | nil => exact ⟨_, _, rfl⟩
      | cons c tl => exact ⟨_, _, rfl⟩
    obtain ⟨c, tl, e⟩ := hne
    by_cases hb : b = 0xFF
    · subst hb
      have h2 : entropyEnd (0x00 :: c :: tl) = 1 + entropyEnd (c :: tl) := by
        rw [entropyEnd, if_neg (by rintro ⟨h, _⟩; exact absurd h (by decide))]
      rw [if_pos rfl, List.append_assoc, e]
      rw [show [0xFF, (0 : UInt8)] ++ c :: tl = 0xFF :: 0x00 :: c :: tl from rfl]
      rw [entropyEnd, if_neg (by rintro ⟨_, h, _⟩; exact h rfl), h2, ← e, ih]
      simp only [List.length_append, List.length_cons, List.length_nil]; omega
    · rw [if_neg hb, List.append_assoc, e, List.singleton_append, entropyEnd, if_neg (by rintro ⟨h, _⟩; exact hb h), ← e, ih]
      simp only [List.length_append, List.length_cons, List.length_nil]

/-- The MCU loop on a scan: every block is decoded and put into its place. -/
theorem mcuLoop_spec (ck : Bool) (s : State) (ts : T81.Tables) (hs : Has s ts)
    (px : Nat → List Int → List UInt8) (cols rows : Nat) (hri : s.restart = 0 ∨ cols * rows ≤ s.restart) (blocks : List (Nat × List Int)) (bytes : List UInt8)
    (hseg : T81.Segment ts blocks bytes) (hb : ∀ b ∈ blocks, BlockOk ck s px b)
    (hpos : (places (s.components.map (fun c => (c.h, c.v))) cols (cols * rows)).map (·.1) = blocks.map (·.1)) :
    ∃ st, mcuLoop ck s cols ((List.range rows).flatMap (fun my => (List.range cols).map (fun mx => (mx, my)))) 0
        ⟨⟨bytes, 0, 0, 0⟩, s.components.map (fun _ => 0),
          s.components.map (fun c => List.replicate (cols * c.h * 8 * (rows * c.v * 8)) (0 : UInt8))⟩ = .ok st ∧
      st.data.length = s.components.length ∧
      (∀ i c, s.components[i]? = some c → (st.data.getD i []).length = cols * c.h * 8 * (rows * c.v * 8)) ∧
      ∀ i bx byy b, ((i, bx, byy), b) ∈ (places (s.components.map (fun c => (c.h, c.v))) cols (cols * rows)).zip blocks →
        ∀ y < 8, ∀ x < 8, sampleAt s.components cols st.data i (byy * 8 + y) (bx * 8 + x) = (px b.1 b.2).getD (8 * y + x) 0 := by
  obtain ⟨raw, bits, rfl, hraw, hblocks⟩ := hseg
  generalize hst0 : (⟨⟨stuff raw, 0, 0, 0⟩, s.components.map (fun _ => 0),
    s.components.map (fun c => List.replicate (cols * c.h * 8 * (rows * c.v * 8)) (0 : UInt8))⟩ : Scan) = st0
  have hr0 : Bits st0.reader (bits ++ List.replicate (padLen bits.length) true) := by
    rw [← hst0, ← hraw]; exact bits_new raw
  have hd0 : st0.data.length = s.components.length := by rw [← hst0]; simp
  have hpl : ∀ i c, s.components[i]? = some c → (st0.data.getD i []).length = cols * c.h * 8 * (rows * c.v * 8) := by
    intro i c hc
    rw [← hst0, List.getD_eq_getElem?_getD, List.getElem?_map, hc]
    simp only [Option.map_some, Option.getD_some, List.length_replicate]
  obtain ⟨st, e, _, hdat⟩ := blocksLoop_spec ck s ts cols hs px hblocks hb _ hpos st0
    (by intro i hi; rw [← hst0]; simp [hi]) hd0 _ hr0
  refine ⟨st, ?_, ?_, ?_, ?_⟩
  · rw [mcuLoop_eq ck s _ _ _ (by rw [range_grid, List.length_map, List.length_range, Nat.zero_add]; exact hri), mcus_places, e]; rfl
  · rw [hdat, (place_length _ _ _ _ _).1, hd0]
  · intro i c hc
    rw [hdat, (place_length _ _ _ _ _).2, hpl i c hc]
  · intro i bx byy b hmem y hy x hx
    rw [hdat]
    have hin : ∀ (e : (Nat × Nat × Nat) × (Nat × List Int)),
        e ∈ (places (s.components.map (fun c => (c.h, c.v))) cols (cols * rows)).zip blocks →
        ∃ c, s.components[e.1.1]? = some c ∧ e.1.2.1 + 1 ≤ cols * c.h ∧ e.1.2.2 + 1 ≤ rows * c.v := by
      rintro ⟨⟨i, bx, byy⟩, b⟩ he
      have h1 := (List.of_mem_zip he).1
      unfold places at h1
      obtain ⟨k, hk, h2⟩ := List.mem_flatMap.1 h1
      obtain ⟨p, hp, a, b, ha, hb, rfl, rfl⟩ := gridOf_mem h2
      rw [List.getElem?_map] at hp
      obtain ⟨c, hc, rfl⟩ := Option.map_eq_some_iff.1 hp
      have hk' := List.mem_range.1 hk
      have hcols : 0 < cols := by
        rcases Nat.eq_zero_or_pos cols with h | h
        · rw [h, Nat.zero_mul] at hk'; omega
        · exact h
      refine ⟨c, hc, ?_, ?_⟩
      · have := Nat.mul_le_mul_right c.h (Nat.mod_lt k hcols)
        rw [Nat.succ_mul] at this
        simp only at ha ⊢; omega
      · have h3 : k / cols < rows := (Nat.div_lt_iff_lt_mul hcols).2 (by rw [Nat.mul_comm]; exact hk')
        have := Nat.mul_le_mul_right c.v h3
        rw [Nat.succ_mul] at this
        simp only at hb ⊢; omega
    have hOfc : ∀ i c, s.components[i]? = some c → hOf s.components i = c.h := by
      intro i c hc; unfold hOf; rw [hc]; rfl
    obtain ⟨c, hc, h1, h2⟩ := hin _ hmem
    simp only at hc h1 h2
    apply place_spec _ _ _ _ _ ?_ ?_ i bx byy b hmem ?_ ?_ y x hy hx
    · intro e he
      obtain ⟨c, hc, h1, _⟩ := hin e he
      rw [hOfc _ c hc]; omega
    · have hlen : (places (s.components.map (fun c => (c.h, c.v))) cols (cols * rows)).length = blocks.length := by
        simpa using congrArg List.length hpos
      rw [List.map_fst_zip (by omega)]
      exact places_nodup _ _ _
    · rw [hd0]; exact (List.getElem?_eq_some_iff.1 hc).1
    · rw [hpl i c hc, hOfc i c hc, Nat.mul_comm]
      exact Nat.mul_le_mul_left _ (by omega)

/-! ### Pixels -/

theorem grayPixels_getD (d : List UInt8) (W w h Y X : Nat) (hY : Y < h) (hX : X < w) :
    (grayPixels d W w h).getD (Y * w + X) 0 = d.getD (Y * W + X) 0 := by
  unfold grayPixels
  rw [List.flatMap_def, List.getD_eq_getElem?_getD,
    Resize.flatten_get h w _ (fun i _ => by simp) hY hX, List.getElem?_map, List.getElem?_range hX]
  rfl

theorem rgbPixels_eq (d0 d1 d2 : List UInt8) (width height : Nat) (c0 c1 c2 : Component) (maxH maxV hr vr hr' vr' : Nat)
    (h1 : 0 < c1.h ∧ maxH / c1.h = hr) (v1 : 0 < c1.v ∧ maxV / c1.v = vr)
    (h2 : 0 < c2.h ∧ maxH / c2.h = hr') (v2 : 0 < c2.v ∧ maxV / c2.v = vr') (hhr : 0 < hr) (hvr : 0 < vr)
    (hhr' : 0 < hr') (hvr' : 0 < vr') :
    rgbPixels [d0, d1, d2] width height [c0, c1, c2] maxH maxV = .ok
      ((List.range height).map (fun y => ((List.range width).map (fun x =>
        toRgb ((d0.getD (y * (divCeil width (maxH * 8) * maxH * 8) + x) 0).toNat)
          ((d1.getD (y / vr * (divCeil width (maxH * 8) * c1.h * 8) + x / hr) 128).toNat)
          ((d2.getD (y / vr' * (divCeil width (maxH * 8) * c2.h * 8) + x / hr') 128).toNat))).flatten)).flatten := by
  have hdiv : ∀ a b, 0 < b → divChecked a b = .ok (a / b) := fun a b hb => by
    unfold divChecked; rw [if_neg (by omega)]
  unfold rgbPixels
  rw [getChecked_some (a := c1) rfl, ok_bind, getChecked_some (a := c2) rfl, ok_bind, hdiv _ _ h1.1, ok_bind,
    hdiv _ _ v1.1, ok_bind, hdiv _ _ h2.1, ok_bind, hdiv _ _ v2.1, ok_bind, getChecked_some (a := d0) rfl, ok_bind,
    getChecked_some (a := d1) rfl, ok_bind, getChecked_some (a := d2) rfl, ok_bind, h1.2, v1.2, h2.2, v2.2]
  generalize divCeil width (maxH * 8) = cols
  show (List.mapM _ (List.range height) >>= fun rows => pure rows.flatten) = _
  rw [mapM_pure _ (fun y => ((List.range width).map (fun x =>
        toRgb ((d0.getD (y * (cols * maxH * 8) + x) 0).toNat)
          ((d1.getD (y / vr * (cols * c1.h * 8) + x / hr) 128).toNat)
          ((d2.getD (y / vr' * (cols * c2.h * 8) + x / hr') 128).toNat))).flatten) _ ?_]
  · rfl
  · intro y _
    rw [hdiv _ _ hvr, ok_bind, hdiv _ _ hvr', ok_bind, mapM_pure _ (fun x =>
        toRgb ((d0.getD (y * (cols * maxH * 8) + x) 0).toNat)
          ((d1.getD (y / vr * (cols * c1.h * 8) + x / hr) 128).toNat)
          ((d2.getD (y / vr' * (cols * c2.h * 8) + x / hr') 128).toNat)) _ ?_]
    · rfl
    · intro x _
      rw [hdiv _ _ hhr, ok_bind, hdiv _ _ hhr', ok_bind]
      rfl

theorem rgb_getD (w h : Nat) (g : Nat → Nat → List UInt8) (hg : ∀ y x, (g y x).length = 3) (Y X ch : Nat) (hY : Y < h)
    (hX : X < w) (hch : ch < 3) :
    (((List.range h).map (fun y => ((List.range w).map (fun x => g y x)).flatten)).flatten).getD (3 * (Y * w + X) + ch) 0 =
      (g Y X).getD ch 0 := by
  have hrow : ∀ y, (((List.range w).map (fun x => g y x)).flatten).length = w * 3 :=
    fun y => Resize.flatten_length w 3 _ (fun x _ => hg y x)
  have hidx : 3 * (Y * w + X) + ch = Y * (w * 3) + (X * 3 + ch) := by
    rw [Nat.mul_add, ← Nat.mul_assoc, ← Nat.mul_assoc, Nat.mul_comm 3 Y, Nat.mul_assoc, Nat.mul_comm 3 w, Nat.mul_assoc]
    omega
  rw [hidx, List.getD_eq_getElem?_getD, Resize.flatten_get h (w * 3) _ (fun y _ => hrow y) hY (by omega),
    Resize.flatten_get w 3 _ (fun x _ => hg Y x) hX hch, List.getD_eq_getElem?_getD]

end Pixo.JpegDecode
