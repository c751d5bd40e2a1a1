import Verif.Proof.JpegDecodeAny
/-
The image the JPEG decoder makes of the scan of any baseline file without restart markers.
-/
namespace Pixo.JpegDecode
open Pixo Pixo.Idct Spec Pixo.Jpeg

theorem mul_div_factor {y v m : Nat} (hv : 0 < v) : y * v / (v * m) = y / m := by
  rw [Nat.mul_comm y v, Nat.mul_div_mul_left _ _ hv]

theorem index_lt {X Y cols rows h v mh mv : Nat} (hmh : 0 < mh) (hmv : 0 < mv) (hX : X < cols * (h * mh * 8)) (hY : Y < rows * (v * mv * 8)) :
    Y / mv * (cols * h * 8) + X / mh < cols * h * 8 * (rows * v * 8) := by
  have hx : X / mh < cols * h * 8 := (Nat.div_lt_iff_lt_mul hmh).2 (by
    rw [show cols * h * 8 * mh = cols * (h * mh * 8) by simp only [Nat.mul_assoc, Nat.mul_comm, Nat.mul_left_comm]]; exact hX)
  have hy : Y / mv < rows * v * 8 := (Nat.div_lt_iff_lt_mul hmv).2 (by
    rw [show rows * v * 8 * mv = rows * (v * mv * 8) by simp only [Nat.mul_assoc, Nat.mul_comm, Nat.mul_left_comm]]; exact hY)
  have := Nat.mul_le_mul_right (cols * h * 8) hy
  rw [Nat.succ_mul, Nat.mul_comm (rows * v * 8)] at this
  omega

theorem getD_default {α : Type} {l : List α} {i : Nat} (a b : α) (h : i < l.length) : l.getD i a = l.getD i b := by
  simp only [List.getD_eq_getElem?_getD]
  rw [List.getElem?_eq_getElem h]
  rfl

theorem decodeScan_any (ck : Bool) (s : State) (F : T81.Frame) (ts : T81.Tables) (hhas : Has s ts)
    (hw : s.width = F.width) (hh : s.height = F.height)
    (hsame : s.components.map (fun c => (c.h, c.v)) = F.comps.map (fun c => (c.h, c.v)))
    (hH : s.maxH = (F.comps.map (·.h)).foldr max 0) (hV : s.maxV = (F.comps.map (·.v)).foldr max 0)
    (hri : s.restart = 0 ∨ T81.mcuCount F ≤ s.restart) (hshown : F.Plain) (px : Nat → List Int → List UInt8)
    (mcus : List (List (Nat × List Int))) (bytes tail : List UInt8) (hseg : T81.Segment ts mcus.flatten bytes)
    (hlen : mcus.length = T81.mcuCount F)
    (hsh : ∀ (k : Nat) (m : List (Nat × List Int)), mcus[k]? = some m → m.map (·.1) = (T81.blocksAt F k).map (·.1))
    (hb : ∀ b ∈ mcus.flatten, BlockOk ck s px b) :
    ∃ (img : Image) (planes : Nat → Nat → Nat → UInt8),
      decodeScan ck s (bytes ++ 0xFF :: 0xD9 :: tail) = .ok img ∧ img.width = F.width ∧ img.height = F.height ∧
      (∀ (k : Nat) (m : List (Nat × List Int)) (j c : Nat) (zz : List Int) (c' x y : Nat), mcus[k]? = some m →
        m[j]? = some (c, zz) → (T81.blocksAt F k)[j]? = some (c', x, y) →
        ∀ yy < 8, ∀ xx < 8, planes c' (y + yy) (x + xx) = (px c zz).getD (8 * yy + xx) 0) ∧
      (F.comps.length = 1 → img.colorType = .gray ∧ img.pixels.length = F.height * F.width ∧
        ∀ Y < F.height, ∀ X < F.width, img.pixels.getD (Y * F.width + X) 0 = T81.covering F planes 0 Y X) ∧
      (F.comps.length = 3 → img.colorType = .rgb ∧ img.pixels.length = F.height * (F.width * 3) ∧
        ∀ Y < F.height, ∀ X < F.width, ∀ ch < 3, img.pixels.getD (3 * (Y * F.width + X) + ch) 0 =
          (toRgb (T81.covering F planes 0 Y X).toNat (T81.covering F planes 1 Y X).toNat
            (T81.covering F planes 2 Y X).toNat).getD ch 0) := by
  have hgrid := fun k => blocksAt_grid F k
  have hmod := fun k => blocksAt_mod F k
  have hpos : 0 < s.maxH ∧ 0 < s.maxV := by
    rcases hshown with ⟨c, h, h1, h2⟩ | ⟨c0, c1, c2, h, h1, h2, -⟩ <;> rw [hH, hV, h] <;>
      simp only [List.map_cons, List.foldr_cons] <;> omega
  have hg : T81.mcusPerRow F = divCeil s.width (s.maxH * 8) ∧
      T81.mcuCount F = divCeil s.width (s.maxH * 8) * divCeil s.height (s.maxV * 8) := by
    unfold T81.mcusPerRow T81.mcuCount
    rw [hH, hV, hw, hh]
    rcases hshown with ⟨c, h, h1, h2⟩ | ⟨c0, c1, c2, h, h1, h2, -⟩
    · rw [h]
      simp only [List.map_cons, List.foldr_cons, List.map_nil, List.foldr_nil, h1, h2]
      exact ⟨rfl, rfl⟩
    · rw [h]
      simp only [Nat.mul_comm 8]
      exact ⟨rfl, rfl⟩
  obtain ⟨hg1, hg2⟩ := hg
  have hwle : F.width ≤ divCeil s.width (s.maxH * 8) * (s.maxH * 8) := by rw [← hw]; exact le_divCeil _ _ (by omega)
  have hhle : F.height ≤ divCeil s.height (s.maxV * 8) * (s.maxV * 8) := by rw [← hh]; exact le_divCeil _ _ (by omega)
  generalize hC : divCeil s.width (s.maxH * 8) = cols at *
  generalize hR : divCeil s.height (s.maxV * 8) = rows at *
  have hlens : ((List.range (cols * rows)).map (fun k => gridOf (s.components.map (fun c => (c.h, c.v)))
      (k % cols) (k / cols))).map List.length = mcus.map List.length := by
    apply List.ext_getElem?
    intro k
    rw [List.getElem?_map, List.getElem?_map, List.getElem?_map]
    by_cases hk : k < cols * rows
    · rw [List.getElem?_range hk, List.getElem?_eq_getElem (by omega)]
      have := congrArg List.length (hsh k _ (List.getElem?_eq_getElem (by omega)))
      rw [List.length_map, List.length_map] at this
      simp only [Option.map_some, this, hsame, ← hg1, ← hgrid, List.length_map]
    · rw [List.getElem?_eq_none (by rw [List.length_range]; omega), List.getElem?_eq_none (by omega)]
      rfl
  have hplaces : (places (s.components.map (fun c => (c.h, c.v))) cols (cols * rows)).map (·.1) = mcus.flatten.map (·.1) := by
    unfold places
    rw [List.flatMap_def, List.map_flatten, List.map_flatten, List.map_map]
    congr 1
    apply List.ext_getElem?
    intro k
    rw [List.getElem?_map, List.getElem?_map]
    by_cases hk : k < cols * rows
    · rw [List.getElem?_range hk, List.getElem?_eq_getElem (by omega)]
      simp only [Option.map_some, Option.some.injEq]
      rw [hsh k _ (List.getElem?_eq_getElem (by omega))]
      show (gridOf (s.components.map (fun c => (c.h, c.v))) (k % cols) (k / cols)).map (·.1) = _
      rw [hsame, ← hg1, ← hgrid, List.map_map]
      rfl
    · rw [List.getElem?_eq_none (by rw [List.length_range]; omega), List.getElem?_eq_none (by omega)]
      rfl
  obtain ⟨st, e, hd, hpl, hsamp⟩ := mcuLoop_spec ck s ts hhas px cols rows (by rw [← hg2]; exact hri) mcus.flatten bytes hseg hb
    hplaces
  have hend : (bytes ++ 0xFF :: 0xD9 :: tail).take (entropyEnd (bytes ++ 0xFF :: 0xD9 :: tail)) = bytes := by
    obtain ⟨raw, _, rfl, _⟩ := hseg
    rw [entropyEnd_stuff, List.take_left]
  have hscan : decodeScan ck s (bytes ++ 0xFF :: 0xD9 :: tail) = (if s.components.length = 1 then do
      let c ← getChecked s.components 0
      let d ← getChecked st.data 0
      return ⟨F.width, F.height, grayPixels d (cols * c.h * 8) F.width F.height, .gray⟩
    else do
      let pixels ← rgbPixels st.data F.width F.height s.components s.maxH s.maxV
      return ⟨F.width, F.height, pixels, .rgb⟩) := by
    unfold decodeScan
    rw [hend, hC, hR]
    simp only
    rw [e, ok_bind, hw, hh]
  have hplanes : ∀ (k : Nat) (m : List (Nat × List Int)) (j c : Nat) (zz : List Int) (c' x y : Nat), mcus[k]? = some m →
        m[j]? = some (c, zz) → (T81.blocksAt F k)[j]? = some (c', x, y) →
        ∀ yy < 8, ∀ xx < 8, sampleAt s.components cols st.data c' (y + yy) (x + xx) =
          (px c zz).getD (8 * yy + xx) 0 := by
    intro k m j c zz c' x y hk hj hj' yy hy xx hx
    obtain ⟨m1, m2⟩ := hmod k c' x y (List.mem_of_getElem? hj')
    have hkl : k < cols * rows := by
      have := (List.getElem?_eq_some_iff.1 hk).1
      omega
    have hz := zip_flatten_mem _ mcus hlens k j _ m (c', x / 8, y / 8) (c, zz)
      (by rw [List.getElem?_map, List.getElem?_range hkl]; rfl) hk
      (by simp only []; rw [hsame, ← hg1, ← hgrid, List.getElem?_map, hj']; rfl) hj
    have := hsamp c' (x / 8) (y / 8) (c, zz) (by unfold places; rw [List.flatMap_def]; exact hz) yy hy xx hx
    rw [m1, m2] at this
    exact this
  rcases hshown with ⟨c, hc, h1, h2⟩ | ⟨c0, c1, c2, hc, p1, p2, ⟨a1, q1⟩, ⟨b1, q2⟩, ⟨a2, q3⟩, ⟨b2, q4⟩⟩
  · have hcl : ∃ k, s.components = [k] ∧ k.h = 1 ∧ k.v = 1 := by
      rw [hc] at hsame
      match h : s.components with
      | [k] =>
        rw [h] at hsame
        simp only [List.map_cons, List.map_nil, List.cons.injEq, Prod.mk.injEq, and_true] at hsame
        exact ⟨k, rfl, by omega, by omega⟩
      | [] => rw [h] at hsame; simp at hsame
      | _ :: _ :: _ => rw [h] at hsame; simp at hsame
    obtain ⟨k, hk, k1, k2⟩ := hcl
    have hd1 : st.data.length = 1 := by rw [hd, hk]; rfl
    obtain ⟨d, hdd⟩ : ∃ d, st.data = [d] := by
      match h : st.data with
      | [d] => exact ⟨d, rfl⟩
      | [] => rw [h] at hd1; cases hd1
      | _ :: _ :: _ => rw [h] at hd1; simp at hd1
    refine ⟨⟨F.width, F.height, grayPixels d (cols * k.h * 8) F.width F.height, .gray⟩,
      sampleAt s.components cols st.data, ?_, rfl, rfl, hplanes, ?_, ?_⟩
    · rw [hscan, if_pos (by rw [hk]; rfl), hk, hdd]; rfl
    · intro _
      refine ⟨rfl, ?_, ?_⟩
      · simp only [grayPixels, List.flatMap_def]
        rw [Resize.flatten_length _ F.width _ (fun i _ => by simp)]
      · intro Y hY X hX
        simp only
        rw [grayPixels_getD _ _ _ _ _ _ hY hX]
        unfold T81.covering
        rw [hc]
        simp only [List.getElem?_cons_zero, List.map_cons, List.foldr_cons, List.map_nil, List.foldr_nil, h1, h2, Nat.mul_one,
          Nat.max_eq_left (show 0 ≤ 1 by decide), Nat.div_one]
        rw [sampleAt, hdd, hk]
        rfl
    · intro h; rw [hc] at h; simp at h
  · have hcl : ∃ k0 k1 k2, s.components = [k0, k1, k2] ∧ k0.h = c0.h ∧ k0.v = c0.v ∧ k1.h = c1.h ∧ k1.v = c1.v ∧ k2.h = c2.h ∧
        k2.v = c2.v := by
      rw [hc] at hsame
      match h : s.components with
      | [k0, k1, k2] =>
        rw [h] at hsame
        simp only [List.map_cons, List.map_nil, List.cons.injEq, Prod.mk.injEq, and_true] at hsame
        exact ⟨k0, k1, k2, rfl, by omega, by omega, by omega, by omega, by omega, by omega⟩
      | [] => rw [h] at hsame; simp at hsame
      | [_] => rw [h] at hsame; simp at hsame
      | [_, _] => rw [h] at hsame; simp at hsame
      | _ :: _ :: _ :: _ :: _ => rw [h] at hsame; simp at hsame
    obtain ⟨k0, k1, k2, hk, e0h, e0v, e1h, e1v, e2h, e2v⟩ := hcl
    have pos : ∀ {a b c : Nat}, 0 < c → c = a * b → 0 < a ∧ 0 < b := by
      intro a b c h h'
      subst h'
      exact ⟨Nat.pos_of_mul_pos_right h, Nat.pos_of_mul_pos_left h⟩
    obtain ⟨r1, r2⟩ := pos p1 q1
    obtain ⟨r3, r4⟩ := pos p2 q2
    obtain ⟨r5, r6⟩ := pos p1 q3
    obtain ⟨r7, r8⟩ := pos p2 q4
    have le_of : ∀ {a b c : Nat}, 0 < b → c = a * b → a ≤ c := by
      intro a b c h h'
      rw [h']
      exact Nat.le_mul_of_pos_right a h
    have hH' : (F.comps.map (·.h)).foldr max 0 = c0.h := by
      rw [hc]
      simp only [List.map_cons, List.foldr_cons, List.map_nil, List.foldr_nil]
      have := le_of r2 q1
      have := le_of r6 q3
      omega
    have hV' : (F.comps.map (·.v)).foldr max 0 = c0.v := by
      rw [hc]
      simp only [List.map_cons, List.foldr_cons, List.map_nil, List.foldr_nil]
      have := le_of r4 q2
      have := le_of r8 q4
      omega
    have hd3 : st.data.length = 3 := by rw [hd, hk]; rfl
    obtain ⟨d0, d1, d2, hdd⟩ : ∃ d0 d1 d2, st.data = [d0, d1, d2] := by
      match h : st.data with
      | [d0, d1, d2] => exact ⟨d0, d1, d2, rfl⟩
      | [] => rw [h] at hd3; simp at hd3
      | [_] => rw [h] at hd3; simp at hd3
      | [_, _] => rw [h] at hd3; simp at hd3
      | _ :: _ :: _ :: _ :: _ => rw [h] at hd3; simp at hd3
    have l1 : d1.length = cols * c1.h * 8 * (rows * c1.v * 8) := by
      have := hpl 1 k1 (by rw [hk]; rfl)
      rw [hdd, e1h, e1v] at this; exact this
    have l2 : d2.length = cols * c2.h * 8 * (rows * c2.v * 8) := by
      have := hpl 2 k2 (by rw [hk]; rfl)
      rw [hdd, e2h, e2v] at this; exact this
    rw [hH'] at hH
    rw [hV'] at hV
    have hpx := rgbPixels_eq d0 d1 d2 F.width F.height k0 k1 k2 s.maxH s.maxV a1 b1 a2 b2
      ⟨by omega, by rw [hH, e1h, q1, Nat.mul_div_cancel_left _ r1]⟩ ⟨by omega, by rw [hV, e1v, q2, Nat.mul_div_cancel_left _ r3]⟩
      ⟨by omega, by rw [hH, e2h, q3, Nat.mul_div_cancel_left _ r5]⟩ ⟨by omega, by rw [hV, e2v, q4, Nat.mul_div_cancel_left _ r7]⟩
      r2 r4 r6 r8
    rw [← hw, hC, hw, e1h, e2h] at hpx
    obtain ⟨P, hP⟩ : ∃ P, rgbPixels [d0, d1, d2] F.width F.height [k0, k1, k2] s.maxH s.maxV = .ok P := ⟨_, hpx⟩
    rw [hP] at hpx
    injection hpx with hpx
    refine ⟨⟨F.width, F.height, P, .rgb⟩, sampleAt s.components cols st.data, ?_, rfl, rfl, hplanes, ?_, ?_⟩
    · rw [hscan, if_neg (by rw [hk]; simp), hk, hdd, hP]; rfl
    · intro h; rw [hc] at h; simp at h
    · intro _
      refine ⟨rfl, ?_, ?_⟩
      · simp only
        rw [hpx, Resize.flatten_length _ (F.width * 3) _ (fun i _ => Resize.flatten_length _ 3 _ (fun j _ => rfl))]
      · intro Y hY X hX ch hch
        simp only
        rw [hpx, rgb_getD _ _ _ (fun _ _ => rfl) Y X ch hY hX hch]
        rw [hH] at hwle
        rw [hV] at hhle
        rw [getD_default 128 0 (by
            rw [l1]; exact index_lt r2 r4 (by rw [← q1]; omega) (by rw [← q2]; omega)),
          getD_default (l := d2) 128 0 (by
            rw [l2]; exact index_lt r6 r8 (by rw [← q3]; omega) (by rw [← q4]; omega))]
        unfold T81.covering
        rw [hH', hV', hc, hH]
        simp only [List.getElem?_cons_zero, List.getElem?_cons_succ, sampleAt, hdd, hk, Nat.mul_div_cancel _ p1,
          Nat.mul_div_cancel _ p2]
        have f1 : X * c1.h / c0.h = X / a1 := by rw [q1]; exact mul_div_factor r1
        have f2 : Y * c1.v / c0.v = Y / b1 := by rw [q2]; exact mul_div_factor r3
        have f3 : X * c2.h / c0.h = X / a2 := by rw [q3]; exact mul_div_factor r5
        have f4 : Y * c2.v / c0.v = Y / b2 := by rw [q4]; exact mul_div_factor r7
        rw [f1, f2, f3, f4]
        unfold hOf
        simp only [List.getElem?_cons_zero, List.getElem?_cons_succ, Option.map_some, Option.getD_some, e0h, e1h, e2h]
        rfl

end Pixo.JpegDecode
