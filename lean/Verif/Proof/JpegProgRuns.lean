import Verif.Proof.JpegProgFile
/-
Which symbols the standard tables lack: runs of more than one end of band.
-/
namespace Pixo.Jpeg
open Pixo Spec Spec.T81

/-- No band with a zero at its end is followed by a band of zeros. -/
def NoRun : List (List Int) → Prop
  | a :: b :: l => ¬(a.getLast? = some 0 ∧ trimZeros b = []) ∧ NoRun (b :: l)
  | _ => True

theorem trim_lt_iff {b : List Int} (h : trimZeros b ≠ []) : (trimZeros b).length < b.length ↔ b.getLast? = some 0 := by
  have he := trimZeros_eq b
  have hl := trimZeros_last b
  constructor
  · intro hlt
    rw [he, List.getLast?_append]
    rw [show b.length - (trimZeros b).length = b.length - (trimZeros b).length - 1 + 1 by omega, List.replicate_succ',
      List.getLast?_append]
    rfl
  · intro hz
    apply Classical.byContradiction
    intro hge
    have : b.length - (trimZeros b).length = 0 := by omega
    rw [this, List.replicate_zero, List.append_nil] at he
    rw [← he] at hl
    exact hl hz

theorem last_of_zero {b : List Int} (h : trimZeros b = []) (hb : b ≠ []) : b.getLast? = some 0 := by
  have := trimZeros_nil h
  have hlen : 0 < b.length := List.length_pos_iff.mpr hb
  rw [this, show b.length = b.length - 1 + 1 by omega, List.replicate_succ', List.getLast?_append]
  rfl

/-- Without runs all symbols are those of sequential mode. -/
theorem bandSyms_ac (bands : List (List Int)) (run : Nat) (hr : run = 0 ∨ (run = 1 ∧ ∀ b l, bands = b :: l → trimZeros b ≠ []))
    (hn : NoRun bands) (hb : ∀ b ∈ bands, AcRange b ∧ b ≠ []) : ∀ s ∈ bandSyms bands run, acSymbol s := by
  induction bands generalizing run with
  | nil =>
    intro s hs
    rw [bandSyms] at hs
    rcases hr with rfl | ⟨rfl, _⟩
    · simp at hs
    · simp at hs
      exact Or.inl (by rw [hs]; decide)
  | cons b bs ih =>
    have hn2 : NoRun bs := by
      cases bs with
      | nil => trivial
      | cons c l => exact hn.2
    have hb2 : ∀ b ∈ bs, AcRange b ∧ b ≠ [] := fun x hx => hb x (List.mem_cons_of_mem _ hx)
    have hnext : b.getLast? = some 0 → ∀ c l, bs = c :: l → trimZeros c ≠ [] := by
      rintro h1 c l rfl h2
      exact hn.1 ⟨h1, h2⟩
    intro s hs
    rw [bandSyms] at hs
    by_cases hz : trimZeros b = []
    · have h0 : run = 0 := by
        rcases hr with h | ⟨_, h⟩
        · exact h
        · exact absurd hz (h b bs rfl)
      subst h0
      rw [if_pos hz, if_neg (by decide)] at hs
      exact ih 1 (Or.inr ⟨rfl, hnext (last_of_zero hz (hb b (by simp)).2)⟩) hn2 hb2 s hs
    · rw [if_neg hz] at hs
      rcases List.mem_append.mp hs with hs | hs
      · rcases hr with rfl | ⟨rfl, _⟩
        · simp at hs
        · simp at hs
          exact Or.inl (by rw [hs]; decide)
      · rcases List.mem_append.mp hs with hs | hs
        · exact Or.inr (coefSyms_ac _ _ (fun v hv => (hb b (by simp)).1 v (mem_trimZeros hv)) s hs)
        · by_cases hlt : (trimZeros b).length < b.length
          · rw [if_pos hlt] at hs
            exact ih 1 (Or.inr ⟨rfl, hnext ((trim_lt_iff hz).mp hlt)⟩) hn2 hb2 s hs
          · rw [if_neg hlt] at hs
            exact ih 0 (Or.inl rfl) hn2 hb2 s hs

/-- A symbol for a run of at least two ends of band. -/
def RunSym (s : Nat) : Prop := s % 16 = 0 ∧ 16 ≤ s ∧ s ≤ 224

theorem runSym_log2 {run : Nat} (h1 : 2 ≤ run) (h2 : run < 2 ^ 15) : RunSym (16 * run.log2) := by
  have hl := log2_lt (by omega) h2
  have : 1 ≤ run.log2 := (Nat.le_log2 (by omega)).mpr (by omega)
  unfold RunSym
  omega

theorem bandSyms_run (bands : List (List Int)) (run : Nat) (h1 : 2 ≤ run) (h2 : run < 0x7FFF) :
    ∃ s ∈ bandSyms bands run, RunSym s := by
  induction bands generalizing run with
  | nil => exact ⟨16 * run.log2, by rw [bandSyms, if_pos (by omega)]; simp, runSym_log2 h1 (by omega)⟩
  | cons b bs ih =>
    rw [bandSyms]
    by_cases hz : trimZeros b = []
    · rw [if_pos hz]
      by_cases hf : run + 1 = 0x7FFF
      · rw [if_pos hf]; exact ⟨16 * 14, by simp, by unfold RunSym; decide⟩
      · rw [if_neg hf]; exact ih (run + 1) (by omega) (by omega)
    · rw [if_neg hz, if_pos (by omega)]
      exact ⟨16 * run.log2, by simp, runSym_log2 h1 (by omega)⟩

theorem bandSyms_bad (bands : List (List Int)) (run : Nat) (h2 : run < 0x7FFF) (hn : ¬NoRun bands) :
    ∃ s ∈ bandSyms bands run, RunSym s := by
  have key : ∀ (b : List Int) (bs : List (List Int)) (run : Nat), 1 ≤ run → run < 0x7FFF → trimZeros b = [] →
      ∃ s ∈ bandSyms (b :: bs) run, RunSym s := by
    intro b bs run h1 h2 hz
    rw [bandSyms, if_pos hz]
    by_cases hf : run + 1 = 0x7FFF
    · rw [if_pos hf]; exact ⟨16 * 14, by simp, by unfold RunSym; decide⟩
    · rw [if_neg hf]; exact bandSyms_run bs (run + 1) (by omega) (by omega)
  induction bands generalizing run with
  | nil => exact absurd trivial hn
  | cons a l ih =>
    cases l with
    | nil => exact absurd trivial hn
    | cons b l =>
      rw [bandSyms]
      by_cases hrest : NoRun (b :: l)
      · have hab : a.getLast? = some 0 ∧ trimZeros b = [] := by
          apply Classical.byContradiction
          intro h
          exact hn ⟨h, hrest⟩
        by_cases hz : trimZeros a = []
        · rw [if_pos hz]
          by_cases hf : run + 1 = 0x7FFF
          · rw [if_pos hf]; exact ⟨16 * 14, by simp, by unfold RunSym; decide⟩
          · rw [if_neg hf]; exact key b l (run + 1) (by omega) (by omega) hab.2
        · rw [if_neg hz, if_pos ((trim_lt_iff hz).mpr hab.1)]
          obtain ⟨s, h3, h4⟩ := key b l 1 (by omega) (by omega) hab.2
          exact ⟨s, List.mem_append_right _ (List.mem_append_right _ h3), h4⟩
      · by_cases hz : trimZeros a = []
        · rw [if_pos hz]
          by_cases hf : run + 1 = 0x7FFF
          · rw [if_pos hf]; exact ⟨16 * 14, by simp, by unfold RunSym; decide⟩
          · rw [if_neg hf]; exact ih (run + 1) (by omega) hrest
        · rw [if_neg hz]
          obtain ⟨s, h3, h4⟩ := ih (if (trimZeros a).length < a.length then 1 else 0) (by split <;> omega) hrest
          exact ⟨s, List.mem_append_right _ (List.mem_append_right _ h3), h4⟩

/-! ### Standard tables -/

theorem std_vals {t : HuffTables} (h : HuffTables.std = .ok t) :
    (∀ lum, ∀ k ≤ 11, k ∈ (t.get true lum).vals) ∧ (∀ lum k, acSymbol k → k ∈ (t.get false lum).vals) ∧
    (∀ lum s, RunSym s → s ∉ (t.get false lum).vals) ∧ (t.get false true).spec.HasCode 0x01 [false, false] := by
  obtain ⟨t', e, _, _, v1, _, v2, b3, v3, _, v4⟩ := std_spec
  rw [h] at e
  injection e with e
  subst e
  refine ⟨?_, ?_, ?_, ?_⟩
  · intro lum k hk
    have := std_dc k hk
    cases lum
    · exact v2 ▸ this.2
    · exact v1 ▸ this.1
  · intro lum k hk
    have := std_ac k hk
    cases lum
    · exact v4 ▸ this.2
    · exact v3 ▸ this.1
  · have hl : ∀ s ∈ acLumVals, ¬(s % 16 = 0 ∧ 16 ≤ s ∧ s ≤ 224) := by decide +kernel
    have hc : ∀ s ∈ acChromVals, ¬(s % 16 = 0 ∧ 16 ≤ s ∧ s ≤ 224) := by decide +kernel
    intro lum s hs hm
    cases lum
    · exact hc s (v4 ▸ hm) hs
    · exact hl s (v3 ▸ hm) hs
  · refine ⟨0, 0, 2, ?_, ?_, by decide⟩
    · change t.acLum.vals[0]? = _; rw [v3]; decide +kernel
    · change (codes t.acLum.bits)[0]? = _; rw [b3]; decide +kernel

/-- Without runs the standard tables suffice. -/
theorem covered_std {t : HuffTables} (h : HuffTables.std = .ok t) {s : ScanSpec} (hs : s ∈ script)
    (coeffs : List (List Int)) (hb : ∀ b ∈ coeffs, BlockRange (zigzagReorder b))
    (hn : s.ss ≠ 0 → NoRun (coeffs.map (bandAt s))) : Covered t s coeffs := by
  obtain ⟨h1, h2, _, _⟩ := std_vals h
  unfold Covered
  by_cases h0 : s.ss = 0
  · rw [if_pos h0]
    refine fun k hk => h1 _ k (dcSyms_le _ 0 (by decide) ?_ k hk)
    intro d hd
    obtain ⟨b, hbm, rfl⟩ := List.mem_map.mp hd
    have := (hb b hbm).dc
    rw [headD_zigzag] at this
    exact this
  · rw [if_neg h0]
    have hac : AcSpec s := by
      obtain ⟨_, _, _, _, hc | hc⟩ := script_cases hs
      · exact absurd hc.1 h0
      · exact hc
    intro k hk
    refine h2 _ _ (bandSyms_ac _ 0 (Or.inl rfl) (hn h0) ?_ k hk)
    intro b hbm
    obtain ⟨x, hx, rfl⟩ := List.mem_map.mp hbm
    refine ⟨bandAt_range hac (hb x hx), ?_⟩
    have h5 := bandAt_length hac x
    have h6 := hac.le
    intro e
    rw [e] at h5
    simp at h5
    omega

/-- With a run in a scan of the first component they do not. -/
theorem run_std {t : HuffTables} (h : HuffTables.std = .ok t) (ht : TablesOk t) {s : ScanSpec} (hs : s ∈ script)
    (hlum : lumOf s = true) (h0 : s.ss ≠ 0) {coeffs : List (List Int)} {raw : List UInt8} (hd : ScanData t coeffs s raw)
    (hn : ¬NoRun (coeffs.map (bandAt s))) :
    ¬ BandSegment (t.get true (lumOf s)).spec (t.get false (lumOf s)).spec s.ss s.se (coeffs.map (bandAt s)) (stuff raw) := by
  obtain ⟨_, h2, h3, h4⟩ := std_vals h
  obtain ⟨bits, e, _, _, hbad⟩ := hd.2
  rintro ⟨raw', bits', e1, e2, e3⟩
  rw [if_neg h0] at e3
  obtain ⟨rfl, _⟩ := stuff_unique (a := raw) (b := raw') (r := []) (q := []) (Or.inl rfl) (Or.inl rfl) (by simpa using e1)
  rw [e] at e2
  refine hbad h0 (fun k hk => h2 _ k (Or.inr hk)) ?_ ?_ _ ⟨bits', _, e3.2.2, e2⟩
  · intro n bands tl hn
    rw [hlum]
    exact not_begins (ht.get false true).legal h4 hn
  · intro hc
    rw [Covered, if_neg h0] at hc
    obtain ⟨s', g1, g2⟩ := bandSyms_bad _ 0 (by decide) hn
    exact h3 _ _ g2 (hc s' g1)

end Pixo.Jpeg
