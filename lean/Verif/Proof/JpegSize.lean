import Verif.Proof.JpegMcus
import Verif.Proof.JpegFile
/-
Lengths of coded blocks, segments and baseline files.
-/
namespace Pixo.Jpeg
open Spec Spec.T81

theorem hasCode_most {t : Spec.T81.Table} (h : t.bits.length = 16) {v : Nat} {word : List Bool}
    (hc : t.HasCode v word) : word.length ≤ 16 := by
  obtain ⟨k, code, size, _, h2, rfl⟩ := hc
  rw [bitsMSB_length]
  exact codes_size_le h h2

theorem dc_length {t : Spec.T81.Table} (h : t.bits.length = 16) {d : Int} {bits : List Bool}
    (hd : Dc t d bits) : bits.length ≤ 27 := by
  cases hd with
  | zero hc => have := hasCode_most h hc; omega
  | bits h1 h2 h3 hc =>
    have := hasCode_most h hc
    rw [List.length_append, bitsMSB_length]; omega

theorem ac_length {t : Spec.T81.Table} (h : t.bits.length = 16) {l : List Int} {bits : List Bool}
    (ha : Ac t l bits) : bits.length ≤ 26 * l.length := by
  induction ha with
  | done => simp
  | eob hn hc => have := hasCode_most h hc; rw [List.length_replicate]; omega
  | zrl hc _ ih =>
    have := hasCode_most h hc
    rw [List.length_append, List.length_append, List.length_replicate]; omega
  | coef hr h1 h2 hv hc _ ih =>
    have := hasCode_most h hc
    simp only [List.length_append, List.length_replicate, List.length_cons, bitsMSB_length]; omega

/-- The bits of a block at most. -/
def blockMost : Nat := 27 + 26 * 63

theorem block_length {dc ac : Spec.T81.Table} (h1 : dc.bits.length = 16) (h2 : ac.bits.length = 16) {pred : Int}
    {b : List Int} {bits : List Bool} (h : Spec.T81.Block dc ac pred b bits) : bits.length ≤ blockMost := by
  cases h with
  | mk hl hd ha =>
    have := dc_length h1 hd
    have := ac_length h2 ha
    rw [hl] at this
    rw [List.length_append]; unfold blockMost; omega

theorem blocks_length {ts : Tables} (h1 : ∀ c, (ts.dc c).bits.length = 16) (h2 : ∀ c, (ts.ac c).bits.length = 16)
    {pred : Nat → Int} {l : List (Nat × List Int)} {bits : List Bool} (h : Blocks ts pred l bits) :
    bits.length ≤ blockMost * l.length := by
  induction h with
  | nil => simp
  | cons hb _ ih =>
    have := block_length (h1 _) (h2 _) hb
    rw [List.length_append, List.length_cons, Nat.mul_add]; omega

theorem stuff_length_le (l : List UInt8) : (stuff l).length ≤ 2 * l.length := by
  unfold stuff
  induction l with
  | nil => simp
  | cons a l ih =>
    rw [List.flatMap_cons, List.length_append, List.length_cons]
    have : (if a = 0xFF then [0xFF, 0] else [a] : List UInt8).length ≤ 2 := by split <;> simp
    omega

theorem segment_length {ts : Tables} (h1 : ∀ c, (ts.dc c).bits.length = 16) (h2 : ∀ c, (ts.ac c).bits.length = 16)
    {l : List (Nat × List Int)} {bytes : List UInt8} (h : Segment ts l bytes) :
    bytes.length ≤ 2 * ((blockMost * l.length + 7) / 8) := by
  obtain ⟨raw, bits, rfl, e, hb⟩ := h
  have h3 := blocks_length h1 h2 hb
  have h4 := congrArg List.length e
  rw [bytesMSB_length, List.length_append, List.length_replicate] at h4
  have h5 := stuff_length_le raw
  unfold padLen at h4
  omega

theorem restarts_length {ts : Tables} (h1 : ∀ c, (ts.dc c).bits.length = 16) (h2 : ∀ c, (ts.ac c).bits.length = 16)
    {ri m : Nat} {mcus : List (List (Nat × List Int))} {bytes : List UInt8} (h : Restarts ts ri m mcus bytes)
    (hri : 1 ≤ ri) (hne : ∀ x ∈ mcus, x ≠ []) : bytes.length ≤ 420 * mcus.flatten.length := by
  have pos : ∀ l : List (List (Nat × List Int)), l ≠ [] → (∀ x ∈ l, x ≠ []) → 1 ≤ l.flatten.length := by
    intro l hl hx
    cases l with
    | nil => exact absurd rfl hl
    | cons a l =>
      have := List.length_pos_iff.mpr (hx a List.mem_cons_self)
      rw [List.flatten_cons, List.length_append]; omega
  induction h with
  | last hl hn hs =>
    have := segment_length h1 h2 hs
    have := pos _ hn hne
    unfold blockMost at *; omega
  | more hl hs hr ih =>
    have := segment_length h1 h2 hs
    have := pos _ (by rintro rfl; simp at hl; omega) (fun x hx => hne x (List.mem_append_left _ hx))
    have := ih (fun x hx => hne x (List.mem_append_right _ hx))
    rw [List.flatten_append]
    simp only [List.length_append, List.length_cons, List.length_nil]
    unfold blockMost at *; omega

end Pixo.Jpeg
