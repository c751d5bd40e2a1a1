import Verif.Proof.DeflateTop
import Verif.Proof.SimdAdler
/-
What survives a successful call of the compressor, whatever its argument; and totality of the
accelerated checksums.
-/
namespace Pixo.Deflate
open Spec Pixo Pixo.Lz77

/-- If `x` succeeds, its value satisfies `P`. -/
def Keeps {α : Type} (x : R α) (P : α → Prop) : Prop := ∀ r, x = .ok r → P r

theorem Keeps.bind {α β : Type} {x : R α} {f : α → R β} {Q : β → Prop} (h : ∀ a, x = .ok a → Keeps (f a) Q) :
    Keeps (x >>= f) Q := by
  intro r hr
  cases x with
  | error e => cases hr
  | ok a => exact h a rfl r hr

theorem Keeps.pure {α : Type} {a : α} {P : α → Prop} (h : P a) : Keeps (Pure.pure a : R α) P := by
  intro r hr; cases hr; exact h

theorem Oks.keeps {α : Type} {x : R α} {P : α → Prop} (h : Oks x P) : ∀ a, x = .ok a → P a := by
  obtain ⟨r, e, hp⟩ := h.out
  intro a ha; rw [e] at ha; cases ha; exact hp

section
variable (env : Env) {level : Nat} {d : Deflater} (hd : DOk level d) (data : List UInt8)
include hd

theorem compress_keeps : Keeps (d.compress env data) (fun r => DOk level r.2) := by
  unfold Deflater.compress
  split
  · exact .bind fun b _ => .pure hd
  · exact .bind fun a ha => .bind fun b _ => .pure (Oks.keeps (lz_spec env hd data) a ha).2

theorem compressFixedOnly_keeps : Keeps (d.compressFixedOnly env data) (fun r => DOk level r.2) := by
  unfold Deflater.compressFixedOnly
  split
  · exact .bind fun b _ => .pure hd
  · exact .bind fun a ha => .bind fun b _ => .pure (Oks.keeps (lz_spec env hd data) a ha).2

theorem compressZlib_keeps (adler : List UInt8 → R Nat) :
    Keeps (d.compressZlib env adler data) (fun r => DOk level r.2) := by
  unfold Deflater.compressZlib
  split
  · exact .bind fun b _ => .pure hd
  · exact .bind fun a ha => .bind fun b _ => .bind fun _ _ => .pure (Oks.keeps (lz_spec env hd data) a ha).2

theorem compressPacked_keeps : Keeps (d.compressPacked env data) (fun r => DOk level r.2) := by
  unfold Deflater.compressPacked
  split
  · exact .bind fun b _ => .pure hd
  · refine .bind fun a ha => ?_
    have h := (Oks.keeps (lzPacked_spec env hd data) a ha).1
    simp only
    split
    · exact .bind fun b _ => .pure h
    · exact .bind fun b _ => .pure h

theorem compressFixedOnlyPacked_keeps : Keeps (d.compressFixedOnlyPacked env data) (fun r => DOk level r.2) := by
  unfold Deflater.compressFixedOnlyPacked
  split
  · exact .bind fun b _ => .pure hd
  · exact .bind fun a ha => .bind fun b _ => .pure (Oks.keeps (lzPacked_spec env hd data) a ha).1

theorem compressPackedZlib_keeps (adler : List UInt8 → R Nat) :
    Keeps (d.compressPackedZlib env adler data) (fun r => DOk level r.2) := by
  unfold Deflater.compressPackedZlib
  split
  · exact .bind fun b _ => .pure hd
  · refine .bind fun a ha => ?_
    have h := (Oks.keeps (lzPacked_spec env hd data) a ha).1
    simp only
    split
    · exact .bind fun b _ => .bind fun _ _ => .pure h
    · exact .bind fun b _ => .bind fun _ _ => .pure h

end

theorem withReusable_keeps {α : Type} {pool : Pool} (hp : POk pool) (level : Nat) {f : Deflater → R (α × Deflater)}
    (hf : ∀ d, DOk level d → Keeps (f d) (fun r => DOk level r.2)) :
    Keeps (withReusable pool level f) (fun r => POk r.2) := by
  intro r hr
  cases hx : withReusable pool level f with
  | error e => rw [hx] at hr; cases hr
  | ok q =>
    -- replace `f` by a function that succeeds everywhere
    let g : Deflater → R (α × Deflater) := fun d => match f d with | .ok r => .ok r | .error _ => .ok (q.1, d)
    have hg : ∀ d, DOk level d → Oks (g d) (fun r => True ∧ DOk level r.2) := by
      intro d hd
      simp only [g]
      cases hfd : f d with
      | error e => exact .ok ⟨trivial, hd⟩
      | ok r => exact .ok ⟨trivial, hf d hd r hfd⟩
    have hgo := Oks.keeps (withReusable_ok hp level (P := fun _ => True) hg)
    have : withReusable pool level g = .ok r := by
      rw [← hr]
      unfold withReusable at hr ⊢
      simp only at hr ⊢
      cases hq : getChecked pool (min (max level 1) 9) with
      | error e => rw [hq] at hr; cases hr
      | ok d0 =>
        rw [hq, ok_bind] at hr
        rw [ok_bind, ok_bind]
        generalize (if d0.level ≠ min (max level 1) 9 then Deflater.new (min (max level 1) 9) else d0) = d1 at hr ⊢
        cases hfd : f d1 with
        | error e => rw [hfd] at hr; cases hr
        | ok s => simp only [g, hfd]
    exact (hgo r this).2

theorem deflate_keeps (env : Env) {pool : Pool} (hp : POk pool) (data : List UInt8) (level : Nat) :
    Keeps (deflate env pool data level) (fun r => POk r.2) := by
  unfold deflate
  split
  · exact .bind fun b _ => .pure hp
  · split
    · exact withReusable_keeps hp level fun d hd => compressFixedOnly_keeps env hd data
    · exact withReusable_keeps hp level fun d hd => compress_keeps env hd data

theorem deflatePacked_keeps (env : Env) {pool : Pool} (hp : POk pool) (data : List UInt8) (level : Nat) :
    Keeps (deflatePacked env pool data level) (fun r => POk r.2) := by
  unfold deflatePacked
  split
  · exact .bind fun b _ => .pure hp
  · split
    · exact withReusable_keeps hp level fun d hd => compressFixedOnlyPacked_keeps env hd data
    · exact withReusable_keeps hp level fun d hd => compressPacked_keeps env hd data

theorem deflateZlib_keeps (env : Env) (adler : List UInt8 → R Nat) {pool : Pool} (hp : POk pool) (data : List UInt8)
    (level : Nat) : Keeps (deflateZlib env adler pool data level) (fun r => POk r.2) := by
  unfold deflateZlib
  refine .bind fun b _ => ?_
  split
  · exact .bind fun b _ => .pure hp
  · exact withReusable_keeps hp level fun d hd => compressZlib_keeps env hd data adler

theorem deflateZlibPacked_keeps (env : Env) (adler : List UInt8 → R Nat) {pool : Pool} (hp : POk pool)
    (data : List UInt8) (level : Nat) : Keeps (deflateZlibPacked env adler pool data level) (fun r => POk r.2) := by
  unfold deflateZlibPacked
  refine .bind fun b _ => ?_
  split
  · exact .bind fun b _ => .pure hp
  · exact withReusable_keeps hp level fun d hd => compressPackedZlib_keeps env hd data adler

end Pixo.Deflate

namespace Pixo.Simd
open Spec Pixo

theorem ssse3Loop_total (fuel : Nat) (d : List UInt8) (a b : Nat) (hf : d.length < fuel) (ha : a < 65521)
    (hb : b < 65521) : Oks (blockLoop ssse3Block fuel d a b) (fun r => r.1.length < 5552 ∧ r.2.1 < 65521 ∧ r.2.2 < 65521) := by
  induction fuel generalizing d a b with
  | zero => omega
  | succ fuel ih =>
    rw [blockLoop]
    by_cases h : d.length ≥ 5552
    · rw [if_pos h]
      have hl : (d.take 5552).length = 5552 := by simp; omega
      rw [ssse3Block_eq _ _ _ (by rw [hl]) (by omega) ha hb, ok_bind]
      exact ih _ _ _ (by simp; omega) (Nat.mod_lt _ (by decide)) (Nat.mod_lt _ (by decide))
    · rw [if_neg h]
      exact .ok ⟨Nat.lt_of_not_le h, ha, hb⟩

theorem combine_lt {s1 s2 : Nat} (h1 : s1 < 65521) (h2 : s2 < 65521) : (s2 <<< 16) ||| s1 < 2 ^ 32 := by
  rw [combine _ _ (by omega)]; omega

theorem adlerSsse3_total (d : List UInt8) : Oks (adlerSsse3 d) (fun v => v < 2 ^ 32) := by
  unfold adlerSsse3 blockAdler
  refine Oks.bind (ssse3Loop_total (d.length + 1) d 1 0 (by omega) (by decide) (by decide)) ?_
  rintro ⟨rem, a, b⟩ ⟨h1, h2, h3⟩
  simp only at h1 h2 h3 ⊢
  have ht : Oks (blockTail ssse3Block rem a b) (fun r => r.1.length ≤ 5552 ∧ r.2.1 < 65521 ∧ r.2.2 < 65521) := by
    unfold blockTail
    by_cases h : rem.length ≥ 16
    · rw [if_pos h]
      generalize hn : rem.length / 16 * 16 = n
      have hl : (rem.take n).length = n := by simp; omega
      rw [ssse3Block_eq _ _ _ (by omega) (by omega) h2 h3, ok_bind]
      exact .pure ⟨by simp; omega, Nat.mod_lt _ (by decide), Nat.mod_lt _ (by decide)⟩
    · rw [if_neg h]
      exact .ok ⟨by simp only; omega, h2, h3⟩
  refine Oks.bind ht ?_
  rintro ⟨rem', a', b'⟩ ⟨g1, g2, g3⟩
  simp only at g1 g2 g3 ⊢
  obtain ⟨c1, c2⟩ := chunk_bound rem' a' b' (by omega) (by omega) g1
  rw [adlerChunk_ok _ _ _ c1 c2, ok_bind]
  exact .pure (combine_lt (Nat.mod_lt _ (by decide)) (Nat.mod_lt _ (by decide)))

theorem spec_adler_lt (d : List UInt8) : Spec.adler32 d < 2 ^ 32 := by
  unfold Spec.adler32
  rw [spec_fold d 1 0 (by decide) (by decide)]
  have h1 := Nat.mod_lt (1 + bsum d) (show 0 < 65521 by decide)
  have h2 := Nat.mod_lt (0 + d.length * 1 + wsum d) (show 0 < 65521 by decide)
  simp only
  omega

/-- On every instruction set the checksum is computed without panic and fits in 32 bits. -/
theorem adler32_total (lv : Level) (d : List UInt8) : Oks (adler32 lv d) (fun v => v < 2 ^ 32) := by
  cases lv with
  | avx2 =>
    refine .ok ?_
    unfold adlerAvx2
    simp only
    exact combine_lt (Nat.mod_lt _ (by decide)) (Nat.mod_lt _ (by decide))
  | ssse3 => exact adlerSsse3_total d
  | sse2 => exact adlerSsse3_total d
  | scalar => show Oks (Pixo.adler32 d) _; rw [adler32_ok]; exact .ok (spec_adler_lt d)
  | neon => show Oks (blockAdler neonBlock d) _; rw [blockAdler_ok neonBlock_ok]; exact .ok (spec_adler_lt d)

end Pixo.Simd
