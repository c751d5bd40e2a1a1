import Verif.Model.SimdFeatures
/-
C100: on every processor only routines for instruction sets it has are run.

The statement is false: on an x86-64 processor with SSE2 but without SSSE3 (the first AMD and Intel ones)
`adler32` runs the routine compiled for SSSE3. And `crc32` runs a routine compiled for SSE4.1 and PCLMULQDQ having
asked for PCLMULQDQ alone.
-/
namespace Pixo.Props.Features
open Pixo Pixo.Features

/-- AVX2 contains SSE4.1, which contains SSSE3, which contains SSE2; PCLMULQDQ contains SSE2 (Rust reference,
target features of x86). -/
structure Real (cpu : Cpu) : Prop where
  avx2 : cpu .avx2 = true → cpu .sse41 = true
  sse41 : cpu .sse41 = true → cpu .ssse3 = true
  ssse3 : cpu .ssse3 = true → cpu .sse2 = true
  pclmulqdq : cpu .pclmulqdq = true → cpu .sse2 = true

/-- The processor has all the instruction sets the routine is compiled for. -/
def Allowed (cpu : Cpu) (r : Routine) : Prop := ∀ f ∈ target r, cpu f = true

/-- **C100 (full statement).** What a function runs, the processor can run. -/
def C100_full : Prop := ∀ cpu, Real cpu → ∀ fn r, runs cpu fn = some r → Allowed cpu r

/-- **C100 (exact).** A function runs what the processor cannot in two cases: `adler32` with SSE2 and without
SSSE3, and `crc32` with PCLMULQDQ and without SSE4.1. -/
theorem C100_exact (cpu : Cpu) (hr : Real cpu) (fn : Function) :
    (∃ r, runs cpu fn = some r ∧ ¬ Allowed cpu r) ↔
      (fn = .adler32 ∧ cpu .sse2 = true ∧ cpu .ssse3 = false) ∨
      (fn = .crc32 ∧ cpu .pclmulqdq = true ∧ cpu .sse41 = false) := by
  have h1 := hr.avx2
  have h2 := hr.sse41
  have h3 := hr.ssse3
  have h4 := hr.pclmulqdq
  cases fn <;> cases ha : cpu .avx2 <;> cases hb : cpu .ssse3 <;> cases hc : cpu .sse2 <;> cases hd : cpu .sse41 <;>
    cases he : cpu .pclmulqdq <;>
    simp_all [runs, detect, Allowed, target]

/-- **C100 (partial).** With SSSE3, and with SSE4.1 where there is PCLMULQDQ, it holds. Missing: the other
processors (`C100_violation`). -/
theorem C100_partial (cpu : Cpu) (hr : Real cpu) (hs : cpu .sse2 = true → cpu .ssse3 = true)
    (hp : cpu .pclmulqdq = true → cpu .sse41 = true) (fn : Function) (r : Routine) (h : runs cpu fn = some r) :
    Allowed cpu r := by
  refine Classical.byContradiction fun hn => ?_
  rcases (C100_exact cpu hr fn).1 ⟨r, h, hn⟩ with ⟨_, h1, h2⟩ | ⟨_, h1, h2⟩
  · rw [hs h1] at h2; cases h2
  · rw [hp h1] at h2; cases h2

/-- A processor with only the SSE2 every x86-64 processor has. -/
def baseline : Cpu := fun f => f = .sse2

/-- **C100 (violation).** -/
theorem C100_violation : ¬ C100_full ∧ Real baseline ∧ runs baseline .adler32 = some .adler32Ssse3 ∧
    baseline .ssse3 = false := by
  have hr : Real baseline := ⟨by decide, by decide, by decide, by decide⟩
  refine ⟨fun h => ?_, hr, by decide, by decide⟩
  have := h baseline hr .adler32 .adler32Ssse3 (by decide) .ssse3 (by decide)
  cases this

/-- The faster routines are run where they can be: with AVX2 all of them are. -/
theorem C100_used (cpu : Cpu) (h : cpu .avx2 = true) (fn : Function) :
    (∃ r, runs cpu fn = some r) ↔ (fn ≠ .filterPaeth ∧ (fn = .crc32 → cpu .pclmulqdq = true)) := by
  cases fn <;> simp [runs, detect, h]

/-- The level found is one of those the model is about; on x86 it is never that of ARM. -/
theorem C100_level (cpu : Cpu) : detect cpu ≠ .neon := by
  unfold detect
  cases cpu .avx2 <;> cases cpu .ssse3 <;> cases cpu .sse2 <;> simp

/-- The hypotheses of the partial statement are met by a processor with everything. -/
example : Real (fun _ => true) ∧ runs (fun _ => true) .crc32 = some .crc32Pclmulqdq := by
  exact ⟨⟨by decide, by decide, by decide, by decide⟩, by decide⟩

end Pixo.Props.Features
