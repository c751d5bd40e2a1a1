import Verif.Model.SimdMemory
/-
Which routines of src/simd/x86_64.rs the safe functions of src/simd/mod.rs and src/jpeg/dct.rs run on which
x86-64 processor, and which instruction sets they are compiled for. Running a routine compiled for an instruction
set the processor does not have is undefined behaviour (in practice an illegal instruction).
-/
namespace Pixo.Features
open Pixo
open Pixo.Simd (Level)

/-- The instruction sets named in the crate. -/
inductive Feature where
  | sse2 | ssse3 | sse41 | avx2 | pclmulqdq
  deriving DecidableEq

/-- What `is_x86_feature_detected!` says on a processor (src/simd/mod.rs:47-51, 64; src/jpeg/dct.rs:552). -/
abbrev Cpu := Feature → Bool

/-- `detect_x86_simd_level` (src/simd/mod.rs:46-56). -/
def detect (cpu : Cpu) : Level :=
  if cpu .avx2 then .avx2
  else if cpu .ssse3 then .ssse3
  else if cpu .sse2 then .sse2
  else .scalar

/-- The `unsafe` routines that are called. -/
inductive Routine where
  | adler32Avx2 | adler32Ssse3 | crc32Pclmulqdq | matchLengthAvx2 | matchLengthSse2 | scoreFilterAvx2
  | scoreFilterSse2 | filterSubAvx2 | filterSubSse2 | filterUpAvx2 | filterUpSse2 | filterAverageAvx2 | dct2dAvx2
  deriving DecidableEq

/-- The attribute `#[target_feature(enable = ...)]` of the routine (src/simd/x86_64.rs:30, 217, 352, 400, 431,
509, 568, 600, 641, 669, 941, 968, 1052). The private functions they call have no others. -/
def target : Routine → List Feature
  | .adler32Avx2 => [.avx2]
  | .adler32Ssse3 => [.ssse3]
  | .crc32Pclmulqdq => [.pclmulqdq, .sse41]
  | .matchLengthAvx2 => [.avx2]
  | .matchLengthSse2 => [.sse2]
  | .scoreFilterAvx2 => [.avx2]
  | .scoreFilterSse2 => [.sse2]
  | .filterSubAvx2 => [.avx2]
  | .filterSubSse2 => [.sse2]
  | .filterUpAvx2 => [.avx2]
  | .filterUpSse2 => [.sse2]
  | .filterAverageAvx2 => [.avx2]
  | .dct2dAvx2 => [.avx2]

/-- The safe functions in front of them. -/
inductive Function where
  | adler32 | crc32 | matchLength | scoreFilter | filterSub | filterUp | filterAverage | filterPaeth | dct2dFast
  deriving DecidableEq

/-- The routine a function runs; `none` is portable code (src/simd/mod.rs:71-236, src/jpeg/dct.rs:550-557). -/
def runs (cpu : Cpu) : Function → Option Routine
  | .adler32 =>
    match detect cpu with
    | .avx2 => some .adler32Avx2
    | .ssse3 | .sse2 => some .adler32Ssse3
    | _ => none
  | .crc32 => if cpu .pclmulqdq then some .crc32Pclmulqdq else none
  | .matchLength =>
    match detect cpu with
    | .avx2 => some .matchLengthAvx2
    | .ssse3 | .sse2 => some .matchLengthSse2
    | _ => none
  | .scoreFilter =>
    match detect cpu with
    | .avx2 => some .scoreFilterAvx2
    | .ssse3 | .sse2 => some .scoreFilterSse2
    | _ => none
  | .filterSub =>
    match detect cpu with
    | .avx2 => some .filterSubAvx2
    | .ssse3 | .sse2 => some .filterSubSse2
    | _ => none
  | .filterUp =>
    match detect cpu with
    | .avx2 => some .filterUpAvx2
    | .ssse3 | .sse2 => some .filterUpSse2
    | _ => none
  | .filterAverage =>
    match detect cpu with
    | .avx2 => some .filterAverageAvx2
    | _ => none
  | .filterPaeth => none
  | .dct2dFast => if cpu .avx2 then some .dct2dAvx2 else none

end Pixo.Features
