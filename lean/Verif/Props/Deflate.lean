import Verif.Proof.DeflateHistory
import Verif.Props.Checksums
/-
C01 (DEFLATE output), C02 (zlib round trip), C03 (size bound), C04 (stored blocks), C07 (length
and distance codes), C26 (history independence).

`env` collects what the model leaves open (floating point estimates, heap order, instruction
set); it may differ between the calls of a history. Inputs are shorter than `2^32 - 2` bytes,
because symbol counts are `u32`.
-/
namespace Pixo.Props
open Spec Spec.Rfc1951 Spec.Rfc1950 Pixo.Deflate Pixo.Inflate
open Pixo.Lz77 (LogOk)

/-- The checksum the crate computes on a CPU with instruction set `lv`. -/
def checksum (lv : Simd.Level) (data : List UInt8) : Nat :=
  match Simd.adler32 lv data with
  | .ok v => v
  | .error _ => 0

/-- The deflaters that arise from `Deflater::new(level)` by any history of calls. -/
inductive DHistory (level : Nat) : Deflater → Prop
  | new : DHistory level (Deflater.new level)
  | compress {d env data out d'} : DHistory level d → d.compress env data = .ok (out, d') → DHistory level d'
  | fixed {d env data out d'} : DHistory level d → d.compressFixedOnly env data = .ok (out, d') → DHistory level d'
  | zlib {d env adler data out d'} : DHistory level d → d.compressZlib env adler data = .ok (out, d') →
      DHistory level d'
  | packed {d env data out d'} : DHistory level d → d.compressPacked env data = .ok (out, d') → DHistory level d'
  | fixedPacked {d env data out d'} : DHistory level d → d.compressFixedOnlyPacked env data = .ok (out, d') →
      DHistory level d'
  | packedZlib {d env adler data out d'} : DHistory level d → d.compressPackedZlib env adler data = .ok (out, d') →
      DHistory level d'

/-- The states of the static pool after any history of calls, with any levels. -/
inductive PHistory : Pool → Prop
  | new : PHistory Pool.new
  | deflate {p env data level out p'} : PHistory p → deflate env p data level = .ok (out, p') → PHistory p'
  | packed {p env data level out p'} : PHistory p → deflatePacked env p data level = .ok (out, p') → PHistory p'
  | zlib {p env adler data level out p'} : PHistory p → deflateZlib env adler p data level = .ok (out, p') →
      PHistory p'
  | packedZlib {p env adler data level out p'} : PHistory p →
      deflateZlibPacked env adler p data level = .ok (out, p') → PHistory p'

theorem DHistory.ok {level : Nat} {d : Deflater} (h : DHistory level d) : DOk level d := by
  induction h with
  | new => exact dOk_new level
  | compress _ e ih => exact compress_keeps _ ih _ _ e
  | fixed _ e ih => exact compressFixedOnly_keeps _ ih _ _ e
  | zlib _ e ih => exact compressZlib_keeps _ ih _ _ _ e
  | packed _ e ih => exact compressPacked_keeps _ ih _ _ e
  | fixedPacked _ e ih => exact compressFixedOnlyPacked_keeps _ ih _ _ e
  | packedZlib _ e ih => exact compressPackedZlib_keeps _ ih _ _ _ e

theorem PHistory.ok {p : Pool} (h : PHistory p) : POk p := by
  induction h with
  | new => exact pOk_new
  | deflate _ e ih => exact deflate_keeps _ ih _ _ _ e
  | packed _ e ih => exact deflatePacked_keeps _ ih _ _ _ e
  | zlib _ e ih => exact deflateZlib_keeps _ _ ih _ _ _ e
  | packedZlib _ e ih => exact deflateZlibPacked_keeps _ _ ih _ _ _ e

theorem sumOk (lv : Simd.Level) : SumOk (Simd.adler32 lv) (checksum lv) := by
  have key : ∀ d, Simd.adler32 lv d = .ok (checksum lv d) ∧ checksum lv d < 2 ^ 32 := by
    intro d
    obtain ⟨v, e, h⟩ := (Simd.adler32_total lv d).out
    unfold checksum
    rw [e]; exact ⟨rfl, h⟩
  exact ⟨fun d => (key d).1, fun d => (key d).2⟩

/-- An environment for the examples. -/
def plainEnv : Env where
  level := .scalar
  tie := fun _ _ i => i
  log2 := fun n => n.log2 * 2 ^ 149
  log64 := fun n => n.log2 * 2 ^ 1074

theorem plain_log : LogOk plainEnv.log2 := by
  intro n h1 h2
  have h : n.log2 < 32 := (Nat.log2_lt (by omega)).mpr h2
  have e : plainEnv.log2 n = ((n.log2 * 2 ^ 149 : Nat) : Int) := by
    show ((n.log2 : Int) * 2 ^ 149) = _
    rw [Int.natCast_mul]; rfl
  have e2 : Lz77.ofNatF 32 = ((32 * 2 ^ 149 : Nat) : Int) := by decide +kernel
  rw [e, e2]
  constructor
  · exact Int.natCast_nonneg _
  · exact Int.ofNat_le.mpr (Nat.mul_le_mul_right _ (by omega))

/-! ## C01 -/

/-- C01 for `deflate`. -/
theorem C01_deflate {pool : Pool} (h : PHistory pool) (env : Env) (data : List UInt8) (level : Nat)
    (hn : data.length + 2 < 2 ^ 32) :
    ∃ out pool', deflate env pool data level = .ok (out, pool') ∧ Encodes true out data := by
  obtain ⟨⟨o, p⟩, e, hp⟩ := (deflate_ok env h.ok data level hn).out
  exact ⟨o, p, e, hp.1⟩

/-- C01 for `deflate_packed`. -/
theorem C01_deflate_packed {pool : Pool} (h : PHistory pool) (env : Env) (data : List UInt8) (level : Nat)
    (hn : data.length + 2 < 2 ^ 32) :
    ∃ out pool', deflatePacked env pool data level = .ok (out, pool') ∧ Encodes true out data := by
  obtain ⟨⟨o, p⟩, e, hp⟩ := (deflatePacked_ok env h.ok data level hn).out
  exact ⟨o, p, e, hp.1⟩

/-- C01 for `Deflater::compress`. -/
theorem C01_compress {level : Nat} {d : Deflater} (h : DHistory level d) (env : Env) (data : List UInt8)
    (hn : data.length + 2 < 2 ^ 32) :
    ∃ out d', d.compress env data = .ok (out, d') ∧ Encodes true out data := by
  obtain ⟨⟨o, p⟩, e, hp⟩ := (compress_ok env h.ok data hn).out
  exact ⟨o, p, e, hp.1⟩

/-- C01 for `Deflater::compress_packed`. -/
theorem C01_compress_packed {level : Nat} {d : Deflater} (h : DHistory level d) (env : Env) (data : List UInt8)
    (hn : data.length + 2 < 2 ^ 32) :
    ∃ out d', d.compressPacked env data = .ok (out, d') ∧ Encodes true out data := by
  obtain ⟨⟨o, p⟩, e, hp⟩ := (compressPacked_ok env h.ok data hn).out
  exact ⟨o, p, e, hp.1⟩

/-- C01 for the two fixed-code variants; these need no bound. -/
theorem C01_compress_fixed {level : Nat} {d : Deflater} (h : DHistory level d) (env : Env) (data : List UInt8) :
    (∃ out d', d.compressFixedOnly env data = .ok (out, d') ∧ Encodes true out data) ∧
    ∃ out d', d.compressFixedOnlyPacked env data = .ok (out, d') ∧ Encodes true out data := by
  obtain ⟨⟨o, p⟩, e, hp⟩ := (compressFixedOnly_ok env h.ok data).out
  obtain ⟨⟨o', p'⟩, e', hp'⟩ := (compressFixedOnlyPacked_ok env h.ok data).out
  exact ⟨⟨o, p, e, hp.1⟩, o', p', e', hp'.1⟩

/-- C01 for the optimal parsers. The bound is `2^30`, because blended symbol counts are added up
in `u32`. -/
theorem C01_optimal (env : Env) (hl : LogOk env.log2) (data : List UInt8) (hn : data.length + 1 < 2 ^ 30)
    (iterations maxBlocks : Nat) :
    (∃ out, deflateOptimal env data iterations = .ok out ∧ Encodes true out data) ∧
    ∃ out, deflateOptimalSplit env data iterations maxBlocks = .ok out ∧ Encodes true out data :=
  ⟨(deflateOptimal_ok env hl hn iterations).out, (deflateOptimalSplit_ok env hl hn iterations maxBlocks).out⟩

/-- `Encodes` determines the data: the grammar is unambiguous. -/
theorem C01_unique {bytes d d' : List UInt8} (h : Encodes true bytes d) (h' : Encodes true bytes d') : d = d' := by
  have := (inflate_encodes h).symm.trans (inflate_encodes h')
  exact Except.ok.inj this

/-- Concrete output: one fixed block with a match. -/
example : (deflate plainEnv Pool.new [97, 97, 97, 97, 97, 97, 97, 97] 6).map Prod.fst = .ok [75, 132, 2, 0] := by
  decide +kernel
example : PHistory Pool.new := .new
example : ∃ p, PHistory p ∧ DHistory 3 (Deflater.new 3) := ⟨_, .new, .new⟩
example : LogOk plainEnv.log2 := plain_log

/-! ## C02 -/

/-- A decoder with the checksum of the same CPU accepts, with and without expected size. -/
def Decodes (lv : Simd.Level) (out data : List UInt8) : Prop :=
  inflateZlib (checksum lv) out none = .ok data ∧
  inflateZlib (checksum lv) out (some data.length) = .ok data

theorem decodes {lv : Simd.Level} {out data : List UInt8} (h : ZlibWith (checksum lv) out data) :
    Decodes lv out data :=
  ⟨inflateZlib_spec h none (fun n hn => by cases hn), inflateZlib_spec h _ (fun n hn => (Option.some.inj hn).symm)⟩

/-- C02 for `deflate_zlib`. -/
theorem C02_deflate_zlib {pool : Pool} (h : PHistory pool) (env : Env) (data : List UInt8) (level : Nat)
    (hn : data.length + 2 < 2 ^ 32) :
    ∃ out pool', deflateZlib env (Simd.adler32 env.level) pool data level = .ok (out, pool') ∧
      Decodes env.level out data := by
  obtain ⟨⟨o, p⟩, e, hp⟩ := (deflateZlib_ok (sumOk env.level) env h.ok data level hn).out
  exact ⟨o, p, e, decodes hp.1.1⟩

/-- C02 for `deflate_zlib_packed`. -/
theorem C02_deflate_zlib_packed {pool : Pool} (h : PHistory pool) (env : Env) (data : List UInt8) (level : Nat)
    (hn : data.length + 2 < 2 ^ 32) :
    ∃ out pool', deflateZlibPacked env (Simd.adler32 env.level) pool data level = .ok (out, pool') ∧
      Decodes env.level out data := by
  obtain ⟨⟨o, p⟩, e, hp⟩ := (deflateZlibPacked_ok (sumOk env.level) env h.ok data level hn).out
  exact ⟨o, p, e, decodes hp.1.1⟩

/-- C02 for `Deflater::compress_zlib` and `Deflater::compress_packed_zlib`. -/
theorem C02_compress_zlib {level : Nat} {d : Deflater} (h : DHistory level d) (env : Env) (data : List UInt8)
    (hn : data.length + 2 < 2 ^ 32) :
    (∃ out d', d.compressZlib env (Simd.adler32 env.level) data = .ok (out, d') ∧ Decodes env.level out data) ∧
    ∃ out d', d.compressPackedZlib env (Simd.adler32 env.level) data = .ok (out, d') ∧
      Decodes env.level out data := by
  obtain ⟨⟨o, p⟩, e, hp⟩ := (compressZlib_ok env h.ok data (sumOk env.level) hn).out
  obtain ⟨⟨o', p'⟩, e', hp'⟩ := (compressPackedZlib_ok env h.ok data (sumOk env.level) hn).out
  exact ⟨⟨o, p, e, decodes hp.1.1⟩, o', p', e', decodes hp'.1.1⟩

/-- C02 for `deflate_optimal_zlib`. -/
theorem C02_optimal_zlib (env : Env) (hl : LogOk env.log2) (data : List UInt8) (hn : data.length + 1 < 2 ^ 30)
    (iterations : Nat) :
    ∃ out, deflateOptimalZlib env (Simd.adler32 env.level) data iterations = .ok out ∧
      Decodes env.level out data := by
  obtain ⟨o, e, hp⟩ := (deflateOptimalZlib_ok env hl hn (sumOk env.level) iterations).out
  exact ⟨o, e, decodes hp.1⟩

/-- Where the checksum of the CPU is right, the outputs are zlib streams for any decoder. -/
theorem C02_conforms {pool : Pool} (h : PHistory pool) (env : Env) (data : List UInt8) (level : Nat)
    (hn : data.length + 2 < 2 ^ 32) (hs : Simd.adler32 env.level data = .ok (Spec.adler32 data)) :
    (∃ out pool', deflateZlib env (Simd.adler32 env.level) pool data level = .ok (out, pool') ∧ Zlib out data) ∧
    ∃ out pool', deflateZlibPacked env (Simd.adler32 env.level) pool data level = .ok (out, pool') ∧
      Zlib out data := by
  have hc : checksum env.level data = Spec.adler32 data := by unfold checksum; rw [hs]
  obtain ⟨⟨o, p⟩, e, hp⟩ := (deflateZlib_ok (sumOk env.level) env h.ok data level hn).out
  obtain ⟨⟨o', p'⟩, e', hp'⟩ := (deflateZlibPacked_ok (sumOk env.level) env h.ok data level hn).out
  have conv : ∀ out, ZlibWith (checksum env.level) out data → Zlib out data := by
    rintro out ⟨cmf, flg, body, tr, h1, h2, h3, h4, h5, h6, h7, h8⟩
    exact ⟨cmf, flg, body, tr, h1, h2, h3, h4, h5, h6, h7, h8.trans hc⟩
  exact ⟨⟨o, p, e, conv o hp.1.1⟩, o', p', e', conv o' hp'.1.1⟩

/-- On SSSE3-only CPUs no output for 16 to 5551 bytes is a zlib stream of its input: the check
field is wrong (`C09_ssse3_violation`). -/
theorem C02_ssse3_not_conforming {pool : Pool} (h : PHistory pool) (env : Env) (hv : env.level = .ssse3)
    (data : List UInt8) (level : Nat) (h16 : 16 ≤ data.length) (h55 : data.length < 5552) :
    ∃ out pool', deflateZlib env (Simd.adler32 env.level) pool data level = .ok (out, pool') ∧
      ¬ Zlib out data := by
  obtain ⟨⟨o, p⟩, e, hp⟩ := (deflateZlib_ok (sumOk env.level) env h.ok data level (by omega)).out
  refine ⟨o, p, e, ?_⟩
  obtain ⟨c, f, body, tr, h1, _, _, _, _, _, h7, h8⟩ := hp.1.1
  rintro ⟨c', f', body', tr', g1, _, _, _, _, _, g7, g8⟩
  simp only at h1
  rw [h1] at g1
  have ht : tr = tr' := by
    refine List.append_inj_right g1 ?_
    have := congrArg List.length g1
    simp only [List.length_append] at this ⊢
    omega
  subst ht
  have hs : Simd.adler32 env.level data = .ok (checksum env.level data) := (sumOk env.level).eq data
  rw [← h8, g8, hv] at hs
  exact (C09_ssse3_violation data h16 h55).1 hs

example : (deflateZlib plainEnv (Simd.adler32 .scalar) Pool.new [97, 97, 97, 97, 97, 97, 97, 97] 6).map Prod.fst =
    .ok [0x78, 0x9c, 75, 132, 2, 0, 13, 172, 3, 9] := by decide +kernel
example : Simd.adler32 plainEnv.level [97, 98] = .ok (Spec.adler32 [97, 98]) := C09_scalar _

/-! ## C03 -/

/-- C03. -/
theorem C03_bound {pool : Pool} (h : PHistory pool) (env : Env) (data : List UInt8) (level : Nat)
    (hn : data.length + 2 < 2 ^ 32) :
    (∃ out pool', deflateZlib env (Simd.adler32 env.level) pool data level = .ok (out, pool') ∧
      out.length ≤ data.length + 5 * (data.length / 65535 + 1) + 6) ∧
    ∃ out pool', deflateZlibPacked env (Simd.adler32 env.level) pool data level = .ok (out, pool') ∧
      out.length ≤ data.length + 5 * (data.length / 65535 + 1) + 6 := by
  obtain ⟨⟨o, p⟩, e, hp⟩ := (deflateZlib_ok (sumOk env.level) env h.ok data level hn).out
  obtain ⟨⟨o', p'⟩, e', hp'⟩ := (deflateZlibPacked_ok (sumOk env.level) env h.ok data level hn).out
  exact ⟨⟨o, p, e, hp.1.2⟩, o', p', e', hp'.1.2⟩

/-- The bound also holds for `deflate_optimal_zlib`. -/
theorem C03_optimal (env : Env) (hl : LogOk env.log2) (data : List UInt8) (hn : data.length + 1 < 2 ^ 30)
    (iterations : Nat) :
    ∃ out, deflateOptimalZlib env (Simd.adler32 env.level) data iterations = .ok out ∧
      out.length ≤ data.length + 5 * (data.length / 65535 + 1) + 6 := by
  obtain ⟨o, e, hp⟩ := (deflateOptimalZlib_ok env hl hn (sumOk env.level) iterations).out
  exact ⟨o, e, hp.2⟩

/-! ## C04 -/

/-- C04, partial: for every input but the empty one, `deflate_stored` returns an encoding. The
full statement drops `data ≠ []`; it fails, see `C04_violation`. -/
theorem C04_stored_partial (data : List UInt8) (hne : data ≠ []) :
    ∃ out, deflateStored data = .ok out ∧ Encodes true out data ∧
      out.length = data.length + 5 * ((data.length + 65534) / 65535) := by
  obtain ⟨o, e, hp⟩ := (deflateStored_spec hne).out
  exact ⟨o, e, hp.1, hp.2⟩

/-- C04 fails for the empty input: no byte is written, and no byte string of length zero is a
DEFLATE stream of anything. -/
theorem C04_violation : deflateStored [] = .ok [] ∧ ∀ data, ¬ Encodes true [] data := by
  refine ⟨rfl, fun data h => ?_⟩
  have := inflate_encodes h
  have hbad : inflate [] = .ok data → False := by
    intro h
    have : (match inflate [] with | .ok _ => true | .error _ => false) = false := by decide +kernel
    rw [h] at this; cases this
  exact hbad this

example : deflateStored [1, 2, 3] = .ok [1, 3, 0, 252, 255, 1, 2, 3] := by decide +kernel

/-! ## C07 -/

/-- C07, lengths: symbol `257 + k`, where entry `k` of the table of RFC 1951 §3.2.5 is `(b, x)`,
followed by `x` extra bits of value `e` with `b + e = l`. -/
theorem C07_length (l : Nat) (h1 : 3 ≤ l) (h2 : l ≤ 258) :
    ∃ k b x e, lengthTable[k]? = some (b, x) ∧ lengthCode l = .ok (257 + k, x, e) ∧ e < 2 ^ x ∧ b + e = l := by
  obtain ⟨k, b, x, e, g1, g2, g3, g4, _⟩ := lengthCode_spec h1 h2
  exact ⟨k, b, x, e, g1, g2, g3, g4⟩

/-- C07, distances. -/
theorem C07_distance (d : Nat) (h1 : 1 ≤ d) (h2 : d ≤ 32768) :
    ∃ k b x e, distTable[k]? = some (b, x) ∧ distanceCode d = .ok (k, x, e) ∧ e < 2 ^ x ∧ b + e = d := by
  obtain ⟨k, b, x, e, g1, g2, g3, g4, _⟩ := distanceCode_spec h1 h2
  exact ⟨k, b, x, e, g1, g2, g3, g4⟩

/-- C07, length 258 has the short code. -/
theorem C07_length_258 : lengthCode 258 = .ok (285, 0, 0) := by decide +kernel

example : lengthCode 100 = .ok (279, 4, 1) ∧ distanceCode 1000 = .ok (19, 8, 231) := by decide +kernel

/-! ## C26 -/

/-- C26: after any history, all six methods of a deflater return what they return on a new one
(also when they fail). -/
theorem C26_deflater {level : Nat} {d : Deflater} (h : DHistory level d) (env : Env) (adler : List UInt8 → R Nat)
    (data : List UInt8) :
    (d.compress env data).map Prod.fst = ((Deflater.new level).compress env data).map Prod.fst ∧
    (d.compressFixedOnly env data).map Prod.fst = ((Deflater.new level).compressFixedOnly env data).map Prod.fst ∧
    (d.compressZlib env adler data).map Prod.fst = ((Deflater.new level).compressZlib env adler data).map Prod.fst ∧
    (d.compressPacked env data).map Prod.fst = ((Deflater.new level).compressPacked env data).map Prod.fst ∧
    (d.compressFixedOnlyPacked env data).map Prod.fst =
      ((Deflater.new level).compressFixedOnlyPacked env data).map Prod.fst ∧
    (d.compressPackedZlib env adler data).map Prod.fst =
      ((Deflater.new level).compressPackedZlib env adler data).map Prod.fst :=
  have hn := dOk_new level
  ⟨compress_same' env h.ok hn data, compressFixedOnly_same env h.ok hn data,
   compressZlib_same env h.ok hn data adler, compressPacked_same env h.ok hn data,
   compressFixedOnlyPacked_same env h.ok hn data, compressPackedZlib_same env h.ok hn data adler⟩

/-- C26 for the functions that use the static pool. -/
theorem C26_pool {pool : Pool} (h : PHistory pool) (env : Env) (adler : List UInt8 → R Nat) (data : List UInt8)
    (level : Nat) :
    (deflate env pool data level).map Prod.fst = (deflate env Pool.new data level).map Prod.fst ∧
    (deflatePacked env pool data level).map Prod.fst = (deflatePacked env Pool.new data level).map Prod.fst ∧
    (deflateZlib env adler pool data level).map Prod.fst =
      (deflateZlib env adler Pool.new data level).map Prod.fst ∧
    (deflateZlibPacked env adler pool data level).map Prod.fst =
      (deflateZlibPacked env adler Pool.new data level).map Prod.fst := by
  have key : ∀ f : Deflater → R (List UInt8 × Deflater),
      (∀ d d', DOk level d → DOk level d' → (f d).map Prod.fst = (f d').map Prod.fst) →
      (withReusable pool level f).map Prod.fst = (withReusable Pool.new level f).map Prod.fst := fun f hf =>
    (withReusable_same h.ok level f hf).trans (withReusable_same pOk_new level f hf).symm
  have k1 := key (fun d => d.compress env data) fun d d' a b => compress_same' env a b data
  have k2 := key (fun d => d.compressFixedOnly env data) fun d d' a b => compressFixedOnly_same env a b data
  have k3 := key (fun d => d.compressZlib env adler data) fun d d' a b => compressZlib_same env a b data adler
  have k4 := key (fun d => d.compressPacked env data) fun d d' a b => compressPacked_same env a b data
  have k5 := key (fun d => d.compressFixedOnlyPacked env data) fun d d' a b =>
    compressFixedOnlyPacked_same env a b data
  have k6 := key (fun d => d.compressPackedZlib env adler data) fun d d' a b =>
    compressPackedZlib_same env a b data adler
  refine ⟨?_, ?_, ?_, ?_⟩
  · unfold deflate
    split
    · cases emptyFixedBlock <;> rfl
    · split
      · exact k2
      · exact k1
  · unfold deflatePacked
    split
    · cases emptyFixedBlock <;> rfl
    · split
      · exact k5
      · exact k4
  · unfold deflateZlib
    cases bail data with
    | error e => rfl
    | ok b =>
      rw [ok_bind, ok_bind]
      split
      · cases deflateZlibStored adler data level <;> rfl
      · exact k3
  · unfold deflateZlibPacked
    cases bail data with
    | error e => rfl
    | ok b =>
      rw [ok_bind, ok_bind]
      split
      · cases deflateZlibStored adler data level <;> rfl
      · exact k6

/-- A used pool: level 3 has compressed something. -/
example : ∃ p, PHistory p ∧ ∃ out p', deflate plainEnv Pool.new [1, 2, 3, 4] 3 = .ok (out, p') ∧ p = p' := by
  obtain ⟨out, p, e, _⟩ := C01_deflate .new plainEnv [1, 2, 3, 4] 3 (by decide)
  exact ⟨p, .deflate .new e, out, p, e, rfl⟩

end Pixo.Props
