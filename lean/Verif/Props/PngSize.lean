import Verif.Proof.PngSize
import Verif.Props.PngFormat
/-
C88: the size of PNG files is bounded by the size of the image.
-/
namespace Pixo.Props
open Spec Spec.Png
open Pixo.Png (Options Valid Small encode encodeIndexedWith)
open Pixo.Deflate (Pool)

/-- The most bytes of a zlib stream in stored blocks of 65535 bytes for `n` bytes: a header of 2, 5 for each block, a
checksum of 4. -/
def storedStream (n : Nat) : Nat := n + 5 * (n / 65535 + 1) + 6

/-- `z` bytes in chunks of 256 KiB: 12 bytes more for each. -/
def inChunks (z : Nat) : Nat := z + 12 * ((z + 262143) / 262144)

/-- Everything else at most: signature 8, IHDR 25, PLTE 12 + 768, tRNS 12 + 256, IEND 12. -/
def others : Nat := 8 + 25 + (12 + 768) + (12 + 256) + 12

/-- C88: whatever the image and the options, the file is no longer than the image with a filter byte for each row, in
stored blocks, in chunks of 256 KiB, with the largest palette. -/
theorem C88_size {pool : Pool} (hp : PHistory pool) (env : Png.Env) (data : List UInt8) (o : Options)
    (hv : Valid data o) (hs : Small o.width o.height) (he : Sane env o.height) :
    ∃ out pool', encode env pool data o = .ok (out, pool') ∧
      out.length ≤ others + inChunks (storedStream (data.length + o.height)) := by
  obtain ⟨⟨out, pool'⟩, e, h⟩ := (Png.encodeWith_size (sumOk env.deflate.level) hv he.ok hp.ok [] hs).out
  refine ⟨out, pool', e, Nat.le_trans h ?_⟩
  have hn : o.height * (1 + o.width * o.colorType.bytesPerPixel) = data.length + o.height := by
    rw [hv.len, Nat.mul_add, Nat.mul_one, Nat.mul_comm o.width o.height, Nat.mul_assoc]; omega
  unfold Png.fileMost Png.dataMost
  rw [hn]
  show 33 + 1048 + (inChunks (storedStream (data.length + o.height)) + 12) ≤ _
  unfold others
  omega

/-- In round numbers: one byte in 8000 and a kilobyte more than the rows. -/
theorem C88_round {pool : Pool} (hp : PHistory pool) (env : Png.Env) (data : List UInt8) (o : Options)
    (hv : Valid data o) (hs : Small o.width o.height) (he : Sane env o.height) :
    ∃ out pool', encode env pool data o = .ok (out, pool') ∧
      out.length ≤ (data.length + o.height) + (data.length + o.height) / 8000 + 1120 := by
  obtain ⟨out, pool', e, h⟩ := C88_size hp env data o hv hs he
  refine ⟨out, pool', e, Nat.le_trans h ?_⟩
  unfold others inChunks storedStream
  omega

/-- C88 for `encode_indexed`. -/
theorem C88_indexed {pool : Pool} (hp : PHistory pool) (env : Png.Env) (data : List UInt8) (w h : Nat) (hw : 0 < w)
    (hh : 0 < h) (hw1 : w ≤ 2 ^ 24) (hh1 : h ≤ 2 ^ 24) (hl : data.length = w * h) (hs : Small w h) (he : Sane env h)
    (palette : List (UInt8 × UInt8 × UInt8)) (hp1 : 1 ≤ palette.length) (hp2 : palette.length ≤ 256)
    (transparency : Option (List UInt8)) (ht : (transparency.getD []).length ≤ palette.length) (o : Options) :
    ∃ out pool', encodeIndexedWith env pool data w h palette transparency o = .ok (out, pool') ∧
      out.length ≤ others + inChunks (storedStream (data.length + h)) := by
  obtain ⟨⟨out, pool'⟩, e, hm⟩ := (Png.encodeIndexedInto_size (sumOk env.deflate.level) he.ok hp.ok []
    ⟨hw, hh, by omega, by omega⟩ hs hl hp1 hp2 ht o).out
  refine ⟨out, pool', e, Nat.le_trans hm ?_⟩
  have hn : h * (1 + w) = data.length + h := by rw [hl, Nat.mul_add, Nat.mul_one, Nat.mul_comm w h]; omega
  unfold Png.fileMost Png.dataMost
  rw [hn]
  show 33 + 1048 + (inChunks (storedStream (data.length + h)) + 12) ≤ _
  unfold others
  omega

/-- The file of a 2x1 image has at most 1123 bytes. -/
example : Valid [255, 0, 0, 1, 1, 1] redOptions ∧ Small redOptions.width redOptions.height ∧
    others + inChunks (storedStream (6 + 1)) = 1123 :=
  ⟨⟨by decide, by decide, by decide, by decide, by decide, by decide⟩, by unfold Small; decide, by decide⟩

end Pixo.Props
