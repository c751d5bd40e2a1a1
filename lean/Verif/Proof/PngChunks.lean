import Verif.Model.Png
import Verif.Proof.Crc32
import Verif.Proof.PngDecode
/-
The chunk writers produce chunks as the specification describes them, and metadata stripping
filters a chunk stream.
-/
namespace Pixo.Png
open Spec Spec.Png
open Pixo.PngDecode (readBe32_drop slice_drop chunk_length)
open Pixo.MatchLength (slice slice_ok)

theorem be32_eq (n : Nat) : Png.be32 n = Spec.Png.be32 n := by
  unfold Png.be32 Spec.Png.be32
  simp only [Nat.shiftRight_eq_div_pow]

theorem crc_eq (ty data : List UInt8) :
    Crc.finalize (Crc.update (Crc.update Crc.new ty) data) = Spec.crc32 (ty ++ data) := by
  unfold Crc.finalize
  rw [Crc.update_spec, Crc.update_spec, ← List.foldl_append, ← Spec.bytesLSB_append, Crc.xor_ones]
  rfl

theorem writeChunk_eq (output ty data : List UInt8) :
    writeChunk output ty data = output ++ (Chunk.bytes ⟨ty, data⟩) := by
  unfold writeChunk Chunk.bytes
  simp only [be32_eq, crc_eq, List.append_assoc]

theorem writeIdat_eq (output compressed : List UInt8) :
    writeIdat output compressed
      = output ++ stream ((pieces (256 * 1024) compressed).map (Chunk.mk Spec.Png.IDAT)) := by
  unfold writeIdat
  generalize pieces (256 * 1024) compressed = ps
  induction ps generalizing output with
  | nil => simp [stream]
  | cons p ps ih =>
    rw [List.foldl_cons, ih, writeChunk_eq, List.append_assoc]
    rfl

theorem stream_append (a b : List Chunk) : stream (a ++ b) = stream a ++ stream b := by simp [stream]

theorem stream_cons (a : Chunk) (b : List Chunk) : stream (a :: b) = a.bytes ++ stream b := rfl

/-! ### Pieces -/

theorem pieces_flatten {n : Nat} (hn : 0 < n) (l : List UInt8) : (pieces n l).flatten = l := by
  have key : ∀ (k : Nat) (l : List UInt8), l.length ≤ k * n →
      ((List.range k).map fun i => (l.drop (i * n)).take n).flatten = l := by
    intro k
    induction k with
    | zero => intro l h; have : l = [] := List.eq_nil_of_length_eq_zero (by omega); simp [this]
    | succ k ih =>
      intro l h
      rw [List.range_succ_eq_map, List.map_cons, List.flatten_cons, List.map_map]
      have := ih (l.drop n) (by rw [List.length_drop]; rw [Nat.succ_mul] at h; omega)
      conv => rhs; rw [← List.take_append_drop n l, ← this]
      simp only [Nat.zero_mul, List.drop_zero, List.drop_drop]
      congr 2
      apply List.map_congr_left
      intro i _
      simp [Nat.succ_mul, Nat.add_comm]
  unfold pieces
  apply key
  have := Nat.div_add_mod (l.length + n - 1) n
  have := Nat.mod_lt (l.length + n - 1) hn
  rw [Nat.mul_comm]
  omega

theorem pieces_le {n : Nat} {l p : List UInt8} (h : p ∈ pieces n l) : p.length ≤ n := by
  unfold pieces at h
  obtain ⟨i, -, rfl⟩ := List.mem_map.mp h
  rw [List.length_take]; omega

theorem pieces_pos {n : Nat} (hn : 0 < n) {l p : List UInt8} (h : p ∈ pieces n l) : 0 < p.length := by
  unfold pieces at h
  obtain ⟨i, hi, rfl⟩ := List.mem_map.mp h
  rw [List.mem_range, Nat.lt_div_iff_mul_lt hn] at hi
  rw [List.length_take, List.length_drop]
  omega

/-! ### Stripping -/

/-- The chunks that stripping removes. -/
def isMeta (c : Chunk) : Bool :=
  c.ty = tEXt || c.ty = zTXt || c.ty = iTXt || c.ty = tIME

theorem isMeta_bit {ty : List UInt8} (h : ty.length = 4) :
    ((ty[0] &&& 0x20 != 0) && (ty = nTEXT || ty = nZTXT || ty = nITXT || ty = nTIME))
      = (decide (ty = tEXt) || decide (ty = zTXt) || decide (ty = iTXt) || decide (ty = tIME)) := by
  by_cases h1 : ty = tEXt
  · subst h1; decide +revert
  by_cases h2 : ty = zTXt
  · subst h2; decide +revert
  by_cases h3 : ty = iTXt
  · subst h3; decide +revert
  by_cases h4 : ty = tIME
  · subst h4; decide +revert
  simp only [show nTEXT = tEXt from rfl, show nZTXT = zTXt from rfl, show nITXT = iTXt from rfl,
    show nTIME = tIME from rfl, h1, h2, h3, h4, decide_false, Bool.or_false, Bool.and_false]

/-- One round. -/
theorem stripLoop_step {data post : List UInt8} {c : Chunk} (hc : c.Ok) {pos : Nat}
    (h : data.drop pos = c.bytes ++ post) (fuel : Nat) :
    stripLoop data (fuel + 1) pos =
      if c.ty = IEND then .ok (if isMeta c then [] else c.bytes)
      else stripLoop data fuel (pos + c.bytes.length) >>= fun rest =>
        .ok ((if isMeta c then [] else c.bytes) ++ rest) := by
  have hl := chunk_length hc
  have hlen : data.length - pos = c.bytes.length + post.length := by
    have := congrArg List.length h; simpa using this
  have hd : data.drop pos = Spec.Png.be32 c.data.length ++ (c.ty ++ (c.data ++ (Spec.Png.be32 (crc32 (c.ty ++ c.data)).toNat ++ post))) := by
    rw [h, Chunk.bytes]; simp only [List.append_assoc]
  rw [stripLoop, if_pos (by omega)]
  rw [readBe32_drop (pre := []) (n := c.data.length) (by rw [List.nil_append]; exact hd) (by have := hc.2; omega) (by simp), ok_bind]
  have ht : slice data (pos + 4) 4 = .ok c.ty := by
    have := slice_drop (data := data) (pos := pos) (pre := Spec.Png.be32 c.data.length) (l := c.ty)
      (post := (c.data ++ (Spec.Png.be32 (crc32 (c.ty ++ c.data)).toNat ++ post))) (a := pos + 4)
      (by rw [hd]; simp only [List.append_assoc]) rfl (Or.inr (by rw [PngDecode.be32_length]; omega))
    rwa [hc.1] at this
  rw [ht, ok_bind]
  simp only
  rw [if_neg (by omega)]
  have hw : slice data pos (pos + 8 + c.data.length + 4 - pos) = .ok c.bytes := by
    have := slice_drop (data := data) (pos := pos) (pre := []) (l := c.bytes) (post := post) (a := pos)
      (by rw [h, List.nil_append]) rfl (Or.inr (by simp; omega))
    rw [show pos + 8 + c.data.length + 4 - pos = c.bytes.length from by omega]
    exact this
  rw [hw, ok_bind]
  have h0 : getChecked c.ty 0 = .ok (c.ty[0]'(by rw [hc.1]; decide)) := by
    unfold getChecked
    rw [List.getElem?_eq_getElem (by rw [hc.1]; decide)]
  rw [h0, ok_bind, isMeta_bit hc.1]
  show (if c.ty = nIEND then _ else _) = _
  rw [show nIEND = IEND from rfl]
  have e : pos + 8 + c.data.length + 4 = pos + c.bytes.length := by omega
  rw [e]
  rfl

theorem stripLoop_stream {data : List UInt8} : ∀ (cs : List Chunk) (post : List UInt8) (pos fuel : Nat),
    (∀ c ∈ cs, c.Ok ∧ c.ty ≠ IEND) → cs.length < fuel → data.drop pos = stream cs ++ post →
    ∀ r, stripLoop data (fuel - cs.length) (pos + (stream cs).length) = .ok r →
    stripLoop data fuel pos = .ok (stream (cs.filter fun c => !isMeta c) ++ r)
  | [], post, pos, fuel, _, _, h, r, hr => by simpa [stream] using hr
  | c :: cs, post, pos, fuel + 1, hc, hf, h, r, hr => by
    obtain ⟨hok, hne⟩ := hc c List.mem_cons_self
    rw [stripLoop_step hok (post := stream cs ++ post) (by rw [h, stream_cons, List.append_assoc]), if_neg hne]
    have h' : data.drop (pos + c.bytes.length) = stream cs ++ post := by
      rw [← List.drop_drop, h, stream_cons, List.append_assoc, List.drop_left' rfl]
    have := stripLoop_stream cs post (pos + c.bytes.length) fuel
      (fun d hd => hc d (List.mem_cons_of_mem _ hd)) (by simp at hf; omega) h' r (by
        rw [← hr, stream_cons, List.length_append, ← Nat.add_assoc]
        simp)
    rw [this, ok_bind, List.filter_cons]
    cases isMeta c <;> simp [stream_cons]

theorem stream_length_ge : ∀ (cs : List Chunk), (∀ c ∈ cs, c.Ok) → 12 * cs.length ≤ (stream cs).length
  | [], _ => by simp
  | c :: cs, h => by
    have := stream_length_ge cs fun d hd => h d (List.mem_cons_of_mem _ hd)
    rw [stream_cons, List.length_append, chunk_length (h c List.mem_cons_self), List.length_cons]; omega

theorem head_slice {head rest : List UInt8} (h : head.length = 8) : slice (head ++ rest) 0 8 = .ok head := by
  rw [slice_ok (by rw [List.length_append]; omega)]
  simp [← h]

/-- Up to IEND the metadata chunks go, everything else stays; what follows IEND is dropped. -/
theorem stripMetadata_end {head : List UInt8} (hh : head.length = 8) {cs : List Chunk}
    (hc : ∀ c ∈ cs, c.Ok ∧ c.ty ≠ IEND) {e : Chunk} (he : e.Ok) (het : e.ty = IEND) (tail : List UInt8) :
    stripMetadata (head ++ stream (cs ++ [e]) ++ tail)
      = .ok (head ++ stream (cs.filter (fun c => !isMeta c) ++ [e])) := by
  unfold stripMetadata
  rw [List.append_assoc, head_slice hh, ok_bind]
  have hlen := stream_length_ge cs fun c h => (hc c h).1
  have hd : (head ++ (stream (cs ++ [e]) ++ tail)).drop 8 = stream cs ++ (e.bytes ++ tail) := by
    rw [List.drop_left' hh, stream_append]; simp [stream]
  have hf : cs.length < (head ++ (stream (cs ++ [e]) ++ tail)).length + 1 := by
    rw [List.length_append, List.length_append, stream_append, List.length_append]; omega
  have hd2 : (head ++ (stream (cs ++ [e]) ++ tail)).drop (8 + (stream cs).length) = e.bytes ++ tail := by
    rw [← List.drop_drop, hd, List.drop_left' rfl]
  have hm : isMeta e = false := by
    unfold isMeta; rw [het]; decide
  obtain ⟨k, hk⟩ : ∃ k, (head ++ (stream (cs ++ [e]) ++ tail)).length + 1 - cs.length = k + 1 :=
    ⟨_, (Nat.succ_pred_eq_of_pos (by omega)).symm⟩
  rw [stripLoop_stream cs _ 8 _ hc hf hd e.bytes (by
    rw [hk, stripLoop_step he hd2, if_pos het, hm]; rfl)]
  rw [ok_bind, stream_append]
  simp [stream]
  rfl

/-- A stream without IEND: the same. -/
theorem stripMetadata_open {head : List UInt8} (hh : head.length = 8) {cs : List Chunk}
    (hc : ∀ c ∈ cs, c.Ok ∧ c.ty ≠ IEND) :
    stripMetadata (head ++ stream cs) = .ok (head ++ stream (cs.filter (fun c => !isMeta c))) := by
  unfold stripMetadata
  rw [head_slice hh, ok_bind]
  have hlen := stream_length_ge cs fun c h => (hc c h).1
  have hf : cs.length < (head ++ stream cs).length + 1 := by rw [List.length_append]; omega
  obtain ⟨k, hk⟩ : ∃ k, (head ++ stream cs).length + 1 - cs.length = k + 1 :=
    ⟨_, (Nat.succ_pred_eq_of_pos (by omega)).symm⟩
  rw [stripLoop_stream cs [] 8 _ hc hf (by rw [List.drop_left' hh, List.append_nil]) [] (by
    rw [hk, stripLoop, if_neg (by rw [List.length_append, hh]; omega)]), ok_bind, List.append_nil]
  rfl

end Pixo.Png
