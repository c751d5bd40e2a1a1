import Verif.Proof.DeflateStream
import Verif.Spec.Rfc1950
/-
The public entry points of the DEFLATE encoder.
-/
namespace Pixo.Deflate
open Pixo Spec Pixo.Huffman
open Pixo.Inflate (inflate inflateZlib inflate_spec)
open Pixo.Lz77 hiding DISTANCE_EXTRA LENGTH_BASE LENGTH_EXTRA
open Spec.Rfc1951 hiding Token clOrder
open Spec.Rfc1950

/-! ### Strict streams are streams -/

theorem kraft_filter (l : List Nat) : kraft l = kraft (l.filter (· ≠ 0)) := by
  unfold kraft
  induction l with
  | nil => rfl
  | cons a l ih =>
    rw [List.map_cons, List.sum_cons, List.filter_cons]
    by_cases h : a = 0
    · subst h; simpa using ih
    · simp only [ne_eq, h, not_false_eq_true, decide_true, if_true, List.map_cons, List.sum_cons] at ih ⊢
      rw [ih]

theorem dataCode_weaken {l : List Nat} (h : dataCodeOK true l) : dataCodeOK false l := by
  unfold dataCodeOK at *
  rw [if_pos rfl] at h
  rw [if_neg (by decide)]
  rcases h with h | h
  · exact ⟨h.1, Nat.le_of_eq h.2⟩
  · refine ⟨fun x hx => ?_, ?_⟩
    · by_cases h0 : x = 0
      · omega
      · have : x ∈ l.filter (· ≠ 0) := List.mem_filter.mpr ⟨hx, by simpa using h0⟩
        unfold SingleCode at h
        rw [h] at this
        simp at this; omega
    · rw [kraft_filter]
      unfold SingleCode at h
      rw [h]; decide

theorem Block.weaken {pos : Nat} {bits : List Bool} {ts : List Rfc1951.Token} (h : Block true pos bits ts) :
    Block false pos bits ts := by
  cases h with
  | stored pad data h1 h2 h3 => exact .stored pad data h1 h2 h3
  | fixed h => exact .fixed h
  | dynamic hlit hdist hclen cl lit dist h1 h2 h3 h4 h5 h6 h7 h8 h9 h10 h11 h12 h13 =>
    refine .dynamic hlit hdist hclen cl lit dist h1 ?_ h3 h4 ?_ h6 h7 h8 h9 h10 (dataCode_weaken h11)
      (dataCode_weaken h12) h13
    · rw [if_pos rfl] at h2; rw [if_neg (by decide)]; omega
    · unfold clCodeOK at *
      rw [if_pos rfl] at h5; rw [if_neg (by decide)]
      exact ⟨h5.1.1, Nat.le_of_eq h5.1.2⟩

theorem Stream.weaken {pos : Nat} {bits : List Bool} {ts : List Rfc1951.Token} (h : Stream true pos bits ts) :
    Stream false pos bits ts := by
  induction h with
  | last h => exact .last (Block.weaken h)
  | more h _ ih => exact .more (Block.weaken h) ih

theorem Encodes.begins {bytes data : List UInt8} (h : Encodes true bytes data) : BeginsWith false bytes data := by
  obtain ⟨bits, pad, ts, h1, _, h3, h4⟩ := h
  exact ⟨bits, pad, ts, h1, Stream.weaken h3, h4⟩

theorem inflate_encodes {bytes data : List UInt8} (h : Encodes true bytes data) : inflate bytes = .ok data :=
  inflate_spec (Encodes.begins h)

/-! ### The zlib container -/

theorem ofBytesBE_beBytes {v : Nat} (h : v < 2 ^ 32) : ofBytesBE (beBytes v) = v := by
  unfold ofBytesBE beBytes
  simp only [List.foldl_cons, List.foldl_nil, UInt8.toNat_ofNat', Nat.shiftRight_eq_div_pow]
  omega

theorem zlibHeader_ok (level : Nat) : ∃ cmf flg : UInt8, zlibHeader level = [cmf, flg] ∧
    cmf.toNat % 16 = 8 ∧ cmf.toNat / 16 ≤ 7 ∧ (256 * cmf.toNat + flg.toNat) % 31 = 0 ∧ flg.toNat / 32 % 2 = 0 := by
  unfold zlibHeader
  refine ⟨_, _, rfl, ?_⟩
  by_cases h1 : level ≤ 2
  · simp only [h1, if_true]; decide
  · by_cases h2 : level ≤ 6
    · simp only [h1, h2, if_true, if_false]; decide
    · simp only [h1, h2, if_false]; decide

/-- A checksum function of the encoder, and its values. -/
structure SumOk (adler : List UInt8 → R Nat) (sum : List UInt8 → Nat) : Prop where
  eq : ∀ data, adler data = .ok (sum data)
  lt : ∀ data, sum data < 2 ^ 32

section
variable {adler : List UInt8 → R Nat} {sum : List UInt8 → Nat} (ha : SumOk adler sum)
include ha

theorem zlibWrap_spec (level : Nat) {data body : List UInt8} (h : Encodes true body data) :
    Oks (zlibWrap adler level data body) (fun out => ZlibWith sum out data ∧ out.length = body.length + 6) := by
  unfold zlibWrap
  rw [ha.eq, ok_bind]
  obtain ⟨cmf, flg, e, h1, h2, h3, h4⟩ := zlibHeader_ok level
  rw [e]
  refine .pure ⟨⟨cmf, flg, body, beBytes (sum data), rfl, h1, h2, h3, h4, h, rfl, ofBytesBE_beBytes (ha.lt data)⟩, ?_⟩
  simp only [List.length_append, List.length_cons, List.length_nil, beBytes]; omega

theorem emptyZlib_spec (level : Nat) :
    Oks (emptyZlib adler level) (fun out => ZlibWith sum out [] ∧ out.length = 8) := by
  unfold emptyZlib
  refine Oks.bind emptyFixedBlock_spec fun body hb => ?_
  refine Oks.mono (zlibWrap_spec ha level hb.1) fun out h => ⟨h.1, by omega⟩

/-- The size bound of C03. -/
def sizeBound (n : Nat) : Nat := n + 5 * (n / 65535 + 1) + 6

omit ha in
theorem stored_le (n : Nat) : n + 5 * ((n + 65534) / 65535) + 6 ≤ sizeBound n := by
  unfold sizeBound; omega

theorem deflateZlibStored_spec (level : Nat) {data : List UInt8} (hne : data ≠ []) :
    Oks (deflateZlibStored adler data level) (fun out => ZlibWith sum out data ∧ out.length ≤ sizeBound data.length) := by
  unfold deflateZlibStored
  refine Oks.bind (deflateStored_spec hne) fun body hb => ?_
  refine Oks.mono (zlibWrap_spec ha level hb.1) fun out h => ⟨h.1, ?_⟩
  have := stored_le data.length
  omega

theorem wrapBest_spec (level : Nat) {data body : List UInt8} (hne : data ≠ []) (h : Encodes true body data) :
    Oks (wrapBest adler level data body) (fun out => ZlibWith sum out data ∧ out.length ≤ sizeBound data.length) := by
  unfold wrapBest
  split
  · exact deflateZlibStored_spec ha level hne
  · rename_i hs
    refine Oks.mono (zlibWrap_spec ha level h) fun out ho => ⟨ho.1, ?_⟩
    unfold shouldUseStored at hs
    simp only [decide_eq_true_eq] at hs
    unfold sizeBound
    omega

omit ha in
/-- The decoder accepts a zlib stream whose check field it agrees with. -/
theorem inflateZlib_spec {bytes data : List UInt8} (h : ZlibWith sum bytes data) (expected : Option Nat)
    (he : ∀ n, expected = some n → n = data.length) : inflateZlib sum bytes expected = .ok data := by
  obtain ⟨cmf, flg, body, trailer, rfl, h1, h2, h3, h4, h5, h6, h7⟩ := h
  unfold inflateZlib
  simp only [List.cons_append, List.nil_append]
  have hf := flg.toNat_lt
  have e1 : cmf.toNat &&& 0x0F = 8 := by
    rw [show (0x0F : Nat) = 2 ^ 4 - 1 from rfl, Nat.and_two_pow_sub_one_eq_mod]; exact h1
  have e2 : (cmf.toNat <<< 8 ||| flg.toNat) % 31 = 0 := by
    rw [Nat.shiftLeft_eq, Nat.mul_comm, ← Nat.two_pow_add_eq_or_of_lt (by omega : flg.toNat < 2 ^ 8)]
    exact h3
  have e3 : flg.toNat &&& 0x20 = 0 := by
    have : ∀ f : Fin 256, f.val / 32 % 2 = 0 → f.val &&& 0x20 = 0 := by decide +kernel
    exact this ⟨flg.toNat, hf⟩ h4
  rw [if_neg (by rw [List.length_append]; omega), if_neg (by omega), if_neg (by omega), if_neg (by omega)]
  have hn : (body ++ trailer).length - 4 = body.length := by rw [List.length_append]; omega
  simp only [hn]
  rw [List.take_left' rfl, List.drop_left' rfl, inflate_encodes h5, ok_bind]
  have : trailer.foldl (fun a b => a * 256 + b.toNat) 0 = sum data := h7
  rw [this, if_neg (by simp)]
  cases expected with
  | none => rfl
  | some n =>
    have := he n rfl
    simp only [this, ne_eq, not_true_eq_false, if_false]; rfl

end

/-! ### Deflater -/

/-- The deflaters of a level. -/
structure DOk (lvl : Nat) (d : Deflater) : Prop where
  level : d.level = min (max lvl 1) 9
  sized : Sized d.lz77
  config : d.lz77.config = (State.new (min (max lvl 1) 9)).config

theorem dOk_new (level : Nat) : DOk level (Deflater.new level) := ⟨rfl, sized_new _, rfl⟩

theorem isEmpty_ne {data : List UInt8} (h : ¬ data.isEmpty = true) : data ≠ [] := by
  intro e; subst e; exact h rfl

theorem isEmpty_eq {data : List UInt8} (h : data.isEmpty = true) : data = [] := List.isEmpty_iff.mp h

theorem encodeChoice_spec (env : Env) (level : Nat) {data : List UInt8} {ts : List Token} (h : Good data ts)
    (hn : data.length + 2 < 2 ^ 32) :
    Oks (encodeChoice env level data ts) (fun out => Encodes true out data) := by
  unfold encodeChoice
  split
  · exact encodeSplit_spec env h hn 15
  · exact encodeBest_spec env h hn

section
variable (env : Env) {level : Nat} {d : Deflater} (hd : DOk level d) (data : List UInt8)
include hd

theorem lz_spec : Oks (Lz77.compress env.level d.lz77 data) (fun r => Good data r.1 ∧ DOk level { d with lz77 := r.2 }) := by
  refine Oks.mono (compress_spec env.level hd.sized data) ?_
  rintro ⟨ts, st⟩ ⟨h1, h2, h3⟩
  exact ⟨h1.good, hd.level, h2, h3.trans hd.config⟩

theorem lzPacked_spec : Oks (Lz77.compressPacked env.level d.lz77 data) (fun r => DOk level { d with lz77 := r.2 } ∧
    ∃ ts, Good data ts ∧ r.1.map unpack = ts.map (Except.ok ∘ some)) := by
  refine Oks.mono (compressPacked_spec env.level hd.sized data) ?_
  rintro ⟨ps, st⟩ ⟨h2, h3, ts, h1, _, h4⟩
  exact ⟨⟨hd.level, h2, h3.trans hd.config⟩, ts, h1.good, h4⟩

theorem compress_ok (hn : data.length + 2 < 2 ^ 32) :
    Oks (d.compress env data) (fun r => Encodes true r.1 data ∧ DOk level r.2) := by
  unfold Deflater.compress
  split
  · rename_i he
    rw [isEmpty_eq he]
    exact Oks.bind emptyFixedBlock_spec fun b hb => .pure ⟨hb.1, hd⟩
  · refine Oks.bind (lz_spec env hd data) ?_
    rintro ⟨ts, st⟩ ⟨h1, h2⟩
    exact Oks.bind (encodeChoice_spec env d.level h1 hn) fun b hb => .pure ⟨hb, h2⟩

theorem compressFixedOnly_ok :
    Oks (d.compressFixedOnly env data) (fun r => Encodes true r.1 data ∧ DOk level r.2) := by
  unfold Deflater.compressFixedOnly
  split
  · rename_i he
    rw [isEmpty_eq he]
    exact Oks.bind emptyFixedBlock_spec fun b hb => .pure ⟨hb.1, hd⟩
  · refine Oks.bind (lz_spec env hd data) ?_
    rintro ⟨ts, st⟩ ⟨h1, h2⟩
    exact Oks.bind (encodeFixed_spec h1) fun b hb => .pure ⟨hb, h2⟩

theorem compressPacked_ok (hn : data.length + 2 < 2 ^ 32) :
    Oks (d.compressPacked env data) (fun r => Encodes true r.1 data ∧ DOk level r.2) := by
  unfold Deflater.compressPacked
  split
  · rename_i he
    rw [isEmpty_eq he]
    exact Oks.bind emptyFixedBlock_spec fun b hb => .pure ⟨hb.1, hd⟩
  · rename_i he
    refine Oks.bind (lzPacked_spec env hd data) ?_
    rintro ⟨ps, st⟩ ⟨h2, ts, h1, h3⟩
    simp only
    split
    · exact Oks.bind (deflateStored_spec (isEmpty_ne he)) fun b hb => .pure ⟨hb.1, h2⟩
    · rw [encodeBestPacked_eq env h3]
      exact Oks.bind (encodeBest_spec env h1 hn) fun b hb => .pure ⟨hb, h2⟩

theorem compressFixedOnlyPacked_ok :
    Oks (d.compressFixedOnlyPacked env data) (fun r => Encodes true r.1 data ∧ DOk level r.2) := by
  unfold Deflater.compressFixedOnlyPacked
  split
  · rename_i he
    rw [isEmpty_eq he]
    exact Oks.bind emptyFixedBlock_spec fun b hb => .pure ⟨hb.1, hd⟩
  · refine Oks.bind (lzPacked_spec env hd data) ?_
    rintro ⟨ps, st⟩ ⟨h2, ts, h1, h3⟩
    simp only
    rw [encodeFixedPacked_eq h3]
    exact Oks.bind (encodeFixed_spec h1) fun b hb => .pure ⟨hb, h2⟩

variable {adler : List UInt8 → R Nat} {sum : List UInt8 → Nat} (ha : SumOk adler sum)
include ha

theorem compressZlib_ok (hn : data.length + 2 < 2 ^ 32) :
    Oks (d.compressZlib env adler data) (fun r => (ZlibWith sum r.1 data ∧ r.1.length ≤ sizeBound data.length) ∧
      DOk level r.2) := by
  unfold Deflater.compressZlib
  split
  · rename_i he
    rw [isEmpty_eq he]
    exact Oks.bind (emptyZlib_spec ha d.level) fun b hb => .pure ⟨⟨hb.1, by simp only [hb.2]; decide⟩, hd⟩
  · rename_i he
    refine Oks.bind (lz_spec env hd data) ?_
    rintro ⟨ts, st⟩ ⟨h1, h2⟩
    refine Oks.bind (encodeChoice_spec env d.level h1 hn) fun b hb => ?_
    exact Oks.bind (wrapBest_spec ha d.level (isEmpty_ne he) hb) fun o ho => .pure ⟨ho, h2⟩

theorem compressPackedZlib_ok (hn : data.length + 2 < 2 ^ 32) :
    Oks (d.compressPackedZlib env adler data) (fun r => (ZlibWith sum r.1 data ∧ r.1.length ≤ sizeBound data.length) ∧
      DOk level r.2) := by
  unfold Deflater.compressPackedZlib
  split
  · rename_i he
    rw [isEmpty_eq he]
    exact Oks.bind (emptyZlib_spec ha d.level) fun b hb => .pure ⟨⟨hb.1, by simp only [hb.2]; decide⟩, hd⟩
  · rename_i he
    refine Oks.bind (lzPacked_spec env hd data) ?_
    rintro ⟨ps, st⟩ ⟨h2, ts, h1, h3⟩
    simp only
    split
    · refine Oks.bind (deflateStored_spec (isEmpty_ne he)) fun b hb => ?_
      refine Oks.bind (zlibWrap_spec ha d.level hb.1) fun o ho => .pure ⟨⟨ho.1, ?_⟩, h2⟩
      have := stored_le data.length
      simp only; omega
    · rw [encodeBestPacked_eq env h3]
      refine Oks.bind (encodeBest_spec env h1 hn) fun b hb => ?_
      exact Oks.bind (wrapBest_spec ha d.level (isEmpty_ne he) hb) fun o ho => .pure ⟨ho, h2⟩

end

/-! ### The pool -/

/-- The pool of deflaters. -/
structure POk (pool : Pool) : Prop where
  length : pool.length = 10
  ok : ∀ i d, pool[i]? = some d → DOk i d

theorem pOk_new : POk Pool.new := by
  refine ⟨by simp [Pool.new], fun i d h => ?_⟩
  unfold Pool.new at h
  rw [List.getElem?_map] at h
  cases hr : (List.range 10)[i]? with
  | none => rw [hr] at h; cases h
  | some j =>
    rw [hr] at h
    rw [List.getElem?_eq_some_iff] at hr
    obtain ⟨hi, hj⟩ := hr
    rw [List.getElem_range] at hj
    subst hj
    cases h
    have := dOk_new (max i 1)
    refine ⟨this.level.trans (by omega), this.sized, this.config.trans ?_⟩
    rw [show min (max (max i 1) 1) 9 = min (max i 1) 9 by omega]

theorem withReusable_ok {α : Type} {pool : Pool} (hp : POk pool) (level : Nat) {f : Deflater → R (α × Deflater)}
    {P : α → Prop} (hf : ∀ d, DOk level d → Oks (f d) (fun r => P r.1 ∧ DOk level r.2)) :
    Oks (withReusable pool level f) (fun r => P r.1 ∧ POk r.2) := by
  unfold withReusable
  simp only
  have hlt : min (max level 1) 9 < pool.length := by rw [hp.length]; omega
  generalize hl : min (max level 1) 9 = l at *
  have hget : getChecked pool l = .ok pool[l] := by
    unfold getChecked; rw [List.getElem?_eq_getElem hlt]
  have hd := hp.ok l pool[l] (List.getElem?_eq_getElem hlt)
  have hll : min (max l 1) 9 = min (max level 1) 9 := by omega
  have hd' : DOk level pool[l] := ⟨by rw [hd.level, hll], hd.sized, by rw [hd.config, hll]⟩
  rw [hget, ok_bind, if_neg (by rw [hd'.level, hl]; simp)]
  refine Oks.bind (hf _ hd') ?_
  rintro ⟨a, d⟩ ⟨h1, h2⟩
  refine .pure ⟨h1, by rw [List.length_set, hp.length], fun i e h => ?_⟩
  rw [List.getElem?_set] at h
  split at h
  · rename_i hi
    subst hi
    first | rw [if_pos hlt] at h | skip
    cases h
    exact ⟨by rw [h2.level, hll], h2.sized, by rw [h2.config, hll]⟩
  · exact hp.ok i e h

theorem deflate_ok (env : Env) {pool : Pool} (hp : POk pool) (data : List UInt8) (level : Nat)
    (hn : data.length + 2 < 2 ^ 32) :
    Oks (deflate env pool data level) (fun r => Encodes true r.1 data ∧ POk r.2) := by
  unfold deflate
  split
  · rename_i he
    rw [isEmpty_eq he]
    exact Oks.bind emptyFixedBlock_spec fun b hb => .pure ⟨hb.1, hp⟩
  · split
    · exact withReusable_ok hp level (P := fun o => Encodes true o data) fun d hd => compressFixedOnly_ok env hd data
    · exact withReusable_ok hp level (P := fun o => Encodes true o data) fun d hd => compress_ok env hd data hn

theorem deflatePacked_ok (env : Env) {pool : Pool} (hp : POk pool) (data : List UInt8) (level : Nat)
    (hn : data.length + 2 < 2 ^ 32) :
    Oks (deflatePacked env pool data level) (fun r => Encodes true r.1 data ∧ POk r.2) := by
  unfold deflatePacked
  split
  · rename_i he
    rw [isEmpty_eq he]
    exact Oks.bind emptyFixedBlock_spec fun b hb => .pure ⟨hb.1, hp⟩
  · split
    · exact withReusable_ok hp level (P := fun o => Encodes true o data) fun d hd => compressFixedOnlyPacked_ok env hd data
    · exact withReusable_ok hp level (P := fun o => Encodes true o data) fun d hd => compressPacked_ok env hd data hn

theorem collisions_ok (sample : List UInt8) (n i : Nat) (h : i + n + 3 ≤ sample.length) (seen : List Bool)
    (hs : seen.length = 4096) (c : Nat) : Oks (collisions sample n i seen c) (fun _ => True) := by
  induction n generalizing i seen c with
  | zero => exact .ok trivial
  | succ n ih =>
    unfold collisions
    refine Oks.bind (word_ok (by omega)) fun v _ => ?_
    simp only
    have hlt : mulHash v 20 &&& (4096 - 1) < seen.length := by
      rw [hs, show (4096 - 1 : Nat) = 2 ^ 12 - 1 from rfl, Nat.and_two_pow_sub_one_eq_mod]
      exact Nat.mod_lt _ (by decide)
    refine Oks.bind (P := fun _ => True) (Oks.get hlt trivial) fun s _ => ?_
    split
    · exact ih (i + 1) (by omega) seen hs _
    · unfold setChecked
      rw [if_pos hlt, ok_bind]
      exact ih (i + 1) (by omega) _ (by rw [List.length_set, hs]) _

theorem bail_ok (data : List UInt8) : Oks (bail data) (fun b => b = true → data ≠ []) := by
  unfold bail
  split
  · rename_i hl
    unfold isHighEntropy
    rw [if_neg (by omega)]
    refine Oks.bind (collisions_ok _ _ 0 ?_ _ (by simp only [List.length_replicate]) 0) fun c _ => ?_
    · rw [List.length_take]; omega
    · refine .pure fun _ e => ?_
      subst e; simp at hl
  · exact .ok (by simp)

section
variable {adler : List UInt8 → R Nat} {sum : List UInt8 → Nat} (ha : SumOk adler sum)
include ha

theorem deflateZlib_ok (env : Env) {pool : Pool} (hp : POk pool) (data : List UInt8) (level : Nat)
    (hn : data.length + 2 < 2 ^ 32) :
    Oks (deflateZlib env adler pool data level) (fun r => (ZlibWith sum r.1 data ∧
      r.1.length ≤ sizeBound data.length) ∧ POk r.2) := by
  unfold deflateZlib
  refine Oks.bind (bail_ok data) fun b hb => ?_
  split
  · rename_i h
    exact Oks.bind (deflateZlibStored_spec ha level (hb h)) fun o ho => .pure ⟨ho, hp⟩
  · exact withReusable_ok hp level (P := fun o => ZlibWith sum o data ∧ o.length ≤ sizeBound data.length)
      fun d hd => compressZlib_ok env hd data ha hn

theorem deflateZlibPacked_ok (env : Env) {pool : Pool} (hp : POk pool) (data : List UInt8) (level : Nat)
    (hn : data.length + 2 < 2 ^ 32) :
    Oks (deflateZlibPacked env adler pool data level) (fun r => (ZlibWith sum r.1 data ∧
      r.1.length ≤ sizeBound data.length) ∧ POk r.2) := by
  unfold deflateZlibPacked
  refine Oks.bind (bail_ok data) fun b hb => ?_
  split
  · rename_i h
    exact Oks.bind (deflateZlibStored_spec ha level (hb h)) fun o ho => .pure ⟨ho, hp⟩
  · exact withReusable_ok hp level (P := fun o => ZlibWith sum o data ∧ o.length ≤ sizeBound data.length)
      fun d hd => compressPackedZlib_ok env hd data ha hn

end

/-! ### Iterated optimal parsing -/

theorem roundNat_le_mul (x : Nat) : 8 * roundNat x ≤ 9 * x := by
  unfold roundNat
  simp only
  by_cases he : x.log2 - 23 = 0
  · rw [he]
    simp only [Nat.shiftRight_zero, Nat.shiftLeft_zero, Nat.pow_zero, Nat.mod_one]
    rw [if_neg (by omega)]; omega
  · generalize hE : x.log2 - 23 = e at *
    have hx : x ≠ 0 := by rintro rfl; simp at hE; omega
    have h1 : 2 ^ (e + 23) ≤ x := by
      have := Nat.log2_self_le hx
      rwa [show x.log2 = e + 23 by omega] at this
    rw [Nat.pow_add] at h1
    have h2 : (if 2 * (x % 2 ^ e) > 2 ^ e ∨ 2 * (x % 2 ^ e) = 2 ^ e ∧ x >>> e % 2 = 1 then x >>> e + 1 else x >>> e)
        ≤ x / 2 ^ e + 1 := by
      rw [Nat.shiftRight_eq_div_pow]; split <;> omega
    generalize (if 2 * (x % 2 ^ e) > 2 ^ e ∨ 2 * (x % 2 ^ e) = 2 ^ e ∧ x >>> e % 2 = 1 then x >>> e + 1 else x >>> e) = q at *
    rw [Nat.shiftLeft_eq]
    have h3 : q * 2 ^ e ≤ (x / 2 ^ e + 1) * 2 ^ e := Nat.mul_le_mul_right _ h2
    rw [Nat.add_mul, Nat.one_mul] at h3
    have h4 : x / 2 ^ e * 2 ^ e ≤ x := Nat.div_mul_le_self _ _
    generalize 2 ^ e = E at *
    generalize q * E = Q at *
    generalize x / E * E = Y at *
    have : (2 : Nat) ^ 23 = 8388608 := by decide
    rw [this] at h1
    omega

theorem blend_le (a b : Nat) : 128 * blend a b ≤ 81 * (a + 2 * b) := by
  unfold blend
  have h1 := roundNat_le_mul a
  have h2 := roundNat_le_mul b
  have h3 := roundNat_le_mul (roundNat a + 2 * roundNat b)
  generalize roundNat (roundNat a + 2 * roundNat b) = r at *
  omega

theorem zipWith_blend (l m : List Nat) (h : l.length = m.length) :
    (List.zipWith blend l m).length = l.length ∧ 128 * (List.zipWith blend l m).sum ≤ 81 * (l.sum + 2 * m.sum) := by
  induction l generalizing m with
  | nil => cases m with
    | nil => simp
    | cons _ _ => simp at h
  | cons a l ih => cases m with
    | nil => simp at h
    | cons b m =>
      have ⟨i1, i2⟩ := ih m (by simpa using h)
      have := blend_le a b
      simp only [List.zipWith_cons_cons, List.length_cons, List.sum_cons]
      omega

theorem tokenCost_ok {cm : CostModel} (hc : CostOk cm) {t : Token} (ht : TokOk t) :
    Oks (tokenCost cm t) (fun _ => True) := by
  cases t with
  | lit b =>
    have := b.toNat_lt
    unfold tokenCost CostModel.literalCost
    exact Oks.get (by rw [hc.lit]; omega) trivial
  | mtch l d => exact matchCost_ok' hc ⟨ht.1, ht.2.1⟩ ⟨ht.2.2.1, ht.2.2.2⟩

theorem costSum_ok {cm : CostModel} (hc : CostOk cm) (ts : List Token) (ht : ∀ t ∈ ts, TokOk t) (acc : Int) :
    Oks (costSum cm ts acc) (fun _ => True) := by
  induction ts generalizing acc with
  | nil => exact .ok trivial
  | cons t ts ih =>
    unfold costSum
    refine Oks.bind (tokenCost_ok hc (ht t (by simp))) fun c _ => ?_
    exact ih (fun x hx => ht x (by simp [hx])) _

/-- Invariant of the refinement. -/
structure RefOk (data : List UInt8) (s : Refine) : Prop where
  sized : Sized s.lz
  cache : CacheOk data s.cache
  lit : s.lit.length = 286
  dist : s.dist.length = 30
  sumLit : s.lit.sum ≤ 4 * (data.length + 1)
  sumDist : s.dist.sum ≤ 4 * (data.length + 1)

section
variable (env : Env) (hlog : LogOk env.log2) {data : List UInt8} (hn : data.length + 1 < 2 ^ 30)
include hn

theorem refineStart_ok : Oks (refineStart env data) (fun r => Good data r.1 ∧ RefOk data r.2) := by
  unfold refineStart
  refine Oks.bind (compress_spec env.level (sized_new 9) data) ?_
  rintro ⟨ts, st⟩ ⟨h1, h2, h3⟩
  have hc := h1.count
  simp only at hc
  simp only
  refine Oks.bind (countSymbols_spec ts h1.tokOk (by omega)) ?_
  rintro ⟨lit, dist⟩ hk
  have k1 := hk.sumLit
  have k2 := hk.sumDist
  simp only at k1 k2
  exact .pure ⟨h1.good, h2, cacheOk_new data _, hk.lit, hk.dist, by simp only; omega, by simp only; omega⟩

include hlog

theorem refineStep_ok (iter : Nat) {s : Refine} (hs : RefOk data s) :
    Oks (refineStep env data iter s) (fun r => Good data r.1 ∧ RefOk data r.2.1) := by
  unfold refineStep
  have s1 := hs.sumLit
  have s2 := hs.sumDist
  refine Oks.bind (fromStatistics_spec hlog hs.lit hs.dist (by omega) (by omega)) fun cm hcm => ?_
  refine Oks.bind (compressOptimalCached_spec env.level hs.sized hcm hs.cache) ?_
  rintro ⟨ts, st, cache⟩ ⟨h1, h2, _, h4⟩
  have hc := h1.count
  simp only at hc
  simp only
  refine Oks.bind (countSymbols_spec ts h1.tokOk (by omega)) ?_
  rintro ⟨lit, dist⟩ hk
  have k1 := hk.sumLit
  have k2 := hk.sumDist
  have k3 := hk.lit
  have k4 := hk.dist
  simp only at k1 k2 k3 k4
  simp only
  refine Oks.bind (costSum_ok hcm ts h1.tokOk 0) fun cost _ => ?_
  have ⟨b1, b2⟩ := zipWith_blend s.lit lit (by rw [hs.lit, k3])
  have ⟨b3, b4⟩ := zipWith_blend s.dist dist (by rw [hs.dist, k4])
  refine .pure ⟨h1.good, h2, h4, ?_, ?_, ?_, ?_⟩
  · simp only [b1, hs.lit]
  · simp only [b3, hs.dist]
  · simp only; omega
  · simp only; omega

theorem optimalLoop_ok (n iter : Nat) {s : Refine} (hs : RefOk data s) {best : List UInt8} (hb : Encodes true best data) :
    Oks (optimalLoop env data n iter s best) (fun out => Encodes true out data) := by
  induction n generalizing iter s best with
  | zero => exact .ok hb
  | succ n ih =>
    unfold optimalLoop
    refine Oks.bind (refineStep_ok env hlog hn iter hs) ?_
    rintro ⟨ts, s', stop⟩ ⟨h1, h2⟩
    simp only
    refine Oks.bind (encodeDynamic_spec env h1 (by omega)) fun out ho => ?_
    have hbest : Encodes true (if out.length < best.length then out else best) data := by split <;> assumption
    split
    · exact .ok hbest
    · exact ih (iter + 1) h2 hbest

theorem deflateOptimal_ok (iterations : Nat) :
    Oks (deflateOptimal env data iterations) (fun out => Encodes true out data) := by
  unfold deflateOptimal
  split
  · rename_i he
    rw [isEmpty_eq he]
    exact Oks.mono emptyFixedBlock_spec fun b hb => hb.1
  · refine Oks.bind (refineStart_ok env hn) ?_
    rintro ⟨ts, s⟩ ⟨h1, h2⟩
    refine Oks.bind (encodeDynamic_spec env h1 (by omega)) fun best hb => ?_
    exact optimalLoop_ok env hlog hn iterations 0 h2 hb

theorem splitRefineLoop_ok (n iter : Nat) {s : Refine} (hs : RefOk data s) {best : List Token} (hb : Good data best) :
    Oks (splitRefineLoop env data n iter s best) (fun r => Good data r.1 ∧ RefOk data r.2) := by
  induction n generalizing iter s best with
  | zero => exact .ok ⟨hb, hs⟩
  | succ n ih =>
    unfold splitRefineLoop
    refine Oks.bind (refineStep_ok env hlog hn iter hs) ?_
    rintro ⟨ts, s', stop⟩ ⟨h1, h2⟩
    simp only
    split
    · exact .ok ⟨h1, h2⟩
    · exact ih (iter + 1) h2 h1

theorem deflateOptimalSplit_ok (iterations maxBlocks : Nat) :
    Oks (deflateOptimalSplit env data iterations maxBlocks) (fun out => Encodes true out data) := by
  unfold deflateOptimalSplit
  split
  · rename_i he
    rw [isEmpty_eq he]
    exact Oks.mono emptyFixedBlock_spec fun b hb => hb.1
  · rename_i he
    refine Oks.bind (refineStart_ok env hn) ?_
    rintro ⟨ts, s⟩ ⟨h1, h2⟩
    refine Oks.bind (splitRefineLoop_ok env hlog hn iterations 0 h2 h1) ?_
    rintro ⟨best, s'⟩ ⟨h3, _⟩
    simp only
    simp only at h3
    rw [no_zero_distance h3, if_neg (by decide)]
    refine encodeSplitBlocks_spec env h3 (by omega) ?_ maxBlocks
    cases best with
    | nil =>
      have := h3.expands
      simp [expand, expandFrom] at this
      exact absurd this (isEmpty_ne he)
    | cons _ _ => simp

variable {adler : List UInt8 → R Nat} {sum : List UInt8 → Nat} (ha : SumOk adler sum)
include ha

theorem deflateOptimalSplitZlib_ok (iterations maxBlocks : Nat) :
    Oks (deflateOptimalSplitZlib env adler data iterations maxBlocks) (fun out => ZlibWith sum out data ∧
      out.length ≤ sizeBound data.length) := by
  unfold deflateOptimalSplitZlib
  split
  · rename_i he
    rw [isEmpty_eq he]
    exact Oks.mono (emptyZlib_spec ha 9) fun b hb => ⟨hb.1, by rw [hb.2]; decide⟩
  · rename_i he
    refine Oks.bind (deflateOptimalSplit_ok env hlog hn iterations maxBlocks) fun b hb => ?_
    exact wrapBest_spec ha 9 (isEmpty_ne he) hb

theorem deflateOptimalZlib_ok (iterations : Nat) :
    Oks (deflateOptimalZlib env adler data iterations) (fun out => ZlibWith sum out data ∧
      out.length ≤ sizeBound data.length) := by
  unfold deflateOptimalZlib
  split
  · rename_i he
    rw [isEmpty_eq he]
    exact Oks.mono (emptyZlib_spec ha 9) fun b hb => ⟨hb.1, by rw [hb.2]; decide⟩
  · rename_i he
    split
    · refine Oks.bind (deflateOptimal_ok env hlog hn iterations) fun b hb => ?_
      exact wrapBest_spec ha 9 (isEmpty_ne he) hb
    · exact deflateOptimalSplitZlib_ok env hlog hn ha iterations 15

end

/-! ### History independence -/

theorem compress_same {st st' : State} (h : Sized st) (h' : Sized st') (hc : st.config = st'.config)
    (lv : Simd.Level) {data : List UInt8} (hne : ¬ data.isEmpty = true) :
    Lz77.compress lv st data = Lz77.compress lv st' data := by
  unfold Lz77.compress
  rw [if_neg hne, if_neg hne, reset_eq h h' hc, hc]

section
variable (env : Env) {level : Nat} {d d' : Deflater} (hd : DOk level d) (hd' : DOk level d') (data : List UInt8)
include hd hd'

theorem same_lz (hne : ¬ data.isEmpty = true) : Lz77.compress env.level d.lz77 data = Lz77.compress env.level d'.lz77 data :=
  compress_same hd.sized hd'.sized (hd.config.trans hd'.config.symm) env.level hne

theorem same_packed (hne : ¬ data.isEmpty = true) :
    Lz77.compressPacked env.level d.lz77 data = Lz77.compressPacked env.level d'.lz77 data := by
  unfold Lz77.compressPacked; rw [same_lz env hd hd' data hne]

omit hd hd' in
theorem map_fst_congr {α β γ : Type} {x y : R (α × β)} (h : x = y) (f : R (α × β) → R (γ × Deflater)) :
    (f x).map Prod.fst = (f y).map Prod.fst := by rw [h]

theorem same_level : d.level = d'.level := hd.level.trans hd'.level.symm

theorem compress_same' : (d.compress env data).map Prod.fst = (d'.compress env data).map Prod.fst := by
  unfold Deflater.compress
  split
  · cases emptyFixedBlock <;> rfl
  · rename_i he
    have hl := same_level hd hd'
    rw [same_lz env hd hd' data he]
    cases d; cases d'
    simp only at hl
    subst hl; rfl

theorem compressFixedOnly_same : (d.compressFixedOnly env data).map Prod.fst = (d'.compressFixedOnly env data).map Prod.fst := by
  unfold Deflater.compressFixedOnly
  split
  · cases emptyFixedBlock <;> rfl
  · rename_i he
    have hl := same_level hd hd'
    rw [same_lz env hd hd' data he]
    cases d; cases d'
    simp only at hl
    subst hl; rfl

theorem compressPacked_same : (d.compressPacked env data).map Prod.fst = (d'.compressPacked env data).map Prod.fst := by
  unfold Deflater.compressPacked
  split
  · cases emptyFixedBlock <;> rfl
  · rename_i he
    have hl := same_level hd hd'
    rw [same_packed env hd hd' data he]
    cases d; cases d'
    simp only at hl
    subst hl; rfl

theorem compressFixedOnlyPacked_same : (d.compressFixedOnlyPacked env data).map Prod.fst =
    (d'.compressFixedOnlyPacked env data).map Prod.fst := by
  unfold Deflater.compressFixedOnlyPacked
  split
  · cases emptyFixedBlock <;> rfl
  · rename_i he
    have hl := same_level hd hd'
    rw [same_packed env hd hd' data he]
    cases d; cases d'
    simp only at hl
    subst hl; rfl

theorem compressZlib_same (adler : List UInt8 → R Nat) : (d.compressZlib env adler data).map Prod.fst =
    (d'.compressZlib env adler data).map Prod.fst := by
  unfold Deflater.compressZlib
  have hl := same_level hd hd'
  split
  · rw [hl]; cases emptyZlib adler d'.level <;> rfl
  · rename_i he
    rw [same_lz env hd hd' data he]
    cases d; cases d'
    simp only at hl
    subst hl; rfl

theorem compressPackedZlib_same (adler : List UInt8 → R Nat) : (d.compressPackedZlib env adler data).map Prod.fst =
    (d'.compressPackedZlib env adler data).map Prod.fst := by
  unfold Deflater.compressPackedZlib
  have hl := same_level hd hd'
  split
  · rw [hl]; cases emptyZlib adler d'.level <;> rfl
  · rename_i he
    rw [same_packed env hd hd' data he]
    cases d; cases d'
    simp only at hl
    subst hl; rfl

end

/-- A call through the pool gives what a new deflater gives. -/
theorem withReusable_same {α : Type} {pool : Pool} (hp : POk pool) (level : Nat) (f : Deflater → R (α × Deflater))
    (hf : ∀ d d', DOk level d → DOk level d' → (f d).map Prod.fst = (f d').map Prod.fst) :
    (withReusable pool level f).map Prod.fst = (f (Deflater.new level)).map Prod.fst := by
  unfold withReusable
  simp only
  have hlt : min (max level 1) 9 < pool.length := by rw [hp.length]; omega
  generalize hl : min (max level 1) 9 = l at *
  have hget : getChecked pool l = .ok pool[l] := by
    unfold getChecked; rw [List.getElem?_eq_getElem hlt]
  have hd := hp.ok l pool[l] (List.getElem?_eq_getElem hlt)
  have hll : min (max l 1) 9 = min (max level 1) 9 := by omega
  have hd' : DOk level pool[l] := ⟨by rw [hd.level, hll], hd.sized, by rw [hd.config, hll]⟩
  rw [hget, ok_bind, if_neg (by rw [hd'.level, hl]; simp), ← hf _ _ hd' (dOk_new level)]
  cases f pool[l] <;> rfl

end Pixo.Deflate
