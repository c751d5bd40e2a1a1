import Verif.Proof.DeflateDynamic
import Verif.Proof.Inflate
/-
Streams of blocks: fixed, dynamic, split and stored.
-/
namespace Pixo.Deflate
open Pixo Spec Pixo.Huffman
open Pixo.Inflate (fixedLit_ok fixedDist_ok expandFrom_lits)
open Pixo.Lz77 hiding DISTANCE_EXTRA LENGTH_BASE LENGTH_EXTRA
open Spec.Rfc1951 hiding Token clOrder

/-- The tokens can be coded and expand to the data. -/
structure Good (data : List UInt8) (ts : List Token) : Prop where
  ok : ∀ t ∈ ts, TokOk t
  expands : expand (ts.map Lz77.Token.spec) = some data
  count : ts.length ≤ data.length

theorem _root_.Pixo.Lz77.Sound.good {data : List UInt8} {ts : List Token} (h : Sound data ts data.length) : Good data ts :=
  ⟨h.tokOk, by have := h.expands; rwa [List.take_length] at this, h.count⟩

theorem finish_encodes {w : BitWriter64} {bits : List Bool} {ts : List Rfc1951.Token} {data : List UInt8}
    (hw : Wrote {} bits w) (hs : Stream true 0 bits ts) (he : expand ts = some data) :
    Encodes true w.finish data := by
  refine ⟨bits, zeroPad w.bits.length, ts, ?_, ?_, hs, he⟩
  · rw [w.finish_spec hw.1, hw.2, BitWriter64.bits_new, List.nil_append]
  · unfold zeroPad; rw [List.length_replicate]; omega

/-! ### Fixed codes -/

theorem fixedLitRev_spec : Oks fixedLitRev (fun rev => RevOf rev fixedLit) := by
  obtain ⟨codes, h1, h2⟩ := generateCanonicalCodes_spec fixedLit_ok
  unfold fixedLitRev fixedLiteralCodes
  rw [show fixedLitLengths = fixedLit from rfl, h1, ok_bind]
  exact reversedCodes_spec h2 fixedLit_ok

theorem fixedDistRev_spec : Oks fixedDistRev (fun rev => RevOf rev fixedDist) := by
  obtain ⟨codes, h1, h2⟩ := generateCanonicalCodes_spec fixedDist_ok
  unfold fixedDistRev fixedDistanceCodes
  rw [show List.replicate 32 5 = fixedDist from rfl, h1, ok_bind]
  exact reversedCodes_spec h2 fixedDist_ok

theorem fixedLit_ne : ∀ s : Fin 288, len fixedLit s.val ≠ 0 := by decide +kernel

theorem fixedDist_ne : ∀ s : Fin 32, len fixedDist s.val ≠ 0 := by decide +kernel

theorem coded_fixed {t : Token} (ht : TokOk t) : Coded fixedLit fixedDist t := by
  cases t with
  | lit b =>
    have := b.toNat_lt
    exact fixedLit_ne ⟨b.toNat, by omega⟩
  | mtch l d =>
    obtain ⟨a1, a2, a3, a4⟩ := ht
    obtain ⟨k, lb, lx, e, k1, k2, k3, k4, kk, k5⟩ := lengthCode_spec a1 a2
    obtain ⟨j, db, dx, e', j1, j2, j3, j4, jj, j5⟩ := distanceCode_spec a3 a4
    refine ⟨a1, a2, a3, a4, ?_, ?_⟩
    · intro k' x e h; rw [k2] at h; cases h; exact fixedLit_ne ⟨257 + k, by omega⟩
    · intro k' x e h; rw [j2] at h; cases h; exact fixedDist_ne ⟨j, by omega⟩

theorem encodeFixed_spec {data : List UInt8} {ts : List Token} (h : Good data ts) :
    Oks (encodeFixed ts) (fun out => Encodes true out data) := by
  unfold encodeFixed
  refine Oks.bind fixedLitRev_spec fun lit hl => ?_
  refine Oks.bind fixedDistRev_spec fun dist hd => ?_
  refine Oks.bind (write_spec BitWriter64.inv_new 1 1 (by decide)) fun w1 h1 => ?_
  refine Oks.bind (write_spec h1.1 1 2 (by decide)) fun w2 h2 => ?_
  refine Oks.bind (writeBody_spec hl hd (fixedLit_ne 256) ts (fun t ht => coded_fixed (h.ok t ht)) w2 h2.1) ?_
  rintro w3 ⟨bits, h3, hb⟩
  refine .pure (finish_encodes ((h1.trans h2).trans h3) ?_ h.expands)
  exact Stream.last (Block.fixed hb)

theorem emptyFixedBlock_spec : Oks emptyFixedBlock (fun out => Encodes true out [] ∧ out.length = 2) := by
  unfold emptyFixedBlock
  refine Oks.bind (write_spec BitWriter64.inv_new 1 1 (by decide)) fun w1 h1 => ?_
  refine Oks.bind (write_spec h1.1 1 2 (by decide)) fun w2 h2 => ?_
  refine Oks.bind fixedLitRev_spec fun lit hl => ?_
  refine Oks.bind (writeCode_spec hl h2.1 (fixedLit_ne 256)) fun w3 h3 => ?_
  have hw := (h1.trans h2).trans h3
  refine .pure ⟨finish_encodes hw (Stream.last (Block.fixed (.eob (fixedLit_ne 256)))) rfl, ?_⟩
  have := congrArg List.length (w3.finish_spec hw.1)
  rw [hw.2, BitWriter64.bits_new, bytesLSB_length] at this
  have hc : (codeword fixedLit 256).length = 7 := by decide +kernel
  simp only [List.nil_append, List.length_append, hc, zeroPad, List.length_replicate] at this
  have e1 : (bitsLSB 1 1).length = 1 := rfl
  have e2 : (bitsLSB 1 2).length = 2 := rfl
  rw [e1, e2] at this
  omega

/-! ### Dynamic codes -/

theorem encodeDynamic_spec (env : Env) {data : List UInt8} {ts : List Token} (h : Good data ts)
    (hn : data.length + 2 < 2 ^ 32) :
    Oks (encodeDynamic env ts) (fun out => Encodes true out data) := by
  unfold encodeDynamic
  have hc := h.count
  refine Oks.bind (writeDynamicBlock_spec env {} BitWriter64.inv_new ts h.ok (by omega) true) ?_
  rintro w ⟨bits, hw, hb⟩
  exact .pure (finish_encodes hw (Stream.last (hb _)) h.expands)

theorem encodeBest_spec (env : Env) {data : List UInt8} {ts : List Token} (h : Good data ts)
    (hn : data.length + 2 < 2 ^ 32) :
    Oks (encodeBest env ts) (fun out => Encodes true out data) := by
  unfold encodeBest
  split
  · exact encodeFixed_spec h
  · rw [if_pos (by omega)]
    exact encodeDynamic_spec env h hn

theorem viewAll_spec {ps : List Nat} {ts : List Token} (h : ps.map unpack = ts.map (Except.ok ∘ some)) :
    viewAll ps = .ok ts := by
  have hv : ∀ p, viewPacked p = unpack p := fun p => rfl
  have : ps.mapM viewPacked = .ok (ts.map some) := by
    induction ps generalizing ts with
    | nil =>
      cases ts with
      | nil => rfl
      | cons t ts => simp at h
    | cons p ps ih =>
      cases ts with
      | nil => simp at h
      | cons t ts =>
        rw [List.map_cons, List.map_cons, List.cons.injEq] at h
        rw [List.mapM_cons, hv, h.1]
        show (do let y ← ps.mapM viewPacked; pure (some t :: y)) = _
        rw [ih h.2]; rfl
  unfold viewAll
  rw [this, ok_bind]
  have e : (ts.map some).filterMap id = ts := by
    induction ts with
    | nil => rfl
    | cons t ts ih => simp
  rw [e]; rfl

theorem encodeBestPacked_eq (env : Env) {ps : List Nat} {ts : List Token}
    (h : ps.map unpack = ts.map (Except.ok ∘ some)) : encodeBestPacked env ps = encodeBest env ts := by
  have hl : ps.length = ts.length := by simpa using congrArg List.length h
  unfold encodeBestPacked encodeBest encodeFixedPacked encodeDynamicPacked
  simp only [viewAll_spec h, hl, ok_bind]

theorem encodeFixedPacked_eq {ps : List Nat} {ts : List Token}
    (h : ps.map unpack = ts.map (Except.ok ∘ some)) : encodeFixedPacked ps = encodeFixed ts := by
  unfold encodeFixedPacked; simp only [viewAll_spec h, ok_bind]

/-! ### Block splitting -/

section split
variable (env : Env) {tokens : List Token} (ht : ∀ t ∈ tokens, TokOk t) (hn : tokens.length + 2 < 2 ^ 32)
include ht hn

omit hn in
theorem sliceTokens_spec {start stop : Nat} (h1 : start ≤ stop) (h2 : stop ≤ tokens.length) :
    sliceTokens tokens start stop = .ok ((tokens.drop start).take (stop - start)) ∧
    ((tokens.drop start).take (stop - start)).length ≤ tokens.length ∧
    ∀ t ∈ (tokens.drop start).take (stop - start), TokOk t := by
  refine ⟨?_, ?_, ?_⟩
  · unfold sliceTokens; rw [if_pos ⟨h1, h2⟩]
  · rw [List.length_take, List.length_drop]; omega
  · intro t h; exact ht t (List.mem_of_mem_drop (List.mem_of_mem_take h))

omit ht hn in
theorem extraLoop_ok {ts : List Token} (h : ∀ t ∈ ts, TokOk t) (bits : Int) :
    Oks (extraLoop ts bits) (fun _ => True) := by
  induction ts generalizing bits with
  | nil => exact .ok trivial
  | cons t ts ih =>
    have ih := ih (fun t m => h t (List.mem_cons_of_mem _ m))
    cases t with
    | lit b => exact ih bits
    | mtch l d =>
      obtain ⟨a1, a2, a3, a4⟩ := h _ List.mem_cons_self
      obtain ⟨k, lb, lx, e, k1, k2, _⟩ := lengthCode_spec a1 a2
      obtain ⟨j, db, dx, e', j1, j2, _⟩ := distanceCode_spec a3 a4
      rw [extraLoop, k2, ok_bind]
      simp only [j2]
      exact ih _

theorem estimateBlockCost_ok {start stop : Nat} (h2 : stop ≤ tokens.length) :
    Oks (estimateBlockCost env tokens start stop) (fun _ => True) := by
  unfold estimateBlockCost
  by_cases h : stop ≤ start
  · rw [if_pos h]; exact .ok trivial
  · rw [if_neg h]
    obtain ⟨s1, s2, s3⟩ := sliceTokens_spec ht (by omega : start ≤ stop) h2
    rw [s1, ok_bind]
    refine Oks.bind (countSymbols_spec _ s3 (by omega)) ?_
    rintro ⟨lit, dist⟩ hc
    have c1 := hc.sumLit
    have c2 := hc.sumDist
    simp only at c1 c2
    simp only
    rw [sumU32_spec lit 0 (by omega), ok_bind, sumU32_spec dist 0 (by omega), ok_bind]
    rw [if_neg (by omega)]
    exact extraLoop_ok s3 _

theorem splitCost_ok {start i stop : Nat} (h1 : i ≤ tokens.length) (h2 : stop ≤ tokens.length) :
    Oks (splitCost env tokens start i stop) (fun _ => True) := by
  unfold splitCost
  refine Oks.bind (estimateBlockCost_ok env ht hn h1) fun _ _ => ?_
  refine Oks.bind (estimateBlockCost_ok env ht hn h2) fun _ _ => ?_
  exact .pure trivial

theorem candidates_ok {start stop step : Nat} (h2 : stop ≤ tokens.length) (hs : 1 ≤ step) (fuel i : Nat)
    (hf : stop - 10 < i + fuel) (hf0 : 0 < fuel) (hi : start + 10 ≤ i) :
    Oks (candidates env tokens start stop step fuel i) (fun cs => ∀ c ∈ cs, start + 10 ≤ c.1 ∧ c.1 + 10 ≤ stop) := by
  induction fuel generalizing i with
  | zero => omega
  | succ fuel ih =>
    unfold candidates
    have e : candidates.MIN_BLOCK = 10 := rfl
    by_cases h : i < stop - candidates.MIN_BLOCK
    · rw [if_pos h]
      rw [e] at h
      refine Oks.bind (splitCost_ok env ht hn (by omega) h2) fun total _ => ?_
      refine Oks.bind (ih (i + step) (by omega) (by omega) (by omega)) fun rest hr => ?_
      refine .pure fun c hc => ?_
      rcases List.mem_cons.mp hc with rfl | hc
      · exact ⟨hi, by simp only; omega⟩
      · exact hr c hc
    · rw [if_neg h]; exact .ok (by simp)

omit ht hn in
theorem minBy_mem (cs : List (Nat × Int)) : ∀ c, minBy cs = some c → c ∈ cs := by
  induction cs with
  | nil => simp [minBy]
  | cons a cs ih =>
    intro c hc
    unfold minBy at hc
    cases hm : minBy cs with
    | none => rw [hm] at hc; simp at hc; simp [hc]
    | some b =>
      rw [hm] at hc
      simp only at hc
      split at hc
      · cases hc; exact List.mem_cons_of_mem _ (ih _ hm)
      · cases hc; exact List.mem_cons_self

theorem fineSearch_ok {start stop : Nat} (h2 : stop ≤ tokens.length) (n i : Nat) (hi : start + 10 ≤ i)
    (hin : n = 0 ∨ i + n + 9 ≤ stop) (best : Nat × Int) (hb : start + 10 ≤ best.1 ∧ best.1 + 10 ≤ stop) :
    Oks (fineSearch env tokens start stop n i best) (fun r => start + 10 ≤ r.1 ∧ r.1 + 10 ≤ stop) := by
  induction n generalizing i best with
  | zero => exact .ok hb
  | succ n ih =>
    unfold fineSearch
    refine Oks.bind (splitCost_ok env ht hn (by omega) h2) fun total _ => ?_
    refine ih (i + 1) (by omega) (by omega) _ ?_
    split
    · exact ⟨hi, by simp only; omega⟩
    · exact hb

theorem findBestSplit_ok {start stop : Nat} (h1 : start + 20 ≤ stop) (h2 : stop ≤ tokens.length) :
    Oks (findBestSplit env tokens start stop) (fun r => ∀ s, r = some s → start < s ∧ s < stop) := by
  unfold findBestSplit subUsize
  rw [if_pos (by omega), ok_bind, if_neg (by omega)]
  refine Oks.bind (estimateBlockCost_ok env ht hn h2) fun orig _ => ?_
  simp only
  generalize hst : max ((stop - start) / 9) 1 = step
  have hst1 : 1 ≤ step := by omega
  refine Oks.bind (candidates_ok env ht hn h2 hst1 (stop - start + 1) (start + 10) (by omega) (by omega) (by omega)) fun cs hcs => ?_
  cases hm : minBy cs with
  | none => exact .ok (by simp)
  | some c =>
    obtain ⟨bi, cost⟩ := c
    have hb := hcs _ (minBy_mem cs _ hm)
    simp only at hb
    simp only
    split
    · refine Oks.bind (fineSearch_ok env ht hn h2 _ _ (by omega) (by omega) (bi, cost) hb) ?_
      rintro ⟨split, best⟩ hr
      simp only at hr
      simp only
      split
      · refine .ok fun s hs => ?_
        cases hs; omega
      · exact .ok (by simp)
    · exact .ok (by simp)

omit ht hn

/-- Cut points of `n` tokens, in order. -/
inductive Cuts (n : Nat) : List Nat → Prop
  | last : Cuts n [n]
  | cons {a b : Nat} {rest : List Nat} : a ≤ b → a < n → Cuts n (b :: rest) → Cuts n (a :: b :: rest)

theorem Cuts.le {n : Nat} {l : List Nat} (h : Cuts n l) : ∀ x ∈ l, x ≤ n := by
  induction h with
  | last => simp
  | cons h1 h2 _ ih =>
    intro x hx
    rcases List.mem_cons.mp hx with rfl | hx
    · omega
    · exact ih x hx

/-- The split positions so far. -/
structure SplitsOk (n : Nat) (splits : List Nat) : Prop where
  sorted : splits.Pairwise (· ≤ ·)
  lt : ∀ s ∈ splits, s < n

theorem SplitsOk.cuts_from {n : Nat} {splits : List Nat} (h : SplitsOk n splits) (a : Nat) (ha : a < n)
    (hle : ∀ s ∈ splits, a ≤ s) : Cuts n (a :: (splits ++ [n])) := by
  induction splits generalizing a with
  | nil => exact .cons (by omega) ha .last
  | cons s splits ih =>
    have hp := List.pairwise_cons.mp h.sorted
    exact .cons (hle s (by simp)) ha (ih ⟨hp.2, fun x hx => h.lt x (by simp [hx])⟩ s (h.lt s (by simp)) hp.1)

theorem SplitsOk.cuts {n : Nat} {splits : List Nat} (h : SplitsOk n splits) (hn : 0 < n) :
    Cuts n (boundaries splits n) := h.cuts_from 0 hn (fun _ _ => Nat.zero_le _)

theorem insertSplit_cons (x s : Nat) (xs : List Nat) :
    insertSplit (x :: xs) s = if x > s then s :: x :: xs else x :: insertSplit xs s := by
  unfold insertSplit
  rw [List.findIdx?_cons]
  by_cases h : x > s
  · simp [h]
  · simp only [h, decide_false]
    cases xs.findIdx? (fun x => decide (x > s)) <;> simp

theorem insertSplit_mem (xs : List Nat) (s : Nat) : ∀ x ∈ insertSplit xs s, x = s ∨ x ∈ xs := by
  induction xs with
  | nil => simp [insertSplit]
  | cons x xs ih =>
    intro y hy
    rw [insertSplit_cons] at hy
    split at hy
    · simpa using hy
    · rcases List.mem_cons.mp hy with rfl | hy
      · simp
      · rcases ih y hy with h | h
        · exact .inl h
        · exact .inr (by simp [h])

theorem SplitsOk.insert {n : Nat} {splits : List Nat} (h : SplitsOk n splits) {s : Nat} (hs : s < n) :
    SplitsOk n (insertSplit splits s) := by
  refine ⟨?_, fun x hx => ?_⟩
  · have hp := h.sorted
    clear h
    induction splits with
    | nil => simp [insertSplit]
    | cons x xs ih =>
      rw [insertSplit_cons]
      have hp' := List.pairwise_cons.mp hp
      split
      · refine List.pairwise_cons.mpr ⟨fun y hy => ?_, hp⟩
        rcases List.mem_cons.mp hy with rfl | hy
        · omega
        · have := hp'.1 y hy; omega
      · refine List.pairwise_cons.mpr ⟨fun y hy => ?_, ih hp'.2⟩
        rcases insertSplit_mem xs s y hy with rfl | hy
        · omega
        · exact hp'.1 y hy
  · rcases insertSplit_mem splits s x hx with rfl | hx
    · exact hs
    · exact h.lt x hx

theorem largestBlock_spec {n : Nat} {done : List Bool} (hd : done.length = n) {l : List Nat} (hl : Cuts n l)
    (best : Option (Nat × Nat × Nat))
    (hb : ∀ a b c, best = some (a, b, c) → a + 20 ≤ b ∧ b ≤ n ∧ done[a]? = some false) :
    Oks (largestBlock done l best) (fun r => ∀ a b c, r = some (a, b, c) →
      a + 20 ≤ b ∧ b ≤ n ∧ done[a]? = some false) := by
  induction hl generalizing best with
  | last => exact .ok hb
  | @cons a b rest h1 h2 hc ih =>
    unfold largestBlock subUsize
    rw [if_pos h1, ok_bind]
    obtain ⟨d, hg, hd'⟩ : ∃ d, getChecked done a = .ok d ∧ done[a]? = some d := by
      unfold getChecked
      rw [List.getElem?_eq_getElem (by omega)]
      exact ⟨_, rfl, rfl⟩
    rw [hg, ok_bind]
    refine ih _ ?_
    intro x y z hxyz
    split at hxyz
    · rename_i hcond
      cases hxyz
      simp only [Bool.and_eq_true, Bool.not_eq_true', decide_eq_true_eq] at hcond
      refine ⟨by omega, hc.le _ (by simp), ?_⟩
      rw [hd', hcond.1.1]
    · exact hb x y z hxyz

theorem count_set_true (l : List Bool) (i : Nat) (h : l[i]? = some false) :
    (l.set i true).count false + 1 = l.count false := by
  induction l generalizing i with
  | nil => simp at h
  | cons a l ih =>
    cases i with
    | zero => simp at h; subst h; simp
    | succ i =>
      have := ih i (by simpa using h)
      rw [List.set_cons_succ, List.count_cons, List.count_cons]; omega

include ht hn

theorem splitLoop_spec (hpos : 0 < tokens.length) (maxBlocks fuel : Nat) (splits : List Nat) (done : List Bool) (num : Nat)
    (hs : SplitsOk tokens.length splits) (hd : done.length = tokens.length)
    (hf : (maxBlocks - num) + done.count false < fuel) :
    Oks (splitLoop env tokens maxBlocks fuel splits done num) (SplitsOk tokens.length) := by
  induction fuel generalizing splits done num with
  | zero => omega
  | succ fuel ih =>
    unfold splitLoop
    split
    · exact .ok hs
    · refine Oks.bind (largestBlock_spec hd (hs.cuts hpos) none (by simp)) fun r hr => ?_
      cases r with
      | none => exact .ok hs
      | some b =>
        obtain ⟨start, stop, size⟩ := b
        obtain ⟨h1, h2, h3⟩ := hr _ _ _ rfl
        simp only
        refine Oks.bind (findBestSplit_ok env ht hn h1 h2) fun r hr => ?_
        cases r with
        | some s =>
          have := hr s rfl
          exact ih _ _ _ (hs.insert (by omega)) hd (by omega)
        | none =>
          have := count_set_true done start h3
          simp only
          unfold setChecked
          rw [if_pos (by omega), ok_bind]
          exact ih _ _ _ hs (by rw [List.length_set, hd]) (by omega)

theorem findBlockSplits_spec (hpos : 0 < tokens.length) (maxBlocks : Nat) :
    Oks (findBlockSplits env tokens maxBlocks) (SplitsOk tokens.length) := by
  unfold findBlockSplits
  split
  · exact .ok ⟨.nil, by simp⟩
  · refine splitLoop_spec env ht hn hpos maxBlocks _ [] _ 1 ⟨.nil, by simp⟩ (by simp) ?_
    rw [List.count_replicate_self]; omega

theorem writeBlocks_spec {l : List Nat} (hl : Cuts tokens.length l) {a : Nat} {rest : List Nat} (e : l = a :: rest)
    (hr : rest ≠ []) (w : BitWriter64) (hw : w.Inv) :
    Oks (writeBlocks env tokens l w) (fun w' => ∃ bits, Wrote w bits w' ∧
      ∀ pos, Stream true pos bits ((tokens.drop a).map Lz77.Token.spec)) := by
  induction hl generalizing a rest w with
  | last => cases e; exact absurd rfl hr
  | @cons a' b rest' h1 h2 hc ih =>
    cases e
    have hb := hc.le b (by simp)
    obtain ⟨s1, s2, s3⟩ := sliceTokens_spec ht h1 hb
    unfold writeBlocks
    rw [s1, ok_bind]
    refine Oks.bind (writeDynamicBlock_spec env w hw _ s3 (by omega) _) ?_
    rintro w1 ⟨bits, hw1, hblk⟩
    cases rest' with
    | nil =>
      cases hc
      refine .ok ⟨_, hw1, fun pos => ?_⟩
      have he : (tokens.drop a').take (tokens.length - a') = tokens.drop a' := by
        rw [List.take_of_length_le]; rw [List.length_drop]; omega
      rw [he] at hblk
      exact .last (hblk _)
    | cons c rest' =>
      refine Oks.mono (ih rfl (by simp) w1 hw1.1) ?_
      rintro w2 ⟨bits2, hw2, hst⟩
      refine ⟨_, hw1.trans hw2, fun pos => ?_⟩
      have he : (tokens.drop a').map Lz77.Token.spec = ((tokens.drop a').take (b - a')).map Lz77.Token.spec ++
          (tokens.drop b).map Lz77.Token.spec := by
        rw [← List.map_append]
        have : tokens.drop b = (tokens.drop a').drop (b - a') := by rw [List.drop_drop]; congr 1; omega
        rw [this, List.take_append_drop]
      rw [he]
      exact .more (hblk _) (hst _)

end split

theorem splitBlocks_spec (env : Env) {data : List UInt8} {ts : List Token} (h : Good data ts)
    (hn : data.length + 2 < 2 ^ 32) (hpos : 0 < ts.length) (splits : List Nat) (hs : SplitsOk ts.length splits) :
    Oks (writeBlocks env ts (boundaries splits ts.length) {}) (fun w => Encodes true w.finish data) := by
  have hc := h.count
  refine Oks.mono (writeBlocks_spec env h.ok (by omega) (hs.cuts hpos) rfl (by simp) {} BitWriter64.inv_new) ?_
  rintro w ⟨bits, hw, hst⟩
  exact finish_encodes hw (hst 0) (by rw [List.drop_zero]; exact h.expands)

theorem no_zero_distance {data : List UInt8} {ts : List Token} (h : Good data ts) :
    ts.any zeroDistance = false := by
  rw [List.any_eq_false]
  intro t ht
  cases t with
  | lit b => simp [zeroDistance]
  | mtch l d =>
    have := h.ok _ ht
    obtain ⟨_, _, h3, _⟩ := this
    cases d with
    | zero => omega
    | succ d => simp [zeroDistance]

theorem encodeSplit_spec (env : Env) {data : List UInt8} {ts : List Token} (h : Good data ts)
    (hn : data.length + 2 < 2 ^ 32) (maxBlocks : Nat) :
    Oks (encodeSplit env ts maxBlocks) (fun out => Encodes true out data) := by
  have hc := h.count
  unfold encodeSplit
  split
  · exact encodeDynamic_spec env h hn
  · rw [no_zero_distance h, if_neg (by decide)]
    refine Oks.bind (findBlockSplits_spec env h.ok (by omega) (by omega) maxBlocks) fun splits hs => ?_
    split
    · exact encodeDynamic_spec env h hn
    · refine Oks.bind (splitBlocks_spec env h hn (by omega) splits hs) fun w hw => .pure hw

theorem encodeSplitBlocks_spec (env : Env) {data : List UInt8} {ts : List Token} (h : Good data ts)
    (hn : data.length + 2 < 2 ^ 32) (hpos : 0 < ts.length) (maxBlocks : Nat) :
    Oks (encodeSplitBlocks env ts maxBlocks) (fun out => Encodes true out data) := by
  have hc := h.count
  unfold encodeSplitBlocks
  refine Oks.bind (findBlockSplits_spec env h.ok (by omega) (by omega) maxBlocks) fun splits hs => ?_
  split
  · exact encodeDynamic_spec env h hn
  · refine Oks.bind (splitBlocks_spec env h hn (by omega) splits hs) fun w hw => .pure hw

/-! ### Stored blocks -/

theorem bits_u8 (v : Nat) : bitsLSB (UInt8.ofNat v).toNat 8 = bitsLSB v 8 := by
  rw [UInt8.toNat_ofNat']; exact bitsLSB_mod v 8 8 (Nat.le_refl _)

theorem bits_u16 (v : Nat) : bytesLSB [UInt8.ofNat v, UInt8.ofNat (v >>> 8)] = bitsLSB v 16 := by
  rw [bytesLSB_cons, bytesLSB_cons, bits_u8, bits_u8, bitsLSB_add v 8 8, Nat.shiftRight_eq_div_pow]
  simp [bytesLSB]

theorem stored_header (final : Bool) (chunk : List UInt8) (hc : chunk.length < 65536) :
    bytesLSB ([if final then 1 else 0, UInt8.ofNat (chunk.length % 2 ^ 16),
      UInt8.ofNat ((chunk.length % 2 ^ 16) >>> 8), UInt8.ofNat (65535 - chunk.length % 2 ^ 16),
      UInt8.ofNat ((65535 - chunk.length % 2 ^ 16) >>> 8)] ++ chunk) =
    final :: ([false, false] ++ List.replicate 5 false ++ bitsLSB chunk.length 16 ++
      bitsLSB (65535 - chunk.length) 16 ++ bytesLSB chunk) := by
  rw [Nat.mod_eq_of_lt (by omega : chunk.length < 2 ^ 16)]
  have h1 := bits_u16 chunk.length
  have h2 := bits_u16 (65535 - chunk.length)
  rw [← h1, ← h2]
  simp only [List.cons_append, List.nil_append, bytesLSB_cons, List.append_assoc]
  have e : bitsLSB (if final = true then (1 : UInt8) else 0).toNat 8 = final :: List.replicate 7 false := by
    cases final <;> rfl
  rw [e]
  simp [bytesLSB, List.replicate]

theorem storedLoop_spec (fuel : Nat) (data : List UInt8) (hf : data.length ≤ fuel) (hne : data ≠ []) :
    Oks (storedLoop fuel data) (fun out => (∀ pos, pos % 8 = 0 → Stream true pos (bytesLSB out) (data.map .lit)) ∧
      out.length = data.length + 5 * ((data.length + 65534) / 65535)) := by
  induction fuel generalizing data with
  | zero => exact absurd (List.eq_nil_of_length_eq_zero (by omega)) hne
  | succ fuel ih =>
    cases hd : data with
    | nil => exact absurd hd hne
    | cons b tl =>
      rw [← hd]
      have hpos : 0 < data.length := by rw [hd]; simp
      have hunf : storedLoop (fuel + 1) data = (do
          let more ← storedLoop fuel (data.drop 65535)
          return [if (data.drop 65535).isEmpty then 1 else 0, UInt8.ofNat ((data.take 65535).length % 2 ^ 16),
            UInt8.ofNat (((data.take 65535).length % 2 ^ 16) >>> 8),
            UInt8.ofNat (65535 - (data.take 65535).length % 2 ^ 16),
            UInt8.ofNat ((65535 - (data.take 65535).length % 2 ^ 16) >>> 8)] ++ data.take 65535 ++ more) := by
        rw [hd]; rfl
      rw [hunf]
      have hcl : (data.take 65535).length < 65536 := by rw [List.length_take]; omega
      have hblk : ∀ pos, pos % 8 = 0 → Block true (pos + 1)
          ([false, false] ++ List.replicate 5 false ++ bitsLSB (data.take 65535).length 16 ++
            bitsLSB (65535 - (data.take 65535).length) 16 ++ bytesLSB (data.take 65535))
          ((data.take 65535).map .lit) := by
        intro pos hp
        refine Block.stored _ _ (by simp) ?_ hcl
        rw [List.length_replicate]; omega
      by_cases hr : data.drop 65535 = []
      · have hlen : data.length ≤ 65535 := by
          have := congrArg List.length hr; rw [List.length_drop] at this; simp at this; omega
        have ht : data.take 65535 = data := List.take_of_length_le hlen
        rw [hr]
        have : storedLoop fuel [] = .ok [] := by cases fuel <;> rfl
        rw [this, ok_bind]
        refine .pure ⟨fun pos hp => ?_, ?_⟩
        · rw [List.append_nil, List.isEmpty_nil, stored_header true _ hcl]
          have := Stream.last (hblk pos hp)
          rw [ht] at this ⊢
          exact this
        · rw [ht]
          have : (data.length + 65534) / 65535 = 1 := by omega
          rw [this]
          simp only [List.length_append, List.length_cons, List.length_nil]; omega
      · have hlen : 65535 < data.length := by
          apply Nat.lt_of_not_le; intro h; exact hr (List.drop_eq_nil_of_le h)
        refine Oks.bind (ih (data.drop 65535) (by rw [List.length_drop]; omega) hr) ?_
        rintro more ⟨hm1, hm2⟩
        refine .pure ⟨fun pos hp => ?_, ?_⟩
        · have he : (data.drop 65535).isEmpty = false := by
            cases h : data.drop 65535 with
            | nil => exact absurd h hr
            | cons _ _ => rfl
          rw [bytesLSB_append, he, stored_header false _ hcl]
          have hsplit : data.map Rfc1951.Token.lit = (data.take 65535).map .lit ++ (data.drop 65535).map .lit := by
            rw [← List.map_append, List.take_append_drop]
          rw [hsplit]
          refine Stream.more (hblk pos hp) (hm1 _ ?_)
          have hb16 : ∀ v, (bitsLSB v 16).length = 16 := fun v => by simp
          simp only [List.length_append, List.length_cons, List.length_nil, List.length_replicate, hb16, bytesLSB_length]
          omega
        · rw [List.length_append, hm2]
          simp only [List.length_append, List.length_cons, List.length_nil, List.length_take, List.length_drop]
          have : (data.length + 65534) / 65535 = (data.length - 65535 + 65534) / 65535 + 1 := by omega
          omega

theorem deflateStored_spec {data : List UInt8} (hne : data ≠ []) :
    Oks (deflateStored data) (fun out => Encodes true out data ∧
      out.length = data.length + 5 * ((data.length + 65534) / 65535)) := by
  unfold deflateStored
  refine Oks.mono (storedLoop_spec data.length data (Nat.le_refl _) hne) ?_
  rintro out ⟨h1, h2⟩
  refine ⟨⟨bytesLSB out, [], _, by simp, by decide, h1 0 rfl, ?_⟩, h2⟩
  unfold expand
  rw [expandFrom_lits, List.nil_append]

end Pixo.Deflate
