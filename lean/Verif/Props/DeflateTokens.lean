import Verif.Model.DeflateRelease
import Verif.Proof.DeflateStream
/-
C65: the encoders of given tokens (`encode_fixed_huffman`, `encode_dynamic_huffman` and their packed variants).
-/
namespace Pixo.Props
open Spec Pixo.Deflate
open Spec.Rfc1951 hiding Token
open Pixo.Lz77 (Token pack unpack packMatch)

/-- A token DEFLATE has codes for (RFC 1951 §3.2.5). -/
def Legal : Token → Prop
  | .lit _ => True
  | .mtch l d => 3 ≤ l ∧ l ≤ 258 ∧ 1 ≤ d ∧ d ≤ 32768

instance (t : Token) : Decidable (Legal t) := by
  cases t <;> unfold Legal <;> infer_instance

/-- The same token for RFC 1951. -/
def meaning : Token → Rfc1951.Token
  | .lit b => .lit b
  | .mtch l d => .copy l d

/-- `bytes` is a DEFLATE stream of one block (with complete codes) that says these tokens. -/
def Says (bytes : List UInt8) (ts : List Rfc1951.Token) : Prop :=
  ∃ bits pad, bytesLSB bytes = (true :: bits) ++ pad ∧ pad.length < 8 ∧ Block true 1 bits ts

theorem Says.encodes {bytes : List UInt8} {ts : List Rfc1951.Token} (h : Says bytes ts) {data : List UInt8}
    (hd : expand ts = some data) : Encodes true bytes data := by
  obtain ⟨bits, pad, h1, h2, h3⟩ := h
  exact ⟨_, pad, ts, h1, h2, Stream.last h3, hd⟩

theorem finish_says {w : BitWriter64} {bits : List Bool} {ts : List Rfc1951.Token}
    (hw : Wrote {} (true :: bits) w) (hs : Block true 1 bits ts) : Says w.finish ts := by
  refine ⟨bits, zeroPad w.bits.length, ?_, ?_, hs⟩
  · rw [w.finish_spec hw.1, hw.2, BitWriter64.bits_new, List.nil_append]
  · unfold zeroPad; rw [List.length_replicate]; omega

theorem meaning_eq : meaning = Lz77.Token.spec := by funext t; cases t <;> rfl

theorem tokOk_of {t : Token} (h : Legal t) : Lz77.TokOk t := by cases t <;> exact h

/-- **C65**, fixed codes: legal tokens, in any number, are written as they are. -/
theorem C65_fixed (ts : List Token) (h : ∀ t ∈ ts, Legal t) :
    ∃ out, encodeFixed ts = .ok out ∧ Says out (ts.map meaning) := by
  have : Oks (encodeFixed ts) (fun out => Says out (ts.map meaning)) := by
    unfold encodeFixed
    refine Oks.bind fixedLitRev_spec fun lit hl => ?_
    refine Oks.bind fixedDistRev_spec fun dist hd => ?_
    refine Oks.bind (write_spec BitWriter64.inv_new 1 1 (by decide)) fun w1 h1 => ?_
    refine Oks.bind (write_spec h1.1 1 2 (by decide)) fun w2 h2 => ?_
    refine Oks.bind (writeBody_spec hl hd (fixedLit_ne 256) ts (fun t ht => coded_fixed (tokOk_of (h t ht))) w2 h2.1) ?_
    rintro w3 ⟨bits, h3, hb⟩
    rw [meaning_eq]
    exact .pure (finish_says ((h1.trans h2).trans h3) (Block.fixed hb))
  exact this.out

/-- **C65**, dynamic codes: the same for fewer than `2^32 - 2` tokens (there are counters of 32 bits). -/
theorem C65_dynamic (env : Env) (ts : List Token) (h : ∀ t ∈ ts, Legal t) (hn : ts.length + 2 < 2 ^ 32) :
    ∃ out, encodeDynamic env ts = .ok out ∧ Says out (ts.map meaning) := by
  have : Oks (encodeDynamic env ts) (fun out => Says out (ts.map meaning)) := by
    unfold encodeDynamic
    refine Oks.bind (writeDynamicBlock_spec env {} BitWriter64.inv_new ts (fun t ht => tokOk_of (h t ht)) hn true) ?_
    rintro w ⟨bits, hw, hb⟩
    rw [meaning_eq]
    exact .pure (finish_says hw (hb 1))
  exact this.out

theorem pack_all (ts : List Token) (h : ∀ t ∈ ts, Legal t) :
    ∃ ps, ts.mapM pack = .ok ps ∧ ps.map unpack = ts.map (Except.ok ∘ some) := by
  induction ts with
  | nil => exact ⟨[], rfl, rfl⟩
  | cons t ts ih =>
    obtain ⟨p, e, hp⟩ := (Lz77.pack_spec t (tokOk_of (h t (by simp)))).out
    obtain ⟨ps, e', hps⟩ := ih (fun x hx => h x (by simp [hx]))
    refine ⟨p :: ps, ?_, ?_⟩
    · rw [List.mapM_cons, e, ok_bind, e', ok_bind]
      rfl
    · rw [List.map_cons, List.map_cons, hps, hp]
      rfl

/-- **C65**, packed tokens: legal tokens can be packed, and the encoders of packed tokens do the same. -/
theorem C65_packed (env : Env) (ts : List Token) (h : ∀ t ∈ ts, Legal t) :
    ∃ ps, ts.mapM pack = .ok ps ∧ encodeFixedPacked ps = encodeFixed ts ∧ encodeDynamicPacked env ps = encodeDynamic env ts := by
  obtain ⟨ps, e, hps⟩ := pack_all ts h
  refine ⟨ps, e, encodeFixedPacked_eq hps, ?_⟩
  unfold encodeDynamicPacked
  rw [viewAll_spec hps, ok_bind]

/-! ### Tokens that are not legal -/

theorem bind_ok {α β : Type} {x : R α} {f : α → R β} {b : β} (h : (x >>= f) = .ok b) : ∃ a, x = .ok a ∧ f a = .ok b := by
  cases x with
  | error e => rw [error_bind] at h; cases h
  | ok a => exact ⟨a, rfl, h⟩

theorem lengthCode_legal {l : Nat} {r : Nat × Nat × Nat} (h : lengthCode l = .ok r) : 3 ≤ l ∧ l ≤ 258 := by
  unfold lengthCode at h
  split at h
  · assumption
  · cases h

theorem distanceCode_legal {d : Nat} {r : Nat × Nat × Nat} (h : distanceCode d = .ok r) : 1 ≤ d ∧ d ≤ 32768 := by
  unfold distanceCode at h
  split at h
  · assumption
  · cases h

theorem writeBody_legal (lit dist : List (Nat × Nat)) (ts : List Token) (w w' : BitWriter64)
    (h : writeBody lit dist ts w = .ok w') : ∀ t ∈ ts, Legal t := by
  induction ts generalizing w with
  | nil => simp
  | cons t ts ih =>
    unfold writeBody at h
    obtain ⟨w1, h1, h2⟩ := bind_ok h
    intro x hx
    rcases List.mem_cons.mp hx with rfl | hx
    · cases x with
      | lit b => trivial
      | mtch l d =>
        unfold writeToken at h1
        obtain ⟨a, ha, h1⟩ := bind_ok h1
        obtain ⟨_, _, h1⟩ := bind_ok h1
        obtain ⟨_, _, h1⟩ := bind_ok h1
        obtain ⟨b, hb, h1⟩ := bind_ok h1
        have := lengthCode_legal ha
        have := distanceCode_legal hb
        exact ⟨by omega, by omega, by omega, by omega⟩
    · exact ih _ h2 x hx

/-- **C65**: with overflow checks and debug assertions the encoder of fixed codes panics exactly if some token is
not legal. -/
theorem C65_fixed_legal (ts : List Token) : (∃ out, encodeFixed ts = .ok out) ↔ ∀ t ∈ ts, Legal t := by
  constructor
  · rintro ⟨out, h⟩
    unfold encodeFixed at h
    obtain ⟨_, _, h⟩ := bind_ok h
    obtain ⟨_, _, h⟩ := bind_ok h
    obtain ⟨_, _, h⟩ := bind_ok h
    obtain ⟨_, _, h⟩ := bind_ok h
    obtain ⟨_, h, _⟩ := bind_ok h
    exact writeBody_legal _ _ _ _ _ h
  · intro h
    obtain ⟨out, e, _⟩ := C65_fixed ts h
    exact ⟨out, e⟩

theorem countLoop_legal (ts : List Token) (f f' : List Nat × List Nat) (h : countLoop ts f = .ok f') :
    ∀ t ∈ ts, Legal t := by
  induction ts generalizing f with
  | nil => simp
  | cons t ts ih =>
    unfold countLoop at h
    obtain ⟨w1, h1, h2⟩ := bind_ok h
    intro x hx
    rcases List.mem_cons.mp hx with rfl | hx
    · cases x with
      | lit b => trivial
      | mtch l d =>
        unfold countToken at h1
        obtain ⟨a, ha, h1⟩ := bind_ok h1
        obtain ⟨_, _, h1⟩ := bind_ok h1
        obtain ⟨b, hb, h1⟩ := bind_ok h1
        have := lengthCode_legal ha
        have := distanceCode_legal hb
        exact ⟨by omega, by omega, by omega, by omega⟩
    · exact ih _ h2 x hx

/-- **C65**: so does that of dynamic codes. -/
theorem C65_dynamic_legal (env : Env) (ts : List Token) (hn : ts.length + 2 < 2 ^ 32) :
    (∃ out, encodeDynamic env ts = .ok out) ↔ ∀ t ∈ ts, Legal t := by
  constructor
  · rintro ⟨out, h⟩
    unfold encodeDynamic writeDynamicBlock at h
    obtain ⟨_, h, _⟩ := bind_ok h
    obtain ⟨_, h, _⟩ := bind_ok h
    unfold countSymbols at h
    obtain ⟨_, h, _⟩ := bind_ok h
    exact countLoop_legal _ _ _ h
  · intro h
    obtain ⟨out, e, _⟩ := C65_dynamic env ts h hn
    exact ⟨out, e⟩

/-- The distance a release build writes for a distance. -/
def releaseDistance (d : Nat) : Nat := if d = 0 then 1 else if d ≤ 32768 then d else 24577 + (d - 24577) % 8192

/-- The token a release build writes. -/
def releaseToken : Token → Token
  | .lit b => .lit b
  | .mtch l d => .mtch l (releaseDistance d)

theorem distanceIndex_large (d : Nat) (h : 24577 ≤ d) (h2 : d < 65536) : distanceIndex d = .ok 29 := by
  have h0 : d - 1 ≠ 0 := by omega
  unfold distanceIndex
  rw [if_neg (by omega)]
  by_cases hd : d ≤ 32768
  · have hlog : (d - 1).log2 = 14 := by
      rw [Nat.log2_eq_iff h0]
      omega
    simp only [hlog]
    rw [Nat.shiftRight_eq_div_pow, Nat.and_one_is_mod]
    congr 1
    omega
  · have hlog : (d - 1).log2 = 15 := by
      rw [Nat.log2_eq_iff h0]
      omega
    simp only [hlog]
    congr 1
    omega

theorem large_distance (x : Nat) (h : x < 8192) : distanceCode (24577 + x) = .ok (29, 13, x) := by
  unfold distanceCode
  rw [if_pos (by omega), distanceIndex_large _ (by omega) (by omega), ok_bind,
    show getChecked DISTANCE_EXTRA 29 = .ok 13 from rfl, ok_bind,
    show getChecked DISTANCE_BASE 29 = .ok 24577 from rfl, ok_bind]
  unfold Lz77.subUsize
  rw [if_pos (by omega), ok_bind]
  change Except.ok _ = _
  rw [show 24577 + x - 24577 = x by omega]

theorem distanceCodeRelease_large (d : Nat) (h : 32768 < d) (h2 : d < 65536) :
    distanceCodeRelease d = .ok (29, 13, d - 24577) := by
  unfold distanceCodeRelease
  rw [distanceIndex_large d (by omega) h2, ok_bind, show getChecked DISTANCE_EXTRA 29 = .ok 13 from rfl, ok_bind,
    show getChecked DISTANCE_BASE 29 = .ok 24577 from rfl, ok_bind]
  change Except.ok _ = _
  rw [show (d + 2 ^ 16 - 24577) % 2 ^ 16 = d - 24577 by omega]

theorem distanceCodeRelease_small (d : Nat) (h : 1 ≤ d) (h2 : d ≤ 32768) : distanceCodeRelease d = distanceCode d := by
  obtain ⟨k, b, x, e, g1, g2, g3, g4, _⟩ := distanceCode_spec h h2
  unfold distanceCode at g2 ⊢
  unfold distanceCodeRelease
  rw [if_pos ⟨h, h2⟩] at g2 ⊢
  obtain ⟨i, e1, g2⟩ := bind_ok g2
  obtain ⟨i2, e2, g2⟩ := bind_ok g2
  obtain ⟨i3, e3, g2⟩ := bind_ok g2
  obtain ⟨i4, e4, g2⟩ := bind_ok g2
  rw [e1, ok_bind, ok_bind, e2, ok_bind, ok_bind, e3, ok_bind, ok_bind, e4, ok_bind]
  unfold Lz77.subUsize at e4
  split at e4
  · cases e4
    change Except.ok _ = Except.ok _
    congr 3
    omega
  · cases e4

/-- In a release build `length_code` panics for the same lengths. -/
theorem lengthCodeRelease_eq (l : Nat) (h : l < 65536) : lengthCodeRelease l = lengthCode l := by
  by_cases hl : 3 ≤ l ∧ l ≤ 258
  · have : ∀ i : Fin 256, lengthCodeRelease (i.val + 3) = lengthCode (i.val + 3) := by decide +kernel
    have := this ⟨l - 3, by omega⟩
    simpa only [Nat.sub_add_cancel hl.1] using this
  · unfold lengthCodeRelease lengthCode
    rw [if_neg (show ¬(Lz77.MIN_MATCH_LENGTH ≤ l ∧ l ≤ Lz77.MAX_MATCH_LENGTH) from hl)]
    unfold getChecked
    rw [List.getElem?_eq_none (by rw [show LENGTH_LOOKUP.length = 256 by decide +kernel]; omega)]
    rfl

theorem writeExtra_mod (v bits : Nat) (hb : bits < 32) (w : BitWriter64) : writeExtra (v % 2 ^ bits) bits w = writeExtra v bits w := by
  unfold writeExtra BitWriter64.writeBitsChecked BitWriter64.writeBits
  have : v % 2 ^ bits % 2 ^ 32 &&& (1 <<< bits) - 1 = v % 2 ^ 32 &&& (1 <<< bits) - 1 := by
    rw [Nat.one_shiftLeft, Nat.and_two_pow_sub_one_eq_mod, Nat.and_two_pow_sub_one_eq_mod,
      Nat.mod_mod_of_dvd _ (Nat.pow_dvd_pow 2 (by omega : bits ≤ 32)),
      Nat.mod_mod_of_dvd _ (Nat.pow_dvd_pow 2 (by omega : bits ≤ 32)), Nat.mod_mod]
  simp only [this]

theorem writeTokenRelease_eq (lit dist : List (Nat × Nat)) (w : BitWriter64) (t : Token)
    (h : ∀ l d, t = .mtch l d → l < 65536 ∧ d < 65536) : writeTokenRelease lit dist w t = writeToken lit dist w (releaseToken t) := by
  cases t with
  | lit b => rfl
  | mtch l d =>
    obtain ⟨hl, hd⟩ := h l d rfl
    simp only [writeTokenRelease, releaseToken, writeToken]
    rw [lengthCodeRelease_eq l hl]
    congr 1; funext a; congr 1; funext w1; congr 1; funext w2
    unfold releaseDistance
    by_cases h0 : d = 0
    · subst h0
      rw [if_pos rfl, show distanceCodeRelease 0 = .ok (0, 0, 65535) from by decide +kernel,
        show distanceCode 1 = .ok (0, 0, 0) from by decide +kernel, ok_bind, ok_bind]
      rfl
    · rw [if_neg h0]
      by_cases h1 : d ≤ 32768
      · rw [if_pos h1, distanceCodeRelease_small d (by omega) h1]
      · rw [if_neg h1, distanceCodeRelease_large d (by omega) hd, large_distance _ (Nat.mod_lt _ (by decide)), ok_bind, ok_bind]
        have := fun w3 => writeExtra_mod (d - 24577) 13 (by decide) w3
        rw [show (2 : Nat) ^ 13 = 8192 by decide] at this
        generalize (d - 24577) % 8192 = y at this ⊢
        simp only [this]

theorem writeBodyRelease_eq (ts : List Token) (h : ∀ l d, .mtch l d ∈ ts → l < 65536 ∧ d < 65536)
    (lit dist : List (Nat × Nat)) (w : BitWriter64) :
    writeBodyRelease lit dist ts w = writeBody lit dist (ts.map releaseToken) w := by
  induction ts generalizing w with
  | nil => rfl
  | cons t ts ih =>
    rw [List.map_cons]
    unfold writeBodyRelease writeBody
    rw [writeTokenRelease_eq lit dist w t (fun l d e => h l d (by rw [e]; simp))]
    congr 1
    funext w1
    exact ih (fun l d hm => h l d (by simp [hm])) w1

/-- **C65** in a release build: the encoder of fixed codes writes tokens of legal lengths with the distances
above, also where these are not those given. -/
theorem C65_release (ts : List Token) (h : ∀ l d, .mtch l d ∈ ts → l < 65536 ∧ d < 65536) :
    encodeFixedRelease ts = encodeFixed (ts.map releaseToken) := by
  unfold encodeFixedRelease encodeFixed
  simp only [writeBodyRelease_eq ts h]

theorem countTokenRelease_eq (f : List Nat × List Nat) (t : Token)
    (h : ∀ l d, t = .mtch l d → l < 65536 ∧ d < 65536) : countTokenRelease f t = countToken f (releaseToken t) := by
  cases t with
  | lit b => rfl
  | mtch l d =>
    obtain ⟨hl, hd⟩ := h l d rfl
    simp only [countTokenRelease, releaseToken, countToken]
    rw [lengthCodeRelease_eq l hl]
    congr 1; funext a; congr 1; funext w1
    unfold releaseDistance
    by_cases h0 : d = 0
    · subst h0
      rw [if_pos rfl, show distanceCodeRelease 0 = .ok (0, 0, 65535) from by decide +kernel,
        show distanceCode 1 = .ok (0, 0, 0) from by decide +kernel, ok_bind, ok_bind]
    · rw [if_neg h0]
      by_cases h1 : d ≤ 32768
      · rw [if_pos h1, distanceCodeRelease_small d (by omega) h1]
      · rw [if_neg h1, distanceCodeRelease_large d (by omega) hd, large_distance _ (Nat.mod_lt _ (by decide)), ok_bind, ok_bind]

theorem countLoopRelease_eq (ts : List Token) (h : ∀ l d, .mtch l d ∈ ts → l < 65536 ∧ d < 65536)
    (f : List Nat × List Nat) : countLoopRelease ts f = countLoop (ts.map releaseToken) f := by
  induction ts generalizing f with
  | nil => rfl
  | cons t ts ih =>
    rw [List.map_cons]
    unfold countLoopRelease countLoop
    rw [countTokenRelease_eq f t (fun l d e => h l d (by rw [e]; simp))]
    congr 1
    funext w1
    exact ih (fun l d hm => h l d (by simp [hm])) w1

/-- **C65** in a release build: so does the encoder of dynamic codes. -/
theorem C65_dynamic_release (env : Env) (ts : List Token) (h : ∀ l d, .mtch l d ∈ ts → l < 65536 ∧ d < 65536) :
    encodeDynamicRelease env ts = encodeDynamic env (ts.map releaseToken) := by
  unfold encodeDynamicRelease encodeDynamic writeDynamicBlockRelease writeDynamicBlock countSymbolsRelease countSymbols
  simp only [writeBodyRelease_eq ts h, countLoopRelease_eq ts h]

theorem releaseDistance_legal (d : Nat) : 1 ≤ releaseDistance d ∧ releaseDistance d ≤ 32768 := by
  unfold releaseDistance
  split
  · omega
  · split <;> omega

/-- **C65** in a release build: only lengths that are not legal make the encoder panic; else it says its tokens
with these distances. -/
theorem C65_release_says (ts : List Token) (h : ∀ l d, .mtch l d ∈ ts → l < 65536 ∧ d < 65536) :
    (∃ out, encodeFixedRelease ts = .ok out ∧ Says out ((ts.map releaseToken).map meaning)) ∧
      (∀ l d, .mtch l d ∈ ts → 3 ≤ l ∧ l ≤ 258) ∨
    (∀ out, encodeFixedRelease ts ≠ .ok out) ∧ ¬∀ l d, .mtch l d ∈ ts → 3 ≤ l ∧ l ≤ 258 := by
  rw [C65_release ts h]
  by_cases hl : ∀ l d, .mtch l d ∈ ts → 3 ≤ l ∧ l ≤ 258
  · refine Or.inl ⟨C65_fixed _ ?_, hl⟩
    intro t ht
    obtain ⟨u, hu, rfl⟩ := List.mem_map.mp ht
    cases u with
    | lit b => trivial
    | mtch l d =>
      have := hl l d hu
      have := releaseDistance_legal d
      exact ⟨by omega, by omega, by omega, by omega⟩
  · refine Or.inr ⟨fun out e => hl fun l d hm => ?_, hl⟩
    have := (C65_fixed_legal _).mp ⟨out, e⟩ (releaseToken (.mtch l d)) (List.mem_map_of_mem hm)
    exact ⟨this.1, this.2.1⟩

/-- **C65** in a release build with dynamic codes. -/
theorem C65_dynamic_release_says (env : Env) (ts : List Token)
    (h : ∀ l d, .mtch l d ∈ ts → l < 65536 ∧ d < 65536) (hn : ts.length + 2 < 2 ^ 32) :
    (∃ out, encodeDynamicRelease env ts = .ok out ∧ Says out ((ts.map releaseToken).map meaning)) ∧
      (∀ l d, .mtch l d ∈ ts → 3 ≤ l ∧ l ≤ 258) ∨
    (∀ out, encodeDynamicRelease env ts ≠ .ok out) ∧ ¬∀ l d, .mtch l d ∈ ts → 3 ≤ l ∧ l ≤ 258 := by
  rw [C65_dynamic_release env ts h]
  by_cases hl : ∀ l d, .mtch l d ∈ ts → 3 ≤ l ∧ l ≤ 258
  · refine Or.inl ⟨C65_dynamic env _ ?_ (by simpa using hn), hl⟩
    intro t ht
    obtain ⟨u, hu, rfl⟩ := List.mem_map.mp ht
    cases u with
    | lit b => trivial
    | mtch l d =>
      have := hl l d hu
      have := releaseDistance_legal d
      exact ⟨by omega, by omega, by omega, by omega⟩
  · refine Or.inr ⟨fun out e => hl fun l d hm => ?_, hl⟩
    have := (C65_dynamic_legal env _ (by simpa using hn)).mp ⟨out, e⟩ (releaseToken (.mtch l d)) (List.mem_map_of_mem hm)
    exact ⟨this.1, this.2.1⟩

/-- A match with distance 40000 meets the hypotheses of the theorem above. -/
example : (∀ l d, Token.mtch l d ∈ [Token.mtch 3 40000] → l < 65536 ∧ d < 65536) ∧ releaseToken (.mtch 3 40000) = .mtch 3 31808 :=
  ⟨by intro l d h; simp at h; obtain ⟨rfl, rfl⟩ := h; decide, by decide⟩

/-- **C65**, legal tokens in a release build. -/
theorem C65_release_legal (ts : List Token) (h : ∀ t ∈ ts, Legal t) : encodeFixedRelease ts = encodeFixed ts := by
  rw [C65_release ts (fun l d hm => by have := h _ hm; unfold Legal at this; omega)]
  congr 1
  conv => rhs; rw [← List.map_id ts]
  apply List.map_congr_left
  intro t ht
  cases t with
  | lit b => rfl
  | mtch l d =>
    have := h _ ht
    unfold Legal at this
    simp only [releaseToken, releaseDistance, id]
    rw [if_neg (by omega), if_pos (by omega)]

/-- **C65** fails in a release build: a distance of 0 is written as 1, and one of 40000 as 31808. -/
theorem C65_release_violated :
    (∃ out, encodeFixedRelease [.lit 7, .mtch 3 0] = .ok out ∧ Says out [.lit 7, .copy 3 1] ∧ Encodes true out [7, 7, 7, 7]) ∧
    ∃ out, encodeFixedRelease [.mtch 3 40000] = .ok out ∧ Says out [.copy 3 31808] := by
  constructor
  · rw [C65_release _ (by intro l d h; simp at h; obtain ⟨rfl, rfl⟩ := h; decide)]
    obtain ⟨out, e, hs⟩ := C65_fixed [.lit 7, .mtch 3 1] (by decide)
    exact ⟨out, e, hs, hs.encodes (by decide)⟩
  · rw [C65_release _ (by intro l d h; simp at h; obtain ⟨rfl, rfl⟩ := h; decide)]
    obtain ⟨out, e, hs⟩ := C65_fixed [.mtch 3 31808] (by decide)
    exact ⟨out, e, hs⟩

/-- **C65** fails for packed tokens: a match with a distance beyond 32768 becomes a literal. -/
theorem C65_packed_violated (l d : Nat) (hl : l < 65536) (hd : 32768 < d) (hd2 : d ≤ 65535) :
    ∃ p, packMatch l d = .ok p ∧ unpack p = .ok (some (.lit (UInt8.ofNat l))) := by
  refine ⟨(d - 1) <<< 16 ||| l, ?_, ?_⟩
  · unfold packMatch
    rw [if_pos (by omega)]
  · have e : (d - 1) <<< 16 ||| l = (d - 1) * 65536 + l := by
      rw [Nat.shiftLeft_eq, ← Nat.shiftLeft_eq, Nat.shiftLeft_add_eq_or_of_lt (by omega : l < 2 ^ 16), Nat.shiftLeft_eq]
    have hlit : Lz77.isLiteral ((d - 1) <<< 16 ||| l) = true := by
      unfold Lz77.isLiteral
      rw [bne_iff_ne, e]
      intro h0
      have h1 := congrArg (Nat.testBit · 31) h0
      simp only [Nat.testBit_and, Nat.zero_testBit, Bool.and_eq_false_iff] at h1
      rcases h1 with h1 | h1
      · rw [Nat.testBit_eq_decide_div_mod_eq] at h1
        simp only [decide_eq_false_iff_not] at h1
        apply h1
        omega
      · revert h1; decide
    unfold unpack Lz77.asLiteral
    rw [hlit, if_pos rfl]
    simp only
    congr 3
    rw [e]
    apply UInt8.toNat_inj.mp
    rw [UInt8.toNat_ofNat', UInt8.toNat_ofNat']
    omega

/-- Tokens of all kinds, also one that refers to nothing. -/
example : ∃ out, encodeFixed [.lit 1, .mtch 258 1, .lit 2, .mtch 3 32768] = .ok out ∧
    Says out [.lit 1, .copy 258 1, .lit 2, .copy 3 32768] := C65_fixed _ (by decide)

example (env : Env) : ∃ out, encodeDynamic env [.lit 1, .mtch 5 1] = .ok out ∧ Encodes true out [1, 1, 1, 1, 1, 1] := by
  obtain ⟨out, e, h⟩ := C65_dynamic env [.lit 1, .mtch 5 1] (by decide) (by decide)
  exact ⟨out, e, h.encodes (by decide)⟩

example : ¬∃ out, encodeFixed [.mtch 2 1] = .ok out := by rw [C65_fixed_legal]; decide

example : packMatch 5 32769 = .ok 0x80000005 := by decide

end Pixo.Props
