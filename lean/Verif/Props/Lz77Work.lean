import Verif.Model.Lz77Work
import Verif.Props.Lz77
/-
C108: the work of the LZ77 encoders is proportional to the data (src/compress/lz77.rs).
-/
namespace Pixo.Props
open Pixo Pixo.Lz77

/-- `w` is `x` with a count, and the count and the result satisfy `B`. -/
def Costs {α : Type} (w : R (α × Nat)) (x : R α) (B : α → Nat → Prop) : Prop :=
  (∃ e, w = .error e ∧ x = .error e) ∨ (∃ a n, w = .ok (a, n) ∧ x = .ok a ∧ B a n)

namespace Costs
variable {α β : Type}

theorem ok {a : α} {n : Nat} {B : α → Nat → Prop} (h : B a n) : Costs (.ok (a, n)) (.ok a) B := Or.inr ⟨a, n, rfl, rfl, h⟩

theorem pure {a : α} {n : Nat} {B : α → Nat → Prop} (h : B a n) : Costs (Pure.pure (a, n)) (Pure.pure a) B := Or.inr ⟨a, n, rfl, rfl, h⟩

theorem mono {w : R (α × Nat)} {x : R α} {B C : α → Nat → Prop} (h : Costs w x B) (hc : ∀ a n, x = .ok a → B a n → C a n) : Costs w x C := by
  rcases h with h | ⟨a, n, hw, hx, hb⟩
  · exact Or.inl h
  · exact Or.inr ⟨a, n, hw, hx, hc a n hx hb⟩

/-- A counted step. -/
theorem bind {w : R (α × Nat)} {x : R α} {B : α → Nat → Prop} {f : α × Nat → R (β × Nat)} {g : α → R β} {C : β → Nat → Prop}
    (h : Costs w x B) (hf : ∀ a n, x = .ok a → B a n → Costs (f (a, n)) (g a) C) : Costs (w >>= f) (x >>= g) C := by
  rcases h with ⟨e, hw, hx⟩ | ⟨a, n, hw, hx, hb⟩
  · subst hw hx; exact Or.inl ⟨e, rfl, rfl⟩
  · have := hf a n hx hb
    subst hw hx; exact this

/-- A step that is not counted. -/
theorem plain {x : R α} {f : α → R (β × Nat)} {g : α → R β} {C : β → Nat → Prop}
    (hf : ∀ a, x = .ok a → Costs (f a) (g a) C) : Costs (x >>= f) (x >>= g) C := by
  cases x with
  | error e => exact Or.inl ⟨e, rfl, rfl⟩
  | ok a => exact hf a rfl

/-- The last counted step of a sequence. -/
theorem last {w : R (α × Nat)} {x : R α} {B : α → Nat → Prop} {f : Nat → Nat} {C : α → Nat → Prop}
    (h : Costs w x B) (hc : ∀ a n, x = .ok a → B a n → C a (f n)) :
    Costs (w >>= fun p => Pure.pure (p.1, f p.2)) x C := by
  rcases h with ⟨e, hw, hx⟩ | ⟨a, n, hw, hx, hb⟩
  · subst hw hx; exact Or.inl ⟨e, rfl, rfl⟩
  · have := hc a n hx hb
    subst hw hx; exact Or.inr ⟨a, f n, rfl, rfl, this⟩

/-- Counting something in a fixed way. -/
theorem fixed {x : R α} {k : Nat} {B : α → Nat → Prop} (h : ∀ a, x = .ok a → B a k) : Costs (x >>= fun a => Pure.pure (a, k)) x B := by
  cases x with
  | error e => exact Or.inl ⟨e, rfl, rfl⟩
  | ok a => exact Or.inr ⟨a, k, rfl, rfl, h a rfl⟩

end Costs

/-! ### Searching -/

theorem chainLoop_costs {S : Type} (prev : Tab) {stepW : Nat → S → R ((S × Bool) × Nat)} {step : Nat → S → R (S × Bool)} {K : Nat}
    {P : S → Prop} (hs : ∀ p s, P s → Costs (stepW p s) (step p s) (fun r n => n ≤ K ∧ P r.1)) (rem : Nat) (p : Int) (s : S) (h : P s) :
    Costs (chainLoopW prev stepW rem p s) (chainLoop prev step rem p s) (fun r n => n ≤ K * rem ∧ P r) := by
  induction rem generalizing p s with
  | zero => exact .ok ⟨Nat.zero_le _, h⟩
  | succ rem ih =>
    rw [chainLoopW, chainLoop]
    split
    · refine .bind (hs _ s h) ?_
      rintro ⟨s1, stop⟩ a _ ⟨ha, h1⟩
      have h2 : K * (rem + 1) = K * rem + K := Nat.mul_succ _ _
      dsimp only at h1 ⊢
      split
      · exact .ok ⟨by omega, h1⟩
      · refine .plain fun next _ => ?_
        refine .last (f := fun b => a + b) (ih next s1 h1) ?_
        rintro r n _ ⟨hn, hr⟩
        exact ⟨by omega, hr⟩
    · exact .ok ⟨Nat.zero_le _, h⟩

theorem searchChain_costs (lv : Simd.Level) (st : State) (data : List UInt8) (pos limit nice minLen : Nat) (best : Nat × Nat) :
    Costs (searchChainW lv st data pos limit nice minLen best) (searchChain lv st data pos limit nice minLen best) (fun _ n => n ≤ limit) := by
  unfold searchChainW searchChain
  refine .plain fun h _ => .plain fun first _ => ?_
  refine .bind (chainLoop_costs (K := 1) (P := fun _ => True) st.prev
    (fun p s _ => Costs.fixed fun _ _ => ⟨Nat.le_refl _, trivial⟩) limit first best trivial) ?_
  rintro b n _ ⟨hn, -⟩
  dsimp only
  split
  · exact .ok (by omega)
  · exact .ok (by omega)

theorem searchFrom_costs (lv : Simd.Level) (st : State) (data : List UInt8) (pos limit nice minLen : Nat) (best : Nat × Nat) :
    Costs (searchFromW lv st data pos limit nice minLen best) (searchFrom lv st data pos limit nice minLen best)
      (fun _ n => n ≤ limit + 1) := by
  unfold searchFromW searchFrom
  refine .plain ?_
  rintro ⟨b, now⟩ _
  dsimp only
  split
  · exact .ok (by omega)
  · exact .last (f := fun a => 1 + a) (searchChain_costs ..) fun _ n _ hn => by omega

theorem findBestMatch_costs (lv : Simd.Level) (st : State) (data : List UInt8) (pos limit nice minLen : Nat) :
    Costs (findBestMatchW lv st data pos limit nice minLen) (findBestMatch lv st data pos limit nice minLen) (fun _ n => n ≤ limit + 1) := by
  unfold findBestMatchW findBestMatch
  split
  · exact .ok (by omega)
  · refine .plain fun run _ => .plain fun c _ => ?_
    split
    · split
      · exact .ok (by omega)
      · exact searchFrom_costs ..
    · exact searchFrom_costs ..

theorem htLoop_costs (lv : Simd.Level) (data : List UInt8) (pos nice minLen : Nat) (cands : List Int) (best : Nat × Nat) :
    Costs (htLoopW lv data pos nice minLen cands best) (htLoop lv data pos nice minLen cands best) (fun _ n => n ≤ cands.length) := by
  induction cands generalizing best with
  | nil => exact .ok (Nat.zero_le _)
  | cons c cs ih =>
    rw [htLoopW, htLoop]
    refine .plain ?_
    rintro ⟨b, stop⟩ _
    dsimp only
    split
    · exact .ok (by simp)
    · exact .last (f := fun a => 1 + a) (ih b) fun _ n _ hn => by simp only [List.length_cons]; omega

theorem findBestMatchHt_costs (lv : Simd.Level) (st : State) (data : List UInt8) (pos nice minLen : Nat) :
    Costs (findBestMatchHtW lv st data pos nice minLen) (findBestMatchHt lv st data pos nice minLen) (fun _ n => n ≤ 2) := by
  unfold findBestMatchHtW findBestMatchHt
  split
  · exact .ok (by omega)
  · refine .plain fun h _ => .plain fun c0 _ => .plain fun c1 _ => .plain fun t1 _ => .plain fun t0 _ => ?_
    refine .bind (htLoop_costs lv data pos nice minLen [c0, c1] (minLen - 1, 0)) ?_
    intro b n _ hn
    have h2 : n ≤ 2 := hn
    dsimp only
    split
    · exact .ok h2
    · exact .ok h2

/-- The earlier positions a search may look at, at most. -/
def searchBound (c : Config) : Nat := max 2 (c.maxDepth + 1)

theorem findMatch_costs (lv : Simd.Level) (st : State) (data : List UInt8) (pos limit minLen : Nat) :
    Costs (findMatchW lv st data pos limit minLen) (findMatch lv st data pos limit minLen) (fun _ n => n ≤ searchBound st.config) := by
  unfold findMatchW findMatch searchBound
  split
  · exact (findBestMatchHt_costs ..).mono fun _ n _ hn => by omega
  · refine .bind (findBestMatch_costs ..) ?_
    intro m n _ hn
    exact .pure (by have := Nat.min_le_right limit st.config.maxDepth; omega)

/-! ### Updating the tables -/

theorem updateHash_costs (st : State) (data : List UInt8) (pos : Nat) :
    Costs (updateHashW st data pos) (updateHash st data pos) (fun _ n => n = 1) := .fixed fun _ _ => rfl

theorem updateRange_costs (st : State) (data : List UInt8) (pos n : Nat) :
    Costs (updateRangeW st data pos n) (updateRange st data pos n) (fun _ k => k = n) := by
  induction n with
  | zero => exact .ok rfl
  | succ n ih =>
    rw [updateRangeW, updateRange]
    refine .bind ih ?_
    intro st1 a _ ha
    refine .last (f := fun b => a + b) (updateHash_costs st1 data (pos + n)) ?_
    intro _ b _ hb
    omega

theorem updateMatch_costs (st : State) (data : List UInt8) (pos length distance : Nat) :
    Costs (updateMatchW st data pos length distance) (updateMatch st data pos length distance) (fun _ n => n ≤ length) := by
  unfold updateMatchW updateMatch
  split
  · rename_i h
    have h3 : 3 ≤ length := h.2
    refine .bind (updateHash_costs ..) ?_
    intro st1 a _ ha
    dsimp only
    split
    · exact .last (f := fun b => a + b) (updateHash_costs ..) fun _ b _ hb => by omega
    · exact .ok (by omega)
  · exact (updateRange_costs ..).mono fun _ n _ hn => by omega

/-! ### The settings stay -/

theorem ok_of_bind {α β : Type} {x : R α} {f : α → R β} {b : β} (h : (x >>= f) = .ok b) : ∃ a, x = .ok a ∧ f a = .ok b := by
  cases x with
  | error e => cases h
  | ok a => exact ⟨a, rfl, h⟩

theorem updateHash_config {st st' : State} {data : List UInt8} {pos : Nat} (h : updateHash st data pos = .ok st') :
    st'.config = st.config := by
  unfold updateHash at h
  split at h
  · cases h; rfl
  · obtain ⟨_, _, h⟩ := ok_of_bind h
    obtain ⟨_, _, h⟩ := ok_of_bind h
    obtain ⟨_, _, h⟩ := ok_of_bind h
    obtain ⟨_, _, h⟩ := ok_of_bind h
    obtain ⟨_, _, h⟩ := ok_of_bind h
    obtain ⟨_, _, h⟩ := ok_of_bind h
    cases h; rfl

theorem findMatch_config {lv : Simd.Level} {st st' : State} {data : List UInt8} {pos limit minLen : Nat} {m : Option (Nat × Nat)}
    (h : findMatch lv st data pos limit minLen = .ok (m, st')) : st'.config = st.config := by
  unfold findMatch at h
  split at h
  · unfold findBestMatchHt at h
    split at h
    · cases h; rfl
    · obtain ⟨_, _, h⟩ := ok_of_bind h
      obtain ⟨_, _, h⟩ := ok_of_bind h
      obtain ⟨_, _, h⟩ := ok_of_bind h
      obtain ⟨_, _, h⟩ := ok_of_bind h
      obtain ⟨_, _, h⟩ := ok_of_bind h
      obtain ⟨_, _, h⟩ := ok_of_bind h
      split at h <;> · cases h; rfl
  · obtain ⟨_, _, h⟩ := ok_of_bind h
    cases h; rfl

/-! ### The main loop -/

/-- What a round may cost for each byte it passes: one search and one update, and with lazy matching another of both. -/
def byteBound (c : Config) : Nat := if c.lazy = .none then searchBound c + 1 else 2 * searchBound c + 2

theorem stayLiteral_costs (data : List UInt8) (s : Loop) :
    Costs (stayLiteralW data s) (stayLiteral data s) (fun s' n => s'.pos = s.pos + 1 ∧ n ≤ 1) := by
  unfold stayLiteralW stayLiteral
  refine .plain fun b _ => ?_
  dsimp only
  split
  · refine .bind (updateHash_costs ..) ?_
    intro st a _ ha
    exact .pure ⟨rfl, by simp only []; omega⟩
  · exact .ok ⟨rfl, Nat.zero_le _⟩

theorem emitMatch_costs (data : List UInt8) (s : Loop) (l d : Nat) :
    Costs (emitMatchW data s l d) (emitMatch data s l d) (fun s' n => s'.pos = s.pos + l ∧ n ≤ l) := by
  unfold emitMatchW emitMatch
  refine .bind (updateMatch_costs ..) ?_
  intro st a _ ha
  exact .pure ⟨rfl, ha⟩

theorem stepIncompressible_costs (lv : Simd.Level) (data : List UInt8) (minLen : Nat) (s : Loop) :
    Costs (stepIncompressibleW lv data minLen s) (stepIncompressible lv data minLen s)
      (fun s' n => s.pos ≤ s'.pos ∧ n ≤ searchBound s.st.config + (s'.pos - s.pos)) := by
  unfold stepIncompressibleW stepIncompressible
  split
  · refine .bind (findBestMatch_costs ..) ?_
    intro m a _ ha
    have hb : a ≤ searchBound s.st.config := by
      have := Nat.min_le_right CHAIN_LIMIT s.st.config.maxDepth
      unfold searchBound; omega
    dsimp only
    split
    · refine .bind (updateMatch_costs ..) ?_
      intro st b _ hb
      exact .pure ⟨by simp only []; omega, by simp only []; omega⟩
    · refine .last (f := fun b => a + b) (stayLiteral_costs ..) ?_
      rintro s' b _ ⟨hp, hn⟩
      simp only [] at hp
      exact ⟨by omega, by omega⟩
  · refine (stayLiteral_costs ..).mono ?_
    rintro s' n _ ⟨hp, hn⟩
    exact ⟨by omega, by omega⟩

theorem lazyMatch_costs (lv : Simd.Level) (data : List UInt8) (minLen chainLimit : Nat) (s : Loop) (l d : Nat) :
    Costs (lazyMatchW lv data minLen chainLimit s l d) (lazyMatch lv data minLen chainLimit s l d)
      (fun s' n => s.pos ≤ s'.pos ∧ n ≤ searchBound s.st.config + 1 + (s'.pos - s.pos)) := by
  unfold lazyMatchW lazyMatch
  refine .bind (updateHash_costs ..) ?_
  intro st a he ha
  have hc : st.config = s.st.config := updateHash_config he
  dsimp only
  refine .bind (findMatch_costs ..) ?_
  rintro ⟨m, st2⟩ b _ hb
  rw [hc] at hb
  rcases m with _ | ⟨nl, nd⟩
  · dsimp only
    refine .last (f := fun c => a + b + c) (emitMatch_costs ..) ?_
    rintro s' n _ ⟨hp, hn⟩
    simp only [] at hp
    exact ⟨by omega, by omega⟩
  · dsimp only
    split
    · refine .plain fun c _ => ?_
      exact .pure ⟨by simp only []; omega, by simp only []; omega⟩
    · refine .last (f := fun c => a + b + c) (emitMatch_costs ..) ?_
      rintro s' n _ ⟨hp, hn⟩
      simp only [] at hp
      exact ⟨by omega, by omega⟩

theorem haveMatch_costs (lv : Simd.Level) (data : List UInt8) (minLen chainLimit : Nat) (s : Loop) (l d : Nat) :
    Costs (haveMatchW lv data minLen chainLimit s l d) (haveMatch lv data minLen chainLimit s l d)
      (fun s' n => s.pos ≤ s'.pos ∧ n ≤ (if s.st.config.lazy = .none then 0 else searchBound s.st.config + 1) + (s'.pos - s.pos)) := by
  unfold haveMatchW haveMatch
  dsimp only
  split
  · refine .plain fun b _ => ?_
    refine .bind (updateHash_costs ..) ?_
    intro st a _ ha
    exact .pure ⟨by simp only []; omega, by simp only []; omega⟩
  · split
    · rename_i h
      refine (lazyMatch_costs ..).mono ?_
      rintro s' n _ ⟨hp, hn⟩
      rw [if_neg h.1]
      exact ⟨hp, hn⟩
    · refine (emitMatch_costs ..).mono ?_
      rintro s' n _ ⟨hp, hn⟩
      simp only [] at hp
      exact ⟨by omega, by omega⟩

theorem noMatch_costs (data : List UInt8) (s : Loop) :
    Costs (noMatchW data s) (noMatch data s) (fun s' n => s'.pos = s.pos + 1 ∧ n ≤ 1) := by
  unfold noMatchW noMatch
  dsimp only
  split
  all_goals
    refine .plain fun b _ => ?_
    refine .bind (updateHash_costs ..) ?_
    intro st a _ ha
    exact .pure ⟨rfl, by simp only []; omega⟩

theorem currentMatch_costs (lv : Simd.Level) (data : List UInt8) (minLen chainLimit : Nat) (s : Loop) :
    Costs (currentMatchW lv data minLen chainLimit s) (currentMatch lv data minLen chainLimit s)
      (fun r n => r.2.pos = s.pos ∧ n ≤ searchBound s.st.config ∧ r.2.st.config = s.st.config) := by
  unfold currentMatchW currentMatch
  cases hpend : s.pending with
  | some m => exact .ok ⟨rfl, Nat.zero_le _, rfl⟩
  | none =>
    dsimp only
    refine .bind (findMatch_costs ..) ?_
    rintro ⟨m, st⟩ a he ha
    exact .pure ⟨rfl, ha, findMatch_config he⟩

theorem stepNormal_costs_core (lv : Simd.Level) (data : List UInt8) (minLen chainLimit : Nat) (s : Loop) :
    Costs (do
      let ((m, s), a) ← currentMatchW lv data minLen chainLimit s
      match m with
      | some (length, distance) => do
        let (s, b) ← haveMatchW lv data minLen chainLimit s length distance
        return (s, a + b)
      | none => do
        let (s, b) ← noMatchW data s
        return (s, a + b))
      (do
      let (m, s) ← currentMatch lv data minLen chainLimit s
      match m with
      | some (length, distance) => haveMatch lv data minLen chainLimit s length distance
      | none => noMatch data s)
      (fun s' n => s.pos ≤ s'.pos ∧ n + 1 ≤ byteBound s.st.config + (s'.pos - s.pos)) := by
  refine .bind (currentMatch_costs ..) ?_
  rintro ⟨m, s1⟩ a _ ⟨hp1, ha, hc⟩
  dsimp only at hp1 hc ⊢
  split
  · refine .last (f := fun b => a + b) (haveMatch_costs ..) ?_
    rintro s' n _ ⟨hp, hn⟩
    rw [hc] at hn
    unfold byteBound
    split at hn
    · rename_i h
      rw [if_pos h]
      exact ⟨by omega, by omega⟩
    · rename_i h
      rw [if_neg h]
      exact ⟨by omega, by omega⟩
  · refine .last (f := fun b => a + b) (noMatch_costs ..) ?_
    rintro s' n _ ⟨hp, hn⟩
    unfold byteBound
    split <;> exact ⟨by omega, by omega⟩

theorem step_costs (lv : Simd.Level) (data : List UInt8) (minLen : Nat) (s : Loop) :
    Costs (stepW lv data minLen s) (step lv data minLen s) (fun s' n => s.pos ≤ s'.pos ∧ n + 1 ≤ byteBound s.st.config + (s'.pos - s.pos)) := by
  unfold stepW step
  split
  · refine (stepIncompressible_costs ..).mono ?_
    rintro s' n _ ⟨hp, hn⟩
    unfold byteBound
    split <;> exact ⟨hp, by omega⟩
  · unfold stepNormalW stepNormal
    by_cases h : s.streak ≥ LITERAL_THRESHOLD
    · rw [if_pos h]
      exact stepNormal_costs_core lv data minLen _ { s with incompressible := true, probe := 0 }
    · rw [if_neg h]
      exact stepNormal_costs_core lv data minLen _ s

theorem two_le_byteBound (c : Config) : 2 ≤ byteBound c := by
  unfold byteBound searchBound
  split <;> omega

/-- A round passes a byte or more, so that what is paid once a round can be paid for one byte. -/
theorem round_pays {b d n : Nat} (h1 : 1 ≤ d) (hb : 1 ≤ b) (h : n + 1 ≤ b + d) : n ≤ b * d := by
  obtain ⟨d, rfl⟩ : ∃ k, d = k + 1 := ⟨d - 1, by omega⟩
  have h2 : b * (d + 1) = b * d + b := Nat.mul_succ _ _
  have h3 : 1 * d ≤ b * d := Nat.mul_le_mul_right d hb
  omega

theorem mainLoop_costs (lv : Simd.Level) {data : List UInt8} {minLen : Nat} (hm : 3 ≤ minLen) (fuel : Nat) (s : Loop) (h : Inv data s) :
    Costs (mainLoopW lv data minLen fuel s) (mainLoop lv data minLen fuel s)
      (fun _ n => n ≤ byteBound s.st.config * (data.length - s.pos)) := by
  induction fuel generalizing s with
  | zero => exact Or.inl ⟨_, rfl, rfl⟩
  | succ fuel ih =>
    rw [mainLoopW, mainLoop]
    split
    · rename_i hp
      refine .bind (step_costs ..) ?_
      rintro s1 a he ⟨_, ha⟩
      obtain ⟨s2, he2, hi, hlt, hc⟩ := (step_spec lv h hp hm).out
      rw [he] at he2; cases he2
      refine .last (f := fun b => a + b) (ih s1 hi) ?_
      intro _ b _ hb
      rw [hc] at hb
      have hle := hi.le
      have := round_pays (by omega) (by have := two_le_byteBound s.st.config; omega) ha
      have e : data.length - s.pos = (s1.pos - s.pos) + (data.length - s1.pos) := by omega
      rw [e, Nat.mul_add]
      omega
    · exact .ok (Nat.zero_le _)

theorem compress_costs (lv : Simd.Level) {st : State} (hs : Sized st) (data : List UInt8) :
    Costs (compressW lv st data) (compress lv st data) (fun _ n => n ≤ byteBound st.config * data.length) := by
  unfold compressW compress
  split
  · exact .ok (Nat.zero_le _)
  · refine .plain fun m hm => ?_
    obtain ⟨m', e, hm3⟩ := (calculateMinMatchLen_spec data st.config.maxDepth).out
    rw [hm] at e; cases e
    refine .bind (mainLoop_costs lv hm3 _ _ ⟨wf_reset hs, Nat.zero_le _, Good.nil data, fun l d e => by cases e⟩) ?_
    intro s n _ hn
    exact .pure hn

/-! ### Optimal parsing -/

theorem sublenStep_costs (lv : Simd.Level) {data : List UInt8} {pos : Nat} (hp : pos ≤ data.length) (p : Nat) (s : List Nat × Nat)
    (_ : True) : Costs (sublenStepW lv data pos p s) (sublenStep lv data pos p s) (fun _ n => n ≤ 257 ∧ True) := by
  unfold sublenStepW sublenStep
  refine .plain fun dist hd => ?_
  split
  · exact .ok ⟨by omega, trivial⟩
  · split
    · exact .ok ⟨by omega, trivial⟩
    · refine .plain fun l hl => ?_
      have hle : p ≤ pos := by
        unfold subUsize at hd
        split at hd
        · assumption
        · cases hd
      obtain ⟨l', e, h258, _⟩ := (matchLen_spec lv data p pos hle hp).out
      rw [hl] at e; cases e
      have : l + 1 - MIN_MATCH_LENGTH ≤ 256 := by unfold MIN_MATCH_LENGTH; omega
      split
      · refine .plain fun sub _ => ?_
        split
        · exact .ok ⟨by omega, trivial⟩
        · exact .ok ⟨by omega, trivial⟩
      · exact .ok ⟨by omega, trivial⟩

theorem sublenSearch_costs (lv : Simd.Level) (st : State) {data : List UInt8} {pos : Nat} (hp : pos ≤ data.length) (s : List Nat × Nat) :
    Costs (sublenSearchW lv st data pos s) (sublenSearch lv st data pos s) (fun _ n => n ≤ 257 * st.config.maxDepth + 1) := by
  unfold sublenSearchW sublenSearch
  refine .plain fun s1 _ => .plain fun h _ => .plain fun first _ => ?_
  refine .last (f := fun a => 1 + a) (chainLoop_costs (K := 257) (P := fun _ => True) st.prev (sublenStep_costs lv hp) _ first s1 trivial) ?_
  rintro _ n _ ⟨hn, -⟩
  have := Nat.mul_le_mul_left 257 (Nat.min_le_right st.config.maxChain st.config.maxDepth)
  omega

theorem findSublen_costs (lv : Simd.Level) (st : State) (data : List UInt8) (pos : Nat) :
    Costs (findSublenW lv st data pos) (findSublen lv st data pos) (fun _ n => n ≤ 257 * st.config.maxDepth + 257) := by
  unfold findSublenW findSublen
  dsimp only
  split
  · exact .ok (Nat.zero_le _)
  · rename_i h
    have hp : pos + 3 ≤ data.length := by unfold MIN_MATCH_LENGTH at h; omega
    refine .plain fun run hr => .plain fun c _ => ?_
    obtain ⟨r, e, _, h258, _⟩ := (detectRun_full data pos (by omega)).out
    rw [hr] at e; cases e
    have : run + 1 - MIN_MATCH_LENGTH ≤ 256 := by unfold MIN_MATCH_LENGTH; omega
    split
    · refine .plain fun sub _ => ?_
      split
      · exact .ok (by omega)
      · refine .last (f := fun a => run + 1 - MIN_MATCH_LENGTH + a) (sublenSearch_costs lv st (by omega) _) ?_
        intro _ n _ hn
        omega
    · exact (sublenSearch_costs lv st (by omega) _).mono fun _ n _ hn => by omega

/-- What optimal parsing may cost for each byte: nothing but the lengths if the cache is used. -/
def optimalBound (c : Config) (useCache : Bool) : Nat := if useCache then 256 else 257 * c.maxDepth + 514

theorem cachedMatches_costs (lv : Simd.Level) (useCache : Bool) (st : State) (data : List UInt8) (i : Nat) (cache : Cache) :
    Costs (cachedMatchesW lv useCache st data i cache) (cachedMatches lv useCache st data i cache)
      (fun _ n => n + 256 ≤ optimalBound st.config useCache) := by
  unfold cachedMatchesW cachedMatches optimalBound
  cases useCache with
  | true => exact .ok (Nat.le_refl _)
  | false =>
    rw [if_neg (by decide), if_neg (by decide), if_neg (by decide)]
    refine .bind (findSublen_costs ..) ?_
    intro m a _ ha
    dsimp only
    refine .bind (updateHash_costs ..) ?_
    intro st1 b _ hb
    exact .pure (by omega)

theorem tryAt_costs {α : Type} (cm : CostModel) (data : List UInt8) (i : Nat) (base : Int) (dp : Dp)
    {mw : R (((List Nat × Nat) × α) × Nat)} {m : R ((List Nat × Nat) × α)} {B : α → Nat → Prop}
    (h : Costs mw m (fun r n => B r.2 (n + (r.1.2 + 1 - MIN_MATCH_LENGTH)))) :
    Costs (tryAtW cm data i base dp mw) (tryAt cm data i base dp m) (fun r n => B r.2 n) := by
  unfold tryAtW tryAt
  refine .plain fun b _ => .plain fun lc _ => .plain fun dp1 _ => ?_
  refine .bind h ?_
  rintro ⟨⟨sub, mx⟩, a⟩ n _ hn
  exact .plain fun dp2 _ => .pure hn

theorem forwardCached_costs (lv : Simd.Level) (useCache : Bool) {cm : CostModel} (hc : CostOk cm) {data : List UInt8} {cfg : Config}
    (count i : Nat) (hn : i + count = data.length) (st : State) (hs : Sized st ∧ st.config = cfg) (hw : useCache = false → CWF cfg st i)
    (cache : Cache) (hk : CacheOk data cache) (dp : Dp) (h : DpOk data dp) (hr : Reached dp i) :
    Costs (forwardCachedW lv cm useCache data count i st cache dp) (forwardCached lv cm useCache data count i st cache dp)
      (fun _ n => n ≤ optimalBound cfg useCache * count) := by
  induction count generalizing i st cache dp with
  | zero => exact .ok (Nat.zero_le _)
  | succ count ih =>
    have s1 := h.sCosts
    rw [forwardCachedW, forwardCached]
    refine .plain fun base he => ?_
    have hb : base ≤ 2 ^ 189 := by
      obtain ⟨c, hc, hle⟩ := hr i (Nat.le_refl _)
      unfold getChecked at he
      rw [hc] at he; cases he; exact hle
    rw [if_neg (base_lt hb), if_neg (base_lt hb)]
    have spec := (tryAt_spec (Q := fun (r : State × Cache) => (Sized r.1 ∧ r.1.config = cfg) ∧ (useCache = false → CWF cfg r.1 (i + 1)) ∧ CacheOk data r.2) hc h
      (by omega) hr hb (cachedMatches_spec lv useCache hs hw hk)).out
    have step : Costs (cachedMatchesW lv useCache st data i cache) (cachedMatches lv useCache st data i cache)
        (fun r n => n + (r.1.2 + 1 - MIN_MATCH_LENGTH) ≤ optimalBound cfg useCache) := by
      refine (cachedMatches_costs ..).mono ?_
      intro r n hr hn
      obtain ⟨r', e, hsub, _⟩ := (cachedMatches_spec lv useCache hs hw hk).out
      rw [hr] at e; cases e
      rw [hs.2] at hn
      have := hsub.max
      unfold MIN_MATCH_LENGTH
      omega
    refine .bind (tryAt_costs (B := fun _ n => n ≤ optimalBound cfg useCache) cm data i base dp step) ?_
    rintro ⟨dp1, st1, cache1⟩ a hx ha
    obtain ⟨⟨dp2, st2, cache2⟩, e, h1, hr1, hs1, hw1, hk1⟩ := spec
    rw [hx] at e; cases e
    refine .last (f := fun b => a + b) (ih (i + 1) (by omega) st1 hs1 hw1 cache1 hk1 dp1 h1 hr1) ?_
    intro _ b _ hb
    rw [Nat.mul_add, Nat.mul_one]
    omega

theorem compressOptimalCached_costs (lv : Simd.Level) {st : State} (hs : Sized st) {cm : CostModel} (hc : CostOk cm)
    {data : List UInt8} {cache : Cache} (hk : CacheOk data cache) :
    Costs (compressOptimalCachedW lv st cm data cache) (compressOptimalCached lv st cm data cache)
      (fun _ n => n ≤ optimalBound st.config cache.populated * data.length) := by
  unfold compressOptimalCachedW compressOptimalCached
  split
  · exact .ok (Nat.zero_le _)
  · dsimp only
    have hs' : Sized (if cache.populated then st else st.resetChains) ∧
        (if cache.populated then st else st.resetChains).config = st.config := by
      split
      · exact ⟨hs, rfl⟩
      · exact ⟨(cwf_resetChains hs).sized, rfl⟩
    have hw' : cache.populated = false → CWF st.config (if cache.populated then st else st.resetChains) 0 := by
      intro h
      rw [if_neg (by rw [h]; decide)]
      exact cwf_resetChains hs
    refine .bind (forwardCached_costs lv cache.populated hc data.length 0 (by omega) _ hs' hw' cache hk _ (dpOk_new data) (reached_new _)) ?_
    rintro ⟨dp, st1, cache1⟩ n _ hn
    refine .plain fun ts _ => .pure hn

/-! ### C108 -/

/-- How many earlier positions are looked at and tables are updated for each byte, at most. -/
def perByte : Nat → Nat
  | 0 => 6
  | 1 => 6
  | 2 => 8
  | 3 => 14
  | 4 => 18
  | 5 => 36
  | 6 => 74
  | 7 => 204
  | 8 => 604
  | _ => 1204

theorem new_config (level : Nat) : (State.new level).config = configForLevel (min (max level 1) 9) := rfl

theorem byteBound_new (level : Nat) : byteBound (State.new level).config = perByte level := by
  rw [new_config]
  by_cases h : level < 10
  · have : ∀ l : Fin 10, byteBound (configForLevel (min (max l.1 1) 9)) = perByte l.1 := by decide
    exact this ⟨level, h⟩
  · rw [show min (max level 1) 9 = 9 by omega]
    unfold perByte
    split
    all_goals first | omega | rfl

theorem maxDepth_new (level : Nat) : (State.new level).config.maxDepth ≤ 600 := by
  rw [new_config]
  have : ∀ l : Fin 10, (configForLevel l.1).maxDepth ≤ 600 := by decide
  exact this ⟨min (max level 1) 9, by omega⟩

/-- **C108**: `compress` looks at no more than a fixed number of earlier positions for each byte of the data, whatever the data and whatever the
compressor did before. -/
theorem C108_compress {level : Nat} {st : State} (h : History level st) (lv : Simd.Level) (data : List UInt8) :
    ∃ ts st' n, Lz77.compress lv st data = .ok (ts, st') ∧ compressW lv st data = .ok ((ts, st'), n) ∧ n ≤ perByte level * data.length := by
  obtain ⟨⟨ts, st'⟩, e, _⟩ := (compress_spec lv h.ok.1 data).out
  rcases compress_costs lv h.ok.1 data with ⟨x, _, hx⟩ | ⟨a, n, hw, hx, hn⟩
  · rw [e] at hx; cases hx
  · rw [e] at hx; cases hx
    rw [h.ok.2, byteBound_new] at hn
    exact ⟨ts, st', n, e, hw, hn⟩

/-- **C108**, optimal parsing: the rounds over lengths, at most 256 for each byte, are added, and everything else is left out if the cache holds
the matches. -/
theorem C108_optimal {level : Nat} {st : State} (h : History level st) (lv : Simd.Level) {cm : CostModel} (hc : MadeCostModel cm)
    {data : List UInt8} {c : Cache} (hk : MadeCache data c) :
    ∃ ts st' c' n, compressOptimalCached lv st cm data c = .ok (ts, (st', c')) ∧
      compressOptimalCachedW lv st cm data c = .ok ((ts, (st', c')), n) ∧
      n ≤ 154714 * data.length ∧ (c.populated = true → n ≤ 256 * data.length) := by
  obtain ⟨⟨ts, st', c'⟩, e, _⟩ := (compressOptimalCached_spec lv h.ok.1 hc.ok hk.ok).out
  rcases compressOptimalCached_costs lv h.ok.1 hc.ok hk.ok with ⟨x, _, hx⟩ | ⟨a, n, hw, hx, hn⟩
  · rw [e] at hx; cases hx
  · rw [e] at hx; cases hx
    refine ⟨ts, st', c', n, e, hw, Nat.le_trans hn (Nat.mul_le_mul_right _ ?_), fun hp => ?_⟩
    · have := maxDepth_new level
      rw [← h.ok.2] at this
      unfold optimalBound
      split <;> omega
    · rw [hp] at hn
      exact hn

/-- Lazy matching in a text: 18 steps for ten bytes, where the bound is 740. -/
example : (compressW .scalar (State.new 6) [97, 98, 99, 97, 98, 99, 97, 98, 99, 100]).map Prod.snd = .ok 18 := by decide +kernel

/-- Optimal parsing of a text in which eight bytes are repeated. -/
example : (compressOptimalCachedW .scalar (State.new 9) CostModel.fixed
    [97, 98, 99, 100, 101, 102, 103, 104, 46, 58, 97, 98, 99, 100, 101, 102, 103, 104] (Cache.new 18)).map Prod.snd = .ok 80 := by decide +kernel

end Pixo.Props
