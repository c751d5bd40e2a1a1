import Verif.Model.InflateWork
import Verif.Proof.InflateTotal
/-
The counted functions give what the functions of Model/Inflate give; and how many steps they take.
-/
namespace Pixo.Inflate
open Pixo Spec

/-! ### The same results -/

theorem bind_res {α β : Type} (x : Counted α) (f : α → Counted β) : (x >>= f).res = x.res >>= fun a => (f a).res := by
  obtain ⟨x, n⟩ := x
  cases x <;> rfl

theorem bind_same {α β : Type} {x : Counted α} {f : α → Counted β} {y : R α} {g : α → R β} (h : x.res = y)
    (hf : ∀ a, (f a).res = g a) : (x >>= f).res = y >>= g := by
  rw [bind_res, h]
  congr 1
  funext a
  exact hf a

theorem free_same {α β : Type} {x : R α} {f : α → Counted β} {g : α → R β} (hf : ∀ a, (f a).res = g a) :
    (free x >>= f).res = x >>= g := bind_same (show (free x).res = x from rfl) hf

theorem tick_same {β : Type} (n : Nat) (f : Unit → Counted β) : (tick n >>= f).res = (f ()).res := rfl

theorem codeForLoopC_same (ls : List Nat) (sym : Nat) (next : Nat → Nat) (symbol : Nat) :
    (codeForLoopC ls sym next symbol).1 = codeForLoop ls sym next symbol := by
  induction ls generalizing sym next with
  | nil => rfl
  | cons l ls ih =>
    unfold codeForLoopC codeForLoop
    split
    · split
      · rfl
      · exact ih _ _
    · exact ih _ _

theorem codeForSymbolC_same (t : HuffmanTable) (s : Nat) : (t.codeForSymbolC s).1 = t.codeForSymbol s := by
  unfold HuffmanTable.codeForSymbolC HuffmanTable.codeForSymbol
  split
  · rfl
  · exact codeForLoopC_same _ _ _ _

theorem findLoopC_same (t : HuffmanTable) (len code : Nat) (ss : List Nat) :
    (t.findLoopC len code ss).1 = ss.find? (fun s => t.lengths.getD s 0 == len && code == t.codeForSymbol s) := by
  induction ss with
  | nil => rfl
  | cons s ss ih =>
    unfold HuffmanTable.findLoopC
    rw [List.find?_cons]
    by_cases h : (t.lengths.getD s 0 == len) = true
    · rw [if_pos h, h, Bool.true_and]
      dsimp only
      rw [codeForSymbolC_same]
      by_cases hc : (code == t.codeForSymbol s) = true
      · rw [if_pos hc, hc]
      · rw [if_neg hc]
        rw [Bool.not_eq_true] at hc
        rw [hc]
        exact ih
    · rw [if_neg h]
      rw [Bool.not_eq_true] at h
      rw [h, Bool.false_and]
      exact ih

theorem decodeSlowLoopC_same (t : HuffmanTable) (rounds len code : Nat) (r : BitReader) :
    (t.decodeSlowLoopC rounds len code r).res = t.decodeSlowLoop rounds len code r := by
  induction rounds generalizing len code r with
  | zero => rfl
  | succ n ih =>
    unfold HuffmanTable.decodeSlowLoopC HuffmanTable.decodeSlowLoop
    refine free_same ?_
    rintro ⟨bit, r1⟩
    dsimp only
    rw [tick_same, findLoopC_same]
    unfold HuffmanTable.findSymbol
    split
    · rename_i h; rw [h]; rfl
    · rename_i h; rw [h]; exact ih _ _ _

theorem decodeC_same (t : HuffmanTable) (r : BitReader) : (t.decodeC r).res = t.decode r := by
  have slow : ∀ r, (t.decodeSlowC r).res = t.decodeSlow r := fun r => decodeSlowLoopC_same _ _ _ _ _
  unfold HuffmanTable.decodeC HuffmanTable.decode
  rw [tick_same]
  split
  · rfl
  rcases r.tryPeekBits lookupBits with ⟨peek, available, r1⟩
  dsimp only
  generalize t.lookup[peek]? = entry
  split
  · cases entry with
    | none => rfl
    | some entry =>
      dsimp only
      split
      · exact free_same fun _ => rfl
      · exact slow _
  · split
    · cases entry with
      | none => rfl
      | some entry =>
        dsimp only
        split
        · exact free_same fun _ => rfl
        · exact slow _
    · exact slow _

theorem buildLookupC_same (symbol : Nat) (lens codes lookup : List Nat) :
    (buildLookupC symbol lens codes lookup).res = buildLookup symbol lens codes lookup := by
  induction lens generalizing symbol codes lookup with
  | nil => cases codes <;> rfl
  | cons len lens ih =>
    cases codes with
    | nil => rfl
    | cons code codes =>
      unfold buildLookupC buildLookup
      rw [tick_same]
      split
      · exact ih _ _ _
      · rw [tick_same, tick_same]
        exact free_same fun _ => ih _ _ _

theorem fromLengthsC_same (lens : List Nat) : (HuffmanTable.fromLengthsC lens).res = HuffmanTable.fromLengths lens := by
  unfold HuffmanTable.fromLengthsC HuffmanTable.fromLengths
  rw [tick_same]
  dsimp only
  split
  · rfl
  · rw [tick_same]
    split
    · rfl
    · rw [tick_same]
      exact bind_same (buildLookupC_same _ _ _ _) fun _ => rfl

theorem inflateStoredC_same (r : BitReader) (out : List UInt8) : (inflateStoredC r out).res = inflateStored r out := by
  unfold inflateStoredC inflateStored
  refine free_same ?_
  rintro ⟨len, r1⟩
  refine free_same ?_
  rintro ⟨nlen, r2⟩
  dsimp only
  split
  · rfl
  · rw [tick_same]
    exact free_same fun _ => rfl

theorem inflateMatchC_same (r : BitReader) (out : List UInt8) (symbol : Nat) (dist : HuffmanTable) :
    (inflateMatchC r out symbol dist).res = inflateMatch r out symbol dist := by
  unfold inflateMatchC inflateMatch
  refine free_same fun lb => free_same fun lx => free_same ?_
  rintro ⟨e, r1⟩
  refine bind_same (decodeC_same _ _) ?_
  rintro ⟨d, r2⟩
  dsimp only
  split
  · rfl
  · refine free_same fun db => free_same fun dx => free_same ?_
    rintro ⟨f, r3⟩
    dsimp only
    split
    · rfl
    · rw [tick_same]
      exact free_same fun _ => rfl

theorem inflateBlockC_same (fuel : Nat) (r : BitReader) (out : List UInt8) (lit dist : HuffmanTable) :
    (inflateBlockC fuel r out lit dist).res = inflateBlock fuel r out lit dist := by
  induction fuel generalizing r out with
  | zero => rfl
  | succ fuel ih =>
    unfold inflateBlockC inflateBlock
    refine bind_same (decodeC_same _ _) ?_
    rintro ⟨s, r1⟩
    dsimp only
    unfold blockStepC
    split
    · exact ih _ _
    · split
      · rfl
      · split
        · refine bind_same (inflateMatchC_same _ _ _ _) ?_
          rintro ⟨o, r2⟩
          exact ih _ _
        · rfl

theorem inflateWithC_same (a b : List Nat) (r : BitReader) (out : List UInt8) : (inflateWithC a b r out).res = (do
    let lit ← HuffmanTable.fromLengths a
    let dist ← HuffmanTable.fromLengths b
    inflateBlock (BitReader.left r + 1) r out lit dist) := by
  unfold inflateWithC
  rw [tick_same]
  refine bind_same (fromLengthsC_same _) fun lit => ?_
  rw [tick_same]
  exact bind_same (fromLengthsC_same _) fun dist => inflateBlockC_same _ _ _ _ _

theorem inflateFixedC_same (r : BitReader) (out : List UInt8) : (inflateFixedC r out).res = inflateFixed r out := by
  unfold inflateFixedC inflateFixed
  exact inflateWithC_same fixedLitLengths fixedDistLengths r out

theorem readClLengthsC_same (order cl : List Nat) (r : BitReader) : (readClLengthsC order cl r).res = readClLengths order cl r := by
  induction order generalizing cl r with
  | nil => rfl
  | cons i order ih =>
    unfold readClLengthsC readClLengths
    rw [tick_same]
    refine free_same ?_
    rintro ⟨v, r1⟩
    dsimp only
    split
    · exact ih _ _
    · rfl

theorem repeatLoopC_same (total v n : Nat) (ls : List Nat) : (repeatLoopC total v n ls).res = repeatLoop total v n ls := by
  induction n generalizing ls with
  | zero => rfl
  | succ n ih =>
    unfold repeatLoopC repeatLoop
    rw [tick_same]
    split
    · rfl
    · exact ih _

theorem readLengthsC_same (cl : HuffmanTable) (total fuel : Nat) (ls : List Nat) (r : BitReader) :
    (readLengthsC cl total fuel ls r).res = readLengths cl total fuel ls r := by
  induction fuel generalizing ls r with
  | zero => rfl
  | succ fuel ih =>
    unfold readLengthsC readLengths
    split
    · refine bind_same (decodeC_same _ _) ?_
      rintro ⟨s, r1⟩
      dsimp only
      split
      · exact ih _ _
      · split
        · cases ls.getLast? with
          | none => rfl
          | some prev =>
            refine free_same ?_
            rintro ⟨n, r2⟩
            exact bind_same (repeatLoopC_same _ _ _ _) fun _ => ih _ _
        · split
          · refine free_same ?_
            rintro ⟨n, r2⟩
            exact bind_same (repeatLoopC_same _ _ _ _) fun _ => ih _ _
          · split
            · refine free_same ?_
              rintro ⟨n, r2⟩
              exact bind_same (repeatLoopC_same _ _ _ _) fun _ => ih _ _
            · rfl
    · rfl

theorem inflateDynamicC_same (r : BitReader) (out : List UInt8) : (inflateDynamicC r out).res = inflateDynamic r out := by
  unfold inflateDynamicC inflateDynamic
  refine free_same ?_
  rintro ⟨hlit, r1⟩
  refine free_same ?_
  rintro ⟨hdist, r2⟩
  refine free_same ?_
  rintro ⟨hclen, r3⟩
  refine bind_same (readClLengthsC_same _ _ _) ?_
  rintro ⟨cl, r4⟩
  refine bind_same (fromLengthsC_same _) fun tc => ?_
  rw [tick_same]
  refine bind_same (readLengthsC_same _ _ _ _ _) ?_
  rintro ⟨ls, r5⟩
  exact bind_same (fromLengthsC_same _) fun tl => bind_same (fromLengthsC_same _) fun td => inflateBlockC_same _ _ _ _ _

theorem inflateOneC_same (btype : Nat) (r : BitReader) (out : List UInt8) : (inflateOneC btype r out).res = inflateOne btype r out := by
  unfold inflateOneC inflateOne
  split
  · exact inflateStoredC_same _ _
  · split
    · exact inflateFixedC_same _ _
    · split
      · exact inflateDynamicC_same _ _
      · rfl

theorem inflateLoopC_same (fuel : Nat) (r : BitReader) (out : List UInt8) : (inflateLoopC fuel r out).res = inflateLoop fuel r out := by
  induction fuel generalizing r out with
  | zero => rfl
  | succ fuel ih =>
    unfold inflateLoopC inflateLoop
    rw [tick_same]
    refine free_same ?_
    rintro ⟨bf, r1⟩
    refine free_same ?_
    rintro ⟨bt, r2⟩
    refine bind_same (inflateOneC_same _ _ _) ?_
    rintro ⟨o, r3⟩
    dsimp only
    split
    · rfl
    · exact ih _ _

theorem inflateC_same (data : List UInt8) : (inflateC data).res = inflate data := inflateLoopC_same _ _ _

/-! ### Upper bounds -/

/-- The steps an unfinished symbol may take beyond those paid for by the bits read. -/
def slack : Nat := 175000

/-- `x` takes no more than `budget` steps, with `rest` left over when it gives a value; an error may cost `slack` more. -/
def Pays {α : Type} (x : Counted α) (budget : Nat) (P : α → Nat → Prop) : Prop :=
  match x.res with
  | .ok a => ∃ rest, x.steps + rest ≤ budget ∧ P a rest
  | .error _ => x.steps ≤ budget + slack

theorem Pays.bind {α β : Type} {x : Counted α} {f : α → Counted β} {b : Nat} {P : α → Nat → Prop} {Q : β → Nat → Prop}
    (h : Pays x b P) (hf : ∀ a rest, P a rest → Pays (f a) rest Q) : Pays (x >>= f) b Q := by
  obtain ⟨x, n⟩ := x
  cases x with
  | error e => exact h
  | ok a =>
    obtain ⟨rest, h1, h2⟩ := h
    have h3 := hf a rest h2
    show Pays ⟨(f a).res, n + (f a).steps⟩ b Q
    unfold Pays at h3 ⊢
    simp only at h1 ⊢
    split at h3
    · rename_i c hc
      obtain ⟨rest', h4, h5⟩ := h3
      exact ⟨rest', by omega, h5⟩
    · omega

theorem Pays.tick {β : Type} {n b : Nat} {f : Unit → Counted β} {Q : β → Nat → Prop} (hn : n ≤ b) (h : Pays (f ()) (b - n) Q) :
    Pays (tick n >>= f) b Q :=
  Pays.bind (P := fun _ rest => rest = b - n) ⟨b - n, by simp only [Inflate.tick]; omega, rfl⟩ (by
    intro a rest hr
    rw [hr]
    exact h)

theorem Pays.free {α : Type} {x : R α} {P : α → Prop} (h : Safe x P) (b : Nat) : Pays (free x) b (fun a rest => P a ∧ rest = b) := by
  cases x with
  | ok a => exact ⟨b, by simp only [Inflate.free]; omega, h.of_ok rfl, rfl⟩
  | error e => exact Nat.zero_le _

theorem Pays.error {α β : Type} {e : Err} {f : α → Counted β} {b : Nat} {P : β → Nat → Prop} :
    Pays (Inflate.free (.error e) >>= f) b P := Nat.zero_le _

theorem Pays.stop {α : Type} {e : Err} {b : Nat} {P : α → Nat → Prop} : Pays (stop e) b P := Nat.zero_le _

theorem Pays.ok {α : Type} {a : α} {b : Nat} {P : α → Nat → Prop} (h : P a b) : Pays (Pure.pure a) b P := ⟨b, by
  show 0 + b ≤ b
  omega, h⟩

theorem Pays.mono {α : Type} {x : Counted α} {b : Nat} {P Q : α → Nat → Prop} (h : Pays x b P) (hq : ∀ a n, P a n → Q a n) : Pays x b Q := by
  unfold Pays at h ⊢
  split
  · rename_i a e
    rw [e] at h
    obtain ⟨n, h1, h2⟩ := h
    exact ⟨n, h1, hq _ _ h2⟩
  · rename_i e
    rw [e] at h
    exact h

theorem tick_steps {β : Type} (n : Nat) (f : Unit → Counted β) : (Inflate.tick n >>= f).steps = n + (f ()).steps := rfl

theorem free_steps {α β : Type} (a : α) (f : α → Counted β) : (Inflate.free (.ok a) >>= f).steps = (f a).steps := Nat.zero_add _

/-- From a bound on the number of steps in every case. -/
theorem Pays.of {α : Type} {x : Counted α} {b n : Nat} {P : α → Prop} (h : Safe x.res P) (hn : x.steps ≤ n) (hs : n ≤ b + slack)
    (hb : ∀ a, P a → n ≤ b) : Pays x b (fun a rest => P a ∧ rest = b - n) := by
  unfold Pays
  split
  · rename_i a e
    have ha := h.of_ok e
    have := hb a ha
    exact ⟨b - n, by omega, ha, rfl⟩
  · omega

theorem codeForLoopC_steps (ls : List Nat) (sym : Nat) (next : Nat → Nat) (symbol : Nat) :
    (codeForLoopC ls sym next symbol).2 ≤ ls.length := by
  induction ls generalizing sym next with
  | nil => exact Nat.le_refl _
  | cons l ls ih =>
    unfold codeForLoopC
    split
    · split
      · simp
      · have := ih (sym + 1) (fun k => if k = l then next k + 1 else next k)
        simp only [List.length_cons]
        omega
    · have := ih (sym + 1) next
      simp only [List.length_cons]
      omega

theorem codeForSymbolC_steps (t : HuffmanTable) (s : Nat) : (t.codeForSymbolC s).2 ≤ 2 * t.lengths.length + 15 := by
  unfold HuffmanTable.codeForSymbolC
  split
  · exact Nat.zero_le _
  · have := codeForLoopC_steps t.lengths 0 (nextCode t.lengths) s
    simp only
    omega

theorem findLoopC_steps (t : HuffmanTable) (len code : Nat) (ss : List Nat) :
    (t.findLoopC len code ss).2 ≤ ss.length + ss.countP (fun s => t.lengths.getD s 0 == len) * (2 * t.lengths.length + 15) := by
  induction ss with
  | nil => exact Nat.zero_le _
  | cons s ss ih =>
    unfold HuffmanTable.findLoopC
    rw [List.countP_cons, List.length_cons]
    have hc := codeForSymbolC_steps t s
    generalize 2 * t.lengths.length + 15 = k at *
    generalize List.countP _ ss = m at *
    by_cases h : (t.lengths.getD s 0 == len) = true
    · rw [if_pos h, if_pos h, Nat.add_mul, Nat.one_mul]
      dsimp only
      split
      · dsimp only; omega
      · dsimp only; omega
    · rw [if_neg h, if_neg h]
      rw [Nat.add_zero m]
      dsimp only
      omega

theorem decodeSlowLoopC_steps (t : HuffmanTable) (rounds len code : Nat) (r : BitReader) :
    (t.decodeSlowLoopC rounds len code r).steps ≤ rounds * t.lengths.length +
      (List.range t.lengths.length).countP (fun s => decide (len ≤ t.lengths.getD s 0)) * (2 * t.lengths.length + 15) := by
  induction rounds generalizing len code r with
  | zero => exact Nat.zero_le _
  | succ n ih =>
    unfold HuffmanTable.decodeSlowLoopC
    rcases r.readBits 1 with e | ⟨bit, r1⟩
    · exact Nat.zero_le _
    · have hf := findLoopC_steps t len (code <<< 1 ||| bit) (List.range t.lengths.length)
      have hi := ih (len + 1) (code <<< 1 ||| bit) r1
      have split : (List.range t.lengths.length).countP (fun s => decide (len ≤ t.lengths.getD s 0)) =
          (List.range t.lengths.length).countP (fun s => t.lengths.getD s 0 == len) +
          (List.range t.lengths.length).countP (fun s => decide (len + 1 ≤ t.lengths.getD s 0)) := by
        induction List.range t.lengths.length with
        | nil => rfl
        | cons s ss ihs =>
          rw [List.countP_cons, List.countP_cons, List.countP_cons, ihs]
          generalize t.lengths.getD s 0 = l
          by_cases h1 : l = len
          · rw [if_pos (by simp [h1]), if_pos (by simp [h1]), if_neg (by simp [h1])]; omega
          · by_cases h2 : len ≤ l
            · rw [if_pos (by simp [h2]), if_neg (by simp [h1]), if_pos (by simp; omega)]; omega
            · rw [if_neg (by simp [h2]), if_neg (by simp [h1]), if_neg (by simp; omega)]; omega
      rw [List.length_range] at hf
      rw [split, Nat.add_mul, Nat.add_mul, Nat.one_mul]
      rw [free_steps]
      dsimp only
      rw [tick_steps]
      generalize t.findLoopC len (code <<< 1 ||| bit) (List.range t.lengths.length) = p at *
      obtain ⟨o, c⟩ := p
      dsimp only at hf ⊢
      cases o with
      | some s =>
        show c + 0 ≤ _
        omega
      | none =>
        dsimp only
        omega

/-- Trying to decode a symbol takes no more than this many steps for a table of `n` symbols. -/
def symbolSteps (n : Nat) : Nat := 1 + 15 * n + n * (2 * n + 15)

theorem symbolSteps_mono {m n : Nat} (h : m ≤ n) : symbolSteps m ≤ symbolSteps n := by
  unfold symbolSteps
  have := Nat.mul_le_mul h (show 2 * m + 15 ≤ 2 * n + 15 by omega)
  omega

theorem decodeC_steps {t : HuffmanTable} {lens : List Nat} (ht : TableOf t lens) (r : BitReader) :
    (t.decodeC r).steps ≤ symbolSteps lens.length := by
  have slow : ∀ r, 1 + (t.decodeSlowC r).steps ≤ symbolSteps lens.length := by
    intro r
    have h := decodeSlowLoopC_steps t t.maxLen 1 0 r
    have hc : (List.range t.lengths.length).countP (fun s => decide (1 ≤ t.lengths.getD s 0)) ≤ t.lengths.length := by
      have := List.countP_le_length (p := fun s => decide (1 ≤ t.lengths.getD s 0)) (l := List.range t.lengths.length)
      rwa [List.length_range] at this
    have h1 := Nat.mul_le_mul_right (2 * t.lengths.length + 15) hc
    have h2 := Nat.mul_le_mul_right t.lengths.length ht.max15
    rw [ht.lengths] at *
    unfold HuffmanTable.decodeSlowC symbolSteps
    omega
  have one : 1 ≤ symbolSteps lens.length := by unfold symbolSteps; omega
  have quick : ∀ (x : R BitReader) (v : Nat), 1 + (do let r ← free x; return (v, r) : Counted (Nat × BitReader)).steps ≤ symbolSteps lens.length := by
    intro x v
    cases x with
    | ok a => exact one
    | error e => exact one
  unfold HuffmanTable.decodeC
  show 1 + _ ≤ _
  split
  · exact one
  rcases r.tryPeekBits lookupBits with ⟨peek, available, r1⟩
  dsimp only
  generalize t.lookup[peek]? = entry
  split
  · cases entry with
    | none => exact one
    | some entry =>
      dsimp only
      split
      · exact quick _ _
      · exact slow _
  · split
    · cases entry with
      | none => exact one
      | some entry =>
        dsimp only
        split
        · exact quick _ _
        · exact slow _
    · exact slow _

theorem buildLookupC_steps (symbol : Nat) (lens codes lookup : List Nat) :
    (buildLookupC symbol lens codes lookup).steps ≤ 266 * lens.length := by
  induction lens generalizing symbol codes lookup with
  | nil => cases codes <;> exact Nat.zero_le _
  | cons len lens ih =>
    cases codes with
    | nil => exact Nat.zero_le _
    | cons code codes =>
      unfold buildLookupC
      rw [List.length_cons, tick_steps]
      split
      · have := ih (symbol + 1) codes lookup
        omega
      · rename_i hl
        have h9 : len ≤ 9 := by unfold lookupBits at hl; omega
        have h1 : 1 <<< (lookupBits - len) ≤ 256 := by
          rw [Nat.one_shiftLeft]
          exact Nat.pow_le_pow_right (show 0 < 2 by decide) (show lookupBits - len ≤ 8 by unfold lookupBits; omega)
        show 1 + (len + (1 <<< (lookupBits - len) + _)) ≤ _
        generalize fillEntries _ _ _ _ lookup = x
        cases x with
        | error e =>
          show 1 + (len + (1 <<< (lookupBits - len) + 0)) ≤ _
          omega
        | ok lk =>
          show 1 + (len + (1 <<< (lookupBits - len) + (0 + (buildLookupC (symbol + 1) lens codes lk).steps))) ≤ _
          have := ih (symbol + 1) codes lk
          omega

theorem fromLengthsC_steps (lens : List Nat) : (HuffmanTable.fromLengthsC lens).steps ≤ 271 * lens.length + 527 := by
  unfold HuffmanTable.fromLengthsC
  show lens.length + _ ≤ _
  dsimp only
  split
  · show lens.length + 0 ≤ _
    omega
  · show lens.length + (512 + lens.length + _) ≤ _
    split
    · show lens.length + (512 + lens.length + 0) ≤ _
      omega
    · show lens.length + (512 + lens.length + (3 * lens.length + 15 + _)) ≤ _
      have h := buildLookupC_steps 0 lens (assignCodes lens (nextCode lens)) (List.replicate 512 0)
      generalize buildLookupC 0 lens (assignCodes lens (nextCode lens)) (List.replicate 512 0) = x at *
      obtain ⟨x, n⟩ := x
      dsimp only at h
      cases x with
      | error e =>
        show lens.length + (512 + lens.length + (3 * lens.length + 15 + n)) ≤ _
        omega
      | ok a =>
        show lens.length + (512 + lens.length + (3 * lens.length + 15 + (n + 0))) ≤ _
        omega

attribute [irreducible] Pays

/-- What is paid for each bit of the compressed data. -/
def perBit : Nat := 175000

/-- Decoding a symbol leaves more than 258 steps of those paid for its bits. -/
theorem decodeC_pays {t : HuffmanTable} {lens : List Nat} (ht : TableOf t lens) (hn : lens.length ≤ 288) (r : BitReader) (hr : r.Inv) (e : Nat) :
    Pays (t.decodeC r) (perBit * r.bits.length + e) (fun x rest => (x.1 < lens.length ∧ x.2.Inv ∧ x.2.bits.length < r.bits.length ∧
      x.2.data = r.data) ∧ perBit * x.2.bits.length + 470 + e ≤ rest) := by
  have hs := decodeC_same t r
  have h := decode_safe ht (by omega) r hr
  rw [← hs] at h
  have hn' : symbolSteps lens.length ≤ 174529 := Nat.le_trans (symbolSteps_mono hn) (by decide)
  have hle := decodeC_steps ht r
  have paid : ∀ m, m < r.bits.length → perBit * m + 175000 ≤ perBit * r.bits.length := by
    intro m hm
    have := Nat.mul_le_mul_left perBit (show m + 1 ≤ r.bits.length from hm)
    rw [Nat.mul_add, Nat.mul_one] at this
    exact this
  refine (Pays.of (n := 174529) h (by omega) (by unfold slack; omega) ?_).mono ?_
  · rintro ⟨s, r1⟩ ⟨_, _, h3, _⟩
    have := paid _ h3
    omega
  · rintro ⟨s, r1⟩ rest ⟨h1, h2⟩
    refine ⟨h1, ?_⟩
    have := paid _ h1.2.2.1
    rw [h2]
    simp only at this ⊢
    omega

theorem fromLengthsC_pays (lens : List Nat) (b : Nat) (hb : 271 * lens.length + 527 ≤ b) :
    Pays (HuffmanTable.fromLengthsC lens) b (fun t rest => TableOf t lens ∧ rest = b - (271 * lens.length + 527)) := by
  have h := fromLengths_safe lens
  rw [← fromLengthsC_same] at h
  exact Pays.of h (fromLengthsC_steps lens) (by omega) (fun _ _ => hb)

attribute [irreducible] perBit

theorem perBit_left {m n b : Nat} (h : m + n ≤ b) : perBit * m + perBit * n ≤ perBit * b := by
  rw [← Nat.mul_add]
  exact Nat.mul_le_mul_left _ h

/-- What a block leaves: the readers' bits are paid for. -/
def Left (r : BitReader) (x : List UInt8 × BitReader) (rest : Nat) : Prop :=
  (x.2.Inv ∧ x.2.data = r.data ∧ x.2.bits.length ≤ r.bits.length) ∧ perBit * x.2.bits.length ≤ rest

theorem inflateMatchC_pays {dist : List Nat} {td : HuffmanTable} (hd : TableOf td dist) (hdn : dist.length ≤ 288) (r : BitReader) (hr : r.Inv)
    (out : List UInt8) (s : Nat) (hs : 257 ≤ s ∧ s ≤ 285) (b : Nat) (hb : perBit * r.bits.length ≤ b) :
    Pays (inflateMatchC r out s td) b (Left r) := by
  have hi : s - 257 < 29 := by omega
  unfold inflateMatchC
  generalize s - 257 = i at hi
  obtain ⟨⟨lb, lx⟩, hp⟩ := lengthTable_some hi
  obtain ⟨_, hlb, hlx, hlx5, _, hle⟩ := lengthTable_get hp
  refine Pays.bind (Pays.free (P := fun v => v = lb) (by simp only [getChecked, hlb]; exact Safe.ok rfl) b) ?_
  rintro v _ ⟨rfl, rfl⟩
  refine Pays.bind (Pays.free (P := fun v => v = lx) (by simp only [getChecked, hlx]; exact Safe.ok rfl) _) ?_
  rintro v' _ ⟨rfl, rfl⟩
  refine Pays.bind (Pays.free (readBits_safe r hr v' (by omega)) _) ?_
  rintro ⟨e, r1⟩ rest1 ⟨⟨he, i1, b1, d1⟩, rfl⟩
  simp only at he i1 b1 d1 ⊢
  have hb1 : perBit * r1.bits.length ≤ rest1 := Nat.le_trans (Nat.mul_le_mul_left _ (by omega)) hb
  have hdec := decodeC_pays hd hdn r1 i1 (rest1 - perBit * r1.bits.length)
  rw [Nat.add_sub_cancel' hb1] at hdec
  refine Pays.bind hdec ?_
  rintro ⟨j, r2⟩ rest2 ⟨⟨_, i2, b2, d2⟩, p2⟩
  simp only at i2 b2 d2 p2 ⊢
  split
  · exact Pays.stop
  · rename_i hj
    obtain ⟨⟨db, dx⟩, hq⟩ := distTable_some (i := j) (by omega)
    obtain ⟨_, hdb, hdx, hdx13, hdb1⟩ := distTable_get hq
    refine Pays.bind (Pays.free (P := fun v => v = db) (by simp only [getChecked, hdb]; exact Safe.ok rfl) _) ?_
    rintro v2 _ ⟨rfl, rfl⟩
    refine Pays.bind (Pays.free (P := fun v => v = dx) (by simp only [getChecked, hdx]; exact Safe.ok rfl) _) ?_
    rintro v3 _ ⟨rfl, rfl⟩
    refine Pays.bind (Pays.free (readBits_safe r2 i2 v3 (by omega)) _) ?_
    rintro ⟨f, r3⟩ rest3 ⟨⟨hf, i3, b3, d3⟩, rfl⟩
    simp only at hf i3 b3 d3 ⊢
    split
    · exact Pays.stop
    · rename_i hle'
      obtain ⟨o, c1, c2, c3⟩ := copyLoop_start (v2 + f) (by omega) (v + e) out (by omega)
      have hm := Nat.mul_le_mul_left perBit (show r3.bits.length ≤ r2.bits.length by omega)
      refine Pays.tick (by omega) ?_
      rw [c1]
      refine Pays.bind (Pays.free (P := fun _ => True) (Safe.ok trivial) _) ?_
      rintro o' _ ⟨_, rfl⟩
      exact Pays.ok ⟨⟨i3, by rw [d3, d2, d1], by simp only; omega⟩, by simp only; omega⟩

theorem inflateBlockC_pays {lit dist : List Nat} {tl td : HuffmanTable} (hl : TableOf tl lit) (hd : TableOf td dist)
    (hln : lit.length ≤ 288) (hdn : dist.length ≤ 288) (fuel : Nat) (r : BitReader) (hr : r.Inv) (out : List UInt8) (b : Nat)
    (hb : perBit * r.bits.length ≤ b) : Pays (inflateBlockC fuel r out tl td) b (Left r) := by
  induction fuel generalizing r out b with
  | zero => exact Pays.stop
  | succ fuel ih =>
    unfold inflateBlockC
    have hdec := decodeC_pays hl hln r hr (b - perBit * r.bits.length)
    rw [Nat.add_sub_cancel' hb] at hdec
    refine Pays.bind hdec ?_
    rintro ⟨s, r1⟩ rest1 ⟨⟨_, i1, b1, d1⟩, p1⟩
    simp only at i1 b1 d1 p1 ⊢
    unfold blockStepC
    split
    · refine (ih r1 i1 (out ++ [UInt8.ofNat s]) rest1 (by omega)).mono ?_
      rintro x n ⟨⟨x1, x2, x3⟩, x4⟩
      exact ⟨⟨x1, by rw [x2, d1], by omega⟩, x4⟩
    · split
      · exact Pays.ok ⟨⟨i1, d1, by simp only; omega⟩, by simp only; omega⟩
      · split
        · rename_i h1 h2 h3
          refine Pays.bind (inflateMatchC_pays hd hdn r1 i1 out s (by omega) rest1 (by omega)) ?_
          rintro ⟨o, r2⟩ rest2 ⟨⟨i2, d2, b2⟩, p2⟩
          simp only at i2 d2 b2 p2 ⊢
          refine (ih r2 i2 o rest2 p2).mono ?_
          rintro x n ⟨⟨x1, x2, x3⟩, x4⟩
          exact ⟨⟨x1, by rw [x2, d2, d1], by omega⟩, x4⟩
        · exact Pays.stop

theorem inflateStoredC_pays (r : BitReader) (hr : r.Inv) (out : List UInt8) (b : Nat) (hb : perBit * r.bits.length ≤ b) :
    Pays (inflateStoredC r out) b (Left r) := by
  unfold inflateStoredC
  obtain ⟨i0, b0, d0, a0⟩ := r.align_spec hr
  have hb0 : r.alignToByte.bits.length ≤ r.bits.length := by
    rw [b0, List.length_drop]; omega
  refine Pays.bind (Pays.free (readBits_safe _ i0 16 (by decide)) b) ?_
  rintro ⟨len, r1⟩ rest1 ⟨⟨v1, i1, b1, d1⟩, rfl⟩
  simp only at v1 i1 b1 d1 ⊢
  refine Pays.bind (Pays.free (readBits_safe _ i1 16 (by decide)) _) ?_
  rintro ⟨nlen, r2⟩ rest2 ⟨⟨_, i2, b2, d2⟩, rfl⟩
  simp only at i2 b2 d2 ⊢
  split
  · exact Pays.stop
  · have halign : r2.bitsInBuf % 8 = 0 := by
      have hc := r2.consumed_eq i2
      have hc2 := i2.cons
      unfold BitReader.consumed at hc
      have hc' := r.alignToByte.consumed_eq i0
      have hc2' := i0.cons
      unfold BitReader.consumed at hc'
      rw [d2, d1] at hc
      omega
    -- the four bytes just read pay for `resize`
    have hp := perBit_left (m := r2.bits.length) (n := 32) (b := r.bits.length) (by omega)
    have hk : perBit * 32 = 5600000 := by unfold perBit; rfl
    refine Pays.tick (by omega) ?_
    by_cases hl : 8 * len ≤ r2.bits.length
    · obtain ⟨bs, r3, e3, l3, b3, i3, d3⟩ := r2.readBytes_ok i2 halign len hl
      have hl3 := congrArg List.length b3
      rw [List.length_append, bytesLSB_length, l3] at hl3
      have hm := Nat.mul_le_mul_left perBit (show r3.bits.length ≤ r2.bits.length by omega)
      rw [e3]
      refine Pays.bind (Pays.free (P := fun x => x = (bs, r3)) (Safe.ok rfl) _) ?_
      rintro _ _ ⟨rfl, rfl⟩
      simp only
      refine Pays.tick (by omega) ?_
      exact Pays.ok ⟨⟨i3, by rw [d3, d2, d1, d0], by simp only; omega⟩, by simp only; omega⟩
    · rw [r2.readBytes_err i2 halign len (by omega)]
      exact Pays.error

theorem readClLengthsC_pays (order : List Nat) (ho : ∀ s ∈ order, s < 19) (acc : List Nat) (hacc : acc.length = 19) (r : BitReader)
    (hr : r.Inv) (b : Nat) (hb : order.length ≤ b) :
    Pays (readClLengthsC order acc r) b (fun x rest => (x.1.length = 19 ∧ x.2.Inv ∧ x.2.data = r.data ∧ x.2.bits.length ≤ r.bits.length) ∧
      rest = b - order.length) := by
  induction order generalizing acc r b with
  | nil => exact Pays.ok ⟨⟨hacc, hr, rfl, Nat.le_refl _⟩, rfl⟩
  | cons s order ih =>
    unfold readClLengthsC
    rw [List.length_cons] at hb
    refine Pays.tick (by omega) ?_
    refine Pays.bind (Pays.free (readBits_safe r hr 3 (by decide)) _) ?_
    rintro ⟨v, r1⟩ rest1 ⟨⟨_, i1, b1, d1⟩, rfl⟩
    simp only at i1 b1 d1 ⊢
    rw [if_pos (by have := ho s (by simp); omega)]
    refine (ih (fun s hs => ho s (by simp [hs])) (acc.set s v) (by simpa using hacc) r1 i1 (b - 1) (by omega)).mono ?_
    rintro x n ⟨⟨x1, x2, x3, x4⟩, x5⟩
    refine ⟨⟨x1, x2, by rw [x3, d1], by omega⟩, ?_⟩
    rw [List.length_cons]
    omega

theorem repeatLoopC_steps (total v n : Nat) (ls : List Nat) : (repeatLoopC total v n ls).steps ≤ n := by
  induction n generalizing ls with
  | zero => exact Nat.le_refl _
  | succ n ih =>
    unfold repeatLoopC
    rw [tick_steps]
    split
    · show 1 + 0 ≤ _
      omega
    · have := ih (ls ++ [v])
      omega

theorem repeatLoopC_pays (total v n : Nat) (ls : List Nat) (h : ls.length ≤ total) (h15 : ∀ l ∈ ls, l ≤ 15) (hv : v ≤ 15) (b : Nat)
    (hb : n ≤ b) : Pays (repeatLoopC total v n ls) b (fun x rest => (x.length = ls.length + n ∧ x.length ≤ total ∧ ∀ l ∈ x, l ≤ 15) ∧
      rest = b - n) := by
  have hs := repeatLoop_safe total v n ls h h15 hv
  rw [← repeatLoopC_same] at hs
  exact Pays.of hs (repeatLoopC_steps _ _ _ _) (by omega) (fun _ _ => hb)

theorem readLengthsC_pays {cl : List Nat} {t : HuffmanTable} (ht : TableOf t cl) (hn : cl.length ≤ 288) (total fuel : Nat) (ls : List Nat)
    (r : BitReader) (hr : r.Inv) (hl : ls.length ≤ total) (h15 : ∀ l ∈ ls, l ≤ 15) (e : Nat) :
    Pays (readLengthsC t total fuel ls r) (perBit * r.bits.length + e) (fun x rest => (x.1.length = total ∧
      x.2.Inv ∧ x.2.data = r.data ∧ x.2.bits.length ≤ r.bits.length) ∧ perBit * x.2.bits.length + e ≤ rest) := by
  induction fuel generalizing ls r e with
  | zero => exact Pays.stop
  | succ fuel ih =>
    unfold readLengthsC
    split
    · refine Pays.bind (decodeC_pays ht hn r hr e) ?_
      rintro ⟨s, r1⟩ rest1 ⟨⟨_, i1, b1, d1⟩, p1⟩
      simp only at i1 b1 d1 p1 ⊢
      have next : ∀ (ls' : List Nat) (r2 : BitReader) (rest2 : Nat), r2.Inv → r2.data = r1.data → r2.bits.length ≤ r1.bits.length →
          ls'.length ≤ total → (∀ l ∈ ls', l ≤ 15) → perBit * r2.bits.length + e ≤ rest2 →
          Pays (readLengthsC t total fuel ls' r2) rest2 (fun x rest => (x.1.length = total ∧
            x.2.Inv ∧ x.2.data = r.data ∧ x.2.bits.length ≤ r.bits.length) ∧ perBit * x.2.bits.length + e ≤ rest) := by
        intro ls' r2 rest2 i2 d2 b2 l2 h2 p2
        have h := ih ls' r2 i2 l2 h2 (rest2 - perBit * r2.bits.length)
        rw [Nat.add_sub_cancel' (by omega)] at h
        refine h.mono ?_
        rintro x n ⟨⟨x1, x2, x3, x4⟩, x5⟩
        exact ⟨⟨x1, x2, by rw [x3, d2, d1], by omega⟩, by omega⟩
      have rep : ∀ (v w base : Nat), v ≤ 15 → w ≤ 7 → base ≤ 11 →
          Pays (do
            let (n, r) ← free (r1.readBits w)
            let ls ← repeatLoopC total v (n + base) ls
            readLengthsC t total fuel ls r) rest1 (fun x rest => (x.1.length = total ∧
              x.2.Inv ∧ x.2.data = r.data ∧ x.2.bits.length ≤ r.bits.length) ∧ perBit * x.2.bits.length + e ≤ rest) := by
        intro v w base hv hw hbase
        refine Pays.bind (Pays.free (readBits_safe r1 i1 w (by omega)) _) ?_
        rintro ⟨n, r2⟩ rest2 ⟨⟨hn, i2, b2, d2⟩, rfl⟩
        simp only at hn i2 b2 d2 ⊢
        have hn' : n < 2 ^ 7 := Nat.lt_of_lt_of_le hn (Nat.pow_le_pow_right (by decide) hw)
        have hm := Nat.mul_le_mul_left perBit (show r2.bits.length ≤ r1.bits.length by omega)
        refine Pays.bind (repeatLoopC_pays total v (n + base) ls hl h15 hv _ (by omega)) ?_
        rintro ls' rest3 ⟨⟨_, l2, l3⟩, rfl⟩
        exact next ls' r2 _ i2 d2 (by omega) l2 l3 (by omega)
      split
      · rename_i h
        refine next (ls ++ [s]) r1 rest1 i1 rfl (Nat.le_refl _) (by simp; omega) ?_ (by omega)
        intro l hl
        rcases List.mem_append.mp hl with hl | hl
        · exact h15 l hl
        · simp at hl; omega
      · split
        · split
          · exact Pays.stop
          · rename_i prev hprev
            exact rep prev 2 3 (h15 prev (List.mem_of_getLast? hprev)) (by decide) (by decide)
        · split
          · exact rep 0 3 3 (by decide) (by decide) (by decide)
          · split
            · exact rep 0 7 11 (by decide) (by decide) (by decide)
            · exact Pays.stop
    · exact Pays.ok ⟨⟨by simp only; omega, hr, rfl, Nat.le_refl _⟩, Nat.le_refl _⟩

theorem inflateWithC_pays (la ld : List Nat) (h1 : la.length = 288) (h2 : ld.length = 32) (r : BitReader) (hr : r.Inv) (out : List UInt8)
    (b : Nat) (hb : perBit * r.bits.length + 500000 ≤ b) : Pays (inflateWithC la ld r out) b (Left r) := by
  unfold inflateWithC
  refine Pays.tick (by omega) ?_
  refine Pays.bind (fromLengthsC_pays _ _ (by omega)) ?_
  intro tl rest1 p1
  obtain ⟨hl, p1⟩ := p1
  refine Pays.tick (by omega) ?_
  refine Pays.bind (fromLengthsC_pays _ _ (by omega)) ?_
  intro td rest2 p2
  obtain ⟨hd, p2⟩ := p2
  exact inflateBlockC_pays hl hd (by omega) (by omega) _ r hr out _ (by omega)

theorem inflateFixedC_pays (r : BitReader) (hr : r.Inv) (out : List UInt8) (b : Nat) (hb : perBit * r.bits.length + 500000 ≤ b) :
    Pays (inflateFixedC r out) b (Left r) := by
  unfold inflateFixedC
  exact inflateWithC_pays _ _ (by rw [fixedLitLengths_eq, fixedLit_length]) (by rw [fixedDistLengths_eq, fixedDist_length]) r hr out b hb

theorem inflateDynamicC_pays (r : BitReader) (hr : r.Inv) (out : List UInt8) (b : Nat) (hb : perBit * r.bits.length + 500000 ≤ b) :
    Pays (inflateDynamicC r out) b (Left r) := by
  unfold inflateDynamicC
  refine Pays.bind (Pays.free (readBits_safe r hr 5 (by decide)) b) ?_
  rintro ⟨hlit, r1⟩ _ ⟨⟨v1, i1, b1, d1⟩, rfl⟩
  refine Pays.bind (Pays.free (readBits_safe r1 i1 5 (by decide)) _) ?_
  rintro ⟨hdist, r2⟩ _ ⟨⟨v2, i2, b2, d2⟩, rfl⟩
  refine Pays.bind (Pays.free (readBits_safe r2 i2 4 (by decide)) _) ?_
  rintro ⟨hclen, r3⟩ b' ⟨⟨v3, i3, b3, d3⟩, rfl⟩
  simp only at v1 v2 v3 i1 b1 d1 i2 b2 d2 i3 b3 d3 ⊢
  have hall : ∀ s ∈ codeLengthOrder, s < 19 := by decide
  have ho : (codeLengthOrder.take (hclen + 4)).length ≤ 19 := by
    rw [List.length_take]
    exact Nat.min_le_right _ _
  refine Pays.bind (readClLengthsC_pays (codeLengthOrder.take (hclen + 4))
    (fun s hs => hall s (List.mem_of_mem_take hs)) (List.replicate 19 0) List.length_replicate r3 i3 _ (by omega)) ?_
  rintro ⟨cl, r4⟩ rest4 ⟨⟨l4, i4, d4, b4⟩, p4⟩
  simp only at l4 i4 d4 b4 p4 ⊢
  refine Pays.bind (fromLengthsC_pays cl _ (by omega)) ?_
  rintro tc rest5 ⟨hc, p5⟩
  refine Pays.tick (by omega) ?_
  have hm4 := Nat.mul_le_mul_left perBit (show r4.bits.length ≤ r.bits.length by omega)
  have hrl := readLengthsC_pays hc (by omega) (hlit + 257 + (hdist + 1)) (hlit + 257 + (hdist + 1) + 1) [] r4 i4 (by simp) (by simp)
    (rest5 - (hlit + 257 + (hdist + 1)) - perBit * r4.bits.length)
  rw [Nat.add_sub_cancel' (by omega)] at hrl
  refine Pays.bind hrl ?_
  rintro ⟨ls, r5⟩ rest6 ⟨⟨l5, i5, d5, b5⟩, p6⟩
  simp only at l5 i5 d5 b5 p6 ⊢
  have ht : (ls.take (hlit + 257)).length ≤ 288 := by rw [List.length_take]; omega
  have hdl : (ls.drop (hlit + 257)).length ≤ 32 := by rw [List.length_drop]; omega
  refine Pays.bind (fromLengthsC_pays _ _ (by omega)) ?_
  rintro tl rest7 ⟨hl, p7⟩
  refine Pays.bind (fromLengthsC_pays _ _ (by omega)) ?_
  rintro td rest8 ⟨hd, p8⟩
  refine (inflateBlockC_pays hl hd ht (by omega) _ r5 i5 out _ (by omega)).mono ?_
  rintro x n ⟨⟨x1, x2, x3⟩, x4⟩
  exact ⟨⟨x1, by rw [x2, d5, d4, d3, d2, d1], by omega⟩, x4⟩

theorem inflateLoopC_pays (fuel : Nat) (r : BitReader) (hr : r.Inv) (out : List UInt8) (b : Nat) (hb : perBit * r.bits.length ≤ b) :
    Pays (inflateLoopC fuel r out) b (fun _ _ => True) := by
  induction fuel generalizing r out b with
  | zero => exact Pays.stop
  | succ fuel ih =>
    unfold inflateLoopC
    by_cases h3 : 3 ≤ r.bits.length
    · have hk : perBit * 3 = 525000 := by unfold perBit; rfl
      have hp := Nat.mul_le_mul_left perBit h3
      refine Pays.tick (by omega) ?_
      refine Pays.bind (Pays.free (readBits_safe r hr 1 (by decide)) _) ?_
      rintro ⟨bf, r1⟩ _ ⟨⟨_, i1, b1, d1⟩, rfl⟩
      refine Pays.bind (Pays.free (readBits_safe r1 i1 2 (by decide)) _) ?_
      rintro ⟨bt, r2⟩ rest ⟨⟨_, i2, b2, d2⟩, rfl⟩
      simp only at b1 d1 i1 b2 d2 i2 ⊢
      have hq := perBit_left (m := r2.bits.length) (n := 3) (b := r.bits.length) (by omega)
      have hone : Pays (inflateOneC bt r2 out) (b - 1) (Left r2) := by
        unfold inflateOneC
        split
        · exact inflateStoredC_pays r2 i2 out _ (by omega)
        · split
          · exact inflateFixedC_pays r2 i2 out _ (by omega)
          · split
            · exact inflateDynamicC_pays r2 i2 out _ (by omega)
            · exact Pays.stop
      refine Pays.bind hone ?_
      rintro ⟨o, r3⟩ rest3 ⟨⟨i3, d3, b3⟩, p3⟩
      simp only at i3 d3 b3 p3 ⊢
      split
      · exact Pays.ok trivial
      · exact ih r3 i3 o rest3 p3
    · -- there is no whole block header left
      have hbad : r.readBits 1 = .error .invalid ∨ ∃ v r1, r.readBits 1 = .ok (v, r1) ∧ r1.readBits 2 = .error .invalid := by
        by_cases h1 : 1 ≤ r.bits.length
        · obtain ⟨r1, e1, i1, b1, d1⟩ := r.readBits_ok hr 1 (by decide) h1
          exact Or.inr ⟨_, r1, e1, r1.readBits_err i1 2 (by decide) (by rw [b1, List.length_drop]; omega)⟩
        · exact Or.inl (r.readBits_err hr 1 (by decide) (by omega))
      have hs : Pays (tick 1 >>= fun _ => (stop .invalid : Counted (List UInt8))) b (fun _ _ => True) := by
        unfold Pays
        show 1 + 0 ≤ b + slack
        unfold slack
        omega
      rcases hbad with e | ⟨v, r1, e1, e2⟩
      · rw [e]
        exact hs
      · rw [e1]
        have he : ∀ f : Nat × BitReader → Counted (List UInt8),
            (free (.ok (v, r1)) >>= fun x => free (x.2.readBits 2) >>= f : Counted (List UInt8)) = stop .invalid := by
          intro f
          show (⟨(free (r1.readBits 2) >>= f).res, 0 + (free (r1.readBits 2) >>= f).steps⟩ : Counted (List UInt8)) = _
          rw [e2]
          rfl
        have := he (fun x => inflateOneC x.1 x.2 out >>= fun y => if v = 1 then pure y.1 else inflateLoopC fuel y.2 y.1)
        have h2 : (fun _ : Unit => (free (.ok (v, r1)) >>= fun x => free (x.2.readBits 2) >>=
            fun x => inflateOneC x.1 x.2 out >>= fun y => if v = 1 then pure y.1 else inflateLoopC fuel y.2 y.1 : Counted (List UInt8))) =
            fun _ => stop .invalid := by rw [this]
        rw [← h2] at hs
        exact hs

theorem inflateC_steps (data : List UInt8) : (inflateC data).steps ≤ 175000 * (8 * data.length + 1) := by
  have hb : (⟨data, 0, 0, 0⟩ : BitReader).bits.length = 8 * data.length := by
    rw [BitReader.bits_new, bytesLSB_length]
  have h := inflateLoopC_pays (8 * data.length + 1) _ (BitReader.inv_new data) [] _ (Nat.le_refl _)
  rw [hb] at h
  unfold inflateC
  unfold Pays at h
  have hp : perBit * (8 * data.length) = 175000 * (8 * data.length) := by unfold perBit; rfl
  have hs : slack = 175000 := rfl
  split at h
  · obtain ⟨rest, h, _⟩ := h
    omega
  · omega

end Pixo.Inflate
