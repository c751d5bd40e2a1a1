import Verif.Spec.PrefixCode
import Verif.Proof.Huffman
/-
Huffman's theorem: merging the two least weights again and again gives a code that no prefix code
beats.
-/
namespace Pixo.Huffman
open Spec Spec.Prefix Spec.Rfc1951

/-! ### Kraft's inequality -/

/-- Sum of `2^(L - l)`. -/
def room (L : Nat) (ls : List Nat) : Nat := (ls.map (fun l => 2 ^ (L - l))).sum

theorem room_cons (L l : Nat) (ls : List Nat) : room L (l :: ls) = 2 ^ (L - l) + room L ls := by
  simp [room]

theorem room_perm {a b : List Nat} (L : Nat) (h : a.Perm b) : room L a = room L b := (h.map _).sum_nat

theorem room_append (L : Nat) (a b : List Nat) : room L (a ++ b) = room L a + room L b := by
  simp [room]

/-- The list does not contain a word together with one of its prefixes. -/
def Apart (ws : List (List Bool)) : Prop := ws.Pairwise (fun a b => ¬ a <+: b ∧ ¬ b <+: a)

/-- The rests of the words that start with `b`. -/
def after (b : Bool) : List (List Bool) → List (List Bool)
  | [] => []
  | [] :: ws => after b ws
  | (c :: w) :: ws => if c = b then w :: after b ws else after b ws

theorem after_mem (b : Bool) (ws : List (List Bool)) (w : List Bool) : w ∈ after b ws ↔ (b :: w) ∈ ws := by
  induction ws with
  | nil => simp [after]
  | cons v ws ih =>
    cases v with
    | nil => simp [after, ih]
    | cons c v =>
      rw [after]
      by_cases h : c = b
      · subst h; simp [ih]
      · rw [if_neg h, ih, List.mem_cons]
        constructor
        · exact fun x => Or.inr x
        · rintro (x | x)
          · injection x with x1 x2; exact absurd x1.symm h
          · exact x

theorem after_apart (b : Bool) (ws : List (List Bool)) (h : Apart ws) : Apart (after b ws) := by
  induction ws with
  | nil => exact List.Pairwise.nil
  | cons v ws ih =>
    obtain ⟨h1, h2⟩ := List.pairwise_cons.1 h
    cases v with
    | nil => exact ih h2
    | cons c v =>
      rw [after]
      by_cases hc : c = b
      · subst hc
        rw [if_pos rfl]
        refine List.pairwise_cons.2 ⟨fun w hw => ?_, ih h2⟩
        have := h1 _ ((after_mem c ws w).1 hw)
        simpa [List.cons_prefix_cons] using this
      · rw [if_neg hc]; exact ih h2

theorem after_room (L : Nat) (ws : List (List Bool)) (hl : ∀ w ∈ ws, w ≠ [] ∧ w.length ≤ L + 1) :
    room (L + 1) (ws.map List.length) =
      room L ((after false ws).map List.length) + room L ((after true ws).map List.length) := by
  induction ws with
  | nil => rfl
  | cons v ws ih =>
    have ih := ih (fun w hw => hl w (by simp [hw]))
    cases v with
    | nil => exact absurd rfl (hl [] (by simp)).1
    | cons c v =>
      rw [List.map_cons, room_cons, ih, List.length_cons, Nat.add_sub_add_right]
      cases c <;> simp only [after, if_true, Bool.false_eq_true, Bool.true_eq_false, if_false,
        List.map_cons, room_cons] <;> omega

/-- Kraft's inequality. -/
theorem kraft_le (L : Nat) (ws : List (List Bool)) (h : Apart ws) (hl : ∀ w ∈ ws, w.length ≤ L) :
    room L (ws.map List.length) ≤ 2 ^ L := by
  by_cases he : [] ∈ ws
  · -- the empty word is a prefix of every word
    have : ws = [[]] := by
      match ws, h, he with
      | [w], _, he => simp at he; rw [he]
      | a :: b :: r, h, he =>
        exfalso
        obtain ⟨h1, h2⟩ := List.pairwise_cons.1 h
        rcases List.mem_cons.1 he with e | e
        · exact (h1 b (by simp)).1 (e ▸ List.nil_prefix)
        · exact (h1 [] e).2 List.nil_prefix
    subst this
    simp [room]
  · induction L generalizing ws with
    | zero =>
      match ws with
      | [] => simp [room]
      | w :: r =>
        have := hl w (by simp)
        have : w = [] := List.length_eq_zero_iff.1 (by omega)
        subst this; simp at he
    | succ L ih =>
      rw [after_room L ws (fun w hw => ⟨fun e => he (e ▸ hw), hl w hw⟩)]
      have key : ∀ b, room L ((after b ws).map List.length) ≤ 2 ^ L := by
        intro b
        have ha := after_apart b ws h
        have hb : ∀ w ∈ after b ws, w.length ≤ L := by
          intro w hw
          have := hl _ ((after_mem b ws w).1 hw)
          rw [List.length_cons] at this; omega
        by_cases hn : [] ∈ after b ws
        · have : after b ws = [[]] := by
            revert ha hn
            generalize after b ws = vs
            intro ha hn
            match vs, ha, hn with
            | [w], _, he => simp at he; rw [he]
            | a :: b :: r, h, he =>
              exfalso
              obtain ⟨h1, h2⟩ := List.pairwise_cons.1 h
              rcases List.mem_cons.1 he with e | e
              · exact (h1 b (by simp)).1 (e ▸ List.nil_prefix)
              · exact (h1 [] e).2 List.nil_prefix
          rw [this]; simp [room]
        · exact ih _ ha hb hn
      have h1 := key false
      have h2 := key true
      rw [Nat.pow_succ]; omega

/-! ### The greedy cost is least -/

/-- `Merges ws c`: merging two least weights again and again until one is left makes inner nodes of
total weight `c`. -/
inductive Merges : List Nat → Nat → Prop where
  | one (w : Nat) : Merges [w] 0
  | step {ws rest : List Nat} {a b c : Nat} (p : ws.Perm (a :: b :: rest)) (ab : a ≤ b)
      (least : ∀ x ∈ rest, b ≤ x) (next : Merges ((a + b) :: rest) c) : Merges ws (a + b + c)

/-- Total of weight times length. -/
def dot (items : List (Nat × Nat)) : Nat := (items.map (fun p => p.1 * p.2)).sum

theorem dot_cons (p : Nat × Nat) (items : List (Nat × Nat)) : dot (p :: items) = p.1 * p.2 + dot items := by
  simp [dot]

theorem dot_perm {a b : List (Nat × Nat)} (h : a.Perm b) : dot a = dot b := (h.map _).sum_nat

/-- Lengths that leave room for each other. -/
def Fits (ls : List Nat) : Prop := ∃ L, (∀ l ∈ ls, l ≤ L) ∧ room L ls ≤ 2 ^ L

theorem Fits.perm {a b : List Nat} (h : Fits a) (p : a.Perm b) : Fits b := by
  obtain ⟨L, h1, h2⟩ := h
  exact ⟨L, fun l hl => h1 l (p.mem_iff.2 hl), by rw [← room_perm L p]; exact h2⟩

theorem room_scale {m L : Nat} (h : m ≤ L) (ls : List Nat) (hl : ∀ l ∈ ls, l ≤ m) :
    room L ls = 2 ^ (L - m) * room m ls := by
  induction ls with
  | nil => simp [room]
  | cons l ls ih =>
    have h1 := hl l (by simp)
    rw [room_cons, room_cons, ih (fun x hx => hl x (by simp [hx])), Nat.mul_add, ← Nat.pow_add,
      show L - m + (m - l) = L - l by omega]

theorem fits_at {m : Nat} {ls : List Nat} (h : Fits ls) (hl : ∀ l ∈ ls, l ≤ m) : room m ls ≤ 2 ^ m := by
  obtain ⟨L, h1, h2⟩ := h
  rcases Nat.le_total m L with hm | hm
  · rw [room_scale hm ls hl] at h2
    have : 2 ^ L = 2 ^ (L - m) * 2 ^ m := by rw [← Nat.pow_add]; congr 1; omega
    rw [this] at h2
    exact Nat.le_of_mul_le_mul_left h2 (Nat.two_pow_pos _)
  · rw [room_scale hm ls h1]
    have : 2 ^ m = 2 ^ (m - L) * 2 ^ L := by rw [← Nat.pow_add]; congr 1; omega
    rw [this]
    exact Nat.mul_le_mul_left _ h2

theorem swap_le {b w l m : Nat} (h : b ≤ w) (g : l ≤ m) : b * m + w * l ≤ b * l + w * m := by
  obtain ⟨d, rfl⟩ := Nat.le.dest h
  obtain ⟨e, rfl⟩ := Nat.le.dest g
  simp only [Nat.add_mul, Nat.mul_add]
  omega

/-- The least weight may as well have the greatest length. -/
theorem lift_least (b : Nat) (rest : List (Nat × Nat)) (l : Nat) (hb : ∀ p ∈ rest, b ≤ p.1) :
    ∃ l' rest', rest'.map Prod.fst = rest.map Prod.fst ∧
      (l :: rest.map Prod.snd).Perm (l' :: rest'.map Prod.snd) ∧ (∀ p ∈ rest', p.2 ≤ l') ∧
      dot ((b, l') :: rest') ≤ dot ((b, l) :: rest) := by
  induction rest with
  | nil => exact ⟨l, [], rfl, List.Perm.refl _, by simp, Nat.le_refl _⟩
  | cons p rest ih =>
    obtain ⟨w, k⟩ := p
    obtain ⟨l1, r1, e1, p1, m1, d1⟩ := ih (fun q hq => hb q (by simp [hq]))
    have hw : b ≤ w := hb (w, k) (by simp)
    simp only [dot_cons] at d1
    by_cases h : k ≤ l1
    · refine ⟨l1, (w, k) :: r1, by simp [e1], ?_, ?_, ?_⟩
      · simp only [List.map_cons]
        exact (List.Perm.swap _ _ _).trans ((p1.cons k).trans (List.Perm.swap _ _ _))
      · intro q hq
        rcases List.mem_cons.1 hq with rfl | hq
        · exact h
        · exact m1 q hq
      · simp only [dot_cons]; omega
    · refine ⟨k, (w, l1) :: r1, by simp [e1], ?_, ?_, ?_⟩
      · simp only [List.map_cons]
        exact (List.Perm.swap _ _ _).trans (p1.cons k)
      · intro q hq
        rcases List.mem_cons.1 hq with rfl | hq
        · show l1 ≤ k; omega
        · have := m1 q hq; omega
      · simp only [dot_cons]
        have := swap_le hw (show l1 ≤ k by omega)
        omega

theorem perm_items {a b : List Nat} (h : a.Perm b) (items : List (Nat × Nat)) (e : items.map Prod.fst = a) :
    ∃ items', items'.map Prod.fst = b ∧ items.Perm items' := by
  induction h generalizing items with
  | nil => exact ⟨items, e, List.Perm.refl _⟩
  | cons x _ ih =>
    match items, e with
    | p :: items, e =>
      simp only [List.map_cons, List.cons.injEq] at e
      obtain ⟨i', e', p'⟩ := ih items e.2
      exact ⟨p :: i', by simp [e', e.1], p'.cons p⟩
  | swap x y l =>
    match items, e with
    | p :: q :: items, e =>
      simp only [List.map_cons, List.cons.injEq] at e
      exact ⟨q :: p :: items, by simp [e.1, e.2.1, e.2.2], List.Perm.swap _ _ _⟩
  | trans _ _ ih1 ih2 =>
    obtain ⟨i1, e1, p1⟩ := ih1 items e
    obtain ⟨i2, e2, p2⟩ := ih2 i1 e1
    exact ⟨i2, e2, p1.trans p2⟩

/-- Huffman's theorem. -/
theorem Merges.least {ws : List Nat} {c : Nat} (h : Merges ws c) (items : List (Nat × Nat))
    (e : items.map Prod.fst = ws) (hf : Fits (items.map Prod.snd)) : c ≤ dot items := by
  induction h generalizing items with
  | one w => exact Nat.zero_le _
  | @step ws rest a b c p ab least next ih =>
    obtain ⟨i1, e1, p1⟩ := perm_items p items e
    rw [dot_perm p1]
    have hf := hf.perm (p1.map Prod.snd)
    match i1, e1 with
    | (a', la) :: (b', lb) :: r, e1 =>
      simp only [List.map_cons, List.cons.injEq] at e1
      obtain ⟨rfl, rfl, er⟩ := e1
      have hleast : ∀ q ∈ r, b' ≤ q.1 := fun q hq => least _ (er ▸ List.mem_map_of_mem hq)
      -- give `a` the greatest length
      obtain ⟨l1, r1, f1, q1, m1, d1⟩ := lift_least a' ((b', lb) :: r) la (by
        intro q hq
        rcases List.mem_cons.1 hq with rfl | hq
        · exact ab
        · have := hleast q hq; omega)
      match r1, f1 with
      | (b'', lb1) :: r1, f1 =>
        simp only [List.map_cons, List.cons.injEq] at f1
        obtain ⟨rfl, f3⟩ := f1
        -- give `b` the greatest of the others
        obtain ⟨l2, r2, f2, q2, m2, d2⟩ := lift_least b'' r1 lb1 (by
          intro q hq
          have : q.1 ∈ r.map Prod.fst := f3 ▸ List.mem_map_of_mem hq
          exact least _ (er ▸ this))
        simp only [List.map_cons] at q1
        have hq : (la :: lb :: r.map Prod.snd).Perm (l1 :: l2 :: r2.map Prod.snd) := q1.trans (q2.cons l1)
        have hf2 := hf.perm hq
        have h21 : l2 ≤ l1 := by
          have : l2 ∈ lb1 :: r1.map Prod.snd := q2.mem_iff.2 (by simp)
          rcases List.mem_cons.1 this with h | h
          · rw [h]; exact m1 (b'', lb1) (by simp)
          · obtain ⟨q, hq, hq2⟩ := List.mem_map.1 h
            rw [← hq2]; exact m1 q (by simp [hq])
        have hle2 : ∀ l ∈ l2 :: r2.map Prod.snd, l ≤ l2 := by
          intro l hl
          rcases List.mem_cons.1 hl with rfl | hl
          · exact Nat.le_refl _
          · obtain ⟨q, hq, rfl⟩ := List.mem_map.1 hl; exact m2 q hq
        -- both can have length `l2`
        have hroom : room l2 (l2 :: l2 :: r2.map Prod.snd) ≤ 2 ^ l2 := by
          have h3 := fits_at (m := l1) hf2 (by
            intro l hl
            rcases List.mem_cons.1 hl with rfl | hl
            · exact Nat.le_refl _
            · exact Nat.le_trans (hle2 l hl) h21)
          rw [room_cons, room_scale h21 _ hle2, Nat.sub_self, Nat.pow_zero] at h3
          have h4 : 2 ^ l1 = 2 ^ (l1 - l2) * 2 ^ l2 := by rw [← Nat.pow_add]; congr 1; omega
          rw [h4] at h3
          rw [room_cons, Nat.sub_self, Nat.pow_zero]
          have h5 : 2 ^ (l1 - l2) * room l2 (l2 :: r2.map Prod.snd) < 2 ^ (l1 - l2) * 2 ^ l2 := by omega
          have := Nat.lt_of_mul_lt_mul_left h5
          omega
        have hl2 : 0 < l2 := by
          apply Nat.pos_of_ne_zero
          rintro rfl
          simp only [room_cons, Nat.sub_self, Nat.pow_zero] at hroom
          omega
        -- merge them
        have hfit : Fits ((l2 - 1) :: r2.map Prod.snd) := by
          refine ⟨l2, ?_, ?_⟩
          · intro l hl
            rcases List.mem_cons.1 hl with rfl | hl
            · omega
            · exact hle2 l (by simp [hl])
          · rw [room_cons, show l2 - (l2 - 1) = 1 by omega]
            simp only [room_cons, Nat.sub_self, Nat.pow_zero] at hroom
            omega
        have := ih ((a' + b'', l2 - 1) :: r2) (by simp [f2, f3, er]) hfit
        simp only [dot_cons] at this d1 d2 ⊢
        obtain ⟨k, rfl⟩ : ∃ k, l2 = k + 1 := ⟨l2 - 1, by omega⟩
        rw [Nat.add_sub_cancel, Nat.add_mul] at this
        have h6 : a' * (k + 1) ≤ a' * l1 := Nat.mul_le_mul_left _ h21
        rw [Nat.mul_succ] at h6
        rw [Nat.mul_succ] at d2
        omega

/-! ### From counts to items -/

theorem sum_range_cons (f : Nat → Nat) (n : Nat) :
    ((List.range (n + 1)).map f).sum = f 0 + ((List.range n).map (fun k => f (k + 1))).sum := by
  rw [List.range_succ_eq_map, List.map_cons, List.sum_cons, List.map_map]; rfl

theorem dot_nonZero (fs : List Nat) (i : Nat) (h : i + fs.length ≤ 2 ^ 16) (len : Nat → Nat) :
    ((List.range fs.length).map (fun k => fs.getD k 0 * len (i + k))).sum =
      dot ((nonZero fs i).map (fun p => (p.2, len p.1))) := by
  induction fs generalizing i with
  | nil => rfl
  | cons f fs ih =>
    rw [List.length_cons] at h ⊢
    have ih := ih (i + 1) (by omega)
    rw [sum_range_cons]
    simp only [List.getD_cons_zero, List.getD_cons_succ, Nat.add_zero]
    have e : (fun k => fs.getD k 0 * len (i + (k + 1))) = (fun k => fs.getD k 0 * len (i + 1 + k)) := by
      funext k; rw [show i + (k + 1) = i + 1 + k by omega]
    rw [e, ih, nonZero]
    by_cases hf : f > 0
    · rw [if_pos hf, List.map_cons, dot_cons, Nat.mod_eq_of_lt (by omega)]
    · rw [if_neg hf, show f = 0 by omega]; omega

theorem totalBits_eq (counts : List Nat) (h : counts.length ≤ 2 ^ 16) (len : Nat → Nat) :
    totalBits counts len = dot ((nonZero counts 0).map (fun p => (p.2, len p.1))) := by
  rw [← dot_nonZero counts 0 (by omega) len]
  unfold totalBits
  simp only [Nat.zero_add]

theorem apart_of_code (syms : List Nat) (code : Nat → List Bool) (hnd : syms.Nodup)
    (h : ∀ s ∈ syms, ∀ t ∈ syms, code s <+: code t → s = t) : Apart (syms.map code) := by
  induction syms with
  | nil => exact List.Pairwise.nil
  | cons s syms ih =>
    obtain ⟨h1, h2⟩ := List.nodup_cons.1 hnd
    refine List.pairwise_cons.2 ⟨fun w hw => ?_, ih h2 (fun a ha b hb => h a (by simp [ha]) b (by simp [hb]))⟩
    obtain ⟨t, ht, rfl⟩ := List.mem_map.1 hw
    have hne : s ≠ t := fun e => h1 (e ▸ ht)
    exact ⟨fun hp => hne (h s (by simp) t (by simp [ht]) hp),
      fun hp => hne (h t (by simp [ht]) s (by simp) hp).symm⟩

/-- No prefix code beats the greedy cost. -/
theorem Merges.le_totalBits {counts : List Nat} {c : Nat} (hlen : counts.length ≤ 2 ^ 16)
    (h : Merges ((nonZero counts 0).map Prod.snd) c) (code : Nat → List Bool)
    (hc : ∀ s t, Occurs counts s → Occurs counts t → code s <+: code t → s = t) :
    c ≤ totalBits counts (fun s => (code s).length) := by
  rw [totalBits_eq counts hlen]
  refine h.least _ (by rw [List.map_map]; rfl) ?_
  have hocc : ∀ s ∈ (nonZero counts 0).map Prod.fst, Occurs counts s := by
    intro s hs
    have := (nonZero_mem counts 0 (by omega) s).1 hs
    simpa [Occurs] using this.2
  have ha := apart_of_code ((nonZero counts 0).map Prod.fst) code (nonZero_nodup counts 0 (by omega))
    (fun s hs t ht => hc s t (hocc s hs) (hocc t ht))
  have e : ((nonZero counts 0).map (fun p => (p.2, (code p.1).length))).map Prod.snd =
      (((nonZero counts 0).map Prod.fst).map code).map List.length := by
    simp only [List.map_map]; rfl
  rw [e]
  generalize ((nonZero counts 0).map Prod.fst).map code = ws at ha
  have hbound : ∀ w ∈ ws, w.length ≤ (ws.map List.length).sum := by
    intro w hw
    clear ha
    induction ws with
    | nil => simp at hw
    | cons v ws ih =>
      rw [List.map_cons, List.sum_cons]
      rcases List.mem_cons.1 hw with rfl | hw
      · omega
      · have := ih hw; omega
  refine ⟨(ws.map List.length).sum, ?_, kraft_le _ ws ha hbound⟩
  intro l hl
  obtain ⟨w, hw, rfl⟩ := List.mem_map.1 hl
  exact hbound w hw

/-! ### The tree of `build_codes` -/

/-- Symbols at the leaves with their weights. -/
def Tree.items : Tree → List (Nat × Nat)
  | .leaf f s => [(s, f)]
  | .node _ l r => l.items ++ r.items

/-- Total weight of the inner nodes. -/
def Tree.cost : Tree → Nat
  | .leaf _ _ => 0
  | .node f l r => f + l.cost + r.cost

/-- Every inner node weighs what its children weigh. -/
def Tree.Ok : Tree → Prop
  | .leaf _ _ => True
  | .node f l r => f = l.freq + r.freq ∧ l.Ok ∧ r.Ok

/-- `len` is the depth of each leaf, the root being at depth `d`. -/
def Tree.At (len : Nat → Nat) : Tree → Nat → Prop
  | .leaf _ s, d => len s = d
  | .node _ l r, d => l.At len (d + 1) ∧ r.At len (d + 1)

theorem Tree.items_fst (t : Tree) : t.items.map Prod.fst = t.leaves := by
  induction t with
  | leaf f s => rfl
  | node f l r ih1 ih2 => rw [Tree.items, List.map_append, ih1, ih2]; rfl

theorem Tree.height_lt (t : Tree) : t.height < t.leaves.length := by
  induction t with
  | leaf f s => simp [Tree.height, Tree.leaves]
  | node f l r ih1 ih2 => rw [Tree.height, Tree.leaves, List.length_append]; omega

def symDot (len : Nat → Nat) (items : List (Nat × Nat)) : Nat := dot (items.map (fun p => (p.2, len p.1)))

theorem symDot_append (len : Nat → Nat) (a b : List (Nat × Nat)) : symDot len (a ++ b) = symDot len a + symDot len b := by
  simp [symDot, dot]

theorem symDot_perm (len : Nat → Nat) {a b : List (Nat × Nat)} (h : a.Perm b) : symDot len a = symDot len b :=
  dot_perm (h.map _)

theorem Tree.symDot_eq (len : Nat → Nat) (t : Tree) (d : Nat) (hok : t.Ok) (h : t.At len d) :
    symDot len t.items = t.freq * d + t.cost := by
  induction t generalizing d with
  | leaf f s =>
    have h : len s = d := h
    simp [Tree.items, symDot, dot, Tree.freq, Tree.cost, h]
  | node f l r ih1 ih2 =>
    obtain ⟨h1, h2⟩ := h
    obtain ⟨e, o1, o2⟩ := hok
    rw [Tree.items, symDot_append, ih1 _ o1 h1, ih2 _ o2 h2, Tree.cost, Tree.freq, e,
      Nat.mul_succ, Nat.mul_succ, Nat.add_mul]
    omega

theorem Tree.At.congr {len len' : Nat → Nat} {t : Tree} {d : Nat} (h : t.At len d)
    (e : ∀ s ∈ t.leaves, len' s = len s) : t.At len' d := by
  induction t generalizing d with
  | leaf f s => exact (e s (by simp [Tree.leaves])).trans h
  | node f l r ih1 ih2 =>
    exact ⟨ih1 h.1 (fun s hs => e s (by simp [Tree.leaves, hs])),
      ih2 h.2 (fun s hs => e s (by simp [Tree.leaves, hs]))⟩

theorem extractLengths_other (t : Tree) (d : Nat) (lens lens' : List Nat)
    (h : extractLengths t d lens = .ok lens') : ∀ s, s ∉ t.leaves → lens'.getD s 0 = lens.getD s 0 := by
  induction t generalizing d lens lens' with
  | leaf f s =>
    intro k hk
    rw [extractLengths, setChecked] at h
    by_cases hs : s < lens.length
    · rw [if_pos hs] at h
      injection h with h
      rw [← h, getD_set _ _ _ _ hs, if_neg (by simpa [Tree.leaves] using hk)]
    · rw [if_neg hs] at h; cases h
  | node f l r ih1 ih2 =>
    intro k hk
    simp only [Tree.leaves, List.mem_append, not_or] at hk
    rw [extractLengths] at h
    by_cases hd : d + 1 < 256
    · rw [if_pos hd] at h
      cases e : extractLengths l (d + 1) lens with
      | error x => rw [e] at h; cases h
      | ok l1 =>
        rw [e, ok_bind] at h
        rw [ih2 _ _ _ h k hk.2, ih1 _ _ _ e k hk.1]
    · rw [if_neg hd] at h; cases h

theorem extractLengths_at (t : Tree) (d : Nat) (lens lens' : List Nat) (hd : 0 < d ∨ ∃ f l r, t = .node f l r)
    (hnd : t.leaves.Nodup) (h : extractLengths t d lens = .ok lens') : t.At (fun s => lens'.getD s 0) d := by
  induction t generalizing d lens lens' with
  | leaf f s =>
    have hd : 0 < d := hd.resolve_right (by rintro ⟨_, _, _, h⟩; cases h)
    rw [extractLengths, setChecked] at h
    by_cases hs : s < lens.length
    · rw [if_pos hs] at h
      injection h with h
      show lens'.getD s 0 = d
      rw [← h, getD_set _ _ _ _ hs, if_pos rfl]; omega
    · rw [if_neg hs] at h; cases h
  | node f l r ih1 ih2 =>
    simp only [Tree.leaves] at hnd
    rw [List.nodup_append] at hnd
    rw [extractLengths] at h
    by_cases hd : d + 1 < 256
    · rw [if_pos hd] at h
      cases e : extractLengths l (d + 1) lens with
      | error x => rw [e] at h; cases h
      | ok l1 =>
        rw [e, ok_bind] at h
        refine ⟨(ih1 _ _ _ (Or.inl (by omega)) hnd.1 e).congr (fun s hs => ?_),
          ih2 _ _ _ (Or.inl (by omega)) hnd.2.1 h⟩
        exact extractLengths_other r _ _ _ h s (fun hr => hnd.2.2 s hs s hr rfl)
    · rw [if_neg hd] at h; cases h

def heapItems (h : List Tree) : List (Nat × Nat) := h.flatMap Tree.items
def heapCost (h : List Tree) : Nat := (h.map Tree.cost).sum

theorem heapItems_perm {a b : List Tree} (h : a.Perm b) : (heapItems a).Perm (heapItems b) := h.flatMap_right _
theorem heapCost_perm {a b : List Tree} (h : a.Perm b) : heapCost a = heapCost b := (h.map _).sum_nat

theorem buildTree_merges (tie : Nat → Nat) (fuel : Nat) (heap : List Tree) (root : Tree) (hne : heap ≠ [])
    (hok : ∀ t ∈ heap, t.Ok) (h : buildTree tie fuel heap = .ok root) :
    root.Ok ∧ root.items.Perm (heapItems heap) ∧
      ∃ c, Merges (heap.map Tree.freq) c ∧ root.cost = heapCost heap + c := by
  induction fuel generalizing heap with
  | zero => cases h
  | succ fuel ih =>
    rw [buildTree] at h
    by_cases h1 : heap.length > 1
    · rw [if_pos h1] at h
      obtain ⟨l, h', e1, p1, m1⟩ := popMin_spec (tie (2 * fuel + 1)) heap hne
      have hlen' : h'.length + 1 = heap.length := by simpa using p1.length_eq.symm
      have hne' : h' ≠ [] := by rintro rfl; simp at hlen'; omega
      obtain ⟨r, h'', e2, p2, m2⟩ := popMin_spec (tie (2 * fuel)) h' hne'
      rw [e1] at h; simp only [] at h; rw [e2] at h; simp only [] at h
      have p : heap.Perm (l :: r :: h'') := p1.trans (p2.cons l)
      rw [addU32] at h
      by_cases ho : l.freq + r.freq < 2 ^ 32
      · rw [if_pos ho, ok_bind] at h
        have hmem : ∀ t, t = l ∨ t = r ∨ t ∈ h'' → t.Ok := fun t ht => hok t (p.mem_iff.2 (by simpa using ht))
        obtain ⟨a, b, c, hc, hcost⟩ := ih (Tree.node (l.freq + r.freq) l r :: h'') (by simp) (by
          intro t ht
          rcases List.mem_cons.1 ht with rfl | ht
          · exact ⟨rfl, hmem l (by simp), hmem r (by simp)⟩
          · exact hmem t (by simp [ht])) h
        refine ⟨a, ?_, l.freq + r.freq + c, ?_, ?_⟩
        · refine b.trans (List.Perm.trans ?_ (heapItems_perm p).symm)
          simp only [heapItems, List.flatMap_cons, Tree.items, List.append_assoc]
          exact List.Perm.refl _
        · refine .step (p.map Tree.freq) (le_freq (m1 r (p.mem_iff.2 (by simp)))) ?_ hc
          intro x hx
          obtain ⟨t, ht, rfl⟩ := List.mem_map.1 hx
          exact le_freq (m2 t (p2.mem_iff.2 (by simp [ht])))
        · rw [hcost, heapCost_perm p]
          simp only [heapCost, List.map_cons, List.sum_cons, Tree.cost]
          omega
      · rw [if_neg ho] at h; cases h
    · rw [if_neg h1] at h
      obtain ⟨t, rest, e, q, _⟩ := popMin_spec 0 heap hne
      have hl : heap.length = rest.length + 1 := by simpa using q.length_eq
      have hrest : rest = [] := by
        rw [← List.length_eq_zero_iff]; omega
      subst hrest
      rw [e] at h
      injection h with h
      subst h
      have hh : heap = [t] := List.perm_singleton.1 q
      subst hh
      exact ⟨hok t (by simp), by simp [heapItems], 0, .one _, by simp [heapCost]⟩

/-! ### `build_codes` -/

theorem limit_none {lens : List Nat} {M : Nat} (h : ∀ l ∈ lens, l ≤ M) : limitCodeLengths lens M = .ok lens := by
  unfold limitCodeLengths
  rw [if_neg]
  intro ha
  rw [List.any_eq_true] at ha
  obtain ⟨l, hl, hl2⟩ := ha
  have := h l hl
  simp at hl2; omega

theorem single_item (counts : List Nat) (h : counts.length ≤ 2 ^ 16) (s f : Nat)
    (e : nonZero counts 0 = [(s, f)]) (len : Nat → Nat) : totalBits counts len = f * len s := by
  rw [totalBits_eq counts h, e]; simp [dot]

theorem map_snd_getD (codes : List (Nat × Nat)) (s : Nat) : (codes.getD s (0, 0)).2 = (codes.map Prod.snd).getD s 0 := by
  rw [List.getD_eq_getElem?_getD, List.getD_eq_getElem?_getD, List.getElem?_map]
  cases codes[s]? <;> rfl

theorem buildCodes_optimal (tie : Nat → Nat) (freqs : List Nat) (M : Nat) (hM0 : 1 ≤ M) (hM : M ≤ 15)
    (hlen : freqs.length ≤ 2 ^ 16) (hu : used freqs ≤ 2 ^ M) (hsum : freqs.sum < 2 ^ 32)
    (hd : freqs.sum < fib (M + 3) ∨ used freqs ≤ M + 1) (codes : List (Nat × Nat))
    (hcodes : buildCodes tie freqs M = .ok codes) :
    Optimal freqs (fun s => (codes.getD s (0, 0)).2) := by
  have hmem := nonZero_mem freqs 0 (by omega)
  have hnd := nonZero_nodup freqs 0 (by omega)
  have hnl := nonZero_length freqs 0
  have hns := nonZero_sum freqs 0
  have hnp := nonZero_pos freqs 0
  have htb := totalBits_eq freqs hlen
  have hmer := fun c h code => Merges.le_totalBits (counts := freqs) (c := c) hlen h code
  have hocc : ∀ s ∈ (nonZero freqs 0).map Prod.fst, Occurs freqs s := by
    intro s hs
    simpa [Occurs] using ((hmem s).1 hs).2
  unfold buildCodes at hcodes
  generalize nonZero freqs 0 = nz at *
  have hltlen : ∀ s, freqs.getD s 0 ≠ 0 → s < freqs.length := fun s hs => lt_length_of_len hs
  intro code hcode
  match nz with
  | [] => rw [htb]; exact Nat.zero_le _
  | [(s, f)] =>
    have hs0 := hocc s (by simp)
    have hs := hltlen s hs0
    simp only [] at hcodes
    rw [setChecked, if_pos (by simpa using hs)] at hcodes
    injection hcodes with hcodes
    rw [htb, htb]
    have h1 : 1 ≤ (code s).length := List.length_pos_iff.2 (hcode.1 s hs0)
    have h2 : (codes.getD s (0, 0)).2 = 1 := by
      rw [← hcodes, List.getD_eq_getElem?_getD, List.getElem?_set, if_pos rfl, if_pos (by simpa using hs)]; rfl
    simp only [List.map_cons, List.map_nil, dot_cons, h2]
    have := Nat.mul_le_mul_left f h1
    omega
  | p :: q :: nz =>
    simp only [] at hcodes
    generalize hN : p :: q :: nz = N at *
    have hN2 : 2 ≤ N.length := by rw [← hN]; simp
    generalize hheap : N.map (fun p => Tree.leaf p.2 p.1) = heap at hcodes
    have hleaves : heapLeaves heap = N.map Prod.fst := by
      rw [← hheap]
      unfold heapLeaves
      rw [List.flatMap_map]
      exact List.map_eq_flatMap.symm
    have hitems : heapItems heap = N := by
      rw [← hheap]
      unfold heapItems
      rw [List.flatMap_map]
      show N.flatMap (fun p => [(p.1, p.2)]) = N
      simp
    have hfreq : heapFreq heap = freqs.sum := by
      rw [← hns, ← hheap]
      unfold heapFreq
      rw [List.map_map]; rfl
    have hweights : heap.map Tree.freq = N.map Prod.snd := by
      rw [← hheap, List.map_map]; rfl
    have hcost0 : heapCost heap = 0 := by
      rw [← hheap]
      unfold heapCost
      rw [List.map_map]
      show (N.map (fun _ => 0)).sum = 0
      clear hcodes hN2 hnl hns hnd hmem hnp htb hmer hocc hheap hleaves hitems hfreq hweights hN
      induction N with
      | nil => rfl
      | cons a N ih => simp [ih]
    have hinv : Inv heap 0 := by
      refine ⟨?_, ?_, ?_⟩ <;> intro t ht <;> rw [← hheap, List.mem_map] at ht <;>
        obtain ⟨a, ha, rfl⟩ := ht <;> have := hnp a ha <;> simp only [Tree.freq, Tree.height]
      · omega
      · exact this
      · decide
    have hhl : heap.length = N.length := by rw [← hheap]; simp
    have hne : heap ≠ [] := by intro h; rw [h] at hhl; simp at hhl; omega
    obtain ⟨root, hr, hperm, hfib, hrf, hnode⟩ := buildTree_spec tie N.length heap 0
      hne (by omega) (by omega) hinv
    rw [hr, ok_bind] at hcodes
    obtain ⟨rok, ritems, c, hmerge, hcost⟩ := buildTree_merges tie N.length heap root hne (by
      intro t ht; rw [← hheap, List.mem_map] at ht; obtain ⟨a, ha, rfl⟩ := ht; trivial) hr
    have hh : root.height ≤ M := by
      rcases hd with hd | hd
      · apply Nat.le_of_not_lt
        intro hlt
        have := fib_mono (show M + 3 ≤ root.height + 2 by omega)
        omega
      · have h1 := root.height_lt
        rw [hperm.length_eq, hleaves, List.length_map] at h1
        omega
    have hnd' : root.leaves.Nodup := by
      rw [hperm.nodup_iff, hleaves]; exact hnd
    have hlm : ∀ s, s ∈ root.leaves ↔ freqs.getD s 0 ≠ 0 := by
      intro s
      rw [hperm.mem_iff, hleaves, hmem]; simp
    obtain ⟨lens, e1, n1, u1, p1, k1⟩ := extractLengths_spec root 0 (List.replicate freqs.length 0) M
      (Or.inr (hnode (by omega))) (by omega) (by omega) hnd'
      (fun s hs => by rw [List.length_replicate]; exact hltlen s ((hlm s).1 hs))
      (fun s _ => replicate_zero_getD _ s)
    have hat := extractLengths_at root 0 _ lens (Or.inr (hnode (by omega))) hnd' e1
    rw [e1, ok_bind] at hcodes
    rw [ksum_replicate_zero, Nat.zero_add, Nat.sub_zero] at k1
    have hle : ∀ l ∈ lens, l ≤ M := by
      intro l hl
      obtain ⟨i, hi, rfl⟩ := List.getElem_of_mem hl
      have hg : lens.getD i 0 = lens[i] := by
        rw [List.getD_eq_getElem?_getD, List.getElem?_eq_getElem hi]; rfl
      rw [← hg]
      by_cases hs : i ∈ root.leaves
      · exact (p1 i hs).2
      · rw [u1 i hs, replicate_zero_getD]; omega
    rw [limit_none hle, ok_bind] at hcodes
    have hk := kraft_of_ksum hM hle k1
    have hok : CodeOK lens := ⟨fun l hl => Nat.le_trans (hle l hl) hM, by omega⟩
    obtain ⟨codes', e3, hc⟩ := generateCanonicalCodes_spec hok
    rw [e3] at hcodes
    injection hcodes with hcodes
    subst hcodes
    have hl : (fun s => (codes'.getD s (0, 0)).2) = (fun s => lens.getD s 0) := by
      funext s; rw [map_snd_getD, hc.snd]
    rw [hl, htb]
    show symDot (fun s => lens.getD s 0) N ≤ _
    rw [← hitems, ← symDot_perm _ ritems, root.symDot_eq _ 0 rok hat, hcost, hcost0]
    rw [hweights] at hmerge
    have := hmer c hmerge code hcode.2
    omega

end Pixo.Huffman
