import Verif.Proof.SymbolCount
import Verif.Proof.DeflateStream
import Verif.Proof.HuffmanOptimal
/-
How many bits the body of a block takes.
-/
namespace Pixo.Deflate
open Spec Spec.BlockCost Spec.Prefix
open Spec.Rfc1951 (lengthTable distTable len codeword fixedLit fixedDist)
open Pixo.Lz77 (Token TokOk)

theorem codeword_length (lens : List Nat) (s : Nat) : (codeword lens s).length = len lens s := by
  unfold codeword; rw [bitsMSB_length]

theorem writeBody_size {lr dr : List (Nat × Nat)} {lit dist : List Nat} (hl : RevOf lr lit) (hd : RevOf dr dist)
    (heob : len lit 256 ≠ 0) (ts : List Token) (hts : ∀ t ∈ ts, TokOk t)
    (h1 : ∀ t ∈ ts, len lit (litSymbol t.spec) ≠ 0) (h2 : ∀ t ∈ ts, ∀ s, distSymbol t.spec = some s → len dist s ≠ 0)
    (w : BitWriter64) (hw : w.Inv) :
    Oks (writeBody lr dr ts w) (fun w' => w'.bits.length = w.bits.length + bodyBits (len lit) (len dist) (ts.map Token.spec)) := by
  induction ts generalizing w with
  | nil =>
    unfold writeBody
    refine Oks.mono (writeCode_spec hl hw heob) fun w' h => ?_
    rw [h.2, List.length_append, codeword_length]
    simp [bodyBits]
  | cons t ts ih =>
    have ih := ih (fun x hx => hts x (by simp [hx])) (fun x hx => h1 x (by simp [hx])) (fun x hx => h2 x (by simp [hx]))
    have ht := hts t (by simp)
    have g1 := h1 t (by simp)
    have g2 := h2 t (by simp)
    have hb : bodyBits (len lit) (len dist) ((t :: ts).map Token.spec) = (len lit (litSymbol t.spec) +
        distBits (len dist) t.spec + extraBits t.spec) +
        bodyBits (len lit) (len dist) (ts.map Token.spec) := by
      simp only [bodyBits, List.map_cons, List.sum_cons]; omega
    rw [hb]
    unfold writeBody
    cases t with
    | lit b =>
      unfold writeToken
      refine Oks.bind (writeCode_spec hl hw g1) fun w1 h1 => ?_
      refine Oks.mono (ih w1 h1.1) fun w' h => ?_
      rw [h, h1.2, List.length_append, codeword_length]
      simp only [Token.spec, distBits, distSymbol, extraBits, litSymbol, Option.map_none, Option.getD_none]
      omega
    | mtch l d =>
      obtain ⟨a1, a2, a3, a4⟩ := ht
      obtain ⟨e, k1, k2⟩ := lengthCode_row a1 a2
      obtain ⟨f, j1, j2⟩ := distanceCode_row a3 a4
      have x1 : ∀ k < 29, (lengthTable.getD k (0, 0)).2 < 32 := by decide
      have x2 : ∀ k < 30, (distTable.getD k (0, 0)).2 < 32 := by decide
      rw [writeToken_mtch, k1]
      simp only [ok_bind, bind_assoc]
      refine Oks.bind (writeCode_spec hl hw g1) fun w1 h1 => ?_
      refine Oks.bind (writeExtra_spec h1.1 _ _ (x1 _ k2)) fun w2 h2 => ?_
      rw [j1]
      simp only [ok_bind]
      refine Oks.bind (writeCode_spec hd h2.1 (g2 _ rfl)) fun w3 h3 => ?_
      refine Oks.bind (writeExtra_spec h3.1 _ _ (x2 _ j2)) fun w4 h4 => ?_
      refine Oks.mono (ih w4 h4.1) fun w' h => ?_
      rw [h, h4.2, h3.2, h2.2, h1.2]
      simp only [List.length_append, codeword_length, bitsLSB_length, Token.spec, distBits, distSymbol, extraBits, litSymbol, Option.map_some, Option.getD_some]
      omega

/-! ### As a sum over symbols -/

theorem sum_count (l : List Nat) (n : Nat) (hl : ∀ x ∈ l, x < n) (f : Nat → Nat) :
    (l.map f).sum = ((List.range n).map (fun s => l.count s * f s)).sum := by
  induction l with
  | nil =>
    have : ∀ r : List Nat, (r.map (fun s => ([] : List Nat).count s * f s)).sum = 0 := by
      intro r; induction r with
      | nil => rfl
      | cons a r ih => rw [List.map_cons, List.sum_cons, ih]; simp
    rw [this]; rfl
  | cons a l ih =>
    rw [List.map_cons, List.sum_cons, ih (fun x hx => hl x (by simp [hx]))]
    have key : ∀ r : List Nat, r.Nodup → (r.map (fun s => (a :: l).count s * f s)).sum =
        (if a ∈ r then f a else 0) + (r.map (fun s => l.count s * f s)).sum := by
      intro r
      induction r with
      | nil => intro _; rfl
      | cons b r ih =>
        intro hn
        obtain ⟨n1, n2⟩ := List.nodup_cons.1 hn
        rw [List.map_cons, List.sum_cons, List.map_cons, List.sum_cons, ih n2, List.count_cons]
        by_cases hab : a = b
        · subst hab
          rw [if_neg n1, if_pos (by simp), if_pos (by simp), Nat.add_mul]; omega
        · have hba : ¬ (a == b) = true := by simpa using hab
          rw [if_neg hba, Nat.add_zero]
          have e : (a ∈ b :: r) ↔ a ∈ r := by simp [hab]
          simp only [e]
          omega
    rw [key _ List.nodup_range, if_pos (List.mem_range.2 (hl a (by simp)))]

theorem totalBits_range (n : Nat) (c f : Nat → Nat) :
    totalBits ((List.range n).map c) f = ((List.range n).map (fun s => c s * f s)).sum := by
  unfold totalBits
  rw [List.length_map, List.length_range]
  congr 1
  apply List.map_congr_left
  intro s hs
  rw [List.getD_eq_getElem?_getD, List.getElem?_map, List.getElem?_range (List.mem_range.1 hs)]
  rfl

theorem litSymbol_lt {t : Token} (h : TokOk t) : litSymbol t.spec < 286 := by
  cases t with
  | lit b => have := b.toNat_lt; simp only [Token.spec, litSymbol]; omega
  | mtch l d =>
    obtain ⟨a1, a2, _, _⟩ := h
    obtain ⟨_, _, j2⟩ := lengthCode_row a1 a2
    simp only [Token.spec, litSymbol]; omega

theorem bodyBits_eq (f g : Nat → Nat) (ts : List Token) (hts : ∀ t ∈ ts, TokOk t) :
    bodyBits f g (ts.map Token.spec) = totalBits (litCounts (ts.map Token.spec)) f + totalBits (distUses (ts.map Token.spec)) g +
      ((ts.map Token.spec).map extraBits).sum := by
  have h1 : totalBits (litCounts (ts.map Token.spec)) f = ((ts.map Token.spec).map (fun t => f (litSymbol t))).sum + f 256 := by
    unfold litCounts litCount
    rw [totalBits_range, ← sum_count _ 286 ?_ f]
    · rw [List.map_append, List.sum_append, List.map_map]; simp; rfl
    · intro x hx
      rcases List.mem_append.1 hx with hx | hx
      · obtain ⟨t, ht, rfl⟩ := List.mem_map.1 hx
        obtain ⟨u, hu, rfl⟩ := List.mem_map.1 ht
        exact litSymbol_lt (hts u hu)
      · rw [List.mem_singleton.1 hx]; decide
  have h2 : totalBits (distUses (ts.map Token.spec)) g = ((ts.map Token.spec).map
      (distBits g)).sum := by
    unfold distUses
    rw [totalBits_range]
    have e1 : ∀ us : List Rfc1951.Token, (us.map (distBits g)).sum =
        ((us.filterMap distSymbol).map g).sum := by
      intro us
      induction us with
      | nil => rfl
      | cons u us ih =>
        rw [List.map_cons, List.sum_cons, ih, List.filterMap_cons]
        unfold distBits
        cases distSymbol u with
        | none => simp
        | some s => simp
    have e2 : ∀ (us : List Rfc1951.Token) (s : Nat), distCount us s = (us.filterMap distSymbol).count s := by
      intro us s
      unfold distCount
      induction us with
      | nil => rfl
      | cons u us ih =>
        rw [List.map_cons, List.count_cons, ih, List.filterMap_cons]
        cases distSymbol u with
        | none => simp
        | some s => simp [List.count_cons]
    rw [e1, sum_count _ 30 ?_ g]
    · exact congrArg List.sum (List.map_congr_left fun s _ => by rw [e2])
    · intro x hx
      obtain ⟨t, ht, e⟩ := List.mem_filterMap.1 hx
      obtain ⟨u, hu, rfl⟩ := List.mem_map.1 ht
      exact distSymbol_lt (hts u hu) e
  rw [h1, h2]
  clear h1 h2
  unfold bodyBits
  generalize ts.map Token.spec = us
  induction us with
  | nil => simp
  | cons u us ih =>
    simp only [List.map_cons, List.sum_cons] at ih ⊢
    omega

theorem litCounts_sum (ts : List Token) (hts : ∀ t ∈ ts, TokOk t) : (litCounts (ts.map Token.spec)).sum = ts.length + 1 := by
  have h := sum_count ((ts.map Token.spec).map litSymbol ++ [256]) 286 (by
    intro x hx
    rcases List.mem_append.1 hx with hx | hx
    · obtain ⟨t, ht, rfl⟩ := List.mem_map.1 hx
      obtain ⟨u, hu, rfl⟩ := List.mem_map.1 ht
      exact litSymbol_lt (hts u hu)
    · rw [List.mem_singleton.1 hx]; decide) (fun _ => 1)
  simp only [Nat.mul_one] at h
  unfold litCounts litCount
  rw [← h]
  have : ∀ l : List Nat, (l.map (fun _ => 1)).sum = l.length := by
    intro l; induction l with
    | nil => rfl
    | cons a l ih => rw [List.map_cons, List.sum_cons, ih, List.length_cons]; omega
  rw [this]
  simp

end Pixo.Deflate
