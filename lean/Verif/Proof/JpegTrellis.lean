import Verif.Proof.JpegMcus
/-
What `trellis_quantize` returns: values next to the exact quotients, or zeros.
-/
namespace Pixo.Jpeg
open Pixo

/-- Zero, or a value around `x`: the integers next to it or one further from zero. -/
def Near (x v : Int) : Prop :=
  v = 0 ∨ v = F32.floor x ∨ v = F32.round x ∨ v = F32.ceil x ∨ (0 ≤ x ∧ v = F32.ceil x + 1) ∨
    (x < 0 ∧ v = F32.floor x - 1)

/-- Quotients for which no `i16` saturates or overflows. -/
def Small (x : Int) : Prop := -(32000 * 2 ^ 149) ≤ x ∧ x ≤ 32000 * 2 ^ 149

theorem mem_pushNew {l : List Int} {v c : Int} (h : c ∈ pushNew l v) : c ∈ l ∨ c = v := by
  unfold pushNew at h
  split at h
  · exact Or.inl h
  · rcases List.mem_append.mp h with h | h
    · exact Or.inl h
    · exact Or.inr (List.mem_singleton.mp h)

theorem mem_pushNew_left {l : List Int} {v c : Int} (h : c ∈ l) : c ∈ pushNew l v := by
  unfold pushNew
  split
  · exact h
  · exact List.mem_append_left _ h

theorem floor_bounds {x : Int} (h : Small x) : -32000 ≤ F32.floor x ∧ F32.floor x ≤ 32000 := by
  unfold Small at h; unfold F32.floor F32.one; omega

theorem ceil_bounds {x : Int} (h : Small x) : -32000 ≤ F32.ceil x ∧ F32.ceil x ≤ 32000 := by
  unfold Small at h; unfold F32.ceil F32.one; omega

theorem round_bounds {x : Int} (h : Small x) : -32000 ≤ F32.round x ∧ F32.round x ≤ 32000 := by
  unfold Small at h
  exact ⟨le_round (by omega) (by decide), round_le (by omega) (by decide)⟩

theorem toI16_id {v : Int} (h : -32000 ≤ v ∧ v ≤ 32000) : F32.toI16 v = v := by
  unfold F32.toI16; omega

theorem candidates_spec {x : Int} (h : Small x) :
    ∃ l, candidates x = .ok l ∧ 0 ∈ l ∧ ∀ c ∈ l, Near x c := by
  have hf := floor_bounds h
  have hc := ceil_bounds h
  have hr := round_bounds h
  unfold candidates
  rw [toI16_id hf, toI16_id hc, toI16_id hr]
  have base : ∀ c ∈ pushNew (pushNew (pushNew [0] (F32.floor x)) (F32.round x)) (F32.ceil x), Near x c := by
    intro c hc
    rcases mem_pushNew hc with hc | hc
    · rcases mem_pushNew hc with hc | hc
      · rcases mem_pushNew hc with hc | hc
        · exact Or.inl (List.mem_singleton.mp hc)
        · exact Or.inr (Or.inl hc)
      · exact Or.inr (Or.inr (Or.inl hc))
    · exact Or.inr (Or.inr (Or.inr (Or.inl hc)))
  have zero : (0 : Int) ∈ pushNew (pushNew (pushNew [0] (F32.floor x)) (F32.round x)) (F32.ceil x) :=
    mem_pushNew_left (mem_pushNew_left (mem_pushNew_left (by simp)))
  simp only
  generalize pushNew (pushNew (pushNew [0] (F32.floor x)) (F32.round x)) (F32.ceil x) = l at *
  split
  · split
    · rename_i hx
      rw [addI16, if_pos (by omega), ok_bind]
      refine ⟨_, rfl, mem_pushNew_left zero, ?_⟩
      intro c hc
      rcases mem_pushNew hc with hc | hc
      · exact base c hc
      · exact Or.inr (Or.inr (Or.inr (Or.inr (Or.inl ⟨hx, hc⟩))))
    · rename_i hx
      rw [subI16, if_pos (by omega), ok_bind]
      refine ⟨_, rfl, mem_pushNew_left zero, ?_⟩
      intro c hc
      rcases mem_pushNew hc with hc | hc
      · exact base c hc
      · exact Or.inr (Or.inr (Or.inr (Or.inr (Or.inr ⟨by omega, hc⟩))))
  · exact ⟨l, rfl, zero, base⟩

/-! ### The columns -/

theorem mergeState_values {P : TrellisState → Prop} {s : TrellisState} {l : List TrellisState} (hs : P s)
    (hl : ∀ t ∈ l, P t) : ∀ t ∈ mergeState s l, P t := by
  induction l with
  | nil => intro t ht; rw [List.mem_singleton.mp ht]; exact hs
  | cons a l ih =>
    have ha := hl a (by simp)
    have hl' : ∀ t ∈ l, P t := fun t ht => hl t (by simp [ht])
    unfold mergeState
    split
    · split
      · intro t ht
        rcases List.mem_cons.mp ht with rfl | ht
        · exact hs
        · exact hl' t ht
      · exact hl
    · intro t ht
      rcases List.mem_cons.mp ht with rfl | ht
      · exact ha
      · exact ih hl' t ht

theorem mergeState_ne (s : TrellisState) (l : List TrellisState) : mergeState s l ≠ [] := by
  cases l with
  | nil => simp [mergeState]
  | cons a l =>
    unfold mergeState
    split
    · split <;> simp
    · simp

theorem mem_insertState {s t : TrellisState} {l : List TrellisState} :
    t ∈ insertState s l ↔ t = s ∨ t ∈ l := by
  induction l with
  | nil => simp [insertState]
  | cons a l ih =>
    unfold insertState
    split
    · simp
    · simp only [List.mem_cons, ih]
      constructor
      · rintro (h | h | h)
        · exact Or.inr (Or.inl h)
        · exact Or.inl h
        · exact Or.inr (Or.inr h)
      · rintro (h | h | h)
        · exact Or.inr (Or.inl h)
        · exact Or.inl h
        · exact Or.inr (Or.inr h)

theorem mem_sortStates {t : TrellisState} {l : List TrellisState} : t ∈ sortStates l ↔ t ∈ l := by
  have key : ∀ acc, t ∈ l.foldl (fun acc s => insertState s acc) acc ↔ t ∈ acc ∨ t ∈ l := by
    induction l with
    | nil => simp
    | cons a l ih =>
      intro acc
      rw [List.foldl_cons, ih, mem_insertState, List.mem_cons]
      constructor
      · rintro ((h | h) | h)
        · exact Or.inr (Or.inl h)
        · exact Or.inl h
        · exact Or.inr (Or.inr h)
      · rintro (h | h | h)
        · exact Or.inl (Or.inr h)
        · exact Or.inl (Or.inl h)
        · exact Or.inr h
  unfold sortStates
  rw [key]; simp

theorem foldl_keeps {α β : Type} (P : β → Prop) (f : β → α → β) (l : List α) (b : β) (hb : P b)
    (h : ∀ a ∈ l, ∀ b, P b → P (f b a)) : P (l.foldl f b) := by
  induction l generalizing b with
  | nil => exact hb
  | cons a l ih => exact ih (f b a) (h a (by simp) b hb) (fun x hx => h x (by simp [hx]))

/-- All the states of a column have values for this coefficient. -/
def ColOk (states : List TrellisState) (c : Int × Int) : Prop := ∀ s ∈ states, Near (F32.div c.1 c.2) s.value

theorem trellisStep_spec {lambda coef q : Int} (h : Small (F32.div coef q)) {states : List TrellisState} (hne : states ≠ []) :
    ∃ next, trellisStep lambda coef q states = .ok next ∧ next ≠ [] ∧ ColOk next (coef, q) := by
  obtain ⟨l, e, h0, hl⟩ := candidates_spec h
  unfold trellisStep
  rw [e, ok_bind]
  have hval : ∀ s ∈ states.zipIdx.foldl (fun acc p =>
      l.foldl (fun acc c => mergeState (nextState lambda coef q p.1 p.2 c) acc) acc) [], Near (F32.div coef q) s.value := by
    refine foldl_keeps (fun acc : List TrellisState => ∀ s ∈ acc, Near (F32.div coef q) s.value) _ _ []
      (fun s hs => by simp at hs) ?_
    intro p _ acc hacc
    refine foldl_keeps (fun acc : List TrellisState => ∀ s ∈ acc, Near (F32.div coef q) s.value) _ _ acc hacc ?_
    intro c hc acc hacc
    exact mergeState_values (P := fun s => Near (F32.div coef q) s.value) (hl c hc) hacc
  have hne2 : states.zipIdx.foldl (fun acc p =>
      l.foldl (fun acc c => mergeState (nextState lambda coef q p.1 p.2 c) acc) acc) [] ≠ [] := by
    have hnel : ∀ (acc : List TrellisState) (p : TrellisState × Nat) (l : List Int), l ≠ [] ∨ acc ≠ [] →
        l.foldl (fun acc c => mergeState (nextState lambda coef q p.1 p.2 c) acc) acc ≠ [] := by
      intro acc p l
      induction l generalizing acc with
      | nil => intro h; exact h.resolve_left (fun h => h rfl)
      | cons a l ih => intro _; exact ih _ (Or.inr (mergeState_ne _ _))
    have hl0 : l ≠ [] := fun e => by rw [e] at h0; simp at h0
    cases states with
    | nil => exact absurd rfl hne
    | cons a as =>
      rw [List.zipIdx_cons, List.foldl_cons]
      refine foldl_keeps (fun acc : List TrellisState => acc ≠ []) _ _ _ (hnel [] _ l (Or.inl hl0)) ?_
      intro p _ acc hacc
      exact hnel acc p l (Or.inl hl0)
  generalize states.zipIdx.foldl (fun acc p =>
      l.foldl (fun acc c => mergeState (nextState lambda coef q p.1 p.2 c) acc) acc) [] = nx at *
  refine ⟨_, rfl, ?_, ?_⟩
  · intro e
    obtain ⟨a, as, rfl⟩ : ∃ a as, nx = a :: as := by
      cases nx with
      | nil => exact absurd rfl hne2
      | cons a as => exact ⟨a, as, rfl⟩
    have hm : a ∈ sortStates (a :: as) := mem_sortStates.mpr (by simp)
    cases hs : sortStates (a :: as) with
    | nil => rw [hs] at hm; simp at hm
    | cons b bs => rw [hs] at e; simp at e
  · intro s hs
    exact hval s (mem_sortStates.mp (List.mem_of_mem_take hs))

/-- Columns, the last first, for coefficients in order. -/
inductive Cols : List (List TrellisState) → List (Int × Int) → Prop where
  | nil : Cols [] []
  | snoc {st cols c coefs} : st ≠ [] → ColOk st c → Cols cols coefs → Cols (st :: cols) (coefs ++ [c])

theorem trellisColumns_spec (lambda : Int) (rest : List (Int × Int)) (hs : ∀ c ∈ rest, Small (F32.div c.1 c.2))
    (init : List TrellisState) (hi : init ≠ []) (new : List (List TrellisState)) (coefs : List (Int × Int))
    (hc : Cols new coefs) :
    ∃ new', trellisColumns lambda rest (new ++ [init]) = .ok (new' ++ [init]) ∧ Cols new' (coefs ++ rest) := by
  induction rest generalizing new coefs with
  | nil => exact ⟨new, rfl, by simpa using hc⟩
  | cons c rest ih =>
    obtain ⟨coef, q⟩ := c
    have hne : (new ++ [init]).headD [] ≠ [] := by
      cases hc with
      | nil => exact hi
      | snoc h _ _ => exact h
    obtain ⟨nx, e, h1, h2⟩ := trellisStep_spec (lambda := lambda) (hs (coef, q) (by simp)) hne
    rw [trellisColumns, e, ok_bind, if_neg h1]
    obtain ⟨new', e', h'⟩ := ih (fun c hc => hs c (by simp [hc])) (nx :: new) (coefs ++ [(coef, q)]) (.snoc h1 h2 hc)
    refine ⟨new', e', ?_⟩
    simpa using h'

theorem backtrack_spec {cols : List (List TrellisState)} {coefs : List (Int × Int)} (h : Cols cols coefs) (i : Nat)
    (acc : List Int) :
    ∃ vals, backtrack cols i acc = vals ++ acc ∧ vals.length = coefs.length ∧
      ∀ (k : Nat) (c : Int × Int), coefs[k]? = some c → Near (F32.div c.1 c.2) (vals.getD k 0) := by
  induction h generalizing i acc with
  | nil => exact ⟨[], rfl, rfl, fun k c hk => by simp at hk⟩
  | snoc hne hok _ ih =>
    rename_i st cols c coefs _
    have key : ∀ (v : Int) (j : Nat), Near (F32.div c.1 c.2) v → ∃ vals, backtrack cols j (v :: acc) = vals ++ acc ∧
        vals.length = (coefs ++ [c]).length ∧
        ∀ (k : Nat) (d : Int × Int), (coefs ++ [c])[k]? = some d → Near (F32.div d.1 d.2) (vals.getD k 0) := by
      intro v j hv
      obtain ⟨vals, e, hl, hval⟩ := ih j (v :: acc)
      refine ⟨vals ++ [v], by rw [e]; simp, by simp [hl], ?_⟩
      intro k d hk
      rcases Nat.lt_or_ge k coefs.length with hlt | hge
      · rw [List.getElem?_append_left hlt] at hk
        rw [List.getD_eq_getElem?_getD, List.getElem?_append_left (by omega), ← List.getD_eq_getElem?_getD]
        exact hval k d hk
      · rw [List.getElem?_append_right hge] at hk
        rw [List.getD_eq_getElem?_getD, List.getElem?_append_right (by omega), hl]
        cases hk0 : k - coefs.length with
        | zero =>
          rw [hk0] at hk
          simp only [List.getElem?_cons_zero, Option.some.injEq] at hk
          subst hk
          exact hv
        | succ n => rw [hk0] at hk; simp at hk
    rw [backtrack]
    cases hst : st[i]? with
    | none => exact key 0 i (Or.inl rfl)
    | some s => exact key s.value s.parent (hok s (List.mem_of_getElem? hst))

theorem zigzag_idxOf : ∀ n < 64, n ≠ 0 → 1 ≤ zigzag.idxOf n ∧ zigzag.idxOf n < 64 ∧
    zigzag.getD (zigzag.idxOf n) 0 = n := by decide +kernel

/-- What `trellis_quantize` returns for a block whose quotients are small. -/
theorem trellisQuantizeWith_spec (lambda : Int) (dct : List Int) (table : List Nat)
    (hs : ∀ n < 64, Small (F32.div (dct.getD n 0) (F32.ofInt (table.getD n 1)))) :
    ∃ r, trellisQuantizeWith lambda dct table = .ok r ∧ r.length = 64 ∧
      r.getD 0 0 = F32.round (F32.div (dct.getD 0 0) (F32.ofInt (table.getD 0 1))) ∧
      ∀ n < 64, n ≠ 0 → Near (F32.div (dct.getD n 0) (F32.ofInt (table.getD n 1))) (r.getD n 0) := by
  unfold trellisQuantizeWith
  simp only
  generalize hco : (List.range 63).map (fun k => (dct.getD (zigzag.getD (k + 1) 0) 0,
    F32.ofInt (table.getD (zigzag.getD (k + 1) 0) 1))) = coefs
  obtain ⟨new, e, hc⟩ := trellisColumns_spec lambda coefs (by
    intro c hc
    rw [← hco] at hc
    obtain ⟨k, hk, rfl⟩ := List.mem_map.mp hc
    rw [List.mem_range] at hk
    exact hs _ (zigzag_pos (k + 1) (by omega)).1) [⟨0, 0, 0, 0⟩] (by simp) [] [] Cols.nil
  rw [List.nil_append] at e hc
  rw [e, ok_bind]
  generalize hinit : ([⟨0, 0, 0, 0⟩] : List TrellisState) = init
  have hpath : ∃ path, trellisPath (new ++ [init]) = path ∧
      ∀ (k : Nat) (c : Int × Int), coefs[k]? = some c → Near (F32.div c.1 c.2) (path.getD k 0) := by
    unfold trellisPath
    cases bestIndex ((new ++ [init]).headD []) 0 none with
    | none => exact ⟨[], rfl, fun k c _ => Or.inl rfl⟩
    | some i =>
      rw [List.dropLast_concat]
      obtain ⟨vals, e, _, h⟩ := backtrack_spec hc i []
      exact ⟨vals, by simpa using e, h⟩
  obtain ⟨path, ep, hp⟩ := hpath
  rw [ep]
  refine ⟨_, rfl, by simp, ?_, ?_⟩
  · rw [getD_map_range 64 _ 0 0 (by decide), if_pos rfl, toI16_id (round_bounds (hs 0 (by decide)))]
  · intro n hn h0
    rw [getD_map_range 64 _ n 0 hn, if_neg h0]
    obtain ⟨z1, z2, z3⟩ := zigzag_idxOf n hn h0
    refine hp (zigzag.idxOf n - 1) (dct.getD n 0, F32.ofInt (table.getD n 1)) ?_
    rw [← hco, List.getElem?_map, List.getElem?_range (by omega), Option.map_some,
      show zigzag.idxOf n - 1 + 1 = zigzag.idxOf n by omega, z3]

theorem trellisQuantize_spec (dct : List Int) (table : List Nat)
    (hs : ∀ n < 64, Small (F32.div (dct.getD n 0) (F32.ofInt (table.getD n 1)))) :
    ∃ r, trellisQuantize dct table = .ok r ∧ r.length = 64 ∧
      r.getD 0 0 = F32.round (F32.div (dct.getD 0 0) (F32.ofInt (table.getD 0 1))) ∧
      ∀ n < 64, n ≠ 0 → Near (F32.div (dct.getD n 0) (F32.ofInt (table.getD n 1))) (r.getD n 0) :=
  trellisQuantizeWith_spec _ dct table hs

theorem near_bound {x v B : Int} (hB : 0 ≤ B) (h1 : -(B * 2 ^ 149) ≤ x) (h2 : x ≤ B * 2 ^ 149) (h : Near x v) :
    -(B + 1) ≤ v ∧ v ≤ B + 1 := by
  have hf : -B ≤ F32.floor x ∧ F32.floor x ≤ B := by unfold F32.floor F32.one; omega
  have hc : -B ≤ F32.ceil x ∧ F32.ceil x ≤ B := by unfold F32.ceil F32.one; omega
  have hr : -B ≤ F32.round x ∧ F32.round x ≤ B := ⟨le_round (by omega) hB, round_le (by omega) hB⟩
  rcases h with h | h | h | h | ⟨_, h⟩ | ⟨_, h⟩ <;> omega

/-- The quotients of a block are small. -/
theorem quotient_range {b : List Int} {t : List Nat} (ht : TableRange t) (hb : Samples b) : ∀ i < 64, (i ≠ 0 → -(1022 * 2 ^ 149) ≤ F32.div ((dct2d b).getD i 0) (F32.ofInt (t.getD i 1)) ∧
        F32.div ((dct2d b).getD i 0) (F32.ofInt (t.getD i 1)) ≤ 1022 * 2 ^ 149) ∧
      (i = 0 → -1024 ≤ F32.round (F32.div ((dct2d b).getD i 0) (F32.ofInt (t.getD i 1))) ∧
        F32.round (F32.div ((dct2d b).getD i 0) (F32.ofInt (t.getD i 1))) ≤ 1021) ∧
      Small (F32.div ((dct2d b).getD i 0) (F32.ofInt (t.getD i 1))) := by
    intro i hi
    have hd := dct2d_range b hb i hi
    obtain ⟨t1, t2⟩ := ht i hi
    generalize (dct2d b).getD i 0 = x at *
    generalize t.getD i 1 = q at *
    unfold Small
    by_cases h0 : i = 0
    · have hx := hd.2 h0
      have := quantize_one (x := x) t1 t2 (2 ^ 149 * 10244 / 10) (1021 * 2 ^ 149) (by decide) (by decide) (by decide)
        (by decide) (by omega)
      generalize F32.div x (F32.ofInt q) = D at *
      exact ⟨fun h => absurd h0 h, fun _ => ⟨le_round (by omega) (by decide), round_le (by omega) (by decide)⟩,
        by omega, by omega⟩
    · have hx := hd.1 h0
      have := quantize_one (x := x) t1 t2 (1021 * 2 ^ 149) (1021 * 2 ^ 149) (by decide) (by decide) (by decide)
        (by decide) (by omega)
      generalize F32.div x (F32.ofInt q) = D at *
      exact ⟨fun _ => ⟨by omega, by omega⟩, fun h => absurd h h0, by omega, by omega⟩

theorem trellisQuantize_ok : QuantOk trellisQuantize := by
  intro b t ht hb
  have hq := quotient_range ht hb
  obtain ⟨r, e, hl, hdc, hac⟩ := trellisQuantize_spec (dct2d b) t (fun n hn => (hq n hn).2.2)
  refine ⟨r, e, blockRange_of (fun i hi => ⟨fun h0 => ?_, fun h0 => ?_⟩)⟩
  · have := near_bound (B := 1022) (by decide) ((hq i hi).1 h0).1 ((hq i hi).1 h0).2 (hac i hi h0)
    omega
  · subst h0
    rw [hdc]
    exact (hq 0 hi).2.1 rfl

theorem progressive_quantOk {data : List UInt8} {o : Options} {q : QuantTables}
    (h : (Ctx.of data o q).Baseline) : ((Ctx.of data o q).progressive o).Baseline := by
  refine ⟨h.w, h.h, h.wmax, h.hmax, h.color, h.len, h.lum, h.chrom, ?_⟩
  unfold Ctx.progressive
  simp only
  by_cases ht : o.trellisQuant = true
  · rw [if_pos ht]; exact trellisQuantize_ok
  · rw [if_neg ht]; exact quantizeBlock_ok

end Pixo.Jpeg
