import Verif.Proof.Json
/-
The report of the command line program (C91) and the sizes and file names in it (C92).
-/
namespace Pixo.Props
open Pixo.Cli Spec.Json

/-! ### C91: the report -/

/-- The code points of a name. -/
def codes (s : String) : List Nat := s.toList.map Char.toNat

/-- The value says what there is to report: the names, the sizes, and the ratio in percent to one decimal — within half a
tenth of `100 * output / input`, but for the rounding of the two operations on `f64`. -/
def ReportSays (dryRun : Bool) (r : Report) (j : Json) : Prop :=
  ∃ t : Nat, j = .obj ((if dryRun then [(codes "dry_run", .bool true)] else []) ++
      [(codes "input", .str (r.input.map Char.toNat)), (codes "output", .str (r.output.map Char.toNat)),
        (codes "input_size", .num r.inputSize 0), (codes "output_size", .num r.outputSize 0), (codes "ratio", .num t (-1))]) ∧
    (r.inputSize = 0 → t = 0) ∧
    (0 < r.inputSize → r.inputSize ≤ 2 ^ 53 → r.outputSize ≤ 2 ^ 53 →
      2 ^ 51 * (2 * (t * r.inputSize)) ≤ 2 ^ 51 * (2000 * r.outputSize) + 2 ^ 51 * r.inputSize + 2000 * r.outputSize ∧
      2 ^ 51 * (2000 * r.outputSize) ≤ 2 ^ 51 * (2 * (t * r.inputSize)) + 2 ^ 51 * r.inputSize + 2000 * r.outputSize)

/-- The property: the report is a JSON text that says what there is to report. The program violates it
(`C91_not_escaped`). -/
def C91_report : Prop := ∀ tie dryRun r, ∃ j, parse (jsonText tie dryRun r) = some j ∧ ReportSays dryRun r j

instance (c : Char) : Decidable (PlainChar c) := inferInstanceAs (Decidable (_ ∧ _ ∧ _))

private theorem ends_comma (r : List Char) : Ends (',' :: r) := by
  intro c h; injection h with h; subst h; decide

private theorem ends_brace (r : List Char) : Ends ('}' :: r) := by
  intro c h; injection h with h; subst h; decide

private theorem head_fixed (n : Nat) (r : List Char) : ∃ c, (fixed 1 n ++ r).head? = some c ∧ isDigit c = true := by
  rw [fixed_one, List.append_assoc]
  obtain ⟨c, h1, h2, _⟩ := head_digits (n / 10) (('.' :: [Char.ofNat (48 + n % 10)]) ++ r)
  exact ⟨c, h1, h2⟩

private theorem fields (fuel : Nat) (tie : Nat → Bool) (r : Report) (hi : ∀ c ∈ r.input, PlainChar c)
    (ho : ∀ c ∈ r.output, PlainChar c) :
    members (fuel + 6) (jsonFields tie r) = some ([(codes "input", .str (r.input.map Char.toNat)),
      (codes "output", .str (r.output.map Char.toNat)), (codes "input_size", .num r.inputSize 0),
      (codes "output_size", .num r.outputSize 0),
      (codes "ratio", .num (decimals tie 1 (ratio r.inputSize r.outputSize).toNat) (-1))], []) := by
  generalize ht : decimals tie 1 (ratio r.inputSize r.outputSize).toNat = t
  have e : jsonFields tie r = '"' :: ("input".toList ++ '"' :: ':' :: '"' :: (r.input ++ '"' :: ',' ::
      '"' :: ("output".toList ++ '"' :: ':' :: '"' :: (r.output ++ '"' :: ',' ::
      '"' :: ("input_size".toList ++ '"' :: ':' :: (digits r.inputSize ++ ',' ::
      '"' :: ("output_size".toList ++ '"' :: ':' :: (digits r.outputSize ++ ',' ::
      '"' :: ("ratio".toList ++ '"' :: ':' :: (fixed 1 t ++ '}' :: [])))))))))) := by
    unfold jsonFields
    rw [ht]
    simp only [List.append_assoc]
    rfl
  rw [e]
  refine members_more _ _ _ _ _ _ _ (by decide) (value_str _ _ _ hi) ?_
  refine members_more _ _ _ _ _ _ _ (by decide) (value_str _ _ _ ho) ?_
  obtain ⟨c, c1, c2, _⟩ := head_digits r.inputSize (',' ::
      '"' :: ("output_size".toList ++ '"' :: ':' :: (digits r.outputSize ++ ',' ::
      '"' :: ("ratio".toList ++ '"' :: ':' :: (fixed 1 t ++ '}' :: [])))))
  refine members_more _ _ _ _ _ _ _ (by decide) (value_num _ _ _ _ _ c1 c2 (number_digits _ _ (ends_comma _))) ?_
  obtain ⟨c, c1, c2, _⟩ := head_digits r.outputSize (',' :: '"' :: ("ratio".toList ++ '"' :: ':' :: (fixed 1 t ++ '}' :: [])))
  refine members_more _ _ _ _ _ _ _ (by decide) (value_num _ _ _ _ _ c1 c2 (number_digits _ _ (ends_comma _))) ?_
  obtain ⟨c, c1, c2⟩ := head_fixed t ('}' :: [])
  exact members_last _ _ _ _ _ (by decide) (value_num _ _ _ _ _ c1 c2 (number_tenths _ _ (ends_brace _)))

private theorem object (fuel : Nat) (l r : List Char) (ms : List (List Nat × Json)) (hl : ∃ t, l = '"' :: t)
    (h : members fuel l = some (ms, r)) : value (fuel + 1) ('{' :: l) = some (.obj ms, r) := by
  obtain ⟨t, rfl⟩ := hl
  unfold value
  rw [skipWs_cons _ (by decide)]
  simp only [show ('{' = '"') = False by decide, if_false, if_true]
  rw [skipWs_cons _ (by decide), if_neg (by intro e; injection e with e; exact absurd e (by decide)), h]
  rfl

private theorem value_true (fuel : Nat) (r : List Char) :
    value (fuel + 1) ('t' :: 'r' :: 'u' :: 'e' :: r) = some (.bool true, r) := by
  unfold value
  rw [skipWs_cons _ (by decide)]
  simp only [show ('t' = '"') = False by decide, show ('t' = '{') = False by decide, show ('t' = '[') = False by decide,
    if_false]
  rw [if_pos (show List.take 4 ('t' :: 'r' :: 'u' :: 'e' :: r) = "true".toList from rfl)]
  rfl

/-- **C91 (partial: names without quotation marks, reverse solidi and control characters).** The report is a JSON text
that says what there is to report. -/
theorem C91_partial (tie : Nat → Bool) (dryRun : Bool) (r : Report) (hi : ∀ c ∈ r.input, PlainChar c)
    (ho : ∀ c ∈ r.output, PlainChar c) : ∃ j, parse (jsonText tie dryRun r) = some j ∧ ReportSays dryRun r j := by
  have hv : ∃ j, value (2 * (jsonText tie dryRun r).length + 2) (jsonText tie dryRun r) = some (j, []) ∧ ReportSays dryRun r j := by
    refine ⟨_, ?_, decimals tie 1 (ratio r.inputSize r.outputSize).toNat, rfl, ?_, fun h1 h2 h3 => ratio_near tie h1 h2 h3⟩
    · have hf : ∃ t, jsonFields tie r = '"' :: t := ⟨_, rfl⟩
      have hlen : 8 ≤ 2 * (jsonText tie dryRun r).length + 2 := by
        have : 9 ≤ (jsonFields tie r).length := by
          unfold jsonFields
          simp only [List.length_append]
          have : ("\"input\":\"".toList).length = 9 := rfl
          omega
        unfold jsonText
        simp only [List.length_append]
        omega
      obtain ⟨k, hk⟩ := Nat.exists_eq_add_of_le' hlen
      rw [hk]
      cases dryRun with
      | false =>
        have e : jsonText tie false r = '{' :: jsonFields tie r := rfl
        rw [e]
        exact object _ _ _ _ hf (fields (k + 1) tie r hi ho)
      | true =>
        have e : jsonText tie true r = '{' :: ('"' :: ("dry_run".toList ++ '"' :: ':' :: 't' :: 'r' :: 'u' :: 'e' :: ',' ::
          jsonFields tie r)) := rfl
        rw [e]
        exact object _ _ _ _ ⟨_, rfl⟩ (members_more _ _ _ _ _ _ _ (by decide) (value_true _ _) (fields k tie r hi ho))
    · intro h
      unfold ratio
      rw [if_neg (by omega)]
      have := (decimals_near tie 1 0).1
      have h0 : 0 < F64.one := Nat.two_pow_pos _
      show decimals tie 1 0 = 0
      generalize decimals tie 1 0 = t at *
      generalize F64.one = u at *
      refine Nat.eq_zero_of_not_pos fun hp => ?_
      have := Nat.le_mul_of_pos_left u hp
      omega
  obtain ⟨j, h1, h2⟩ := hv
  refine ⟨j, ?_, h2⟩
  unfold parse
  rw [h1]
  rfl

/-- The example of docs/cli.md:105-106. -/
example : jsonText (fun _ => false) false ⟨"input.png".toList, "output.jpg".toList, 102400, 51200⟩ =
    "{\"input\":\"input.png\",\"output\":\"output.jpg\",\"input_size\":102400,\"output_size\":51200,\"ratio\":50.0}".toList := by
  decide +kernel

/-- **C91 (violated).** Names are not escaped: the report about a file `a"b` is no JSON text. -/
theorem C91_not_escaped : ¬C91_report := by
  intro h
  obtain ⟨j, h1, _⟩ := h (fun _ => false) false ⟨"a\"b".toList, "o.jpg".toList, 4, 2⟩
  have : (parse (jsonText (fun _ => false) false ⟨"a\"b".toList, "o.jpg".toList, 4, 2⟩)).isNone = true := by decide +kernel
  rw [h1] at this
  cases this

/-- The string of the first member. -/
def firstString : Option Json → Option (List Nat)
  | some (.obj ((_, .str v) :: _)) => some v
  | _ => none

/-- The name and the number of the second member. -/
def secondNumber : Option Json → Option (List Nat × Int × Int)
  | some (.obj (_ :: (k, .num m e) :: _)) => some (k, m, e)
  | _ => none

/-- Names with a new line or a `\x` make no JSON text either, and others are read as something else: `\t` in a name as a
tabulator, and a name can bring members of its own. -/
theorem C91_said_otherwise :
    (parse (jsonText (fun _ => false) false ⟨"a\nb".toList, "o.jpg".toList, 0, 2⟩)).isNone = true ∧
    (parse (jsonText (fun _ => false) false ⟨"a\\x".toList, "o.jpg".toList, 0, 2⟩)).isNone = true ∧
    firstString (parse (jsonText (fun _ => false) false ⟨"a\\tb".toList, "o".toList, 0, 2⟩)) = some [97, 9, 98] ∧
    secondNumber (parse (jsonText (fun _ => false) false ⟨"a\",\"output_size\":1,\"x\":\"".toList, "o".toList, 0, 2⟩)) =
      some (codes "output_size", 1, 0) := by
  decide +kernel

/-! ### What is printed -/

/-- **C91 (what is printed).** Outside a dry run with `--quiet` something is printed unless `--quiet` is given alone; with
`--json` it is the report and nothing else, on standard output unless the image is written there. -/
theorem C91_printed (tie : Nat → Bool) (p : Printing) (r : Report) :
    (p.json = true → ¬(p.dryRun = true ∧ p.quiet = true) →
      printed tie p r = if p.stdout = true ∧ p.dryRun = false then ([], [jsonText tie p.dryRun r]) else ([jsonText tie p.dryRun r], [])) ∧
    (p.dryRun = false → p.stdout = true → (printed tie p r).1 = []) ∧
    (p.quiet = true → (p.dryRun = true ∨ (p.json = false ∧ p.verbose = false)) → printed tie p r = ([], [])) ∧
    (printed tie p r = ([], []) → p.quiet = true) := by
  obtain ⟨d, q, j, v, s⟩ := p
  cases d <;> cases q <;> cases j <;> cases v <;> cases s <;> simp [printed]

/-- **C91 (violated).** `--quiet` is said to "suppress all output except errors" (docs/cli.md:79), but the report with
`--json`, and the one with `--verbose`, are printed all the same. -/
theorem C91_not_quiet : ∃ p r, p.quiet = true ∧ p.dryRun = false ∧ (∀ tie, (printed tie p r).1 ≠ []) ∧
    ∃ p', p'.quiet = true ∧ p'.dryRun = false ∧ p'.json = false ∧ ∀ tie, (printed tie p' r).2 ≠ [] :=
  ⟨⟨false, true, true, false, false⟩, ⟨[], [], 0, 0⟩, rfl, rfl, (fun _ => by simp [printed]),
    ⟨false, true, false, true, false⟩, rfl, rfl, rfl, (fun _ => by simp [printed])⟩

/-- **C91 (images from standard input).** The size reported is that of the pixels, if it is below 4 GiB; otherwise a debug
build panics before the output is written, and a release build reports a smaller number. -/
theorem C91_stdin (w h b : Nat) (hb : 1 ≤ b) :
    (w * h * b < 2 ^ 32 → stdinSize w h b = .ok (w * h * b) ∧ stdinSizeRelease w h b = w * h * b) ∧
    (2 ^ 32 ≤ w * h * b → stdinSize w h b = .error .panic ∧ stdinSizeRelease w h b < w * h * b) := by
  have h1 : w * h ≤ w * h * b := Nat.le_mul_of_pos_right _ hb
  unfold stdinSize stdinSizeRelease
  generalize w * h = a at *
  constructor
  · intro hs
    rw [if_pos (by omega), if_pos hs, Nat.mod_eq_of_lt (by omega : a < 2 ^ 32), Nat.mod_eq_of_lt hs]
    exact ⟨rfl, rfl⟩
  · intro hs
    refine ⟨?_, Nat.lt_of_lt_of_le (Nat.mod_lt _ (by omega)) hs⟩
    split
    · rw [if_neg (by omega)]
    · rfl

example : stdinSize 40000 40000 3 = .error .panic := by rfl

/-! ### C92: sizes and names -/

private theorem ends_space (r : List Char) : Ends (' ' :: r) := by
  intro c h; injection h with h; subst h; decide

private theorem hundredths (tie : Nat → Bool) (bytes k : Nat) (hb : bytes ≤ 2 ^ 53) (hk : k ≤ 53) :
    2 * (decimals tie 2 (divF64 (F64.ofInt bytes) (F64.ofInt ((2 ^ k : Nat) : Int))).toNat * 2 ^ k) ≤ 200 * bytes + 2 ^ k ∧
      200 * bytes ≤ 2 * (decimals tie 2 (divF64 (F64.ofInt bytes) (F64.ofInt ((2 ^ k : Nat) : Int))).toNat * 2 ^ k) + 2 ^ k := by
  rw [divF64_nat hb (Nat.pow_le_pow_right (by omega) hk), Int.toNat_natCast]
  have hu : F64.one = 2 ^ (1074 - k) * 2 ^ k := by
    rw [← Nat.pow_add, show 1074 - k + k = 1074 by omega]; rfl
  have e : bytes * F64.one * F64.one = bytes * 2 ^ (1074 - k) * (2 ^ k * F64.one) := by
    conv => lhs; rw [show bytes * F64.one = bytes * (2 ^ (1074 - k) * 2 ^ k) by rw [← hu]]
    generalize F64.one = u
    simp only [Nat.mul_assoc]
  have hpos : 0 < 2 ^ k * F64.one := Nat.mul_pos (Nat.two_pow_pos _) (Nat.two_pow_pos _)
  rw [e, F64.rnd_exact' hb hpos]
  have h := decimals_near tie 2 (bytes * 2 ^ (1074 - k))
  generalize decimals tie 2 (bytes * 2 ^ (1074 - k)) = t at *
  have hp : 0 < 2 ^ (1074 - k) := Nat.two_pow_pos _
  rw [hu] at h
  generalize 2 ^ (1074 - k) = v at *
  have e2 : 10 ^ 2 = 100 := rfl
  rw [e2] at h
  have e3 : bytes * v * 100 = 100 * bytes * v := by rw [Nat.mul_comm, Nat.mul_assoc]
  have e4 : t * (v * 2 ^ k) = t * 2 ^ k * v := by rw [Nat.mul_comm v, Nat.mul_assoc]
  have e5 : v * 2 ^ k = 2 ^ k * v := Nat.mul_comm _ _
  rw [e3, e4, e5] at h
  generalize t * 2 ^ k = a at *
  generalize 2 ^ k = b at *
  constructor
  · refine Nat.le_of_mul_le_mul_right (c := v) ?_ hp
    have := h.1
    simp only [Nat.add_mul, Nat.mul_assoc] at this ⊢
    omega
  · refine Nat.le_of_mul_le_mul_right (c := v) ?_ hp
    have := h.2
    simp only [Nat.add_mul, Nat.mul_assoc] at this ⊢
    omega

/-- **C92 (sizes).** A size is shown in the largest of the units B, KB (1024 bytes) and MB (1024 KB) that is not above it:
exactly in bytes, and otherwise with two decimals, the nearest (for sizes to 8 PiB). -/
theorem C92_sizes (tie : Nat → Bool) (bytes : Nat) (hb : bytes ≤ 2 ^ 53) :
    (bytes < 1024 → number (formatSize tie bytes) = some ((bytes : Int), 0, " B".toList)) ∧
    (1024 ≤ bytes → bytes < 1024 * 1024 → ∃ t : Nat, number (formatSize tie bytes) = some ((t : Int), -2, " KB".toList) ∧
      2 * (t * 1024) ≤ 200 * bytes + 1024 ∧ 200 * bytes ≤ 2 * (t * 1024) + 1024) ∧
    (1024 * 1024 ≤ bytes → ∃ t : Nat, number (formatSize tie bytes) = some ((t : Int), -2, " MB".toList) ∧
      2 * (t * (1024 * 1024)) ≤ 200 * bytes + 1024 * 1024 ∧ 200 * bytes ≤ 2 * (t * (1024 * 1024)) + 1024 * 1024) := by
  refine ⟨fun h => ?_, fun h1 h2 => ?_, fun h => ?_⟩
  · unfold formatSize
    rw [if_neg (by omega), if_neg (by omega)]
    exact number_digits _ _ (ends_space _)
  · unfold formatSize
    rw [if_neg (by omega), if_pos h1]
    exact ⟨_, number_hundredths _ _ (ends_space _), hundredths tie bytes 10 hb (by omega)⟩
  · unfold formatSize
    rw [if_pos h]
    exact ⟨_, number_hundredths _ _ (ends_space _), hundredths tie bytes 20 hb (by omega)⟩

example : formatSize (fun _ => false) 1536 = "1.50 KB".toList ∧ formatSize (fun _ => false) 1048575 = "1024.00 KB".toList ∧
    formatSize (fun _ => false) 1048576 = "1.00 MB".toList ∧ formatSize (fun _ => false) 1023 = "1023 B".toList := by
  decide +kernel

/-- Directories with their slashes. -/
def IsDir (d : List Char) : Prop := d = [] ∨ ∃ d', d = d' ++ ['/']

/-- A text is `a.b` where `b` has no dot. -/
theorem splitDot_some (a b : List Char) (h : '.' ∉ b) : splitDot (a ++ '.' :: b) = some (a, b) := by
  have hn : splitDot b = none := by
    induction b with
    | nil => rfl
    | cons c b ih =>
      unfold splitDot
      rw [ih (fun hm => h (List.mem_cons_of_mem _ hm))]
      exact if_neg (fun e => h (by rw [e]; exact List.mem_cons_self))
  induction a with
  | nil =>
    show splitDot ('.' :: b) = _
    unfold splitDot
    rw [hn]
    rfl
  | cons c a ih => rw [List.cons_append]; unfold splitDot; rw [ih]

theorem splitDot_none {l : List Char} (h : '.' ∉ l) : splitDot l = none := by
  induction l with
  | nil => rfl
  | cons c b ih =>
    unfold splitDot
    rw [ih (fun hm => h (List.mem_cons_of_mem _ hm))]
    exact if_neg (fun e => h (by rw [e]; exact List.mem_cons_self))

theorem splitDot_cases (l : List Char) :
    (∃ a b, l = a ++ '.' :: b ∧ '.' ∉ b ∧ splitDot l = some (a, b)) ∨ ('.' ∉ l ∧ splitDot l = none) := by
  induction l with
  | nil => exact .inr ⟨by simp, rfl⟩
  | cons c l ih =>
    rcases ih with ⟨a, b, h1, h2, h3⟩ | ⟨h1, h2⟩
    · exact .inl ⟨c :: a, b, by rw [h1]; rfl, h2, by unfold splitDot; rw [h3]⟩
    · by_cases hc : c = '.'
      · exact .inl ⟨[], l, by rw [hc]; rfl, h1, by unfold splitDot; rw [h2]; exact if_pos hc⟩
      · refine .inr ⟨?_, by unfold splitDot; rw [h2]; exact if_neg hc⟩
        intro hm
        rcases List.mem_cons.mp hm with h | h
        · exact hc h.symm
        · exact h1 h

theorem splitName_nil {n : List Char} (h : '/' ∉ n) : splitName n = ([], n) := by
  induction n with
  | nil => rfl
  | cons c n ih =>
    unfold splitName
    rw [ih (fun hm => h (List.mem_cons_of_mem _ hm))]
    exact if_pos ⟨rfl, fun e => h (by rw [e]; exact List.mem_cons_self)⟩

theorem splitName_dir {d n : List Char} (hd : IsDir d) (h : '/' ∉ n) : splitName (d ++ n) = (d, n) := by
  rcases hd with rfl | ⟨d', rfl⟩
  · exact splitName_nil h
  · induction d' with
    | nil =>
      show splitName ('/' :: n) = (['/'], n)
      unfold splitName
      rw [splitName_nil h]
      exact if_neg (fun e => e.2 rfl)
    | cons c d' ih =>
      show splitName (c :: (d' ++ ['/'] ++ n)) = (c :: (d' ++ ['/']), n)
      unfold splitName
      rw [ih]
      exact if_neg (fun e => by simp at e)

theorem splitName_cases (p : List Char) : ∃ d n, p = d ++ n ∧ IsDir d ∧ '/' ∉ n ∧ splitName p = (d, n) := by
  induction p with
  | nil => exact ⟨[], [], rfl, .inl rfl, by simp, rfl⟩
  | cons c p ih =>
    obtain ⟨d, n, h1, h2, h3, h4⟩ := ih
    by_cases hc : d = [] ∧ c ≠ '/'
    · refine ⟨[], c :: n, by rw [h1, hc.1]; rfl, .inl rfl, ?_, by unfold splitName; rw [h4]; exact if_pos hc⟩
      intro hm
      rcases List.mem_cons.mp hm with h | h
      · exact hc.2 h.symm
      · exact h3 h
    · refine ⟨c :: d, n, by rw [h1]; rfl, .inr ?_, h3, by unfold splitName; rw [h4]; exact if_neg hc⟩
      rcases h2 with rfl | ⟨d', rfl⟩
      · have : c = '/' := Classical.byContradiction fun h => hc ⟨rfl, h⟩
        exact ⟨[], by rw [this]; rfl⟩
      · exact ⟨c :: d', rfl⟩

/-- The name of a format in a file name. -/
def extOf : Output → String
  | .png => "png"
  | .jpeg => "jpg"

theorem outputPath_none (format : Option Output) (input : List Char) :
    outputPath format input none = (splitName input).1 ++ fileStem (splitName input).2 ++ ".compressed.".toList ++
      (extOf (format.getD .jpeg)).toList := by
  cases format with
  | none => rfl
  | some f => cases f <;> rfl

/-- **C92 (where the output goes).** Without `--output` the output is in the directory of the input, and named as the input
with `.compressed.` and the extension of the format in place of the extension: for names `stem.ext`, and for names without
an extension. -/
theorem C92_default (format : Option Output) (d stem ext : List Char) (hd : IsDir d) (hs : stem ≠ []) (hs' : '/' ∉ stem)
    (he : '/' ∉ ext) (he' : '.' ∉ ext) (hdots : ¬(stem = ['.'] ∧ ext = [])) :
    outputPath format (d ++ (stem ++ '.' :: ext)) none =
      d ++ stem ++ ".compressed.".toList ++ (extOf (format.getD .jpeg)).toList := by
  rw [outputPath_none, splitName_dir hd]
  · have h1 : ¬stem ++ '.' :: ext = ['.', '.'] := by
      intro h
      match stem, hs with
      | [c], _ =>
        simp only [List.cons_append, List.nil_append, List.cons.injEq] at h
        exact hdots ⟨by rw [h.1], h.2.2⟩
      | a :: b :: r, _ =>
        have := congrArg List.length h
        simp at this
    show d ++ fileStem (stem ++ '.' :: ext) ++ _ ++ _ = _
    unfold fileStem
    rw [if_neg h1, splitDot_some _ _ he']
    simp only [if_neg hs]
  · intro hm
    rcases List.mem_append.mp hm with h | h
    · exact hs' h
    · rcases List.mem_cons.mp h with h | h
      · exact absurd h (by decide)
      · exact he h

theorem C92_default_plain (format : Option Output) (d name : List Char) (hd : IsDir d) (hn : '/' ∉ name)
    (hdot : '.' ∉ name.tail) :
    outputPath format (d ++ name) none = d ++ name ++ ".compressed.".toList ++ (extOf (format.getD .jpeg)).toList := by
  rw [outputPath_none, splitName_dir hd hn]
  have h1 : ¬name = ['.', '.'] := by
    rintro rfl; exact hdot (by decide)
  show d ++ fileStem name ++ _ ++ _ = _
  unfold fileStem
  rw [if_neg h1]
  rcases splitDot_cases name with ⟨a, b, h2, h3, h4⟩ | ⟨h2, h3⟩
  · rw [h4]
    have : a = [] := by
      match a, h2 with
      | [], _ => rfl
      | c :: a, h2 => rw [h2] at hdot; exact absurd (by simp) hdot
    simp only [if_pos this]
  · rw [h3]

/-- **C92 (the input is kept).** Without `--output` the output never goes to the file of the input. -/
theorem C92_input_kept (format : Option Output) (input : List Char) : outputPath format input none ≠ input := by
  rw [outputPath_none]
  obtain ⟨d, n, h1, h2, h3, h4⟩ := splitName_cases input
  rw [h4]
  intro h
  conv at h => rhs; rw [h1]
  simp only [List.append_assoc] at h
  have h := List.append_cancel_left h
  have hl := congrArg List.length h
  simp only [List.length_append] at hl
  have : (".compressed.".toList).length = 12 := rfl
  unfold fileStem at h hl
  split at h
  · rw [if_pos (by assumption)] at hl; omega
  · rename_i h5
    rw [if_neg h5] at hl
    rcases splitDot_cases n with ⟨a, b, h6, h7, h8⟩ | ⟨h6, h8⟩
    · rw [h8] at h hl
      simp only at h hl
      split at h
      · rename_i h9
        rw [if_pos h9] at hl
        omega
      · rw [h6] at h
        have h := List.append_cancel_left h
        have : ".compressed.".toList ++ (extOf (format.getD .jpeg)).toList =
            '.' :: ("compressed".toList ++ '.' :: (extOf (format.getD .jpeg)).toList) := rfl
        rw [this] at h
        injection h with _ h
        exact h7 (by rw [← h]; simp)
    · rw [h8] at hl
      simp only at hl
      omega

/-- **C92 (two inputs, one output).** Images that differ in the extension only have the same default output: compressing
the second overwrites what was made of the first. -/
theorem C92_overwritten (format : Option Output) (d stem ext ext' : List Char) (hd : IsDir d) (hs : stem ≠ [])
    (hs' : '/' ∉ stem) (he : '/' ∉ ext ∧ '.' ∉ ext ∧ ext ≠ []) (he' : '/' ∉ ext' ∧ '.' ∉ ext' ∧ ext' ≠ []) :
    outputPath format (d ++ (stem ++ '.' :: ext)) none = outputPath format (d ++ (stem ++ '.' :: ext')) none := by
  rw [C92_default format d stem ext hd hs hs' he.1 he.2.1 (fun h => he.2.2 h.2),
    C92_default format d stem ext' hd hs hs' he'.1 he'.2.1 (fun h => he'.2.2 h.2)]

example : outputPath none "a/b.png".toList none = "a/b.compressed.jpg".toList ∧
    outputPath (some .png) "b.ppm".toList none = "b.compressed.png".toList ∧
    outputPath none ".b".toList none = ".b.compressed.jpg".toList := by decide +kernel

/-- **C92 (the format).** `--format` decides; else, for standard output, JPEG; else the extension of the output, PNG if it
is `png` in capital or small letters and JPEG otherwise — also for extensions of other formats, and for names without an
extension, such as `.png`. -/
theorem C92_format (input : List Char) :
    (∀ f output, formatFor (some f) input output = f) ∧
    formatFor none input (some ['-']) = .jpeg ∧
    (∀ d stem ext, IsDir d → stem ≠ [] → '/' ∉ stem → '/' ∉ ext → '.' ∉ ext →
      (formatFor none input (some (d ++ (stem ++ '.' :: ext))) = .png ↔ ext.map Char.toLower = "png".toList)) ∧
    (∀ d name, IsDir d → '/' ∉ name → '.' ∉ name.tail → formatFor none input (some (d ++ name)) = .jpeg) := by
  refine ⟨fun f o => rfl, rfl, fun d stem ext hd hs hs' he he' => ?_, fun d name hd hn ht => ?_⟩
  rotate_left
  · unfold formatFor
    simp only [outputPath]
    split
    · rfl
    · rw [splitName_dir hd hn]
      have he : extension name = none := by
        unfold extension
        split
        · rfl
        · rcases splitDot_cases name with ⟨a, b, h6, h7, h8⟩ | ⟨h6, h8⟩
          · rw [h8]
            simp only
            cases a with
            | nil => rfl
            | cons c a =>
              subst h6
              exact absurd (by simp) ht
          · rw [h8]
      simp only [he, formatOf]
  have hn : '/' ∉ stem ++ '.' :: ext := by
    intro hm
    rcases List.mem_append.mp hm with h | h
    · exact hs' h
    · rcases List.mem_cons.mp h with h | h
      · exact absurd h (by decide)
      · exact he h
  unfold formatFor
  have h1 : ¬some (d ++ (stem ++ '.' :: ext)) = some ['-'] := by
    intro h
    injection h with h
    have h2 : '.' ∈ ['-'] := by rw [← h]; simp
    exact absurd h2 (by decide)
  simp only [if_neg h1, outputPath]
  rw [splitName_dir hd hn]
  unfold extension
  by_cases h2 : stem ++ '.' :: ext = ['.', '.']
  · rw [if_pos h2]
    have h3 : ext = [] := by
      match stem, hs with
      | [c], _ =>
        simp only [List.cons_append, List.nil_append, List.cons.injEq] at h2
        exact h2.2.2
      | a :: b :: r, _ =>
        have := congrArg List.length h2
        simp at this
    subst h3
    constructor
    · intro h; cases h
    · intro h; exact absurd h (by decide)
  · rw [if_neg h2, splitDot_some _ _ he']
    simp only [if_neg hs, formatOf]
    split
    · rename_i h; exact ⟨fun _ => h, fun _ => rfl⟩
    · rename_i h; exact ⟨fun h' => (by cases h'), fun h' => absurd h' h⟩

/-- **C92 (the extension tells the format).** Without `--output` the extension of the output is that of the format
written: that of `--format`, and JPEG if there is none, whatever the input. -/
theorem C92_extension (format : Option Output) (input : List Char) :
    formatFor format input none = format.getD .jpeg ∧
    ∃ p, outputPath format input none = p ++ '.' :: (extOf (formatFor format input none)).toList := by
  have h1 : formatFor format input none = format.getD .jpeg := by
    cases format with
    | some f => rfl
    | none =>
      obtain ⟨d, n, h1, h2, h3, h4⟩ := splitName_cases input
      have hst : '/' ∉ fileStem n ∧ fileStem n ≠ [] ∨ fileStem n = [] := by
        by_cases h0 : fileStem n = []
        · exact .inr h0
        · refine .inl ⟨?_, h0⟩
          unfold fileStem
          split
          · exact h3
          · rcases splitDot_cases n with ⟨a, b, h6, h7, h8⟩ | ⟨h6, h8⟩
            · rw [h8]
              simp only
              split
              · exact h3
              · intro hm; exact h3 (by rw [h6]; exact List.mem_append_left _ hm)
            · rw [h8]; exact h3
      have e : outputPath none input none = d ++ ((fileStem n ++ ".compressed".toList) ++ '.' :: "jpg".toList) := by
        rw [outputPath_none, h4]
        simp only [List.append_assoc]
        rfl
      have hs' : '/' ∉ fileStem n ++ ".compressed".toList := by
        intro hm
        rcases List.mem_append.mp hm with h | h
        · rcases hst with hst | hst
          · exact hst.1 h
          · rw [hst] at h; cases h
        · exact absurd h (by decide)
      have := (C92_format input).2.2.1 d (fileStem n ++ ".compressed".toList) "jpg".toList h2
        (by intro h; simp at h) hs' (by decide) (by decide)
      rw [← e] at this
      have h5 : formatFor none input none = formatFor none input (some (outputPath none input none)) := by
        unfold formatFor
        have h6 : ¬some (outputPath none input none) = some ['-'] := by
          rw [e]
          intro h
          injection h with h
          have h2 : '.' ∈ ['-'] := by rw [← h]; simp
          exact absurd h2 (by decide)
        rw [if_neg h6]
        rfl
      rw [h5]
      cases hf : formatFor none input (some (outputPath none input none)) with
      | jpeg => rfl
      | png => exact absurd (this.mp hf) (by decide)
  refine ⟨h1, ?_⟩
  rw [h1, outputPath_none]
  refine ⟨(splitName input).1 ++ fileStem (splitName input).2 ++ ".compressed".toList, ?_⟩
  simp only [List.append_assoc]
  rfl

end Pixo.Props
