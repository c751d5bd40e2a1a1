import Verif.Model.F64
import Verif.Model.Cli
/-
Model of what the command line program says about a run and of the names it gives to files (src/bin/pixo.rs). Texts are
lists of characters; paths are Unix paths of characters whose last component is the name of a file.
-/
namespace Pixo.Cli

/-! ### Numbers as text -/

/-- The decimal digits of a number, `{}` of a `u64`. -/
def digits (n : Nat) : List Char := if n < 10 then [Char.ofNat (48 + n)] else digits (n / 10) ++ [Char.ofNat (48 + n % 10)]

/-- A non-negative `f64` (units of `2^-1074`) as a multiple of `10^-places`, to nearest. Whether a value halfway is
rounded up depends on the version of the standard library (`tie`). -/
def decimals (tie : Nat → Bool) (places v : Nat) : Nat :=
  let n := v * 10 ^ places
  let q := n / F64.one
  let r := n % F64.one
  if 2 * r > F64.one ∨ (2 * r = F64.one ∧ tie q = true) then q + 1 else q

/-- A multiple of `10^-places` as text, `{:.places}`. -/
def fixed (places n : Nat) : List Char :=
  let f := digits (n % 10 ^ places)
  digits (n / 10 ^ places) ++ '.' :: (List.replicate (places - f.length) '0' ++ f)

/-- `a / b` of positive `f64`. -/
def divF64 (a b : Int) : Int := F64.rndI (a * F64.one) b.toNat

/-- The ratio in percent (src/bin/pixo.rs:751-756). -/
def ratio (inputSize outputSize : Nat) : Int :=
  if inputSize > 0 then F64.mul (divF64 (F64.ofInt outputSize) (F64.ofInt inputSize)) (F64.ofInt 100) else 0

/-- The size of the input read from standard input, the size of the pixels given to the encoder: a product of `u32`
(src/bin/pixo.rs:744-748). -/
def stdinSize (width height bytesPerPixel : Nat) : R Nat :=
  if width * height < 2 ^ 32 then
    if width * height * bytesPerPixel < 2 ^ 32 then .ok (width * height * bytesPerPixel) else .error .panic
  else .error .panic

/-- The same in a release build, where products wrap around. -/
def stdinSizeRelease (width height bytesPerPixel : Nat) : Nat := width * height % 2 ^ 32 * bytesPerPixel % 2 ^ 32

/-- `format_size` (src/bin/pixo.rs:854-867). -/
def formatSize (tie : Nat → Bool) (bytes : Nat) : List Char :=
  if bytes ≥ 1024 * 1024 then
    fixed 2 (decimals tie 2 (divF64 (F64.ofInt bytes) (F64.ofInt (1024 * 1024))).toNat) ++ " MB".toList
  else if bytes ≥ 1024 then
    fixed 2 (decimals tie 2 (divF64 (F64.ofInt bytes) (F64.ofInt 1024)).toNat) ++ " KB".toList
  else digits bytes ++ " B".toList

/-! ### The report -/

/-- What is reported: the names shown (`<stdin>`, `<stdout>` or paths; src/bin/pixo.rs:758-767) and the sizes. -/
structure Report where
  input : List Char
  output : List Char
  inputSize : Nat
  outputSize : Nat

/-- The common part of the two JSON texts (src/bin/pixo.rs:774, 817), after the brace and the mark of a dry run. -/
def jsonFields (tie : Nat → Bool) (r : Report) : List Char :=
  "\"input\":\"".toList ++ r.input ++ "\",\"output\":\"".toList ++ r.output ++ "\",\"input_size\":".toList ++
    digits r.inputSize ++ ",\"output_size\":".toList ++ digits r.outputSize ++ ",\"ratio\":".toList ++
    fixed 1 (decimals tie 1 (ratio r.inputSize r.outputSize).toNat) ++ "}".toList

/-- The JSON text (src/bin/pixo.rs:772-775, 815-818). -/
def jsonText (tie : Nat → Bool) (dryRun : Bool) (r : Report) : List Char :=
  "{".toList ++ (if dryRun then "\"dry_run\":true,".toList else []) ++ jsonFields tie r

/-- The line with the two sizes (src/bin/pixo.rs:778-783, 830-835). -/
def sizeText (tie : Nat → Bool) (r : Report) : List Char :=
  formatSize tie r.inputSize ++ " -> ".toList ++ formatSize tie r.outputSize ++ " (".toList ++
    fixed 1 (decimals tie 1 (ratio r.inputSize r.outputSize).toNat) ++ "%)".toList

/-- The arguments that decide what is printed. -/
structure Printing where
  dryRun : Bool
  quiet : Bool
  json : Bool
  verbose : Bool
  stdout : Bool

/-- The lines printed to standard output and to standard error at the end of a run (src/bin/pixo.rs:769-836). Of the
verbose text only the line with the sizes is here. -/
def printed (tie : Nat → Bool) (p : Printing) (r : Report) : List (List Char) × List (List Char) :=
  if p.dryRun then
    if !p.quiet then
      if p.json then ([jsonText tie true r], [])
      else ([sizeText tie r], ["Dry run: would write to ".toList ++ r.output])
    else ([], [])
  else
    let printResults := fun (msg : List Char) => if p.stdout then ([], [msg]) else ([msg], [])
    if p.json then printResults (jsonText tie false r)
    else if p.verbose then ([], ["Output: ".toList ++ r.output, "  Size: ".toList ++ sizeText tie r])
    else if !p.quiet then printResults (sizeText tie r)
    else ([], [])

/-! ### Names of files -/

/-- A list split at its last dot. -/
def splitDot : List Char → Option (List Char × List Char)
  | [] => none
  | c :: r =>
    match splitDot r with
    | some (a, b) => some (c :: a, b)
    | none => if c = '.' then some ([], r) else none

/-- The directories with their slashes, and the name of the file. -/
def splitName : List Char → List Char × List Char
  | [] => ([], [])
  | c :: r =>
    match splitName r with
    | (d, n) => if d = [] ∧ c ≠ '/' then ([], c :: n) else (c :: d, n)

/-- `Path::extension`: what follows the last dot of the name, unless it is the first character. -/
def extension (name : List Char) : Option (List Char) :=
  if name = ['.', '.'] then none
  else match splitDot name with
    | some (a, b) => if a = [] then none else some b
    | none => none

/-- `Path::file_stem`. -/
def fileStem (name : List Char) : List Char :=
  if name = ['.', '.'] then name
  else match splitDot name with
    | some (a, _) => if a = [] then name else a
    | none => name

/-- The format an extension stands for (src/bin/pixo.rs:612-617, 844-849): `to_lowercase` gives letters of `png`, `jpg`
and `jpeg` only for themselves and their capitals. -/
def formatOf (ext : Option (List Char)) : Output :=
  match ext with
  | some e => if e.map Char.toLower = "png".toList then .png else .jpeg
  | none => .jpeg

/-- `determine_format` (src/bin/pixo.rs:839-852). -/
def determineFormat (format : Option Output) (output : Option (List Char)) : Output :=
  match format with
  | some f => f
  | none => formatOf (output.bind (fun p => extension (splitName p).2))

/-- The path of the output (src/bin/pixo.rs:587-601) for an input that is not `-`: `set_extension` replaces what
follows the stem of the name. -/
def outputPath (format : Option Output) (input : List Char) (output : Option (List Char)) : List Char :=
  match output with
  | some p => p
  | none =>
    let ext := match determineFormat format none with
      | .png => "png".toList
      | .jpeg => "jpg".toList
    (splitName input).1 ++ fileStem (splitName input).2 ++ ".compressed.".toList ++ ext

/-- The format of the output (src/bin/pixo.rs:603-618). -/
def formatFor (format : Option Output) (input : List Char) (output : Option (List Char)) : Output :=
  match format with
  | some f => f
  | none => if output = some ['-'] then .jpeg else formatOf (extension (splitName (outputPath format input output)).2)

end Pixo.Cli
