import Verif.Model.Jpeg
import Verif.Model.JpegTrellis
/-
Model of the progressive scans (src/jpeg/progressive.rs and encode_progressive of src/jpeg/mod.rs)
and of `encode_into`. Only scans of `simple_progressive_script` are ever written; the refinement
procedures (`encode_ac_refine`, `encode_dc_refine`) and `default_progressive_script` are in JpegRefine.
-/
namespace Pixo.Jpeg
open Pixo

/-- `ScanSpec` (src/jpeg/progressive.rs:28-40); every scan of the script has one component. -/
structure ScanSpec where
  component : Nat
  ss : Nat
  se : Nat
  ah : Nat
  al : Nat
  deriving DecidableEq, Repr

/-- `simple_progressive_script` (src/jpeg/progressive.rs:98-110). -/
def script : List ScanSpec :=
  [⟨0, 0, 0, 0, 0⟩, ⟨1, 0, 0, 0, 0⟩, ⟨2, 0, 0, 0, 0⟩,
   ⟨0, 1, 10, 0, 0⟩, ⟨0, 11, 63, 0, 0⟩, ⟨1, 1, 63, 0, 0⟩, ⟨2, 1, 63, 0, 0⟩]

/-- Inner loop of `get_code_from_table` (src/jpeg/progressive.rs:368-374): `inl` is the returned
code, `inr` the `code` and `val_idx` to go on with. -/
def findCode (vals : List Nat) (symbol length : Nat) : Nat → Nat → Nat → R ((Nat × Nat) ⊕ (Nat × Nat))
  | 0, code, valIdx => .ok (.inr (code, valIdx))
  | count + 1, code, valIdx =>
    if vals[valIdx]? = some symbol then .ok (.inl (code, length))
    else do
      let code ← addU16 code 1
      findCode vals symbol length count code (valIdx + 1)

/-- Outer loop of `get_code_from_table` (src/jpeg/progressive.rs:367-376). -/
def findCodes (vals : List Nat) (symbol : Nat) : List Nat → Nat → Nat → Nat → R (Nat × Nat)
  | [], _, _, _ => .ok (0, 4)
  | count :: bits, length, code, valIdx => do
    match ← findCode vals symbol length count code valIdx with
    | .inl c => return c
    | .inr (code, valIdx) => findCodes vals symbol bits (length + 1) ((code <<< 1) % 2 ^ 16) valIdx

/-- `get_code_from_table` (src/jpeg/progressive.rs:363-380). A symbol without a code gives four
zero bits. -/
def codeFromTable (t : Table) (symbol : Nat) : R (Nat × Nat) := findCodes t.vals symbol t.bits 1 0 0

/-- `get_dc_code` (src/jpeg/progressive.rs:347-353). -/
def progDcCode (t : HuffTables) (cat : Nat) (lum : Bool) : R (Nat × Nat) :=
  codeFromTable (if lum then t.dcLum else t.dcChrom) cat

/-- `get_ac_code` (src/jpeg/progressive.rs:355-361). -/
def progAcCode (t : HuffTables) (rs : Nat) (lum : Bool) : R (Nat × Nat) :=
  codeFromTable (if lum then t.acLum else t.acChrom) rs

/-- `flush_eob_run` (src/jpeg/progressive.rs:313-345), for a run of at least one. `nbits` is the
number of bits of the run minus one. -/
def flushEobRun (t : HuffTables) (lum : Bool) (w : BitWriterMsb) (run : Nat) : R BitWriterMsb := do
  let nbits := run.log2
  let c ← progAcCode t ((nbits <<< 4) % 2 ^ 8) lum
  let w := writeCode w c
  return if nbits > 0 then w.writeBits (run - (1 <<< nbits)) nbits else w

/-- `while zero_run >= 16` (src/jpeg/progressive.rs:188-192). -/
def progZrl (t : HuffTables) (lum : Bool) : Nat → BitWriterMsb → R BitWriterMsb
  | 0, w => .ok w
  | n + 1, w => do
    let c ← progAcCode t 0xF0 lum
    progZrl t lum n (writeCode w c)

/-- The coefficient loop (src/jpeg/progressive.rs:178-204) over the band up to its last non-zero
coefficient. -/
def progCoefs (t : HuffTables) (lum : Bool) : List Int → Nat → BitWriterMsb → R BitWriterMsb
  | [], _, w => .ok w
  | coef :: rest, zeroRun, w =>
    if coef = 0 then progCoefs t lum rest (zeroRun + 1) w
    else do
      let w ← progZrl t lum (zeroRun / 16) w
      let c ← progAcCode t ((((zeroRun % 16) <<< 4) % 2 ^ 8) ||| category coef) lum
      let w := writeCode w c
      let v ← encodeValue coef
      progCoefs t lum rest 0 (writeCode w v)

/-- The list without its trailing zeros: the search for `last_nonzero`
(src/jpeg/progressive.rs:150-161). -/
def trimZeros (l : List Int) : List Int := (l.reverse.dropWhile (· = 0)).reverse

/-- `encode_ac_first` (src/jpeg/progressive.rs:141-210). -/
def encodeAcFirst (t : HuffTables) (scan : ScanSpec) (lum : Bool) (w : BitWriterMsb) (block : List Int)
    (eobRun : Nat) : R (BitWriterMsb × Nat) :=
  let band := (((zigzagReorder block).drop scan.ss).take (scan.se + 1 - scan.ss)).map
    (fun v => v / 2 ^ scan.al)
  let used := trimZeros band
  if used = [] then do
    let run ← addU16 eobRun 1
    if run = 0x7FFF then do
      let w ← flushEobRun t lum w run
      return (w, 0)
    else return (w, run)
  else do
    let w ← if eobRun > 0 then flushEobRun t lum w eobRun else .ok w
    let w ← progCoefs t lum used 0 w
    return (w, if used.length < band.length then 1 else 0)

/-- The block loop of `encode_ac_first_scan` (src/jpeg/mod.rs:1350-1358) with the final flush
(1360-1363). -/
def acScanBlocks (t : HuffTables) (scan : ScanSpec) (lum : Bool) :
    List (List Int) → BitWriterMsb → Nat → R BitWriterMsb
  | [], w, run => if run > 0 then flushEobRun t lum w run else .ok w
  | b :: bs, w, run => do
    let (w, run) ← encodeAcFirst t scan lum w b run
    acScanBlocks t scan lum bs w run

/-- The block loop of `encode_dc_scan` (src/jpeg/mod.rs:1285-1307), first scan. -/
def dcScanBlocks (t : HuffTables) (scan : ScanSpec) (lum : Bool) :
    List (List Int) → BitWriterMsb → Int → R BitWriterMsb
  | [], w, _ => .ok w
  | b :: bs, w, prev => do
    let dc := b.headD 0
    let diff ← subI16 dc prev
    let shifted := diff / 2 ^ scan.al
    let cat := category shifted
    let c ← progDcCode t cat lum
    let w := writeCode w c
    let v ← encodeValue shifted
    let w := if cat > 0 then writeCode w v else w
    dcScanBlocks t scan lum bs w dc

/-- `write_sos_progressive` (src/jpeg/mod.rs:650-682). -/
def sosProgressive (s : ScanSpec) : List UInt8 :=
  be16 0xFFDA ++ be16 8 ++ [(1 : UInt8)] ++
    [UInt8.ofNat (s.component + 1), if s.component = 0 then (0x00 : UInt8) else 0x11] ++
    [UInt8.ofNat s.ss, UInt8.ofNat s.se, UInt8.ofNat ((s.ah <<< 4) ||| s.al)]

/-- `compute_all_coefficients_sequential` (src/jpeg/mod.rs:1048-1132): the quantized blocks of the
three components, MCU by MCU. -/
def allCoefficients (c : Ctx) : R (List (List Int) × List (List Int) × List (List Int)) := do
  let mcus ← c.mcus
  let comp := fun (k : Nat) => mcus.flatMap (fun m => (m.filter (·.1 = k)).map (·.2))
  return (comp 0, comp 1, comp 2)

/-- One scan (src/jpeg/mod.rs:888-928): header and entropy-coded bytes. -/
def encodeProgScan (t : HuffTables) (coeffs : List (List Int)) (s : ScanSpec) : R (List UInt8) := do
  let w ← if s.ss = 0 ∧ s.se = 0 then dcScanBlocks t s (s.component = 0) coeffs {} 0
    else acScanBlocks t s (s.component = 0) coeffs {} 0
  return sosProgressive s ++ w.finish

/-- Coefficients of a component (src/jpeg/mod.rs:1260-1265, 1337-1342). -/
def component (y cb cr : List (List Int)) (k : Nat) : List (List Int) :=
  if k = 0 then y else if k = 1 then cb else cr

/-- `encode_progressive` (src/jpeg/mod.rs:872-927). -/
def encodeProgressive (c : Ctx) (t : HuffTables) : R (List UInt8) := do
  let (y, cb, cr) ← allCoefficients c
  let scans ← script.mapM (fun s => encodeProgScan t (component y cb cr s.component) s)
  return scans.flatten

/-! ### The encoder -/

/-- `MAX_DIMENSION` (src/jpeg/mod.rs:33). -/
def maxDimension : Nat := 65535

/-- The checks of `encode_into` (src/jpeg/mod.rs:332-376); the multiplications cannot overflow
`usize` because of the limit on dimensions. -/
def validate (data : List UInt8) (o : Options) : R Unit :=
  if o.quality = 0 ∨ o.quality > 100 then .error (.quality o.quality)
  else if o.restartInterval = some 0 then .error (.restart 0)
  else if o.width = 0 ∨ o.height = 0 then .error (.dimensions o.width o.height)
  else if o.width > maxDimension ∨ o.height > maxDimension then
    .error (.tooLarge o.width o.height maxDimension)
  else if o.colorType ≠ .rgb ∧ o.colorType ≠ .gray then .error .colorType
  else
    let expected := o.width * o.height * (if o.colorType = .rgb then 3 else 1)
    if data.length ≠ expected then .error (.dataLength expected data.length)
    else .ok ()

/-- The context of the baseline scan and of the statistics. -/
def Ctx.of (data : List UInt8) (o : Options) (q : QuantTables) : Ctx :=
  ⟨data, o.width, o.height, o.colorType, o.subsampling, q, fun d t => .ok (quantizeBlock d t)⟩

/-- `quantize_dct` (src/jpeg/mod.rs:970-976) in the context of a progressive file. -/
def Ctx.progressive (o : Options) (c : Ctx) : Ctx :=
  { c with quant := if o.trellisQuant then trellisQuantize else c.quant }

/-- The choice of Huffman tables (src/jpeg/mod.rs:383-396). -/
def chooseTables (o : Options) (mcus : List (List (Nat × List Int))) (total : Nat) : R HuffTables :=
  if o.optimizeHuffman then do
    match ← buildOptimized (o.colorType = .gray) mcus o.restartInterval total with
    | some t => return t
    | none => HuffTables.std
  else HuffTables.std

/-- Everything before the scans (src/jpeg/mod.rs:399-410, 427-431). -/
def header (o : Options) (q : QuantTables) (t : HuffTables) (marker : Nat) : List UInt8 :=
  soi ++ app0 ++ dqt q ++ sof marker o.width o.height o.colorType o.subsampling ++ dht t ++
    dri o.restartInterval

/-- `encode_into` after its checks (src/jpeg/mod.rs:378-446): the bytes in the buffer. -/
def encodeBody (data : List UInt8) (o : Options) : R (List UInt8) := do
  let q := QuantTables.withQuality o.quality
  let c := Ctx.of data o q
  let total := totalMcus c.width c.height c.step
  let mcus ← c.mcus
  let t ← chooseTables o mcus total
  if o.progressive then do
    let scans ← encodeProgressive (c.progressive o) t
    return header o q t 0xFFC2 ++ scans ++ eoi
  else do
    let scan ← encodeScan t mcus o.restartInterval total
    return header o q t 0xFFC0 ++ sos o.colorType ++ scan ++ eoi

/-- `encode_into` (src/jpeg/mod.rs:328-447): the result and the buffer afterwards. On an error of
the checks the buffer is as before. (After a panic the buffer is whatever was written; modelled as
empty.) -/
def encodeInto (buffer : List UInt8) (data : List UInt8) (o : Options) :
    R Unit × List UInt8 :=
  match validate data o with
  | .error e => (.error e, buffer)
  | .ok _ =>
    match encodeBody data o with
    | .error e => (.error e, [])
    | .ok bytes => (.ok (), bytes)

/-- `encode` (src/jpeg/mod.rs:88-92). -/
def encode (data : List UInt8) (o : Options) : R (List UInt8) :=
  match encodeInto [] data o with
  | (.error e, _) => .error e
  | (.ok _, bytes) => .ok bytes

end Pixo.Jpeg
