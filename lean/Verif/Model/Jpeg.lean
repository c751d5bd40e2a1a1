import Verif.Model.JpegHuffman
import Verif.Model.JpegDct
import Verif.Model.Adler32
/-
Model of the encoder in src/jpeg/mod.rs: options, headers, symbol statistics and the baseline scan.
(The progressive scans are in Model/JpegProgressive.) `output` is a byte list that is appended to.
-/
namespace Pixo.Jpeg
open Pixo

/-- `Subsampling` (src/jpeg/mod.rs:94-101). -/
inductive Subsampling where
  | s444 | s420
  deriving DecidableEq, Repr

/-- `JpegOptions` (src/jpeg/mod.rs:119-140). -/
structure Options where
  width : Nat
  height : Nat
  colorType : ColorType
  quality : Nat
  subsampling : Subsampling
  restartInterval : Option Nat
  optimizeHuffman : Bool
  progressive : Bool
  trellisQuant : Bool
  deriving DecidableEq, Repr

/-- `JpegOptions::fast` (src/jpeg/mod.rs:162-174). -/
def Options.fast (width height quality : Nat) : Options :=
  ⟨width, height, .rgb, quality, .s444, none, false, false, false⟩

/-- `JpegOptions::balanced` (src/jpeg/mod.rs:178-190). -/
def Options.balanced (width height quality : Nat) : Options :=
  ⟨width, height, .rgb, quality, .s444, none, true, false, false⟩

/-- `JpegOptions::max` (src/jpeg/mod.rs:195-207). -/
def Options.max (width height quality : Nat) : Options :=
  ⟨width, height, .rgb, quality, .s420, none, true, true, true⟩

/-- `JpegOptions::from_preset` (src/jpeg/mod.rs:210-216). -/
def Options.fromPreset (width height quality preset : Nat) : Options :=
  if preset = 0 then .fast width height quality
  else if preset = 2 then .max width height quality
  else .balanced width height quality

/-- `JpegOptionsBuilder::preset` (src/jpeg/mod.rs:283-292). -/
def Options.preset (o : Options) (preset : Nat) : Options :=
  { Options.fromPreset o.width o.height o.quality preset with colorType := o.colorType }

/-- `to_be_bytes` of a `u16`. -/
def be16 (v : Nat) : List UInt8 := [UInt8.ofNat (v / 256), UInt8.ofNat v]

/-- `write_soi` (src/jpeg/mod.rs:449-451). -/
def soi : List UInt8 := be16 0xFFD8

/-- `write_eoi` (src/jpeg/mod.rs:453-455). -/
def eoi : List UInt8 := be16 0xFFD9

/-- `write_app0` (src/jpeg/mod.rs:457-482). -/
def app0 : List UInt8 :=
  be16 0xFFE0 ++ be16 16 ++ [0x4A, 0x46, 0x49, 0x46, 0] ++ [1] ++ [1] ++ [0] ++ be16 1 ++ be16 1 ++ [0] ++ [0]

/-- `write_dqt` (src/jpeg/mod.rs:484-496). -/
def dqt (q : QuantTables) : List UInt8 :=
  be16 0xFFDB ++ be16 67 ++ [0] ++ q.luminance ++ be16 0xFFDB ++ be16 67 ++ [1] ++ q.chrominance

/-- `write_sof_marker` (src/jpeg/mod.rs:518-573); `height as u16` and `width as u16` truncate. -/
def sof (marker width height : Nat) (color : ColorType) (sub : Subsampling) : List UInt8 :=
  let n := if color = .gray then 1 else 3
  be16 marker ++ be16 (8 + 3 * n) ++ [8] ++ be16 (height % 2 ^ 16) ++ be16 (width % 2 ^ 16) ++
    [UInt8.ofNat n] ++
    (if n = 1 then [1, 0x11, 0]
     else [1, if sub = .s444 then 0x11 else 0x22, 0, 2, 0x11, 1, 3, 0x11, 1])

/-- `write_huffman_table` (src/jpeg/mod.rs:595-610); `length as u16` truncates. -/
def dhtTable (id : Nat) (t : Table) : List UInt8 :=
  be16 0xFFC4 ++ be16 ((2 + 1 + 16 + t.vals.length) % 2 ^ 16) ++ [UInt8.ofNat id] ++
    t.bits.map UInt8.ofNat ++ t.vals.map UInt8.ofNat

/-- `write_dht` (src/jpeg/mod.rs:575-587). -/
def dht (t : HuffTables) : List UInt8 :=
  dhtTable 0x00 t.dcLum ++ dhtTable 0x01 t.dcChrom ++ dhtTable 0x10 t.acLum ++ dhtTable 0x11 t.acChrom

/-- `write_dri` (src/jpeg/mod.rs:589-593), called for `Some` interval (377-379, 401-403). -/
def dri : Option Nat → List UInt8
  | none => []
  | some interval => be16 0xFFDD ++ be16 4 ++ be16 interval

/-- `write_sos` (src/jpeg/mod.rs:612-648). -/
def sos (color : ColorType) : List UInt8 :=
  let n := if color = .gray then 1 else 3
  be16 0xFFDA ++ be16 (6 + 2 * n) ++ [UInt8.ofNat n] ++
    (if n = 1 then [1, 0x00] else [1, 0x00, 2, 0x11, 3, 0x11]) ++ [0, 63, 0]

/-- The pixel at `(x, y)`, clamped to the image, as `(Y, Cb, Cr)` bytes
(src/jpeg/mod.rs:1579-1596 and 1624-1631). A gray pixel has chroma 128, standing for the `0.0` of the
code; other colour types are `unreachable!`. -/
def pixelYcc (data : List UInt8) (width height x y : Nat) (color : ColorType) :
    R (UInt8 × UInt8 × UInt8) :=
  let x := min x (width - 1)
  let y := min y (height - 1)
  match color with
  | .gray => do
    let g ← getChecked data (y * width + x)
    return (g, 128, 128)
  | .rgb => do
    let i := (y * width + x) * 3
    let r ← getChecked data i
    let g ← getChecked data (i + 1)
    let b ← getChecked data (i + 2)
    return rgbToYcbcr r g b
  | _ => .error .panic

/-- `v as f32 - 128.0`. -/
def level (v : UInt8) : Int := F32.sub (F32.ofInt v.toNat) (F32.ofInt 128)

/-- `extract_block` (src/jpeg/mod.rs:1565-1606): the three sample blocks. -/
def extractBlock (data : List UInt8) (width height bx byy : Nat) (color : ColorType) :
    R (List Int × List Int × List Int) := do
  let px ← (List.range 64).mapM (fun i =>
    pixelYcc data width height (bx + i % 8) (byy + i / 8) color)
  return (px.map (level ·.1), px.map (level ·.2.1), px.map (level ·.2.2))

/-- Mean of four chroma samples as accumulated in `extract_mcu_420`
(src/jpeg/mod.rs:1635-1652): sums from `0.0` in the order of the pixels, times `0.25`, minus 128. -/
def mean4 (a b c d : UInt8) : Int :=
  let s := F32.add (F32.add (F32.add (F32.add 0 (F32.ofInt a.toNat)) (F32.ofInt b.toNat))
    (F32.ofInt c.toNat)) (F32.ofInt d.toNat)
  F32.sub (F32.mul s (F32.lit 1 4)) (F32.ofInt 128)

/-- `extract_mcu_420` (src/jpeg/mod.rs:1608-1657): the four Y blocks and the two averaged chroma
blocks. The 256 pixels are read block by block as in the code; `px k i` is pixel `i` of block `k`. -/
def extractMcu420 (data : List UInt8) (width height mx my : Nat) :
    R (List (List Int) × List Int × List Int) := do
  let px ← (List.range 4).mapM (fun k =>
    (List.range 64).mapM (fun i =>
      pixelYcc data width height (mx + (k % 2) * 8 + i % 8) (my + (k / 2) * 8 + i / 8) .rgb))
  let at_ := fun (gx gy : Nat) => (px.getD (gy / 8 * 2 + gx / 8) []).getD (gy % 8 * 8 + gx % 8) (0, 0, 0)
  let chroma := fun (f : UInt8 × UInt8 × UInt8 → UInt8) => (List.range 64).map (fun c =>
    let gx := c % 8 * 2
    let gy := c / 8 * 2
    mean4 (f (at_ gx gy)) (f (at_ (gx + 1) gy)) (f (at_ gx (gy + 1))) (f (at_ (gx + 1) (gy + 1))))
  return (px.map (fun b => b.map (level ·.1)), chroma (·.2.1), chroma (·.2.2))

/-- What is constant during an encode (`EncodeContext`, src/jpeg/mod.rs:45-54). `quant` is the
quantizer applied to a transformed block and a table: `quantize_block` in the baseline scan and the
statistics, maybe `trellis_quantize` in a progressive file. -/
structure Ctx where
  data : List UInt8
  width : Nat
  height : Nat
  colorType : ColorType
  subsampling : Subsampling
  tables : QuantTables
  quant : List Int → List Nat → R (List Int)

/-- `quantize(&dct_2d(&block), table)`. -/
def Ctx.coeffs (c : Ctx) (chroma : Bool) (block : List Int) : R (List Int) :=
  c.quant (dct2d block) (if chroma then c.tables.chrominanceTable else c.tables.luminanceTable)

/-- Side of an MCU: 16 in 4:2:0 colour, else 8 (src/jpeg/mod.rs:1413, 1518-1519). -/
def Ctx.step (c : Ctx) : Nat := if c.colorType = .gray then 8 else if c.subsampling = .s444 then 8 else 16

/-- The quantized blocks of the MCU at `(x, y)` with their component numbers, in coding order:
the bodies of the loops of `encode_scan` (src/jpeg/mod.rs:1454-1467, 1481-1503, 1522-1541) and of
`build_optimized_huffman_tables` (src/jpeg/mod.rs:710-714, 740-753, 781-799). -/
def Ctx.mcu (c : Ctx) (x y : Nat) : R (List (Nat × List Int)) :=
  if c.colorType = .gray then do
    let (yb, _, _) ← extractBlock c.data c.width c.height x y c.colorType
    return [(0, ← c.coeffs false yb)]
  else if c.subsampling = .s444 then do
    let (yb, cb, cr) ← extractBlock c.data c.width c.height x y c.colorType
    return [(0, ← c.coeffs false yb), (1, ← c.coeffs true cb), (2, ← c.coeffs true cr)]
  else do
    let (ys, cb, cr) ← extractMcu420 c.data c.width c.height x y
    let yq ← ys.mapM (c.coeffs false)
    return yq.map (fun b => (0, b)) ++ [(1, ← c.coeffs true cb), (2, ← c.coeffs true cr)]

/-- The MCU positions: `(0..padded_height).step_by(s)` times `(0..padded_width).step_by(s)` with
dimensions rounded up to a multiple of `s`. -/
def coords (width height s : Nat) : List (Nat × Nat) :=
  (List.range ((height + (s - 1)) / s)).flatMap (fun j =>
    (List.range ((width + (s - 1)) / s)).map (fun i => (i * s, j * s)))

/-- The quantized blocks of all MCUs. The code computes each MCU inside the loop that consumes it,
twice if the tables are optimized; as extraction, transform and quantization have no effects the
model computes the list first. -/
def Ctx.mcus (c : Ctx) : R (List (List (Nat × List Int))) :=
  (coords c.width c.height c.step).mapM (fun p => c.mcu p.1 p.2)

/-- Number of MCUs, `as u32` (src/jpeg/mod.rs:1452, 1480, 1520). -/
def totalMcus (width height s : Nat) : Nat :=
  ((width + (s - 1)) / s * ((height + (s - 1)) / s)) % 2 ^ 32

/-- Is a restart due after `count` MCUs (src/jpeg/mod.rs:1435-1437, 719-724)? -/
def restartDue (interval : Option Nat) (count total : Nat) : Bool :=
  match interval with
  | some i => i > 0 && count % i == 0 && count < total
  | none => false

/-! ### Statistics -/

/-- `counts[i] += 1` of a `u64` array. -/
def bump (counts : List Nat) (i : Nat) : R (List Nat) := do
  let c ← getChecked counts i
  let c ← addU64 c 1
  setChecked counts i c

/-- The `while zero_run >= 16` loop (src/jpeg/mod.rs:846-849), `n` rounds. -/
def countZrl : Nat → List Nat → R (List Nat)
  | 0, ac => .ok ac
  | n + 1, ac => do
    let ac ← bump ac 0xF0
    countZrl n ac

/-- The AC loop of `count_block` (src/jpeg/mod.rs:840-859). -/
def countAc : List Int → Nat → List Nat → R (List Nat)
  | [], zeroRun, ac => if zeroRun > 0 then bump ac 0 else .ok ac
  | v :: vs, zeroRun, ac =>
    if v = 0 then countAc vs (zeroRun + 1) ac
    else do
      let ac ← countZrl (zeroRun / 16) ac
      let zeroRun := zeroRun % 16
      let ac ← bump ac (((zeroRun <<< 4) % 2 ^ 8) ||| category v)
      countAc vs 0 ac

/-- The four count arrays. -/
structure Counts where
  dcLum : List Nat
  dcChrom : List Nat
  acLum : List Nat
  acChrom : List Nat

/-- `count_block` (src/jpeg/mod.rs:826-860), on the luminance or chrominance arrays. -/
def countBlock (k : Counts) (block : List Int) (prevDc : Int) (lum : Bool) : R (Counts × Int) := do
  let zz := zigzagReorder block
  let dc := zz.headD 0
  let diff ← subI16 dc prevDc
  let dcs ← bump (if lum then k.dcLum else k.dcChrom) (category diff)
  let acs ← countAc (zz.drop 1) 0 (if lum then k.acLum else k.acChrom)
  return (if lum then { k with dcLum := dcs, acLum := acs } else { k with dcChrom := dcs, acChrom := acs }, dc)

/-- The blocks of one MCU; `prev` holds `prev_dc_y`, `prev_dc_cb`, `prev_dc_cr`. -/
def countMcu : List (Nat × List Int) → Counts → List Int → R (Counts × List Int)
  | [], k, prev => .ok (k, prev)
  | (comp, block) :: rest, k, prev => do
    let (k, dc) ← countBlock k block (prev.getD comp 0) (comp = 0)
    countMcu rest k (prev.set comp dc)

/-- The MCU loop (src/jpeg/mod.rs:708-728, 738-768, 779-816). -/
def countMcus (interval : Option Nat) (total : Nat) :
    List (List (Nat × List Int)) → Nat → Counts → List Int → R Counts
  | [], _, k, _ => .ok k
  | blocks :: rest, count, k, prev => do
    let (k, prev) ← countMcu blocks k prev
    let count ← addU32 count 1
    let prev := if restartDue interval count total then [0, 0, 0] else prev
    countMcus interval total rest count k prev

/-- The zero initialized counts (src/jpeg/mod.rs:696-699). -/
def Counts.zero : Counts :=
  ⟨List.replicate 12 0, List.replicate 12 0, List.replicate 256 0, List.replicate 256 0⟩

/-- `build_optimized_huffman_tables` (src/jpeg/mod.rs:684-824), given the MCUs. -/
def buildOptimized (gray : Bool) (mcus : List (List (Nat × List Int))) (interval : Option Nat)
    (total : Nat) : R (Option HuffTables) := do
  let k ← countMcus interval total mcus 0 Counts.zero [0, 0, 0]
  if gray then HuffTables.optimizedFromCounts k.dcLum none k.acLum none
  else HuffTables.optimizedFromCounts k.dcLum (some k.dcChrom) k.acLum (some k.acChrom)

/-! ### Baseline scan -/

/-- Local state of `encode_scan` (src/jpeg/mod.rs:1409-1421). -/
structure ScanState where
  writer : BitWriterMsb
  prev : List Int
  rstIdx : Nat
  count : Nat

/-- The blocks of one MCU. -/
def encodeMcu (t : HuffTables) : List (Nat × List Int) → BitWriterMsb → List Int →
    R (BitWriterMsb × List Int)
  | [], w, prev => .ok (w, prev)
  | (comp, block) :: rest, w, prev => do
    let (w, dc) ← encodeBlock t w block (prev.getD comp 0) (comp = 0)
    encodeMcu t rest w (prev.set comp dc)

/-- `handle_restart` (src/jpeg/mod.rs:1423-1448). -/
def handleRestart (interval : Option Nat) (total : Nat) (s : ScanState) : ScanState :=
  if restartDue interval s.count total then
    { s with writer := s.writer.flush.writeBytes [0xFF, UInt8.ofNat (0xD0 + (s.rstIdx &&& 0x07))]
             rstIdx := (s.rstIdx + 1) &&& 0x07
             prev := [0, 0, 0] }
  else s

/-- The MCU loops of `encode_scan` (src/jpeg/mod.rs:1451-1556). -/
def encodeMcus (t : HuffTables) (interval : Option Nat) (total : Nat) :
    List (List (Nat × List Int)) → ScanState → R ScanState
  | [], s => .ok s
  | blocks :: rest, s => do
    let (w, prev) ← encodeMcu t blocks s.writer s.prev
    let count ← addU32 s.count 1
    encodeMcus t interval total rest
      (handleRestart interval total { s with writer := w, prev := prev, count := count })

/-- `encode_scan` (src/jpeg/mod.rs:1408-1563), given the MCUs: the bytes it appends. -/
def encodeScan (t : HuffTables) (mcus : List (List (Nat × List Int))) (interval : Option Nat)
    (total : Nat) : R (List UInt8) := do
  let s ← encodeMcus t interval total mcus ⟨{}, [0, 0, 0], 0, 0⟩
  return s.writer.finish

end Pixo.Jpeg
