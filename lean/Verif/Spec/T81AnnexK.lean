import Verif.Spec.T81
/-
The tables of ITU-T T.81 annex K.
-/
namespace Spec.T81

/-- Table K.1, luminance quantization. -/
def quantK1 : List (List Nat) :=
  [[16, 11, 10, 16,  24,  40,  51,  61],
   [12, 12, 14, 19,  26,  58,  60,  55],
   [14, 13, 16, 24,  40,  57,  69,  56],
   [14, 17, 22, 29,  51,  87,  80,  62],
   [18, 22, 37, 56,  68, 109, 103,  77],
   [24, 35, 55, 64,  81, 104, 113,  92],
   [49, 64, 78, 87, 103, 121, 120, 101],
   [72, 92, 95, 98, 112, 100, 103,  99]]

/-- Table K.2, chrominance quantization. -/
def quantK2 : List (List Nat) :=
  [[17, 18, 24, 47, 99, 99, 99, 99],
   [18, 21, 26, 66, 99, 99, 99, 99],
   [24, 26, 56, 99, 99, 99, 99, 99],
   [47, 66, 99, 99, 99, 99, 99, 99],
   [99, 99, 99, 99, 99, 99, 99, 99],
   [99, 99, 99, 99, 99, 99, 99, 99],
   [99, 99, 99, 99, 99, 99, 99, 99],
   [99, 99, 99, 99, 99, 99, 99, 99]]

/-- A table from the symbols that have codes of one bit, two bits and so on. -/
def Table.ofRows (rows : List (List Nat)) : Table := ⟨rows.map List.length, rows.flatten⟩

/-- Table K.3, luminance DC differences. -/
def huffK3 : Table := .ofRows [[], [0], [1, 2, 3, 4, 5], [6], [7], [8], [9], [10], [11], [], [], [], [], [], [], []]

/-- Table K.4, chrominance DC differences. -/
def huffK4 : Table := .ofRows [[], [0, 1, 2], [3], [4], [5], [6], [7], [8], [9], [10], [11], [], [], [], [], []]

/-- The symbols of AC tables: end of block, sixteen zeros, and a run of 0..15 with a size of 1..10. -/
def acSymbols : List Nat := (List.range 16).flatMap (fun r =>
  (if r = 0 then [0] else if r = 15 then [0xF0] else []) ++ (List.range 10).map (fun s => 16 * r + s + 1))

/-- The codes of fewer than sixteen bits, and the other symbols in order with sixteen. -/
def acTable (rows : List (List Nat)) : Table :=
  .ofRows (rows ++ [acSymbols.filter (fun s => !rows.flatten.contains s)])

/-- Table K.5, luminance AC coefficients. -/
def huffK5 : Table := acTable
  [[], [0x01, 0x02], [0x03], [0x00, 0x04, 0x11], [0x05, 0x12, 0x21], [0x31, 0x41], [0x06, 0x13, 0x51, 0x61],
   [0x07, 0x22, 0x71], [0x14, 0x32, 0x81, 0x91, 0xA1], [0x08, 0x23, 0x42, 0xB1, 0xC1], [0x15, 0x52, 0xD1, 0xF0],
   [0x24, 0x33, 0x62, 0x72], [], [], [0x82]]

/-- Table K.6, chrominance AC coefficients. -/
def huffK6 : Table := acTable
  [[], [0x00, 0x01], [0x02], [0x03, 0x11], [0x04, 0x05, 0x21, 0x31], [0x06, 0x12, 0x41, 0x51], [0x07, 0x61, 0x71],
   [0x13, 0x22, 0x32, 0x81], [0x08, 0x14, 0x42, 0x91, 0xA1, 0xB1, 0xC1], [0x09, 0x23, 0x33, 0x52, 0xF0],
   [0x15, 0x62, 0x72, 0xD1], [0x0A, 0x16, 0x24, 0x34], [], [0xE1], [0x25, 0xF1]]

/-- The table for DC (0) or AC (1), luminance (0) or chrominance (1). -/
def huffK (cls id : Nat) : Table :=
  if cls = 0 then (if id = 0 then huffK3 else huffK4) else (if id = 0 then huffK5 else huffK6)

end Spec.T81
