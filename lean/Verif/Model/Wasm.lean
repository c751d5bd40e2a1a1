import Verif.Model.Png
import Verif.Model.JpegProgressive
import Verif.Model.Resize
/-
Model of src/wasm.rs (the functions exported to JavaScript) and of the option builders it and the
command line tool use (src/png/mod.rs:216-341, src/jpeg/mod.rs:218-300, src/resize.rs:81-148).

A `JsError` is `Err.invalid`; the text of the message is dropped. `verbose_filter_log` (only
prints) is not part of the options.
-/
namespace Pixo

namespace Png

/-- `PngOptionsBuilder::new` (src/png/mod.rs:235-244): the default options (102-122) with the given
dimensions. -/
def Options.builder (width height : Nat) : Options :=
  ⟨width, height, .rgba, 2, .adaptiveFast, false, false, false, false, false, .default⟩

/-- `PngOptionsBuilder::lossy` (src/png/mod.rs:306-314). -/
def Options.lossy (o : Options) (lossy : Bool) : Options :=
  if lossy then { o with quantization := { o.quantization with mode := .auto, dithering := true } }
  else { o with quantization := { o.quantization with mode := .off } }

/-- `PngOptionsBuilder::preset` (src/png/mod.rs:327-334). -/
def Options.preset (o : Options) (preset : Nat) : Options :=
  { Options.fromPreset o.width o.height preset with colorType := o.colorType }

end Png

namespace Jpeg

/-- `JpegOptionsBuilder::new` (src/jpeg/mod.rs:236-245): the default options (142-157) with the given
dimensions. -/
def Options.builder (width height : Nat) : Options :=
  ⟨width, height, .rgb, 75, .s444, none, false, false, false⟩

end Jpeg

namespace Wasm

/-- `color_type_from_u8` (src/wasm.rs:56-62). -/
def colorTypeFromU8 (value : UInt8) : R ColorType :=
  match ColorType.ofU8 value with
  | some c => .ok c
  | none => .error .invalid

/-- The options `encode_png` builds (src/wasm.rs:89-93). -/
def pngOptions (width height : Nat) (color : ColorType) (preset : UInt8) (lossy : Bool) : Png.Options :=
  (({ Png.Options.builder width height with colorType := color } : Png.Options).preset preset.toNat).lossy lossy

/-- `encode_png` (src/wasm.rs:79-95). -/
def encodePng (env : Png.Env) (pool : Deflate.Pool) (data : List UInt8) (width height : Nat)
    (colorType preset : UInt8) (lossy : Bool) : R (List UInt8 × Deflate.Pool) := do
  let color ← colorTypeFromU8 colorType
  Png.encode env pool data (pngOptions width height color preset lossy)

/-- The options `encode_jpeg` builds (src/wasm.rs:131-140). -/
def jpegOptions (width height : Nat) (color : ColorType) (quality preset : UInt8) (subsampling420 : Bool) :
    Jpeg.Options :=
  { ({ Jpeg.Options.builder width height with colorType := color, quality := quality.toNat } : Jpeg.Options).preset
      preset.toNat with subsampling := if subsampling420 then .s420 else .s444 }

/-- `encode_jpeg` (src/wasm.rs:113-142). -/
def encodeJpeg (data : List UInt8) (width height : Nat) (colorType quality preset : UInt8)
    (subsampling420 : Bool) : R (List UInt8) := do
  let color ← (match ColorType.ofU8 colorType with
    | some .gray => .ok .gray
    | some .rgb => .ok .rgb
    | _ => .error .invalid : R ColorType)
  Jpeg.encode data (jpegOptions width height color quality preset subsampling420)

/-- `bytes_per_pixel` (src/wasm.rs:151-154). -/
def bytesPerPixel (colorType : UInt8) : R UInt8 := do
  let color ← colorTypeFromU8 colorType
  return UInt8.ofNat color.bytesPerPixel

/-- `resize_algorithm_from_u8` (src/wasm.rs:157-166). -/
def resizeAlgorithmFromU8 (value : UInt8) : R Resize.Algorithm :=
  match value.toNat with
  | 0 => .ok .nearest
  | 1 => .ok .bilinear
  | 2 => .ok .lanczos3
  | _ => .error .invalid

/-- `resize_image` (src/wasm.rs:184-201). -/
def resizeImage (env : Resize.Env) (data : List UInt8) (srcWidth srcHeight dstWidth dstHeight : Nat)
    (colorType algorithm : UInt8) : R (List UInt8) := do
  let color ← colorTypeFromU8 colorType
  let algo ← resizeAlgorithmFromU8 algorithm
  Resize.resize env data ⟨srcWidth, srcHeight, dstWidth, dstHeight, color, algo⟩

end Wasm
end Pixo
