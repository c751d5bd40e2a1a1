import Verif.Spec.Rfc1951
import Verif.Model.Bits
import Verif.Model.Inflate
import Verif.Proof.Bits
import Verif.Proof.BitWriter
import Verif.Proof.Sum
import Verif.Proof.Canonical
import Verif.Proof.BitReader
import Verif.Proof.InflateTable
import Verif.Proof.Inflate
import Verif.Proof.InflateTotal
import Verif.Proof.BitMsb
import Verif.Props.Bits
import Verif.Props.Inflate
import Verif.Spec.Rfc1951Faults
import Verif.Proof.InflateSound
import Verif.Props.InflateSound
import Verif.Props.Checksums
import Verif.Props.Huffman
import Verif.Props.Lz77
import Verif.Props.Deflate
import Verif.Props.PngDecode
import Verif.Spec.PngLenient
import Verif.Proof.PngSound
import Verif.Props.PngSound
import Verif.Model.BitDepth
import Verif.Model.Palette
import Verif.Model.Quantize
import Verif.Model.Png
import Verif.Proof.PngChunks
import Verif.Proof.BitPack
import Verif.Proof.PaletteSort
import Verif.Proof.PaletteMatrix
import Verif.Proof.PaletteZeng
import Verif.Proof.Palette
import Verif.Proof.PngStored
import Verif.Proof.PngReduce
import Verif.Proof.Quantize
import Verif.Proof.PngEncode
import Verif.Props.PngEncode
import Verif.Spec.T81
import Verif.Spec.T81AnnexK
import Verif.Spec.T81Real
import Verif.Model.F32
import Verif.Model.JpegTables
import Verif.Model.JpegHuffman
import Verif.Model.JpegDct
import Verif.Model.Jpeg
import Verif.Model.JpegProgressive
import Verif.Proof.F32
import Verif.Proof.JpegCodes
import Verif.Proof.JpegBlock
import Verif.Proof.JpegScan
import Verif.Proof.JpegCount
import Verif.Proof.JpegOpt
import Verif.Proof.T81Unique
import Verif.Proof.JpegDct
import Verif.Proof.JpegMcus
import Verif.Proof.JpegFile
import Verif.Props.Jpeg
import Verif.Proof.JpegSamples
import Verif.Proof.DctReal
import Verif.Props.JpegImage
import Verif.Model.JpegTrellis
import Verif.Proof.JpegTrellis
import Verif.Props.JpegTrellis
import Verif.Spec.T81Prog
import Verif.Proof.T81ProgUnique
import Verif.Proof.JpegProg
import Verif.Proof.JpegProgFile
import Verif.Proof.JpegProgRuns
import Verif.Proof.JpegProgOpt
import Verif.Props.JpegProgressive
import Verif.Props.JpegProgTables
import Verif.Props.DeflateTokens
import Verif.Model.Parallel
import Verif.Model.Resize
import Verif.Spec.Resample
import Verif.Proof.F32Order
import Verif.Proof.Parallel
import Verif.Proof.Resize
import Verif.Proof.ResizeReal
import Verif.Proof.ResizeLanczos
import Verif.Proof.ResizeIdentity
import Verif.Props.Resize
import Verif.Model.JpegParallel
import Verif.Props.JpegParallel
import Verif.Model.Idct
import Verif.Model.JpegDecode
import Verif.Spec.T81Markers
import Verif.Proof.Idct
import Verif.Proof.IdctReal
import Verif.Proof.JpegDecodeSafe
import Verif.Proof.Checked
import Verif.Props.Idct
import Verif.Props.JpegDecode
import Verif.Proof.JpegDecodeBits
import Verif.Proof.JpegDecodeHuff
import Verif.Proof.JpegDecodeScan
import Verif.Proof.JpegDecodePlaces
import Verif.Proof.JpegDecodeImage
import Verif.Proof.JpegDecodeFile
import Verif.Props.JpegRoundTrip
import Verif.Model.Wasm
import Verif.Model.Cli
import Verif.Spec.Pnm
import Verif.Proof.Pnm
import Verif.Props.Cli
import Verif.Props.Wasm
import Verif.Props.CliRun
import Verif.Model.DctInt
import Verif.Proof.DctInt
import Verif.Proof.DctIntReal
import Verif.Props.DctInt
import Verif.Props.IdctF32
import Verif.Model.YcbcrRow
import Verif.Props.YcbcrRow
import Verif.Spec.T81Decode
import Verif.Proof.JpegDecodeAny
import Verif.Proof.JpegDecodeAnyScan
import Verif.Props.JpegBaseline
import Verif.Spec.T81Approx
import Verif.Model.JpegRefine
import Verif.Proof.JpegRefine
import Verif.Props.JpegRefine
import Verif.Spec.PrefixCode
import Verif.Proof.HuffmanOptimal
import Verif.Proof.JpegHuffOptimal
import Verif.Props.HuffmanOptimal
import Verif.Spec.PngChoice
import Verif.Proof.FilterChoice
import Verif.Props.FilterChoice
import Verif.Spec.LzPrice
import Verif.Proof.Lz77Min
import Verif.Proof.Lz77Search
import Verif.Proof.Lz77Cheapest
import Verif.Proof.Lz77Fixed
import Verif.Proof.Lz77Cache
import Verif.Props.Lz77Cheapest
import Verif.Props.Lz77Maximal
import Verif.Props.OptimalSize
import Verif.Props.Quantize
import Verif.Props.BlockSplit
import Verif.Props.SplitWork
import Verif.Props.Resize32
import Verif.Props.PngDecode32
import Verif.Props.HighEntropy
import Verif.Props.BlockOptimal
import Verif.Props.PngFormat
import Verif.Props.AutoQuantize
import Verif.Props.PngSize
import Verif.Props.JpegSize
import Verif.Props.BitSizes
import Verif.Props.CliReport
import Verif.Props.JpegFidelity
import Verif.Props.JpegAccept
import Verif.Props.JpegBomb
import Verif.Props.TrellisSearch
import Verif.Proof.LanczosSum
import Verif.Proof.LanczosMean
import Verif.Proof.LanczosWide
import Verif.Props.LanczosMean
import Verif.Props.FilterLog
import Verif.Props.SimdMemory
import Verif.Props.SimdFeatures
import Verif.Spec.TrellisReal
import Verif.Proof.TrellisReal
import Verif.Props.TrellisLambda
import Verif.Props.TrellisWritten
import Verif.Spec.Crc32c
import Verif.Model.SimdCrcHw
import Verif.Proof.SimdCrcHw
import Verif.Proof.CrcAgree
import Verif.Props.CrcHw
import Verif.Props.InflateCap
import Verif.Props.Lz77Work
import Verif.Props.Lz77Again
import Verif.Props.JpegProgSize
import Verif.Props.JpegProgGray
import Verif.Props.InflateWork
import Verif.Props.JpegDecode32
import Verif.Props.JpegDecode32Exact
import Verif.Props.JpegWork
import Verif.Props.PngWork
import Verif.Props.ResizeWork
import Verif.Props.SampleCap
import Verif.Props.QuantizeWork
import Verif.Props.MedianCut
import Verif.Props.Cuts
import Verif.Props.Means
import Verif.Props.QuantizedRange
