import Verif.Props.Tensor
import Verif.Props.Ownership
import Verif.Props.Sort
import Verif.Props.Unique
import Verif.Props.Hash
import Verif.Props.Const
import Verif.Props.Float
import Verif.Props.Elems
import Verif.Props.ElemsOps
import Verif.Props.ElemsReduce
import Verif.Props.Par
import Verif.Props.Pool
import Verif.Props.IndexExpr
import Verif.Props.Slice
import Verif.Props.Broadcast
import Verif.Props.Reshape
import Verif.Props.Parts
import Verif.Props.Resize
import Verif.Props.Krnl
import Verif.Props.Gemm
import Verif.Props.Simd
import Verif.Props.Reduce
import Verif.Props.Gather
import Verif.Props.Move
import Verif.Props.Arg
import Verif.Props.Select
import Verif.Props.Conv
import Verif.Props.Loop
import Verif.Props.Nms
import Verif.Props.Softmax
import Verif.Props.Norm
import Verif.Props.LayerNorm
import Verif.Props.Rnn
import Verif.Props.ImportSort
import Verif.Props.Import
import Verif.Props.ImportVersion
import Verif.Props.InputShape
import Verif.Props.EntryPoint
import Verif.Props.DimAnalysis
import Verif.Props.DimAnalysisWrong
import Verif.Props.DimAnalysisEnds
import Verif.Props.RewriteShape
import Verif.Props.RewriteShapeWrong
import Verif.Props.RewriteConcat
import Verif.Props.RewriteConcatWrong
import Verif.Props.RewriteArith
import Verif.Props.RewriteArithWrong
import Verif.Props.LoopTrip
import Verif.Props.LoopTripWrong
import Verif.Props.RnnRewrite
import Verif.Props.ConvTranspose
import Verif.Props.ConvMatMul
import Verif.Props.Einsum
import Verif.Props.EinsumEquation
import Verif.Props.Decompose
import Verif.Props.ParallelConv
import Verif.Props.Recompose
import Verif.Props.ConstArith
import Verif.Props.FoldInt
import Verif.Props.Quant
import Verif.Props.GridSample
import Verif.Props.Zdnnx
import Verif.Props.WriteOnly
import Verif.Props.Scalar
import Verif.Props.Casts
import Verif.Props.Fusion
import Verif.Props.Reuse
import Verif.Props.Session
import Verif.Props.Signature
import Verif.Props.Driver
import Verif.Props.RunMemory
import Verif.Props.ShapeOps
import Verif.Props.NodeNames
import Verif.Props.Instrumentation
import Verif.Props.HoistBuffers
import Verif.Props.RemoveDims
import Verif.Props.Windows
import Verif.Props.OptionNames
import Verif.Props.RandomValues
import Verif.Props.ConcatFuse
import Verif.Props.ConfigFile
import Verif.Props.Commands
import Verif.Props.TensorImport
import Verif.Props.LayoutTransform
import Verif.Props.OpStats
import Verif.Props.CseNames
import Verif.Props.SignatureReading
import Verif.Props.InputShapes
import Verif.Props.Soz
import Verif.Props.StringBuffers
import Verif.Props.RandomIntegers
import Verif.Props.MakeInputs
import Verif.Props.InputValues
import Verif.Audit
