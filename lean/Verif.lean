import Verif.Props.Views2
import Verif.Props.Elementwise
import Verif.Props.ReadBack
import Verif.Props.Enums
import Verif.Props.FlipPad
import Verif.Props.SumToShape
import Verif.Props.Matmul
import Verif.Props.Indexing
import Verif.Props.Cumsum
import Verif.Props.TopK
import Verif.Props.Einsum
import Verif.Props.Batch
import Verif.Props.Optim
import Verif.Props.RpcEnd
import Verif.Props.RpcText
import Verif.Props.FreshIds
import Verif.Props.PluginRegistry
import Verif.Props.RegistryFile
import Verif.Props.RunFiles
import Verif.Props.TapeComplete
import Verif.Props.TensorRegistry
import Verif.Props.Capture
import Verif.Props.CaptureLayout
import Verif.Props.JsonFormat
import Verif.Props.Conv
import Verif.Props.ConvTranspose
import Verif.Props.ConvGrad
import Verif.Props.ConvAdjoint
import Verif.Props.Onehot
import Verif.Props.Nonzero
import Verif.Props.Unique
import Verif.Props.Compress
import Verif.Model.Linalg
import Verif.Lemmas.Linalg
import Verif.Props.Linalg
import Verif.Lemmas.Compose
import Verif.Model.GradRules
import Verif.Lemmas.RealOps
import Verif.Lemmas.ReduceGrad
import Verif.Lemmas.RatOps
import Verif.Lemmas.RuleEval
import Verif.Lemmas.UnaryDeriv
import Verif.Props.ReduceGrad
import Verif.Props.Softmax
import Verif.Lemmas.RuleEval2
import Verif.Props.UnaryGrad
import Verif.Props.BinaryGrad
import Verif.Model.ShapeRules
import Verif.Props.ShapeGrad
import Verif.Props.MoveGrad
import Verif.Model.MatrixRules
import Verif.Model.IndexRules
import Verif.Props.MatmulGrad
import Verif.Props.IndexGrad
import Verif.Props.Window
import Verif.Props.WindowGrad
import Verif.Props.Dispatch
import Verif.Model.LinalgRules
import Verif.Props.LinalgGrad
import Verif.Model.EinsumRules
import Verif.Props.EinsumGrad
import Verif.Model.SmallFloat
import Verif.Props.SmallFloat
import Verif.Model.Typed
import Verif.Props.Selection
import Verif.Model.Losses
import Verif.Props.Losses
import Verif.Props.Norm
import Verif.Props.Attention
import Verif.Props.Embedding
import Verif.Props.Recurrent
import Verif.Props.Pooling
import Verif.Props.ConvLayers
import Verif.Props.Activation
import Verif.Props.Metadata
import Verif.Props.Resize
import Verif.Props.PadGrad
import Verif.Props.Bitwise
import Verif.Props.Cast
import Verif.Props.Nested
import Verif.Props.Creation
import Verif.Props.Symbolic
import Verif.Props.Scalar
import Verif.Props.Wire
import Verif.Props.Blas
import Verif.Props.Cuda
import Verif.Props.CudaTile
import Verif.Props.CudaAtomic
import Verif.Props.CudaUnique
import Verif.Props.CudaSelect
import Verif.Props.AnyAll
import Verif.Props.CudaReduce
import Verif.Props.CudaMove
import Verif.Props.CudaScan
import Verif.Props.CudaIndex
import Verif.Props.CudaWindow
import Verif.Props.CudaConv
import Verif.Props.CudaConvGrad
import Verif.Props.CudaLinalg
import Verif.Props.CudaBitwise
import Verif.Props.RunCli
import Verif.Props.RunCache
import Verif.Props.MetalQueue
import Verif.Props.MetalGrid
import Verif.Props.IntOps
import Verif.Props.MetalMove
import Verif.Props.MetalReduce
import Verif.Props.MetalIndex
import Verif.Props.MetalSelect
import Verif.Props.MetalMatrix
import Verif.Props.MetalWindow
import Verif.Props.MetalConv
import Verif.Props.MetalScan
import Verif.Props.MetalLinalg
import Verif.Props.MetalErrors
import Verif.Model.KernelCache
import Verif.Props.KernelCache
import Verif.Model.MetalBitwise
import Verif.Props.MetalBitwise
import Verif.Model.Display
import Verif.Props.Display
import Verif.Model.Convert
import Verif.Props.Convert
import Verif.Model.Build
import Verif.Props.Build
import Verif.Model.Inspect
import Verif.Props.Inspect
