import Verif.Model.Core
import Verif.Model.Pool
import Verif.Lemmas.Window
import Verif.Lemmas.Refine
import Verif.Lemmas.Ring
import Verif.Lemmas.Delay
import Verif.Lemmas.Conv
import Verif.Lemmas.Pool
import Verif.Lemmas.Trace
import Verif.Model.Closure
import Verif.Model.Container
import Verif.Lemmas.Sequential
import Verif.Lemmas.Leaves
import Verif.Lemmas.Reach
import Verif.Model.Broadcast
import Verif.Lemmas.Broadcast
import Verif.Lemmas.Geometry
import Verif.Lemmas.Net
import Verif.Spec.Observe
import Verif.Lemmas.Tame
import Verif.Lemmas.Observe
import Verif.Lemmas.Dilated
import Verif.Lemmas.Corner
import Verif.Lemmas.Held
import Verif.Props.Leaf
import Verif.Lemmas.SlideDil
import Verif.Lemmas.MaxPool
import Verif.Spec.Counts
import Verif.Props.Corner
import Verif.Props.Net
import Verif.Props.Pad
import Verif.Props.Count
import Verif.Model.Parallel
import Verif.Spec.Equiv
import Verif.Spec.Contract
import Verif.Spec.Routing
import Verif.Lemmas.Parallel
import Verif.Lemmas.Ahead
import Verif.Lemmas.AutoDelay
import Verif.Lemmas.Residual
import Verif.Lemmas.Routing
import Verif.Lemmas.TwoStage
import Verif.Props.Parallel
import Verif.Props.Residual
import Verif.Props.Routing
import Verif.Model.Conditional
import Verif.Props.Conditional
import Verif.Model.Heap
import Verif.Spec.Heap
import Verif.Lemmas.Heap
import Verif.Lemmas.HeapLeaves
import Verif.Lemmas.Checkpoint
import Verif.Props.Heap
import Verif.Model.Rnn
import Verif.Spec.Rnn
import Verif.Lemmas.Rnn
import Verif.Props.Rnn
import Verif.Model.PosEnc
import Verif.Spec.PosEnc
import Verif.Props.PosEnc
import Verif.Model.CallMode
import Verif.Spec.CallMode
import Verif.Props.CallMode
import Verif.Model.Onnx
import Verif.Model.StateDict
import Verif.Spec.Onnx
import Verif.Props.Onnx
import Verif.Props.StateDict
import Verif.Model.WarmUp
import Verif.Props.WarmUp
import Verif.Model.Attention
import Verif.Spec.Attention
import Verif.Spec.Soft
import Verif.Lemmas.Soft
import Verif.Lemmas.Attention
import Verif.Lemmas.Retro
import Verif.Props.Attention
import Verif.Model.AttnHeap
import Verif.Lemmas.AttnHeap
import Verif.Props.AttnHeap
import Verif.Model.Transformer
import Verif.Spec.Transformer
import Verif.Lemmas.Transformer
import Verif.Lemmas.Pair
import Verif.Lemmas.Layer
import Verif.Lemmas.EncoderLayer
import Verif.Props.Transformer
import Verif.Model.Convert
import Verif.Model.Adaptive
import Verif.Spec.Convert
import Verif.Lemmas.Convert
import Verif.Props.Convert
import Verif.Props.Adaptive
import Verif.Model.Nest
import Verif.Model.Append
import Verif.Lemmas.Nest
import Verif.Lemmas.NestGeo
import Verif.Props.Nest
import Verif.Model.ConvNd
import Verif.Spec.ConvNd
import Verif.Lemmas.ConvNd
import Verif.Props.ConvNd
import Verif.Lemmas.Extend
import Verif.Model.PoolNd
import Verif.Spec.PoolNd
import Verif.Lemmas.PoolNd
import Verif.Props.PoolNd
import Verif.Model.AttnNd
import Verif.Spec.AttnNd
import Verif.Lemmas.AttnNd
import Verif.Props.AttnNd
import Verif.Model.Tensor
import Verif.Lemmas.Tensor
import Verif.Model.AttnLayout
import Verif.Spec.AttnLayout
import Verif.Lemmas.AttnLayout
import Verif.Props.AttnLayout
import Verif.Model.PoolReshape
import Verif.Lemmas.Reshape
import Verif.Props.PoolReshape
import Verif.Model.LinearNd
import Verif.Spec.LinearNd
import Verif.Lemmas.LinearNd
import Verif.Props.LinearNd
import Verif.Spec.Mux
import Verif.Lemmas.Mux
import Verif.Props.Mux
import Verif.Model.ReshapeNd
import Verif.Props.ReshapeNd
import Verif.Spec.EncoderBuild
import Verif.Model.EncoderBuild
import Verif.Props.EncoderBuild
import Verif.Model.EncoderBlock
import Verif.Props.EncoderBlock
import Verif.Model.RnnLayout
import Verif.Props.RnnLayout
import Verif.Spec.Forget
import Verif.Lemmas.Forget
import Verif.Lemmas.ForgetConv
import Verif.Lemmas.ForgetBranch
import Verif.Model.AttnAny
import Verif.Lemmas.AttnAny
import Verif.Props.Forget
import Verif.Spec.Batch
import Verif.Lemmas.Hom
import Verif.Lemmas.HomNd
import Verif.Props.Batch
import Verif.Model.Shape
import Verif.Lemmas.Shape
import Verif.Lemmas.ShapeRefine
import Verif.Props.Shape
import Verif.Props.Branches
import Verif.Props.PoolNdSize
import Verif.Props.AttnOptions
import Verif.Model.InPlace
import Verif.Props.InPlace
import Verif.Props.LambdaModes
import Verif.Model.Threads
import Verif.Props.Threads
import Verif.Model.Hooks
import Verif.Props.Hooks
import Verif.Model.Cyclic
import Verif.Props.Cyclic
import Verif.Model.AttnMask
import Verif.Props.AttnMask
import Verif.Model.Flops
import Verif.Props.Flops
import Verif.Model.OnnxNet
import Verif.Props.OnnxStream
import Verif.Model.OnnxAxes
import Verif.Props.OnnxAxes
import Verif.Model.OnnxTrace
import Verif.Props.OnnxTrace
import Verif.Props.StrictLoad
import Verif.Props.ConvertErrors
import Verif.Props.CallModeSig
import Verif.Props.ChunkAttn
import Verif.Props.ThreadNest
import Verif.Props.Reweigh
import Verif.Model.Grad
import Verif.Spec.Grad
import Verif.Lemmas.Grad
import Verif.Lemmas.GradInv
import Verif.Lemmas.GradSafe
import Verif.Lemmas.GradFlow
import Verif.Lemmas.GradNet
import Verif.Props.Grad
import Verif.Model.NaiveNd
import Verif.Lemmas.NaiveNd
import Verif.Props.NaiveNd
import Verif.Model.Copies
import Verif.Props.Copies
import Verif.Model.Faults
import Verif.Props.Faults
import Verif.Model.Types
import Verif.Props.Types
import Verif.Model.Logging
import Verif.Props.Logging
import Verif.Model.Repr
import Verif.Props.Repr
import Verif.Props.Rounding
import Verif.Model.Device
import Verif.Props.Device
import Verif.Model.Adopt
import Verif.Props.Adopt
import Verif.Model.Enhance
import Verif.Props.Enhance
import Verif.Model.Edit
import Verif.Props.Edit
import Verif.Model.Dropout
import Verif.Props.Dropout
import Verif.Model.Registry
import Verif.Props.Registry
import Verif.Model.Args
import Verif.Props.Args
import Verif.Model.Carry
import Verif.Props.Carry
import Verif.Model.Typed
import Verif.Props.Typed
import Verif.Model.TempAttr
import Verif.Props.TempAttr
import Verif.Model.AttnBuild
import Verif.Props.AttnBuild
import Verif.Props.Empty
import Verif.Model.Cpp
import Verif.Props.Cpp
import Verif.Props.Docs
import Verif.Model.BuildOpt
import Verif.Props.BuildOpt
import Verif.Props.BuildOptRnn
import Verif.Props.CondGeo
import Verif.Props.AttnGeo
import Verif.Model.PoolBuild
import Verif.Props.PoolBuild
import Verif.Model.ReshapeArgs
import Verif.Props.ReshapeArgs
import Verif.Model.EncoderArgs
import Verif.Props.EncoderArgs
import Verif.Model.Ptflops
import Verif.Props.Ptflops
import Verif.Model.Export
import Verif.Props.Export
import Verif.Props.Docs2
import Verif.Model.Work
import Verif.Props.Work
import Verif.Props.GradOut
import Verif.Props.Instant
import Verif.Lemmas.HomMix
import Verif.Props.Superpose
import Verif.Model.AttnShape
import Verif.Props.AttnShape
import Verif.Model.ShapeRnn
import Verif.Props.ShapeRnn
import Verif.Suite
import Verif.Model.Packed
import Verif.Props.Packed
import Verif.Props.RoundErr
import Verif.Props.Gain
