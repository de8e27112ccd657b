import Verif.Filters.Props
import Verif.Loop.Checkpoint.Props
import Verif.State.Props
import Verif.Serialise.Props
import Verif.Enum.Props
import Verif.TreeAt.Props
import Verif.TreeCheck.Props
import Verif.TreeEqual.Props
import Verif.Loop.Common.Props
import Verif.Loop.Scan
import Verif.NN.RopeReal
import Verif.NN.Pool
import Verif.NN.AdaptivePool
import Verif.NN.Conv
import Verif.Jit.Props
import Verif.Vmap.Named
import Verif.Vmap.PmapProps
import Verif.Errors.Props
import Verif.Module.InitOnce
import Verif.Module.InstanceEq
import Verif.Module.Init
import Verif.Module.Partial
import Verif.Module.Wrapper
import Verif.NN.Shared
import Verif.NN.Sequential
import Verif.NN.Slices
import Verif.NN.Inference
import Verif.Omega.Props
import Verif.MaxTraces.Props
import Verif.Noinline.Props
import Verif.AD.Jvp
import Verif.Custom.ClosureProps
import Verif.Finalise.Props
import Verif.Finalise.Registry
import Verif.Finalise.RegistryProps
import Verif.NN.BatchNorm
import Verif.NN.MultiHead
import Verif.Primitive.Props
import Verif.Primitive.VProps
import Verif.NN.Norm
import Verif.Dce.Props
import Verif.NN.WeightNorm
import Verif.NN.SpectralNorm
import Verif.NN.Rnn
import Verif.Nontraceable.Props
import Verif.EvalShape.Props
import Verif.ClosureTree.Props
import Verif.AD.JacProps
import Verif.NN.Mlp
import Verif.Callback.Props
import Verif.Loop.Perturb.Props
import Verif.Loop.BufferGrad.Props
import Verif.NextAfter.Props
import Verif.Conform.Tree
import Verif.Conform.Enum
import Verif.Conform.Module
import Verif.Conform.Vmap
import Verif.Conform.Loop
import Verif.Conform.Perturb
import Verif.Conform.NN
import Verif.Conform.Files
import Verif.Filters.PredProps
import Verif.Remat.Props
import Verif.Noinline.BatchProps
import Verif.Noinline.DerivProps
import Verif.Loop.Checkpoint.CostSpec
import Verif.Loop.Checkpoint.Cost
import Verif.Loop.Checkpoint.KeepSpec
import Verif.Loop.Checkpoint.Keep
import Verif.Loop.Checkpoint.Rounding
import Verif.Loop.Common.Log
import Verif.Module.WhichInit
import Verif.Module.Decision
import Verif.Debug.AnnounceProps
import Verif.Unvmap.Props
import Verif.Misc.ScanTrick
import Verif.NN.Embedding
import Verif.Serialise.Files
import Verif.Vmap.PmapCacheProps
import Verif.Debug.BackwardNan
import Verif.Module.Bound
import Verif.Enum.Traced
import Verif.Errors.Diff
import Verif.Module.Fields
import Verif.Jit.Report
import Verif.NN.Keys
import Verif.Module.Warnings
import Verif.Misc.Container
import Verif.Loop.ScanBuffers
import Verif.NN.ConvValue
import Verif.Noinline.OutputProps
import Verif.Module.GeneratedProps
import Verif.Module.Annotations
import Verif.Misc.PFormat
import Verif.NN.AdaptiveValue
import Verif.NN.Named
import Verif.NN.NamedProps
import Verif.NN.NamedBody
import Verif.Module.Initable
import Verif.Module.InitableProps
import Verif.Module.Signature
import Verif.Module.SignatureProps
import Verif.Misc.Settings
import Verif.Module.Forward
import Verif.Module.ForwardProps
import Verif.Misc.Options
import Verif.Misc.OptionsProps
import Verif.AD.Training
import Verif.Vmap.Ensemble
import Verif.TreeAt.Recipes
import Verif.TreeAt.ErrorKinds
import Verif.Enum.Bases
import Verif.Enum.BasesProps
import Verif.Serialise.Header
import Verif.Misc.FlatLoop
import Verif.Enum.Doc
import Verif.Loop.Common.Args
import Verif.Vmap.Nest
import Verif.Conform.Jit
import Verif.NN.Dtypes
import Verif.NN.Calls
import Verif.Errors.Tpu
import Verif.Misc.DataLoader
import Verif.Vmap.PmapAot
import Verif.NN.AttentionOrder
import Verif.NN.ConvShift
import Verif.NN.Remade
import Verif.NN.PoolShift
import Verif.NN.Dropout
import Verif.NN.Agree
import Verif.Misc.Docs
import Verif.Misc.CompileCache
import Verif.NN.NormAgree
import Verif.NN.LinearAgree
