import Verif.Base.Dict
import Verif.Model.PRNG
import Verif.Lemmas.PRNG
import Verif.Props.PRNG
import Verif.Model.Names
import Verif.Lemmas.Names
import Verif.Props.Names
import Verif.Model.Value
import Verif.Model.Frame
import Verif.Model.Machine
import Verif.Model.Local
import Verif.Lemmas.Pres
import Verif.Lemmas.FrameOps
import Verif.Lemmas.Refine
import Verif.Lemmas.Dict2
import Verif.Lemmas.Grow
import Verif.Lemmas.Control
import Verif.Lemmas.Track
import Verif.Lemmas.Top
import Verif.Lemmas.History
import Verif.Lemmas.Keys
import Verif.Props.Context
import Verif.Props.Control
import Verif.Props.Diff
import Verif.Props.Params
import Verif.Props.State
import Verif.Props.Rng
import Verif.Model.Identity
import Verif.Props.Identity
import Verif.Model.Hooks
import Verif.Props.Hooks
import Verif.Props.HookOrder
import Verif.Model.Filtering
import Verif.Props.Filtering
import Verif.Model.Tree
import Verif.Props.Tree
import Verif.Model.Transform
import Verif.Model.Lift
import Verif.Props.Lift
import Verif.Props.Transform
import Verif.Props.Submodules
import Verif.Lemmas.Construct
import Verif.Lemmas.InitApply
import Verif.Props.Scopes
import Verif.Props.InitApply
import Verif.Lemmas.Getters
import Verif.Props.Getters
import Verif.Model.Shapes
import Verif.Model.Utils
import Verif.Model.Conv
import Verif.Model.Pool
import Verif.Model.Bias
import Verif.Props.Shapes
import Verif.Props.Utils
import Verif.Props.Conv
import Verif.Props.Bias
import Verif.Props.Pool
import Verif.Model.Ema
import Verif.Model.Mlp
import Verif.Model.Embed
import Verif.Model.Recurrent
import Verif.Props.Ema
import Verif.Props.Mlp
import Verif.Props.Embed
import Verif.Props.Recurrent
import Verif.Model.Reset
import Verif.Props.Reset
import Verif.Model.DeepRnn
import Verif.Props.DeepRnn
import Verif.Model.Threads
import Verif.Lemmas.Threads
import Verif.Props.Threads
import Verif.Model.OptimizeRng
import Verif.Props.OptimizeRng
import Verif.Props.HookThreads
import Verif.Model.Nd
import Verif.Model.Norm
import Verif.Lemmas.Nd
import Verif.Lemmas.Reshape
import Verif.Props.Norm
import Verif.Props.BatchNorm
import Verif.Props.GroupNorm
import Verif.Model.ConvT
import Verif.Props.ConvT
import Verif.Model.VQ
import Verif.Props.VQ
import Verif.Props.VQEma
import Verif.Model.Perplexity
import Verif.Props.Perplexity
import Verif.Model.SpectralNorm
import Verif.Props.SpectralNorm
import Verif.Props.Camel
import Verif.Model.ParamsTree
import Verif.Props.ParamsTree
import Verif.Model.Cores
import Verif.Props.Cores
import Verif.Model.Attention
import Verif.Props.Attention
import Verif.Model.Initializers
import Verif.Props.Initializers
import Verif.Model.Basic
import Verif.Props.Basic
import Verif.Model.ConvArr
import Verif.Lemmas.ConvArr
import Verif.Props.ConvArr
import Verif.Props.Depthwise
import Verif.Props.ConvLSTM
import Verif.Props.ConvShift
import Verif.Props.Summarise
import Verif.Props.Tabulate
import Verif.Model.ResNet
import Verif.Lemmas.Stage
import Verif.Props.ResNet
import Verif.Props.ResNetStart
import Verif.Model.MobileNet
import Verif.Lemmas.Picture
import Verif.Props.MobileNet
import Verif.Lemmas.Flow
import Verif.Props.ResNetValues
import Verif.Model.Dot
import Verif.Props.Dot
import Verif.Props.DotDraw
import Verif.Props.DotEdges
import Verif.Props.DotText
import Verif.Model.Transformer
import Verif.Props.Transformer
import Verif.Model.BiasCall
import Verif.Props.BiasCall
import Verif.Model.Pruning
import Verif.Props.TopK
import Verif.Props.Pruning
import Verif.Props.PruningLoop
import Verif.Model.ImpalaLite
import Verif.Props.ImpalaLite
import Verif.Model.ImpalaLearner
import Verif.Props.ImpalaLearner
import Verif.Model.ImpalaActor
import Verif.Props.ImpalaActor
import Verif.Model.ImpalaLoss
import Verif.Props.ImpalaLoss
import Verif.Model.Vae
import Verif.Props.Gaussian
import Verif.Props.Vae
import Verif.Model.CharRnn
import Verif.Props.CharRnn
import Verif.Props.CharRnnText
import Verif.Model.ImageNet
import Verif.Props.ImageNet
import Verif.Props.SubmodulesRun
import Verif.Model.LmTrain
import Verif.Props.LmTrain
import Verif.Model.AutoRepr
import Verif.Props.AutoRepr
import Verif.Model.FrozenDict
import Verif.Props.FrozenDict
import Verif.Model.TestUtils
import Verif.Props.TestUtils
import Verif.Model.Mnist
import Verif.Props.Mnist
import Verif.Model.MethodHooks
import Verif.Props.MethodHooks
import Verif.Model.ImpalaNets
import Verif.Props.ImpalaNets
import Verif.Model.ImpalaLiteAgent
import Verif.Props.ImpalaLiteAgent
import Verif.Model.Grad
import Verif.Props.Grad
import Verif.Model.OriginalFn
import Verif.Props.OriginalFn
import Verif.Model.AtariTorso
import Verif.Props.AtariTorso
import Verif.Model.ToModule
import Verif.Props.ToModule
import Verif.Model.RnnTrain
import Verif.Props.RnnTrain
import Verif.Model.ImpalaSystem
import Verif.Props.ImpalaSystem
import Verif.Props.Stack
import Verif.Props.ModuleTree
import Verif.Props.ImpalaLiteSystem
import Verif.Props.SharedLayers
import Verif.Props.StraightLine
import Verif.Props.TransformerProgram
import Verif.Props.AnyProgram
import Verif.Props.BatchNormProgram
import Verif.Props.VaeProgram
import Verif.Model.TransformAndRun
import Verif.Props.TransformAndRun
import Verif.Props.MlpProgram
import Verif.Props.DeepTorsoProgram
import Verif.Props.UnrollProgram
