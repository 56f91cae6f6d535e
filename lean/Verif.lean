import Verif.Props.IntQuant
import Verif.Props.Scaling
import Verif.Props.Runtime
import Verif.Props.A2Q
import Verif.Props.Float
import Verif.Props.BinTern
import Verif.Props.QuantTensor
import Verif.Props.Accum
import Verif.Props.QuantLayer
import Verif.Props.Shape
import Verif.Props.Search
import Verif.Props.Gpxq
import Verif.Props.Equalize
import Verif.Props.EqualizeCat
import Verif.Props.Graph
import Verif.Props.GraphMove
import Verif.Props.ChannelSplit
import Verif.Props.ChannelSplitCat
import Verif.Props.Export
import Verif.Props.Pool
import Verif.Props.Ste
import Verif.Props.Cache
import Verif.Props.BitWidthLoss
import Verif.Props.Inject
import Verif.Props.BiasCorr
import Verif.Props.Contexts
import Verif.Props.FloatTensor
import Verif.Props.ShapedTensor
import Verif.Props.Rnn
import Verif.Props.RnnSeq
import Verif.Props.RnnGrid
import Verif.Props.RnnLoad
import Verif.Props.InferFloat
import Verif.Props.QuantizeImpl
import Verif.Props.ActEq
import Verif.Props.EpInit
import Verif.Props.Mha
import Verif.Props.MhaLoad
import Verif.Props.Awq
import Verif.Props.AwqSearch
import Verif.Props.AwqClip
import Verif.Props.LnMerge
import Verif.Props.Qonnx
import Verif.Props.Standardize
import Verif.Props.FnToModule
import Verif.Props.GpxqMode
import Verif.Props.Pack
import Verif.Props.ScaleBias
import Verif.Props.NormCorr
import Verif.Props.Layerwise
import Verif.Props.Residual
import Verif.Props.LayerHandler
import Verif.Props.ChannelScale
import Verif.Props.SameConv
import Verif.Props.QuantConv
import Verif.Props.WbLayer
import Verif.Props.ExportRun
import Verif.Props.GroupQuant
import Verif.Props.InferMode
import Verif.Props.SubTensor
import Verif.Props.Combine
import Verif.Props.ActLayer
import Verif.Props.Upsample
import Verif.Props.Hadamard
import Verif.Props.TruncPool
import Verif.Props.Preset
import Verif.Props.FloatPreset
import Verif.Props.GroupFloat
import Verif.Props.Generative
import Verif.Props.Dynamic
import Verif.Props.Fp8Export
import Verif.Props.ValueTrace
import Verif.Props.FlexML
import Verif.Props.SpreadStats
import Verif.Props.KlThreshold
import Verif.Props.GptqInput
import Verif.Props.GpfqInput
import Verif.Props.GpfqV2
import Verif.Spec.Evaluation
import Verif.Spec.SpatialMean
import Verif.Model.RemoveStochastic
import Verif.Model.MeanPool
import Verif.Lemmas.RemoveStochastic
import Verif.Lemmas.MeanPool
import Verif.Props.StandardPasses
import Verif.Props.LstmExport
import Verif.Props.Checkpoint
import Verif.Props.FloatAct
import Verif.Props.A2QLayer
import Verif.Props.BiasProxy
import Verif.Props.LearnedRound
import Verif.Props.KwOptions
import Verif.Props.AffineScale
import Verif.Props.FusedAttn
import Verif.Props.LastReturn
import Verif.Props.Perplexity
import Verif.Props.OptAttn
import Verif.Props.Rewriter
import Verif.Props.CastFloat
import Verif.Props.HingeLoss
import Verif.Props.LearnedGrad
import Verif.Props.FloatGrad
import Verif.Props.MaxGrad
import Verif.Props.StateDict
import Verif.Props.TruncGrad
import Verif.Props.StochQuant
import Verif.Props.WeightNorm
import Verif.Props.NormGrad
