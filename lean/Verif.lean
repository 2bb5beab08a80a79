import Verif.Combine.MeanVarProps
import Verif.Combine.NumPyProps
import Verif.Combine.CovarianceProps
import Verif.Combine.PcaProps
import Verif.Combine.WeightedMeanProps
import Verif.Combine.LMomentsProps
import Verif.Combine.PackedProps
import Verif.Combine.PerKeyProps
import Verif.Combine.PerKeyQuantilesProps
import Verif.Cache.RunProps
import Verif.Vocab.Props
import Verif.Mappers.PerKeyBucketsProps
import Verif.Mappers.LookupProps
import Verif.Mappers.ScalingProps
import Verif.Mappers.SparseProps
import Verif.Mappers.TfIdfProps
import Verif.Mappers.DocFreqProps
import Verif.Graph.TraverseProps
import Verif.Graph.ReadyProps
import Verif.Graph.PhasesProps
import Verif.Graph.CachePathProps
import Verif.Graph.OptimizeProps
import Verif.Graph.OptimizeCases
import Verif.Graph.PackingProps
import Verif.Graph.PackingBeam
import Verif.Graph.PackingCases
import Verif.Cache.CodersProps
import Verif.Cache.FsProps
import Verif.Cache.KeysProps
import Verif.Cache.OutputProps
import Verif.Cache.NumpyCoderProps
import Verif.Cache.MeanVarArraysProps
import Verif.Pipeline.BatchProps
import Verif.Context.BeamProps
import Verif.Context.GraphProps
import Verif.Pipeline.AnalyzeProps
import Verif.Pipeline.ServingProps
import Verif.Pipeline.TransformDataProps
import Verif.Pipeline.WorkerProps
import Verif.Pipeline.SkewProps
import Verif.Pipeline.WholeRunProps
import Verif.Pipeline.ConstructProps
import Verif.Pipeline.CustomAnalyzerProps
import Verif.Pipeline.ColumnsProps
import Verif.Pipeline.PublishProps
import Verif.Coders.ExampleProtoProps
import Verif.Coders.CsvProps
import Verif.Coders.SerializeExampleProps
import Verif.Schema.FeatureSpecProps
import Verif.Schema.InferenceProps
import Verif.Schema.MetadataIoProps
import Verif.Schema.SequenceProps
import Verif.Schema.TypeSpecsProps
import Verif.Numeric.MinDiffProps
import Verif.Numeric.BisectProps
import Verif.Numeric.HyperProps
import Verif.Numeric.MutualInfoProps
import Verif.Numeric.GaussFitProps
import Verif.Mappers.DensityProps
import Verif.Mappers.PerKeyScalingProps
import Verif.Mappers.TensorScalingProps
import Verif.Mappers.HistogramProps
import Verif.Vocab.CooccurProps
import Verif.Pipeline.DeepCopyProps
import Verif.Pipeline.PyFuncProps
import Verif.Pipeline.VocabTablesProps
import Verif.Pipeline.InPlaceProps
import Verif.Mappers.PerKeyHighRankProps
import Verif.Mappers.TypedBucketsProps
import Verif.Vocab.LabelProps
import Verif.Vocab.InformativenessProps
import Verif.Output.VocabAccessProps
import Verif.Saved.LoadProps
import Verif.Saved.PretrainedProps
import Verif.Saved.VarMapProps
import Verif.Vocab.MisraGries
import Verif.Mappers.DensifyProps
import Verif.Numeric.WindowFit
import Verif.Numeric.ShapeFit
import Verif.Numeric.RareLabel
import Verif.Pipeline.ChecksProps
import Verif.Combine.TypedSumProps
import Verif.Vocab.ReservedProps
import Verif.Mappers.TypedScalingProps
import Verif.Graph.InstrumentProps
import Verif.Graph.OutputCacheProps
import Verif.Pipeline.ApiUseProps
