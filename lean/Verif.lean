import Verif.Props.Slicing
import Verif.Props.Filters
import Verif.Props.SqlAgree
import Verif.Props.WhereText
import Verif.Props.Traverse
import Verif.Props.Cache
import Verif.Props.MetricList
import Verif.Props.Nth
import Verif.Props.Quantile
import Verif.Props.AuxCols
import Verif.Props.Expand
import Verif.Props.SqlColumns
import Verif.Props.SqlWith
import Verif.Props.WithMeaning
import Verif.Props.SqlArith
import Verif.Props.SqlFlatten
import Verif.Props.SqlMerge
import Verif.Props.Diversity
import Verif.Props.Cumulative
import Verif.Props.CumulativeMissing
import Verif.Props.Comparison
import Verif.Props.Adjust
import Verif.Props.AdjustValue
import Verif.Props.AdjustMissing
import Verif.Props.AdjustCols
import Verif.Props.Jackknife
import Verif.Props.StdErr
import Verif.Props.Resample
import Verif.Props.ResampleSql
import Verif.Props.Precompute
import Verif.Props.Width
import Verif.Props.Melt
import Verif.Props.Suff
import Verif.Props.SuffMissing
import Verif.Props.LogitMissing
import Verif.Props.MultiClass
import Verif.Props.Ridge
import Verif.Props.ElasticNet
import Verif.Props.ElasticStop
import Verif.Props.Logistic
import Verif.Props.LogisticFit
import Verif.Props.LogisticUser
import Verif.Props.LogisticRate
import Verif.Props.ElasticRate
import Verif.Props.DisplayCell
import Verif.Props.DisplayTable
import Verif.Props.DisplayWide
import Verif.Props.DisplayText
import Verif.Props.DisplayDims
import Verif.Props.DisplaySort
import Verif.Props.MetricValues
import Verif.Props.ExtraIdx
import Verif.Props.QueryShape
import Verif.Props.QueryNames
import Verif.Props.Fingerprint
import Verif.Props.HashKey
import Verif.Props.Generic
import Verif.Props.MixedMode
import Verif.Props.SqlMoments
import Verif.Props.CondText
import Verif.Props.Build
import Verif.Model.CiTable
import Verif.Spec.CiTable
import Verif.Lemmas.CiTable
import Verif.Props.CiTable
import Verif.Model.ChangeBase
import Verif.Spec.ChangeBase
import Verif.Props.ChangeBase
import Verif.Model.MHColumns
import Verif.Spec.MHColumns
import Verif.Props.MHColumns
import Verif.Model.QueryText
import Verif.Spec.QueryText
import Verif.Lemmas.QueryLex
import Verif.Lemmas.QueryRead
import Verif.Lemmas.QueryUser
import Verif.Props.QueryText
import Verif.Props.QueryCol
import Verif.Model.Preagg
import Verif.Spec.Preagg
import Verif.Lemmas.Preagg
import Verif.Props.Preagg
import Verif.Model.PreaggSql
import Verif.Lemmas.PreaggSql
import Verif.Props.PreaggSql
import Verif.Model.BatchSize
import Verif.Props.BatchSize
import Verif.Model.ShowResult
import Verif.Props.ShowResult
import Verif.Model.RootFlag
import Verif.Props.RootFlag
import Verif.Model.FailedSamples
import Verif.Props.FailedSamples
import Verif.Model.SqlModes
import Verif.Props.SqlModes
import Verif.Model.ModelBuild
import Verif.Props.ModelBuild
import Verif.Props.ModelOptions
import Verif.Props.JackCache
import Verif.Props.CsvFile
import Verif.Props.JackLevels
import Verif.Model.Identity
import Verif.Spec.Identity
import Verif.Props.Identity
import Verif.Props.ShowColour
import Verif.Spec.Weights
import Verif.Props.Weights
import Verif.Props.WeightsQuantile
import Verif.Props.RowOrder
import Verif.Props.Dot
import Verif.Props.RowOrderJack
import Verif.Props.Arith
import Verif.Props.Bootstrap
import Verif.Props.Units
import Verif.Props.UnitsStats
import Verif.Props.UnitsQuantile
import Verif.Props.Copies
import Verif.Props.CopiesQuantile
import Verif.Props.QuantilePlain
import Verif.Props.OtherColumns
import Verif.Props.OtherColumnsSql
import Verif.Props.AddUp
