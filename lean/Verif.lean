import Verif.Model.Distribution
import Verif.Model.Regression
import Verif.Model.Smooth
import Verif.Model.Volume
import Verif.Model.Volatility
import Verif.Model.Momentum
import Verif.Model.Trend
import Verif.Model.Correlation
import Verif.Spec.Basic
import Verif.Lemmas.Lists
import Verif.Lemmas.Shape
import Verif.Props.ShapeSmooth
import Verif.Props.ShapeVolatility
import Verif.Props.ShapeVolume
import Verif.Props.ShapeStats
import Verif.Props.ShapeMomentum
import Verif.Props.ShapeTrend
import Verif.Lemmas.Causal
import Verif.Props.CausalSmooth
import Verif.Props.CausalVolatility
import Verif.Props.CausalVolume
import Verif.Props.CausalStats
import Verif.Props.CausalMomentum
import Verif.Props.CausalTrend
import Verif.Arith.FP
import Verif.Arith.Val
import Verif.Spec.Real
import Verif.Lemmas.Real
import Verif.Lemmas.Pascal
import Verif.Props.SmoothMean
import Verif.Lemmas.Poison
import Verif.Props.SmoothWeights
import Verif.Props.SmoothConst
import Verif.Props.Adaptive
import Verif.Props.Gains
import Verif.Props.Dispersion
import Verif.Props.Adaptive2
import Verif.Props.FlatWindow
import Verif.Props.Alma
import Verif.Props.Mama
import Verif.Lemmas.Range
import Verif.Lemmas.Rounded
import Verif.Props.Rsi
import Verif.Props.Stochastic
import Verif.Lemmas.Items
import Verif.Lemmas.Dominated
import Verif.Lemmas.RoundsTo
import Verif.Props.Aroon
import Verif.Props.TrueRange
import Verif.Props.Adx
import Verif.Props.RoundedSmooth
import Verif.Lemmas.Bars
import Verif.Props.MoneyFlow
import Verif.Props.Percent
import Verif.Lemmas.Indexed
import Verif.Props.Bands
import Verif.Props.HeikinAshi
import Verif.Props.Quickselect
import Verif.Props.Quantile
import Verif.Props.Rank
import Verif.Props.RankModes
import Verif.Lemmas.Cauchy
import Verif.Props.Pearson
import Verif.Spec.Pairs
import Verif.Props.Kendall
import Verif.Spec.Distance
import Verif.Lemmas.Distance
import Verif.Props.Dcor
import Verif.Spec.Information
import Verif.Lemmas.Information
import Verif.Props.Mic
import Verif.Props.ForecastErrors
import Verif.Props.Accumulate
import Verif.Spec.Flow
import Verif.Props.Vwap
import Verif.Spec.Entropy
import Verif.Props.Entropy
import Verif.Spec.Stops
import Verif.Lemmas.Order
import Verif.Props.Sar
import Verif.Props.Trailing
import Verif.Lemmas.Eval
import Verif.Spec.Zigzag
import Verif.Props.Zigzag
import Verif.Props.Lookahead
import Verif.Spec.Averages
import Verif.Lemmas.Averages
import Verif.Props.Composed
import Verif.Props.MaMode
import Verif.Props.Oscillators
import Verif.Lemmas.Witness
import Verif.Props.Oscillators2
import Verif.Spec.Recursive
import Verif.Props.Recursive
import Verif.Props.VolatilityFormulas
import Verif.Props.TrendFormulas
import Verif.Props.Hurst
import Verif.Props.MomentumFormulas
import Verif.Props.MomentumFormulas2
import Verif.Props.MomentumFormulas3
import Verif.Props.VolumeFormulas
import Verif.Props.Beta
import Verif.Props.Hoeffding
import Verif.Props.HoeffdingRange
import Verif.Spec.Local
import Verif.Lemmas.Local
import Verif.Props.LocalSmooth
import Verif.Props.LocalStats
import Verif.Props.LocalVolatility
import Verif.Props.LocalMomentum
import Verif.Props.LocalNot
import Verif.Spec.Poison
import Verif.Props.PoisonSmooth
import Verif.Props.PoisonAdaptive
import Verif.Props.PoisonMore
import Verif.Props.PoisonNot
import Verif.Spec.Panics
import Verif.Lemmas.Panics
import Verif.Props.PanicSmooth
import Verif.Props.PanicVolatility
import Verif.Props.PanicVolume
import Verif.Props.PanicMomentum
import Verif.Props.PanicTrend
import Verif.Props.PanicMomentum2
import Verif.Props.PanicStats
import Verif.Props.PanicMore
import Verif.Arith.Binary64
import Verif.Props.Error
import Verif.Props.ErrorDispersion
import Verif.Props.Flat64
import Verif.Props.MamaValue
import Verif.Spec.Mesa
import Verif.Props.Range64
import Verif.Props.Range64b
import Verif.Spec.Scale
import Verif.Lemmas.Scale
import Verif.Lemmas.Units
import Verif.Lemmas.FoldMax
import Verif.Arith.Float53
import Verif.Props.ScaleSmooth
import Verif.Props.ScaleMama
import Verif.Props.ScaleVolatility
import Verif.Props.ScaleMomentum
import Verif.Props.ScaleTrend
import Verif.Props.ScaleVolume
import Verif.Props.ScaleStats
import Verif.Props.ScaleCorrelation
import Verif.Props.ScaleRange
import Verif.Props.ScaleUnits
import Verif.Props.ScaleRange2
import Verif.Props.MonoSmooth
import Verif.Props.MonoBars
import Verif.Props.MonoCandles
import Verif.Props.MonoCases
import Verif.Spec.Mirror
import Verif.Lemmas.Mirror
import Verif.Lemmas.Parity
import Verif.Lemmas.Flip
import Verif.Props.MirrorSmooth
import Verif.Props.MirrorMama
import Verif.Props.MirrorBars
import Verif.Props.MirrorMomentum
import Verif.Props.MirrorTrend
import Verif.Props.MirrorVolume
import Verif.Props.MirrorStats
import Verif.Props.MirrorExact
import Verif.Props.MirrorCases
import Verif.Spec.Sign
import Verif.Lemmas.Every
import Verif.Props.SignAverages
import Verif.Props.SignMeasures
import Verif.Props.BandOrder
import Verif.Props.SignCases
import Verif.Spec.Lift
import Verif.Lemmas.Lift
import Verif.Lemmas.LiftTactic
import Verif.Props.LiftSmooth
import Verif.Props.LiftSmooth2
import Verif.Props.LiftSmooth3
import Verif.Props.LiftStats
import Verif.Props.LiftVolatility
import Verif.Props.LiftMomentum
import Verif.Props.LiftTrend
import Verif.Props.LiftCorrelation
import Verif.Props.LiftVolume
import Verif.Props.LiftCases
import Verif.Props.PlainFormulas
import Verif.Spec.Superpose
import Verif.Lemmas.Superpose
import Verif.Props.Superpose
import Verif.Spec.Lag
import Verif.Props.Lag
import Verif.Lemmas.Near
import Verif.Lemmas.NearSeries
import Verif.Lemmas.NearSum
import Verif.Lemmas.NearWindows
import Verif.Props.ErrorAverages
import Verif.Props.ErrorComposed
import Verif.Props.ErrorBands
import Verif.Spec.Forget
import Verif.Lemmas.Fade
import Verif.Props.Forget
import Verif.Props.OneBar
import Verif.Props.Order
import Verif.Props.Order64
import Verif.Spec.Trend
import Verif.Props.AdxLine
import Verif.Props.Saturate
import Verif.Props.Saturate2
import Verif.Lemmas.Relative
import Verif.Props.Ratio64
import Verif.Props.Ratio64b
import Verif.Props.Ratio64c
import Verif.Lemmas.Whole
import Verif.Props.Whole64
import Verif.Props.Whole64b
import Verif.Props.Whole64c
import Verif.Lemmas.NearQuot
import Verif.Lemmas.AverageOrder
import Verif.Props.Cond64
import Verif.Props.Cond64b
import Verif.Props.Cond64c
import Verif.Props.SumStart
import Verif.Model.Checked
import Verif.Props.Machine
import Verif.Lemmas.RelativeMul
import Verif.Props.Money64
import Verif.Props.Rsi64
import Verif.Props.MoneyCases
import Verif.Model.Lazy
import Verif.Props.Lazy
import Verif.Props.OrderOnly
import Verif.Props.Identities
import Verif.Props.Bounds
import Verif.Spec.Stable
import Verif.Lemmas.Stable
import Verif.Props.Stable
import Verif.Props.Extremes
import Verif.Props.Extremes2
import Verif.Props.Extremes3
import Verif.Spec.Cycle
import Verif.Lemmas.Cycle
import Verif.Props.Cycle
import Verif.Props.CycleLevel
import Verif.Props.Params
import Verif.Props.Outlier
import Verif.Spec.Settle
import Verif.Lemmas.Settle
import Verif.Props.Settle
import Verif.Props.Settle2
import Verif.Props.Settle3
import Verif.Spec.Gap
import Verif.Spec.Chain
import Verif.Lemmas.Gap
import Verif.Props.GapSmooth
import Verif.Props.GapStats
import Verif.Props.GapNot
import Verif.Props.Chain
import Verif.Model.Ints
import Verif.Props.Ints
import Verif.Spec.Later
import Verif.Props.Later
import Verif.Model.Release
import Verif.Props.Release
import Verif.Spec.Move
import Verif.Props.Move
import Verif.Lemmas.Balanced
import Verif.Props.Signed64
import Verif.Model.LazyScan
import Verif.Props.LazyScan
import Verif.Spec.NearCycle
import Verif.Props.NearCycle
import Verif.Spec.ZeroLine
import Verif.Lemmas.ZeroLine
import Verif.Props.ZeroLine
import Verif.Props.ZeroLine2
import Verif.Props.Docs
import Verif.Model.ReleaseZero
import Verif.Props.ReleaseZero
import Verif.Props.StopSide
import Verif.Props.Averages64
import Verif.Props.Corr64
import Verif.Props.Hoeffd64
import Verif.Props.Forecast64
import Verif.Props.Measures64
import Verif.Props.Adaptive64
import Verif.Props.Mama64
import Verif.Props.Lrf64
import Verif.Props.Overlay64
import Verif.Props.Ranges64
import Verif.Props.Quantile64
import Verif.Props.Determines
import Verif.Props.Travel
import Verif.Props.Jump
import Verif.Props.T3Error
import Verif.Props.Force64
import Verif.Props.Drift64
import Verif.Props.Cmf64
import Verif.Props.Cross
import Verif.Props.Reverse
import Verif.Props.Cross2
import Verif.Props.Portfolio
import Verif.Props.Forecasts
import Verif.Props.Merge
import Verif.Props.Join
import Verif.Props.Ribbon
import Verif.Props.Ceiling
import Verif.Props.Ribbon2
import Verif.Props.SarTrend
import Verif.Props.Steer
import Verif.Props.Plateau
import Verif.Props.Plateau2
import Verif.Props.CorrTable
import Verif.Props.Plateau3
import Verif.Props.BasketBeta
