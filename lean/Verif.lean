import Verif.Num
import Verif.Arr
import Verif.Model.Interpolation
import Verif.Model.LeastSquares
import Verif.Lemmas.BSpline
import Verif.Lemmas.SplineInit
import Verif.Props.SplineBasis
import Verif.Props.SplineProject
import Verif.Special
import Verif.Spec
import Verif.Model.Distributions
import Verif.Lemmas.Powerlaw
import Verif.Props.Distributions
import Verif.Lemmas.Interp
import Verif.Model.NumpyroDistributions
import Verif.Props.NumpyroContinuous
import Verif.Props.SmoothedPowerlaw
import Verif.Props.NumpyroGrid
import Verif.Props.PSpline
import Verif.Props.MSplineArea
import Verif.Props.NaturalCubic
import Verif.Props.RectSpline
import Verif.Model.Parametric
import Verif.Props.Parametric
import Verif.Props.RedshiftModel
import Verif.Model.SplineModels
import Verif.Model.SplinePerturbation
import Verif.Props.SplineModels
import Verif.Props.RedshiftSpline
import Verif.Props.SplinePerturbation
import Verif.Model.Analysis
import Verif.Props.Estimators
import Verif.Props.Likelihood
import Verif.Props.PPC
import Verif.Props.Falloff
import Verif.PyDict
import Verif.Model.Construct
import Verif.Props.Construct
import Verif.Model.Parser
import Verif.Props.Parser
import Verif.Model.Cosmology
import Verif.Props.Cosmology
import Verif.Model.Conversions
import Verif.Props.Conversions
import Verif.Model.SpinPriors
import Verif.Props.SpinPriors
import Verif.Lemmas.InterpIntegral
import Verif.Props.ChiP
import Verif.Props.ChiPGiven
import Verif.Model.Selection
import Verif.Props.Selection
import Verif.Model.DataCollection
import Verif.Props.DataCollection
import Verif.Props.PEPrior
import Verif.Model.Postprocess
import Verif.Props.Postprocess
import Verif.Model.PipelineUtils
import Verif.Props.PipelineUtils
import Verif.Props.Packaging
import Verif.Dilog
import Verif.LogConv
import Verif.LintLaw
import Verif.Props.IsoLaw
import Verif.Model.Plot
import Verif.Props.Plot
import Verif.Model.Scripts
import Verif.Props.Examples
import Verif.Props.RunFiles
import Verif.Model.Submit
import Verif.Props.Submit
import Verif.Model.NumpyroSampling
import Verif.Props.Sampling
import Verif.Model.LoadData
import Verif.Props.LoadData
import Verif.Props.LoadPosterior
import Verif.Props.ChiPLaw
import Verif.Props.Consistency
import Verif.Props.RateLaw
import Verif.Props.PPCLaw
import Verif.Model.Config
import Verif.Props.Config
import Verif.Props.Smoothing
import Verif.Lemmas.BSplineSmooth
import Verif.Props.SplineSmooth
import Verif.Lemmas.Trapezoid
import Verif.Props.TrueNorm
import Verif.Props.SplineIdent
import Verif.Props.ParamSmooth
import Verif.Props.ParamIdent
import Verif.Props.LikelihoodSmooth
import Verif.Props.RedshiftTrueNorm
import Verif.Model.RunOutput
import Verif.Props.RunOutput
import Verif.Model.IntegerPoints
import Verif.Props.IntegerPoints
import Verif.Model.EndToEnd
import Verif.Props.EndToEnd
import Verif.Model.ExampleMain
import Verif.Props.ExampleMain
import Verif.Model.AutoDiff
import Verif.Props.AutoDiff
import Verif.Model.AutoDiffDensities
import Verif.Props.AutoDiffDensities
import Verif.Model.AutoDiffSplines
import Verif.Props.AutoDiffSplines
import Verif.Model.AutoDiffParametric
import Verif.Props.AutoDiffParametric
import Verif.Props.ErrorBars
import Verif.Props.PosteriorConvergence
import Verif.Model.IntegerCounts
import Verif.Props.IntegerCounts
import Verif.Model.Rounding
import Verif.Props.RoundingBasics
import Verif.Props.RoundingEstimators
import Verif.Props.Rounding
import Verif.Props.Underflow
import Verif.Model.FindMap
import Verif.Props.FindMap
import Verif.Model.SplineTree
import Verif.Props.SplineTree
import Verif.Model.SplineKeywords
import Verif.Props.SplineKeywords
import Verif.Model.PyNumbers
import Verif.Props.PyNumbers
import Verif.Model.SpinPriorsArray
import Verif.Props.SpinPriorsArray
import Verif.Model.RoundingPowerlaw
import Verif.Props.RoundingPowerlaw
import Verif.Model.RedshiftMethods
import Verif.Props.RedshiftMethods
import Verif.Model.RoundingTruncnorm
import Verif.Props.RoundingTruncnorm
import Verif.Model.RoundingSpline
import Verif.Props.RoundingSpline
import Verif.Props.RoundingSplineDensity
import Verif.Model.RoundingPopulation
import Verif.Props.RoundingPopulation
import Verif.Model.PerturbedRatio
import Verif.Props.PerturbedRatio
import Verif.Model.RoundingParametric
import Verif.Props.RoundingParametric
import Verif.Props.RoundingSpins
import Verif.Props.RoundingParametricExact
import Verif.Props.RoundingPeakWeights
import Verif.Model.RoundingLogSpline
import Verif.Props.RoundingLogSpline
import Verif.Props.RoundingLogSplineExact
import Verif.Props.RoundingSplineWeights
import Verif.Props.RoundingRange
import Verif.Model.RoundingLogistic
import Verif.Props.RoundingLogistic
import Verif.Model.RoundingSmooth
import Verif.Props.RoundingSmooth
import Verif.Model.RoundingPenalty
import Verif.Props.RoundingPenalty
import Verif.Model.RoundingJoint
import Verif.Props.RoundingJoint
import Verif.Model.RoundingRate
import Verif.Props.RoundingRate
import Verif.Model.RoundingPerturbed
import Verif.Props.RoundingPerturbed
import Verif.Props.RoundingLognormal
