import Verif.Props.Descriptive
import Verif.Props.MedianMode
import Verif.Props.Spread
import Verif.Props.MovingAverage
import Verif.Props.Kalman
import Verif.Props.Ssa
import Verif.Props.Fluid
import Verif.Props.Synthetic
import Verif.Props.Normal
import Verif.Props.Brent
import Verif.Props.Fmin
import Verif.Props.Replace
import Verif.Props.LinearInterp
import Verif.Props.Cubic
import Verif.Props.Acceleration
import Verif.Props.Poincare
import Verif.Props.Premod
import Verif.Props.Phase
import Verif.Props.Phase2
import Verif.Props.Correlation
import Verif.Props.Spherical
import Verif.Props.Spherical2
import Verif.Props.Cutoff
import Verif.Props.Kernel
import Verif.Props.Kernel2
import Verif.Props.Kde
import Verif.Props.Kde2
import Verif.Props.Kde3
import Verif.Props.Kde4
import Verif.Props.Kde5
import Verif.Props.Kde6
import Verif.Props.Kde7
import Verif.Props.Butter
import Verif.Props.ButterProto
import Verif.Props.ButterDesign
import Verif.Props.ButterMain
import Verif.Props.Bivariate
import Verif.Props.Bivariate2
import Verif.Props.Bivariate3
import Verif.Props.Sop
import Verif.Props.Sop2
import Verif.Props.MeanText
import Verif.Props.ButterRows
import Verif.Props.PolyRestore
import Verif.Props.Spectrum
import Verif.Props.SpectrumLaws
import Verif.Props.SpectrumEdge
import Verif.Props.KalmanLong
import Verif.Props.Cantelli
import Verif.Props.CorrelationPerm
import Verif.Props.PhaseFlat
import Verif.Props.PhaseScale
import Verif.Props.KalmanMat
import Verif.Tests
import Verif.Py.Round
import Verif.Lemmas.Round
import Verif.Props.Rounding
import Verif.Props.RoundSpread
import Verif.Model.Pipeline
import Verif.Lemmas.Around
import Verif.Props.Pipeline
import Verif.Props.PipelineExact
import Verif.Props.PipelineSpike
import Verif.Props.PipelineLaws
import Verif.Props.PipelineKernel
import Verif.Props.SsaLaws
import Verif.Props.BrentConv
import Verif.Props.FminConv
import Verif.Props.StatLaws
import Verif.Props.SmoothLaws
import Verif.Props.OptUnits
import Verif.Props.FluidTensor
import Verif.Props.ButterLaws
import Verif.Props.NormalLaws
import Verif.Props.LinearLaws
import Verif.Props.TestStat
import Verif.Props.Bivariate4
import Verif.Props.SignalPrograms
import Verif.Props.Robust
import Verif.Props.Shape
import Verif.Props.Missing
import Verif.Props.MissingDetect
import Verif.Props.Regression
import Verif.Props.KalmanOpt
import Verif.Props.Variational
import Verif.Props.ButterMirror
import Verif.Props.KalmanNd
import Verif.Props.Dtype
import Verif.Props.CorrelationSpike
import Verif.Props.CorrelationCount
import Verif.Props.PhaseSpike
import Verif.Props.AccelSpike
import Verif.Props.Infinite
import Verif.Model.CreateModel
import Verif.Props.CreateModel
import Verif.Props.CreateModel2
import Verif.Props.KalmanEma
import Verif.Spec.SplineWeights
import Verif.Props.CubicValue
import Verif.Props.SsaUnique
import Verif.Props.FreqResponse
import Verif.Props.PhaseCount
import Verif.Props.BrentRnd
import Verif.Props.FminRnd
import Verif.Props.KalmanRnd
import Verif.Props.InterpRnd
import Verif.Props.SsaError
import Verif.Props.SpikeOrder
import Verif.Props.SphericalSpike
import Verif.Props.NegativeIndex
import Verif.Props.Bivariate5
import Verif.Py.Overflow
import Verif.Props.Overflow
import Verif.Props.KernelPerm
import Verif.Model.Narrow
import Verif.Props.Narrow
import Verif.Props.CorrelationSwap
import Verif.Props.SphericalReverse
import Verif.Props.FreqWeighted
import Verif.Props.SsaSymmetry
import Verif.Props.NarrowPhase
import Verif.Props.NarrowKernel
import Verif.Props.CxrTolerance
import Verif.Props.NanDensity
import Verif.Props.Underflow
import Verif.Props.RoundFluid
import Verif.Props.SpectrumTone
import Verif.Props.RoundDetect
import Verif.Props.NarrowThree
import Verif.Props.FminSteps
import Verif.Lemmas.RoundMonoReal
import Verif.Props.FminRndConv
import Verif.Props.BrentRndConv
import Verif.Py.Libm
import Verif.Py.UnderflowReal
import Verif.Props.NormalRnd
import Verif.Props.NormalRnd2
import Verif.Props.NormalUnderflow
import Verif.Props.MomentRnd
import Verif.Py.Fine
import Verif.Props.CorrelationRnd
import Verif.Props.PhaseRnd
import Verif.Props.PollutionRnd
import Verif.Props.PremodRnd
import Verif.Props.SphericalTies
import Verif.Props.AroundRnd
import Verif.Props.InterpOverflow
import Verif.Props.SsaGeometric
import Verif.Py.Full
import Verif.Props.FluidOverflow
import Verif.Props.SeriesFull
import Verif.Props.KernelGrid
import Verif.Props.KernelSign
import Verif.Py.OverflowReal
import Verif.Props.OverflowDetect
import Verif.Props.DescAlgebra
import Verif.Props.OverflowPoincare
import Verif.Props.OverflowReplace
import Verif.Props.OverflowSpherical
import Verif.Props.OverflowPipeline
import Verif.Props.ButterStable
import Verif.Props.ButterReal
import Verif.Props.ButterCompose
