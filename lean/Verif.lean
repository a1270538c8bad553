import Verif.Lemmas.KeplerPeriod
import Verif.Lemmas.Levels
import Verif.Lemmas.Py
import Verif.Props.Average
import Verif.Props.Compare
import Verif.Props.DataDemo
import Verif.Props.DataDict
import Verif.Props.DataUnits
import Verif.Props.Ecc
import Verif.Props.Envelope
import Verif.Props.Extrema
import Verif.Props.Fits
import Verif.Props.Frame
import Verif.Props.Heap
import Verif.Props.Levels
import Verif.Props.LoadData
import Verif.Props.LoadOptions
import Verif.Props.MeanAnomaly
import Verif.Props.Measure
import Verif.Props.Methods
import Verif.Props.Modes
import Verif.Props.Mpi
import Verif.Props.BatchSize
import Verif.Props.Newtonian
import Verif.Props.NewtonianMethods
import Verif.Props.Postprocess
import Verif.Props.RationalDegree
import Verif.Props.RationalFit
import Verif.Props.Repeat
import Verif.Props.BoundsHistory
import Verif.Props.Residual
import Verif.Props.Segment
import Verif.Props.SpinDecision
import Verif.Props.SpinMask
import Verif.Props.Strict
import Verif.Props.Succeeds
import Verif.Props.SucceedsFreq
import Verif.Props.Units
import Verif.Props.Utils
import Verif.Props.Values
import Verif.Model.Construct
import Verif.Spec.Options
import Verif.Lemmas.Construct
import Verif.Lemmas.ConstructOk
import Verif.Lemmas.RunDemo
import Verif.Props.Options
import Verif.Props.Keys
import Verif.Spec.Rescale
import Verif.Lemmas.UnitsData
import Verif.Lemmas.UnitsFilter
import Verif.Lemmas.SampleCount
import Verif.Lemmas.UnitsFits
import Verif.Lemmas.UnitsRun
import Verif.Props.Rescale
import Verif.Spec.Ends
import Verif.Props.Ends
import Verif.Spec.NewtonianCall
import Verif.Props.NewtonianCall
import Verif.Lemmas.MpiZero
import Verif.Lemmas.Stability
import Verif.Props.Stability
import Verif.Props.WholeCall
import Verif.Model.SharedOptions
import Verif.Props.SharedOptions
import Verif.Model.Cli
import Verif.Spec.Cli
import Verif.Props.Cli
import Verif.Model.VarPro
import Verif.Spec.VarPro
import Verif.Lemmas.VarPro
import Verif.Lemmas.VarProReal
import Verif.Props.VarPro
import Verif.Model.Fourier
import Verif.Lemmas.Fourier
import Verif.Props.Fourier
import Verif.Model.Trend
import Verif.Lemmas.Trend
import Verif.Props.Trend
import Verif.Props.SpinCheck
import Verif.Props.LoadFiles
import Verif.Props.LoadH22
import Verif.Props.WidthDimless
import Verif.Model.PostObject
import Verif.Props.PostObject
import Verif.Model.SxsFiles
import Verif.Props.SxsDownload
import Verif.Props.SxsLoad
import Verif.Model.Generators
import Verif.Props.Generators
import Verif.Spec.PhaseOrigin
import Verif.Lemmas.PhaseMeasure
import Verif.Lemmas.PhaseFits
import Verif.Lemmas.PhaseDict
import Verif.Lemmas.PhaseFrame
import Verif.Lemmas.PhaseProcess
import Verif.Lemmas.PhaseRun
import Verif.Props.PhaseOrigin
import Verif.Props.LalCall
import Verif.Lemmas.RingdownRun
import Verif.Props.Ringdown
import Verif.Spec.OtherModes
import Verif.Lemmas.OtherModes
import Verif.Lemmas.OtherModesRun
import Verif.Props.OtherModes
import Verif.Spec.Reference
import Verif.Lemmas.Reference
import Verif.Props.Reference
import Verif.Props.ReferenceFreq
import Verif.Model.ExtremaFit
import Verif.Lemmas.ExtremaFit
import Verif.Spec.WholeLevels
import Verif.Spec.StrictCall
import Verif.Props.WholeLevels
import Verif.Props.StrictCall
import Verif.Model.Plots
import Verif.Spec.Plots
import Verif.Lemmas.Plots
import Verif.Props.Plots
import Verif.Props.Extrapolated
import Verif.Props.PeakWidth
import Verif.Props.FindPeaks
import Verif.Model.Spline
import Verif.Spec.Spline
import Verif.Spec.Scipy
import Verif.Lemmas.Spline
import Verif.Lemmas.SplineUnique
import Verif.Lemmas.SplineExists
import Verif.Lemmas.SplineUnits
import Verif.Lemmas.SplineSmooth
import Verif.Lemmas.SplineShape
import Verif.Lemmas.Pchip
import Verif.Props.Spline
import Verif.Props.PchipSmooth
import Verif.Props.SplineCall
import Verif.Spec.NewtonianComplex
import Verif.Props.NewtonianComplex
import Verif.Lemmas.KeplerWidth
import Verif.Props.NewtonianWidth
import Verif.Model.Numpy
import Verif.Spec.Numpy
import Verif.Lemmas.Numpy
import Verif.Props.Numpy
import Verif.Props.FreqTime
import Verif.Props.Harmonics
import Verif.Props.FreqInterp
import Verif.Props.Continuity
import Verif.Props.StabilityCall
import Verif.Props.SplineStability
import Verif.Props.AnomalyContinuity
