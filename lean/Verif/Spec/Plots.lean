import Verif.Model.Plots

/-!
# Specification of the diagnostic figure

The seven panels that the documentation of `make_diagnostic_plots` (eccDefinition.py 3428-3472) promises for every call, in the
order of the code, and what is drawn in them.
-/

namespace GwEcc.Spec

/-- The seven panels. -/
def alwaysPanels : List PanelName :=
  [.eccentricity, .meanAnomaly, .omega, .dataUsed, .deccDt, .phaseRatio, .average]

/-- The panels of the residuals, promised when quasicircular data are given: the residual that is not used by the method, or
both. -/
def residualPanels : MethodClass → List PanelName
  | .residualAmplitude => [.residualOmega]
  | .residualFrequency => [.residualAmp]
  | _ => [.residualAmp, .residualOmega]

/-- The curves of the panel of that name. -/
def curvesOf {K : Type} (fig : List (Panel K)) (n : PanelName) : Option (List (Curve K)) :=
  (fig.find? fun p => decide (p.name = n)).map (·.curves)

/-- A waveform with samples, and as many amplitudes and frequencies as times. -/
structure SampledWave {K : Type} (w : Wave K) : Prop where
  some : w.t ≠ []
  amp : w.amp.length = w.t.length
  omega : w.omega.length = w.t.length

/-- The same call with the option `debug_plots` set to `v`. -/
def withPlots {K C : Type} (a : Call K C) (v : Opt K) : Call K C :=
  { a with extra := some ((a.extra.getD []).set "debug_plots" v) }

end GwEcc.Spec
