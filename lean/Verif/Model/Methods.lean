import Verif.Model.Measure

/-!
# Model of the classes based on `find_peaks`

`eccDefinitionUsingAmplitude.py`, `eccDefinitionUsingFrequency.py`, `eccDefinitionUsingResidualAmplitude.py`,
`eccDefinitionUsingResidualFrequency.py`, and what the two fits classes (`eccDefinitionUsingFrequencyFits.py` 53-92,
`eccDefinitionUsingAmplitudeFits.py` 14-42) take as data.
-/

namespace GwEcc

/-- `self.method` as set by each class: Amplitude 24, Frequency 22, ResidualAmplitude 27, ResidualFrequency 26,
AmplitudeFits 26, FrequencyFits 70 (line numbers of the respective files). -/
def MethodClass.label : MethodClass → String
  | .amplitude => "Amplitude"
  | .frequency => "Frequency"
  | .residualAmplitude => "ResidualAmplitude"
  | .residualFrequency => "ResidualFrequency"
  | .amplitudeFits => "AmplitudeFits"
  | .frequencyFits => "FrequencyFits"

/-- The time series available on an object; the residuals only exist with quasicircular data (eccDefinition.py 594). -/
structure Series (K : Type) where
  amp : List K
  omega : List K
  resAmp : Option (List K) := none
  resOmega : Option (List K) := none
  /-- `self.amp_gw_merger` -/
  ampMerger : K
  /-- which of `t_zeroecc`, `amplm_zeroecc`, `omegalm_zeroecc` are in `self.dataDict` -/
  hasT0 : Bool := false
  hasAmp0 : Bool := false
  hasOmega0 : Bool := false

section

variable {K : Type} [Field K] [LinearOrder K]

/-- eccDefinitionUsingResidualAmplitude.py 30-54 `check_and_raise_zeroecc_data_not_found`. -/
def checkZeroecc (s : Series K) : Py Unit :=
  if !s.hasT0 then .error .exception
  else if !s.hasAmp0 then .error .exception
  else if !s.hasOmega0 then .error .exception
  else .ok ()

/-- An attribute that may not have been set. -/
def attr (a : Option (List K)) : Py (List K) :=
  match a with
  | some l => .ok l
  | none => .error .attributeError

/-- `self.data_for_finding_extrema` of each class: Amplitude 26-35, Frequency 24-26, ResidualAmplitude 56-59,
ResidualFrequency 29-32, FrequencyFits 69, AmplitudeFits 37-42. -/
def dataForExtrema (c : MethodClass) (s : Series K) : Py (List K) :=
  match c with
  | .amplitude => .ok s.amp
  | .frequency => .ok s.omega
  | .residualAmplitude => do
    checkZeroecc s
    attr s.resAmp
  | .residualFrequency => do
    checkZeroecc s
    attr s.resOmega
  | .frequencyFits => .ok s.omega
  | .amplitudeFits => .ok (s.amp.map (· / s.ampMerger))

/-- `find_extrema` of the classes based on `find_peaks`, eccDefinitionUsingAmplitude.py 37-59.  `peaks` is
`scipy.signal.find_peaks(·, **extrema_finding_kwargs)[0]`; `extremaType` is any string. -/
def findExtremaPeaks (peaks : List K → Py (List ℕ)) (data : List K) (extremaType : String) : Py (List ℕ) := do
  let sign ← (if extremaType = "pericenters" then pure (1 : K)
    else if extremaType = "apocenters" then pure (-1)
    else .error .exception)
  peaks (data.map (sign * ·))

/-- The string the measurement passes for each kind of extrema, eccDefinition.py 2303, 2319. -/
def ExtType.name : ExtType → String
  | .pericenters => "pericenters"
  | .apocenters => "apocenters"

end

end GwEcc
