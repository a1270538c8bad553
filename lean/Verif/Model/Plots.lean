import Verif.Model.Construct

/-!
# Model of the diagnostic figure and of the call that draws it

Python source: `gw_eccentricity/eccDefinition.py` 2405-2478 (again, with `debug_plots`), 3090-3165 and 3419-4385.

What is modelled of a figure is which panels it has and which curves are drawn in each of them.  Colours, labels, limits of the
axes, texts, legends, vertical and horizontal lines and the file that is written are not.  `ax.plot(x, y)` is assumed to raise
ValueError if the lengths differ and nothing else.  The figures of `_plot_debug_segment` (2137-2221), of the fits methods and of
the spin filter draw arrays that are there and have no other effect; they are not modelled.
-/

namespace GwEcc

/-- One `ax.plot(x, y)`. -/
structure Curve (K : Type) where
  x : List K
  y : List K
  deriving DecidableEq, Repr

/-- The panels of the figure, named after the plotting methods. -/
inductive PanelName
  | eccentricity | meanAnomaly | omega | dataUsed | deccDt | phaseRatio | average | residualAmp | residualOmega
  deriving DecidableEq, Repr

/-- A panel and what is drawn in it, in order. -/
structure Panel (K : Type) where
  name : PanelName
  curves : List (Curve K)
  deriving DecidableEq, Repr

/-- What the figure needs besides the measurement. -/
structure PlotInput (K : Type) where
  /-- the class, for `self.method` -/
  method : MethodClass
  /-- `self.data_for_finding_extrema` -/
  data : List K
  /-- `self.res_amp_gw`, `self.res_omega_gw` -/
  residual : Option (Residual K)
  /-- `"hlm_zeroecc" in self.dataDict` -/
  hasHlm : Bool

section plots

variable {K : Type} [Field K] [LinearOrder K]

/-- `ax.plot(x, y)`. -/
def draw (x y : List K) : Py (Curve K) := if x.length = y.length then .ok ⟨x, y⟩ else .error .valueError

/-- The curve and the dots at the pericenters and at the apocenters, eccDefinition.py 3814-3823, 4209-4217, 4269-4278 and
4328-4341. -/
def drawWithExtrema (m : Meas K) (y : List K) : Py (List (Curve K)) := do
  let c ← draw m.o.t y
  let p ← draw (takeAt m.o.t m.pericenters) (takeAt y m.pericenters)
  let a ← draw (takeAt m.o.t m.apocenters) (takeAt y m.apocenters)
  let _ ← npMin y
  pure [c, p, a]

/-- The dot at the reference time when there is just one, eccDefinition.py 3617-3623 and 3751-3757. -/
def drawReference (trefOut vals : List K) : Py (List (Curve K)) :=
  if trefOut.length = 1 then do
    let c ← draw trefOut vals
    pure [c]
  else pure []

/-- eccDefinition.py 3560-3631 `plot_eccentricity`.  (The values at the times for checks are those of the check of the
monotonicity, which is made before.) -/
def plotEccentricity (e : Ext K) (m : Meas K) (trefOut ecc : List K) : Py (Panel K) := do
  let v ← computeEccentricity e m m.tChecks
  let c ← draw m.tChecks v
  let d ← drawReference trefOut ecc
  pure ⟨.eccentricity, c :: d⟩

/-- eccDefinition.py 3705-3775 `plot_mean_anomaly`. -/
def plotMeanAnomaly [FloorRing K] (e : Ext K) (m : Meas K) (trefOut ano : List K) : Py (Panel K) := do
  let v ← computeMeanAnomaly e m m.tChecks
  let c ← draw m.tChecks v
  let d ← drawReference trefOut ano
  pure ⟨.meanAnomaly, c :: d⟩

/-- eccDefinition.py 3777-3877 `plot_omega_gw`. -/
def plotOmega (m : Meas K) : Py (Panel K) := do
  let vp ← m.tChecks.mapM m.interpP
  let p ← draw m.tChecks vp
  let va ← m.tChecks.mapM m.interpA
  let a ← draw m.tChecks va
  let l ← drawWithExtrema m m.o.omega
  pure ⟨.omega, p :: a :: l⟩

/-- eccDefinition.py 4284-4385 `plot_data_used_for_finding_extrema`. -/
def plotDataUsed (d : PlotInput K) (m : Meas K) : Py (Panel K) := do
  let l ← drawWithExtrema m d.data
  pure ⟨.dataUsed, l⟩

/-- eccDefinition.py 3632-3703 `plot_decc_dt`. -/
def plotDeccDt (e : Ext K) (m : Meas K) : Py (Panel K) := do
  let v ← derivativeOfEccentricity e m m.tChecks
  let c ← draw m.tChecks v
  pure ⟨.deccDt, [c]⟩

/-- eccDefinition.py 4092-4102: the ratios stored by `measure_ecc` (2382-2390), or computed now if there are none. -/
def separationRatio (e : Ext K) (m : Meas K) (loc : List ℕ) : Py (List K) := do
  let (stored, _) ← checkSeparation e.pi m.o.level false (takeAt m.o.phase loc) (takeAt m.o.t loc)
  match stored with
  | some r => pure r.2
  | none => do
    let (now, _) ← checkSeparation e.pi m.o.level true (takeAt m.o.phase loc) (takeAt m.o.t loc)
    match now with
    | some r => pure r.2
    | none => .error .typeError

/-- eccDefinition.py 4049-4138 `plot_phase_diff_ratio_between_extrema`. -/
def plotPhaseRatio (e : Ext K) (m : Meas K) : Py (Panel K) := do
  let rp ← separationRatio e m m.pericenters
  let ra ← separationRatio e m m.apocenters
  let p ← draw ((takeAt m.o.t (m.pericenters.drop 1)).drop 1) (rp.drop 1)
  let a ← draw ((takeAt m.o.t (m.apocenters.drop 1)).drop 1) (ra.drop 1)
  pure ⟨.phaseRatio, [p, a]⟩

/-- eccDefinition.py 3879-3980 `plot_omega_gw_average`: the panel, and the stored average afterwards. -/
def plotAverage (e : Ext K) (m : Meas K) (cache : AvgCache K) : Py (Panel K × AvgCache K) := do
  let avg ← (match cache with
    | some c => pure c
    | none => omegaAverage e m none)
  let c ← draw avg.1 avg.2
  let w ← draw m.o.t m.o.omega
  let _ ← npMin m.o.omega
  pure (⟨.average, [c, w]⟩, some avg)

/-- eccDefinition.py 4140-4282 `plot_residual_amp_gw` and `plot_residual_omega_gw`. -/
def plotResidual (name : PanelName) (m : Meas K) (y : Option (List K)) : Py (Panel K) :=
  match y with
  | none => .error .attributeError
  | some y => do
    let l ← drawWithExtrema m y
    pure ⟨name, l⟩

/-- eccDefinition.py 3419-3558 `make_diagnostic_plots`: the panels, and the stored average afterwards. -/
def diagnosticPlots [FloorRing K] (d : PlotInput K) (e : Ext K) (m : Meas K) (cache : AvgCache K) (trefOut ecc ano : List K) :
    Py (List (Panel K) × AvgCache K) := do
  let p1 ← plotEccentricity e m trefOut ecc
  let p2 ← plotMeanAnomaly e m trefOut ano
  let p3 ← plotOmega m
  let p4 ← plotDataUsed d m
  let p5 ← plotDeccDt e m
  let p6 ← plotPhaseRatio e m
  let (p7, cache) ← plotAverage e m cache
  let r1 ← (if d.hasHlm && decide (d.method ≠ .residualAmplitude) then do
      let p ← plotResidual .residualAmp m (d.residual.map (·.resAmp))
      pure [p]
    else pure [])
  let r2 ← (if d.hasHlm && decide (d.method ≠ .residualFrequency) then do
      let p ← plotResidual .residualOmega m (d.residual.map (·.resOmega))
      pure [p]
    else pure [])
  pure ([p1, p2, p3, p4, p5, p6, p7] ++ r1 ++ r2, cache)

/-! ### The measurement with its figure -/

/-- eccDefinition.py 3090-3165 `check_monotonicity_of_omega_gw_average` as called in line 3333.  With `debug_plots` the times of the
orbit averages are drawn (3109-3118), which exist only if the frequency was averaged over orbits. -/
def checkAverageIncreasingPlots (plots : Bool) (method : String) (w : List K) : Py Unit :=
  if (diff w).any (fun d => decide (d ≤ 0)) then
    if plots && decide (method ≠ "orbit_averaged_omega_gw") then .error .attributeError else .error .exception
  else .ok ()

/-- `trefFromFref` (eccDefinition.py 3308-3347) with `debug_plots`. -/
def trefFromFrefPlots (plots : Bool) (e : Ext K) (m : Meas K) (cache : AvgCache K) (frefIn : List K) :
    Py ((List K × List K) × AvgCache K) := do
  if m.o.avgMethod ∈ averagingMethods then do
    let (fOut, _) ← frefOut e m cache frefIn m.o.avgMethod
    let (ts, w) ← omegaAverage e m (some m.o.avgMethod)
    checkAverageIncreasingPlots plots m.o.avgMethod w
    let tref ← interpolate e.tol e.eval fOut (w.map (· / (2 * e.pi))) ts false .spline m.o.generalKw true
    let _ ← (if (diff tref).any (fun d => decide (d ≤ 0)) then debugMessage m.o.level false else pure .silent)
    pure ((tref, fOut), some (ts, w))
  else .error .keyError

/-- `referenceTimes` (eccDefinition.py 2405-2414) with `debug_plots`. -/
def referenceTimesPlots (plots : Bool) (e : Ext K) (m : Meas K) (cache : AvgCache K) : Py (List K × List K × AvgCache K) :=
  match m.o.domain with
  | .time => pure (m.o.refIn.atleast1d, [], cache)
  | .frequency => do
    let ((tref, fOut), cache) ← trefFromFrefPlots plots e m cache m.o.refIn.atleast1d
    pure (tref, fOut, cache)

/-- eccDefinition.py 2438-2451: times after the end of the quasicircular waveform are refused – if the processed dictionary
has the key `"hlm_zeroecc"`. -/
def checkExtrapolated (hasHlm : Bool) (o : Obj K) (last : K) : Py Unit :=
  if hasHlm then
    match o.zeroecc with
    | none => .error .attributeError
    | some z => do
      let zN ← pyLast z.1
      if last > zN then .error .exception else pure ()
  else pure ()

/-- eccDefinition.py 2410-2478, as `evaluate`, with the test of 2438-2451 and the figure of 2470-2474. -/
def evaluatePlots [FloorRing K] (hasHlm : Bool) (plots : Option (PlotInput K)) (e : Ext K) (m : Meas K) (cache : AvgCache K) :
    Py (Dict String (Val K) × AvgCache K × Option (List (Panel K))) := do
  let (trefIn, fOut, cache) ← referenceTimesPlots plots.isSome e m cache
  let trefOut := trefIn.filter (fun x => decide (x ≤ m.tmax ∧ m.tmin ≤ x))
  if m.o.domain = .frequency ∧ fOut.length ≠ trefOut.length then .error .exception
  else if trefOut.length = 0 then do
    checkInputLimits trefIn m.tmin m.tmax
    .error .exception
  else do
    let t0 ← pyGet trefOut 0
    let t1 ← pyLast trefOut
    checkExtrapolated hasHlm m.o t1
    let p0 ← pyGet m.tPeri 0
    let p1 ← pyLast m.tPeri
    if t0 < p0 ∨ t1 > p1 then .error .exception
    else do
      let ecc ← computeEccentricity e m trefOut
      let ano ← computeMeanAnomaly e m trefOut
      let _ ← checkMonotonicity e m
      let _ ← (if ecc.any (fun x => decide (x < 0)) then debugMessage m.o.level true true else pure .silent)
      let (fig, cache) ← (match plots with
        | none => pure (none, cache)
        | some d => do
          let (fig, cache) ← diagnosticPlots d e m cache trefOut ecc ano
          pure (some fig, cache))
      let ret ← makeReturn m.o.domain m.o.refIn.isScalar ecc ano (m.o.domain.pick trefOut fOut)
      pure (ret, cache, fig)

/-- eccDefinition.py 2223-2478 `measure_ecc`, as `measureEcc`, with the figure. -/
def measureEccPlots [FloorRing K] (hasHlm : Bool) (plots : Option (PlotInput K)) (e : Ext K) (o : Obj K) (cache : AvgCache K) :
    Py (Dict String (Val K) × Option (Meas K) × AvgCache K × Option (List (Panel K))) := do
  let (p, a, lacking) ← findBoth e o
  if lacking && o.returnZero then do
    let ret ← setToZero o
    pure (ret, none, cache, none)
  else do
    let (p', a') ← settleExtrema e o p a
    let m ← prepare e o p' a'
    let (ret, cache, fig) ← evaluatePlots hasHlm plots e m cache
    pure (ret, some m, cache, fig)

end plots

/-! ### The call -/

section call

variable {K C : Type} [Field K] [LinearOrder K] [FloorRing K]

/-- `extra_kwargs["debug_plots"]` (eccDefinition.py 506; the default is False, 1235). -/
def plotsOn (a : Call K C) : Bool :=
  match (a.extra.getD []).get? "debug_plots" with
  | some v => v.truth
  | none => false

/-- What the constructor has stored for the figure. -/
def plotInput (lib : Libs K C) (c : MethodClass) (b : Built K C) : Py (PlotInput K) := do
  let (res, _) ← residualStage lib b.obj.generalKw b.obj.precessing b.data b.analysis.tMerger b.wave
  let data ← dataForExtrema c
    { amp := b.wave.amp, omega := b.wave.omega, resAmp := res.map (·.resAmp), resOmega := res.map (·.resOmega),
      ampMerger := b.analysis.ampMerger, hasT0 := b.data.has "t_zeroecc", hasAmp0 := b.data.has "amplm_zeroecc",
      hasOmega0 := b.data.has "omegalm_zeroecc" }
  pure ⟨c, data, res, b.data.has "hlm_zeroecc"⟩

/-- What a call leaves: the answer, the average frequency stored on the object, and the figure that was saved, if any. -/
structure Shown (K C : Type) where
  answer : Answer K C
  cache : AvgCache K
  figure : Option (List (Panel K))

/-- gw_eccentricity.py 62-594 `measure_eccentricity`, as `run`, with the option `debug_plots` and the test of 2438-2451. -/
def runPlots (fuel : ℕ) (lib : Libs K C) (a : Call K C) : Option (Py (Shown K C)) :=
  match dispatch a with
  | .error e => some (.error e)
  | .ok (c, domain, ref) =>
    (construct fuel lib c domain ref a).map fun r => do
      let b ← r
      let plots ← (if plotsOn a then do
          let d ← plotInput lib c b
          pure (some d)
        else pure none)
      let (ret, m, cache, fig) ← measureEccPlots (b.data.has "hlm_zeroecc") plots b.ext b.obj none
      pure ⟨⟨ret, b, m⟩, cache, fig⟩

end call

end GwEcc
