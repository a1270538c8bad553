import Verif.Model.Extrema
import Verif.Model.RationalDegree
import Mathlib.Algebra.Order.Floor.Ring

/-!
# Model of `measure_ecc` and of the functions of the measurement object

Python source: `gw_eccentricity/eccDefinition.py` 1720-1872, 2223-2810, 2946-3417.

Numbers are elements of an ordered field `K` (the rationals to compute examples, the reals for the eccentricity
formula).  What scipy and the extrema finder of the chosen method do is a parameter (`Ext`); the theorems state what they
need of it.  Text of messages and plots are not modelled.
-/

namespace GwEcc

/-- A scalar or a one-dimensional array, as users pass and receive them. -/
inductive Val (K : Type)
  | scalar (x : K)
  | array (l : List K)
  deriving DecidableEq, Repr

/-- `np.atleast_1d`. -/
def Val.atleast1d {K : Type} : Val K → List K
  | .scalar x => [x]
  | .array l => l

/-- `np.ndim(...) == 0`. -/
def Val.isScalar {K : Type} : Val K → Bool
  | .scalar _ => true
  | .array _ => false

/-- `self.domain`. -/
inductive Domain | time | frequency
  deriving DecidableEq, Repr

/-- The entry of the result that holds the reference points. -/
def Domain.key : Domain → String
  | .time => "tref_out"
  | .frequency => "fref_out"

/-- One of two values according to the domain. -/
def Domain.pick {α : Type} : Domain → α → α → α
  | .time, t, _ => t
  | .frequency, _, f => f

/-- The two values of `extrema_type` used by `measure_ecc`. -/
inductive ExtType | pericenters | apocenters
  deriving DecidableEq, Repr

/-- eccDefinition.py 1744-1747: the extrema of one kind. -/
def ExtType.pick {α : Type} : ExtType → α → α → α
  | .pericenters, p, _ => p
  | .apocenters, _, a => a

/-- What the model takes from outside: constants, scipy and the extrema finder. -/
structure Ext (K : Type) where
  /-- `np.pi` -/
  pi : K
  /-- the `1e-10` of utils.py 222-223 -/
  tol : K
  /-- the default `tol=1e-5` of eccDefinition.py 1694 -/
  monoTol : K
  /-- eccentricity from the two interpolant values, eccDefinition.py 2578-2585 (`eccFromOmega` over the reals) -/
  eccOf : K → K → K
  /-- evaluation at a point of the scipy interpolant built through the given nodes and values -/
  eval : InterpCall → List K → List K → K → Py K
  /-- its first derivative -/
  deriv : InterpCall → List K → List K → K → Py K
  /-- `get_rational_fit_for_extrema(x, y, data_name)`, eccDefinition.py 1535-1661, given the times and frequencies of the
  pericenters and those of the apocenters: where the search for the one starts depends on the other (`Model/ExtremaFit.lean`) -/
  ratFit : ExtType → List K → List K → List K → List K → Py (K → Py K)
  /-- `np.argsort` -/
  argsort : List K → List ℕ
  /-- `self.find_extrema(extrema_type)` of the chosen method -/
  find : ExtType → Py (List ℕ)

/-- The attributes of the measurement object that `measure_ecc` reads, as `__init__` (eccDefinition.py 420-595) leaves
them. -/
structure Obj (K : Type) where
  /-- `self.t` (after the selection of a short segment) -/
  t : List K
  phase : List K
  omega : List K
  /-- `self.dataDict["t"]` -/
  dataT : List K
  domain : Domain
  /-- `tref_in` or `fref_in` as the user gave it -/
  refIn : Val K
  precessing : Bool := false
  /-- `self.omega_gw_filtered is not None` -/
  filtered : Bool := false
  /-- `extra_kwargs["treat_mid_points_between_pericenters_as_apocenters"]` -/
  midpoints : Bool := false
  /-- `extra_kwargs["return_zero_if_small_ecc_failure"]` -/
  returnZero : Bool := false
  /-- `extra_kwargs["use_only_these_many_orbits"]` is truthy -/
  useOnly : Bool := false
  level : ℤ := 0
  /-- `extra_kwargs["omega_gw_extrema_interpolation_method"]`; `__init__` 533-539 lets only the two names pass -/
  interpMethod : String := "rational_fit"
  /-- `extra_kwargs["omega_gw_averaging_method"]` -/
  avgMethod : String := "orbit_averaged_omega_gw"
  /-- `special_interp_kwargs_for_omega_gw_extrema` when the method is "spline" -/
  extremaKw : SplineKwargs := {}
  /-- `general_interp_kwargs` -/
  generalKw : SplineKwargs := {}
  /-- `(t_zeroecc_shifted, omega_gw_zeroecc)`, absent without quasicircular data -/
  zeroecc : Option (List K × List K) := none

section measure

variable {K : Type} [Field K] [LinearOrder K]

/-- `arr[i]` at an index known to be valid. -/
def at' (l : List K) (i : ℕ) : K := l.getD i 0

/-- Fancy indexing `arr[indices]` with the locations of extrema, which are valid indices. -/
def takeAt (l : List K) (idx : List ℕ) : List K := idx.map (at' l)

/-- eccDefinition.py 1814-1872 `check_num_extrema`.  Python returns `None` (falsy) when there are enough extrema.  The
warning of line 1840 is given with `debug_level=0` whatever the user's level is, so it never raises. -/
def checkNumExtrema (e : Ext K) (o : Obj K) (extrema : List ℕ) : Py Bool := do
  if extrema.length < 2 then do
    let last ← pyLast o.phase
    let first ← pyGet o.phase 0
    let approxTotalNumOrbits := (last - first) / (4 * e.pi)
    let insufficientButLong := decide (approxTotalNumOrbits > 5)
    if insufficientButLong && o.returnZero then do
      let _ ← debugMessage 0 true
      pure insufficientButLong
    else .error .exception
  else pure false

/-- eccDefinition.py 1874-1912 `check_if_dropped_too_many_extrema` with `threshold_fraction` 0.5. -/
def checkDropped (level : ℤ) (original new : List ℕ) : Py Outcome :=
  if level < 1 then .ok .silent
  else if 2 * ((original.length : ℤ) - new.length) > original.length then debugMessage level false
  else .ok .silent

/-- The three warnings of `check_extrema_separation`. -/
inductive SepWarning (K : Type)
  | tooClose (times : List K)
  | closerToPi
  | tooFar (times : List K)
  deriving DecidableEq, Repr

/-- eccDefinition.py 2734-2770 `check_extrema_separation`: the two returned arrays and the warnings given.
`d[i+1]/d[i]` with a zero divisor is inf or nan in numpy and 0 here. -/
def checkSeparation (pi : K) (level : ℤ) (alwaysReturn : Bool) (phaseAt tAt : List K) :
    Py (Option (List K × List K) × List (SepWarning K)) := do
  if level < 1 ∧ alwaysReturn = false then pure (none, [])
  else do
    let d := diff (phaseAt.map (· / 2))
    let times := tAt.drop 1
    let w1 ← (if d.any (fun x => decide (x < pi)) then do
        let out ← debugMessage level false
        pure (if out = .silent then [] else [SepWarning.tooClose (takeAt times (npWhere (fun x => decide (x < pi)) d))])
      else pure [])
    let w2 ← (if d.any (fun x => decide (|x - pi| < |x - 2 * pi|)) then do
        let out ← debugMessage level false
        pure (if out = .silent then [] else [SepWarning.closerToPi])
      else pure [])
    let ratio := 0 :: List.zipWith (· / ·) (d.drop 1) d.dropLast
    let w3 ← (if ratio.any (fun x => decide (x > 3 / 2)) then do
        let out ← debugMessage level false
        pure (if out = .silent then []
          else [SepWarning.tooFar (takeAt times (npWhere (fun x => decide (x > 3 / 2)) ratio))])
      else pure [])
    pure (some (d, ratio), w1 ++ w2 ++ w3)

/-- eccDefinition.py 2671-2703 `check_input_limits`. -/
def checkInputLimits (vals : List K) (lo hi : K) : Py Unit :=
  if vals.any (fun x => decide (x > hi)) then .error .exception
  else if vals.any (fun x => decide (x < lo)) then .error .exception
  else .ok ()

/-- What `measure_ecc` has stored on the object once the extrema are settled (eccDefinition.py 2360-2403). -/
structure Meas (K : Type) where
  o : Obj K
  pericenters : List ℕ
  apocenters : List ℕ
  tPeri : List K
  tApo : List K
  tmin : K
  tmax : K
  tChecks : List K
  /-- `self.omega_gw_pericenters_interp`, `self.omega_gw_apocenters_interp` -/
  interpP : K → Py K
  interpA : K → Py K

/-- eccDefinition.py 1744-1783 `get_omega_gw_extrema_interpolant`; `p` and `a` are `self.pericenters_location` and
`self.apocenters_location`. -/
def extremaInterpolant (e : Ext K) (o : Obj K) (ty : ExtType) (p a : List ℕ) (tChecks : List K) :
    Py (K → Py K) := do
  if (ty.pick p a).length ≥ 2 then do
    let x := takeAt o.t (ty.pick p a)
    let y := takeAt o.omega (ty.pick p a)
    let f ← (if o.interpMethod = "rational_fit" then e.ratFit ty (takeAt o.t p) (takeAt o.omega p) (takeAt o.t a) (takeAt o.omega a)
      else if o.interpMethod = "spline" then do
        let r ← getInterpolant x false .spline o.extremaKw true
        pure (e.eval r.1 x y)
      else .error .keyError)
    let vals ← tChecks.mapM f
    let bad ← notStrictlyMonotonic tChecks vals e.monoTol
    let _ ← (if bad then debugMessage o.level true else pure .silent)
    pure f
  else .error .exception

/-- eccDefinition.py 2361-2403: from the extrema that are used to the range of times and the two interpolants. -/
def prepare (e : Ext K) (o : Obj K) (p a : List ℕ) : Py (Meas K) := do
  let tPeri := takeAt o.t p
  let tApo := takeAt o.t a
  let pLast ← pyLast tPeri
  let aLast ← pyLast tApo
  let pFirst ← pyGet tPeri 0
  let aFirst ← pyGet tApo 0
  let tmax := min pLast aLast
  let tmin := max pFirst aFirst
  let tChecks := o.dataT.filter (fun x => decide (tmin ≤ x ∧ x ≤ tmax))
  let fP ← extremaInterpolant e o .pericenters p a tChecks
  let fA ← extremaInterpolant e o .apocenters p a tChecks
  pure ⟨o, p, a, tPeri, tApo, tmin, tmax, tChecks, fP, fA⟩

/-- eccDefinition.py 2558-2585 `compute_eccentricity`. -/
def computeEccentricity (e : Ext K) (m : Meas K) (ts : List K) : Py (List K) := do
  checkInputLimits ts m.tmin m.tmax
  let wp ← ts.mapM m.interpP
  let wa ← ts.mapM m.interpA
  pure (List.zipWith e.eccOf wp wa)

/-- `np.interp(x, xp, fp)` with `xp` increasing: constant outside, linear between neighbours. -/
def npInterp (x : K) : List (K × K) → Py K
  | [] => .error .valueError
  | [q] => .ok q.2
  | q0 :: q1 :: l =>
    if x ≤ q0.1 then .ok q0.2
    else if x < q1.1 then .ok ((q1.2 - q0.2) / (q1.1 - q0.1) * (x - q0.1) + q0.2)
    else npInterp x (q1 :: l)

/-- `x % m` for floats and positive `m`. -/
def pyMod [FloorRing K] (x m : K) : K := x - m * (⌊x / m⌋ : K)

/-- eccDefinition.py 2638-2651 `compute_mean_anomaly`. -/
def computeMeanAnomaly [FloorRing K] (e : Ext K) (m : Meas K) (ts : List K) : Py (List K) := do
  checkInputLimits ts m.tmin m.tmax
  let meanAno := (List.range m.tPeri.length).map (fun i : ℕ => (i : K) * 2 * e.pi)
  let vals ← ts.mapM (fun x => npInterp x (m.tPeri.zip meanAno))
  pure (vals.map (fun v => pyMod v (2 * e.pi)))

/-- eccDefinition.py 2587-2614 `derivative_of_eccentricity` with `n=1`, nothing cached. -/
def derivativeOfEccentricity (e : Ext K) (m : Meas K) (ts : List K) : Py (List K) := do
  checkInputLimits ts m.tmin m.tmax
  let ecc ← computeEccentricity e m m.tChecks
  let r ← getInterpolant m.tChecks false .spline m.o.generalKw true
  ts.mapM (e.deriv r.1 m.tChecks ecc)

/-- eccDefinition.py 2772-2808 `check_monotonicity_and_convexity` with `check_convexity=False`. -/
def checkMonotonicity (e : Ext K) (m : Meas K) : Py Outcome := do
  let d ← derivativeOfEccentricity e m m.tChecks
  if d.any (fun x => decide (x > 0)) then debugMessage m.o.level true true else pure .silent

/-! ### Average frequency -/

/-- `0.5 * (x[:-1] + x[1:])`, eccDefinition.py 2968-2975. -/
def midTimes (x : List K) : List K := List.zipWith (fun a b => 1 / 2 * (a + b)) x.dropLast (x.drop 1)

/-- eccDefinition.py 2965-2984 `get_t_average_for_orbit_averaged_omega_gw`. -/
def tAverage (e : Ext K) (m : Meas K) : List K × List ℕ :=
  let t := midTimes (takeAt m.o.t m.apocenters) ++ midTimes (takeAt m.o.t m.pericenters)
  let idx := e.argsort t
  (takeAt t idx, idx)

/-- eccDefinition.py 2986-3018: `np.diff(phase[ext]) / np.diff(t[ext])`. -/
def orbitAveraged (o : Obj K) (ext : List ℕ) : List K :=
  List.zipWith (· / ·) (diff (takeAt o.phase ext)) (diff (takeAt o.t ext))

/-- eccDefinition.py 3090-3165 `check_monotonicity_of_omega_gw_average`. -/
def checkAverageIncreasing (w : List K) : Py Unit :=
  if (diff w).any (fun d => decide (d ≤ 0)) then .error .exception else .ok ()

/-- eccDefinition.py 3020-3076 `compute_orbit_averaged_omega_gw_between_extrema`. -/
def computeOrbitAveraged (e : Ext K) (m : Meas K) (ts : List K) : Py (List K) := do
  let wp := orbitAveraged m.o m.pericenters
  let wa := orbitAveraged m.o m.apocenters
  checkAverageIncreasing wp
  checkAverageIncreasing wa
  let (tAvg, idx) := tAverage e m
  let w := takeAt (wa ++ wp) idx
  checkAverageIncreasing w
  interpolate e.tol e.eval ts tAvg w false .spline m.o.generalKw true

/-- eccDefinition.py 3167-3175 `compute_mean_of_extrema_interpolants`. -/
def computeMeanOfInterpolants (m : Meas K) (ts : List K) : Py (List K) := do
  let wp ← ts.mapM m.interpP
  let wa ← ts.mapM m.interpA
  pure (List.zipWith (fun a b => 1 / 2 * (a + b)) wp wa)

/-- eccDefinition.py 3177-3181 `compute_omega_gw_zeroecc`. -/
def computeOmegaZeroecc (e : Ext K) (m : Meas K) (ts : List K) : Py (List K) :=
  match m.o.zeroecc with
  | none => .error .attributeError
  | some (tz, wz) => interpolate e.tol e.eval ts tz wz false .spline m.o.generalKw true

/-- The keys of `get_available_omega_gw_averaging_methods`, eccDefinition.py 3183-3190. -/
def averagingMethods : List String :=
  ["mean_of_extrema_interpolants", "orbit_averaged_omega_gw", "omega_gw_zeroecc"]

/-- eccDefinition.py 3241-3264: the times at which the average is evaluated. -/
def averageTimes (e : Ext K) (m : Meas K) (method : String) : Py (List K) := do
  let (lo, hi) ← (if method ≠ "orbit_averaged_omega_gw" then pure (m.tmin, m.tmax)
    else do
      let tAvg := (tAverage e m).1
      let mn ← npMin tAvg
      let mx ← npMax tAvg
      pure (max m.tmin mn, min m.tmax mx))
  pure (m.o.t.filter (fun x => decide (lo ≤ x ∧ x ≤ hi)))

/-- `self.available_averaging_methods[method](t)`, eccDefinition.py 3265-3266. -/
def evalAverage (e : Ext K) (m : Meas K) (method : String) (ts : List K) : Py (List K) :=
  if method = "mean_of_extrema_interpolants" then computeMeanOfInterpolants m ts
  else if method = "orbit_averaged_omega_gw" then computeOrbitAveraged e m ts
  else if method = "omega_gw_zeroecc" then computeOmegaZeroecc e m ts
  else .error .keyError

/-- eccDefinition.py 3239-3267 `get_omega_gw_average(method)`; `none` is Python's `None`. -/
def omegaAverage (e : Ext K) (m : Meas K) (method : Option String) : Py (List K × List K) := do
  let method := method.getD m.o.avgMethod
  let ts ← averageTimes e m method
  let w ← evalAverage e m method ts
  pure (ts, w)

/-- `self.t_for_omega_gw_average, self.omega_gw_average`; `none` until computed. -/
abbrev AvgCache (K : Type) := Option (List K × List K)

/-- eccDefinition.py 3372-3387 `get_fref_bounds(method)`: the bounds, and the stored average afterwards. -/
def frefBounds (e : Ext K) (m : Meas K) (cache : AvgCache K) (method : Option String) :
    Py ((K × K) × AvgCache K) := do
  let _ ← (if m.o.useOnly then debugMessage m.o.level false else pure .silent)
  let avg ← (match cache with
    | some c => pure c
    | none => omegaAverage e m method)
  let mn ← npMin avg.2
  let mx ← npMax avg.2
  pure ((mn / 2 / e.pi, mx / 2 / e.pi), some avg)

/-- eccDefinition.py 3407-3417 `get_fref_out`. -/
def frefOut (e : Ext K) (m : Meas K) (cache : AvgCache K) (frefIn : List K) (method : String) :
    Py (List K × AvgCache K) := do
  let ((lo, hi), cache) ← frefBounds e m cache (some method)
  let out := frefIn.filter (fun f => decide (lo ≤ f ∧ f < hi))
  if out.length = 0 then do
    checkInputLimits frefIn lo hi
    .error .exception
  else pure (out, cache)

/-- eccDefinition.py 3308-3347 `compute_tref_in_and_fref_out_from_fref_in`: `(tref_in, fref_out)` and the stored
average. -/
def trefFromFref (e : Ext K) (m : Meas K) (cache : AvgCache K) (frefIn : List K) :
    Py ((List K × List K) × AvgCache K) := do
  if m.o.avgMethod ∈ averagingMethods then do
    let (fOut, _) ← frefOut e m cache frefIn m.o.avgMethod
    let (ts, w) ← omegaAverage e m (some m.o.avgMethod)
    checkAverageIncreasing w
    let tref ← interpolate e.tol e.eval fOut (w.map (· / (2 * e.pi))) ts false .spline m.o.generalKw true
    let _ ← (if (diff tref).any (fun d => decide (d ≤ 0)) then debugMessage m.o.level false else pure .silent)
    pure ((tref, fOut), some (ts, w))
  else .error .keyError

/-! ### The measurement -/

/-- eccDefinition.py 2496-2538 `make_return_dict_for_eccentricity_and_mean_anomaly`. -/
def makeReturn (domain : Domain) (isScalar : Bool) (ecc ano refOut : List K) : Py (Dict String (Val K)) := do
  let (ecc, ano, refOut) ← (if isScalar then
      if ecc.length ≠ 1 then .error .exception
      else if ano.length ≠ 1 then .error .exception
      else do
        let e0 ← pyGet ecc 0
        let a0 ← pyGet ano 0
        let r0 ← pyGet refOut 0
        pure (Val.scalar e0, Val.scalar a0, Val.scalar r0)
    else pure (Val.array ecc, Val.array ano, Val.array refOut))
  let ret : Dict String (Val K) := [("eccentricity", ecc), ("mean_anomaly", ano)]
  pure (ret.set domain.key refOut)

/-- eccDefinition.py 2479-2494 `set_eccentricity_and_mean_anomaly_to_zero`. -/
def setToZero (o : Obj K) : Py (Dict String (Val K)) :=
  let refOut := o.refIn.atleast1d
  makeReturn o.domain o.refIn.isScalar (List.replicate refOut.length 0) (List.replicate refOut.length 0) refOut

/-- eccDefinition.py 2303-2322: extrema of both kinds and whether the waveform is long but lacks extrema. -/
def findBoth (e : Ext K) (o : Obj K) : Py (List ℕ × List ℕ × Bool) := do
  let p ← e.find .pericenters
  let ip ← checkNumExtrema e o p
  let a ← (if o.midpoints then pure (midpointApocenters p) else e.find .apocenters)
  let ia ← checkNumExtrema e o a
  pure (p, a, ip || ia)

/-- eccDefinition.py 2338-2372: selection of the extrema that are used, and the checks on them (whose only effect is
a warning, or an exception at debug level 2). -/
def settleExtrema (e : Ext K) (o : Obj K) (p a : List ℕ) : Py (List ℕ × List ℕ) := do
  let (p', a') ← getGoodExtrema (at' o.phase) (3 / 2) (4 * e.pi) o.level p a
  let _ ← checkDropped o.level p p'
  let _ ← checkDropped o.level a a'
  let (p', a') := if o.precessing && o.filtered then (p'.drop 1, a'.drop 1) else (p', a')
  let _ ← checkAlternate (at' o.t) o.level p' a'
  let _ ← checkSeparation e.pi o.level false (takeAt o.phase p') (takeAt o.t p')
  let _ ← checkSeparation e.pi o.level false (takeAt o.phase a') (takeAt o.t a')
  pure (p', a')

/-- eccDefinition.py 2405-2414: the times to measure at and, for frequency input, the frequencies kept. -/
def referenceTimes (e : Ext K) (m : Meas K) (cache : AvgCache K) : Py (List K × List K × AvgCache K) :=
  match m.o.domain with
  | .time => pure (m.o.refIn.atleast1d, [], cache)
  | .frequency => do
    let ((tref, fOut), cache) ← trefFromFref e m cache m.o.refIn.atleast1d
    pure (tref, fOut, cache)

/-- eccDefinition.py 2410-2478: the part of `measure_ecc` after the interpolants are built.  The test of line 2440 looks
for `"hlm_zeroecc"` in the processed dictionary, which never contains that key, so it is not modelled. -/
def evaluate [FloorRing K] (e : Ext K) (m : Meas K) (cache : AvgCache K) :
    Py (Dict String (Val K) × AvgCache K) := do
  let (trefIn, fOut, cache) ← referenceTimes e m cache
  let trefOut := trefIn.filter (fun x => decide (x ≤ m.tmax ∧ m.tmin ≤ x))
  if m.o.domain = .frequency ∧ fOut.length ≠ trefOut.length then .error .exception
  else if trefOut.length = 0 then do
    checkInputLimits trefIn m.tmin m.tmax
    .error .exception
  else do
    let t0 ← pyGet trefOut 0
    let t1 ← pyLast trefOut
    let p0 ← pyGet m.tPeri 0
    let p1 ← pyLast m.tPeri
    if t0 < p0 ∨ t1 > p1 then .error .exception
    else do
      let ecc ← computeEccentricity e m trefOut
      let ano ← computeMeanAnomaly e m trefOut
      let _ ← checkMonotonicity e m
      let _ ← (if ecc.any (fun x => decide (x < 0)) then debugMessage m.o.level true true else pure .silent)
      let ret ← makeReturn m.o.domain m.o.refIn.isScalar ecc ano (m.o.domain.pick trefOut fOut)
      pure (ret, cache)

/-- eccDefinition.py 2223-2478 `measure_ecc`.  Result: the returned dictionary and, unless the values were set to zero,
the state left on the object. -/
def measureEcc [FloorRing K] (e : Ext K) (o : Obj K) (cache : AvgCache K) :
    Py (Dict String (Val K) × Option (Meas K) × AvgCache K) := do
  let (p, a, lacking) ← findBoth e o
  if lacking && o.returnZero then do
    let ret ← setToZero o
    pure (ret, none, cache)
  else do
    let (p', a') ← settleExtrema e o p a
    let m ← prepare e o p' a'
    let (ret, cache) ← evaluate e m cache
    pure (ret, some m, cache)

/-! ### The entry point -/

/-- The six measurement classes. -/
inductive MethodClass
  | amplitude | frequency | residualAmplitude | residualFrequency | amplitudeFits | frequencyFits
  deriving DecidableEq, Repr

/-- gw_eccentricity.py 41-59 `get_available_methods(return_dict=True)`. -/
def availableMethods : Dict String MethodClass :=
  [("Amplitude", .amplitude), ("Frequency", .frequency), ("ResidualAmplitude", .residualAmplitude),
    ("ResidualFrequency", .residualFrequency), ("AmplitudeFits", .amplitudeFits), ("FrequencyFits", .frequencyFits)]

/-- eccDefinition.py 421-443: the first checks of `__init__`. -/
def initReference (trefIn frefIn : Option (Val K)) (frame : String) : Py (Domain × Val K) := do
  let r ← (match trefIn, frefIn with
    | some t, none => pure (Domain.time, t)
    | none, some f => pure (Domain.frequency, f)
    | _, _ => .error .keyError)
  if frame = "inertial" ∨ frame = "coprecessing" then pure r else .error .valueError

/-- gw_eccentricity.py 580-591 `measure_eccentricity`.  `build c` stands for the remaining work of the constructor of
the class `c` (everything after eccDefinition.py 443): the object's attributes and the extrema finder of that class, or an
exception. -/
def measureEccentricity [FloorRing K] (build : MethodClass → Domain → Val K → Py (Ext K × Obj K))
    (method : String) (trefIn frefIn : Option (Val K)) (frame : String) :
    Py (Dict String (Val K) × Option (Meas K) × AvgCache K) := do
  if availableMethods.has method then do
    let c ← availableMethods.getItem method
    let (domain, ref) ← initReference trefIn frefIn frame
    let (e, o) ← build c domain ref
    measureEcc e { o with domain := domain, refIn := ref } none
  else .error .exception

end measure

end GwEcc
