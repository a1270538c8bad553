import Verif.Model.Methods
import Verif.Model.Fits
import Verif.Model.SpinFilter
import Verif.Model.ExtremaFit

/-!
# Model of the constructor and of a whole call of `measure_eccentricity`

Python source: `gw_eccentricity/eccDefinition.py` 420-595 (`__init__`), 1176-1245 (default options), the constructors of the
six classes, and `gw_eccentricity/gw_eccentricity.py` 580-594.

The pieces modelled elsewhere are put together in the order of the source: preparation of the data, uniform steps, the
quantities used, the spin filter, the options, the short segment, the residual data, the data and the finder of the class.
As elsewhere the numerical libraries are parameters, and text of messages and plots are not modelled.
-/

namespace GwEcc

/-! ### Options -/

/-- The value of an option that is not a dictionary; `other` is anything else that is true in a condition (a list, …). -/
inductive Leaf (K : Type)
  | none
  | bool (b : Bool)
  | int (n : ℤ)
  | num (x : K)
  | str (s : String)
  /-- a pair of integers -/
  | pair (m n : ℤ)
  | other
  deriving DecidableEq, Repr

/-- Options of one of the routines. -/
abbrev Kwargs (K : Type) := Dict String (Leaf K)

/-- An entry of `extra_kwargs`. -/
inductive Opt (K : Type)
  | leaf (v : Leaf K)
  | dict (d : Kwargs K)
  deriving DecidableEq, Repr

/-- `extra_kwargs`. -/
abbrev Extra (K : Type) := Dict String (Opt K)

section options

variable {K : Type} [Field K] [LinearOrder K]

/-- `bool(value)`. -/
def Leaf.truth : Leaf K → Bool
  | .none => false
  | .bool b => b
  | .int n => decide (n ≠ 0)
  | .num x => decide (x ≠ 0)
  | .str s => decide (s ≠ "")
  | .pair _ _ => true
  | .other => true

/-- `bool(value)`. -/
def Opt.truth : Opt K → Bool
  | .leaf v => v.truth
  | .dict d => !d.isEmpty

/-- A value used in arithmetic; numpy and Python raise `TypeError` otherwise. -/
def Leaf.number : Leaf K → Py K
  | .bool b => .ok (if b then 1 else 0)
  | .int n => .ok n
  | .num x => .ok x
  | _ => .error .typeError

/-- A value used where an integer that is not negative is needed (order of a spline, number of samples or extrema).
Simplification: the libraries raise different exceptions for other values, some of them later. -/
def Leaf.natural : Leaf K → Py ℕ
  | .bool b => .ok (if b then 1 else 0)
  | .int n => if 0 ≤ n then .ok n.toNat else .error .valueError
  | _ => .error .typeError

/-- A value used as a set of options, for `check_kwargs_and_set_defaults` (utils.py 99-103): `None` or a dictionary. -/
def Opt.kwargs : Opt K → Py (Option (Kwargs K))
  | .leaf .none => .ok none
  | .dict d => .ok (some d)
  | .leaf _ => .error .attributeError

/-- utils.py 171-179 `get_default_spline_kwargs`. -/
def splineDefaults : Kwargs K :=
  [("w", .none), ("bbox", .other), ("k", .int 3), ("ext", .int 2), ("check_finite", .bool false)]

/-- utils.py 322-330 `get_default_rational_fit_kwargs`. -/
def rationalDefaults : Kwargs K :=
  [("degrees", .none), ("max_iterations", .int 20), ("verbose", .bool false), ("tol", .num (1 / 10 ^ 7))]

/-- eccDefinition.py 1176-1187 `get_default_extrema_finding_kwargs`. -/
def peaksDefaults (width : ℤ) : Kwargs K :=
  [("height", .none), ("threshold", .none), ("distance", .none), ("prominence", .none), ("width", .int width),
    ("wlen", .none), ("rel_height", .num (1 / 2)), ("plateau_size", .none)]

/-- spin_filter.py 823-838 `get_default_kwargs_for_filtering`. -/
def filterDefaults : Kwargs K :=
  [("filter_threshold", .num (1 / 5)), ("alpha", .int 2), ("segment_size", .int 15),
    ("data_type_for_filter_requirement_check", .none), ("data_type_for_fspin_estimate", .none), ("debug_level", .int 0),
    ("debug_plots", .bool false), ("do_not_filter", .bool false), ("padding_length", .int 20000),
    ("taper_width", .num (1 / 5)), ("f_spin_lo_frac", .num (3 / 4)), ("f_spin_hi_frac", .num (5 / 4)),
    ("fecc_lo_frac", .num (1 / 4)), ("fecc_hi_frac", .num (1 / 2))]

/-- `get_default_kwargs_for_fits_methods`: eccDefinitionUsingFrequencyFits.py 130-139, eccDefinitionUsingAmplitudeFits.py
54-65 for the other class. -/
def fitsDefaults (amplitude : Bool) : Kwargs K :=
  [("nPN", .num (if amplitude then -(1 / 4) else -(3 / 8))), ("fit_bounds_max_amp_factor", .int 10),
    ("fit_bounds_max_nPN_factor", .int 10), ("prominence_factor", .num (if amplitude then 1 / 40 else 3 / 100)),
    ("distance_factor", .num (if amplitude then 1 / 2 else 3 / 4)), ("num_orbits", .int 3),
    ("num_orbits_for_global_fit", .int 10), ("return_diagnostic_data", .bool false)]

/-- eccDefinition.py 1227-1245 `get_default_extra_kwargs`. -/
def extraDefaults : Extra K :=
  [("general_interp_kwargs", .dict []), ("special_interp_kwargs_for_omega_gw_extrema", .dict []),
    ("extrema_finding_kwargs", .dict []), ("debug_plots", .leaf (.bool false)),
    ("omega_gw_averaging_method", .leaf (.str "orbit_averaged_omega_gw")),
    ("treat_mid_points_between_pericenters_as_apocenters", .leaf (.bool false)), ("refine_extrema", .leaf (.bool false)),
    ("kwargs_for_fits_methods", .dict []), ("return_zero_if_small_ecc_failure", .leaf (.bool false)),
    ("omega_gw_extrema_interpolation_method", .leaf (.str "rational_fit")),
    ("use_only_these_many_orbits", .leaf .none), ("filter_kwargs", .dict [])]

/-- `check_kwargs_and_set_defaults(self.extra_kwargs[key], defaults)`. -/
def subKwargs (extra : Extra K) (key : String) (defaults : Kwargs K) : Py (Kwargs K) := do
  let v ← extra.getItem key
  let u ← v.kwargs
  checkKwargs u defaults

/-- The spline options that matter (`SplineKwargs`).  Values of `w`, `bbox` and `check_finite` are passed to scipy and not
modelled; neither are the names scipy allows for `ext`. -/
def splineKwargs (kw : Kwargs K) : Py SplineKwargs := do
  let k ← kw.getItem "k"
  let k ← k.natural
  let ext ← kw.getItem "ext"
  let ext ← ext.natural
  pure ⟨k, ext⟩

/-- A data type of the spin filter (spin_filter.py 453-477): `None`, `"amp"` or `"omega"`. -/
def Leaf.kind : Leaf K → Py (Option Filter.Kind)
  | .none => .ok Option.none
  | .str s => if s = "amp" then .ok (some .amp) else if s = "omega" then .ok (some .omega) else .error .valueError
  | _ => .error .valueError

/-- The options of the spin filter as its functions read them. -/
def filterCfg (kw : Kwargs K) : Py (Filter.FilterCfg K) := do
  let threshold ← (← kw.getItem "filter_threshold").number
  let alpha ← (← kw.getItem "alpha").number
  let size ← (← kw.getItem "segment_size").number
  let check ← (← kw.getItem "data_type_for_filter_requirement_check").kind
  let spin ← (← kw.getItem "data_type_for_fspin_estimate").kind
  let level ← (match ← kw.getItem "debug_level" with
    | .int n => .ok n
    | _ => .error .valueError)
  let off ← kw.getItem "do_not_filter"
  let padding ← (← kw.getItem "padding_length").natural
  let taper ← (← kw.getItem "taper_width").number
  let sl ← (← kw.getItem "f_spin_lo_frac").number
  let sh ← (← kw.getItem "f_spin_hi_frac").number
  let el ← (← kw.getItem "fecc_lo_frac").number
  let eh ← (← kw.getItem "fecc_hi_frac").number
  pure ⟨threshold, alpha, size, check, spin, level, off.truth, padding, taper, sl, sh, el, eh⟩

/-- eccDefinitionUsingFrequencyFits.py 141-158 `set_fit_variables`.  `return_diagnostic_data` does not change the search. -/
def fitsCfg (kw : Kwargs K) (refine : Bool) : Py (FitsCfg K) := do
  let nPN ← (← kw.getItem "nPN").number
  let maxAmp ← (← kw.getItem "fit_bounds_max_amp_factor").number
  let maxNPN ← (← kw.getItem "fit_bounds_max_nPN_factor").number
  let prom ← (← kw.getItem "prominence_factor").number
  let dist ← (← kw.getItem "distance_factor").number
  let n ← (← kw.getItem "num_orbits").natural
  let g ← (← kw.getItem "num_orbits_for_global_fit").natural
  pure ⟨nPN, maxAmp, maxNPN, prom, dist, n, g, refine⟩

/-- `extra_kwargs["use_only_these_many_orbits"]` at eccDefinition.py 507-510: nothing if false in a condition, else it is
compared with a number. -/
def orbitsOption (v : Opt K) : Py (Option K) :=
  if v.truth then
    match v with
    | .leaf l => do
      let x ← l.number
      pure (some x)
    | .dict _ => .error .typeError
  else .ok none

/-- The degrees among the options, at eccDefinition.py 1572-1576; to index what is no pair, or to add its entries, raises.
Simplification: the exception is not always `TypeError`. -/
def requestedDegrees : Option (Leaf K) → Py (Option Degrees)
  | none => .error .keyError
  | some .none => .ok none
  | some (.pair m n) => .ok (some (m, n))
  | some _ => .error .typeError

/-- A name given as an option; what is no string is the name of nothing. -/
def Opt.name : Opt K → String
  | .leaf (.str s) => s
  | _ => ""

end options

/-! ### The call -/

/-- The arguments of `measure_eccentricity` (gw_eccentricity.py 62-70), with its defaults. -/
structure Call (K C : Type) where
  method : String := "Amplitude"
  dataDict : DataV K C
  trefIn : Option (Val K) := none
  frefIn : Option (Val K) := none
  numOrbits : Option K
  precessing : Flag := .isFalse
  frame : String := "inertial"
  level : ℤ := 0
  extra : Option (Extra K) := none

/-- The numerical libraries. -/
structure Libs (K C : Type) where
  wave : WaveLib K C
  filter : Filter.FilterLib K
  fits : FitsLib K
  /-- see `Ext` -/
  tol : K
  monoTol : K
  eccOf : K → K → K
  eval : InterpCall → List K → List K → K → Py K
  deriv : InterpCall → List K → List K → K → Py K
  argsort : List K → List ℕ
  /-- `scipy.optimize.least_squares` for the secular trend (see `secularTrend`) -/
  solve : List K → List K → Trend K → Py (Trend K)
  /-- utils.py 333-356 `get_rational_fit` (`RationalFit` and its `fit`) with the given options, but these degrees.  The search
  for the degrees is in `extremaFit` (`Model/ExtremaFit.lean`). -/
  rational : (String → Option (Leaf K)) → Degrees → List K → List K → Py (K → Py K)
  /-- `scipy.signal.find_peaks(data, **options)[0]` -/
  peaks : (String → Option (Leaf K)) → List K → Py (List ℕ)

/-- Warnings given by the constructor. -/
inductive InitWarning
  /-- eccDefinition.py 513-520 -/
  | tooFewOrbits
  /-- eccDefinition.py 562-566 -/
  | unrecognised (key : String)
  deriving DecidableEq, Repr

/-- What the constructor leaves on the object. -/
structure Built (K C : Type) where
  /-- libraries and the finder of the class -/
  ext : Ext K
  /-- attributes read by `measure_ecc` -/
  obj : Obj K
  /-- `self.dataDict`, `self.t_merger`, … -/
  data : DataV K C
  analysis : Analysis K
  /-- `self.t, self.amp_gw, self.phase_gw, self.omega_gw` -/
  wave : Wave K
  warnings : List InitWarning

/-- eccDefinition.py 598-612 `get_recognized_dataDict_keys`. -/
def recognisedKeys : List String :=
  ["t", "hlm", "amplm", "phaselm", "omegalm", "t_zeroecc", "hlm_zeroecc", "amplm_zeroecc", "phaselm_zeroecc",
    "omegalm_zeroecc"]

/-- Passes that are enough for the loops of the fits methods (`C39_terminates`). -/
def fitsFuel : ℕ := 10002

section construct

variable {K C : Type} [Field K] [LinearOrder K] [FloorRing K]

/-- eccDefinition.py 801-833: the message that the modes are going to be transformed, given after the check of the keys; at the
strict level it is an exception.  The messages of the transformation itself (961-976) have the same importance and come after
this one, so that they never raise. -/
def frameMessage (level : ℤ) (precessing : Flag) (frame : String) (v : DataV K C) : Py Unit :=
  if mustTransform precessing frame then do
    checkShape v.has
    let _ ← debugMessage level false
    pure ()
  else pure ()

/-- eccDefinition.py 445-464: the processed data and the waveform quantities. -/
def loadWave (lib : Libs K C) (a : Call K C) : Py (DataV K C × Analysis K × Wave K) := do
  frameMessage a.level a.precessing a.frame a.dataDict
  let (nd, an) ← processData lib.wave a.precessing a.frame a.dataDict a.numOrbits
  let t ← getArr nd "t"
  checkSteps t
  let (amp, phase, omega) ← gwQuantities a.precessing.truth nd ""
  pure (nd, an, ⟨t, amp, phase, omega⟩)

/-- `data_dict[name][mode]`. -/
def modeOf (nd : DataV K C) (name : String) (m : LM) : Py (List K) := do
  let d ← getR nd name
  d.getItem m

/-- The modes the spin filter reads. -/
def coprModes (nd : DataV K C) (t : List K) : Py (Filter.CoprModes K) := do
  let a ← modeOf nd "amplm" (2, 2)
  let a' ← modeOf nd "amplm" (2, -2)
  let w ← modeOf nd "omegalm" (2, 2)
  let w' ← modeOf nd "omegalm" (2, -2)
  let p ← modeOf nd "phaselm" (2, 2)
  let p' ← modeOf nd "phaselm" (2, -2)
  pure ⟨t, a, a', w, w', p, p'⟩

/-- eccDefinition.py 483-488: the options of the filter. -/
def filterOptions (extra : Option (Extra K)) : Py (Kwargs K) := do
  let extra := extra.getD []
  let u ← (match extra.get? "filter_kwargs" with
    | some v => v.kwargs
    | none => .ok (some []))
  checkKwargs u filterDefaults

/-- eccDefinition.py 477-502 up to the call of the filter. -/
def filterInput (a : Call K C) (nd : DataV K C) (w : Wave K) : Py (Kwargs K × Filter.FilterCfg K × Filter.CoprModes K) := do
  let kw ← filterOptions a.extra
  let cfg ← filterCfg kw
  let m ← coprModes nd w.t
  pure (kw, cfg, m)

/-- eccDefinition.py 477-502: the spin filter, for precessing systems.  Result: the waveform, whether it was filtered, and
`extra_kwargs`, to which the options of the filter are added. -/
def filterStage (fuel : ℕ) (lib : Libs K C) (a : Call K C) (nd : DataV K C) (an : Analysis K) (w : Wave K) :
    Option (Py (Wave K × Bool × Option (Extra K))) :=
  if a.precessing.truth then
    match filterInput a nd w with
    | .error e => some (.error e)
    | .ok (kw, cfg, m) =>
      (Filter.checkAndFilter fuel lib.filter cfg an.tMerger m).map fun r => do
        let f ← r
        pure (⟨w.t, f.amp.best, f.phase.best, f.omega.best⟩, f.omega.filtered.isSome,
          some ((a.extra.getD []).set "filter_kwargs" (.dict kw)))
  else some (.ok (w, false, a.extra))

/-- eccDefinition.py 508-520: the warning that there are fewer orbits than asked for. -/
def segmentWarning (pi : K) (level : ℤ) (orbits : Option K) (w : Wave K) : Py (List InitWarning) :=
  match orbits with
  | none => .ok []
  | some n =>
    if n = 0 then .ok []
    else do
      let pN ← pyLast w.phase
      let p0 ← pyGet w.phase 0
      if n ≤ (pN - p0) / (4 * pi) then pure []
      else do
        let out ← debugMessage level
        pure (if out = .silent then [] else [.tooFewOrbits])

/-- eccDefinition.py 560-566: a message for each key that is not recognised. -/
def keyWarnings (level : ℤ) (keys : List String) : Py (List InitWarning) := do
  let l ← (keys.filter fun k => !recognisedKeys.contains k).mapM fun k => do
    let out ← debugMessage level
    pure (if out = .silent then [] else [InitWarning.unrecognised k])
  pure l.flatten

/-- `self.special_interp_kwargs_for_omega_gw_extrema`, eccDefinition.py 529-550: checked against the defaults of the chosen
method, and `verbose` of the rational fit replaced by the debug level. -/
def extremaOptions (extra : Extra K) (level : ℤ) (method : String) : Py (SplineKwargs × Kwargs K) := do
  if method ≠ "spline" ∧ method ≠ "rational_fit" then .error .exception
  else if method = "spline" then do
    let kw ← subKwargs extra "special_interp_kwargs_for_omega_gw_extrema" splineDefaults
    let s ← splineKwargs kw
    pure (s, kw)
  else do
    let kw ← subKwargs extra "special_interp_kwargs_for_omega_gw_extrema" rationalDefaults
    pure ({}, kw.set "verbose" (.int level))

/-- eccDefinition.py 594-595 with 2890-2944: the residuals, the quasicircular times moved to the merger and the
quasicircular frequency. -/
def residualStage (lib : Libs K C) (kw : SplineKwargs) (precessing : Bool) (nd : DataV K C) (tMerger : K) (w : Wave K) :
    Py (Option (Residual K) × Option (List K × List K)) := do
  let r ← residualData lib.wave lib.tol lib.eval kw precessing nd tMerger w
  match r with
  | none => pure (none, none)
  | some r => do
    let tZ ← getArr nd "t_zeroecc"
    let (_, _, omegaZ) ← gwQuantities precessing nd "_zeroecc"
    pure (some r, some (tZ.map fun x => x - r.tMergerZ + tMerger, omegaZ))

/-- Does the class search by fits? -/
def MethodClass.isFits : MethodClass → Bool
  | .amplitudeFits | .frequencyFits => true
  | _ => false

/-- `+1` for pericenters and `-1` for apocenters. -/
def ExtType.sign : ExtType → K
  | .pericenters => 1
  | .apocenters => -1

/-- The rest of the constructor of the class and its `find_extrema`. -/
def finder (lib : Libs K C) (c : MethodClass) (extra : Extra K) (peaksKw : Kwargs K) (tMerger : K) (s : Series K)
    (w : Wave K) : Py (ExtType → Py (List ℕ)) := do
  let data ← dataForExtrema c s
  if c.isFits then do
    let kw ← subKwargs extra "kwargs_for_fits_methods" (fitsDefaults (decide (c = .amplitudeFits)))
    let refine ← extra.getItem "refine_extrema"
    let cfg ← fitsCfg kw refine.truth
    pure fun ty => do
      let f ← (findExtrema passLimit fitsFuel lib.fits cfg ⟨w.t.map (· - tMerger), w.phase, data⟩ ty.sign).getD
        (.error .exception)
      pure f.extrema
  else pure fun ty => findExtremaPeaks (lib.peaks peaksKw.get?) data ty.name

/-- eccDefinition.py 503-595 and the constructor of the class: everything after the filter.  `extra` are the user's options
(with those of the filter). -/
def finish (lib : Libs K C) (c : MethodClass) (domain : Domain) (ref : Val K) (a : Call K C) (nd : DataV K C)
    (an : Analysis K) (w : Wave K) (filtered : Bool) (extra : Option (Extra K)) : Py (Built K C) := do
  let ex ← checkKwargs extra extraDefaults
  let orbits ← orbitsOption (← ex.getItem "use_only_these_many_orbits")
  let w1 ← segmentWarning lib.wave.pi a.level orbits w
  let w' ← selectWave lib.wave.pi (secularTrend lib.fits.pow lib.solve) orbits domain ref.atleast1d w
  let peaksKw ← subKwargs ex "extrema_finding_kwargs" (peaksDefaults an.width)
  let method ← ex.getItem "omega_gw_extrema_interpolation_method"
  let (extremaKw, ratKw) ← extremaOptions ex a.level method.name
  let generalKw ← subKwargs ex "general_interp_kwargs" splineDefaults
  let general ← splineKwargs generalKw
  let w2 ← keyWarnings a.level a.dataDict.keys
  let (res, zeroecc) ← residualStage lib general a.precessing.truth nd an.tMerger w'
  let find ← finder lib c ex peaksKw an.tMerger
    { amp := w'.amp, omega := w'.omega, resAmp := res.map (·.resAmp), resOmega := res.map (·.resOmega),
      ampMerger := an.ampMerger, hasT0 := nd.has "t_zeroecc", hasAmp0 := nd.has "amplm_zeroecc",
      hasOmega0 := nd.has "omegalm_zeroecc" } w'
  let avg ← ex.getItem "omega_gw_averaging_method"
  let mid ← ex.getItem "treat_mid_points_between_pericenters_as_apocenters"
  let zero ← ex.getItem "return_zero_if_small_ecc_failure"
  let dataT ← getArr nd "t"
  pure {
    ext := ⟨lib.wave.pi, lib.tol, lib.monoTol, lib.eccOf, lib.eval, lib.deriv, 
      extremaFit (lib.rational ratKw.get?) lib.eval a.level (requestedDegrees (ratKw.get? "degrees")) w'.t, lib.argsort, find⟩
    obj := {
      t := w'.t, phase := w'.phase, omega := w'.omega, dataT := dataT, domain := domain, refIn := ref,
      precessing := a.precessing.truth, filtered := filtered, midpoints := mid.truth, returnZero := zero.truth,
      useOnly := orbits.isSome, level := a.level, interpMethod := method.name, avgMethod := avg.name,
      extremaKw := extremaKw, generalKw := general, zeroecc := zeroecc }
    data := nd, analysis := an, wave := w', warnings := w1 ++ w2 }

/-- eccDefinition.py 445-595 and the constructor of the class `c`; `none` if the loop of the spin filter needs more than
`fuel` passes. -/
def construct (fuel : ℕ) (lib : Libs K C) (c : MethodClass) (domain : Domain) (ref : Val K) (a : Call K C) :
    Option (Py (Built K C)) :=
  match loadWave lib a with
  | .error e => some (.error e)
  | .ok (nd, an, w) =>
    (filterStage fuel lib a nd an w).map fun r => do
      let (w, filtered, extra) ← r
      finish lib c domain ref a nd an w filtered extra

/-- gw_eccentricity.py 580-591 and eccDefinition.py 421-443: choice of the class and of the reference points. -/
def dispatch (a : Call K C) : Py (MethodClass × Domain × Val K) := do
  if availableMethods.has a.method then do
    let c ← availableMethods.getItem a.method
    let (domain, ref) ← initReference a.trefIn a.frefIn a.frame
    pure (c, domain, ref)
  else .error .exception

/-- What a call returns: the dictionary, and the object with what the measurement has stored on it. -/
structure Answer (K C : Type) where
  ret : Dict String (Val K)
  built : Built K C
  meas : Option (Meas K)

/-- gw_eccentricity.py 62-594 `measure_eccentricity`. -/
def run (fuel : ℕ) (lib : Libs K C) (a : Call K C) : Option (Py (Answer K C)) :=
  match dispatch a with
  | .error e => some (.error e)
  | .ok (c, domain, ref) =>
    (construct fuel lib c domain ref a).map fun r => do
      let b ← r
      let (ret, m, _) ← measureEcc b.ext b.obj none
      pure ⟨ret, b, m⟩

/-! ### The caller's options afterwards -/

/-- The caller's `extra_kwargs` after the call: for a precessing system the options of the filter are completed in place
(485-488, utils.py 110-112) and entered (502).  Without `extra_kwargs` there is nothing to change. -/
def extraAfter (fuel : ℕ) (lib : Libs K C) (a : Call K C) : Option (Option (Extra K)) :=
  match a.extra, dispatch a with
  | some ex, .ok _ =>
    if a.precessing.truth then
      match loadWave lib a with
      | .error _ => some a.extra
      | .ok (nd, an, w) =>
        match filterOptions a.extra with
        | .error _ => some a.extra
        | .ok kw =>
          -- a dictionary given under "filter_kwargs" is completed even if the filter raises
          let given := match ex.get? "filter_kwargs" with
            | some (.dict _) => some (ex.set "filter_kwargs" (.dict kw))
            | _ => some ex
          match filterStage fuel lib a nd an w with
          | none => none
          | some (.error _) => some given
          | some (.ok (_, _, ex')) => some ex'
    else some a.extra
  | _, _ => some a.extra

end construct

end GwEcc
