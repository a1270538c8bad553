import Verif.Model.Construct

/-!
# Specification of the options

Names of the options as the documentation of `measure_eccentricity` lists them (gw_eccentricity.py 330-570 and the
docstrings it points to), and what it means that two users ask for the same thing.
-/

namespace GwEcc.Spec

/-- The options of `extra_kwargs`. -/
def optionNames : List String :=
  ["general_interp_kwargs", "special_interp_kwargs_for_omega_gw_extrema", "extrema_finding_kwargs", "debug_plots",
    "omega_gw_averaging_method", "treat_mid_points_between_pericenters_as_apocenters", "refine_extrema",
    "kwargs_for_fits_methods", "return_zero_if_small_ecc_failure", "omega_gw_extrema_interpolation_method",
    "use_only_these_many_orbits", "filter_kwargs"]

/-- Options of a spline. -/
def splineNames : List String := ["w", "bbox", "k", "ext", "check_finite"]

/-- Options of a rational fit. -/
def rationalNames : List String := ["degrees", "max_iterations", "verbose", "tol"]

/-- Options of `scipy.signal.find_peaks`. -/
def peaksNames : List String :=
  ["height", "threshold", "distance", "prominence", "width", "wlen", "rel_height", "plateau_size"]

/-- Options of the fits methods. -/
def fitsNames : List String :=
  ["nPN", "fit_bounds_max_amp_factor", "fit_bounds_max_nPN_factor", "prominence_factor", "distance_factor", "num_orbits",
    "num_orbits_for_global_fit", "return_diagnostic_data"]

/-- Options of the spin filter. -/
def filterNames : List String :=
  ["filter_threshold", "alpha", "segment_size", "data_type_for_filter_requirement_check", "data_type_for_fspin_estimate",
    "debug_level", "debug_plots", "do_not_filter", "padding_length", "taper_width", "f_spin_lo_frac", "f_spin_hi_frac",
    "fecc_lo_frac", "fecc_hi_frac"]

variable {κ V : Type} [DecidableEq κ]

/-- The value in force under a key: what was given, else the default. -/
def inForce (defaults : Dict κ V) (given : Option (Dict κ V)) (k : κ) : Option V :=
  match (given.getD []).get? k with
  | some v => some v
  | none => defaults.get? k

/-- Two sets of options that ask for the same: both have documented keys only, and the same values are in force. -/
structure SameOptions (defaults : Dict κ V) (u u' : Option (Dict κ V)) : Prop where
  known : ∀ k ∈ (u.getD []).keys, k ∈ defaults.keys
  known' : ∀ k ∈ (u'.getD []).keys, k ∈ defaults.keys
  same : ∀ k, inForce defaults u k = inForce defaults u' k

/-- Two values of an option that is itself a set of options (defaults `d`) and that ask for the same. -/
def SameValue {K : Type} (d : Kwargs K) (v v' : Opt K) : Prop :=
  v = v' ∨ ∃ u u', v.kwargs = .ok u ∧ v'.kwargs = .ok u' ∧ SameOptions d u u'

/-- Two `extra_kwargs` that ask for the same.  `groups` gives the defaults of the options that are sets of options. -/
structure SameExtra {K : Type} (defaults : Extra K) (groups : String → Option (Kwargs K)) (ex ex' : Option (Extra K)) :
    Prop where
  known : ∀ k ∈ (ex.getD []).keys, k ∈ optionNames
  known' : ∀ k ∈ (ex'.getD []).keys, k ∈ optionNames
  single : ∀ k, groups k = none → inForce defaults ex k = inForce defaults ex' k
  group : ∀ k d v v', groups k = some d → inForce defaults ex k = some v → inForce defaults ex' k = some v' → SameValue d v v'

section
variable {K : Type} [Field K]

/-- The documented defaults, spelled out.  (The width of `extrema_finding_kwargs` depends on the waveform.)  `fits` are those
of the fits methods. -/
def documentedExtra (fits : Kwargs K) : Extra K :=
  [("omega_gw_extrema_interpolation_method", .leaf (.str "rational_fit")),
    ("special_interp_kwargs_for_omega_gw_extrema", .dict [("degrees", .none), ("max_iterations", .int 20), ("verbose", .bool false),
      ("tol", .num (1 / 10000000))]),
    ("general_interp_kwargs", .dict [("w", .none), ("bbox", .other), ("k", .int 3), ("ext", .int 2), ("check_finite", .bool false)]),
    ("extrema_finding_kwargs", .dict [("height", .none), ("threshold", .none), ("distance", .none), ("prominence", .none),
      ("wlen", .none), ("rel_height", .num (1 / 2)), ("plateau_size", .none)]),
    ("debug_plots", .leaf (.bool false)),
    ("omega_gw_averaging_method", .leaf (.str "orbit_averaged_omega_gw")),
    ("treat_mid_points_between_pericenters_as_apocenters", .leaf (.bool false)),
    ("refine_extrema", .leaf (.bool false)),
    ("kwargs_for_fits_methods", .dict fits),
    ("return_zero_if_small_ecc_failure", .leaf (.bool false)),
    ("use_only_these_many_orbits", .leaf .none),
    ("filter_kwargs", .dict [("filter_threshold", .num (1 / 5)), ("alpha", .int 2), ("segment_size", .int 15),
      ("data_type_for_filter_requirement_check", .none), ("data_type_for_fspin_estimate", .none), ("debug_level", .int 0),
      ("debug_plots", .bool false), ("do_not_filter", .bool false), ("padding_length", .int 20000),
      ("taper_width", .num (1 / 5)), ("f_spin_lo_frac", .num (3 / 4)), ("f_spin_hi_frac", .num (5 / 4)),
      ("fecc_lo_frac", .num (1 / 4)), ("fecc_hi_frac", .num (1 / 2))])]

/-- Documented defaults of the two fits methods. -/
def documentedFits : MethodClass → Kwargs K
  | .amplitudeFits =>
    [("nPN", .num (-(1 / 4))), ("fit_bounds_max_amp_factor", .int 10), ("fit_bounds_max_nPN_factor", .int 10),
      ("prominence_factor", .num (1 / 40)), ("distance_factor", .num (1 / 2)), ("num_orbits", .int 3),
      ("num_orbits_for_global_fit", .int 10), ("return_diagnostic_data", .bool false)]
  | _ =>
    [("nPN", .num (-(3 / 8))), ("fit_bounds_max_amp_factor", .int 10), ("fit_bounds_max_nPN_factor", .int 10),
      ("prominence_factor", .num (3 / 100)), ("distance_factor", .num (3 / 4)), ("num_orbits", .int 3),
      ("num_orbits_for_global_fit", .int 10), ("return_diagnostic_data", .bool false)]

/-- Defaults of the options that are sets of options, for a class, a way of interpolating the extrema and a width. -/
def groupDefaults (c : MethodClass) (interp : String) (width : ℤ) (key : String) : Option (Kwargs K) :=
  if key = "general_interp_kwargs" then some splineDefaults
  else if key = "special_interp_kwargs_for_omega_gw_extrema" then
    some (if interp = "spline" then splineDefaults else rationalDefaults)
  else if key = "extrema_finding_kwargs" then some (peaksDefaults width)
  else if key = "kwargs_for_fits_methods" then some (fitsDefaults (decide (c = .amplitudeFits)))
  else if key = "filter_kwargs" then some filterDefaults
  else none

end

end GwEcc.Spec
