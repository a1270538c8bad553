# Formal model of gw_eccentricity in Lean 4

## How the model is built

* One Lean module per Python module (or per coherent part of `eccDefinition.py`) under
  `lean/Verif/Model/`.  Every definition cites the file and lines it models; every
  simplification is stated in the same comment.
* `lean/Verif/Py.lean` holds the small piece of Python/numpy semantics the model needs
  (slices with negative indices, `argmin`, `where`, `diff`, `interp`, exceptions as values).
* Small specifications that do not use the model's helpers are in `lean/Verif/Spec/`.
* Property theorems are in `lean/Verif/Props/`, helper lemmas in `lean/Verif/Lemmas/`.
  Beside each property theorem there is an `example` meeting its hypotheses.

### Conventions

* Python exceptions are values of `Except Err α`; the constructor of `Err` names the Python exception class.
* Numerical arrays are `List K` over an arbitrary linearly ordered field `K`
  (so every theorem holds over ℚ, where the model can be executed, and over ℝ), or over ℝ
  where square roots or trigonometry occur.
* Loops `while cond` whose termination is not structural are written with fuel, and a theorem
  shows that enough fuel exists (or, for genuinely non-terminating inputs, that it does not).
* External routines (scipy splines, `find_peaks`, least squares, FFT, QR/SVD, quaternion
  rotation, lalsimulation) are parameters of the model.  What a theorem assumes about them
  is a hypothesis of the theorem.  Splines and `find_peaks` are also modelled themselves (`Model/Spline`, `Model/FindPeaks`), and
  the hypotheses about them are proved for these models (C85_scipy, C87_splines, C111, C115).

## Trusted base

* Lean 4.33.0 kernel; axioms `propext`, `Classical.choice`, `Quot.sound` only.  `AXIOMS.md` (written by
  `tools/axioms.py` from `#print axioms`) lists for every theorem of `MANIFEST.json` which of them it uses.
  No axiom is added, no `sorry`, no `native_decide`, no `bv_decide`.
* The hand-made reading of the Python source into the model (cited line by line).
* Exact real arithmetic stands for IEEE double arithmetic: rounding, overflow, NaN and infinities are not
  modelled.  Where Python would produce NaN/inf through a division by zero the model either
  has an explicit error or the theorem has the nonzero divisor as hypothesis.
* numpy/scipy/pandas/joblib/mpi4py primitives behave as documented, in the form stated at each definition.

### What is modelled

| Python | Lean module | parameters (not modelled) |
|--------|-------------|---------------------------|
| `utils.py` (all but `SmartFormatter` and the least squares routine) | `Model/Utils` | evaluation of scipy interpolants, `leastsq` |
| `rational_fit.py` | `Model/RationalFit`, `Model/RationalDegree`, `Model/VarPro` | QR, SVD, triangular solve, vector norm |
| `eccDefinition.py` 420-443, 613-1174: input checks, `process_data_dict`, frames | `Model/DataDict` (values), `Model/Heap` (shared objects) | `scri` rotation |
| `eccDefinition.py` 463-500, `spin_filter.py` | `Model/SpinFilter`, `Model/Fourier` (numpy's transforms and windows), `Model/Trend` | peak search, cubic interpolation, iteration of the least squares |
| `eccDefinition.py` 506-520, 1914-2135, 2890-2944: segments, residual data | `Model/Segment` | trend fit, interpolation |
| `eccDefinition.py` 1247-1533, 2818-2888, 4439-4465: extrema | `Model/Extrema`, `Model/WidthDimless` (4467-4494) | |
| `eccDefinition.py` 1535-1783: fits through extrema | `Model/RationalDegree` (search for the degrees), `Model/ExtremaFit` (the search on the data of a measurement), `Model/Measure` | one rational fit with given degrees |
| `eccDefinition.py` 1785-1912, 2223-2810, 2946-3417: the measurement | `Model/Measure`, `Model/Ecc` | scipy interpolation, `argsort` |
| `eccDefinitionUsing{Amplitude,Frequency,Residual*}.py` | `Model/Methods` | `find_peaks` |
| `eccDefinitionUsing{Amplitude,Frequency}Fits.py` | `Model/Fits` | `curve_fit`, `find_peaks` |
| `gw_eccentricity.py` | `Model/Measure` (`measureEccentricity`) | |
| `measure_eccentricity` from the caller's dictionaries to the returned dictionary: `__init__` 100-611, the constructors of the classes, all the above composed | `Model/Construct` (`run`) | the library calls, collected in one record `Libs` |
| `scipy.signal.find_peaks`, as the code calls it (not in `/repo`; written from its documentation and published algorithm) | `Model/FindPeaks` | `argsort`, options given as arrays, NaN |
| `scipy.interpolate.InterpolatedUnivariateSpline` (orders 1 to 5, all `ext` modes, derivative), `PchipInterpolator`, `interp1d(kind="cubic")`, in exact arithmetic (not in `/repo`; written from their documentation and published algorithms) | `Model/Spline` | rounding, NaN, options `w`, `bbox` |
| numpy's `abs`, `angle`, `unwrap`, `exp` on modes, as the code calls them (not in `/repo`) | `Model/Numpy` | rounding, NaN |
| `eccDefinition.py` 3090-3165, 3419-4385: the diagnostic figure | `Model/Plots` (`runPlots`) | everything of a figure but its panels and their curves |
| `load_data.py` | `Model/LoadData`, `Model/LoadFiles`, `Model/SxsFiles`, `Model/Modes` | files, lalsimulation, `scri`, `sxs` |
| `examples/postprocessing/*.py`, `EccTests/EOBTests/seobnrv4ehm.py` | `Model/Generators`, `Model/Harmonics`, `Model/FreqInterp` | the waveform models |
| `compare_methods.py`, `truncate_waveform_by_flow.py` | `Model/Compare` | the measurement, interpolation |
| `postprocess/core.py`, `postprocess/postprocess.py`, `postprocess/postprocess_for_bilby.py`, `postprocess/postprocess_cli.py` | `Model/Postprocess`, `Model/PostObject`, `Model/Mpi`, `Model/BatchSize`, `Model/Cli` | file formats, `argparse`'s handling of abbreviations, plots |

Not modelled: how a figure looks (`plot_settings.py`, labels, axes), the figures of segments, fits and the spin filter, file formats
(HDF5, sxs, lvcnr, JSON tables beyond their keys), downloads, lalsimulation itself, message texts, `argparse` help formatting, the
numerical content of scipy's least-squares routines, the scripts under `EccTests` and `test`.

## Plan per property

| id | modelled | proof |
|----|----------|-------|
| C01, C02, C06, C07, C10 | `measure_ecc` as a function `Except`-valued in the outcomes of its parts | case analysis of the pipeline, lemmas on `filter` |
| C03, C21, C22, C48 | `process_data_dict`, `transform_inertial_to_coprecessing` over a store with shared references | case analysis on key presence; explicit counterexamples where the code violates the property |
| C04, C05 | `check_kwargs_and_set_defaults`, `debug_message` | induction over the dictionary |
| C08, C15 | `check_input_limits`, `compute_mean_anomaly` with `np.interp` | induction over the node list |
| C09, C29, C30 | `get_fref_out`, `get_fref_bounds`, monotonicity check, fref→tref | filter lemmas, induction |
| C11, C12, C13 | `compute_eccentricity`, `et_from_ew22_0pn` over ℝ | real analysis, triple-angle identity |
| C14 | scale/shift equivariance of the pieces and of the composed measurement | algebra |
| C16, C17, C18, C65 | stencils, quadratic peak fit, total amplitude, width | `ring`/`field_simp`, list induction |
| C19 | `get_amp_phase_omega_gw` | pointwise algebra |
| C20, C36 | truncation index, segment indices | `argmin`/`searchsorted` specifications |
| C23–C27 | extrema dropping and checking | list induction on strictly increasing lists |
| C28 | orbit averages, merge and sort | permutation lemmas |
| C31, C32, C34 | degree search and reduction loops with arbitrary fit oracle | well-founded/fuel induction |
| C33 | Arnoldi basis and its evaluation | induction on the degree |
| C35 | `interpolate`, `get_interpolant` | case analysis |
| C37, C38 | residual data, peak finders as oracles | algebra |
| C39, C40, C41 | fits methods' loops with oracle fit/peaks, store for the time array | loop invariants |
| C42–C46 | spin filter | inequalities, convexity, loop measure |
| C47 | packing of modes | induction on ℓ |
| C49–C54 | master/worker as a transition system with arbitrary schedule and crashes | invariants by induction over traces, refinement to the sequential map |
| C55–C58 | per sample processing, summaries, parsing | case analysis, induction |
| C59–C62, C69–C74 | metadata, junk removal, NR partner, LAL arguments, origins, directories, time windows, resampling | case analysis, `argmin` specifications, fuel induction for the retry loops |
| C63, C64 | `compare_methods`, `truncate_waveform_by_flow` | algebra, explicit counterexample |
| C66 | `check_extrema_separation`, `check_if_dropped_too_many_extrema` | index lemmas on `diff`/`where` |
| C67 | the whole measurement at two debug levels | a relation between runs (`Lemmas/Levels`) carried through every stage |
| C68 | repeated measurement on one object; the pair of degree searches sharing their degrees | induction over histories; loop invariants |
| C75 | returned values in terms of the curves at the extrema | inversion of `evaluate`, `makeReturn`; `C15` for the anomaly |
| C76 | the whole measurement at debug level 2 | every warning is an exception there, so success excludes each |
| C77 | the whole measurement, level 0, time input, or frequency input with the default average | each stage is shown to return a value |
| C78 | the whole measurement on samples of a Keplerian binary; phase, frequency, period and Kepler's equation in Spec/Kepler.lean | phase gained between apsides by a winding argument (the strain factor stays in the slit plane), alternation by the intermediate value theorem, then C77, C75, C13 and C15 |
| C79 | the four methods based on `find_peaks`, on amplitude and frequency of a Keplerian binary | closed forms of both in `u = 1 + e cos f`, strictly increasing in `u` (sign of a polynomial); neighbouring samples lie in one half turn, where cos is monotone; then C78 |
| C80 | the whole call: `measure_eccentricity`, `__init__`, the constructors of the classes (`Model/Construct.lean`) | a successful call is taken apart into its steps; each contains a successful check of the names |
| C81 | the same | congruence: two complete option dictionaries with the same entries lead to the same object (`run_congr`) |
| C82 | the same | only the names enter beyond the data under documented names; relational proof that everything else is equal |
| C83 | the same with `process_data_dict` | the new dictionary built from both is the same list; for the frame change the rebuilt complex modes are the given ones |
| C84 | the same with the state of the caller's dictionary after the call (`extraAfter`) | case analysis on where the call stops; completed filter options are a fixed point of completion |
| C85 | the whole call (`run`) and a change of units of its arguments (`Spec/Rescale.lean`) | simulation: every stage maps converted inputs to converted outputs; numerical routines are assumed covariant (the trend fit of the spin filter starts from a guess of the wrong dimension, so the assumption is about the optimum it reaches) |
| C86 | the whole call (`run`); a loop that needs more passes than the fuel gives no result | measures for the loops of the spin filter and of the fits; accepted time steps are monotonic |
| C87 | the whole call (`run`) on the waveform of a Newtonian binary with any merger after it | stages of the call followed with the default options; C78 and C79 for the measurement on the samples kept; complex modes through C83 and C118; peak widths from Kepler's equation |
| C88 | `eccFromOmega`, `npInterp`, `measureEcc` | mean value theorem for the inverse of the formula, whose slope is 12/((1-e²)(4-e²)) ≥ 3; piecewise linear interpolation is Lipschitz; lifted to two measurements with C75 |
| C89 | `run` and everything below it, nonprecessing | a call decomposed into its steps (`run_ok`, `finish_ok`); the data used are a stretch of the (2,2) arrays given (C20, C36), positions shifted back to them; C06, C07, C28, C75 for the numbers |
| C90 | `run` with the options object left by the calls before (`Model/SharedOptions.lean`) | induction over the series; C84: the changed options mean the same |
| C91 | `build_config_from_cli` and its helpers, `run_postprocess(_batch)`, `get_bilby_posterior`, `main` (`Model/Cli.lean`) on top of C49–C58 | the parser is compared with a declarative specification of command lines; C51 and C54 for the table; a checkpoint of another origin is followed by replacing the values of the job on the samples it holds |
| C92 | the columns in `save_final` | case analysis of the merge; fails for clashing names |
| C93 | `_solve_using_varpro` with QR, SVD and triangular solve as parameters that meet `LinAlg.Sound`; `__call__` | Pythagoras for optimality; the basis functions are polynomials of degree 0, 1, …; a quotient with more than m+n coincidences is the function itself |
| C94 | `rfft`, `irfft` and windows by their formulas in place of the parameters of the filter | orthogonality of the waves gives inversion and Parseval's identity; then through `_filter_segment` |
| C95 | `_pn_model`, `_pn_fit_for_secular_trend`; scipy rejects a start with residuals that are not finite, its iteration is a parameter | the merger time found by the five-point fit is computed and compared with the last sample; the violation is carried through a whole call |
| C96 | `check_filter_requirement`, `_find_intersection_points`, `_make_segment` | mask positions are turned into changes of order; a window of a sorted array is a filter |
| C97 | `load_EMRI_waveform`, `load_EOB_waveform`, `load_h22_from_EOBfile`, `load_lvcnr_waveform`, `load_lvcnr_hack`; reading a file is a function of its path, paths are lists of characters | unfolding of the loaders; `str.find` is characterised as the first occurrence; slices are compared sample by sample |
| C98 | the classes `PostProcess` and `PostProcessForBilby` as an object answering a list of requests (`Model/PostObject`); reading files, generator and measurement are parameters | induction on the session: the results kept are those of the last answer holding results; agreement with the program by `C91_table_partial` and uniqueness of the expected line |
| C99 | `download_sxs_waveform` as the list of states the disk goes through and the outcome (`Model/SxsFiles`); catalogue and transfers, with the fragments they show, are parameters | invariant over histories of calls, each ending or killed at any state: the files wanted are absent or right |
| C100 | both SXS loaders from the contents of the directory on (`Model/SxsFiles`); `sxs`, `h5py`, `json`, `float` and interpolation are parameters | the fold over the modes read as a dictionary; column arithmetic of the memory table; induction over the lines of the text metadata |
| C101 | the generators `teob_data_dict_generator`, `esigma_data_dict_generator` and `get_modes` of SEOBNRv4EHM with its files (`Model/Generators`); the waveform models are parameters | index arithmetic on the joined lists; invariant over histories of calls: every file holds a part of what was computed for arguments with its name |
| C102 | the whole call (`run`) and a rotation of the source (`Spec/PhaseOrigin.lean`) | simulation: every stage maps data whose phases differ by constants to such data, the measurement uses differences of phases only; that numpy's routines respect constants in phases is C118, the rotation to the coprecessing frame and the cubic interpolation are assumed to |
| C103 | the LAL loader (`Model/LoadData.lean`) | one call is exhibited and each argument related to the options; the check of the spins by cases |
| C104 | `run` of the waveform and of its first n samples (Spec/Ringdown) | the stages before the cut (derivative of the phases, search for the merger, width, sample to cut at) are followed with a relation "equal up to the last two of n samples"; the cut is before them, so the dictionaries after it are equal |
| C105 | `run` of two waveforms that agree in the dominant modes (Spec/OtherModes) | a relation "the same entry, or mode dictionaries that agree in the dominant modes" is followed through the preparation (given or computed amplitudes, phases and frequencies, cut), the filter and the residuals; the total amplitude enters through the time of its peak only |
| C106 | `run` of calls that differ in the reference points only (Spec/Reference) | the constructed object differs in two fields only; one lemma reduces all such calls to one measurement (all zeros, or the same curves), whose second half is characterised by an equivalence |
| C107 | the message when modes are transformed (`frameMessage`), the constructor's messages, `measure_ecc` and the degree search at two levels | relation `Lvl` between the runs carried through `run` |
| C108 | The whole call with `debug_plots` (`Model/Plots`): panels as lists of curves, the average that is computed for the figure, the stored average | the figure is computed explicitly panel by panel (`diagnosticPlots_eq`); everything but the average always succeeds; violation by computed calls |
| C109 | As C108; a figure is the list of its panels with their curves | from `diagnosticPlots_eq` and the curves of C106 |
| C110 | The guard `checkExtrapolated` in the whole call, alignment of mergers, cut before merger | C37 (what is accepted reaches the merger), C20 (what is kept ends before the merger), violation by a computed call |
| C111 | scipy's `find_peaks` (`Model/FindPeaks`): scan for flat tops, filters, priority selection | the scan lists exactly the flat tops (induction over the scan); all later steps take sublists; every comparison and ratio is unchanged under a positive factor |
| C112 | `find_peaks` with `distance` | loop invariant over the peaks by decreasing priority: kept peaks are apart, removed ones are near a kept one of higher priority |
| C113 | `find_peaks` with conditions, `get_good_extrema` | bases and crossings are characterised by uniqueness; the peaks retained are a contiguous part of those found |
| C114 | `find_peaks` on the signal and on its negative | between two maxima the lowest sample is (the middle of) a minimum; violation by a computed signal |
| C115 | scipy's interpolating splines (`Model/Spline`: truncated powers with FITPACK's knots), `interpolate`, `get_interpolant`, the curves through the extrema | uniqueness by counting zeros of the derivatives of a spline (Rolle) for increasing nodes with Schoenberg-Whitney knots; existence from uniqueness by dimension; any piecewise polynomial with one derivative less than its order is a sum of truncated powers |
| C116 | scipy's `PchipInterpolator` | the Hermite cubic with slopes at most three times the secant is monotone (its derivative is a quadratic form without negative values) |
| C117 | `get_omega_gw_average`, `interpolate` in a call with `fref_in` | C89 and C115; order 1 is piecewise linear; violation by a cubic through four points |
| C118 | numpy on modes (`Model/Numpy`): modulus, unwrapped argument, recombination, total amplitude, over the reals and complex numbers | unwrapping: two sequences of phases equal up to turns with small steps differ by a constant; the call by C83 and C102 with a turn that adds whole turns to phases |
| C119 | `run` on one call with `fref_in` and on the same call with `tref_in`; the constructor and the measurement up to the reference times do not depend on which is given | the steps of the first call are replayed for the second: same extrema, same curves, and every time of a frequency passes the test of the range since the first call raises otherwise; `C119_sampled` adds a library that passes through its points (scipy's does, C115) |
| C120 | as C89 for frequencies | if all orbits have one average frequency, the spline through the averages is constant, so no frequency lies from its smallest value on and below its largest |
| C121 | `dlm`, `ylm` of the SEOBNRv4EHM wrapper over ℝ and ℂ (Model/Harmonics) | the sum is a coefficient of (cX+s)^(ℓ+2)(c−sX)^(ℓ−2); the sum rule is the invariance of the form Σ j!(n−j)! a_j b_j under rotations, by induction on the exponents; the reflection is the reversal of the polynomial |
| C122 | `compute_freqInterp` of the EOB wrapper with the modelled `np.unwrap` and spline | C118 gives the unwrapped angles up to whole turns; C115 the derivative of the spline; polynomials are splines |
| C123 | `compute_eccentricity` with the modelled splines, in whole calls for times | the arctangent is an arccosine, smooth strictly between −1 and 1; C106's single measurement behind all calls, with the splines of C115; for the mean anomaly, waiting is moving the pericenters (C88) |

## Findings

Disagreements between code and documentation (or between what a user would expect and what happens) found while modelling.
Each is proved as a theorem about the model; the line numbers are in the comments of the model.

Caller's data

* `omegalm` given by the caller is truncated in place: `C21_omegalm_violation`.
* The caller's dictionary gains `hlm` when a precessing waveform is given as amplitudes and phases: `C21_hlm_violation`; a second
  call then sees both descriptions: `C22_hlm_violation`.
* A phase that moves by exactly half a turn between two samples is unwrapped either way, so the phase, and what is measured from
  it, may depend on the phase convention of the modes: `C102_half_turn_needed`, `C118_half_turn_needed`.
* The fits methods shift the time array in place and leave it shifted if the search raises: `C40_exception_violation`,
  `C22_fits_violation`.
* Both waveforms given as amplitudes and phases: the quasicircular one is not rotated: `C48_zeroecc_violation`.  `precessing` is
  compared by identity with `True`: `C48_flag_violation`.

* Misspelt members of `kwargs_for_fits_methods` (methods without fits) and of `filter_kwargs` (systems that do not precess) are
  accepted in silence: `C80_fits_violation`, `C80_filter_violation`, `C80_accepted_violation`.
* Time steps are compared with an absolute tolerance: a waveform rejected for uneven steps is accepted in a larger unit of time:
  `C85_steps_violation`.  `AmplitudeFits` refines extrema in an interval of length 0.05 divided by a dimensionless amplitude:
  `C85_refine_violation`.  `FrequencyFits` stops at an absolute tolerance of its frequencies: `C85_tolerance_violation`.
* The advance `alpha` of the filter's segments is not checked; zero (or anything that does not advance) makes a
  precessing call loop for ever: `C86_advance_violation`.
* The caller's `extra_kwargs` gains the completed `filter_kwargs` for precessing systems: `C84_violation`.

Extrema

* The gap at the start found by the jump rule is retained: `C24_start_violation`; the example in the documentation of the rule for
  close extrema does not hold at the start: `C25_start_violation`.
* Coinciding pericenter and apocenter pass the check for alternation: `C27_coincident`.
* A search by fits skips an extremum exactly at the reference sample: `C39_may_skip`.  Data after merger always raise:
  `C41_postmerger_violation`.  The trend used for segments depends on the origin of time: `C41_origin_violation`,
  `C36_origin_violation`.
* The width demanded of peaks is a quarter of the samples of the last orbit. Narrower maxima are dropped while the broad minima
  beside them are kept, so pericenters and apocenters need not alternate (`C114_need_not_alternate`). Peaks at pericenter get narrower
  with eccentricity; for a Newtonian orbit they fall below a quarter of an orbit from eccentricity of about 0.35 on.
* Above eccentricity 6/7 the amplitude of a Newtonian binary has a strict local maximum at apocenter, so `Amplitude` does not find
  the apsides there: `C79_amplitude_violation`.
* Segments: unordered references `C36_unsorted_violation`, last sample dropped `C36_last_sample_violation`.

Fits and averages

* `debug_level=2` cannot be used at all for precessing systems in the inertial frame: the (unimportant) message that the modes are being transformed is turned into an exception like any other (`C107_strict_inertial`).
* `debug_level=2` cannot be used with reference frequencies and `use_only_these_many_orbits` together either: the (unimportant) message of `get_fref_bounds` about that option is turned into an exception (`C107_strict_frequencies`).
* At `debug_level` 2 the search for the degrees of a rational fit raises whenever it lowers a degree, gives up a raised degree or falls back to a spline, since it announces each of these. So with `omega_gw_extrema_interpolation_method="rational_fit"` a call that works at the default level can fail at level 2 although nothing is wrong with the data (`C31_strict` is the one way through).
* Evaluation and construction of the Arnoldi basis disagree at a norm of exactly 1e-14: `C33_threshold`.
* A failure of the SVD in the first iteration surfaces as another exception: `C34_first_failure`.
* The degrees found for one kind of extrema are the start for the other kind and for the next measurement, so that a second
  measurement on the same object can use other fits: `C68_fits_violation`.
* The largest reference frequency allowed according to the documentation is refused: `C09_upper_bound_refused`.
* `get_fref_bounds` ignores the method once an average is stored: `C30_history`.
* The time of a reference frequency is read off a cubic spline through the samples of the average frequency. Although these
  samples increase, the spline need not: a higher frequency can get an earlier time, even one outside the two samples between which
  the frequency lies (`C117_violated`). The message about it is only shown at debug level 1. With order 1 it cannot happen.
* `interpolate` lets points up to 1e-10 outside the nodes pass its check, but the spline (`ext=2`) raises for them anyway:
  `C115_outside`.
* `debug_plots=True` can make a call fail that returns without it: for reference times the figure needs the average frequency, and its
  computation raises if the average over orbits does not increase or the averaging method is unknown or lacks its data:
  `C108_violation`.  Afterwards `get_fref_bounds(method)` ignores the method: `C108_bounds_violation`.
* The panels of the residuals are never drawn and the exception "tref_out is in extrapolated region" is never raised, because both test
  for `hlm_zeroecc` in the processed dictionary, which never has it: `C109_residual_violation`, `C110_violation`.

Filter

* With `num_orbits_to_exclude_before_merger=None`, documented as using the whole waveform and recommended for waveforms without a merger, every call for a precessing system raises ValueError: the power law that the filter fits is not finite at and after the merger time (`C95_merger_violation`).
* Taper width 0: `C42_zero_width_violation`; negative spin estimate: `C43_negative_violation`; modes without asymmetry raise even
  if the filter is switched off: `C45_symmetric_violation`; padding length 0: `C45_no_padding_violation`; first and last sample:
  `C44_ends`.

Loading

* The mean anomaly given to the LAL loader is ignored: `C62_ignored_violation`.
* NR partner waveform: negative slice start `C61_short_violation`, `C61_late_violation`; no mean anomaly in LVCNR files
  `C61_mean_anomaly_violation`, `C97_lvcnr_anomaly_violation`; unbounded retries `C69_diverges`.
* EMRI loader without end time: `C72_default_violation`; made-up path of the circular waveform when the directory's name contains `e0`:
  `C97_emri_path_violation`, `C97_emri_directory_violation`.
* What `load_h22_from_EOBfile` returns is refused by every call of `measure_eccentricity`, because it has arrays where dictionaries of modes are expected (`C97_h22_violation`); the circular waveform gets the times of the eccentric one (`C97_h22`).
* `truncate_waveform_by_flow` always raises: `C64_never_violation`.
* `compare_methods`: mean anomalies on different branches: `C63_wrap_violation`.
* `download_sxs_waveform` skips every file that exists. A transfer that writes to its destination and is killed leaves a fragment that all later calls take for the file (`C99_fragment_violation`); asking for another release after an interruption mixes the files of the two (`C99_release_violation`); an unknown simulation raises only after its directory was made (`C99_unknown`).
* The option `metadata_path` of the SXS loaders is never read (`C100_metadata_path_violation`). In a new format directory that also holds `metadata.txt` the memory is computed with the relaxation time in `metadata.json`, but the parameters come from `metadata.txt` (`C100_two_metadata_violation`).
* If the orbital phase in the horizon data decreases (clockwise orbits), the time taken by the orbits to be removed is found to be zero, and nothing is removed (`C100_clockwise_violation`).
* `teob_data_dict_generator` unwraps the backward phase from its far end: if the model's phase is wrapped, the joined phase jumps by a multiple of 2 pi (`C101_jump_violation`).
* `get_modes` of SEOBNRv4EHM keeps modes in files named with `int(1/delta_t)`: another step with the same whole number of samples per second returns the old waveform (`C101_step_violation`), and an interrupted save makes all later calls raise (`C101_unfinished_violation`).

Postprocessing

* `PostProcessForBilby`: with `parameter_columns` that do not include `minimum_frequency`, and an injection file without it, everything about the injection raises `KeyError`, although the posterior file has the value (`C98_minimum_frequency`). The class measures with the method `Amplitude` by default, the command line program with `AmplitudeFits`, so the same posterior gives different values by default.
* The checkpoint does not record the configuration: a run with another method, reference frequency or posterior in the same
  directory silently takes over the old lines (`C91_checkpoint_reused`, `C91_other_configuration_violation`).
* A posterior with a column `status` makes the program raise `KeyError` after all samples have been computed
  (`C92_status_violation`); a column `egw` comes out as `egw_x` and the measured one as `egw_y` (`C92_egw_violation`).
* Duplicate samples `C49_duplicates_differ`, `C54_duplicates_violation`; another selection overwrites the checkpoint
  `C53_other_selection_violation`; the checkpoint is not written atomically `C51_write_violation`; an invalid selection leaves the
  workers waiting `C50_failed_master_violation`; a batch size of zero is accepted and no run ends
  `C50_batch_size_zero_violation`; with a negative one the last samples are never handed out and workers are sent empty batches for
  ever `C50_negative_batch_violation`; equal labels `C55_duplicate_labels_violation`; empty common frequency range
  `C56_may_be_empty`.

Seen while reading, with no theorem

* The `verbose` entry a user puts in the options of the rational fit is overwritten by the debug level (eccDefinition.py 1219).
* The harmonics of `seobnrv4ehm.py` use `np.math`, which newer versions of numpy do not have.

## Tests of the theorems

`seeded/LOG.jsonl` records edits of the model, made in a scratch copy, with the theorems that stopped proving
(`theorems_failed`), the property theorems that rest on those (`claims_failed`), and the theorems tightened because of an edit
that went unnoticed. An edit that leaves its claim true is logged with the claim "none". Edits made by a script were not chosen for
a claim, and for them only the first failure was looked for. Where the harness gave up part of the way, the line says so.
An edit that does not typecheck is not logged.
