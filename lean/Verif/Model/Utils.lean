import Verif.Py
import Mathlib.Analysis.Complex.Norm
import Mathlib.Analysis.SpecialFunctions.Pow.Real

/-!
# Model of `gw_eccentricity/utils.py`
-/

namespace GwEcc

/-! ## Total amplitude -/

/-- `amplitude_using_all_modes(mode_dict, "hlm")`, utils.py 27-35, at one sample: `modes` lists the values of
the modes at that sample in the iteration order of the dictionary.  The loop `amp += |h|**2` starting from
0 is the left fold.  Simplification: arrays are treated sample by sample (numpy broadcasting of equal-length
arrays); an empty dictionary gives 0, as in the code. -/
noncomputable def ampAllHlm (modes : List ℂ) : ℝ :=
  Real.sqrt (modes.foldl (fun amp h => amp + ‖h‖ ^ 2) 0)

/-- `amplitude_using_all_modes(mode_dict, "amplm")`, utils.py 27-35, at one sample. -/
noncomputable def ampAllAmplm (modes : List ℝ) : ℝ :=
  Real.sqrt (modes.foldl (fun amp a => amp + a ^ 2) 0)

/-! ## Peak time -/

section peak

variable {K : Type} [Field K] [LinearOrder K]

/-- Entries of a symmetric 3×3 matrix built from power sums `S0 … S4` (the Gram matrix of `1, x, x²`)
multiplied into the right-hand side: row by row `invMat · yVec`, utils.py 69-73.  `np.linalg.inv` is modelled by the exact
inverse, written out as adjugate over determinant.  Returns `LinAlgError` if the determinant vanishes. -/
def quadCoefs (S0 S1 S2 S3 S4 y0 y1 y2 : K) : Py (K × K × K) :=
  let det := S0 * (S2 * S4 - S3 * S3) - S1 * (S1 * S4 - S3 * S2) + S2 * (S1 * S3 - S2 * S2)
  if det = 0 then .error .linAlgError
  else
    .ok (((S2 * S4 - S3 * S3) * y0 + (S2 * S3 - S1 * S4) * y1 + (S1 * S3 - S2 * S2) * y2) / det,
      ((S3 * S2 - S1 * S4) * y0 + (S0 * S4 - S2 * S2) * y1 + (S1 * S2 - S0 * S3) * y2) / det,
      ((S1 * S3 - S2 * S2) * y0 + (S2 * S1 - S0 * S3) * y1 + (S0 * S2 - S1 * S1) * y2) / det)

/-- Quadratic least-squares fit through the points `(x, f)`: the vectors `xVecs`, the matrix and `yVec` of utils.py 68-73. -/
def quadFit (pts : List (K × K)) : Py (K × K × K) :=
  let s := fun k : ℕ => (pts.map (fun p => p.1 ^ k)).sum
  let y := fun k : ℕ => (pts.map (fun p => p.2 * p.1 ^ k)).sum
  quadCoefs (s 0) (s 1) (s 2) (s 3) (s 4) (y 0) (y 1) (y 2)

/-- `peak_time_via_quadratic_fit(t, func)`, utils.py 61-75.  Returns `(tpeak, fpeak)`.
Fewer than five samples: the window cannot have five entries and numpy fails to stack it with `np.ones(5)`
(`ValueError`; also `argmax` of an empty array).  Simplification: a vanishing quadratic coefficient gives inf/nan
in numpy; here it is the explicit error `zeroDivisionError`. -/
def peakTime (t func : List K) : Py (K × K) := do
  let index ← argmax func
  let index := max 2 (min (t.length - 3) index)
  if t.length < 5 ∨ func.length ≠ t.length then
    .error .valueError
  else
    let ti := t.getD index 0
    let testTimes := ((t.take (index + 3)).drop (index - 2)).map (fun x => x - ti)
    let testFuncs := (func.take (index + 3)).drop (index - 2)
    let (c0, c1, c2) ← quadFit (testTimes.zip testFuncs)
    if c2 = 0 then .error .zeroDivisionError
    else .ok (ti - c1 / (2 * c2), c0 - c1 ^ 2 / 4 / c2)

end peak

/-! ## Option dictionaries -/

section kwargs

variable {κ V : Type} [DecidableEq κ]

/-- `check_kwargs_and_set_defaults(user_kwargs, default_kwargs)`, utils.py 99-114.  The returned dictionary is the
(mutated) user dictionary itself when one was given; see `Model/DataDict.lean` for the aliasing. -/
def checkKwargs (user : Option (Dict κ V)) (defaults : Dict κ V) : Py (Dict κ V) :=
  let user := user.getD []
  if user.keys.any (fun kw => !defaults.has kw) then .error .valueError
  else
    .ok (defaults.foldl (fun acc p => if acc.has p.1 then acc else acc.set p.1 p.2) user)

/-- `raise_exception_if_none(kwargs, keys_to_check, …)`, utils.py 117-123; values are options, `none` = Python `None`. -/
def raiseIfNone (kwargs : Dict κ (Option V)) : List κ → Py Unit
  | [] => .ok ()
  | kw :: rest => do
    let v ← kwargs.getItem kw
    if v.isNone then .error .exception else raiseIfNone kwargs rest

end kwargs

/-! ## Frequency stencil -/

section deriv

variable {K : Type} [Field K]

/-- `time_deriv_4thOrder(y, dt)`, utils.py 157-168.  With fewer than five samples the product of `y[:5]` (or
the assignment to `res[1]`) raises.  `y.getD i 0` is only evaluated at valid positions. -/
def timeDeriv4 (y : List K) (dt : K) : Py (List K) :=
  if y.length < 5 then .error .valueError
  else
    let n := y.length
    let g := fun i : ℕ => y.getD i 0
    .ok ((List.range n).map fun i =>
      (if i = n - 1 then
          g (n - 5) * (3 / 12) + g (n - 4) * (-16 / 12) + g (n - 3) * (36 / 12) + g (n - 2) * (-48 / 12)
            + g (n - 1) * (25 / 12)
        else if i = n - 2 then
          g (n - 5) * (-1 / 12) + g (n - 4) * (6 / 12) + g (n - 3) * (-18 / 12) + g (n - 2) * (10 / 12)
            + g (n - 1) * (3 / 12)
        else if i = 0 then
          g 0 * (-25 / 12) + g 1 * (48 / 12) + g 2 * (-36 / 12) + g 3 * (16 / 12) + g 4 * (-3 / 12)
        else if i = 1 then
          g 0 * (-3 / 12) + g 1 * (-10 / 12) + g 2 * (18 / 12) + g 3 * (-6 / 12) + g 4 * (1 / 12)
        else
          (g (i - 2) - 8 * g (i - 1) + 8 * g (i + 1) - g (i + 2)) / 12) / dt)

end deriv

/-! ## Interpolation guard -/

section interp

variable {K : Type} [Field K] [LinearOrder K]

/-- The interpolators accepted by `get_interpolant` (utils.py 279, 310, 316). -/
inductive Interpolator | spline | monotonicSpline | other
  deriving DecidableEq

/-- Spline options that matter: order and behaviour outside the nodes (`get_default_spline_kwargs`, 171-179). -/
structure SplineKwargs where
  k : ℕ := 3
  ext : ℕ := 2
  deriving DecidableEq

/-- What `get_interpolant` hands to scipy: the constructor used and its options. -/
inductive InterpCall
  | spline (k ext : ℕ)
  | pchip (extrapolate : Bool)
  deriving DecidableEq

/-- `get_interpolant`, utils.py 276-319.  Result: the scipy call, the caller's `spline_kwargs` object afterwards
(it is the same object unless `k` was lowered) and whether a warning was given. -/
def getInterpolant (oldX : List K) (allowExtrapolation : Bool) (interpolator : Interpolator)
    (kw : SplineKwargs) (splineKwargsGiven : Bool) : Py (InterpCall × SplineKwargs × Bool) :=
  if ¬ (∀ d ∈ diff oldX, 0 < d) then .error .exception
  else match interpolator with
    | .spline =>
      if oldX.length ≥ 2 then
        let lowered := decide (oldX.length ≤ kw.k)
        let kw' := if lowered then { kw with k := oldX.length - 1 } else kw
        let ext := if allowExtrapolation ∧ kw'.ext = 2 then 0 else kw'.ext
        let ext := if ¬ allowExtrapolation ∧ ext ≠ 2 then 2 else ext
        .ok (.spline kw'.k ext, if lowered then kw else { kw with ext := ext }, lowered)
      else .error .exception
    | .monotonicSpline => .ok (.pchip allowExtrapolation, kw, splineKwargsGiven)
    | .other => .error .valueError

/-- Smallest entry, `np.min`; `ValueError` on an empty array. -/
def npMin : List K → Py K
  | [] => .error .valueError
  | a :: l => .ok (l.foldl min a)

/-- Largest entry, `np.max`. -/
def npMax : List K → Py K
  | [] => .error .valueError
  | a :: l => .ok (l.foldl max a)

/-- `interpolate`, utils.py 218-236; `eval` stands for building and evaluating the scipy interpolant.
`tol` is the literal `1e-10` of lines 222-223. -/
def interpolate (tol : K) (eval : InterpCall → List K → List K → K → Py K)
    (newX oldX oldY : List K) (allowExtrapolation : Bool)
    (interpolator : Interpolator) (kw : SplineKwargs) (given : Bool) : Py (List K) := do
  if oldY.length ≠ oldX.length then .error .exception
  else
    if allowExtrapolation then pure ()
    else do
      let mn ← npMin newX
      let mo ← npMin oldX
      let Mn ← npMax newX
      let Mo ← npMax oldX
      if mn < mo - tol ∨ Mn > Mo + tol then .error .exception else pure ()
    let r ← getInterpolant oldX allowExtrapolation interpolator kw given
    newX.mapM (eval r.1 oldX oldY)

end interp

/-! ## Debug messages -/

/-- Observable effect of a debug message. -/
inductive Outcome
  | silent
  | warn (pointsToVerbose : Bool)
  deriving DecidableEq, Repr

/-- `debug_message`, utils.py 386-404. -/
def debugMessage (level : ℤ) (important : Bool := true) (pointToVerbose : Bool := false) : Py Outcome :=
  if level ≠ -1 ∧ level ≠ 0 ∧ level ≠ 1 ∧ level ≠ 2 then .error .valueError
  else if level = -1 then .ok .silent
  else if level = 2 then .error .exception
  else if (level = 0 ∧ important) ∨ level = 1 then
    .ok (.warn (decide (level = 0) && pointToVerbose))
  else .ok .silent

/-! ## Quasicircular fit used to map frequency to time -/

/-- `QusicircularFitForMappingFrequencyToTime.model`, utils.py 427-433; `t0` is the mid time of 421. -/
noncomputable def quasicircularModel (t0 t f0 f1 T : ℝ) : ℝ :=
  let n := -(T - t0) * (f1 / f0)
  let A := f0 * (T - t0) ^ (-n)
  A * (T - t) ^ n

end GwEcc
