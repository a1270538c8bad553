import Mathlib.Algebra.Polynomial.Eval.Degree
import Mathlib.Algebra.Polynomial.Derivative
import Verif.Model.Utils

/-!
# Model of the interpolants of scipy used by `get_interpolant`

Python source: `gw_eccentricity/utils.py` 309 (`InterpolatedUnivariateSpline`) and 314 (`PchipInterpolator`), and
`gw_eccentricity/spin_filter.py` 63 (`interp1d` with `kind='cubic'`).  The classes themselves are in scipy
(`scipy/interpolate/_fitpack2.py`, FITPACK's `fpcurf.f`, `scipy/interpolate/_cubic.py`); they are modelled here as far as this code
uses them, in exact arithmetic.  `Libs.eval` and `Libs.deriv` (`Model/Construct.lean`) may be any functions; `scipyEval` and
`scipyDeriv` are those of scipy.
-/

namespace GwEcc

open Polynomial

variable {K : Type} [Field K] [LinearOrder K]

/-- `max(v, 0) ** d`, continuous from the right for `d = 0` (FITPACK looks up the interval by `t[l] <= x < t[l + 1]`). -/
def truncPow (d : ℕ) (v : K) : K := if 0 ≤ v then v ^ d else 0

/-- Interior knots chosen by FITPACK (`fpcurf.f`, interpolation, `s = 0`) for order `k`: the nodes without the first and last
`(k + 1) / 2` for odd `k`, midpoints between nodes for even `k`. -/
def splineKnots (k : ℕ) (x : List K) : List K :=
  (List.range (x.length - k - 1)).map fun l =>
    if k % 2 = 1 then x.getD (l + k / 2 + 1) 0 else (x.getD (l + k / 2 + 1) 0 + x.getD (l + k / 2) 0) / 2

/-- A piecewise polynomial: the polynomial before the first knot, and for each knot the coefficient of the truncated power
added there. -/
structure SplineFn (K : Type) [Field K] where
  poly : K[X]
  jumps : List K

/-- Value of the spline of order `d` with these knots. -/
noncomputable def SplineFn.value (d : ℕ) (knots : List K) (s : SplineFn K) (u : K) : K :=
  s.poly.eval u + (List.zipWith (fun c τ => c * truncPow d (u - τ)) s.jumps knots).sum

/-- The derivative of a spline of order `d + 1`. -/
noncomputable def SplineFn.deriv (d : ℕ) (s : SplineFn K) : SplineFn K := ⟨derivative s.poly, s.jumps.map (((d : K) + 1) * ·)⟩

/-- The linear equations solved by FITPACK: order at most `k`, and the values at the nodes. -/
def SplineFits (k : ℕ) (x y : List K) (s : SplineFn K) : Prop :=
  s.poly.degree ≤ k ∧ s.jumps.length = (splineKnots k x).length ∧
  ∀ p ∈ x.zip y, s.value k (splineKnots k x) p.1 = p.2

open Classical in
/-- `InterpolatedUnivariateSpline(x, y, k=k, ext=ext)`: checks of the arguments (`validate_input`), check of the wrapper that
there are more nodes than the order, solution of the equations.  (`C115_exists`: the equations have exactly one solution.) -/
noncomputable def fitSpline (k ext : ℕ) (x y : List K) : Py (SplineFn K) :=
  if ¬ x.Pairwise (· < ·) then .error .valueError
  else if x.length ≠ y.length then .error .valueError
  else if ¬ (1 ≤ k ∧ k ≤ 5) then .error .valueError
  else if ¬ ext ≤ 3 then .error .valueError
  else if ¬ k < x.length then .error .exception
  else if h : ∃ s, SplineFits k x y s ∧ ∀ s', SplineFits k x y s' → s' = s then .ok h.choose
  else .error .linAlgError

/-- Where a point lies relative to the nodes. -/
inductive Side | before | inside | after
  deriving DecidableEq

/-- The nodes are increasing, so that the first and last ones are the ends. -/
def side (x : List K) (u : K) : Side :=
  if u < x.headD 0 then .before else if x.getLastD 0 < u then .after else .inside

/-- Evaluation of a spline or its derivative, `splev` with `ext`: 0 continues the polynomials at the ends, 1 gives zero, 2 raises,
3 takes the value at the end. -/
def splev (ext : ℕ) (x : List K) (f : K → K) (u : K) : Py K :=
  match ext, side x u with
  | _, .inside => .ok (f u)
  | 0, _ => .ok (f u)
  | 1, _ => .ok 0
  | 2, _ => .error .valueError
  | _, .before => .ok (f (x.headD 0))
  | _, .after => .ok (f (x.getLastD 0))

/-! ### PCHIP -/

/-- `np.sign(a) != np.sign(b)` -/
def signsDiffer (a b : K) : Bool := ! decide ((0 < a ∧ 0 < b) ∨ (a < 0 ∧ b < 0) ∨ (a = 0 ∧ b = 0))

/-- `PchipInterpolator._edge_case` -/
def pchipEdge (h0 h1 m0 m1 : K) : K :=
  let d := ((2 * h0 + h1) * m0 - h0 * m1) / (h0 + h1)
  if signsDiffer d m0 then 0
  else if signsDiffer m0 m1 && decide (3 * |m0| < |d|) then 3 * m0
  else d

/-- The slope at an interior node, from steps and slopes on both sides. -/
def pchipInner (h0 h1 m0 m1 : K) : K :=
  if signsDiffer m1 m0 || decide (m1 = 0) || decide (m0 = 0) then 0
  else
    let w1 := 2 * h1 + h0
    let w2 := h1 + 2 * h0
    1 / ((w1 / m0 + w2 / m1) / (w1 + w2))

/-- `PchipInterpolator._find_derivatives`: the slope at node `i`. -/
def pchipSlope (x y : ℕ → K) (n i : ℕ) : K :=
  let h := fun i => x (i + 1) - x i
  let m := fun i => (y (i + 1) - y i) / h i
  if n = 2 then m 0
  else if i = 0 then pchipEdge (h 0) (h 1) (m 0) (m 1)
  else if i + 1 = n then pchipEdge (h (n - 2)) (h (n - 3)) (m (n - 2)) (m (n - 3))
  else pchipInner (h (i - 1)) (h i) (m (i - 1)) (m i)

/-- `CubicHermiteSpline`: the cubic between two nodes with values `y0`, `y1` and slopes `d0`, `d1`. -/
def hermite (x0 x1 y0 y1 d0 d1 u : K) : K :=
  let h := x1 - x0
  let slope := (y1 - y0) / h
  let t := (d0 + d1 - 2 * slope) / h
  t / h * (u - x0) ^ 3 + ((slope - d0) / h - t) * (u - x0) ^ 2 + d0 * (u - x0) + y0

/-- `PPoly`: the interval used for `u`: the last one that starts at or before `u`, the first if there is none. -/
def pchipInterval (x : List K) (u : K) : ℕ :=
  (((List.range (x.length - 1)).filter fun i => decide (x.getD i 0 ≤ u)).getLastD 0)

/-- Value of the interpolant. -/
def pchipValue (x y : List K) (u : K) : K :=
  let i := pchipInterval x u
  let xs := fun i => x.getD i 0
  let ys := fun i => y.getD i 0
  hermite (xs i) (xs (i + 1)) (ys i) (ys (i + 1)) (pchipSlope xs ys x.length i) (pchipSlope xs ys x.length (i + 1)) u

/-- `PchipInterpolator(x, y, extrapolate=extrapolate)(u)`: checks of `prepare_input`; outside the nodes without extrapolation the
result is nan, here an error. -/
def pchipEval (extrapolate : Bool) (x y : List K) (u : K) : Py K :=
  if ¬ x.Pairwise (· < ·) ∨ x.length < 2 ∨ x.length ≠ y.length then .error .valueError
  else if side x u = .inside ∨ extrapolate = true then .ok (pchipValue x y u)
  else .error .valueError

/-- The interpolant of utils.py 309 or 314, at a point. -/
noncomputable def scipyEval (call : InterpCall) (x y : List K) (u : K) : Py K :=
  match call with
  | .spline k ext => do
    let s ← fitSpline k ext x y
    splev ext x (s.value k (splineKnots k x)) u
  | .pchip extrapolate => pchipEval extrapolate x y u

/-- The derivative of eccDefinition.py 2614 at a point (`UnivariateSpline.derivative`; values held constant outside have derivative
zero).  The derivative of the PCHIP interpolant is never asked for. -/
noncomputable def scipyDeriv (call : InterpCall) (x y : List K) (u : K) : Py K :=
  match call with
  | .spline k ext => do
    let s ← fitSpline k ext x y
    splev (if ext = 3 then 1 else ext) x ((s.deriv (k - 1)).value (k - 1) (splineKnots k x)) u
  | .pchip _ => .error .attributeError

/-- spin_filter.py 63: `interp1d(x, y, kind='cubic', fill_value='extrapolate')`, the spline of order 3 with the same knots
(`make_interp_spline`).  The nodes are sorted by `interp1d`; here they are increasing already, because they are midpoints of
increasing times. -/
noncomputable def interp1dCubic (x y : List K) : Py (K → K) :=
  if x.length < 4 then .error .valueError
  else do
    let s ← fitSpline 3 0 x y
    pure (s.value 3 (splineKnots 3 x))

end GwEcc
