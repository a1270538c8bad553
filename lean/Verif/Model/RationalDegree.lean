import Verif.Model.Utils
import Verif.Loop

/-!
# Model of the choice of degrees of the rational fit

`gw_eccentricity/rational_fit.py` 173-211 and `gw_eccentricity/eccDefinition.py` 1535-1710.
-/

namespace GwEcc

/-- (numerator degree, denominator degree). -/
abbrev Degrees := ℤ × ℤ

/-- rational_fit.py 173-175 `is_underdetermined`. -/
def isUnderdetermined (d : Degrees) (nPoints : ℤ) : Bool := decide (d.1 + d.2 + 1 ≥ nPoints)

/-- rational_fit.py 200-209: one pass of the `while` loop of `get_reduced_degrees`.  The state is
`(m, n, reduce_denom)`. -/
def reduceStep (nPoints : ℤ) (s : ℤ × ℤ × Bool) : (ℤ × ℤ × Bool) ⊕ Py Degrees :=
  let (m, n, reduceDenom) := s
  if isUnderdetermined (m, n) nPoints then
    if m ≤ 0 ∧ n ≤ 0 then .inr (.error .valueError)
    else if reduceDenom ∧ n > 0 then .inl (m, n - 1, !reduceDenom)
    else if m > 0 then .inl (m - 1, n, !reduceDenom)
    else .inl (m, n, !reduceDenom)
  else .inr (.ok (m, n))

/-- rational_fit.py 178-211 `get_reduced_degrees`, run for at most `fuel` passes of its loop. -/
def getReducedDegrees (fuel : ℕ) (d : Degrees) (nPoints : ℤ) : Option (Py Degrees) :=
  runLoop (reduceStep nPoints) fuel (d.1, d.2, true)

/-- eccDefinition.py 1663-1691 `get_approximate_degree_for_rational_fit`. -/
def approximateDegree (numPericenters numApocenters : ℕ) : Degrees :=
  let approxTotalNumOrbits := max numPericenters numApocenters
  if approxTotalNumOrbits ≤ 20 then (3, 3)
  else if approxTotalNumOrbits ≤ 40 then (4, 4)
  else if approxTotalNumOrbits ≤ 60 then (5, 5)
  else (6, 6)

section gradient

variable {K : Type} [Field K] [LinearOrder K]

/-- The central differences of `np.gradient`: `(y[i+1] - y[i-1]) / (2 dx)` for the interior points. -/
def centralDiffs (dx : K) : List K → List K
  | a :: b :: c :: l => (c - a) / (2 * dx) :: centralDiffs dx (b :: c :: l)
  | _ => []

/-- `np.gradient(y, dx)`: one sided differences at the two ends, central differences inside; numpy raises
`ValueError` for fewer than two points. -/
def npGradient (dx : K) (y : List K) : Py (List K) :=
  match y with
  | a :: b :: l =>
    let last := (b :: l).getLast (by simp)
    let prev := (a :: b :: l).dropLast.getLast (by simp)
    .ok ((b - a) / dx :: centralDiffs dx y ++ [(last - prev) / dx])
  | _ => .error .valueError

/-- eccDefinition.py 1704-1708 for one pair of consecutive derivatives `g0, g1`: is the ratio `g1/g0`, after the
tolerance has been applied, below one?  A division by (positive) zero follows IEEE: `g1/0` is `-inf` (below one) for
negative `g1`, `+inf` or `nan` (not below one) otherwise. -/
def ratioBelowOne (tol g0 g1 : K) : Bool :=
  if g0 = 0 then decide (g1 < 0)
  else
    let ratio := g1 / g0
    if |1 - ratio| < tol then false else decide (ratio < 1)

/-- `any` over consecutive pairs. -/
def anyConsecutive (p : K → K → Bool) : List K → Bool
  | a :: b :: l => p a b || anyConsecutive p (b :: l)
  | _ => false

/-- eccDefinition.py 1693-1710 `check_if_first_derivative_is_not_strictly_monotonic`; `x[1] - x[0]` raises
`IndexError` for fewer than two points. -/
def notStrictlyMonotonic (x y : List K) (tol : K) : Py Bool := do
  let x1 ← pyGet x 1
  let x0 ← pyGet x 0
  let g ← npGradient (x1 - x0) y
  pure (anyConsecutive (ratioBelowOne tol) g)

end gradient

section search

variable {F S : Type}

/-- What the degree search returns: a rational fit, or the spline it falls back to. -/
inductive Interpolant (F S : Type)
  | rational (f : F)
  | spline (s : S)
  deriving DecidableEq

/-- What the degree search leaves behind: the interpolant, `kwargs["degrees"]` (persisted to
`special_interp_kwargs_for_omega_gw_extrema` and `rational_fit_degrees[data_name]`) and
`rational_fit_nonmonotonicity_history[data_name]`. -/
structure SearchResult (F S : Type) where
  interpolant : Interpolant F S
  degrees : Option Degrees
  history : Dict Degrees Bool
  deriving DecidableEq

/-- eccDefinition.py 1580-1583, 1614-1617, 1635-1639: fit with the given degrees and check the derivative on the test
points.  `fit` stands for `get_rational_fit` on the data, `nonmono` for
`check_if_first_derivative_is_not_strictly_monotonic(x_test, fit(x_test), 1.0)`. -/
def fitAndCheck (fit : Degrees → Py F) (nonmono : F → Py Bool) (d : Degrees) : Py (F × Bool) := do
  let f ← fit d
  let b ← nonmono f
  pure (f, b)

/-- eccDefinition.py 1587-1617: one pass of the loop lowering the degrees.  The state is `kwargs["degrees"]` and the
history; the loop is entered only with a nonmonotonic fit. -/
def lowerStep (fit : Degrees → Py F) (nonmono : F → Py Bool) (spline : Py S)
    (s : Degrees × Dict Degrees Bool) : (Degrees × Dict Degrees Bool) ⊕ Py (SearchResult F S) :=
  let ((m, n), hist) := s
  if m ≤ 1 ∧ n ≤ 1 then
    .inr (spline.map fun sp => ⟨.spline sp, none, hist⟩)
  else
    let d : Degrees := (max (m - 1) 1, max (n - 1) 1)
    match fitAndCheck fit nonmono d with
    | .error e => .inr (.error e)
    | .ok (_, true) => .inl (d, hist.set d true)
    | .ok (f, false) => .inr (.ok ⟨.rational f, some d, hist.set d false⟩)

/-- eccDefinition.py 1624-1651: one pass of the loop raising the degrees.  The state is the last monotonic fit, its
degrees (equal to `kwargs["degrees"]` at the top of the loop) and the history. -/
def raiseStep (fit : Degrees → Py F) (nonmono : F → Py Bool) (nPoints : ℤ)
    (s : F × Degrees × Dict Degrees Bool) :
    (F × Degrees × Dict Degrees Bool) ⊕ Py (SearchResult F S) :=
  let (lastFit, (m, n), hist) := s
  let d : Degrees := (m + 1, n + 1)
  if isUnderdetermined d nPoints then .inr (.ok ⟨.rational lastFit, some (m, n), hist⟩)
  else
    match fitAndCheck fit nonmono d with
    | .error e => .inr (.error e)
    | .ok (_, true) => .inr (.ok ⟨.rational lastFit, some (m, n), hist.set d true⟩)
    | .ok (f, false) => .inl (f, d, hist.set d false)

/-- eccDefinition.py 1569-1575: the degrees the search starts from. -/
def startDegrees (fuel : ℕ) (requested : Option Degrees) (numPericenters numApocenters : ℕ)
    (nPoints : ℕ) : Option (Py Degrees) :=
  let d := requested.getD (approximateDegree numPericenters numApocenters)
  if isUnderdetermined d nPoints then getReducedDegrees fuel d nPoints else some (.ok d)

/-- `x` after a message, which raises at `debug_level` 2 (utils.py 386-404). -/
def announced {α : Type} (level : ℤ) (important : Bool) (x : Py α) : Py α := do
  let _ ← debugMessage level important
  x

/-- eccDefinition.py 1577-1651: from the first fit on.  Messages are given when the degrees are lowered (1617-1619), when the
search falls back to the spline (1603-1610) and when a raised degree is given up (1647-1650); the second is important. -/
def searchFrom (level : ℤ) (fit : Degrees → Py F) (nonmono : F → Py Bool) (spline : Py S)
    (nPoints : ℕ) (fuel : ℕ) (hist : Dict Degrees Bool) (d : Degrees) :
    Option (Py (SearchResult F S)) :=
  match fitAndCheck fit nonmono d with
  | .error e => some (.error e)
  | .ok (_, true) =>
    runLoop (lowerStep (fun d => announced level false (fit d)) nonmono (announced level true spline)) fuel (d, hist.set d true)
  | .ok (f, false) =>
    runLoop (raiseStep fit (fun f => do
      let b ← nonmono f
      if b then announced level false (pure b) else pure b) nPoints) fuel (f, d, hist.set d false)

/-- eccDefinition.py 1535-1656 `get_rational_fit_for_extrema`.  `requested` is
`special_interp_kwargs_for_omega_gw_extrema["degrees"]` before the call, `hist` the history already recorded for this
data name.  `x_test = np.arange(...)` is inside `nonmono`. -/
def rationalFitForExtrema (level : ℤ) (fit : Degrees → Py F) (nonmono : F → Py Bool) (spline : Py S)
    (nPoints numPericenters numApocenters : ℕ) (requested : Option Degrees) (hist : Dict Degrees Bool)
    (fuel : ℕ) : Option (Py (SearchResult F S)) :=
  match startDegrees fuel requested numPericenters numApocenters nPoints with
  | none => none
  | some (.error e) => some (.error e)
  | some (.ok d) => searchFrom level fit nonmono spline nPoints fuel hist d

/-- One kind of extrema as the search sees it: the fit for given degrees, the check, the spline and the number of points. -/
structure FitData (F S : Type) where
  fit : Degrees → Py F
  nonmono : F → Py Bool
  spline : Py S
  nPoints : ℕ

/-- eccDefinition.py 2401-2404 of one measurement with rational fits: first the pericenters, then the apocenters.  The degrees
found for the one are the degrees the next search starts from, because `special_interp_kwargs_for_omega_gw_extrema` is
overwritten at 1659.  Result: both interpolants and the degrees left for the next measurement on this object. -/
def fitBoth (level : ℤ) (p a : FitData F S) (requested : Option Degrees) (fuel : ℕ) :
    Option (Py (Interpolant F S × Interpolant F S × Option Degrees)) :=
  match rationalFitForExtrema level p.fit p.nonmono p.spline p.nPoints p.nPoints a.nPoints requested [] fuel with
  | none => none
  | some (.error e) => some (.error e)
  | some (.ok rp) =>
    match rationalFitForExtrema level a.fit a.nonmono a.spline a.nPoints p.nPoints a.nPoints rp.degrees [] fuel with
    | none => none
    | some (.error e) => some (.error e)
    | some (.ok ra) => some (.ok (rp.interpolant, ra.interpolant, ra.degrees))

end search

end GwEcc
