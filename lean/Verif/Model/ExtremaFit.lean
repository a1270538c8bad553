import Verif.Model.Measure
import Verif.Model.RationalDegree
import Verif.Model.LoadData

/-!
# Model of the rational fits through the frequencies at the extrema

`gw_eccentricity/eccDefinition.py` 1535-1661 `get_rational_fit_for_extrema` on the data of a measurement: the search for the
degrees of `Model/RationalDegree.lean` with the fit, the check and the spline it is used with.
-/

namespace GwEcc

section search

variable {F S : Type}

/-- Passes of the loops that suffice from the degrees `q`. -/
def searchPasses (q : Degrees) (nPoints : ℕ) : ℕ := 4 * (q.1.natAbs + q.2.natAbs) + nPoints + 4

/-- eccDefinition.py 1535-1661 for a new object, which has no history (1222-1226).  The bound on the
number of passes is never reached (`degreeSearch_eq`), so that the exception here is never raised. -/
def degreeSearch (level : ℤ) (d : FitData F S) (nP nA : ℕ) (requested : Option Degrees) : Py (SearchResult F S) :=
  (rationalFitForExtrema level d.fit d.nonmono d.spline d.nPoints nP nA requested []
    (searchPasses (requested.getD (approximateDegree nP nA)) d.nPoints)).getD (.error .exception)

end search

variable {K : Type} [Field K] [LinearOrder K] [FloorRing K]

/-- What the search returns, as a function of time. -/
def Interpolant.fn : Interpolant (K → Py K) (K → Py K) → K → Py K
  | .rational f => f
  | .spline f => f

/-- eccDefinition.py 1580: `np.arange(x[0], x[-1], self.t[1] - self.t[0])`. -/
def testPoints (t x : List K) : Py (List K) := do
  let a ← pyGet x 0
  let b ← pyLast x
  let t1 ← pyGet t 1
  let t0 ← pyGet t 0
  Load.arange a b (t1 - t0)

/-- One kind of extrema, at the times `x` with the frequencies `y`, as the search sees it (eccDefinition.py 1580-1586, 1611);
`rational` is `get_rational_fit` (utils.py 333-356) with the options of the object and the given degrees.  The test points are
computed before the first fit. -/
def extremaData (rational : Degrees → List K → List K → Py (K → Py K)) (eval : InterpCall → List K → List K → K → Py K)
    (t x y : List K) : FitData (K → Py K) (K → Py K) where
  fit := fun d => do
    let _ ← testPoints t x
    rational d x y
  nonmono := fun f => do
    let xs ← testPoints t x
    let ys ← xs.mapM f
    notStrictlyMonotonic xs ys 1
  spline := do
    let r ← getInterpolant x false .spline {} false
    pure (eval r.1 x y)
  nPoints := x.length

/-- eccDefinition.py 1535-1661 `get_rational_fit_for_extrema(x, y, data_name)` for the pericenters at `xP` with frequencies `yP`,
and for the apocenters at `xA` with frequencies `yA`; the search for the apocenters comes after that for the pericenters and
starts from the degrees that one left in `special_interp_kwargs_for_omega_gw_extrema` (1659).  `requested` is what the options
say about the degrees. -/
def extremaFit (rational : Degrees → List K → List K → Py (K → Py K)) (eval : InterpCall → List K → List K → K → Py K)
    (level : ℤ) (requested : Py (Option Degrees)) (t : List K) (ty : ExtType) (xP yP xA yA : List K) : Py (K → Py K) := do
  let q ← requested
  let rP ← degreeSearch level (extremaData rational eval t xP yP) xP.length xA.length q
  match ty with
  | .pericenters => pure rP.interpolant.fn
  | .apocenters => do
    let rA ← degreeSearch level (extremaData rational eval t xA yA) xP.length xA.length rP.degrees
    pure rA.interpolant.fn

end GwEcc
