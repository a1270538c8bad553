import Verif.Model.SpinFilter
import Mathlib.Analysis.SpecialFunctions.Pow.Real

/-!
# The fit of the secular trend in the spin filter

Python source: `gw_eccentricity/spin_filter.py` 66-143.  Parameters: numpy's power of floats (`npPow` over the reals) and the
iteration of scipy's `least_squares`.
-/

namespace GwEcc.Filter

section
variable {K : Type} [Field K] [LinearOrder K]

/-- spin_filter.py 66-94 `_pn_model` at one time: `A * (t_merger - t)**power`; `pow` gives the power if it is finite (nothing
for inf and nan, which a product does not make finite). -/
def pnModel (pow : K → K → Option K) (t tMerger A power : K) : Option K := (pow (tMerger - t) power).map (A * ·)

/-- spin_filter.py 131: the exponent of the leading post-Newtonian order. -/
def Kind.power : Kind → K
  | .omega => -(3 / 8)
  | .amp => -(1 / 4)

/-- spin_filter.py 134-137: the residuals for parameters `(t_merger, A, power)`; nothing unless all are finite. -/
def trendResiduals (pow : K → K → Option K) (t x : List K) (q : K × K × K) : Option (List K) :=
  ((t.zip x).map fun s => (pnModel pow s.1 q.1 q.2.1 q.2.2).map fun m => s.2 - m).mapM id

/-- `scipy.optimize.least_squares(fun, x0)`: residuals that are not finite at the start raise ValueError; the iteration is the
parameter `iterate`. -/
def leastSquares (iterate : (K × K × K → Option (List K)) → K × K × K → Py (K × K × K))
    (f : K × K × K → Option (List K)) (x0 : K × K × K) : Py (K × K × K) :=
  match f x0 with
  | none => .error .valueError
  | some _ => iterate f x0

/-- spin_filter.py 97-143 `_pn_fit_for_secular_trend`.  The shapes of `t` and `x` must agree (numpy raises ValueError), and no
data give a start that is nan (scipy raises ValueError).  The result is evaluated only at the times of the fit (185, 552); where the model is not
finite the function returned here is zero. -/
def trendFit (pow : K → K → Option K) (iterate : (K × K × K → Option (List K)) → K × K × K → Py (K × K × K))
    (t x : List K) (kind : Kind) (tMerger : K) : Py (K → K) :=
  if t.length = x.length ∧ x ≠ [] then do
    let q ← leastSquares iterate (trendResiduals pow t x) (tMerger, x.sum / x.length, kind.power)
    pure fun s => (pnModel pow s q.1 q.2.1 q.2.2).getD 0
  else .error .valueError

end

/-- numpy's `b**p` for floats, if it is finite: nothing for a negative base with an exponent that is not an integer (nan) and
for zero with a negative exponent (inf). -/
noncomputable def npPow (b p : ℝ) : Option ℝ :=
  if 0 < b then some (b ^ p)
  else if b = 0 then (if 0 < p then some 0 else if p = 0 then some 1 else none)
  else if (⌊p⌋ : ℝ) = p then some (b ^ ⌊p⌋)
  else none

end GwEcc.Filter
