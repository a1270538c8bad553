import Verif.Model.Numpy
import Verif.Model.Spline

/-!
# Model of `compute_freqInterp` of `EccTests/EOBTests/seobnrv4ehm.py`

Numbers are exact; scipy's spline is the one of `Model/Spline`, `np.unwrap` the one of `Model/Compare`.
-/

namespace GwEcc.Gen

/-- seobnrv4ehm.py 74-80 `compute_freqInterp`: the derivative of the cubic spline through the unwrapped angles.  (The constructor
of the spline may raise; evaluation is at the nodes.) -/
noncomputable def freqInterp (time : List ℝ) (hlm : List ℂ) : Py (List ℝ) := do
  let philm := Compare.unwrap Real.pi (hlm.map Complex.arg)
  let _ ← fitSpline 3 0 time philm
  time.mapM (scipyDeriv (.spline 3 0) time philm)

end GwEcc.Gen
