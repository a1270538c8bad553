import Mathlib.Analysis.SpecialFunctions.Complex.Arg
import Mathlib.Analysis.SpecialFunctions.Sqrt

/-!
# Model of the eccentricity formula

Python source: `gw_eccentricity/eccDefinition.py`.
Exact real arithmetic stands for floating point.
-/

namespace GwEcc

noncomputable section

/-- `np.arctan2(y, x)`.  numpy: the angle of the point `(x, y)`, in `(-π, π]`, with
`arctan2(0, 0) = 0`.  (Signed zeros are not modelled.) -/
def arctan2 (y x : ℝ) : ℝ := Complex.arg ⟨x, y⟩

/-- `eccDefinition.et_from_ew22_0pn`, eccDefinition.py 2540-2556. -/
def etFromEw22 (ew22 : ℝ) : ℝ :=
  let psi := arctan2 (1 - ew22 * ew22) (2 * ew22)
  Real.cos (psi / 3) - Real.sqrt 3 * Real.sin (psi / 3)

/-- `e_omega_gw` from the two interpolant values, eccDefinition.py 2580-2583.
`np.sqrt` of a negative number is NaN in Python and `0` here, and `0/0` is NaN in Python and `0`
here: theorems carry `0 ≤ wa`, `0 < wp`. -/
def eOmega (wp wa : ℝ) : ℝ :=
  (Real.sqrt wp - Real.sqrt wa) / (Real.sqrt wp + Real.sqrt wa)

/-- Value returned by `eccDefinition.compute_eccentricity` at one time, given the values `wp`, `wa` of
the two interpolants there (2578-2585).  The range check of line 2576 is modelled in `Measure`. -/
def eccFromOmega (wp wa : ℝ) : ℝ := etFromEw22 (eOmega wp wa)

end

end GwEcc
