import Mathlib.Data.Int.Init

/-!
# Specification vocabulary for the choice of degrees
-/

namespace GwEcc.Spec

/-- The data determine a fit with numerator degree `m` and denominator degree `n`: there are more points than
free parameters (`m + n + 1`). -/
def Determined (d : ℤ × ℤ) (nPoints : ℕ) : Prop := d.1 + d.2 + 1 < nPoints

/-- Both degrees lowered by one, but not below one. -/
def lowered (d : ℤ × ℤ) : ℤ × ℤ := (max (d.1 - 1) 1, max (d.2 - 1) 1)

/-- Both degrees raised by `k`. -/
def raisedBy (k : ℕ) (d : ℤ × ℤ) : ℤ × ℤ := (d.1 + k, d.2 + k)

end GwEcc.Spec
