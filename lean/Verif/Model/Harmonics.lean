import Verif.Py
import Mathlib.Analysis.SpecialFunctions.Trigonometric.Basic

/-!
# Model of the spin-weighted spherical harmonics of `EccTests/EOBTests/seobnrv4ehm.py`

Numbers are exact.
-/

namespace GwEcc.Gen

/-- `np.math.factorial`; a negative argument raises. -/
def factorial (n : ℤ) : Py ℝ := if n < 0 then .error .valueError else .ok (n.toNat.factorial : ℝ)

/-- `range(a, b)`. -/
def rangeZ (a b : ℤ) : List ℤ := (List.range (b - a).toNat).map fun (i : ℕ) => a + (i : ℤ)

/-- `x ** n` for an integer exponent; a negative power of zero, which numpy takes to be infinite, raises here. -/
noncomputable def intPow (x : ℝ) (n : ℤ) : Py ℝ := if n < 0 ∧ x = 0 then .error .zeroDivisionError else .ok (x ^ n)

/-- seobnrv4ehm.py 35-47: one term of the sum. -/
noncomputable def dlmTerm (ell m : ℤ) (theta : ℝ) (k : ℤ) : Py ℝ := do
  let a ← factorial (ell + m)
  let b ← factorial (ell - m)
  let c ← factorial (ell + 2)
  let d ← factorial (ell - 2)
  let numerator := Real.sqrt (a * b * c * d)
  let p ← factorial (k - m + 2)
  let q ← factorial (ell + m - k)
  let r ← factorial (ell - k - 2)
  let f ← factorial k
  let x ← intPow (Real.cos (theta / 2)) (2 * ell + m - 2 * k - 2)
  let y ← intPow (Real.sin (theta / 2)) (2 * k - m + 2)
  pure ((-1) ^ k / f * (numerator / (p * q * r)) * x * y)

/-- seobnrv4ehm.py 19-48 `dlm`. -/
noncomputable def dlm (ell m : ℤ) (theta : ℝ) : Py ℝ :=
  (rangeZ (max 0 (m - 2)) (min (ell + m) (ell - 2) + 1)).foldlM (fun d k => do
    let x ← dlmTerm ell m theta k
    pure (d + x)) 0

/-- seobnrv4ehm.py 51-67 `ylm`, for `2 * ell + 1 ≥ 0` (otherwise numpy's square root is nan). -/
noncomputable def ylm (ell m : ℤ) (theta phi : ℝ) : Py ℂ := do
  let d ← dlm ell m theta
  pure (Real.sqrt ((2 * ell + 1) / (4 * Real.pi)) * d * Complex.exp (Complex.I * m * phi))

end GwEcc.Gen
