import Verif.Model.RationalFit
import Mathlib.Data.Fintype.Card

/-!
# Model of `_solve_using_varpro` and `RationalFit.__call__` (`gw_eccentricity/rational_fit.py`)
-/

namespace GwEcc

open Finset

variable {K ι : Type} [Field K] [LinearOrder K] [Fintype ι]

/-- The factorizations of numpy and scipy.  A matrix with rows indexed by the data points is given by its columns, of which
the first `k` count. -/
structure LinAlg (K ι : Type) where
  /-- `np.linalg.qr(P, mode='reduced')` of a matrix with `k` columns -/
  qr : (ℕ → ι → K) → ℕ → (ℕ → ι → K) × (ℕ → ℕ → K)
  /-- `np.linalg.svd(A, full_matrices=False)[2].T[:, -1]`: the last right singular vector of a matrix with `k` columns;
  `LinAlgError` if it does not converge -/
  svd : (ℕ → ι → K) → ℕ → Py (ℕ → K)
  /-- `scipy.linalg.solve_triangular(R, x)` for a square matrix with `k` columns; `LinAlgError` if it is singular -/
  tri : (ℕ → ℕ → K) → ℕ → (ℕ → K) → Py (ℕ → K)

/-- rational_fit.py 145-149: `A = diag(Y) Q - Q_P (Q_P^T diag(Y) Q)`, column by column; `k` is the number of columns of
`Q_P`. -/
def projected (QP : ℕ → ι → K) (k : ℕ) (y : ι → K) (Q : ℕ → ι → K) : ℕ → ι → K :=
  fun j i => y i * Q j i - ∑ l ∈ range k, QP l i * ∑ i', QP l i' * (y i' * Q j i')

/-- rational_fit.py 115-165 `_solve_using_varpro(V[:, :m+1], V[:, :n+1], Y)`; the condition number (152-153) is not
modelled.  With fewer points than columns of `P` the factor `Q_P` has as many columns as there are points, `R_P` is not
square and scipy raises `ValueError`. -/
def solveVarpro (la : LinAlg K ι) (y : ι → K) (m n : ℕ) (V : ℕ → ι → K) : Py ((ℕ → K) × (ℕ → K)) := do
  let QP := (la.qr V (m + 1)).1
  let R := (la.qr V (m + 1)).2
  let b ← la.svd (projected QP (min (m + 1) (Fintype.card ι)) y V) (n + 1)
  let Qb : ι → K := fun i => combine (fun j => V j i) n b
  let xcoef : ℕ → K := fun l => ∑ i, QP l i * (y i * Qb i)
  if Fintype.card ι < m + 1 then .error .valueError
  else do
    let a ← la.tri R (m + 1) xcoef
    return (a, b)

/-- rational_fit.py 230-373: `RationalFit(x, y, (m, n))` followed by `fit(max_iterations, tol)`, with the linear algebra of
`_solve_using_varpro`. -/
def rationalFitVarpro [Nonempty ι] (la : LinAlg K ι) (nrm : (ι → K) → K) (eps tol : K) (x y : ι → K) (m n : ℕ)
    (maxIterations : ℕ) : Py (Fitted K ι) :=
  rationalFit nrm eps tol x y m n (solveVarpro la y m n) maxIterations

/-- rational_fit.py 418-434 `__call__`: `none` is a `RationalFit` whose `fit` has not been called (or has raised), for which
`self.a` is `None`. -/
def callFit (eps : K) (f : Option (Fitted K ι)) (x : K) : Py K :=
  match f with
  | none => .error .valueError
  | some f => f.predict eps x

end GwEcc
