import Verif.Model.RationalDegree
import Mathlib.Algebra.BigOperators.Group.Finset.Basic
import Mathlib.Data.Finset.Lattice.Fold
import Mathlib.Data.Fintype.Basic
import Mathlib.Algebra.Order.Group.Abs

/-!
# Model of `gw_eccentricity/rational_fit.py`

Data points are indexed by a finite type `ι`; arrays over the points are functions `ι → K`.  `np.linalg.norm` is a
parameter `nrm`.  A matrix is a function of its column (for bases) or of row and column (for `H`); entries that
numpy leaves at the initial zero are zero here.
-/

namespace GwEcc

open Finset

variable {K ι : Type} [Field K] [LinearOrder K] [Fintype ι]

/-- The arrays `V` (column `k` is `V k`), `H` and the flag recording that the loop was left by `break`. -/
structure Arnoldi (K ι : Type) where
  V : ℕ → ι → K
  H : ℕ → ℕ → K
  stopped : Bool

/-- rational_fit.py 60, 62: projections of `v` on the first `k+1` columns. -/
def proj (V : ℕ → ι → K) (v : ι → K) (j : ℕ) : K := ∑ i, V j i * v i

/-- rational_fit.py 62: `v -= V[:, :k+1] @ h`. -/
def subProj (V : ℕ → ι → K) (k : ℕ) (v : ι → K) (h : ℕ → K) : ι → K :=
  fun i => v i - ∑ j ∈ range (k + 1), V j i * h j

/-- rational_fit.py 51-70: the body of the loop for column `k`; `eps` is `1e-14`. -/
def arnoldiStep (nrm : (ι → K) → K) (eps : K) (x : ι → K) (s : Arnoldi K ι) (k : ℕ) : Arnoldi K ι :=
  if s.stopped then s
  else
    let v0 : ι → K := fun i => s.V k i * x i
    let h1 := proj s.V v0
    let v1 := subProj s.V k v0 h1
    let h2 := proj s.V v1
    let v2 := subProj s.V k v1 h2
    let nv := nrm v2
    let H' : ℕ → ℕ → K := fun j c =>
      if c = k then (if j ≤ k then s.H j c + h1 j + h2 j else if j = k + 1 then nv else s.H j c) else s.H j c
    if nv > eps then
      ⟨fun c => if c = k + 1 then fun i => v2 i / nv else s.V c, H', false⟩
    else ⟨s.V, H', true⟩

/-- rational_fit.py 43-49: the arrays before the loop. -/
def arnoldiInit (nrm : (ι → K) → K) (w : ι → K) : Arnoldi K ι :=
  ⟨fun c => if c = 0 then fun i => w i / nrm w else fun _ => 0, fun _ _ => 0, false⟩

/-- rational_fit.py 12-72 `_arnoldi_basis(x, degree, w)`; the third returned value `v0_norm` is `nrm w`. -/
def arnoldiBasis (nrm : (ι → K) → K) (eps : K) (x : ι → K) (degree : ℕ) (w : ι → K) : Arnoldi K ι :=
  (List.range degree).foldl (arnoldiStep nrm eps x) (arnoldiInit nrm w)

/-- rational_fit.py 106-111: the body of the loop of `_eval_arnoldi_basis` at one point `x`. -/
def evalStep (eps : K) (H : ℕ → ℕ → K) (x : K) (s : (ℕ → K) × Bool) (k : ℕ) : (ℕ → K) × Bool :=
  if s.2 then s
  else
    let v := s.1 k * x - ∑ j ∈ range (k + 1), s.1 j * H j k
    if H (k + 1) k < eps then (s.1, true)
    else (fun c => if c = k + 1 then v / H (k + 1) k else s.1 c, false)

/-- rational_fit.py 75-112 `_eval_arnoldi_basis`, for one point (each row of the returned matrix depends on one point
only; the loop is left for all points at once, since the condition does not depend on the point). -/
def evalArnoldi (eps : K) (x : K) (H : ℕ → ℕ → K) (degree : ℕ) (v0 : K) : ℕ → K :=
  ((List.range degree).foldl (evalStep eps H x) (fun c => if c = 0 then 1 / v0 else 0, false)).1

/-- `V[:, :d+1] @ c` at one point. -/
def combine (V : ℕ → K) (d : ℕ) (c : ℕ → K) : K := ∑ j ∈ range (d + 1), V j * c j

/-- rational_fit.py 168-170 `_scale_x`. -/
def scaleX (xMin xMax x : K) : K := (x - xMin) / (xMax - xMin) * 2 - 1

/-- rational_fit.py 345-353: one entry of the history.  `r` (the approximation at the nodes) and `q` are not stored by
the code; they are kept here to state what the entry is. -/
structure Iterate (K ι : Type) where
  a : ℕ → K
  b : ℕ → K
  v0 : K
  H : ℕ → ℕ → K
  resNorm : K
  deltaFit : K
  r : ι → K

/-- rational_fit.py 317-364: one iteration with weight `1/q`.  `solve P Q` stands for `_solve_using_varpro` on the
data, with the basis columns as argument; it returns the coefficients or raises `LinAlgError`. -/
def skIterate (nrm : (ι → K) → K) (eps : K) (xs y : ι → K) (m n : ℕ)
    (solve : (ℕ → ι → K) → Py ((ℕ → K) × (ℕ → K))) (q rOld : ι → K) : Py (Iterate K ι × (ι → K)) :=
  let w : ι → K := fun i => 1 / q i
  let B := arnoldiBasis nrm eps xs (max m n) w
  match solve B.V with
  | .error e => .error e
  | .ok (a, b) =>
    let Qb : ι → K := fun i => combine (fun j => B.V j i) n b
    let q' : ι → K := fun i => |q i * Qb i|
    let q'' : ι → K := fun i => if q' i = 0 then 1 else q' i
    let p : ι → K := fun i => combine (fun j => B.V j i) m a
    let r : ι → K := fun i => p i / Qb i
    .ok (⟨a, b, nrm w, B.H, nrm (fun i => r i - y i), nrm (fun i => r i - rOld i), r⟩, q'')

/-- rational_fit.py 316-364: the iterations.  `LinAlgError` stops the loop (327-330), any other exception propagates,
and the loop is left when the change is below `tol`.  Returns the history. -/
def skLoop (nrm : (ι → K) → K) (eps tol : K) (xs y : ι → K) (m n : ℕ)
    (solve : (ℕ → ι → K) → Py ((ℕ → K) × (ℕ → K))) :
    ℕ → (q rOld : ι → K) → List (Iterate K ι) → Py (List (Iterate K ι))
  | 0, _, _, hist => .ok hist
  | left + 1, q, rOld, hist =>
    match skIterate nrm eps xs y m n solve q rOld with
    | .error .linAlgError => .ok hist
    | .error e => .error e
    | .ok (it, q') =>
      if it.deltaFit < tol then .ok (hist ++ [it])
      else skLoop nrm eps tol xs y m n solve left q' it.r (hist ++ [it])

/-- `min(history, key=lambda h: h["res_norm"])` for a nonempty list: the first minimum. -/
def bestOf : Iterate K ι → List (Iterate K ι) → Iterate K ι
  | h, [] => h
  | h, h' :: l => if h'.resNorm < h.resNorm then bestOf h' l else bestOf h l

/-- A fitted `RationalFit`. -/
structure Fitted (K ι : Type) where
  m : ℕ
  n : ℕ
  xMin : K
  xMax : K
  best : Iterate K ι
  history : List (Iterate K ι)

/-- rational_fit.py 230-267 and 269-373: `RationalFit(x, y, (m, n)).fit(max_iterations, tol)`.  `min([])` is a
`ValueError`.  Empty data (`np.min` raises) and negative degrees (`ValueError`, 252) cannot be expressed by the types;
the warning at 256 is not modelled. -/
def rationalFit [Nonempty ι] (nrm : (ι → K) → K) (eps tol : K) (x y : ι → K) (m n : ℕ)
    (solve : (ℕ → ι → K) → Py ((ℕ → K) × (ℕ → K))) (maxIterations : ℕ) : Py (Fitted K ι) :=
  let xMin := univ.inf' univ_nonempty x
  let xMax := univ.sup' univ_nonempty x
  match skLoop nrm eps tol (fun i => scaleX xMin xMax (x i)) y m n solve maxIterations
      (fun _ => 1) (fun _ => 0) [] with
  | .error e => .error e
  | .ok [] => .error .valueError
  | .ok (h :: l) => .ok ⟨m, n, xMin, xMax, bestOf h l, h :: l⟩

/-- rational_fit.py 396-407, 410: the numerator `p` at a new point. -/
def Fitted.numerator (eps : K) (f : Fitted K ι) (x : K) : K :=
  combine (evalArnoldi eps (scaleX f.xMin f.xMax x) f.best.H (max f.m f.n) f.best.v0) f.m f.best.a

/-- rational_fit.py 396-407, 411: the denominator `q` at a new point. -/
def Fitted.denominator (eps : K) (f : Fitted K ι) (x : K) : K :=
  combine (evalArnoldi eps (scaleX f.xMin f.xMax x) f.best.H (max f.m f.n) f.best.v0) f.n f.best.b

/-- rational_fit.py 375-416 `predict` at one point (the warning outside the training range is not modelled; a vanishing
denominator, `inf` or `nan` in numpy, is an error here). -/
def Fitted.predict (eps : K) (f : Fitted K ι) (x : K) : Py K :=
  if f.denominator eps x = 0 then .error .zeroDivisionError
  else .ok (f.numerator eps x / f.denominator eps x)

end GwEcc
