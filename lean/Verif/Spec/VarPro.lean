import Verif.Model.VarPro

/-!
# What numpy and scipy promise about factorizations
-/

namespace GwEcc

open Finset

variable {K ι : Type} [Field K] [LinearOrder K] [Fintype ι]

/-- The sum of squares over the data points. -/
def sumSq (v : ι → K) : K := ∑ i, v i * v i

/-- The sum of squares of the first `k` entries. -/
def sumSqTo (k : ℕ) (b : ℕ → K) : K := ∑ j ∈ range k, b j * b j

/-- `A b` for a matrix with `k` columns. -/
def applyCols (A : ℕ → ι → K) (k : ℕ) (b : ℕ → K) : ι → K := fun i => ∑ j ∈ range k, A j i * b j

/-- The promises, for exact arithmetic.  The factors of a matrix with no more columns than rows are one with orthonormal
columns and an upper triangular one.  The last right singular vector is a unit vector, and no vector is made relatively
smaller by the matrix; with fewer rows than columns only the singular vectors of the rows are computed and the second
part is not promised.  What is returned for a triangular system is a solution, and one is returned if there is no zero on
the diagonal.  The only failure is `LinAlgError`. -/
structure LinAlg.Sound (la : LinAlg K ι) : Prop where
  ortho : ∀ P k, k ≤ Fintype.card ι → ∀ a < k, ∀ b < k,
    ∑ i, (la.qr P k).1 a i * (la.qr P k).1 b i = if a = b then 1 else 0
  product : ∀ P k, k ≤ Fintype.card ι → ∀ j < k, ∀ i, ∑ l ∈ range k, (la.qr P k).1 l i * (la.qr P k).2 l j = P j i
  upper : ∀ P k, k ≤ Fintype.card ι → ∀ j < k, ∀ l < k, j < l → (la.qr P k).2 l j = 0
  svd_unit : ∀ A k b, la.svd A k = .ok b → sumSqTo k b = 1
  svd_least : ∀ A k b, k ≤ Fintype.card ι → la.svd A k = .ok b →
    ∀ b', sumSq (applyCols A k b) * sumSqTo k b' ≤ sumSq (applyCols A k b')
  svd_error : ∀ A k e, la.svd A k = .error e → e = .linAlgError
  tri_solves : ∀ R k x a, la.tri R k x = .ok a → ∀ l < k, ∑ j ∈ range k, R l j * a j = x l
  tri_succeeds : ∀ R k x, (∀ l < k, ∀ j < l, R l j = 0) → (∀ l < k, R l l ≠ 0) → ∃ a, la.tri R k x = .ok a
  tri_error : ∀ R k x e, la.tri R k x = .error e → e = .linAlgError

/-- The singular value decomposition converges. -/
def LinAlg.Converges (la : LinAlg K ι) : Prop := ∀ A k, 0 < k → ∃ b, la.svd A k = .ok b

end GwEcc
