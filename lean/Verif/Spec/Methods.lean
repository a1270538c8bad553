import Mathlib.Algebra.Order.Field.Basic

/-!
# Small specification for C38
-/

namespace GwEcc.Spec

variable {K : Type} [LinearOrder K]

/-- Sample `i` is inside the data, not smaller than its neighbours, and larger than the nearest different samples on
either side (flat tops are allowed). -/
def LocalMax (l : List K) (i : ℕ) : Prop :=
  ∃ x, l[i]? = some x ∧ ∃ j k, j < i ∧ i < k ∧ (∃ y, l[j]? = some y ∧ y < x) ∧ (∃ y, l[k]? = some y ∧ y < x) ∧
    ∀ n, j < n → n < k → l[n]? = some x

/-- The same with "smaller". -/
def LocalMin (l : List K) (i : ℕ) : Prop :=
  ∃ x, l[i]? = some x ∧ ∃ j k, j < i ∧ i < k ∧ (∃ y, l[j]? = some y ∧ x < y) ∧ (∃ y, l[k]? = some y ∧ x < y) ∧
    ∀ n, j < n → n < k → l[n]? = some x

end GwEcc.Spec
