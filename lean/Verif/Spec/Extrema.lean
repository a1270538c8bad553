import Mathlib.Algebra.Order.Field.Basic

/-!
# Specification vocabulary for lists of extrema

`l` is a list of sample indices of extrema, `ph` the phase at each sample, `t` the time at each sample.
-/

namespace GwEcc.Spec

variable {K : Type} [Field K] [LinearOrder K]

/-- The phase separation following extremum `j+1` exceeds `R` times the separation before it: an extremum
seems to be missing between numbers `j+1` and `j+2`. -/
def Grows (ph : ℕ → K) (R : K) (l : List ℕ) (j : ℕ) : Prop :=
  ∃ h : j + 2 < l.length, R * (ph l[j + 1] - ph l[j]) < ph l[j + 2] - ph l[j + 1]

/-- The phase separation before extremum `j+1` exceeds `R` times the separation after it: an extremum seems to
be missing between numbers `j` and `j+1`. -/
def Shrinks (ph : ℕ → K) (R : K) (l : List ℕ) (j : ℕ) : Prop :=
  ∃ h : j + 2 < l.length, R * (ph l[j + 2] - ph l[j + 1]) < ph l[j + 1] - ph l[j]

/-- Extrema number `j` and `j+1` are closer than `m` in phase. -/
def Close (ph : ℕ → K) (m : K) (l : List ℕ) (j : ℕ) : Prop :=
  ∃ h : j + 1 < l.length, ph l[j + 1] - ph l[j] < m

/-- Strict alternation: between any two pericenters there is an apocenter and between any two apocenters a
pericenter. -/
def Alternate (p a : List ℕ) : Prop :=
  (∀ x ∈ p, ∀ y ∈ p, x < y → ∃ z ∈ a, x < z ∧ z < y) ∧ (∀ x ∈ a, ∀ y ∈ a, x < y → ∃ z ∈ p, x < z ∧ z < y)

end GwEcc.Spec
