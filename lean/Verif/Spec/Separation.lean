import Mathlib.Algebra.Order.Field.Basic

/-!
# Specification vocabulary for the separation of extrema
-/

namespace GwEcc.Spec

variable {K : Type} [Field K] [LinearOrder K]

/-- Change of the orbital phase (half the phase of the (2,2) mode) from the `i`-th extremum to the next. -/
def OrbitalStep (phaseAt : List K) (i : ℕ) : K := (phaseAt.getD (i + 1) 0 - phaseAt.getD i 0) / 2

/-- Two neighbouring extrema less than half an orbit apart. -/
def TooClose (pi : K) (phaseAt : List K) (i : ℕ) : Prop := i + 1 < phaseAt.length ∧ OrbitalStep phaseAt i < pi

/-- Two neighbouring extrema closer to half an orbit than to a full orbit apart. -/
def HalfOrbit (pi : K) (phaseAt : List K) (i : ℕ) : Prop := i + 1 < phaseAt.length ∧ OrbitalStep phaseAt i < 3 / 2 * pi

/-- A step more than one and a half times as large as the step before it. -/
def TooFar (phaseAt : List K) (i : ℕ) : Prop :=
  i + 2 < phaseAt.length ∧ OrbitalStep phaseAt (i + 1) > 3 / 2 * OrbitalStep phaseAt i

end GwEcc.Spec
