import Verif.Spec.Separation
import Verif.Model.Utils

/-!
# What the strict debug level vouches for

Used by `Props/StrictCall.lean`.
-/

namespace GwEcc.Spec

variable {K : Type} [Field K] [LinearOrder K]

/-- Two lists of times take turns, beginning with the first: `x₀ ≤ y₀ ≤ x₁ ≤ y₁ ≤ …`, until both are used up. -/
def TakeTurns (x y : List K) : Prop :=
  y.length ≤ x.length ∧ x.length ≤ y.length + 1 ∧
    (∀ i, i < y.length → x.getD i 0 ≤ y.getD i 0) ∧ ∀ i, i + 1 < x.length → y.getD i 0 ≤ x.getD (i + 1) 0

/-- Extrema at the given phases of the (2,2) mode lie about an orbit apart: no neighbours nearer to half an orbit than to a full
one, and no step larger than one and a half times the step before. -/
def OrbitApart (pi : K) (phaseAt : List K) : Prop := ∀ i, ¬ TooClose pi phaseAt i ∧ ¬ HalfOrbit pi phaseAt i ∧ ¬ TooFar phaseAt i

end GwEcc.Spec
