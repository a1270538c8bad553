import Verif.Spec.NewtonianCall
import Verif.Spec.Numpy

/-!
# Specification of C87 for complex modes
-/

namespace GwEcc.Spec

/-- Times, complex (2,2) mode and its frequency are given, and until `tEnd` they are those of a Newtonian binary.  Every passage
through an apsis between two samples is a sample, and the phase of the mode changes by less than half a turn from sample to
sample. -/
structure ComplexNewtonianUntil (ε q : ℝ) (f φ : ℝ → ℝ) (tEnd : ℝ) (v : DataV ℝ ℂ) (t : List ℝ) : Prop where
  times : array v "t" = some t
  increasing : t.Pairwise (· < ·)
  given : ∃ (H : ℝ → ℂ) (W : ℝ → ℝ), complexMode v "hlm" (2, 2) = some (t.map H) ∧ realMode v "omegalm" (2, 2) = some (t.map W) ∧
    ∀ x ∈ t, x ≤ tEnd → H x = strain22 ε q f x ∧ W x = frequency (strain22 ε q f) x
  notPolar : v.get? "amplm" = none ∧ v.get? "phaselm" = none
  apsides : ∀ x ∈ t, ∀ y ∈ t, y ≤ tEnd → ∀ s, x ≤ s → s ≤ y → AtPericenter f s ∨ AtApocenter f s → s ∈ t
  steps : ∀ (i : ℕ) (x y : ℝ), t[i]? = some x → t[i + 1]? = some y → y ≤ tEnd → |φ y - φ x| < Real.pi

/-- Samples at equal time steps `dt`, at least six to an orbit (of period `T`).  The first sample is at most an eighth of an orbit after
a passage through an apsis, the last one at most an eighth of an orbit before one, and every passage in between is a sample. -/
structure WholeHalfOrbits (f : ℝ → ℝ) (T dt : ℝ) (t : List ℝ) : Prop where
  steps : ∀ i (h : i + 1 < t.length), t[i + 1] - t[i] = dt
  positive : 0 < dt
  fine : 6 * dt ≤ T
  start : ∀ x, t.head? = some x → ∃ s, (AtPericenter f s ∨ AtApocenter f s) ∧ s ≤ x ∧ x ≤ s + T / 8
  stop : ∀ x, t.getLast? = some x → ∃ s, (AtPericenter f s ∨ AtApocenter f s) ∧ x ≤ s ∧ s ≤ x + T / 8
  apsides : ∀ x ∈ t, ∀ y ∈ t, ∀ s, x ≤ s → s ≤ y → AtPericenter f s ∨ AtApocenter f s → s ∈ t

end GwEcc.Spec
