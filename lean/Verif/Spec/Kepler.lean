import Mathlib.Analysis.SpecialFunctions.Trigonometric.Basic
import Mathlib.Analysis.SpecialFunctions.ExpDeriv
import Mathlib.Analysis.SpecialFunctions.Trigonometric.Deriv
import Mathlib.Analysis.SpecialFunctions.Sqrt

/-!
# Specification: Newtonian binary and its gravitational waveform

This file does not mention the model.  Units with total mass and `G` equal to one.
-/

namespace GwEcc.Spec

noncomputable section

/-- Separation on a conic with semi-latus rectum `p` and eccentricity `e`, at true anomaly `f`. -/
def separation (e p f : ℝ) : ℝ := p / (1 + e * Real.cos f)

/-- `f : time → true anomaly` is a Keplerian motion: it satisfies Kepler's second law
`r² df/dt = √p` (with `G M = 1`) on the conic. -/
structure KeplerOrbit (e p : ℝ) (f : ℝ → ℝ) : Prop where
  areaLaw : ∀ t, HasDerivAt f (Real.sqrt p / (separation e p (f t)) ^ 2) t

/-- (2,2) component of the mass quadrupole, up to a constant factor. -/
def quadrupole22 (e p : ℝ) (f : ℝ → ℝ) (t : ℝ) : ℂ :=
  ((separation e p (f t) : ℝ) : ℂ) ^ 2 * Complex.exp (-2 * Complex.I * (f t : ℂ))

/-- (2,2) mode of the strain by the quadrupole formula, up to a constant factor. -/
def strain22 (e p : ℝ) (f : ℝ → ℝ) : ℝ → ℂ := deriv (deriv (quadrupole22 e p f))

/-- Instantaneous frequency of a complex signal `A e^{-iΦ}`, i.e. `dΦ/dt = - Im (h'/h)`. -/
def frequency (h : ℝ → ℂ) (t : ℝ) : ℝ := - (deriv h t / h t).im

/-- The binary is at pericenter (smallest separation). -/
def AtPericenter (f : ℝ → ℝ) (t : ℝ) : Prop := Real.cos (f t) = 1

/-- The binary is at apocenter (largest separation). -/
def AtApocenter (f : ℝ → ℝ) (t : ℝ) : Prop := Real.cos (f t) = -1

/-- The true anomaly gains one turn in the time `T`, whenever one starts. -/
def OrbitalPeriod (f : ℝ → ℝ) (T : ℝ) : Prop := 0 < T ∧ ∀ t, f (t + T) = f t + 2 * Real.pi

/-- The mean anomaly `l` and the true anomaly `x` are related by Kepler's equation `l = u - e sin u`, where `u` is the
eccentric anomaly. -/
def KeplerEquation (e l x : ℝ) : Prop :=
  ∃ u, l = u - e * Real.sin u ∧ Real.cos x = (Real.cos u - e) / (1 - e * Real.cos u) ∧
    Real.sin x = Real.sqrt (1 - e ^ 2) * Real.sin u / (1 - e * Real.cos u)

/-- `φ` is a continuous phase of the complex signal `h = |h| e^{-iφ}`. -/
structure IsPhase (h : ℝ → ℂ) (φ : ℝ → ℝ) : Prop where
  continuous : Continuous φ
  phase : ∀ t, h t = ‖h t‖ * Complex.exp (-Complex.I * φ t)

end

end GwEcc.Spec
