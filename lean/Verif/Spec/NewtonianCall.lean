import Verif.Spec.Options
import Verif.Spec.RationalDegree
import Verif.Spec.DataDict
import Verif.Props.NewtonianMethods
import Verif.Model.Construct

/-!
# Specification of C87: a Newtonian binary in a whole call

The waveform given to `measure_eccentricity` is that of a Newtonian binary until the time `tEnd`.  What comes later (plunge
and merger, which the call uses to place the merger) is arbitrary.
-/

namespace GwEcc.Spec

open Real

variable {C : Type}

/-- Times, amplitude, phase and frequency of the (2,2) mode are given, and until `tEnd` they are those of a Newtonian binary.
Every passage through an apsis between two samples is a sample. -/
structure NewtonianUntil (ε q : ℝ) (f φ : ℝ → ℝ) (tEnd : ℝ) (v : DataV ℝ C) (t : List ℝ) : Prop where
  times : array v "t" = some t
  increasing : t.Pairwise (· < ·)
  given : ∃ A P W : ℝ → ℝ, realMode v "amplm" (2, 2) = some (t.map A) ∧ realMode v "phaselm" (2, 2) = some (t.map P) ∧
    realMode v "omegalm" (2, 2) = some (t.map W) ∧
    ∀ x ∈ t, x ≤ tEnd → A x = ‖strain22 ε q f x‖ ∧ P x = φ x ∧ W x = frequency (strain22 ε q f) x
  apsides : ∀ x ∈ t, ∀ y ∈ t, y ≤ tEnd → ∀ s, x ≤ s → s ≤ y → AtPericenter f s ∨ AtApocenter f s → s ∈ t

/-- The libraries interpolate points of equal height by a constant (see `KeepsConstants`), know the value of π, and the
eccentricity is computed from the frequencies at pericenter and apocenter by the formula of the paper. -/
structure FaithfulLibs (lib : Libs ℝ C) : Prop where
  pi : lib.wave.pi = π
  ecc : lib.eccOf = eccFromOmega
  spline : ∀ k xs ys c x, 1 ≤ k → k ≤ 5 → k < xs.length → xs.Pairwise (· < ·) → ys.length = xs.length →
    (∀ y ∈ ys, y = c) → Within xs x → lib.eval (.spline k 2) xs ys x = .ok c
  derivative : ∀ k xs ys x, 1 ≤ k → k ≤ 5 → k < xs.length → xs.Pairwise (· < ·) → ys.length = xs.length → x ∈ xs →
    ∃ v, lib.deriv (.spline k 2) xs ys x = .ok v

/-- Rational functions fitted to points of equal height are constant. -/
def FaithfulFits (lib : Libs ℝ C) : Prop :=
  ∀ options degrees xs ys c, 0 ≤ degrees.1 → 0 ≤ degrees.2 → Determined degrees xs.length → xs.Pairwise (· < ·) →
    ys.length = xs.length → (∀ y ∈ ys, y = c) →
    ∃ g, lib.rational options degrees xs ys = .ok g ∧ ∀ x, Within xs x → g x = .ok c

/-- All options have their default values, except that the frequencies at the extrema are interpolated by this method (the
default is "rational_fit"). -/
def DefaultsBut {K : Type} [Field K] [LinearOrder K] (extra : Option (Extra K)) (interpolation : String) : Prop :=
  (interpolation = "rational_fit" ∨ interpolation = "spline") ∧
    ∀ key, inForce extraDefaults extra key =
      if key = "omega_gw_extrema_interpolation_method" then some (.leaf (.str interpolation)) else extraDefaults.get? key

/-- The signal in which the method looks for peaks, until `tEnd`. -/
noncomputable def signal (method : String) (ε q : ℝ) (f : ℝ → ℝ) (x : ℝ) : ℝ :=
  if method = "Amplitude" then ‖strain22 ε q f x‖ else frequency (strain22 ε q f) x

/-- The peak finder, with the default options and this width, finds every peak and every trough of the signal. -/
def FindsPeaksAndTroughs (lib : Libs ℝ C) (width : ℤ) (method : String) (ε q : ℝ) (f : ℝ → ℝ) (t : List ℝ) : Prop :=
  FindsAllPeaks (lib.peaks (peaksDefaults width).get?) (t.map fun x => signal method ε q f x) ∧
  FindsAllPeaks (lib.peaks (peaksDefaults width).get?) (t.map fun x => -signal method ε q f x)

/-- The eccentricities up to which the signal grows all the way from apocenter to pericenter (C79). -/
def MethodUpTo (method : String) (ε : ℝ) : Prop :=
  (method = "Amplitude" ∧ ε ≤ 6 / 7) ∨ (method = "Frequency" ∧ ε ≤ 9 / 10)

/-- The time `x` lies between two passages through pericenter and between two passages through apocenter, and all four have
samples before and after them. -/
def BetweenPassages (f : ℝ → ℝ) (t : List ℝ) (x : ℝ) : Prop :=
  ∃ p₁ p₂ a₁ a₂, AtPericenter f p₁ ∧ AtPericenter f p₂ ∧ AtApocenter f a₁ ∧ AtApocenter f a₂ ∧ p₁ < p₂ ∧ a₁ < a₂ ∧
    p₁ ≤ x ∧ x ≤ p₂ ∧ a₁ ≤ x ∧ x ≤ a₂ ∧ ∀ s ∈ [p₁, p₂, a₁, a₂], (∃ y ∈ t, y < s) ∧ ∃ y ∈ t, s < y

/-- Equal time steps. -/
def EqualSteps (t : List ℝ) : Prop := ∃ dt, ∀ i (h : i + 1 < t.length), t[i + 1] - t[i] = dt

/-- No quasicircular waveform is given. -/
def NoQuasicircular (v : DataV ℝ C) : Prop :=
  ∀ key ∈ ["t_zeroecc", "hlm_zeroecc", "amplm_zeroecc", "phaselm_zeroecc", "omegalm_zeroecc"], v.get? key = none

/-- What is returned at times: every eccentricity is `ε`, every mean anomaly solves Kepler's equation, and the times are some
of those asked for, at least one. -/
def ReturnsEccentricity (ε : ℝ) (f : ℝ → ℝ) (asked : Val ℝ) (ret : Dict String (Val ℝ)) : Prop :=
  ∃ ve va vr, ret.get? "eccentricity" = some ve ∧ ret.get? "mean_anomaly" = some va ∧ ret.get? "tref_out" = some vr ∧
    vr.atleast1d ≠ [] ∧ vr.atleast1d.Sublist asked.atleast1d ∧ ve.atleast1d = vr.atleast1d.map (fun _ => ε) ∧
    List.Forall₂ (fun t l => KeplerEquation ε l (f t)) vr.atleast1d va.atleast1d

end GwEcc.Spec
