import Verif.Spec.PhaseOrigin
import Mathlib.Analysis.SpecialFunctions.Complex.Circle

/-!
# Specification of amplitude and phase of a complex mode
-/

namespace GwEcc.Spec

/-- The samples of the complex mode with the given amplitudes and phases, `A e^{-iφ}`. -/
noncomputable def combine (m : List (ℝ × ℝ)) : List ℂ := m.map fun s => (s.1 : ℂ) * Complex.exp (-Complex.I * s.2)

/-- No amplitude vanishes, and from one sample to the next the phase changes by less than half a turn. -/
structure WellSampled (m : List (ℝ × ℝ)) : Prop where
  positive : ∀ s ∈ m, 0 < s.1
  steps : ∀ (i : ℕ) (s s' : ℝ × ℝ), m[i]? = some s → m[i + 1]? = some s' → |s'.2 - s.2| < Real.pi

/-- The samples do not vanish and no sample is opposite to the one before (a jump of the phase by exactly half a turn, which can be
unwrapped either way); or they vanish everywhere. -/
def NoHalfTurn (l : List ℂ) : Prop :=
  ((∀ z ∈ l, z ≠ 0) ∧ ∀ (i : ℕ) (z w : ℂ), l[i]? = some z → l[i + 1]? = some w → ∀ r : ℝ, 0 < r → w ≠ -(r * z)) ∨ ∀ z ∈ l, z = 0

/-- Rotation of the source about its axis by an angle: the mode `(ℓ, m)` is multiplied by `e^{-imα}`, that is, `mα` is added to
its phase. -/
noncomputable def turnBy (α : ℝ) : Turn ℝ ℂ where
  num := fun k z => z * Complex.exp (-Complex.I * (k.2 * α : ℝ))
  angle := fun k => k.2 * α

/-- The modes with a tag are given by complex numbers in `v`, and in `v'` by amplitudes and phases the complex numbers were made
from (not necessarily those they are split into). -/
def SameModes (tag : String) (v v' : DataV ℝ ℂ) : Prop :=
  ∃ M : Dict LM (List (ℝ × ℝ)), M.keys.Nodup ∧ (∀ p ∈ M, WellSampled p.2) ∧
    v.get? ("hlm" ++ tag) = some (.modesC (M.map fun p => (p.1, combine p.2))) ∧
    v.get? ("amplm" ++ tag) = none ∧ v.get? ("phaselm" ++ tag) = none ∧
    v'.get? ("hlm" ++ tag) = none ∧
    v'.get? ("amplm" ++ tag) = some (.modesR (M.map fun p => (p.1, p.2.map (·.1)))) ∧
    v'.get? ("phaselm" ++ tag) = some (.modesR (M.map fun p => (p.1, p.2.map (·.2))))

/-- Two dictionaries with the same waveform, in `v` as complex modes and in `v'` as amplitudes and phases.  The quasicircular one
is given likewise, or in the same way by both. -/
structure SamePolar (v v' : DataV ℝ ℂ) : Prop where
  other : ∀ key ∈ ["t", "t_zeroecc", "omegalm", "omegalm_zeroecc"], v.get? key = v'.get? key
  ecc : SameModes "" v v'
  zero : SameModes "_zeroecc" v v' ∨
    ∀ key ∈ ["hlm_zeroecc", "amplm_zeroecc", "phaselm_zeroecc"], v.get? key = v'.get? key

end GwEcc.Spec
