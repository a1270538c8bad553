import Verif.Model.Construct
import Verif.Spec.Options

/-!
# Vocabulary for C106: one waveform, several requests
-/

namespace GwEcc.Spec

open GwEcc

variable {K C : Type} [Field K] [LinearOrder K]

/-- The same call with the reference times `v`. -/
def askTimes (a : Call K C) (v : Val K) : Call K C := { a with trefIn := some v, frefIn := none }

/-- The same call with the reference frequencies `v`. -/
def askFrequencies (a : Call K C) (v : Val K) : Call K C := { a with trefIn := none, frefIn := some v }

/-- The option that restricts the measurement to a few orbits around the reference points is not used. -/
def WholeWaveform (a : Call K C) : Prop :=
  ∀ x, inForce extraDefaults a.extra "use_only_these_many_orbits" = some x → x.truth = false

/-- The eccentricities and mean anomalies returned are the values of two functions at the reference points returned. -/
def Tabulates (ret : Dict String (Val K)) (key : String) (ecc ano : K → K) : Prop :=
  ∃ ve va vr, ret.get? "eccentricity" = some ve ∧ ret.get? "mean_anomaly" = some va ∧ ret.get? key = some vr ∧
    ve.atleast1d = vr.atleast1d.map ecc ∧ va.atleast1d = vr.atleast1d.map ano

/-- A result with these entries. -/
def Returns (ret : Dict String (Val K)) (key : String) (ecc ano ref : Val K) : Prop :=
  ret.get? "eccentricity" = some ecc ∧ ret.get? "mean_anomaly" = some ano ∧ ret.get? key = some ref

end GwEcc.Spec
