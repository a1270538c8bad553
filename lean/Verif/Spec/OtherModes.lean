import Verif.Spec.DataDict

/-!
# Specification of the modes that matter

The (2, 2) mode, for precessing systems also the (2, -2) mode, is what the measurement is based on.  The other modes take part in the
time of the merger, where the amplitude of all modes together is largest.
-/

namespace GwEcc.Spec

variable {K C : Type} [Field K] [LinearOrder K]

/-- The modes the measurement is based on. -/
def dominantModes (precessing : Bool) : List LM := if precessing then [(2, 2), (2, -2)] else [(2, 2)]

/-- Two entries of a waveform dictionary that agree, or dictionaries of modes that have the (2, 2) mode and agree in the modes `S`. -/
inductive AgreeIn (S : List LM) : Entry K C → Entry K C → Prop
  | same (e : Entry K C) : AgreeIn S e e
  | real (d d' : Dict LM (List K)) (has : d.has (2, 2) = true) (eq : ∀ k ∈ S, d'.get? k = d.get? k) :
      AgreeIn S (.modesR d) (.modesR d')
  | complex (d d' : Dict LM (List C)) (has : d.has (2, 2) = true) (eq : ∀ k ∈ S, d'.get? k = d.get? k) :
      AgreeIn S (.modesC d) (.modesC d')

/-- Two waveform dictionaries with the same times and the same modes `S`. -/
structure OthersDiffer (S : List LM) (v v' : DataV K C) : Prop where
  keys : v'.keys = v.keys
  entries : ∀ key e e', v.get? key = some e → v'.get? key = some e' →
    if key ∈ ["hlm", "amplm", "phaselm", "omegalm", "hlm_zeroecc", "amplm_zeroecc", "phaselm_zeroecc", "omegalm_zeroecc"]
    then AgreeIn S e e' else e' = e

/-- The amplitudes of all modes of the waveform (`suffix` "") or the quasicircular waveform ("_zeroecc"). -/
def allAmplitudes (lib : WaveLib K C) (v : DataV K C) (suffix : String) : Option (List (List K)) :=
  match v.get? ("amplm" ++ suffix), v.get? ("hlm" ++ suffix) with
  | some (.modesR d), _ => some (d.map fun p => p.2)
  | none, some (.modesC d) => some (d.map fun p => lib.abs p.2)
  | _, _ => none

/-- The time of the merger: where the amplitude of all modes together has its peak, by a quadratic fit through five samples. -/
def mergerTime (lib : WaveLib K C) (v : DataV K C) (suffix : String) : Option (Py K) := do
  let t ← array v ("t" ++ suffix)
  let A ← allAmplitudes lib v suffix
  return (lib.totalAmp A >>= peakTime t).map Prod.fst

end GwEcc.Spec
