import Verif.Model.Segment
import Verif.Spec.DataDict

/-!
# Specification: pieces of a waveform
-/

namespace GwEcc.Spec

variable {K : Type} [Field K] [LinearOrder K]

/-- The four arrays have one entry per sample. -/
def SameLength (w : Wave K) : Prop :=
  w.amp.length = w.t.length ∧ w.phase.length = w.t.length ∧ w.omega.length = w.t.length

/-- `w'` consists of the samples `s, s+1, ..., e-1` of `w`. -/
def IsPiece (w w' : Wave K) (s e : ℕ) : Prop :=
  e ≤ w.t.length ∧
  (∀ k, w'.t[k]? = if s + k < e then w.t[s + k]? else none) ∧
  (∀ k, w'.amp[k]? = if s + k < e then w.amp[s + k]? else none) ∧
  (∀ k, w'.phase[k]? = if s + k < e then w.phase[s + k]? else none) ∧
  (∀ k, w'.omega[k]? = if s + k < e then w.omega[s + k]? else none)

/-- Phase of the dominant mode that the program counts as one orbit: `4π`, increased by ten percent. -/
def orbit (pi : K) : K := 4 * pi * (11 / 10)

/-- Phase of the waveform at the sample nearest to time `x`. -/
def PhaseAt (w : Wave K) (x p : K) : Prop := ∃ i, NearestSample w.t x i ∧ w.phase[i]? = some p

end GwEcc.Spec
