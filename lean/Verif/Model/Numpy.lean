import Verif.Model.Compare
import Verif.Model.DataDict
import Mathlib.Analysis.SpecialFunctions.Complex.Circle

/-!
# Model of the numpy routines the code applies to modes

In the other files these are parameters (`WaveLib`).  Here they are written out over the real and complex numbers.  Only the
rotation to the coprecessing frame (a call of `scri`) is still a parameter.  Simplifications: exact arithmetic; arrays of
length one are not broadcast.
-/

namespace GwEcc.Numpy

/-- `np.abs(h)`, eccDefinition.py 684. -/
noncomputable def abs (l : List ℂ) : List ℝ := l.map (‖·‖)

/-- `-np.unwrap(np.angle(h))`, eccDefinition.py 711-713. -/
noncomputable def phase (l : List ℂ) : List ℝ := (Compare.unwrap Real.pi (l.map Complex.arg)).map (- ·)

/-- `amp * np.exp(-1j * phase)`, eccDefinition.py 999-1001. -/
noncomputable def polar (a p : List ℝ) : Py (List ℂ) :=
  if a.length = p.length then .ok (List.zipWith (fun x y : ℝ => (x : ℂ) * Complex.exp (-Complex.I * y)) a p)
  else .error .valueError

/-- `amplitude_using_all_modes(·, "amplm")`, utils.py 27-35: sample by sample it is `ampAllAmplm`.  The sum over no modes is a
number and not an array; the next function, `peak_time_via_quadratic_fit`, fails to index it. -/
noncomputable def totalAmp : List (List ℝ) → Py (List ℝ)
  | [] => .error .indexError
  | l :: rest =>
    if rest.all (fun r => r.length = l.length) then
      .ok ((List.range l.length).map fun i => ampAllAmplm ((l :: rest).map fun r => r.getD i 0))
    else .error .valueError

/-- All of them, with a given rotation to the coprecessing frame. -/
noncomputable def wave (rotate : List ℝ → List (List ℂ) → Py (List (List ℂ))) : WaveLib ℝ ℂ where
  pi := Real.pi
  zero := 0
  abs := abs
  phase := phase
  polar := polar
  rotate := rotate
  totalAmp := totalAmp

end GwEcc.Numpy
