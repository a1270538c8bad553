import Verif.Model.DataDict

/-!
# Model of the width of peaks from the time step alone
-/

namespace GwEcc

variable {K : Type} [Field K] [LinearOrder K] [FloorRing K]

/-- eccDefinition.py 4467-4494 `get_width_for_peak_finder_for_dimless_units`.  Equal first two times give inf in numpy, whose
conversion to int raises (OverflowError, here one of the modelled kinds). -/
def widthDimless (t : List K) (widthForUnit : K) : Py ℤ := do
  let t1 ← pyGet t 1
  let t0 ← pyGet t 0
  if t1 - t0 = 0 then .error .valueError
  else pure (pyInt (widthForUnit / (t1 - t0)))

end GwEcc
