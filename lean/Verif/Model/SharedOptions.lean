import Verif.Model.Construct

/-!
# Model of repeated calls with one options dictionary

postprocess.py 245-253 and postprocess_cli.py 122-148, 374-376 measure one sample after the other and hand the same
`gw_eccentricity_kwargs`, hence the same `extra_kwargs` object, to every call of `measure_eccentricity` (core.py 265-270).
-/

namespace GwEcc

variable {K C : Type} [Field K] [LinearOrder K] [FloorRing K]

/-- Calls made one after the other with the same `extra_kwargs` object (core.py 265-270 in the loops
postprocess_cli.py 144-147 and 375-376): every call sees the object as the calls before it have left it.  The field
`extra` of the listed calls is not used.  `none` if one of the calls does not end within `fuel` passes. -/
def runShared (fuel : ℕ) (lib : Libs K C) : Option (Extra K) → List (Call K C) → Option (List (Py (Answer K C)))
  | _, [] => some []
  | extra, b :: bs => do
    let r ← run fuel lib { b with extra := extra }
    let extra' ← extraAfter fuel lib { b with extra := extra }
    let rs ← runShared fuel lib extra' bs
    return r :: rs

end GwEcc
