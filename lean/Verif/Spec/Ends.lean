import Verif.Spec.DataDict
import Verif.Spec.Options

/-! Specification for C86: which calls come to an end. -/

namespace GwEcc.Spec

section
variable {K C : Type} [Field K] [LinearOrder K]

/-- An option of the spin filter: what the user gave, else the default. -/
def filterOption (extra : Option (Extra K)) (key : String) : Option (Leaf K) :=
  inForce filterDefaults
    (match (extra.getD []).get? "filter_kwargs" with
      | some (.dict d) => some d
      | _ => none) key

/-- A number greater than zero (`True` counts as 1). -/
def PositiveLeaf : Leaf K → Prop
  | .num x => 0 < x
  | .int n => 0 < n
  | .bool b => b = true
  | _ => False

/-- The first two times differ by at least 1e-7. -/
def FirstStep (t : List K) : Prop := ∀ x y, t[0]? = some x → t[1]? = some y → 1 / 10 ^ 7 ≤ |y - x|

end

end GwEcc.Spec
