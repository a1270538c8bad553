import Verif.Model.Construct

/-!
# The debug level of a call

Used by `Props/WholeLevels.lean`.
-/

namespace GwEcc.Spec

variable {K C : Type}

/-- The same call with another `debug_level`. -/
def withLevel (a : Call K C) (L : ℤ) : Call K C := { a with level := L }

/-- A rational fit does not depend on whether it prints its progress. -/
def FitsIgnoreVerbose (lib : Libs K C) : Prop :=
  ∀ options options' : String → Option (Leaf K), (∀ k, k ≠ "verbose" → options k = options' k) →
    ∀ degrees x y, lib.rational options degrees x y = lib.rational options' degrees x y

end GwEcc.Spec
