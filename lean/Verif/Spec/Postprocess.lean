import Verif.Model.Postprocess

/-!
# Notation of integers on the command line
-/

namespace GwEcc.Post

/-- An integer as a user types it: the usual decimal notation. -/
def typed (n : ℤ) : List Char := (toString n).toList

end GwEcc.Post
