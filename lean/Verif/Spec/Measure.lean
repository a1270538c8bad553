import Mathlib.Algebra.Order.Field.Basic
import Mathlib.Data.List.Basic

/-!
# Small specification for the properties of the measurement (C06–C10, C15, C28–C30)
-/

namespace GwEcc.Spec

variable {K : Type} [Field K] [LinearOrder K]

/-- `x` lies between the first and the last entry of `l`. -/
def Within (l : List K) (x : K) : Prop :=
  ∃ first last, l.head? = some first ∧ l.getLast? = some last ∧ first ≤ x ∧ x ≤ last

/-- The last pericenter not after `x` is at `a` and the next one is at `b` (`a ≤ x < b`, neighbours in `l`). -/
def Orbit (l : List K) (x a b : K) : Prop :=
  a ≤ x ∧ x < b ∧ ∃ i, l[i]? = some a ∧ l[i + 1]? = some b

/-- `idx` sorts `l`: every position of `l` is used exactly once and the values appear in increasing order. -/
def Sorts (l : List K) (idx : List ℕ) : Prop :=
  idx.Perm (List.range l.length) ∧ (idx.map (fun i => l.getD i 0)).Pairwise (· ≤ ·)

/-- The phase accumulated from sample `i` to sample `j` per unit time. -/
def MeanRate (phase t : List K) (i j : ℕ) : K :=
  (phase.getD j 0 - phase.getD i 0) / (t.getD j 0 - t.getD i 0)

/-- One point per pair of neighbouring extrema: the middle of the time between them, and the phase accumulated per unit
time. -/
def OrbitPoints (phase t : List K) (ext : List ℕ) : List (K × K) :=
  (ext.zip ext.tail).map (fun ij => ((t.getD ij.1 0 + t.getD ij.2 0) / 2, MeanRate phase t ij.1 ij.2))

end GwEcc.Spec
