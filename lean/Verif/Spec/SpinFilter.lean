import Verif.Model.SpinFilter
import Mathlib.Analysis.SpecialFunctions.Trigonometric.Basic

/-!
# Specification: filter of spin-induced oscillations
-/

namespace GwEcc.Spec

open GwEcc.Filter

variable {K : Type} [Field K] [LinearOrder K]

/-- The spectrum has the value `a` at the frequency `f` of the grid, which lies in the window `[lo, hi]`. -/
def InWindow (freqs spectrum : List K) (lo hi f a : K) : Prop := (f, a) ∈ freqs.zip spectrum ∧ lo ≤ f ∧ f ≤ hi

/-- Segment centres: the first sample, then each advanced by `alpha` times the local window length. -/
def centre (first alpha : K) (dT : K → K) : ℕ → K
  | 0 => first
  | k + 1 => centre first alpha dT k + alpha * dT (centre first alpha dT k)

/-- The segment consists of consecutive samples of `t` from sample `s` on, with one filtered value each. -/
def PlacedAt (t : List K) (seg : Segment K) (s : ℕ) : Prop :=
  seg.t ≠ [] ∧ seg.t = (t.drop s).take seg.t.length ∧ seg.filtered.length = seg.t.length

/-- Sum over the segments covering sample `i` of window weights, and of window weights times filtered values; a segment
placed at sample `s` is given as the pair `(s, filtered values)`. -/
def weightSum (window : ℕ → List K) (placed : List (ℕ × List K)) (i : ℕ) : K :=
  (placed.map fun p => if p.1 ≤ i then ((window p.2.length)[i - p.1]?).getD 0 else 0).sum

/-- see `weightSum` -/
def valueSum (window : ℕ → List K) (placed : List (ℕ × List K)) (i : ℕ) : K :=
  (placed.map fun p => if p.1 ≤ i then ((p.2)[i - p.1]?).getD 0 * ((window p.2.length)[i - p.1]?).getD 0 else 0).sum

/-- A window function: as many weights as asked for, none negative. -/
def IsWindow (window : ℕ → List K) : Prop := ∀ n, (window n).length = n ∧ ∀ w ∈ window n, 0 ≤ w

/-- `np.hanning`: `0.5 - 0.5 cos(2 pi k / (n - 1))` for `0 <= k < n`. -/
noncomputable def hann (n : ℕ) : List ℝ :=
  if n = 1 then [1]
  else (List.range n).map fun (k : ℕ) => 1 / 2 - 1 / 2 * Real.cos (2 * Real.pi * k / ((n : ℝ) - 1))

end GwEcc.Spec
