import Verif.Model.Fits

/-!
# Specification: peak finder and extrema of trend-subtracted data
-/

namespace GwEcc.Spec

variable {K : Type} [Field K] [LinearOrder K]

/-- The peak finder returns positions in the data in increasing order. -/
def FindsPeaks (findPeaks : List K → ℤ → K → Py (List ℕ)) : Prop :=
  ∀ data distance prominence peaks, findPeaks data distance prominence = .ok peaks →
    peaks.Pairwise (· < ·) ∧ ∀ i ∈ peaks, i < data.length

/-- Neighbouring samples are not both peaks. -/
def Separates (findPeaks : List K → ℤ → K → Py (List ℕ)) : Prop :=
  ∀ data distance prominence peaks, findPeaks data distance prominence = .ok peaks → peaks.Pairwise (fun a b => a + 1 < b)

/-- Sample `i` is one of the peaks which the peak finder reports, for some interval `[lo:hi]` containing it and some trend
`p`, in the data minus the trend (times `sign`). -/
def IsExtremum (lib : FitsLib K) (d : FitsData K) (sign : K) (i : ℕ) : Prop :=
  ∃ t0 p lo hi r distance prominence peaks, residual lib d t0 p lo hi = .ok r ∧
    lib.findPeaks (r.map (sign * ·)) distance prominence = .ok peaks ∧ lo ≤ i ∧ i - lo ∈ peaks

/-- The peaks which the peak finder returns are local maxima (plateaus allowed) and not the first or last sample. -/
def PeaksAreMaxima (findPeaks : List K → ℤ → K → Py (List ℕ)) : Prop :=
  ∀ data distance prominence peaks, findPeaks data distance prominence = .ok peaks → ∀ i ∈ peaks,
    ∃ a b c, data[i - 1]? = some a ∧ data[i]? = some b ∧ data[i + 1]? = some c ∧ 0 < i ∧ a ≤ b ∧ c ≤ b

/-- Sample `i` is a local maximum of `sign * (data - g(t))`. -/
def IsLocalMaximum (d : FitsData K) (sign : K) (g : K → K) (i : ℕ) : Prop :=
  ∃ ta da tb db tc dc, 0 < i ∧ d.t[i - 1]? = some ta ∧ d.data[i - 1]? = some da ∧ d.t[i]? = some tb ∧ d.data[i]? = some db ∧
    d.t[i + 1]? = some tc ∧ d.data[i + 1]? = some dc ∧ sign * (da - g ta) ≤ sign * (db - g tb) ∧
    sign * (dc - g tc) ≤ sign * (db - g tb)

end GwEcc.Spec
