import Verif.Model.SpinFilter
import Verif.Spec.SpinFilter
import Mathlib.Analysis.SpecialFunctions.Complex.Circle

/-!
# The Fourier transforms and windows of numpy used by the filter of spin-induced oscillations

Python source: `gw_eccentricity/spin_filter.py` 290-292, 380-390, 581-587 and 621; the formulas are those of numpy's
documentation, over the real and complex numbers.
-/

namespace GwEcc.Filter

open Finset

/-- `exp(2 pi i k j / n)` -/
noncomputable def wave (n k j : ℕ) : ℂ := Complex.exp (2 * Real.pi * Complex.I * k * j / n)

/-- `np.fft.rfft(x)`: `sum_j x_j exp(-2 pi i k j / n)` for `0 <= k <= n/2` (spin_filter.py 290, 581). -/
noncomputable def rfft (x : List ℝ) : List ℂ :=
  (List.range (x.length / 2 + 1)).map fun (k : ℕ) =>
    ∑ j ∈ range x.length, ((x[j]?).getD 0 : ℂ) * (starRingEnd ℂ) (wave x.length k j)

/-- The spectrum at all frequencies, given that at the nonnegative ones: that of real data is conjugate at opposite
frequencies. -/
noncomputable def hermitian (X : List ℂ) (n k : ℕ) : ℂ :=
  if k ≤ n / 2 then (X[k]?).getD 0 else (starRingEnd ℂ) ((X[n - k]?).getD 0)

/-- `np.fft.irfft(X, n)` (spin_filter.py 586): the inverse transform of the completed spectrum.  numpy ignores the
imaginary part at frequency zero (and at the highest one for even `n`), as taking the real part of the sum does. -/
noncomputable def irfft (X : List ℂ) (n : ℕ) : List ℝ :=
  (List.range n).map fun (j : ℕ) => (1 / (n : ℂ) * ∑ k ∈ range n, hermitian X n k * wave n k j).re

/-- spin_filter.py 586-587: `irfft(fd * mask, n=len(data))` with `fd = rfft(data)`. -/
noncomputable def lowpassFFT (x mask : List ℝ) : List ℝ :=
  irfft (List.zipWith (fun (z : ℂ) (m : ℝ) => z * m) (rfft x) mask) x.length

/-- spin_filter.py 290-292: `np.abs(rfft(data)) / len(data)`. -/
noncomputable def spectrumFFT (x : List ℝ) : List ℝ := (rfft x).map fun z => ‖z‖ / x.length

/-- `np.hamming`: `0.54 - 0.46 cos(2 pi k / (n - 1))` for `0 <= k < n`. -/
noncomputable def hammingWindow (n : ℕ) : List ℝ :=
  if n = 1 then [1]
  else (List.range n).map fun (k : ℕ) => 27 / 50 - 23 / 50 * Real.cos (2 * Real.pi * k / ((n : ℝ) - 1))

/-- The library with numpy's transforms and windows in place of the parameters; the fit of the trend, the peak finder and
the cubic interpolation remain parameters. -/
noncomputable def fourierLib (base : FilterLib ℝ) : FilterLib ℝ :=
  { base with
    pi := Real.pi
    cos := Real.cos
    spectrum := spectrumFFT
    lowpass := lowpassFFT
    hamming := hammingWindow
    hanning := Spec.hann }

end GwEcc.Filter
