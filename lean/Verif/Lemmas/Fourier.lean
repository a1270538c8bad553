import Verif.Model.Fourier
import Mathlib.RingTheory.RootsOfUnity.Complex
import Mathlib.Algebra.Field.GeomSum

/-!
# Lemmas on the discrete Fourier transform
-/

namespace GwEcc.Filter

open Finset

/-! ## Orthogonality -/

theorem wave_eq_pow {n : ℕ} (k j : ℕ) : wave n k j = Complex.exp (2 * Real.pi * Complex.I / n) ^ (k * j) := by
  rw [← Complex.exp_nat_mul, wave]
  congr 1
  push_cast
  ring

theorem conj_exp {n : ℕ} : (starRingEnd ℂ) (Complex.exp (2 * Real.pi * Complex.I / n)) =
    (Complex.exp (2 * Real.pi * Complex.I / n))⁻¹ := by
  rw [← Complex.exp_conj, ← Complex.exp_neg]
  congr 1
  simp [map_div₀, Complex.conj_ofReal, map_ofNat]
  ring

theorem conj_wave {n : ℕ} (k j : ℕ) :
    (starRingEnd ℂ) (wave n k j) = (Complex.exp (2 * Real.pi * Complex.I / n))⁻¹ ^ (k * j) := by
  rw [wave_eq_pow, map_pow, conj_exp]

theorem wave_comm {n : ℕ} (k j : ℕ) : wave n k j = wave n j k := by rw [wave_eq_pow, wave_eq_pow, mul_comm k j]

/-- Waves of different frequencies are orthogonal. -/
theorem wave_ortho {n a b : ℕ} (ha : a < n) (hb : b < n) :
    ∑ k ∈ range n, wave n k a * (starRingEnd ℂ) (wave n k b) = if a = b then (n : ℂ) else 0 := by
  have hn : n ≠ 0 := by omega
  have hw := Complex.isPrimitiveRoot_exp n hn
  set w := Complex.exp (2 * Real.pi * Complex.I / n) with hwdef
  have hw0 : w ≠ 0 := Complex.exp_ne_zero _
  have hterm : ∀ k ∈ range n, wave n k a * (starRingEnd ℂ) (wave n k b) = (w ^ a * w⁻¹ ^ b) ^ k := by
    intro k _
    rw [wave_eq_pow, conj_wave, mul_pow, ← pow_mul, ← pow_mul, mul_comm k a, mul_comm k b]
  rw [Finset.sum_congr rfl hterm]
  by_cases hab : a = b
  · subst hab
    rw [if_pos rfl]
    have : w ^ a * w⁻¹ ^ a = 1 := by rw [← mul_pow, mul_inv_cancel₀ hw0, one_pow]
    rw [this]
    simp
  · rw [if_neg hab]
    have hne : w ^ a * w⁻¹ ^ b ≠ 1 := by
      intro h
      apply hab
      rw [inv_pow, mul_inv_eq_one₀ (pow_ne_zero _ hw0)] at h
      exact hw.pow_inj ha hb h
    rw [geom_sum_eq hne]
    have : (w ^ a * w⁻¹ ^ b) ^ n = 1 := by
      rw [mul_pow, ← pow_mul, ← pow_mul, mul_comm a, mul_comm b, pow_mul, pow_mul, inv_pow, hw.pow_eq_one]
      simp
    rw [this, sub_self, zero_div]

/-- The full transform. -/
noncomputable def dft (n : ℕ) (x : ℕ → ℂ) (k : ℕ) : ℂ := ∑ j ∈ range n, x j * (starRingEnd ℂ) (wave n k j)

/-- The full inverse transform. -/
noncomputable def idft (n : ℕ) (X : ℕ → ℂ) (j : ℕ) : ℂ := 1 / (n : ℂ) * ∑ k ∈ range n, X k * wave n k j

theorem dft_idft {n : ℕ} (X : ℕ → ℂ) {k : ℕ} (hk : k < n) : dft n (idft n X) k = X k := by
  have hn : (n : ℂ) ≠ 0 := by simp; omega
  unfold dft idft
  have : ∀ j ∈ range n, 1 / (n : ℂ) * (∑ l ∈ range n, X l * wave n l j) * (starRingEnd ℂ) (wave n k j) =
      ∑ l ∈ range n, 1 / (n : ℂ) * X l * (wave n j l * (starRingEnd ℂ) (wave n j k)) := by
    intro j _
    rw [mul_assoc, Finset.sum_mul, Finset.mul_sum]
    refine Finset.sum_congr rfl fun l _ => ?_
    rw [wave_comm l j, wave_comm k j]
    ring
  rw [Finset.sum_congr rfl this, Finset.sum_comm]
  have h2 : ∀ l ∈ range n, ∑ j ∈ range n, 1 / (n : ℂ) * X l * (wave n j l * (starRingEnd ℂ) (wave n j k)) =
      if l = k then X k else 0 := by
    intro l hl
    rw [← Finset.mul_sum, wave_ortho (mem_range.mp hl) hk]
    split
    · next h => subst h; field_simp
    · simp
  rw [Finset.sum_congr rfl h2, Finset.sum_ite_eq' (range n) k, if_pos (mem_range.mpr hk)]

theorem idft_dft {n : ℕ} (x : ℕ → ℂ) {j : ℕ} (hj : j < n) : idft n (dft n x) j = x j := by
  have hn : (n : ℂ) ≠ 0 := by simp; omega
  unfold dft idft
  have : ∀ k ∈ range n, (∑ l ∈ range n, x l * (starRingEnd ℂ) (wave n k l)) * wave n k j =
      ∑ l ∈ range n, x l * (wave n k j * (starRingEnd ℂ) (wave n k l)) := by
    intro k _
    rw [Finset.sum_mul]
    exact Finset.sum_congr rfl fun l _ => by ring
  rw [Finset.sum_congr rfl this, Finset.sum_comm]
  have h2 : ∀ l ∈ range n, ∑ k ∈ range n, x l * (wave n k j * (starRingEnd ℂ) (wave n k l)) =
      if j = l then n * x l else 0 := by
    intro l hl
    rw [← Finset.mul_sum, wave_ortho hj (mem_range.mp hl)]
    split
    · ring
    · simp
  rw [Finset.sum_congr rfl h2, Finset.sum_ite_eq (range n) j, if_pos (mem_range.mpr hj)]
  field_simp

/-- Parseval. -/
theorem parseval (n : ℕ) (x : ℕ → ℂ) :
    ∑ k ∈ range n, dft n x k * (starRingEnd ℂ) (dft n x k) = n * ∑ j ∈ range n, x j * (starRingEnd ℂ) (x j) := by
  unfold dft
  have : ∀ k ∈ range n, (∑ j ∈ range n, x j * (starRingEnd ℂ) (wave n k j)) *
      (starRingEnd ℂ) (∑ j ∈ range n, x j * (starRingEnd ℂ) (wave n k j)) =
      ∑ j ∈ range n, ∑ l ∈ range n, x j * (starRingEnd ℂ) (x l) * (wave n k l * (starRingEnd ℂ) (wave n k j)) := by
    intro k _
    rw [map_sum, Finset.sum_mul_sum]
    refine Finset.sum_congr rfl fun j _ => Finset.sum_congr rfl fun l _ => ?_
    rw [map_mul, Complex.conj_conj]
    ring
  rw [Finset.sum_congr rfl this, Finset.sum_comm, Finset.mul_sum]
  refine Finset.sum_congr rfl fun j hj => ?_
  rw [Finset.sum_comm]
  have h2 : ∀ l ∈ range n, ∑ k ∈ range n, x j * (starRingEnd ℂ) (x l) * (wave n k l * (starRingEnd ℂ) (wave n k j)) =
      if l = j then n * (x j * (starRingEnd ℂ) (x j)) else 0 := by
    intro l hl
    rw [← Finset.mul_sum, wave_ortho (mem_range.mp hl) (mem_range.mp hj)]
    split
    · next h => subst h; ring
    · simp
  rw [Finset.sum_congr rfl h2, Finset.sum_ite_eq' (range n) j, if_pos hj]

/-! ## Real data -/

theorem wave_reflect {n k j : ℕ} (hk0 : 0 < k) (hk : k < n) : wave n (n - k) j = (starRingEnd ℂ) (wave n k j) := by
  have hn : n ≠ 0 := by omega
  have hw := Complex.isPrimitiveRoot_exp n hn
  rw [conj_wave, wave_eq_pow]
  set w := Complex.exp (2 * Real.pi * Complex.I / n)
  rw [inv_pow]
  refine eq_inv_of_mul_eq_one_left ?_
  rw [← pow_add, ← Nat.add_mul, Nat.sub_add_cancel hk.le, pow_mul,
    hw.pow_eq_one, one_pow]

/-- The transform of real data is conjugate at opposite frequencies. -/
theorem dft_reflect {n k : ℕ} {x : ℕ → ℂ} (hx : ∀ j, (starRingEnd ℂ) (x j) = x j) (hk0 : 0 < k) (hk : k < n) :
    dft n x (n - k) = (starRingEnd ℂ) (dft n x k) := by
  unfold dft
  rw [map_sum]
  refine Finset.sum_congr rfl fun j _ => ?_
  rw [map_mul, hx, wave_reflect hk0 hk]

/-- The inverse transform of a spectrum that is conjugate at opposite frequencies is real. -/
theorem idft_real {n : ℕ} {X : ℕ → ℂ} (h0 : (starRingEnd ℂ) (X 0) = X 0)
    (hX : ∀ k, 0 < k → k < n → X (n - k) = (starRingEnd ℂ) (X k)) (j : ℕ) :
    (starRingEnd ℂ) (idft n X j) = idft n X j := by
  unfold idft
  rw [map_mul, map_div₀, map_one, Complex.conj_natCast, map_sum]
  congr 1
  cases n with
  | zero => simp
  | succ n =>
    rw [Finset.sum_range_succ', Finset.sum_range_succ']
    congr 1
    · rw [← Finset.sum_range_reflect]
      refine Finset.sum_congr rfl fun k hk => ?_
      have hk' := mem_range.mp hk
      rw [map_mul]
      have e : n - 1 - k + 1 = (n + 1) - (k + 1) := by omega
      rw [e, hX (k + 1) (by omega) (by omega), wave_reflect (by omega) (by omega), Complex.conj_conj, Complex.conj_conj]
    · rw [map_mul, h0, conj_wave, wave_eq_pow]
      simp

/-- A list as a sequence of complex numbers. -/
noncomputable def seqOf (x : List ℝ) (j : ℕ) : ℂ := ((x[j]?).getD 0 : ℝ)

theorem rfft_length (x : List ℝ) : (rfft x).length = x.length / 2 + 1 := by simp [rfft]

theorem rfft_get {x : List ℝ} {k : ℕ} (hk : k ≤ x.length / 2) : (rfft x)[k]? = some (dft x.length (seqOf x) k) := by
  unfold rfft
  rw [List.getElem?_map, List.getElem?_range (by omega)]
  rfl

/-- The weight of a mask at every frequency. -/
noncomputable def maskFull (mask : List ℝ) (n k : ℕ) : ℝ :=
  if k ≤ n / 2 then (mask[k]?).getD 0 else (mask[n - k]?).getD 0

theorem seqOf_real (x : List ℝ) (j : ℕ) : (starRingEnd ℂ) (seqOf x j) = seqOf x j := Complex.conj_ofReal _

/-- The completed spectrum after masking. -/
theorem hermitian_mask {x mask : List ℝ} (hm : mask.length = x.length / 2 + 1) {k : ℕ} (hk : k < x.length) :
    hermitian (List.zipWith (fun (z : ℂ) (m : ℝ) => z * m) (rfft x) mask) x.length k =
      maskFull mask x.length k * dft x.length (seqOf x) k := by
  have hget : ∀ l ≤ x.length / 2, ((List.zipWith (fun (z : ℂ) (m : ℝ) => z * m) (rfft x) mask)[l]?).getD 0 =
      (mask[l]?).getD 0 * dft x.length (seqOf x) l := by
    intro l hl
    rw [List.getElem?_zipWith, rfft_get hl]
    have : l < mask.length := by omega
    rw [List.getElem?_eq_getElem this]
    simp [mul_comm]
  unfold hermitian maskFull
  split
  · next h => exact hget k h
  · next h =>
    rw [hget (x.length - k) (by omega), map_mul, Complex.conj_ofReal]
    have : dft x.length (seqOf x) (x.length - k) = (starRingEnd ℂ) (dft x.length (seqOf x) k) :=
      dft_reflect (seqOf_real x) (by omega) hk
    rw [this, Complex.conj_conj]

theorem maskFull_reflect {mask : List ℝ} {n k : ℕ} (hk : k < n) :
    maskFull mask n (n - k) = maskFull mask n k := by
  unfold maskFull
  by_cases h1 : k ≤ n / 2
  · rw [if_pos h1]
    by_cases h2 : n - k ≤ n / 2
    · have : n - k = k := by omega
      rw [if_pos h2, this]
    · rw [if_neg h2, Nat.sub_sub_self hk.le]
  · rw [if_neg h1, if_pos (by omega)]

/-- The filtered data as an inverse transform. -/
theorem lowpass_get {x mask : List ℝ} (hm : mask.length = x.length / 2 + 1) {j : ℕ} (hj : j < x.length) :
    seqOf (lowpassFFT x mask) j =
      idft x.length (fun k => maskFull mask x.length k * dft x.length (seqOf x) k) j := by
  have hreal := idft_real (n := x.length) (X := fun k => maskFull mask x.length k * dft x.length (seqOf x) k)
    (by
      rw [map_mul, Complex.conj_ofReal]
      congr 1
      unfold dft
      rw [map_sum]
      refine Finset.sum_congr rfl fun j _ => ?_
      rw [map_mul, seqOf_real, Complex.conj_conj, conj_wave, wave_eq_pow]
      simp)
    (by
      intro k hk0 hk
      rw [map_mul, Complex.conj_ofReal, maskFull_reflect hk, dft_reflect (seqOf_real x) hk0 hk]) j
  rw [← Complex.conj_eq_iff_re.mp hreal]
  unfold seqOf lowpassFFT irfft idft
  rw [List.getElem?_map, List.getElem?_range hj]
  simp only [Option.map_some, Option.getD_some]
  congr 3
  refine Finset.sum_congr rfl fun k hk => ?_
  rw [hermitian_mask hm (mem_range.mp hk)]
  rfl

theorem lowpass_length (x mask : List ℝ) : (lowpassFFT x mask).length = x.length := by
  simp [lowpassFFT, irfft]

theorem dft_congr {n : ℕ} {x y : ℕ → ℂ} (h : ∀ j < n, x j = y j) (k : ℕ) : dft n x k = dft n y k :=
  Finset.sum_congr rfl fun j hj => by rw [h j (mem_range.mp hj)]

/-- The transform of the filtered data, at all frequencies. -/
theorem dft_lowpass {x mask : List ℝ} (hm : mask.length = x.length / 2 + 1) {k : ℕ} (hk : k < x.length) :
    dft x.length (seqOf (lowpassFFT x mask)) k = maskFull mask x.length k * dft x.length (seqOf x) k := by
  rw [dft_congr (fun j hj => lowpass_get hm hj) k, dft_idft _ hk]

end GwEcc.Filter
