import Verif.Lemmas.Harmonics
import Mathlib.Algebra.Polynomial.Reverse
import Mathlib.Algebra.BigOperators.Field
import Mathlib.Analysis.Complex.Trigonometric

/-!
# C121: the spin-weighted spherical harmonics that come with the SEOBNRv4EHM wrapper
-/

namespace GwEcc

open Gen Polynomial Finset

/-- The harmonic is a number for all degrees, orders and directions, and zero where there is no harmonic of spin weight -2. -/
theorem C121_total (ell m : ℤ) (theta phi : ℝ) :
    ∃ y, ylm ell m theta phi = .ok y ∧ (ell < 2 ∨ ell < |m| → y = 0) := by
  by_cases h : ell < 2 ∨ ell < |m|
  · refine ⟨0, ?_, fun _ => rfl⟩
    unfold ylm
    rw [dlm_none h]
    show Except.ok _ = _
    simp
  · push Not at h
    obtain ⟨l, rfl⟩ : ∃ l : ℕ, ell = l + 2 := ⟨(ell - 2).toNat, by omega⟩
    obtain ⟨j, rfl⟩ : ∃ j : ℕ, m = j - (l + 2) := ⟨(m + (l + 2)).toNat, by
      rcases abs_cases m with ⟨h1, _⟩ | ⟨h1, _⟩ <;> omega⟩
    have hj : j ≤ 2 * (l + 2) := by
      rcases abs_cases ((j : ℤ) - (l + 2)) with ⟨h1, _⟩ | ⟨h1, _⟩ <;> omega
    unfold ylm
    rw [dlm_coeff l j hj]
    exact ⟨_, rfl, fun h' => absurd h' (by push Not; exact h)⟩

/-- Turning the direction about the axis turns the phase of the harmonic. -/
theorem C121_rotation (ell m : ℤ) (theta phi alpha : ℝ) (y : ℂ) (h : ylm ell m theta phi = .ok y) :
    ylm ell m theta (phi + alpha) = .ok (y * Complex.exp (Complex.I * m * alpha)) := by
  unfold ylm at h ⊢
  obtain ⟨d, hd, h⟩ := bind_ok h
  rw [hd]
  rw [← Except.ok.inj h]
  show Except.ok _ = _
  refine congrArg Except.ok ?_
  push_cast
  rw [mul_add, Complex.exp_add]
  ring

theorem reflect_pow_linear (a b : ℝ) (n : ℕ) : ((C a * X + C b) ^ n).reflect n = (C b * X + C a) ^ n := by
  ext i
  rw [coeff_reflect, coeff_pow_linear, coeff_pow_linear]
  rcases le_or_gt i n with h | h
  · rw [revAt_le h, Nat.choose_symm h, Nat.sub_sub_self h]
    ring
  · rw [revAt_eq_self_of_lt h, Nat.choose_eq_zero_of_lt h]
    simp

theorem powers_swap (c s : ℝ) (A B j : ℕ) (hj : j ≤ A + B) :
    (powers s c A B).coeff (A + B - j) = (-1) ^ B * (powers c s A B).coeff j := by
  have h1 : (powers s c A B).reflect (A + B) = C ((-1) ^ B) * powers c s A B := by
    unfold powers
    rw [reflect_mul, reflect_pow_linear, reflect_pow_linear]
    · rw [show (C s * X + C (-c) : ℝ[X]) = C (-1) * (C (-s) * X + C c) by simp only [C_neg, C_1]; ring, mul_pow, ← C_pow]
      ring
    · exact natDegree_pow_le_of_le A (natDegree_linear_le (a := s) (b := c)) |>.trans (by simp)
    · exact natDegree_pow_le_of_le B (natDegree_linear_le (a := -c) (b := s)) |>.trans (by simp)
  have h2 := congrArg (fun p => p.coeff j) h1
  simp only [coeff_reflect, coeff_C_mul, revAt_le hj] at h2
  exact h2

/-- Reflection at the equator: the harmonic of the opposite order in the mirrored direction is the complex conjugate, with the
sign of the degree. -/
theorem C121_reflection (ell m : ℤ) (theta phi : ℝ) (y : ℂ) (h : ylm ell m theta phi = .ok y) :
    ylm ell (-m) (Real.pi - theta) phi = .ok ((-1) ^ ell * (starRingEnd ℂ) y) := by
  by_cases hn : ell < 2 ∨ ell < |m|
  · obtain ⟨y', h1, h2⟩ := C121_total ell m theta phi
    obtain ⟨y'', h3, h4⟩ := C121_total ell (-m) (Real.pi - theta) phi
    rw [h] at h1
    rw [h3, Except.ok.inj h1, h2 hn, h4 (by rwa [abs_neg])]
    simp
  · push Not at hn
    obtain ⟨l, rfl⟩ : ∃ l : ℕ, ell = l + 2 := ⟨(ell - 2).toNat, by omega⟩
    obtain ⟨j, rfl⟩ : ∃ j : ℕ, m = j - (l + 2) := ⟨(m + (l + 2)).toNat, by
      rcases abs_cases m with ⟨h1, _⟩ | ⟨h1, _⟩ <;> omega⟩
    have hj : j ≤ 2 * (l + 2) := by
      rcases abs_cases ((j : ℤ) - (l + 2)) with ⟨h1, _⟩ | ⟨h1, _⟩ <;> omega
    unfold ylm at h ⊢
    rw [dlm_coeff l j hj] at h
    rw [← Except.ok.inj h, show -((j : ℤ) - (l + 2)) = ((2 * (l + 2) - j : ℕ) : ℤ) - (l + 2) by omega,
      dlm_coeff l _ (Nat.sub_le _ _), show (Real.pi - theta) / 2 = Real.pi / 2 - theta / 2 by ring, Real.cos_pi_div_two_sub,
      Real.sin_pi_div_two_sub, show 2 * (l + 2) - j = l + 4 + l - j by omega, powers_swap _ _ _ _ _ (by omega)]
    have hw : weight (2 * (l + 2)) (l + 4 + l - j) (l + 4) l = weight (2 * (l + 2)) j (l + 4) l := by
      unfold weight
      rw [show 2 * (l + 2) - (l + 4 + l - j) = j by omega, show l + 4 + l - j = 2 * (l + 2) - j by omega, mul_comm]
    rw [hw]
    show Except.ok _ = _
    refine congrArg Except.ok ?_
    simp only [map_mul, Complex.conj_ofReal, ← Complex.exp_conj, Complex.conj_I, map_intCast]
    rw [show ((l : ℤ) + 2) = ((l + 2 : ℕ) : ℤ) by push_cast; rfl, zpow_natCast,
      show (((l + 4 + l - j : ℕ) : ℤ) - ((l + 2 : ℕ) : ℤ)) = -((j : ℤ) - ((l + 2 : ℕ) : ℤ)) by omega]
    push_cast
    rw [pow_add]
    ring_nf

/-- In every direction the squares of the moduli of all harmonics of a degree add up to the same number (the
addition theorem). -/
theorem C121_sum_rule (ell : ℤ) (hl : 2 ≤ ell) (theta phi : ℝ) (y : ℤ → ℂ)
    (hy : ∀ m, ylm ell m theta phi = .ok (y m)) :
    ∑ m ∈ Icc (-ell) ell, ‖y m‖ ^ 2 = (2 * ell + 1) / (4 * Real.pi) := by
  obtain ⟨l, rfl⟩ : ∃ l : ℕ, ell = l + 2 := ⟨(ell - 2).toNat, by omega⟩
  set c := Real.cos (theta / 2)
  set s := Real.sin (theta / 2)
  have hterm : ∀ j ∈ range (2 * (l + 2) + 1), ‖y ((j : ℤ) - (l + 2))‖ ^ 2 = (2 * ((l : ℝ) + 2) + 1) / (4 * Real.pi) *
      (((j.factorial * (l + 4 + l - j).factorial : ℝ) * ((powers c s (l + 4) l).coeff j * (powers c s (l + 4) l).coeff j)) /
        ((l + 4).factorial * l.factorial)) := by
    intro j hj
    rw [mem_range] at hj
    have h := hy ((j : ℤ) - (l + 2))
    unfold ylm at h
    rw [dlm_coeff l j (by omega)] at h
    rw [← Except.ok.inj h, norm_mul, norm_mul, Complex.norm_exp]
    rw [show (Complex.I * (((j : ℤ) - ((l : ℤ) + 2) : ℤ) : ℂ) * (phi : ℂ)).re = 0 by simp, Real.exp_zero, mul_one, mul_pow,
      Complex.norm_real, Complex.norm_real, Real.norm_eq_abs, Real.norm_eq_abs, sq_abs, sq_abs, mul_pow]
    unfold weight
    rw [Real.sq_sqrt (by positivity), Real.sq_sqrt (by positivity), show 2 * (l + 2) - j = l + 4 + l - j by omega]
    push_cast
    ring
  have hsum : ∑ m ∈ Icc (-((l : ℤ) + 2)) (l + 2), ‖y m‖ ^ 2 = ∑ j ∈ range (2 * (l + 2) + 1), ‖y ((j : ℤ) - (l + 2))‖ ^ 2 := by
    refine (sum_bij (fun (j : ℕ) _ => (j : ℤ) - (l + 2)) ?_ ?_ ?_ ?_).symm
    · intro j hj; rw [mem_range] at hj; rw [mem_Icc]; omega
    · intro a _ b _ hab; simpa using hab
    · intro m hm
      rw [mem_Icc] at hm
      exact ⟨(m + (l + 2)).toNat, by rw [mem_range]; omega, by omega⟩
    · intro j _; rfl
  have hnorm := powers_norm (c := c) (s := s) (by rw [add_comm]; exact Real.sin_sq_add_cos_sq (theta / 2)) (l + 4) l
  unfold form at hnorm
  rw [hsum, sum_congr rfl hterm, ← mul_sum, ← sum_div, show 2 * (l + 2) + 1 = l + 4 + l + 1 by omega, hnorm,
    div_self (by positivity), mul_one]
  push_cast
  rfl

/-- Along the axis only the order 2 is left. -/
theorem C121_axis (ell : ℤ) (hl : 2 ≤ ell) (m : ℤ) (phi : ℝ) : ylm ell m 0 phi =
    .ok (if m = 2 then Real.sqrt ((2 * ell + 1) / (4 * Real.pi)) * Complex.exp (Complex.I * 2 * phi) else 0) := by
  by_cases hn : ell < |m|
  · obtain ⟨y, h1, h2⟩ := C121_total ell m 0 phi
    rw [h1, h2 (.inr hn), if_neg]
    rintro rfl
    rw [abs_of_nonneg (by norm_num)] at hn
    omega
  · push Not at hn
    obtain ⟨l, rfl⟩ : ∃ l : ℕ, ell = l + 2 := ⟨(ell - 2).toNat, by omega⟩
    obtain ⟨j, rfl⟩ : ∃ j : ℕ, m = j - (l + 2) := ⟨(m + (l + 2)).toNat, by
      rcases abs_cases m with ⟨h1, _⟩ | ⟨h1, _⟩ <;> omega⟩
    have hj : j ≤ 2 * (l + 2) := by
      rcases abs_cases ((j : ℤ) - (l + 2)) with ⟨h1, _⟩ | ⟨h1, _⟩ <;> omega
    unfold ylm
    rw [dlm_coeff l j hj, zero_div, Real.cos_zero, Real.sin_zero]
    have hp : (powers 1 0 (l + 4) l).coeff j = if j = l + 4 then 1 else 0 := by
      unfold powers
      simp [coeff_X_pow]
    rw [hp]
    show Except.ok _ = _
    refine congrArg Except.ok ?_
    by_cases hj' : j = l + 4
    · subst hj'
      have hw : weight (2 * (l + 2)) (l + 4) (l + 4) l = 1 := by
        unfold weight
        rw [show 2 * (l + 2) - (l + 4) = l by omega, div_self (by positivity), Real.sqrt_one]
      rw [if_pos rfl, if_pos (by push_cast; ring), hw]
      push_cast
      rw [mul_one, mul_one]
      refine congrArg₂ _ rfl (congrArg _ ?_)
      ring
    · rw [if_neg hj', if_neg (by omega)]
      simp

/-- The dominant harmonic as it is found in the literature. -/
theorem C121_quadrupole (theta phi : ℝ) :
    ylm 2 2 theta phi = .ok (Real.sqrt (5 / (64 * Real.pi)) * (1 + Real.cos theta) ^ 2 * Complex.exp (2 * Complex.I * phi)) := by
  have h := dlm_coeff 0 4 (by norm_num) theta
  rw [show ((0 : ℕ) : ℤ) + 2 = 2 by norm_num, show ((4 : ℕ) : ℤ) - 2 = 2 by norm_num] at h
  unfold ylm
  rw [h]
  have hp : (powers (Real.cos (theta / 2)) (Real.sin (theta / 2)) (0 + 4) 0).coeff 4 = Real.cos (theta / 2) ^ 4 := by
    unfold powers
    rw [pow_zero, mul_one, coeff_pow_linear]
    norm_num
  have hw : weight (2 * (0 + 2)) 4 (0 + 4) 0 = 1 := by
    unfold weight
    norm_num
  have hc : Real.cos (theta / 2) ^ 2 = (1 + Real.cos theta) / 2 := by
    rw [Real.cos_sq, show 2 * (theta / 2) = theta by ring]; ring
  have hs : Real.sqrt ((2 * ((2 : ℤ) : ℝ) + 1) / (4 * Real.pi)) = 4 * Real.sqrt (5 / (64 * Real.pi)) := by
    rw [show (2 * ((2 : ℤ) : ℝ) + 1) / (4 * Real.pi) = 4 ^ 2 * (5 / (64 * Real.pi)) by push_cast; field_simp; norm_num,
      Real.sqrt_mul (by norm_num), Real.sqrt_sq (by norm_num)]
  show Except.ok _ = _
  refine congrArg Except.ok ?_
  rw [hp, hw, one_mul, show Real.cos (theta / 2) ^ 4 = ((1 + Real.cos theta) / 2) ^ 2 by rw [← hc]; ring]
  have hs' := congrArg (fun x : ℝ => (x : ℂ)) hs
  push_cast at hs' ⊢
  rw [hs']
  ring_nf

/-- The harmonics of one degree exist as one function of the order, as `C121_sum_rule` asks for. -/
example (theta phi : ℝ) : ∃ y : ℤ → ℂ, ∀ m, ylm 3 m theta phi = .ok (y m) :=
  ⟨fun m => (C121_total 3 m theta phi).choose, fun m => (C121_total 3 m theta phi).choose_spec.1⟩

/-- There is a harmonic to which `C121_rotation` and `C121_reflection` apply. -/
example : ∃ y : ℂ, y ≠ 0 ∧ ylm 2 2 0 0 = .ok y := by
  refine ⟨_, ?_, C121_quadrupole 0 0⟩
  have : 0 < Real.sqrt (5 / (64 * Real.pi)) := Real.sqrt_pos.mpr (by positivity)
  simp only [Real.cos_zero, ne_eq, mul_eq_zero, Complex.exp_ne_zero, or_false, not_or]
  refine ⟨by exact_mod_cast this.ne', by norm_num⟩

end GwEcc
