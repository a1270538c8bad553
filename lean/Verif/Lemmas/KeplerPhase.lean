import Verif.Lemmas.KeplerPeriod
import Mathlib.Analysis.SpecialFunctions.Complex.Arg
import Mathlib.Analysis.SpecialFunctions.Complex.CircleAddChar
import Mathlib.Topology.Order.IntermediateValue

/-! The phase of the Newtonian (2,2) mode gains twice the true anomaly from apsis to apsis. -/

namespace GwEcc.Spec
open Complex

variable {e p : ℝ} {f : ℝ → ℝ}

/-- The factor of the strain beside the amplitude scale and `- exp (-2 i f)`. -/
noncomputable def WW (e x : ℝ) : ℂ :=
  ⟨4 * (1 + e * Real.cos x) ^ 2 - 2 * e * (Real.cos x + e), 4 * e * Real.sin x * (1 + e * Real.cos x)⟩

theorem WW_apsis (he : 0 ≤ e) (he1 : e < 1) {x : ℝ} (hs : Real.sin x = 0) :
    0 < (WW e x).re ∧ (WW e x).im = 0 := by
  have hc : Real.cos x ^ 2 = 1 := by have := Real.sin_sq_add_cos_sq x; rw [hs] at this; linarith
  have hu := u_pos he he1 x
  constructor
  · have : (WW e x).re = 2 * (1 + e * Real.cos x) * (2 + e * Real.cos x) := by
      simp only [WW]; linear_combination (2 * e ^ 2) * hc
    rw [this]
    have : 0 < 2 + e * Real.cos x := by linarith
    positivity
  · simp [WW, hs]

theorem WW_slit (he : 0 ≤ e) (he1 : e < 1) (x : ℝ) : WW e x ∈ slitPlane := by
  rw [mem_slitPlane_iff]
  by_cases hs : Real.sin x = 0
  · exact Or.inl (WW_apsis he he1 hs).1
  · by_cases h0 : e = 0
    · left; subst h0; simp [WW]
    · right
      have := u_pos he he1 x
      simp only [WW]
      exact mul_ne_zero (mul_ne_zero (mul_ne_zero four_ne_zero h0) hs) this.ne'

theorem WW_continuous : Continuous (WW e) := by
  have : WW e = fun x => ((4 * (1 + e * Real.cos x) ^ 2 - 2 * e * (Real.cos x + e) : ℝ) : ℂ) +
      ((4 * e * Real.sin x * (1 + e * Real.cos x) : ℝ) : ℂ) * I := by
    funext x; exact Complex.mk_eq_add_mul_I _ _
  rw [this]
  fun_prop

theorem strain_WW (he : 0 ≤ e) (he1 : e < 1) (hp : 0 < p) (h : KeplerOrbit e p f) (t : ℝ) :
    strain22 e p f t = -((((Real.sqrt p / p ^ 2 * p) ^ 2 : ℝ) : ℂ) * (WW e (f t) * EE f t)) := by
  rw [strain_eq he he1 hp h]
  unfold Q2
  have hW : WW e (f t) = -(2 * e * (cc f t + e) - 4 * uu e f t ^ 2 - 4 * I * (e * ss f t) * uu e f t) := by
    have : WW e (f t) = ((4 * (1 + e * Real.cos (f t)) ^ 2 - 2 * e * (Real.cos (f t) + e) : ℝ) : ℂ) +
      ((4 * e * Real.sin (f t) * (1 + e * Real.cos (f t)) : ℝ) : ℂ) * I := Complex.mk_eq_add_mul_I _ _
    rw [this]
    unfold cc uu ss
    push_cast
    ring
  rw [hW]
  unfold kk
  push_cast
  ring

/-- The strain never vanishes. -/
theorem strain_ne (he : 0 ≤ e) (he1 : e < 1) (hp : 0 < p) (h : KeplerOrbit e p f) (t : ℝ) : strain22 e p f t ≠ 0 := by
  rw [strain_WW he he1 hp h]
  have := Real.sqrt_pos.mpr hp
  have h1 : (((Real.sqrt p / p ^ 2 * p) ^ 2 : ℝ) : ℂ) ≠ 0 := by
    have : 0 < (Real.sqrt p / p ^ 2 * p) ^ 2 := by positivity
    exact_mod_cast this.ne'
  exact neg_ne_zero.mpr (mul_ne_zero h1 (mul_ne_zero (slitPlane_ne_zero (WW_slit he he1 _)) (EE_ne t)))

theorem const_of_cos {D : ℝ → ℝ} (hD : Continuous D) (h : ∀ t, Real.cos (D t) = -1) (s t : ℝ) : D s = D t := by
  have key : ∀ s t, ¬ D s < D t := by
    intro s t hlt
    have hpi := Real.pi_pos
    obtain ⟨δ, hδ⟩ : ∃ δ, δ = min (D t - D s) Real.pi := ⟨_, rfl⟩
    have hδ0 : 0 < δ := by rw [hδ]; exact lt_min (by linarith) hpi
    have hδ1 : δ ≤ Real.pi := by rw [hδ]; exact min_le_right _ _
    have hδ2 : D s + δ ≤ D t := by have := min_le_left (D t - D s) Real.pi; rw [← hδ] at this; linarith
    obtain ⟨x, hx⟩ := mem_range_of_exists_le_of_exists_ge hD (c := D s + δ) ⟨s, by linarith⟩ ⟨t, hδ2⟩
    have h1 := h x
    rw [hx] at h1
    have hsin : Real.sin (D s) = 0 := by
      have := Real.sin_sq_add_cos_sq (D s)
      rw [h s] at this
      exact pow_eq_zero_iff (two_ne_zero) |>.mp (by linarith)
    rw [Real.cos_add, h s, hsin, zero_mul, sub_zero] at h1
    have h2 : Real.cos δ = 1 := by linarith
    rw [Real.cos_eq_one_iff_of_lt_of_lt (by linarith) (by linarith)] at h2
    linarith
  rcases lt_trichotomy (D s) (D t) with h1 | h1 | h1
  · exact absurd h1 (key s t)
  · exact h1
  · exact absurd h1 (key t s)

/-- The phase of the (2,2) mode, made continuous, gains `2 (f t - f s)` between two apsides. -/
theorem phase_apsis (he : 0 ≤ e) (he1 : e < 1) (hp : 0 < p) (h : KeplerOrbit e p f) {φ : ℝ → ℝ}
    (hφ : IsPhase (strain22 e p f) φ) {s t : ℝ} (hs : Real.sin (f s) = 0)
    (ht : Real.sin (f t) = 0) : φ t - φ s = 2 * (f t - f s) := by
  obtain ⟨hφ, hph⟩ := hφ
  have hfc := f_continuous h
  obtain ⟨D, hDdef⟩ : ∃ D : ℝ → ℝ, D = fun t => 2 * f t - arg (WW e (f t)) - φ t := ⟨_, rfl⟩
  have hDc : Continuous D := by
    rw [hDdef]
    have h1 : Continuous fun t => 2 * f t := continuous_const.mul hfc
    have h3 : Continuous fun t => WW e (f t) := WW_continuous.comp hfc
    have h2 : Continuous fun t => arg (WW e (f t)) := by
      rw [continuous_iff_continuousAt]
      intro x
      exact ContinuousAt.comp (f := fun t => WW e (f t)) (g := arg) (continuousAt_arg (WW_slit he he1 (f x))) h3.continuousAt
    exact (h1.sub h2).sub hφ
  have hA : 0 < (Real.sqrt p / p ^ 2 * p) ^ 2 := by have := Real.sqrt_pos.mpr hp; positivity
  have hcos : ∀ t, Real.cos (D t) = -1 := by
    intro t
    have h1 := hph t
    have hn : ‖strain22 e p f t‖ = (Real.sqrt p / p ^ 2 * p) ^ 2 * ‖WW e (f t)‖ := by
      rw [strain_WW he he1 hp h, norm_neg, norm_mul, norm_mul, Complex.norm_real, Real.norm_eq_abs, abs_of_pos hA]
      have : ‖EE f t‖ = 1 := by
        unfold EE
        rw [show (-2 * I * (f t : ℂ)) = ((-2 * f t : ℝ) : ℂ) * I by push_cast; ring, Complex.norm_exp_ofReal_mul_I]
      rw [this, mul_one]
    rw [hn] at h1
    rw [strain_WW he he1 hp h] at h1
    have hw : (‖WW e (f t)‖ : ℂ) * exp (arg (WW e (f t)) * I) = WW e (f t) := norm_mul_exp_arg_mul_I _
    have hwne : (‖WW e (f t)‖ : ℂ) ≠ 0 := by
      exact_mod_cast (norm_pos_iff.mpr (slitPlane_ne_zero (WW_slit he he1 (f t)))).ne'
    have hAne : (((Real.sqrt p / p ^ 2 * p) ^ 2 : ℝ) : ℂ) ≠ 0 := by exact_mod_cast hA.ne'
    rw [← hw] at h1
    have h2 : exp (-I * φ t) = -(exp (arg (WW e (f t)) * I) * EE f t) := by
      have h3 : (((Real.sqrt p / p ^ 2 * p) ^ 2 : ℝ) : ℂ) * (‖WW e (f t)‖ : ℂ) ≠ 0 := mul_ne_zero hAne hwne
      apply mul_left_cancel₀ h3
      rw [hw] at h1
      have h4 : (((Real.sqrt p / p ^ 2 * p) ^ 2 * ‖WW e (f t)‖ : ℝ) : ℂ)
          = (((Real.sqrt p / p ^ 2 * p) ^ 2 : ℝ) : ℂ) * (‖WW e (f t)‖ : ℂ) := by push_cast; ring
      rw [h4] at h1
      rw [← h1]
      linear_combination ((((Real.sqrt p / p ^ 2 * p) ^ 2 : ℝ) : ℂ) * EE f t) * hw
    have h5 : exp (((D t : ℝ) : ℂ) * I) = -1 := by
      have e1 : ((D t : ℝ) : ℂ) * I = 2 * I * f t + (-(arg (WW e (f t)) * I)) + (-I * φ t) := by
        rw [hDdef]; push_cast; ring
      rw [e1, exp_add, h2, exp_add, exp_neg]
      unfold EE
      have hne := exp_ne_zero (↑(arg (WW e (f t))) * I)
      have e2 : exp (2 * I * (f t : ℂ)) * exp (-2 * I * (f t : ℂ)) = 1 := by
        rw [← exp_add]; ring_nf; exact exp_zero
      have e3 : (exp (↑(arg (WW e (f t))) * I))⁻¹ * exp (↑(arg (WW e (f t))) * I) = 1 := inv_mul_cancel₀ hne
      linear_combination (-(exp (2 * I * (f t : ℂ)) * exp (-2 * I * (f t : ℂ)))) * e3 - e2
    have h6 := congrArg Complex.re h5
    rw [exp_ofReal_mul_I_re] at h6
    simpa using h6
  have hconst := const_of_cos hDc hcos s t
  have harg : ∀ x, Real.sin x = 0 → arg (WW e x) = 0 := by
    intro x hx
    obtain ⟨h1, h2⟩ := WW_apsis he he1 hx
    rw [arg_eq_zero_iff]
    exact ⟨h1.le, h2⟩
  simp only [hDdef, harg _ hs, harg _ ht] at hconst
  linarith

/-- A phase. -/
theorem explicit_phase (he : 0 ≤ e) (he1 : e < 1) (hp : 0 < p) (h : KeplerOrbit e p f) :
    IsPhase (strain22 e p f) fun t => 2 * f t - arg (WW e (f t)) - Real.pi := by
  have hfc := f_continuous h
  refine ⟨?_, ?_⟩
  · have h1 : Continuous fun t => 2 * f t := continuous_const.mul hfc
    have h3 : Continuous fun t => WW e (f t) := WW_continuous.comp hfc
    have h2 : Continuous fun t => arg (WW e (f t)) := by
      rw [continuous_iff_continuousAt]
      intro x
      exact ContinuousAt.comp (f := fun t => WW e (f t)) (g := arg) (continuousAt_arg (WW_slit he he1 (f x))) h3.continuousAt
    exact (h1.sub h2).sub continuous_const
  · intro t
    have hA : 0 < (Real.sqrt p / p ^ 2 * p) ^ 2 := by have := Real.sqrt_pos.mpr hp; positivity
    have hE : ‖EE f t‖ = 1 := by
      unfold EE
      rw [show (-2 * I * (f t : ℂ)) = ((-2 * f t : ℝ) : ℂ) * I by push_cast; ring, Complex.norm_exp_ofReal_mul_I]
    have hn : ‖strain22 e p f t‖ = (Real.sqrt p / p ^ 2 * p) ^ 2 * ‖WW e (f t)‖ := by
      rw [strain_WW he he1 hp h, norm_neg, norm_mul, norm_mul, Complex.norm_real, Real.norm_eq_abs, abs_of_pos hA, hE,
        mul_one]
    have hw : (‖WW e (f t)‖ : ℂ) * exp (arg (WW e (f t)) * I) = WW e (f t) := norm_mul_exp_arg_mul_I _
    have h5 : exp (-I * ((2 * f t - arg (WW e (f t)) - Real.pi : ℝ) : ℂ)) = -(exp (arg (WW e (f t)) * I) * EE f t) := by
      have e1 : -I * ((2 * f t - arg (WW e (f t)) - Real.pi : ℝ) : ℂ)
          = Real.pi * I + (arg (WW e (f t)) * I + -2 * I * f t) := by push_cast; ring
      rw [e1, exp_add, exp_pi_mul_I, exp_add]
      unfold EE
      ring
    rw [hn, h5, strain_WW he he1 hp h]
    push_cast
    linear_combination (-(((Real.sqrt p : ℂ) / (p : ℂ) ^ 2 * p) ^ 2 * EE f t)) * (-hw)

/-- Such a phase exists. -/
theorem exists_phase (he : 0 ≤ e) (he1 : e < 1) (hp : 0 < p) (h : KeplerOrbit e p f) : ∃ φ, IsPhase (strain22 e p f) φ :=
  ⟨_, explicit_phase he he1 hp h⟩

end GwEcc.Spec
