import Verif.Lemmas.KeplerExists
import Mathlib.MeasureTheory.Integral.IntervalIntegral.Periodic

/-! A Keplerian motion is periodic: the true anomaly gains 2π in the same time from every starting point. -/

namespace GwEcc.Spec
open Real

variable {e p : ℝ} {f : ℝ → ℝ}

theorem f_strictMono (he : 0 ≤ e) (he1 : e < 1) (hp : 0 < p) (h : KeplerOrbit e p f) : StrictMono f :=
  strictMono_of_deriv_pos fun t => by
    rw [(f_deriv he he1 hp h t).deriv]
    have := Real.sqrt_pos.mpr hp
    have := u_pos he he1 (f t)
    positivity

theorem f_continuous (h : KeplerOrbit e p f) : Continuous f :=
  continuous_iff_continuousAt.mpr fun t => (h.areaLaw t).continuousAt

theorem exists_period (he : 0 ≤ e) (he1 : e < 1) (hp : 0 < p) (h : KeplerOrbit e p f) :
    ∃ T, OrbitalPeriod f T := by
  set κ : ℝ := √p / p ^ 2 with hκ
  have hκpos : 0 < κ := by have := Real.sqrt_pos.mpr hp; positivity
  set g : ℝ → ℝ := fun x => (κ * (1 + e * Real.cos x) ^ 2)⁻¹ with hg
  have hupos : ∀ x, 0 < 1 + e * Real.cos x := u_pos he he1
  have hgpos : ∀ x, 0 < g x := fun x => by
    have := hupos x; simp only [hg]; positivity
  have hgc : Continuous g := by
    simp only [hg]
    apply Continuous.inv₀
    · fun_prop
    · intro x; have := hupos x; positivity
  have hgper : Function.Periodic g (2 * π) := by
    intro x; simp only [hg, Real.cos_add_two_pi]
  set H : ℝ → ℝ := fun x => ∫ y in (0:ℝ)..x, g y with hH
  have hHd : ∀ x, HasDerivAt H (g x) x := fun x =>
    intervalIntegral.integral_hasDerivAt_right (hgc.intervalIntegrable _ _)
      (hgc.stronglyMeasurableAtFilter _ _) hgc.continuousAt
  have hHmono : StrictMono H := strictMono_of_deriv_pos (fun x => by rw [(hHd x).deriv]; exact hgpos x)
  have hHper : ∀ x, H (x + 2 * π) = H x + H (2 * π) := by
    intro x
    have h1 : H (x + 2 * π) - H x = ∫ y in x..(x + 2 * π), g y := by
      simp only [hH]
      rw [intervalIntegral.integral_interval_sub_left (hgc.intervalIntegrable _ _) (hgc.intervalIntegrable _ _)]
    have h2 := hgper.intervalIntegral_add_eq x 0
    rw [zero_add] at h2
    rw [h2] at h1
    linarith
  have hcomp : ∀ t, HasDerivAt (fun t => H (f t) - t) 0 t := by
    intro t
    have h1 := ((hHd (f t)).comp t (f_deriv he he1 hp h t)).sub (hasDerivAt_id t)
    refine HasDerivAt.congr_deriv (f := fun t => H (f t) - t) h1 ?_
    simp only [hg]
    rw [← hκ]
    have := hupos (f t)
    field_simp
    ring
  have hconst : ∀ s t, H (f s) - s = H (f t) - t := by
    intro s t
    exact is_const_of_deriv_eq_zero (fun t => (hcomp t).differentiableAt) (fun t => (hcomp t).deriv) s t
  refine ⟨H (2 * π), ?_, ?_⟩
  · have := hHmono (by positivity : (0:ℝ) < 2 * π)
    have h0 : H 0 = 0 := by simp [hH]
    linarith
  · intro t
    apply hHmono.injective
    have := hconst (t + H (2 * π)) t
    rw [hHper]
    linarith

end GwEcc.Spec
