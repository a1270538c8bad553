import Verif.Lemmas.Kepler
import Mathlib.Analysis.SpecialFunctions.Integrals.Basic
import Mathlib.Analysis.Calculus.Deriv.MeanValue
import Mathlib.Topology.Order.MonotoneContinuity
import Mathlib.Analysis.Calculus.Deriv.Inverse

/-! Keplerian motions exist for every `0 ≤ e < 1`, `0 < p`; every phase is reached. -/

namespace GwEcc.Spec
open Real

/-- A strictly increasing, surjective primitive of `1/κ(1+e cos)²` has an inverse which is the orbit. -/
theorem exists_kepler {e p : ℝ} (he : 0 ≤ e) (he1 : e < 1) (hp : 0 < p) :
    ∃ f : ℝ → ℝ, KeplerOrbit e p f ∧ Function.Surjective f := by
  set κ : ℝ := √p / p ^ 2 with hκ
  have hκpos : 0 < κ := by have := Real.sqrt_pos.mpr hp; positivity
  set g : ℝ → ℝ := fun x => (κ * (1 + e * Real.cos x) ^ 2)⁻¹ with hg
  have hupos : ∀ x, 0 < 1 + e * Real.cos x := u_pos he he1
  have hgpos : ∀ x, 0 < g x := fun x => by
    have := hupos x; simp only [hg]; positivity
  have hgc : Continuous g := by
    simp only [hg]
    apply Continuous.inv₀
    · fun_prop
    · intro x; have := hupos x; positivity
  set T : ℝ → ℝ := fun x => ∫ y in (0:ℝ)..x, g y with hT
  have hTd : ∀ x, HasDerivAt T (g x) x := fun x =>
    intervalIntegral.integral_hasDerivAt_right (hgc.intervalIntegrable _ _)
      (hgc.stronglyMeasurableAtFilter _ _) hgc.continuousAt
  have hTmono : StrictMono T := strictMono_of_deriv_pos (fun x => by rw [(hTd x).deriv]; exact hgpos x)
  have hTcont : Continuous T := continuous_iff_continuousAt.mpr (fun x => (hTd x).continuousAt)
  -- lower bound on the derivative
  set m : ℝ := (κ * (1 + e) ^ 2)⁻¹ with hm
  have hmpos : 0 < m := by positivity
  have hgm : ∀ x, m ≤ g x := fun x => by
    simp only [hm, hg]
    have h1 := hupos x
    have h2 := Real.cos_le_one x
    apply inv_anti₀ (by positivity)
    apply mul_le_mul_of_nonneg_left _ hκpos.le
    apply pow_le_pow_left₀ h1.le
    nlinarith
  have hT0 : T 0 = 0 := by simp [hT]
  have hlb : ∀ x, 0 ≤ x → m * x ≤ T x := by
    intro x hx
    have h1 : ∫ y in (0:ℝ)..x, m ≤ ∫ y in (0:ℝ)..x, g y :=
      intervalIntegral.integral_mono_on hx (by simp) (hgc.intervalIntegrable _ _) (fun y _ => hgm y)
    simp at h1; simp only [hT]; linarith
  have hub : ∀ x, x ≤ 0 → T x ≤ m * x := by
    intro x hx
    have h1 : ∫ y in x..(0:ℝ), m ≤ ∫ y in x..(0:ℝ), g y :=
      intervalIntegral.integral_mono_on hx (by simp) (hgc.intervalIntegrable _ _) (fun y _ => hgm y)
    simp at h1; simp only [hT]; rw [intervalIntegral.integral_symm]; linarith
  have hTsurj : Function.Surjective T := by
    apply hTcont.surjective
    · refine Filter.tendsto_atTop_mono' _ (f₁ := fun x => m * x) ?_ (Filter.Tendsto.const_mul_atTop hmpos Filter.tendsto_id)
      filter_upwards [Filter.eventually_ge_atTop 0] with x hx using hlb x hx
    · refine Filter.tendsto_atBot_mono' _ (f₁ := fun x => m * x) ?_ (Filter.Tendsto.const_mul_atBot hmpos Filter.tendsto_id)
      filter_upwards [Filter.eventually_le_atBot 0] with x hx using hub x hx
  let iso := StrictMono.orderIsoOfSurjective T hTmono hTsurj
  refine ⟨iso.symm, ⟨?_⟩, iso.symm.surjective⟩
  intro t
  have hcontf : ContinuousAt iso.symm t := iso.symm.continuous.continuousAt
  have hleft : ∀ y, T (iso.symm y) = y := fun y => iso.apply_symm_apply y
  have hd := (hTd (iso.symm t)).of_local_left_inverse hcontf (hgpos _).ne'
    (Filter.Eventually.of_forall hleft)
  refine hd.congr_deriv ?_
  simp only [hg, inv_inv, hκ]
  unfold separation
  have := hupos (iso.symm t)
  field_simp

end GwEcc.Spec
