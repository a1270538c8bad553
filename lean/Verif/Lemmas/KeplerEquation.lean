import Verif.Lemmas.KeplerPeriod
import Mathlib.Analysis.SpecialFunctions.Trigonometric.ArctanDeriv

/-! Kepler's equation: time since pericenter, as a fraction of the period, and true anomaly. -/

namespace GwEcc.Spec
open Real

variable {e p : ℝ} {f : ℝ → ℝ}

/-- Eccentric anomaly of a true anomaly `x`, written so that it is continuous: `e = 2 b / (1 + b²)`. -/
noncomputable def eccAnomaly (b x : ℝ) : ℝ := x - 2 * arctan (b * sin x / (1 + b * cos x))

theorem eccAnomaly_add_two_pi (b x : ℝ) : eccAnomaly b (x + 2 * π) = eccAnomaly b x + 2 * π := by
  unfold eccAnomaly; rw [sin_add_two_pi, cos_add_two_pi]; ring

theorem exists_b (he : 0 ≤ e) (he1 : e < 1) : ∃ b, 0 ≤ b ∧ b < 1 ∧ e = 2 * b / (1 + b ^ 2) ∧
    √(1 - e ^ 2) = (1 - b ^ 2) / (1 + b ^ 2) := by
  have hs : 0 < 1 - e ^ 2 := by nlinarith
  have hs0 := sqrt_pos.mpr hs
  have hsq := sq_sqrt hs.le
  refine ⟨e / (1 + √(1 - e ^ 2)), by positivity, ?_, ?_, ?_⟩
  · rw [div_lt_one (by positivity)]; linarith
  · have : 1 + (e / (1 + √(1 - e ^ 2))) ^ 2 = 2 / (1 + √(1 - e ^ 2)) := by
      field_simp; linear_combination hsq
    rw [this]; field_simp
  · have h1 : 1 + (e / (1 + √(1 - e ^ 2))) ^ 2 = 2 / (1 + √(1 - e ^ 2)) := by
      field_simp; linear_combination hsq
    have h2 : 1 - (e / (1 + √(1 - e ^ 2))) ^ 2 = 2 * √(1 - e ^ 2) / (1 + √(1 - e ^ 2)) := by
      field_simp; linear_combination -hsq
    rw [h1, h2]; field_simp

section
variable {b : ℝ}

theorem eccAnomaly_deriv (hb : 0 ≤ b) (hb1 : b < 1) (x : ℝ) :
    HasDerivAt (eccAnomaly b) ((1 - b ^ 2) / (1 + 2 * b * cos x + b ^ 2)) x := by
  have hu := u_pos hb hb1 x
  have hg : HasDerivAt (fun x => b * sin x / (1 + b * cos x))
      ((b * cos x * (1 + b * cos x) - b * sin x * (b * -sin x)) / (1 + b * cos x) ^ 2) x :=
    ((hasDerivAt_sin x).const_mul b).div (((hasDerivAt_cos x).const_mul b).const_add 1) hu.ne'
  have h1 := (hasDerivAt_id x).sub ((hg.arctan).const_mul 2)
  refine HasDerivAt.congr_deriv (f := eccAnomaly b) h1 ?_
  have hc := sin_sq_add_cos_sq x
  have hpos : 0 < 1 + 2 * b * cos x + b ^ 2 := by
    have e1 : 1 + 2 * b * cos x + b ^ 2 = (1 + b * cos x) ^ 2 + (b * sin x) ^ 2 := by
      linear_combination (-b ^ 2) * hc
    rw [e1]; positivity
  have e1 : 1 + (b * sin x / (1 + b * cos x)) ^ 2 = (1 + 2 * b * cos x + b ^ 2) / (1 + b * cos x) ^ 2 := by
    field_simp; linear_combination (b ^ 2) * hc
  rw [e1]
  have e2 : b * cos x * (1 + b * cos x) - b * sin x * (b * -sin x) = b * (cos x + b) := by
    linear_combination (b ^ 2) * hc
  rw [e2]
  field_simp
  ring

theorem eccAnomaly_cos_sin (hb : 0 ≤ b) (hb1 : b < 1) (x : ℝ) :
    cos (eccAnomaly b x) = ((1 + b ^ 2) * cos x + 2 * b) / (1 + 2 * b * cos x + b ^ 2) ∧
    sin (eccAnomaly b x) = (1 - b ^ 2) * sin x / (1 + 2 * b * cos x + b ^ 2) := by
  have hu := u_pos hb hb1 x
  have hc := sin_sq_add_cos_sq x
  have hpos : 0 < 1 + 2 * b * cos x + b ^ 2 := by
    have e1 : 1 + 2 * b * cos x + b ^ 2 = (1 + b * cos x) ^ 2 + (b * sin x) ^ 2 := by
      linear_combination (-b ^ 2) * hc
    rw [e1]; positivity
  obtain ⟨g, hg⟩ : ∃ g, g = b * sin x / (1 + b * cos x) := ⟨_, rfl⟩
  have e1 : 1 + g ^ 2 = (1 + 2 * b * cos x + b ^ 2) / (1 + b * cos x) ^ 2 := by
    rw [hg]; field_simp; linear_combination (b ^ 2) * hc
  have c2 : cos (arctan g) ^ 2 = (1 + b * cos x) ^ 2 / (1 + 2 * b * cos x + b ^ 2) := by
    rw [cos_sq_arctan, e1]; field_simp
  have t1 : sin (arctan g) = g * cos (arctan g) := by
    have := tan_arctan g
    rw [tan_eq_sin_div_cos, div_eq_iff (cos_arctan_pos g).ne'] at this
    exact this
  have cc : cos (2 * arctan g) = 2 * ((1 + b * cos x) ^ 2 / (1 + 2 * b * cos x + b ^ 2)) - 1 := by
    rw [cos_two_mul, c2]
  have ss : sin (2 * arctan g) = 2 * (b * sin x / (1 + b * cos x)) * ((1 + b * cos x) ^ 2 / (1 + 2 * b * cos x + b ^ 2)) := by
    rw [sin_two_mul, t1, ← c2, ← hg]; ring
  unfold eccAnomaly
  rw [← hg, cos_sub, sin_sub, cc, ss]
  clear cc ss c2 e1 t1 hg
  obtain ⟨D, hD⟩ : ∃ D, D = 1 + 2 * b * cos x + b ^ 2 := ⟨_, rfl⟩
  rw [← hD] at hpos ⊢
  constructor
  · field_simp
    rw [hD]
    linear_combination (2 * b * (1 + b * cos x)) * hc
  · field_simp
    rw [hD]
    linear_combination (0 : ℝ) * hc

end

theorem sin_int_mul_two_pi (k : ℤ) : sin ((k : ℝ) * (2 * π)) = 0 := by
  rw [show (k : ℝ) * (2 * π) = ((2 * k : ℤ) : ℝ) * π by push_cast; ring, sin_int_mul_pi]

theorem kepler_equation (he : 0 ≤ e) (he1 : e < 1) (hp : 0 < p) (h : KeplerOrbit e p f) {T : ℝ} (hT : OrbitalPeriod f T)
    {τ : ℝ} (hτ : AtPericenter f τ) (t : ℝ) :
    KeplerEquation e (2 * π * ((t - τ) / T)) (f t) := by
  obtain ⟨hT, hper⟩ := hT
  obtain ⟨b, hb, hb1, heb, hsb⟩ := exists_b he he1
  have hb2 : 0 < 1 + b ^ 2 := by positivity
  have hden : ∀ x, 0 < 1 + 2 * b * cos x + b ^ 2 := by
    intro x
    have hu := u_pos hb hb1 x
    have e1 : 1 + 2 * b * cos x + b ^ 2 = (1 + b * cos x) ^ 2 + (b * sin x) ^ 2 := by
      linear_combination (-b ^ 2) * sin_sq_add_cos_sq x
    rw [e1]; positivity
  have hecos : ∀ x, 1 - e * cos (eccAnomaly b x) = (1 - b ^ 2) ^ 2 / ((1 + b ^ 2) * (1 + 2 * b * cos x + b ^ 2)) := by
    intro x
    have := hden x
    rw [(eccAnomaly_cos_sin hb hb1 x).1, heb]
    field_simp
    ring
  obtain ⟨n, hn⟩ : ∃ n, n = √p / p ^ 2 * ((1 - b ^ 2) / (1 + b ^ 2)) ^ 3 := ⟨_, rfl⟩
  have hG : ∀ t, HasDerivAt (fun t => eccAnomaly b (f t) - e * sin (eccAnomaly b (f t)) - n * t) 0 t := by
    intro t
    have hu : HasDerivAt (fun t => eccAnomaly b (f t)) ((1 - b ^ 2) / (1 + 2 * b * cos (f t) + b ^ 2) *
        (√p / p ^ 2 * (1 + e * cos (f t)) ^ 2)) t :=
      (eccAnomaly_deriv hb hb1 (f t)).comp t (f_deriv he he1 hp h t)
    have h1 := (hu.sub (hu.sin.const_mul e)).sub ((hasDerivAt_id t).const_mul n)
    refine HasDerivAt.congr_deriv
      (f := fun t => eccAnomaly b (f t) - e * sin (eccAnomaly b (f t)) - n * t) h1 ?_
    have h2 : ∀ A c : ℝ, A - e * (c * A) - n * 1 = (1 - e * c) * A - n := by intro A c; ring
    rw [h2, hecos, hn]
    have hd := hden (f t)
    have h3 : 1 + e * cos (f t) = (1 + 2 * b * cos (f t) + b ^ 2) / (1 + b ^ 2) := by
      rw [heb]; field_simp; ring
    rw [h3]
    generalize 1 + 2 * b * cos (f t) + b ^ 2 = D at hd ⊢
    field_simp
    ring
  have hconst : ∀ s t, eccAnomaly b (f s) - e * sin (eccAnomaly b (f s)) - n * s
      = eccAnomaly b (f t) - e * sin (eccAnomaly b (f t)) - n * t := fun s t =>
    is_const_of_deriv_eq_zero (fun t => (hG t).differentiableAt) (fun t => (hG t).deriv) s t
  have hnT : n * T = 2 * π := by
    have h1 := hconst (t + T) t
    rw [hper, eccAnomaly_add_two_pi, sin_add_two_pi] at h1
    linarith
  obtain ⟨k, hk⟩ := (cos_eq_one_iff _).mp hτ
  have hsin : sin (f τ) = 0 := by rw [← hk]; exact sin_int_mul_two_pi k
  have huτ : eccAnomaly b (f τ) = k * (2 * π) := by unfold eccAnomaly; rw [hsin]; simp [hk]
  have h1 := hconst t τ
  rw [huτ, show sin ((k : ℝ) * (2 * π)) = 0 from sin_int_mul_two_pi k] at h1
  have hl : 2 * π * ((t - τ) / T) = n * (t - τ) := by rw [← hnT]; field_simp
  refine ⟨eccAnomaly b (f t) - k * (2 * π), ?_, ?_, ?_⟩
  · rw [hl, sin_sub_int_mul_two_pi]
    linarith
  · rw [cos_sub_int_mul_two_pi, hecos, (eccAnomaly_cos_sin hb hb1 (f t)).1, heb]
    have hd := hden (f t)
    have h3 : 1 - b ^ 2 ≠ 0 := by nlinarith
    obtain ⟨D, hD⟩ : ∃ D, D = 1 + 2 * b * cos (f t) + b ^ 2 := ⟨_, rfl⟩
    rw [← hD] at hd ⊢
    rw [eq_div_iff (by positivity)]
    field_simp
    rw [hD]
    ring
  · rw [cos_sub_int_mul_two_pi, sin_sub_int_mul_two_pi, hecos, (eccAnomaly_cos_sin hb hb1 (f t)).2, hsb]
    have hd := hden (f t)
    have h3 : 1 - b ^ 2 ≠ 0 := by nlinarith
    obtain ⟨D, hD⟩ : ∃ D, D = 1 + 2 * b * cos (f t) + b ^ 2 := ⟨_, rfl⟩
    rw [← hD] at hd ⊢
    rw [eq_div_iff (by positivity)]
    field_simp

end GwEcc.Spec
