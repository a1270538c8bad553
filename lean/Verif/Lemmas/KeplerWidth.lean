import Verif.Lemmas.KeplerEquation
import Verif.Lemmas.KeplerMonotone
import Verif.Lemmas.FindPeaksWidth
import Mathlib.Analysis.Real.Pi.Bounds
import Mathlib.Analysis.SpecialFunctions.Trigonometric.Bounds

/-!
# How wide the peaks of a Newtonian signal are, for eccentricities up to 1/10
-/

namespace GwEcc

open Spec Real

namespace KeplerWidth

/-- The eccentric anomaly on the half orbit after pericenter. -/
theorem ecc_anomaly {e l x : ℝ} (he : 0 ≤ e) (he1 : e < 1) (h : KeplerEquation e l x) (h0 : 0 ≤ l) (h1 : l ≤ π) :
    ∃ u, l ≤ u ∧ u ≤ l + e ∧ u ≤ π ∧ cos x = (cos u - e) / (1 - e * cos u) := by
  obtain ⟨u, hu, hc, _⟩ := h
  have hlip : ∀ a b : ℝ, a < b → sin b - sin a ≤ b - a := by
    intro a b hab
    have : |sin b - sin a| ≤ |b - a| := by
      have := abs_sin_sub_sin_le b a
      exact this
    have h2 := (abs_le.mp this).2
    rwa [abs_of_pos (by linarith)] at h2
  have hmono : ∀ a b : ℝ, a < b → a - e * sin a < b - e * sin b := by
    intro a b hab
    have := hlip a b hab
    nlinarith
  have hu0 : 0 ≤ u := by
    by_contra hn
    have := hmono u 0 (not_le.mp hn)
    rw [sin_zero] at this
    linarith
  have hu1 : u ≤ π := by
    by_contra hn
    have := hmono π u (not_le.mp hn)
    rw [sin_pi] at this
    linarith
  have hs := sin_nonneg_of_nonneg_of_le_pi hu0 hu1
  have hs1 := sin_le_one u
  exact ⟨u, by nlinarith, by nlinarith, hu1, hc⟩

theorem neg_kepler {e l x : ℝ} (h : KeplerEquation e l x) : KeplerEquation e (-l) (-x) := by
  obtain ⟨u, hu, hc, hs⟩ := h
  refine ⟨-u, by rw [sin_neg, hu]; ring, by rw [cos_neg, cos_neg, hc], by rw [sin_neg, sin_neg, cos_neg, hs]; ring⟩

/-- The same on both sides of pericenter, in terms of `cos u`. -/
theorem ecc_anomaly_abs {e l x : ℝ} (he : 0 ≤ e) (he1 : e < 1) (h : KeplerEquation e l x) (h1 : |l| ≤ π) :
    ∃ u, |l| ≤ u ∧ u ≤ |l| + e ∧ u ≤ π ∧ cos x = (cos u - e) / (1 - e * cos u) := by
  rcases abs_cases l with ⟨ha, h0⟩ | ⟨ha, h0⟩
  · rw [ha] at h1 ⊢
    exact ecc_anomaly he he1 h h0 h1
  · rw [ha] at h1 ⊢
    have := ecc_anomaly he he1 (neg_kepler h) (by linarith) h1
    rwa [cos_neg] at this

variable {e l x : ℝ}

theorem cos_third (he : 0 ≤ e) (he1 : e ≤ 1 / 10) (h : KeplerEquation e l x) (hl : |l| ≤ π / 3) : 3 / 10 ≤ cos x := by
  obtain ⟨u, h1, h2, h3, hc⟩ := ecc_anomaly_abs he (by linarith) h (by linarith [pi_pos])
  have hu : 0 ≤ u := (abs_nonneg l).trans h1
  have hcu : 3 / 10 + e ≤ cos u := by
    have : cos (π / 3 + e) ≤ cos u := cos_le_cos_of_nonneg_of_le_pi hu (by linarith [pi_gt_three]) (by linarith)
    rw [cos_add, cos_pi_div_three, sin_pi_div_three] at this
    have c1 := one_sub_sq_div_two_le_cos (x := e)
    have s1 := sin_le he
    have q3 : √3 ≤ 1.7321 := by
      rw [sqrt_le_left (by norm_num)]; norm_num
    have s0 : 0 ≤ sin e := sin_nonneg_of_nonneg_of_le_pi he (by linarith [pi_gt_three])
    have q0 : 0 ≤ √3 := sqrt_nonneg _
    nlinarith [mul_le_mul q3 s1 s0 (by norm_num : (0:ℝ) ≤ 1.7321)]
  have hd : 0 < 1 - e * cos u := by nlinarith [cos_le_one u]
  rw [hc, le_div_iff₀ hd]
  nlinarith

theorem cos_quarter (he : 0 ≤ e) (he1 : e ≤ 1 / 10) (h : KeplerEquation e l x) (hl : |l| ≤ π / 4) : 1 / 2 ≤ cos x := by
  obtain ⟨u, h1, h2, h3, hc⟩ := ecc_anomaly_abs he (by linarith) h (by linarith [pi_pos])
  have hu : 0 ≤ u := (abs_nonneg l).trans h1
  have hcu : 1 / 2 + e ≤ cos u := by
    have : cos (π / 4 + e) ≤ cos u := cos_le_cos_of_nonneg_of_le_pi hu (by linarith [pi_gt_three]) (by linarith)
    rw [cos_add, cos_pi_div_four, sin_pi_div_four] at this
    have c1 := one_sub_sq_div_two_le_cos (x := e)
    have s1 := sin_le he
    have q2 : 1.414 ≤ √2 := le_sqrt_of_sq_le (by norm_num)
    have hpos : 0 ≤ cos e - sin e := by nlinarith
    nlinarith [mul_le_mul_of_nonneg_right q2 hpos]
  have hd : 0 < 1 - e * cos u := by nlinarith [cos_le_one u]
  rw [hc, le_div_iff₀ hd]
  nlinarith

theorem cos_far (he : 0 ≤ e) (he1 : e ≤ 1 / 10) (h : KeplerEquation e l x) (h0 : 3 * π / 4 ≤ |l|) (hl : |l| ≤ π) :
    cos x ≤ -(7 / 10) := by
  obtain ⟨u, h1, h2, h3, hc⟩ := ecc_anomaly_abs he (by linarith) h hl
  have hcu : cos u ≤ -(√2 / 2) := by
    have : cos u ≤ cos (3 * π / 4) := cos_le_cos_of_nonneg_of_le_pi (by positivity) h3 (by linarith)
    rwa [show 3 * π / 4 = π - π / 4 by ring, cos_pi_sub, cos_pi_div_four] at this
  have q2 : 1.414 ≤ √2 := le_sqrt_of_sq_le (by norm_num)
  have hd : 0 < 1 - e * cos u := by nlinarith [cos_le_one u]
  rw [hc, div_le_iff₀ hd]
  nlinarith

theorem cos_two_thirds (he : 0 ≤ e) (he1 : e ≤ 1 / 10) (h : KeplerEquation e l x) (h0 : 2 * π / 3 ≤ |l|) (hl : |l| ≤ π) :
    cos x ≤ -(1 / 2) := by
  obtain ⟨u, h1, h2, h3, hc⟩ := ecc_anomaly_abs he (by linarith) h hl
  have hcu : cos u ≤ -(1 / 2) := by
    have : cos u ≤ cos (2 * π / 3) := cos_le_cos_of_nonneg_of_le_pi (by positivity) h3 (by linarith)
    rw [show 2 * π / 3 = π - π / 3 by ring, cos_pi_sub, cos_pi_div_three] at this
    linarith
  have hd : 0 < 1 - e * cos u := by nlinarith [cos_le_one u]
  rw [hc, div_le_iff₀ hd]
  nlinarith

/-! ### The signal -/

/-- Amplitude as a function of `u = 1 + e cos f`, up to a factor. -/
noncomputable def ampOf (e u : ℝ) : ℝ := √(16 * u ^ 3 + 4 * (u - (1 - e ^ 2)) ^ 2)

theorem ampOf_peak (he : 0 < e) (he1 : e ≤ 1 / 10) : ampOf e (1 + e) + ampOf e (1 - 7 / 10 * e) < 2 * ampOf e (1 + 3 / 10 * e) := by
  have e2 : e ^ 2 ≤ 1 / 10 * e := by nlinarith
  have e3 : e ^ 3 ≤ 1 / 10 * e ^ 2 := by nlinarith [sq_nonneg e]
  have e4 : e ^ 4 ≤ 1 / 10 * e ^ 3 := by nlinarith [pow_pos he 3]
  have p2 := pow_pos he 2
  have p3 := pow_pos he 3
  have p4 := pow_pos he 4
  unfold ampOf
  have u1 : 0 ≤ 1 - 7 / 10 * e := by linarith
  have hp : 0 ≤ 16 * (1 + e) ^ 3 + 4 * ((1 + e) - (1 - e ^ 2)) ^ 2 := by positivity
  have hq : 0 ≤ 16 * (1 - 7 / 10 * e) ^ 3 + 4 * ((1 - 7 / 10 * e) - (1 - e ^ 2)) ^ 2 := by positivity
  have hr : 0 ≤ 16 * (1 + 3 / 10 * e) ^ 3 + 4 * ((1 + 3 / 10 * e) - (1 - e ^ 2)) ^ 2 := by positivity
  have key : (16 * (1 + e) ^ 3 + 4 * ((1 + e) - (1 - e ^ 2)) ^ 2) +
      (16 * (1 - 7 / 10 * e) ^ 3 + 4 * ((1 - 7 / 10 * e) - (1 - e ^ 2)) ^ 2) <
      2 * (16 * (1 + 3 / 10 * e) ^ 3 + 4 * ((1 + 3 / 10 * e) - (1 - e ^ 2)) ^ 2) := by
    ring_nf
    linarith
  have a := sq_sqrt hp
  have b := sq_sqrt hq
  have c := sq_sqrt hr
  refine lt_of_pow_lt_pow_left₀ 2 (by positivity) ?_
  nlinarith [sq_nonneg (√(16 * (1 + e) ^ 3 + 4 * ((1 + e) - (1 - e ^ 2)) ^ 2) - √(16 * (1 - 7 / 10 * e) ^ 3 + 4 * ((1 - 7 / 10 * e) - (1 - e ^ 2)) ^ 2))]

theorem ampOf_trough (he : 0 < e) (he1 : e ≤ 1 / 10) : 2 * ampOf e (1 - 1 / 2 * e) < ampOf e (1 - e) + ampOf e (1 + 1 / 2 * e) := by
  have e2 : e ^ 2 ≤ 1 / 10 * e := by nlinarith
  have e3 : e ^ 3 ≤ 1 / 10 * e ^ 2 := by nlinarith [sq_nonneg e]
  have e4 : e ^ 4 ≤ 1 / 10 * e ^ 3 := by nlinarith [pow_pos he 3]
  have p2 := pow_pos he 2
  have p3 := pow_pos he 3
  have p4 := pow_pos he 4
  unfold ampOf
  have h1 : 2 * ((1 - e) * (2 - e)) ≤ √(16 * (1 - e) ^ 3 + 4 * ((1 - e) - (1 - e ^ 2)) ^ 2) := by
    refine le_sqrt_of_sq_le (le_of_eq ?_)
    ring
  have h2 : 2 * (2 + 3 / 2 * e) ≤ √(16 * (1 + 1 / 2 * e) ^ 3 + 4 * ((1 + 1 / 2 * e) - (1 - e ^ 2)) ^ 2) := by
    refine le_sqrt_of_sq_le ?_
    ring_nf
    linarith
  have h3 : √(16 * (1 - 1 / 2 * e) ^ 3 + 4 * ((1 - 1 / 2 * e) - (1 - e ^ 2)) ^ 2) ≤ 2 * (2 - 3 / 2 * e + 3 / 10 * e ^ 2) := by
    rw [sqrt_le_left (by nlinarith)]
    ring_nf
    linarith
  nlinarith

theorem freqOf_peak (he : 0 < e) (he1 : e ≤ 1 / 10) : freqOf e (1 + e) + freqOf e (1 - 7 / 10 * e) < 2 * freqOf e (1 + 3 / 10 * e) := by
  have e2 : e ^ 2 ≤ 1 / 10 * e := by nlinarith
  have e3 : e ^ 3 ≤ 1 / 10 * e ^ 2 := by nlinarith [sq_nonneg e]
  have e4 : e ^ 4 ≤ 1 / 10 * e ^ 3 := by nlinarith [pow_pos he 3]
  have e5 : e ^ 5 ≤ 1 / 10 * e ^ 4 := by nlinarith [pow_pos he 4]
  have p2 := pow_pos he 2
  have p3 := pow_pos he 3
  have p4 := pow_pos he 4
  have p5 := pow_pos he 5
  have h1 : freqOf e (1 + e) ≤ 2 + 33 / 10 * e := by
    unfold freqOf
    rw [div_le_iff₀ (by positivity)]
    ring_nf
    linarith
  have h2 : freqOf e (1 - 7 / 10 * e) ≤ 2 - 2 * e + 1 / 10 * e := by
    have u1 : 0 < 1 - 7 / 10 * e := by linarith
    unfold freqOf
    rw [div_le_iff₀ (by positivity)]
    ring_nf
    linarith
  have h3 : 2 + 8 / 10 * e ≤ freqOf e (1 + 3 / 10 * e) := by
    unfold freqOf
    rw [le_div_iff₀ (by positivity)]
    ring_nf
    linarith
  linarith

theorem freqOf_trough (he : 0 < e) (he1 : e ≤ 1 / 10) : 2 * freqOf e (1 - 1 / 2 * e) < freqOf e (1 - e) + freqOf e (1 + 1 / 2 * e) := by
  have e2 : e ^ 2 ≤ 1 / 10 * e := by nlinarith
  have e3 : e ^ 3 ≤ 1 / 10 * e ^ 2 := by nlinarith [sq_nonneg e]
  have e4 : e ^ 4 ≤ 1 / 10 * e ^ 3 := by nlinarith [pow_pos he 3]
  have e5 : e ^ 5 ≤ 1 / 10 * e ^ 4 := by nlinarith [pow_pos he 4]
  have p2 := pow_pos he 2
  have p3 := pow_pos he 3
  have p4 := pow_pos he 4
  have p5 := pow_pos he 5
  have h1 : 2 - 3 * e ≤ freqOf e (1 - e) := by
    have u1 : 0 < 1 - e := by linarith
    unfold freqOf
    rw [le_div_iff₀ (by positivity)]
    ring_nf
    linarith
  have h2 : 2 + 13 / 10 * e ≤ freqOf e (1 + 1 / 2 * e) := by
    unfold freqOf
    rw [le_div_iff₀ (by positivity)]
    ring_nf
    linarith
  have h3 : freqOf e (1 - 1 / 2 * e) ≤ 2 - 13 / 10 * e := by
    have u1 : 0 < 1 - 1 / 2 * e := by linarith
    unfold freqOf
    rw [div_le_iff₀ (by positivity)]
    ring_nf
    linarith
  linarith

/-! ### The samples -/

/-- A highest sample: all samples within `d` samples of it are above the middle between it and `β`, and somewhere on both sides the
data come down to `β`. -/
theorem wide {x : List ℝ} {p d : ℕ} (hm : IsMaximum x p) (htop : ∀ j, j < x.length → x.getD j 0 ≤ x.getD p 0) {β : ℝ}
    (hl : ∃ j, j ≤ p ∧ x.getD j 0 ≤ β) (hr : ∃ j, p ≤ j ∧ j < x.length ∧ x.getD j 0 ≤ β)
    (hnear : ∀ j, j < x.length → j ≤ p + d → p ≤ j + d → (x.getD p 0 + β) / 2 < x.getD j 0) :
    ∃ v, HasWidth x p v ∧ (2 * d : ℝ) ≤ v := by
  have h := width_hasWidth hm
  refine ⟨_, h, ?_⟩
  generalize width x none (1 / 2) p = w at h
  obtain ⟨l, r, a, b, ⟨a₀, h1, _, h2, _, h3⟩, ⟨b₀, g1, g2, _, g3, _, g4⟩, ⟨k, k1, _, k2, _, k3, _⟩, ⟨m, m1, m2, _, m3, m4, _, _⟩, rfl⟩ := h
  have ha0 : a₀ = 0 := by
    by_contra hne
    have hp : p < x.length := by
      obtain ⟨l', r', ht, rfl⟩ := hm
      have := ht.le
      have := ht.lt
      omega
    exact absurd (h2 (by omega)) (not_lt.mpr (htop _ (by omega)))
  have hb0 : b₀ + 1 = x.length := by
    by_contra hne
    exact absurd (g3 (by omega)) (not_lt.mpr (htop _ (by omega)))
  obtain ⟨jl, hjl, hjl'⟩ := hl
  obtain ⟨jr, hjr, hjr1, hjr'⟩ := hr
  have hlb : l ≤ β := (h3 jl (by omega) hjl).trans hjl'
  have hrb : r ≤ β := (g4 jr hjr (by omega)).trans hjr'
  have hmax : max l r ≤ β := max_le hlb hrb
  have c1 : k + d < p := by
    by_contra hn
    have := hnear k (by omega) (by omega) (by omega)
    linarith
  have c2 : p + d ≤ m := by
    by_contra hn
    have := hnear (m + 1) m2 (by omega) (by omega)
    linarith
  have c1' : (k : ℝ) + d + 1 ≤ p := by exact_mod_cast c1
  have c2' : (p : ℝ) + d ≤ m := by exact_mod_cast c2
  linarith

end KeplerWidth

end GwEcc
