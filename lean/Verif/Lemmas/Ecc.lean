import Verif.Model.Ecc
import Mathlib.Analysis.SpecialFunctions.Trigonometric.Deriv
import Mathlib.Tactic.Linarith
import Mathlib.Tactic.FieldSimp
import Mathlib.Tactic.Ring
import Mathlib.Tactic.Positivity

/-! Helper lemmas for the eccentricity formula. -/

namespace GwEcc
open Real

/-- norm of the point handed to `arctan2`. -/
theorem norm_pt (w : ℝ) : ‖(⟨2 * w, 1 - w * w⟩ : ℂ)‖ = 1 + w * w := by
  rw [Complex.norm_def, Complex.normSq_mk]
  rw [show 2 * w * (2 * w) + (1 - w * w) * (1 - w * w) = (1 + w * w) ^ 2 by ring]
  exact Real.sqrt_sq (by nlinarith [mul_self_nonneg w])

theorem cos_psi (w : ℝ) : Real.cos (arctan2 (1 - w * w) (2 * w)) = 2 * w / (1 + w * w) := by
  unfold arctan2
  have h : (⟨2 * w, 1 - w * w⟩ : ℂ) ≠ 0 := by
    intro h
    have := norm_pt w
    rw [h, norm_zero] at this
    nlinarith [mul_self_nonneg w]
  rw [Complex.cos_arg h, norm_pt]

theorem psi_nonneg {w : ℝ} (hw : w * w ≤ 1) : 0 ≤ arctan2 (1 - w * w) (2 * w) := by
  unfold arctan2
  rw [Complex.arg_nonneg_iff]
  simpa using hw

theorem psi_le_pi (w : ℝ) : arctan2 (1 - w * w) (2 * w) ≤ π := Complex.arg_le_pi _

theorem psi_eq_arccos {w : ℝ} (hw : w * w ≤ 1) :
    arctan2 (1 - w * w) (2 * w) = Real.arccos (2 * w / (1 + w * w)) := by
  rw [← cos_psi, Real.arccos_cos (psi_nonneg hw) (psi_le_pi w)]

theorem et_eq_cos (w : ℝ) :
    etFromEw22 w = 2 * Real.cos (arctan2 (1 - w * w) (2 * w) / 3 + π / 3) := by
  unfold etFromEw22
  simp only
  rw [Real.cos_add, Real.cos_pi_div_three, Real.sin_pi_div_three]
  ring

/-- the cubic identity behind Eq. (8) of arXiv:2302.11257. -/
theorem et_cubic (w : ℝ) :
    (etFromEw22 w) ^ 3 - 3 * etFromEw22 w = - (4 * w / (1 + w * w)) := by
  have h3 := Real.cos_three_mul (arctan2 (1 - w * w) (2 * w) / 3 + π / 3)
  have h : 3 * (arctan2 (1 - w * w) (2 * w) / 3 + π / 3) = arctan2 (1 - w * w) (2 * w) + π := by ring
  rw [h, Real.cos_add_pi, cos_psi] at h3
  rw [et_eq_cos]
  have : 4 * w / (1 + w * w) = 2 * (2 * w / (1 + w * w)) := by ring
  rw [this]
  nlinarith [h3]

theorem et_lt_one {w : ℝ} (hw : w * w < 1) : etFromEw22 w < 1 := by
  have hpos : 0 < arctan2 (1 - w * w) (2 * w) := by
    rcases (psi_nonneg hw.le).lt_or_eq with h | h
    · exact h
    · exfalso
      have hc := cos_psi w
      rw [← h, Real.cos_zero] at hc
      have hp : 0 < 1 + w * w := by nlinarith [mul_self_nonneg w]
      rw [eq_div_iff hp.ne'] at hc
      have : w = 1 := by nlinarith [sq_nonneg (w - 1)]
      rw [this] at hw; norm_num at hw
  rw [et_eq_cos]
  have h1 : Real.cos (arctan2 (1 - w * w) (2 * w) / 3 + π / 3) < Real.cos (π / 3) := by
    apply Real.cos_lt_cos_of_nonneg_of_le_pi
    · positivity
    · have := psi_le_pi w; linarith [Real.pi_pos]
    · linarith
  rw [Real.cos_pi_div_three] at h1
  linarith

theorem et_gt_neg_one {w : ℝ} (hw : w * w < 1) : -1 < etFromEw22 w := by
  have hlt : arctan2 (1 - w * w) (2 * w) < π := by
    unfold arctan2
    rw [Complex.arg_lt_pi_iff]
    right
    simp only
    intro h
    nlinarith
  rw [et_eq_cos]
  have h1 : Real.cos (2 * π / 3) < Real.cos (arctan2 (1 - w * w) (2 * w) / 3 + π / 3) := by
    apply Real.cos_lt_cos_of_nonneg_of_le_pi
    · have := psi_nonneg hw.le
      positivity
    · linarith [Real.pi_pos]
    · linarith
  have h2 : Real.cos (2 * π / 3) = -(1/2) := by
    rw [show 2 * π / 3 = π - π / 3 by ring, Real.cos_pi_sub, Real.cos_pi_div_three]
  rw [h2] at h1
  linarith

/-- Uniqueness: on `[-1,1]` the cubic `x ↦ x^3 - 3x` is strictly decreasing. -/
theorem cubic_anti {x y : ℝ} (hx : -1 ≤ x) (hy : y ≤ 1) (hxy : x < y) :
    y ^ 3 - 3 * y < x ^ 3 - 3 * x := by
  have h1 : x < 1 := by linarith
  have h2 : -1 < y := by linarith
  have key : x ^ 3 - 3 * x - (y ^ 3 - 3 * y) = (y - x) * (3 - (x ^ 2 + x * y + y ^ 2)) := by ring
  have : x ^ 2 + x * y + y ^ 2 < 3 := by
    nlinarith [mul_nonneg (show 0 ≤ 1 + x by linarith) (show 0 ≤ 1 - x by linarith),
      mul_nonneg (show 0 ≤ 1 + y by linarith) (show 0 ≤ 1 - y by linarith),
      mul_pos (show 0 < 1 - x by linarith) (show 0 < 1 + y by linarith),
      mul_pos (sub_pos.mpr hxy) (sub_pos.mpr hxy)]
  nlinarith [mul_pos (sub_pos.mpr hxy) (sub_pos.mpr this)]

theorem cubic_inj {x y : ℝ} (hx : -1 ≤ x) (hx' : x ≤ 1) (hy : -1 ≤ y) (hy' : y ≤ 1)
    (h : x ^ 3 - 3 * x = y ^ 3 - 3 * y) : x = y := by
  rcases lt_trichotomy x y with h1 | h1 | h1
  · have := cubic_anti hx hy' h1; linarith
  · exact h1
  · have := cubic_anti hy hx' h1; linarith

/-- `w ↦ 4w/(1+w²)` is strictly increasing on `[-1,1]`. -/
theorem ratio_mono {x y : ℝ} (hx : -1 ≤ x) (hy : y ≤ 1) (hxy : x < y) :
    4 * x / (1 + x * x) < 4 * y / (1 + y * y) := by
  have hpx : 0 < 1 + x * x := by nlinarith [mul_self_nonneg x]
  have hpy : 0 < 1 + y * y := by nlinarith [mul_self_nonneg y]
  rw [div_lt_div_iff₀ hpx hpy]
  have : x * y < 1 := by
    nlinarith [mul_pos (show 0 < 1 - x by linarith) (show 0 < 1 + y by linarith),
      mul_nonneg (show 0 ≤ 1 + x by linarith) (show 0 ≤ 1 - y by linarith)]
  nlinarith [mul_pos (sub_pos.mpr hxy) (sub_pos.mpr this)]

theorem et_strictMono {x y : ℝ} (hx : -1 < x) (hy : y < 1) (hxy : x < y) :
    etFromEw22 x < etFromEw22 y := by
  have hx2 : x * x < 1 := by nlinarith
  have hy2 : y * y < 1 := by nlinarith
  have h := ratio_mono hx.le hy.le hxy
  rcases lt_trichotomy (etFromEw22 x) (etFromEw22 y) with h1 | h1 | h1
  · exact h1
  · have ex := et_cubic x; have ey := et_cubic y
    rw [h1] at ex; linarith
  · have := cubic_anti (et_gt_neg_one hy2).le (et_lt_one hx2).le h1
    rw [et_cubic, et_cubic] at this; linarith

theorem et_zero : etFromEw22 0 = 0 := by
  have hc := et_cubic 0
  have h1 := et_lt_one (w := 0) (by norm_num)
  have h2 := et_gt_neg_one (w := 0) (by norm_num)
  exact cubic_inj h2.le h1.le (by norm_num) (by norm_num) (by rw [hc]; norm_num)

theorem eOmega_sq_lt {wp wa : ℝ} (hp : 0 < wp) (ha : 0 < wa) :
    eOmega wp wa * eOmega wp wa < 1 := by
  have hp' := Real.sqrt_pos.mpr hp
  have ha' := Real.sqrt_pos.mpr ha
  unfold eOmega
  rw [div_mul_div_comm, div_lt_one (by positivity)]
  nlinarith [mul_pos hp' ha']

theorem eOmega_gt {wp wa : ℝ} (hp : 0 < wp) (ha : 0 < wa) : -1 < eOmega wp wa := by
  have := eOmega_sq_lt hp ha; nlinarith

theorem eOmega_lt {wp wa : ℝ} (hp : 0 < wp) (ha : 0 < wa) : eOmega wp wa < 1 := by
  have := eOmega_sq_lt hp ha; nlinarith

/-- `e_ω` is strictly increasing in the ratio of frequencies. -/
theorem eOmega_lt_iff {wp wa wp' wa' : ℝ} (hp : 0 < wp) (ha : 0 < wa) (hp' : 0 < wp') (ha' : 0 < wa') :
    eOmega wp wa < eOmega wp' wa' ↔ wp / wa < wp' / wa' := by
  have h1 := Real.sqrt_pos.mpr hp
  have h2 := Real.sqrt_pos.mpr ha
  have h3 := Real.sqrt_pos.mpr hp'
  have h4 := Real.sqrt_pos.mpr ha'
  unfold eOmega
  rw [div_lt_div_iff₀ (by positivity) (by positivity), div_lt_div_iff₀ ha ha']
  have e1 : wp * wa' < wp' * wa ↔ √wp * √wa' < √wp' * √wa := by
    rw [← Real.sqrt_mul hp.le, ← Real.sqrt_mul hp'.le]
    exact (Real.sqrt_lt_sqrt_iff (by positivity)).symm
  rw [e1]
  constructor <;> intro h <;> nlinarith

theorem eOmega_eq_zero_iff {wp wa : ℝ} (hp : 0 < wp) (ha : 0 < wa) : eOmega wp wa = 0 ↔ wp = wa := by
  have h1 := Real.sqrt_pos.mpr hp
  have h2 := Real.sqrt_pos.mpr ha
  unfold eOmega
  rw [div_eq_zero_iff, or_iff_left (by positivity), sub_eq_zero, Real.sqrt_inj hp.le ha.le]

end GwEcc
