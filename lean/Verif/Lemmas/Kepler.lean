import Verif.Spec.Kepler
import Mathlib.Analysis.Complex.RealDeriv
import Mathlib.Tactic.Linarith
import Mathlib.Tactic.FieldSimp
import Mathlib.Tactic.Ring
import Mathlib.Tactic.Positivity
import Mathlib.Tactic.LinearCombination

/-! Derivation of the (2,2) frequency of a Keplerian binary at pericenter and apocenter. -/

namespace GwEcc.Spec
open Complex

noncomputable section

variable {e p : ℝ} {f : ℝ → ℝ}

/-- `1 + e cos f` as a complex number. -/
def uu (e : ℝ) (f : ℝ → ℝ) (t : ℝ) : ℂ := ((1 + e * Real.cos (f t) : ℝ) : ℂ)

theorem u_pos (he : 0 ≤ e) (he1 : e < 1) (x : ℝ) : 0 < 1 + e * Real.cos x := by
  nlinarith [Real.neg_one_le_cos x]

theorem f_deriv (he : 0 ≤ e) (he1 : e < 1) (hp : 0 < p) (h : KeplerOrbit e p f) (t : ℝ) :
    HasDerivAt f (Real.sqrt p / p ^ 2 * (1 + e * Real.cos (f t)) ^ 2) t := by
  have := h.areaLaw t
  convert this using 1
  unfold separation
  have := u_pos he he1 (f t)
  field_simp

/-- prefactor `κ = √p / p²`, complex. -/
def kk (p : ℝ) : ℂ := ((Real.sqrt p / p ^ 2 : ℝ) : ℂ)

def EE (f : ℝ → ℝ) (t : ℝ) : ℂ := Complex.exp (-2 * I * (f t : ℂ))

def cc (f : ℝ → ℝ) (t : ℝ) : ℂ := ((Real.cos (f t) : ℝ) : ℂ)
def ss (f : ℝ → ℝ) (t : ℝ) : ℂ := ((Real.sin (f t) : ℝ) : ℂ)

theorem cs (f : ℝ → ℝ) (t : ℝ) : cc f t ^ 2 + ss f t ^ 2 = 1 := by
  unfold cc ss; norm_cast; rw [add_comm]; exact Real.sin_sq_add_cos_sq _

theorem uu_eq (e : ℝ) (f : ℝ → ℝ) (t : ℝ) : uu e f t = 1 + e * cc f t := by
  unfold uu cc; push_cast; ring

theorem uu_ne (he : 0 ≤ e) (he1 : e < 1) (t : ℝ) : uu e f t ≠ 0 := by
  unfold uu; exact_mod_cast (u_pos he he1 (f t)).ne'

theorem cf_deriv (he : 0 ≤ e) (he1 : e < 1) (hp : 0 < p) (h : KeplerOrbit e p f) (t : ℝ) :
    HasDerivAt (fun t => (f t : ℂ)) (kk p * uu e f t ^ 2) t := by
  have := (f_deriv he he1 hp h t).ofReal_comp
  convert this using 1
  unfold kk uu; push_cast; ring

theorem EE_deriv (he : 0 ≤ e) (he1 : e < 1) (hp : 0 < p) (h : KeplerOrbit e p f) (t : ℝ) :
    HasDerivAt (EE f) (EE f t * (-2 * I * (kk p * uu e f t ^ 2))) t := by
  have := ((cf_deriv he he1 hp h t).const_mul (-2 * I)).cexp
  exact this

theorem cc_deriv (he : 0 ≤ e) (he1 : e < 1) (hp : 0 < p) (h : KeplerOrbit e p f) (t : ℝ) :
    HasDerivAt (cc f) (-(ss f t) * (kk p * uu e f t ^ 2)) t := by
  have := (f_deriv he he1 hp h t).cos.ofReal_comp
  refine HasDerivAt.congr_deriv (f := cc f) this ?_
  unfold kk uu ss; push_cast; ring

theorem ss_deriv (he : 0 ≤ e) (he1 : e < 1) (hp : 0 < p) (h : KeplerOrbit e p f) (t : ℝ) :
    HasDerivAt (ss f) (cc f t * (kk p * uu e f t ^ 2)) t := by
  have := (f_deriv he he1 hp h t).sin.ofReal_comp
  refine HasDerivAt.congr_deriv (f := ss f) this ?_
  unfold kk uu cc; push_cast; ring

theorem uu_deriv (he : 0 ≤ e) (he1 : e < 1) (hp : 0 < p) (h : KeplerOrbit e p f) (t : ℝ) :
    HasDerivAt (uu e f) (-(e * ss f t) * (kk p * uu e f t ^ 2)) t := by
  have h1 : uu e f = fun t => 1 + (e : ℂ) * cc f t := by funext t; exact uu_eq e f t
  have h2 := ((cc_deriv he he1 hp h t).const_mul (e : ℂ)).const_add 1
  rw [← h1] at h2
  refine h2.congr_deriv ?_
  ring

/-- first derivative of the quadrupole. -/
def Q1 (e p : ℝ) (f : ℝ → ℝ) (t : ℝ) : ℂ :=
  (p : ℂ) ^ 2 * kk p * (2 * e * ss f t / uu e f t - 2 * I) * EE f t

/-- second derivative of the quadrupole. -/
def Q2 (e p : ℝ) (f : ℝ → ℝ) (t : ℝ) : ℂ :=
  (p : ℂ) ^ 2 * kk p ^ 2 *
    (2 * e * (cc f t + e) - 4 * uu e f t ^ 2 - 4 * I * (e * ss f t) * uu e f t) * EE f t

theorem Q_eq : quadrupole22 e p f =
    fun t => (p : ℂ) ^ 2 * (uu e f t)⁻¹ ^ 2 * EE f t := by
  funext t
  unfold quadrupole22 separation EE uu
  push_cast
  ring

theorem Q_deriv (he : 0 ≤ e) (he1 : e < 1) (hp : 0 < p) (h : KeplerOrbit e p f) (t : ℝ) :
    HasDerivAt (quadrupole22 e p f) (Q1 e p f t) t := by
  rw [Q_eq]
  have hu := (uu_deriv he he1 hp h t).inv (uu_ne he he1 t)
  have h1 := (((hu.pow 2).const_mul ((p:ℂ) ^ 2)).mul (EE_deriv he he1 hp h t))
  refine HasDerivAt.congr_deriv (f := fun t => (p : ℂ) ^ 2 * (uu e f t)⁻¹ ^ 2 * EE f t) h1 ?_
  have hne := uu_ne (f := f) he he1 t
  unfold Q1
  simp only [Pi.inv_apply, Pi.pow_apply]
  push_cast
  norm_num
  field_simp
  ring

theorem Q1_deriv (he : 0 ≤ e) (he1 : e < 1) (hp : 0 < p) (h : KeplerOrbit e p f) (t : ℝ) :
    HasDerivAt (Q1 e p f) (Q2 e p f t) t := by
  have hne := uu_ne (f := f) he he1 t
  have hu := uu_deriv he he1 hp h t
  have hs := ss_deriv he he1 hp h t
  have h1 := ((((hs.const_mul (2 * (e:ℂ))).div hu hne).sub_const (2 * I)).const_mul
    ((p : ℂ) ^ 2 * kk p)).mul (EE_deriv he he1 hp h t)
  have h2 : Q1 e p f = fun t => (p : ℂ) ^ 2 * kk p * (2 * (e:ℂ) * ss f t / uu e f t - 2 * I) * EE f t := rfl
  rw [h2]
  refine h1.congr_deriv ?_
  unfold Q2
  simp only [Pi.div_apply]
  have hcs := cs f t
  have hue := uu_eq e f t
  have hs2 : ss f t ^ 2 = 1 - cc f t ^ 2 := by linear_combination hcs
  have key : 2 * (e:ℂ) * (cc f t + e) = 2 * e * (cc f t * uu e f t + e * ss f t ^ 2) := by
    rw [hs2, hue]; ring
  rw [key]
  field_simp
  linear_combination (4 * (p:ℂ) ^ 2 * kk p ^ 2 * EE f t * uu e f t ^ 2) * I_sq

theorem strain_eq (he : 0 ≤ e) (he1 : e < 1) (hp : 0 < p) (h : KeplerOrbit e p f) :
    strain22 e p f = Q2 e p f := by
  unfold strain22
  have h1 : deriv (quadrupole22 e p f) = Q1 e p f := by
    funext t; exact (Q_deriv he he1 hp h t).deriv
  rw [h1]
  funext t
  exact (Q1_deriv he he1 hp h t).deriv

theorem Q2_deriv (he : 0 ≤ e) (he1 : e < 1) (hp : 0 < p) (h : KeplerOrbit e p f) (t : ℝ) :
    HasDerivAt (Q2 e p f)
      ((p : ℂ) ^ 2 * kk p ^ 2 * (kk p * uu e f t ^ 2) *
        ((-2 * e * ss f t + 8 * uu e f t * (e * ss f t)
            - 4 * I * e * (cc f t * uu e f t - e * ss f t ^ 2))
          - 2 * I * (2 * e * (cc f t + e) - 4 * uu e f t ^ 2 - 4 * I * (e * ss f t) * uu e f t))
        * EE f t) t := by
  have hu := uu_deriv he he1 hp h t
  have hs := ss_deriv he he1 hp h t
  have hc := cc_deriv he he1 hp h t
  have h1 := (((((hc.add_const (e:ℂ)).const_mul (2 * (e:ℂ))).sub ((hu.pow 2).const_mul 4)).sub
    (((hs.const_mul (e:ℂ)).const_mul (4 * I)).mul hu)).const_mul
    ((p : ℂ) ^ 2 * kk p ^ 2)).mul (EE_deriv he he1 hp h t)
  refine HasDerivAt.congr_deriv (f := Q2 e p f) h1 ?_
  simp only [Pi.pow_apply, Pi.sub_apply, Pi.mul_apply]
  push_cast
  ring

theorem kk_ne (hp : 0 < p) : kk p ≠ 0 := by
  unfold kk
  have : 0 < Real.sqrt p / p ^ 2 := by
    have := Real.sqrt_pos.mpr hp; positivity
  exact_mod_cast this.ne'

theorem EE_ne (t : ℝ) : EE f t ≠ 0 := Complex.exp_ne_zero _

/-- Frequency of the (2,2) mode at an apsis (`sin f = 0`, `cos f = c = ±1`). -/
theorem frequency_apsis (he : 0 ≤ e) (he1 : e < 1) (hp : 0 < p) (h : KeplerOrbit e p f) (t c : ℝ)
    (hc : Real.cos (f t) = c) (hc2 : c ^ 2 = 1) :
    frequency (strain22 e p f) t = Real.sqrt p / p ^ 2 * (4 * (1 + e * c) ^ 2 / (2 + e * c)) := by
  have hs : Real.sin (f t) = 0 := by
    have := Real.sin_sq_add_cos_sq (f t)
    rw [hc] at this
    have : Real.sin (f t) ^ 2 = 0 := by linarith
    exact pow_eq_zero_iff (two_ne_zero) |>.mp this
  unfold frequency
  rw [strain_eq he he1 hp h, (Q2_deriv he he1 hp h t).deriv]
  have hss : ss f t = 0 := by unfold ss; rw [hs]; simp
  have hcc : cc f t = (c : ℂ) := by unfold cc; rw [hc]
  have hu : uu e f t = ((1 + e * c : ℝ) : ℂ) := by unfold uu; rw [hc]
  have hcpos : 0 < 1 + e * c := by rw [← hc]; exact u_pos he he1 _
  have hcpos2 : 0 < 2 + e * c := by linarith
  have hA : Q2 e p f t = (p : ℂ) ^ 2 * kk p ^ 2 * ((-(2 * (1 + e * c) * (2 + e * c)) : ℝ) : ℂ) * EE f t := by
    unfold Q2
    rw [hss, hcc, hu]
    have hcc2 : (c:ℂ)^2 = 1 := by exact_mod_cast hc2
    push_cast
    linear_combination (-2 * (e:ℂ)^2 * EE f t * (p:ℂ)^2 * kk p^2) * hcc2
  rw [hA, hss, hcc, hu]
  have hcc2 : (c:ℂ)^2 = 1 := by exact_mod_cast hc2
  have hE := EE_ne (f := f) t
  have hk := kk_ne hp
  have hpc : (p : ℂ) ≠ 0 := by exact_mod_cast hp.ne'
  have h1 : ((1 + e * c : ℝ) : ℂ) ≠ 0 := by exact_mod_cast hcpos.ne'
  have h2 : ((2 + e * c : ℝ) : ℂ) ≠ 0 := by exact_mod_cast hcpos2.ne'
  have hq : ((p : ℂ) ^ 2 * kk p ^ 2 * (kk p * ((1 + e * c : ℝ) : ℂ) ^ 2) *
        ((-2 * e * 0 + 8 * ((1 + e * c : ℝ) : ℂ) * (e * 0)
            - 4 * I * e * ((c:ℂ) * ((1 + e * c : ℝ) : ℂ) - e * 0 ^ 2))
          - 2 * I * (2 * e * ((c:ℂ) + e) - 4 * ((1 + e * c : ℝ) : ℂ) ^ 2 - 4 * I * (e * 0) * ((1 + e * c : ℝ) : ℂ)))
        * EE f t) / ((p : ℂ) ^ 2 * kk p ^ 2 * ((-(2 * (1 + e * c) * (2 + e * c)) : ℝ) : ℂ) * EE f t)
      = - I * ((Real.sqrt p / p ^ 2 * (4 * (1 + e * c) ^ 2 / (2 + e * c)) : ℝ) : ℂ) := by
    have hkk : kk p = ((Real.sqrt p / p ^ 2 : ℝ) : ℂ) := rfl
    have e1 : ((-(2 * (1 + e * c) * (2 + e * c)) : ℝ) : ℂ) = -(2 * ((1 + e * c : ℝ) : ℂ) * ((2 + e * c : ℝ) : ℂ)) := by
      push_cast; ring
    have e2 : ((Real.sqrt p / p ^ 2 * (4 * (1 + e * c) ^ 2 / (2 + e * c)) : ℝ) : ℂ)
        = kk p * (4 * ((1 + e * c : ℝ) : ℂ) ^ 2 / ((2 + e * c : ℝ) : ℂ)) := by
      rw [hkk]; push_cast; ring
    rw [e1, e2]
    have e3 : (e:ℂ) * ((c:ℂ) + e) * 2 = 2 * (e:ℂ) * c * ((1 + e * c : ℝ) : ℂ) := by
      push_cast
      linear_combination (-2 * (e:ℂ)^2) * hcc2
    have e4 : ((2 + e * c : ℝ) : ℂ) = 1 + ((1 + e * c : ℝ) : ℂ) := by push_cast; ring
    have e5 : (e:ℂ) * c = ((1 + e * c : ℝ) : ℂ) - 1 := by push_cast; ring
    have h3 : -(2 * ((1 + e * c : ℝ) : ℂ) * ((2 + e * c : ℝ) : ℂ)) ≠ 0 :=
      neg_ne_zero.mpr (mul_ne_zero (mul_ne_zero two_ne_zero h1) h2)
    rw [div_eq_iff (mul_ne_zero (mul_ne_zero (mul_ne_zero (pow_ne_zero 2 hpc) (pow_ne_zero 2 hk)) h3) hE)]
    generalize ((1 + e * c : ℝ) : ℂ) = U at *
    generalize ((2 + e * c : ℝ) : ℂ) = W at *
    have : kk p * (4 * U ^ 2 / W) * W = kk p * (4 * U^2) := by field_simp
    have h4 : -I * (kk p * (4 * U ^ 2 / W)) * ((p:ℂ) ^ 2 * kk p ^ 2 * (-(2 * U * W)) * EE f t)
        = 2 * I * U * ((p:ℂ) ^ 2 * kk p ^ 2) * EE f t * (kk p * (4 * U ^ 2 / W) * W) := by ring
    rw [h4, this]
    subst e4
    linear_combination
      (-4 * I * U * (p:ℂ)^2 * kk p^3 * U^2 * EE f t - 4 * I * U * (p:ℂ)^2 * kk p^3 * U^2 * EE f t) * e5 +
      (-2 * I * (p:ℂ)^2 * kk p^3 * U^2 * EE f t) * e3
  rw [hq]
  rw [neg_mul, Complex.neg_im, neg_neg, Complex.I_mul_im, Complex.ofReal_re]
end

end GwEcc.Spec
