import Verif.Lemmas.KeplerPhase
import Mathlib.Analysis.Convex.Deriv

/-! Amplitude and frequency of the Newtonian (2,2) mode as functions of `u = 1 + e cos f`. -/

namespace GwEcc.Spec
open Complex

variable {e p : ℝ} {f : ℝ → ℝ}

theorem WW_normSq (e x : ℝ) : normSq (WW e x) = 16 * (1 + e * Real.cos x) ^ 3
    + 4 * ((1 + e * Real.cos x) - (1 - e ^ 2)) ^ 2 := by
  rw [normSq_apply]
  simp only [WW]
  have hs : Real.sin x ^ 2 = 1 - Real.cos x ^ 2 := by linarith [Real.sin_sq_add_cos_sq x]
  linear_combination (16 * e ^ 2 * (1 + e * Real.cos x) ^ 2) * hs

/-- Amplitude of the (2,2) mode. -/
theorem amplitude_eq (he : 0 ≤ e) (he1 : e < 1) (hp : 0 < p) (h : KeplerOrbit e p f) (t : ℝ) :
    ‖strain22 e p f t‖ = (Real.sqrt p / p ^ 2 * p) ^ 2 * Real.sqrt (16 * (1 + e * Real.cos (f t)) ^ 3
      + 4 * ((1 + e * Real.cos (f t)) - (1 - e ^ 2)) ^ 2) := by
  have hA : 0 < (Real.sqrt p / p ^ 2 * p) ^ 2 := by have := Real.sqrt_pos.mpr hp; positivity
  have hE : ‖EE f t‖ = 1 := by
    unfold EE
    rw [show (-2 * I * (f t : ℂ)) = ((-2 * f t : ℝ) : ℂ) * I by push_cast; ring, Complex.norm_exp_ofReal_mul_I]
  rw [strain_WW he he1 hp h, norm_neg, norm_mul, norm_mul, Complex.norm_real, Real.norm_eq_abs, abs_of_pos hA, hE,
    mul_one, ← WW_normSq]
  rfl

/-- Frequency of the (2,2) mode at every time. -/
theorem frequency_eq (he : 0 ≤ e) (he1 : e < 1) (hp : 0 < p) (h : KeplerOrbit e p f) (t : ℝ) :
    frequency (strain22 e p f) t = Real.sqrt p / p ^ 2 * ((1 + e * Real.cos (f t)) ^ 3 *
      (6 * (1 + e * Real.cos (f t)) ^ 2 + 2 * (1 - e ^ 2)) /
      (4 * (1 + e * Real.cos (f t)) ^ 3 + ((1 + e * Real.cos (f t)) - (1 - e ^ 2)) ^ 2)) := by
  obtain ⟨c, hc⟩ : ∃ c, c = Real.cos (f t) := ⟨_, rfl⟩
  obtain ⟨s, hs⟩ : ∃ s, s = Real.sin (f t) := ⟨_, rfl⟩
  obtain ⟨u, hu⟩ : ∃ u, u = 1 + e * Real.cos (f t) := ⟨_, rfl⟩
  have hcs : s ^ 2 = 1 - c ^ 2 := by rw [hs, hc]; linarith [Real.sin_sq_add_cos_sq (f t)]
  have hupos : 0 < u := by rw [hu]; exact u_pos he he1 _
  have huc : u = 1 + e * c := by rw [hu, hc]
  unfold frequency
  rw [strain_eq he he1 hp h, (Q2_deriv he he1 hp h t).deriv]
  unfold Q2
  have hss : ss f t = (s : ℂ) := by unfold ss; rw [hs]
  have hcc : cc f t = (c : ℂ) := by unfold cc; rw [hc]
  have huu : uu e f t = (u : ℂ) := by unfold uu; rw [hu]
  rw [hss, hcc, huu, ← hu]
  obtain ⟨V, hV⟩ : ∃ V : ℂ, V = ⟨2 * e * (c + e) - 4 * u ^ 2, -(4 * e * s * u)⟩ := ⟨_, rfl⟩
  obtain ⟨B, hB⟩ : ∃ B : ℂ, B = ⟨-2 * e * s, -4 * e * (c * u - e * s ^ 2) - 2 * (2 * e * (c + e) - 4 * u ^ 2)⟩ := ⟨_, rfl⟩
  have eV : 2 * (e:ℂ) * ((c:ℂ) + e) - 4 * (u:ℂ) ^ 2 - 4 * I * (e * s) * u = V := by
    rw [hV, Complex.mk_eq_add_mul_I]; push_cast; ring
  have eB : (-2 * (e:ℂ) * s + 8 * (u:ℂ) * (e * s) - 4 * I * e * ((c:ℂ) * u - e * (s:ℂ) ^ 2)) - 2 * I * V = B := by
    rw [← eV, hB, Complex.mk_eq_add_mul_I]
    push_cast
    linear_combination (8 * (e:ℂ) * s * u) * I_sq
  rw [eV, eB]
  have hE := EE_ne (f := f) t
  have hk := kk_ne hp
  have hpc : (p : ℂ) ≠ 0 := by exact_mod_cast hp.ne'
  have hN : normSq V = 16 * u ^ 3 + 4 * (u - (1 - e ^ 2)) ^ 2 := by
    rw [normSq_apply, hV]
    simp only
    rw [huc]
    linear_combination (16 * e ^ 2 * (1 + e * c) ^ 2) * hcs
  have hNpos : 0 < normSq V := by rw [hN]; positivity
  have hVne : V ≠ 0 := normSq_pos.mp hNpos
  have hq : (p : ℂ) ^ 2 * kk p ^ 2 * (kk p * (u:ℂ) ^ 2) * B * EE f t / ((p : ℂ) ^ 2 * kk p ^ 2 * V * EE f t)
      = ((Real.sqrt p / p ^ 2 * u ^ 2 : ℝ) : ℂ) * (B / V) := by
    have : kk p = ((Real.sqrt p / p ^ 2 : ℝ) : ℂ) := rfl
    rw [show ((Real.sqrt p / p ^ 2 * u ^ 2 : ℝ) : ℂ) = kk p * (u:ℂ) ^ 2 by rw [this]; push_cast; ring]
    field_simp
  rw [hq, Complex.im_ofReal_mul, div_im]
  have hnum : B.im * V.re - B.re * V.im = -(u * (24 * u ^ 2 + 8 * (1 - e ^ 2))) := by
    rw [hV, hB]
    simp only
    rw [huc]
    linear_combination (16 * e ^ 2 * (1 + e * c) * (-(2:ℝ)) * 0 + (4 * e ^ 2 * (2 * e * (c + e) - 4 * (1 + e * c) ^ 2) - 8 * e ^ 2 * (1 + e * c))) * hcs
  rw [← sub_div, hnum, hN]
  have h4 : 16 * u ^ 3 + 4 * (u - (1 - e ^ 2)) ^ 2 = 4 * (4 * u ^ 3 + (u - (1 - e ^ 2)) ^ 2) := by ring
  have hD : 0 < 4 * u ^ 3 + (u - (1 - e ^ 2)) ^ 2 := by positivity
  rw [h4]
  field_simp
  ring

/-! ### Monotonicity -/

/-- Square of the amplitude as a function of `u = 1 + e cos f`, up to a factor. -/
theorem ampSq_strict {e x y : ℝ} (he : 0 ≤ e) (he1 : e ≤ 6 / 7) (hx : 1 - e ≤ x) (hxy : x < y) :
    16 * x ^ 3 + 4 * (x - (1 - e ^ 2)) ^ 2 < 16 * y ^ 3 + 4 * (y - (1 - e ^ 2)) ^ 2 := by
  have hd : (16 * y ^ 3 + 4 * (y - (1 - e ^ 2)) ^ 2) - (16 * x ^ 3 + 4 * (x - (1 - e ^ 2)) ^ 2)
      = (y - x) * (16 * (x ^ 2 + x * y + y ^ 2) + 4 * (x + y - 2 * (1 - e ^ 2))) := by ring
  have hx0 : 0 < x := by linarith
  have h1 : 0 < 16 * (x ^ 2 + x * y + y ^ 2) + 4 * (x + y - 2 * (1 - e ^ 2)) := by
    have a1 : (1 - e) ^ 2 ≤ x ^ 2 := by nlinarith
    have a2 : x ^ 2 ≤ x * y := by nlinarith
    have a3 : x ^ 2 ≤ y ^ 2 := by nlinarith
    nlinarith
  have := mul_pos (sub_pos.mpr hxy) h1
  linarith

noncomputable def freqOf (e u : ℝ) : ℝ :=
  u ^ 3 * (6 * u ^ 2 + 2 * (1 - e ^ 2)) / (4 * u ^ 3 + (u - (1 - e ^ 2)) ^ 2)

theorem freq_poly_pos {u w : ℝ} (hu : 0 < u) (hw : 19 / 100 ≤ w) :
    0 < 48 * u ^ 5 + 6 * u ^ 2 * ((3 * u - 5 * w) * (u - w)) + 2 * (w * (u - w) * (u - 3 * w)) := by
  have h5 : 0 < 48 * u ^ 5 := by positivity
  rcases le_or_gt u w with h | h
  · have h1 : 0 ≤ (3 * u - 5 * w) * (u - w) := mul_nonneg_of_nonpos_of_nonpos (by linarith) (by linarith)
    have h2 : 0 ≤ w * (u - w) * (u - 3 * w) := by
      have : w * (u - w) ≤ 0 := mul_nonpos_of_nonneg_of_nonpos (by linarith) (by linarith)
      exact mul_nonneg_of_nonpos_of_nonpos this (by linarith)
    positivity
  · have hA : -(1 / 5) * u ^ 2 ≤ (3 * u - 5 * w) * (u - w) := by nlinarith [sq_nonneg (w - 4 / 5 * u)]
    have hB : -(3 / 10) * u ^ 3 ≤ w * (u - w) * (u - 3 * w) := by
      have hw0 : 0 ≤ w := by linarith
      have e1 : w * (u - w) * (u - 3 * w) + 3 / 10 * u ^ 3 = 3 * (w * (w - 37 / 50 * u) ^ 2)
          + u * (11 / 25 * w ^ 2 - 1607 / 2500 * (w * u) + 3 / 10 * u ^ 2) := by ring
      have e2 : 0 ≤ 11 / 25 * w ^ 2 - 1607 / 2500 * (w * u) + 3 / 10 * u ^ 2 := by
        nlinarith [sq_nonneg (w - 73 / 100 * u), sq_nonneg u]
      have e3 : 0 ≤ w * (w - 37 / 50 * u) ^ 2 := mul_nonneg hw0 (sq_nonneg _)
      have e4 := mul_nonneg hu.le e2
      linarith
    have hA' := mul_le_mul_of_nonneg_left hA (by positivity : (0:ℝ) ≤ 6 * u ^ 2)
    have hC : 0 < 48 * u ^ 2 - 6 / 5 * u - 3 / 5 := by nlinarith
    have hD := mul_pos (by positivity : 0 < u ^ 3) hC
    nlinarith

theorem freqOf_strictMonoOn {e : ℝ} (he : 0 ≤ e) (he1 : e ≤ 9 / 10) : StrictMonoOn (freqOf e) (Set.Ioi 0) := by
  have hw : 19 / 100 ≤ 1 - e ^ 2 := by nlinarith
  have hD : ∀ u : ℝ, 0 < u → 0 < 4 * u ^ 3 + (u - (1 - e ^ 2)) ^ 2 := by intro u hu; positivity
  have hder : ∀ u : ℝ, 0 < u → HasDerivAt (freqOf e) (u ^ 2 * (48 * u ^ 5 + 6 * u ^ 2 * ((3 * u - 5 * (1 - e ^ 2)) * (u - (1 - e ^ 2)))
      + 2 * ((1 - e ^ 2) * (u - (1 - e ^ 2)) * (u - 3 * (1 - e ^ 2)))) / (4 * u ^ 3 + (u - (1 - e ^ 2)) ^ 2) ^ 2) u := by
    intro u hu
    have hid := hasDerivAt_id' u
    have hN := (hid.pow 3).mul (((hid.pow 2).const_mul 6).add_const (2 * (1 - e ^ 2)))
    have hDd := ((hid.pow 3).const_mul 4).add ((hid.sub_const (1 - e ^ 2)).pow 2)
    have := hN.div hDd (hD u hu).ne'
    refine HasDerivAt.congr_deriv (f := freqOf e) this ?_
    have h0 := (hD u hu).ne'
    simp only [Pi.mul_apply, Pi.add_apply, Pi.pow_apply]
    push_cast
    congr 1
    norm_num
    ring
  refine strictMonoOn_of_deriv_pos (convex_Ioi 0) (fun u hu => (hder u hu).continuousAt.continuousWithinAt) ?_
  intro u hu
  rw [interior_Ioi] at hu
  rw [(hder u hu).deriv]
  have h1 := freq_poly_pos (u := u) (w := 1 - e ^ 2) hu hw
  have h2 := hD u hu
  have hu' : 0 < u := hu
  positivity

end GwEcc.Spec
