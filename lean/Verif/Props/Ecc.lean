import Verif.Lemmas.Ecc
import Verif.Lemmas.Kepler
import Verif.Lemmas.KeplerExists

/-!
# Properties C11, C12, C13 (eccentricity values)

`eccFromOmega wp wa` models the value `compute_eccentricity` reports at a time where the pericenter and apocenter
interpolants have values `wp` and `wa`.
-/

namespace GwEcc
open Real

/-- **C11.** The reported eccentricity is in `[0, 1)` whenever `0 < ω_a ≤ ω_p`. -/
theorem C11_eccentricity_range {wp wa : ℝ} (ha : 0 < wa) (hpa : wa ≤ wp) :
    0 ≤ eccFromOmega wp wa ∧ eccFromOmega wp wa < 1 := by
  have hp : 0 < wp := lt_of_lt_of_le ha hpa
  refine ⟨?_, et_lt_one (eOmega_sq_lt hp ha)⟩
  rcases hpa.lt_or_eq with h | h
  · have h1 : eOmega wa wa < eOmega wp wa := by
      rw [eOmega_lt_iff ha ha hp ha]; exact div_lt_div_of_pos_right h ha
    rw [(eOmega_eq_zero_iff ha ha).mpr rfl] at h1
    have := et_strictMono (by norm_num : (-1:ℝ) < 0) (eOmega_lt hp ha) h1
    rw [et_zero] at this
    exact this.le
  · unfold eccFromOmega
    rw [(eOmega_eq_zero_iff hp ha).mpr h.symm, et_zero]

example : (0:ℝ) < 1 ∧ (1:ℝ) ≤ 4 := by norm_num

/-- **C11** at the boundary `ω_a = 0`, which the code also accepts: the result is `1`. -/
theorem C11_eccentricity_boundary {wp : ℝ} (hp : 0 < wp) : eccFromOmega wp 0 = 1 := by
  have h1 : eOmega wp 0 = 1 := by
    unfold eOmega; rw [Real.sqrt_zero, sub_zero, add_zero]
    exact div_self (Real.sqrt_pos.mpr hp).ne'
  unfold eccFromOmega
  rw [h1]
  unfold etFromEw22
  have : arctan2 (1 - 1 * 1) (2 * 1) = 0 := by
    unfold arctan2
    rw [Complex.arg_eq_zero_iff]; norm_num
  simp only [this]
  norm_num

/-- **C12.** Exact sign of the reported eccentricity. -/
theorem C12_eccentricity_sign {wp wa : ℝ} (hp : 0 < wp) (ha : 0 < wa) :
    (eccFromOmega wp wa = 0 ↔ wp = wa) ∧ (eccFromOmega wp wa < 0 ↔ wp < wa)
      ∧ (0 < eccFromOmega wp wa ↔ wa < wp) := by
  have hlt : wp < wa → eccFromOmega wp wa < 0 := by
    intro h
    have h1 : eOmega wp wa < eOmega wa wa := by
      rw [eOmega_lt_iff hp ha ha ha]; exact div_lt_div_of_pos_right h ha
    rw [(eOmega_eq_zero_iff ha ha).mpr rfl] at h1
    have := et_strictMono (eOmega_gt hp ha) (by norm_num : (0:ℝ) < 1) h1
    rwa [et_zero] at this
  have hgt : wa < wp → 0 < eccFromOmega wp wa := by
    intro h
    have h1 : eOmega wa wa < eOmega wp wa := by
      rw [eOmega_lt_iff ha ha hp ha]; exact div_lt_div_of_pos_right h ha
    rw [(eOmega_eq_zero_iff ha ha).mpr rfl] at h1
    have := et_strictMono (by norm_num : (-1:ℝ) < 0) (eOmega_lt hp ha) h1
    rwa [et_zero] at this
  have heq : wp = wa → eccFromOmega wp wa = 0 := by
    intro h; unfold eccFromOmega; rw [(eOmega_eq_zero_iff hp ha).mpr h, et_zero]
  rcases lt_trichotomy wp wa with h | h | h
  · have := hlt h
    refine ⟨⟨fun h' => absurd h' this.ne, fun h' => absurd h' h.ne⟩, ⟨fun _ => h, fun _ => this⟩,
      ⟨fun h' => absurd h' this.not_gt, fun h' => absurd h' h.not_gt⟩⟩
  · have := heq h
    refine ⟨⟨fun _ => h, fun _ => this⟩, ⟨fun h' => absurd this h'.ne, fun h' => absurd h h'.ne⟩,
      ⟨fun h' => absurd this h'.ne', fun h' => absurd h h'.ne'⟩⟩
  · have := hgt h
    refine ⟨⟨fun h' => absurd h' this.ne', fun h' => absurd h' h.ne'⟩,
      ⟨fun h' => absurd h' this.not_gt, fun h' => absurd h' h.not_gt⟩, ⟨fun _ => h, fun _ => this⟩⟩

/-- **C12.** The reported eccentricity is a strictly increasing function of `ω_p/ω_a`, and of nothing else. -/
theorem C12_eccentricity_monotone {wp wa wp' wa' : ℝ} (hp : 0 < wp) (ha : 0 < wa) (hp' : 0 < wp')
    (ha' : 0 < wa') : eccFromOmega wp wa < eccFromOmega wp' wa' ↔ wp / wa < wp' / wa' := by
  rw [← eOmega_lt_iff hp ha hp' ha']
  constructor
  · intro h
    by_contra hn
    rcases (not_lt.mp hn).lt_or_eq with h1 | h1
    · exact absurd (et_strictMono (eOmega_gt hp' ha') (eOmega_lt hp ha) h1) h.not_gt
    · unfold eccFromOmega at h; rw [h1] at h; exact lt_irrefl _ h
  · intro h
    exact et_strictMono (eOmega_gt hp ha) (eOmega_lt hp' ha') h

example : (0:ℝ) < 2 ∧ (0:ℝ) < 1 ∧ (2:ℝ) / 1 < 9 / 4 := by norm_num

/-- **C13.** For a Keplerian binary of eccentricity `e` (any size `p`, any parametrisation of the phase), the
frequencies of the quadrupole waveform at a pericenter and at an apocenter yield exactly `e`. -/
theorem C13_newtonian_limit {e p : ℝ} {f : ℝ → ℝ} (he : 0 ≤ e) (he1 : e < 1) (hp : 0 < p)
    (h : Spec.KeplerOrbit e p f) {tp ta : ℝ} (htp : Spec.AtPericenter f tp) (hta : Spec.AtApocenter f ta) :
    eccFromOmega (Spec.frequency (Spec.strain22 e p f) tp) (Spec.frequency (Spec.strain22 e p f) ta) = e := by
  rw [Spec.frequency_apsis he he1 hp h tp 1 htp (by norm_num),
    Spec.frequency_apsis he he1 hp h ta (-1) hta (by norm_num)]
  set κ : ℝ := √p / p ^ 2 with hκ
  have hκpos : 0 < κ := by have := Real.sqrt_pos.mpr hp; positivity
  have h1e : 0 < 1 + e * -1 := by linarith
  have h2e : 0 < 2 + e * -1 := by linarith
  have h1e' : 0 < 1 + e * 1 := by linarith
  have h2e' : 0 < 2 + e * 1 := by linarith
  set wp : ℝ := κ * (4 * (1 + e * 1) ^ 2 / (2 + e * 1)) with hwp
  set wa : ℝ := κ * (4 * (1 + e * -1) ^ 2 / (2 + e * -1)) with hwa
  have hwpp : 0 < wp := by positivity
  have hwap : 0 < wa := by positivity
  have hsq := eOmega_sq_lt hwpp hwap
  apply cubic_inj (et_gt_neg_one hsq).le (et_lt_one hsq).le (by linarith) he1.le
  rw [et_cubic]
  have hr : 4 * eOmega wp wa / (1 + eOmega wp wa * eOmega wp wa) = 2 * (wp - wa) / (wp + wa) := by
    have hx := Real.sqrt_pos.mpr hwpp
    have hy := Real.sqrt_pos.mpr hwap
    have hxx := Real.mul_self_sqrt hwpp.le
    have hyy := Real.mul_self_sqrt hwap.le
    unfold eOmega
    generalize √wp = x at *
    generalize √wa = y at *
    rw [← hxx, ← hyy]
    have : 0 < x + y := by positivity
    have : 0 < x * x + y * y := by positivity
    have h3 : 1 + (x - y) / (x + y) * ((x - y) / (x + y)) = 2 * (x * x + y * y) / (x + y) ^ 2 := by
      field_simp; ring
    rw [h3]
    field_simp
    ring
  rw [hr, hwp, hwa]
  have : 0 < 2 + e := by linarith
  have : 0 < 2 - e := by linarith
  rw [show 1 + e * 1 = 1 + e by ring, show 2 + e * 1 = 2 + e by ring, show 1 + e * -1 = 1 - e by ring,
    show 2 + e * -1 = 2 - e by ring]
  have hA : κ * (4 * (1 + e) ^ 2 / (2 + e)) - κ * (4 * (1 - e) ^ 2 / (2 - e))
      = 4 * κ * (6 * e - 2 * e ^ 3) / ((2 + e) * (2 - e)) := by
    field_simp; ring
  have hB : κ * (4 * (1 + e) ^ 2 / (2 + e)) + κ * (4 * (1 - e) ^ 2 / (2 - e))
      = 16 * κ / ((2 + e) * (2 - e)) := by
    field_simp; ring
  rw [hA, hB]
  field_simp
  ring

/-- The hypotheses of `C13_newtonian_limit` are met for every `0 ≤ e < 1`: such orbits exist and pass through
pericenter and apocenter. -/
theorem C13_nonvacuous {e p : ℝ} (he : 0 ≤ e) (he1 : e < 1) (hp : 0 < p) :
    ∃ f tp ta, Spec.KeplerOrbit e p f ∧ Spec.AtPericenter f tp ∧ Spec.AtApocenter f ta := by
  obtain ⟨f, hf, hs⟩ := Spec.exists_kepler he he1 hp
  obtain ⟨tp, htp⟩ := hs 0
  obtain ⟨ta, hta⟩ := hs Real.pi
  exact ⟨f, tp, ta, hf, by simp [Spec.AtPericenter, htp], by simp [Spec.AtApocenter, hta]⟩

end GwEcc
