import Verif.Lemmas.Ecc
import Verif.Props.Stability
import Verif.Props.Continuity

/-!
# C88 (continued): a closed form, and whole calls
-/

namespace GwEcc

open Spec

theorem psi_eq_arctan {w : ℝ} (h1 : -1 ≤ w) (h2 : w ≤ 1) :
    arctan2 (1 - w * w) (2 * w) = Real.pi / 2 - 2 * Real.arctan w := by
  have a1 : -(Real.pi / 4) ≤ Real.arctan w := by
    rw [← Real.arctan_one, ← Real.arctan_neg]
    exact Real.arctan_strictMono.monotone h1
  have a2 : Real.arctan w ≤ Real.pi / 4 := by
    rw [← Real.arctan_one]
    exact Real.arctan_strictMono.monotone h2
  rw [psi_eq_arccos (by nlinarith)]
  have hc : Real.cos (Real.pi / 2 - 2 * Real.arctan w) = 2 * w / (1 + w * w) := by
    rw [Real.cos_pi_div_two_sub, Real.sin_two_mul, Real.sin_arctan, Real.cos_arctan]
    have hpos : 0 < 1 + w ^ 2 := by positivity
    have hs := Real.sq_sqrt hpos.le
    have hs0 := (Real.sqrt_pos.2 hpos).ne'
    rw [show 2 * (w / √(1 + w ^ 2)) * (1 / √(1 + w ^ 2)) = 2 * w / (√(1 + w ^ 2)) ^ 2 by field_simp, hs]
    ring
  rw [← hc, Real.arccos_cos (by linarith) (by linarith)]

/-- The eccentricity is twice the sine of two thirds of the angle whose tangent is the eccentricity of the frequencies. -/
theorem C88_closed_form {wp wa : ℝ} (hp : 0 < wp) (ha : 0 < wa) :
    eccFromOmega wp wa = 2 * Real.sin (2 / 3 * Real.arctan ((√wp - √wa) / (√wp + √wa))) := by
  have h1 := Real.sqrt_pos.2 hp
  have h2 := Real.sqrt_pos.2 ha
  unfold eccFromOmega
  have b1 : -1 ≤ eOmega wp wa := by
    unfold eOmega
    rw [le_div_iff₀ (by positivity)]
    linarith
  have b2 : eOmega wp wa ≤ 1 := by
    unfold eOmega
    rw [div_le_one (by positivity)]
    linarith
  rw [et_eq_cos, psi_eq_arctan b1 b2]
  rw [show (Real.pi / 2 - 2 * Real.arctan (eOmega wp wa)) / 3 + Real.pi / 3
      = Real.pi / 2 - 2 / 3 * Real.arctan (eOmega wp wa) by ring, Real.cos_pi_div_two_sub]
  rfl

/-- Whole calls: if at a time returned the curves through the frequencies at pericenters and at apocenters are right, up to a
relative error `ε`, for a Newtonian binary of eccentricity `E`, then the eccentricity returned is within `(2/3) ε / (1 - ε)` of
`E`. -/
theorem C88_call {C : Type} {fuel : ℕ} {lib : Libs ℝ C} {a : Call ℝ C} {ans : Answer ℝ C} {asked : Val ℝ}
    (hecc : lib.eccOf = eccFromOmega)
    (hrun : run fuel lib a = some (.ok ans)) (hpi : 0 < lib.wave.pi) (hpr : a.precessing = .isFalse)
    (hasked : a.trefIn = some asked) (hdict : ProperDicts a.dataDict)
    (harrays : ∀ t A φ w, Dominant lib.wave a.dataDict t A φ w → ProperArrays t A φ w) (hpeaks : PeakFinder lib)
    (hmethod : a.method ≠ "AmplitudeFits" ∧ a.method ≠ "FrequencyFits")
    (hzero : (a.extra.getD []).get? "return_zero_if_small_ecc_failure" = none) :
    ∃ t A φ w p q fP fA ve vr, Apsides lib a ans.built.analysis.width t A φ w p q fP fA ∧
      ans.ret.get? "eccentricity" = some ve ∧ ans.ret.get? "tref_out" = some vr ∧ vr.atleast1d ≠ [] ∧
      List.Forall₂ (fun x e => ∃ wp wa, fP x = .ok wp ∧ fA x = .ok wa ∧
        ∀ (ε E q : ℝ) (f : ℝ → ℝ) (tp ta : ℝ), 0 ≤ E → E < 1 → 0 < q → KeplerOrbit E q f → AtPericenter f tp →
          AtApocenter f ta → 0 ≤ ε → ε < 1 → |wp - frequency (strain22 E q f) tp| ≤ ε * frequency (strain22 E q f) tp →
          |wa - frequency (strain22 E q f) ta| ≤ ε * frequency (strain22 E q f) ta →
          |e - E| ≤ 2 / 3 * (ε / (1 - ε))) vr.atleast1d ve.atleast1d := by
  obtain ⟨t, A, φ, w, p, q, fP, fA, ve, va, vr, hA, g1, _, g3, _, _, _, hne, _, hv, _⟩ :=
    C89_times hrun hpi hpr hasked hdict harrays hpeaks hmethod hzero
  refine ⟨t, A, φ, w, p, q, fP, fA, ve, vr, hA, g1, g3, hne, hv.imp ?_⟩
  rintro x e ⟨wp, wa, h1, h2, rfl⟩
  refine ⟨wp, wa, h1, h2, ?_⟩
  intro ε E q f tp ta hE hE1 hq hf htp hta h0 h1' k1 k2
  rw [hecc]
  exact C88_newtonian_accuracy hE hE1 hq hf htp hta h0 h1' k1 k2

/-- The premises of `C88_call`: the waveform of a Newtonian binary, measured with scipy's splines and peak finder. -/
example : ∃ (a : Call ℝ Unit) (ans : Answer ℝ Unit) (asked : Val ℝ), NewtonCall.libSplines.eccOf = eccFromOmega ∧
    run 0 NewtonCall.libSplines a = some (.ok ans) ∧ 0 < NewtonCall.libSplines.wave.pi ∧ a.precessing = .isFalse ∧
    a.trefIn = some asked ∧ ProperDicts a.dataDict ∧
    (∀ t A φ w, Dominant NewtonCall.libSplines.wave a.dataDict t A φ w → ProperArrays t A φ w) ∧
    PeakFinder NewtonCall.libSplines ∧ (a.method ≠ "AmplitudeFits" ∧ a.method ≠ "FrequencyFits") ∧
    (a.extra.getD []).get? "return_zero_if_small_ecc_failure" = none := by
  obtain ⟨a, ans, asked, _, h1, _, _, h2, h3, h4, h5, h6, h7, h8⟩ := splines_premises
  exact ⟨_, ans, asked, h1, h2, Real.pi_pos, h3, rfl, h4, h5, h6, h7, h8⟩

end GwEcc
