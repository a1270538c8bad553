import Mathlib.Analysis.SpecialFunctions.Trigonometric.InverseDeriv
import Mathlib.Analysis.SpecialFunctions.Sqrt
import Verif.Lemmas.Ecc
import Verif.Props.Reference
import Verif.Props.SplineCall

/-!
# C123: the eccentricity does not jump

The eccentricity is a smooth function of the two frequencies, and so as smooth a function of time as the two curves through the
frequencies at pericenters and at apocenters.
-/

namespace GwEcc

open Spec Points

/-! ### The formula -/

theorem eOmega_between {p a : ℝ} (hp : 0 < p) (ha : 0 < a) : -1 < eOmega p a ∧ eOmega p a < 1 := by
  have h1 := Real.sqrt_pos.2 hp
  have h2 := Real.sqrt_pos.2 ha
  unfold eOmega
  rw [lt_div_iff₀ (by positivity), div_lt_one (by positivity)]
  constructor <;> linarith

/-- Strictly between `-1` and `1` the correction to the Newtonian definition is smooth. -/
theorem et_smooth {n : WithTop ℕ∞} {w : ℝ} (h1 : -1 < w) (h2 : w < 1) : ContDiffAt ℝ n etFromEw22 w := by
  have hev : etFromEw22 =ᶠ[nhds w] fun w => 2 * Real.cos (Real.arccos (2 * w / (1 + w * w)) / 3 + Real.pi / 3) := by
    filter_upwards [Ioo_mem_nhds h1 h2] with u hu
    rw [et_eq_cos, psi_eq_arccos (by nlinarith [hu.1, hu.2])]
  refine ContDiffAt.congr_of_eventuallyEq ?_ hev
  have hd : (1 : ℝ) + w * w ≠ 0 := by nlinarith [mul_self_nonneg w]
  have hq : ContDiffAt ℝ n (fun w : ℝ => 2 * w / (1 + w * w)) w :=
    (contDiffAt_const.mul contDiffAt_id).div (contDiffAt_const.add (contDiffAt_id.mul contDiffAt_id)) hd
  have hpos : 0 < 1 + w * w := by nlinarith [mul_self_nonneg w]
  have hne1 : 2 * w / (1 + w * w) ≠ -1 := by
    intro h
    rw [div_eq_iff hd] at h
    have : (1 + w) ^ 2 = 0 := by linarith
    have := pow_eq_zero_iff (two_ne_zero) |>.1 this
    linarith
  have hne2 : 2 * w / (1 + w * w) ≠ 1 := by
    intro h
    rw [div_eq_iff hd] at h
    have : (1 - w) ^ 2 = 0 := by linarith
    have := pow_eq_zero_iff (two_ne_zero) |>.1 this
    linarith
  have hac : ContDiffAt ℝ n (fun w : ℝ => Real.arccos (2 * w / (1 + w * w))) w :=
    ContDiffAt.comp (g := Real.arccos) w (Real.contDiffAt_arccos hne1 hne2) hq
  exact contDiffAt_const.mul (Real.contDiff_cos.contDiffAt.comp w ((hac.div_const 3).add contDiffAt_const))

/-- Where both frequencies are positive, the eccentricity is a smooth function of them. -/
theorem C123_formula {n : WithTop ℕ∞} {p a : ℝ} (hp : 0 < p) (ha : 0 < a) :
    ContDiffAt ℝ n (fun x : ℝ × ℝ => eccFromOmega x.1 x.2) (p, a) := by
  have h1 := Real.sqrt_pos.2 hp
  have h2 := Real.sqrt_pos.2 ha
  have sp : ContDiffAt ℝ n (fun x : ℝ × ℝ => Real.sqrt x.1) (p, a) := contDiffAt_fst.sqrt hp.ne'
  have sa : ContDiffAt ℝ n (fun x : ℝ × ℝ => Real.sqrt x.2) (p, a) := contDiffAt_snd.sqrt ha.ne'
  have he : ContDiffAt ℝ n (fun x : ℝ × ℝ => eOmega x.1 x.2) (p, a) :=
    (sp.sub sa).div (sp.add sa) (by positivity)
  have hb := eOmega_between hp ha
  exact ContDiffAt.comp (g := etFromEw22) (p, a) (et_smooth hb.1 hb.2) he

/-- The eccentricity of two curves is as smooth as they are. -/
theorem ecc_smooth {n : WithTop ℕ∞} {P Q : ℝ → ℝ} (hP : ContDiff ℝ n P) (hQ : ContDiff ℝ n Q) {x : ℝ} (hp : 0 < P x)
    (hq : 0 < Q x) : ContDiffAt ℝ n (fun x => eccFromOmega (P x) (Q x)) x :=
  ContDiffAt.comp (g := fun z : ℝ × ℝ => eccFromOmega z.1 z.2) (f := fun x => (P x, Q x)) x (C123_formula hp hq)
    (hP.contDiffAt.prodMk hQ.contDiffAt)

/-! ### Whole calls -/

section
variable {C : Type}

/-- One curve of eccentricity behind all calls for times: the eccentricities returned are those of the two splines through the
caller's frequencies at pericenters and at apocenters, and, where both are positive, this eccentricity is a function of time
with as many continuous derivatives as the order of the less smooth of the splines, less one; with the order given in the
options that is the number of extrema less two, if these are fewer.  It never jumps. -/
theorem C123_call {fuel : ℕ} {lib : Libs ℝ C} {a : Call ℝ C} {ans : Answer ℝ C} {asked : Val ℝ}
    (hscipy : lib.eval = scipyEval) (hecc : lib.eccOf = eccFromOmega) (hm : InterpolationMethod a "spline")
    (hseg : WholeWaveform a)
    (hrun : run fuel lib (askTimes a asked) = some (.ok ans))
    (hpr : a.precessing = .isFalse) (hdict : ProperDicts a.dataDict)
    (harrays : ∀ t A φ w, Dominant lib.wave a.dataDict t A φ w → ProperArrays t A φ w) (hpeaks : PeakFinder lib)
    (hmethod : a.method ≠ "AmplitudeFits" ∧ a.method ≠ "FrequencyFits")
    (hzero : (a.extra.getD []).get? "return_zero_if_small_ecc_failure" = none) :
    ∃ t A φ w p q fP fA, Apsides lib (askTimes a asked) ans.built.analysis.width t A φ w p q fP fA ∧
      ∃ (kp kq : ℕ) (P Q ecc : ℝ → ℝ), SplineOrder a "special_interp_kwargs_for_omega_gw_extrema" kp ∧
        SplineOrder a "special_interp_kwargs_for_omega_gw_extrema" kq ∧
        IsSpline (min kp (p.length - 1)) (Breaks (min kp (p.length - 1)) (valuesAt t p)) P ∧
        IsSpline (min kq (q.length - 1)) (Breaks (min kq (q.length - 1)) (valuesAt t q)) Q ∧
        (∀ i ∈ p, P (t.getD i 0) = w.getD i 0) ∧ (∀ i ∈ q, Q (t.getD i 0) = w.getD i 0) ∧
        (∀ v ans', run fuel lib (askTimes a v) = some (.ok ans') →
          ∃ ve vr, ans'.ret.get? "eccentricity" = some ve ∧ ans'.ret.get? "tref_out" = some vr ∧
            ve.atleast1d = vr.atleast1d.map ecc ∧
            ∀ x ∈ vr.atleast1d, Within (valuesAt t p) x ∧ Within (valuesAt t q) x) ∧
        (∀ x, 0 < P x → 0 < Q x → ContinuousAt ecc x ∧
          ContDiffAt ℝ (((min (min kp (p.length - 1)) (min kq (q.length - 1))) - 1 : ℕ) : WithTop ℕ∞) ecc x) := by
  have hr : run fuel lib (ask a .time asked) = some (.ok ans) := hrun
  obtain ⟨R⟩ := run_ok hrun
  obtain ⟨m, hmeas⟩ := measured R hzero
  obtain ⟨t, A, φ, w, s, n, S⟩ := stretch_of_run R hpr hdict harrays hpeaks hmethod hmeas
  obtain ⟨⟨x, hx⟩, hsame⟩ := other_run hr hseg .time asked
  have hsrc := answers hr hseg
  rw [hr, hx] at hsame
  have hans := Except.ok.inj (Option.some.inj hsame)
  rcases stage hx with hz | ⟨ms, p, q, hprep, hev⟩
  · rw [hz] at hx
    cases hs : setToZero (turn ans.built.obj .time asked) with
    | error e => rw [hs] at hx; cases hx
    | ok y =>
      rw [hs] at hx
      have := Except.ok.inj hx
      rw [hans, ← this] at hmeas
      cases hmeas
  · have hturn : ans.meas = some (turnM ms .time asked) := by
      rw [hev] at hx
      cases hs : evaluate ans.built.ext (turnM ms .time asked) none with
      | error e => rw [hs] at hx; cases hx
      | ok y =>
        rw [hs] at hx
        have := Except.ok.inj hx
        rw [hans, ← this]
    have hm' := Option.some.inj (hmeas.symm.trans hturn)
    subst hm'
    obtain ⟨ho, hpp, hqq, -, -, -, -, -, -, hP, hA⟩ := prepare_ok hprep
    have cP := extremaInterpolant_curve hP
    have cA := extremaInterpolant_curve hA
    rw [← hpp, ← hqq] at cP cA
    have hAps := S.apsides ms.interpP ms.interpA cP cA
    have full : ∀ v ans', run fuel lib (askTimes a v) = some (.ok ans') →
        ∃ c, evaluate ans.built.ext (turnM ms .time v) none = .ok (ans'.ret, c) := by
      intro v ans' h'
      obtain ⟨mo, c, h⟩ := (hsrc .time v ans'.ret).mp ⟨ans', h', rfl⟩
      rw [hev] at h
      cases hs : evaluate ans.built.ext (turnM ms .time v) none with
      | error e => rw [hs] at h; cases h
      | ok x =>
        rw [hs] at h
        have e : x.1 = ans'.ret := congrArg Prod.fst (Except.ok.inj h)
        exact ⟨x.2, by rw [← e]⟩
    obtain ⟨c0, h0⟩ := full _ _ hrun
    obtain ⟨ts, -, hne, hfine, -⟩ := times_full h0
    obtain ⟨x0, hx0⟩ := List.exists_mem_of_ne_nil _ hne
    obtain ⟨-, ⟨_, y1⟩, ⟨_, y2⟩, -⟩ := hfine x0 hx0
    obtain ⟨kp, P, a1, a2, a3, a4⟩ := curve_spline hscipy hm hAps.peri_curve y1
    obtain ⟨kq, Q, b1, b2, b3, b4⟩ := curve_spline hscipy hm hAps.apo_curve y2
    refine ⟨t, A, φ, w, _, _, _, _, hAps, kp, kq, P, Q, fun x => eccFromOmega (P x) (Q x), a1, b1, a2, b2, a3, b3, ?_, ?_⟩
    · intro v ans' h'
      obtain ⟨c, h1⟩ := full v ans' h'
      obtain ⟨ts, -, -, hf, -, ve, va, vr, ⟨k1, -, k3⟩, -, -, -, k4, -, k6⟩ := times_full h1
      refine ⟨ve, vr, k1, k3, ?_, ?_⟩
      · rw [k4, k6]
        refine List.map_congr_left fun x hx => ?_
        obtain ⟨-, ⟨_, y1⟩, ⟨_, y2⟩, -⟩ := hf x hx
        unfold eccAt
        rw [S.ecc, hecc, y1, y2, ← (a4 _ _ y1).2, ← (b4 _ _ y2).2]
        rfl
      · intro x hx
        rw [k6] at hx
        obtain ⟨-, ⟨_, y1⟩, ⟨_, y2⟩, -⟩ := hf x hx
        exact ⟨(a4 _ _ y1).1, (b4 _ _ y2).1⟩
    · intro x hp hq
      have := ecc_smooth (a2.smooth.of_le (m := (((min (min kp ((ms.pericenters.map (s + ·)).length - 1))
        (min kq ((ms.apocenters.map (s + ·)).length - 1))) - 1 : ℕ) : WithTop ℕ∞)) (by
          exact_mod_cast Nat.sub_le_sub_right (min_le_left _ _) 1))
        (b2.smooth.of_le (by exact_mod_cast Nat.sub_le_sub_right (min_le_right _ _) 1)) hp hq
      exact ⟨this.continuousAt, this⟩

end

/-- The premises of `C123_call`: the waveform of a Newtonian binary, measured with scipy's splines and peak finder. -/
theorem splines_premises : ∃ (a : Call ℝ Unit) (ans : Answer ℝ Unit) (asked : Val ℝ), NewtonCall.libSplines.eval = scipyEval ∧
    NewtonCall.libSplines.eccOf = eccFromOmega ∧ InterpolationMethod a "spline" ∧ WholeWaveform a ∧
    run 0 NewtonCall.libSplines (askTimes a asked) = some (.ok ans) ∧
    a.precessing = .isFalse ∧ ProperDicts a.dataDict ∧
    (∀ t A φ w, Dominant NewtonCall.libSplines.wave a.dataDict t A φ w → ProperArrays t A φ w) ∧
    PeakFinder NewtonCall.libSplines ∧ (a.method ≠ "AmplitudeFits" ∧ a.method ≠ "FrequencyFits") ∧
    (a.extra.getD []).get? "return_zero_if_small_ecc_failure" = none := by
  obtain ⟨f, φ, t₀, h, _, hh, ans, hrun, _⟩ := NewtonCall.splines_return (ε := 1 / 2) (q := 1) (by norm_num) (by norm_num)
    "Amplitude" (.inl ⟨rfl, by norm_num⟩)
  refine ⟨{ NewtonCall.call "Amplitude" (1 / 2) 1 f φ t₀ h with extra := NewtonCall.splines }, ans, .scalar (t₀ + 4 * h), rfl, rfl, ?_, ?_, hrun 0, rfl, NewtonCall.data_proper _ _ _ _ _ _, ?_,
    C111_finder rfl, ⟨by simp [NewtonCall.call], by simp [NewtonCall.call]⟩, rfl⟩
  · exact (NewtonCall.splines_defaults.2 _).trans (if_pos rfl)
  · intro x hx
    have e : inForce extraDefaults NewtonCall.splines "use_only_these_many_orbits" = some x := hx
    rw [NewtonCall.splines_defaults.2, if_neg (by decide)] at e
    cases e
    rfl
  · intro t A φ' w hD
    have e1 : some (NewtonCall.times t₀ h) = some t := hD.times
    have e2 : some ((NewtonCall.times t₀ h).map _) = some A := hD.amplitude
    have e3 : some ((NewtonCall.times t₀ h).map _) = some φ' := hD.phase
    have e4 : some ((NewtonCall.times t₀ h).map _) = some w := hD.given rfl
    cases e1; cases e2; cases e3; cases e4
    refine ⟨?_, by simp, by simp, by simp⟩
    unfold NewtonCall.times
    rw [List.pairwise_map]
    refine List.pairwise_lt_range.imp fun {i j} hij => ?_
    have : (i : ℝ) < j := by exact_mod_cast hij
    nlinarith

/-- The premises of `C123_formula`. -/
example : (0 : ℝ) < 2 ∧ (0 : ℝ) < 1 := by norm_num

end GwEcc
