import Verif.Spec.Scipy
import Verif.Props.Spline
import Verif.Props.Rescale
import Verif.Props.NewtonianCall
import Verif.Props.FindPeaks

/-!
# C115, C117 and corollaries of C85 and C87: whole calls with the splines and peaks of scipy
-/

namespace GwEcc

open Spec Polynomial

/-! ### Curves through the extrema -/

section
variable {C : Type}

theorem valuesAt_zip {t w : List ℝ} {p : List ℕ} {F : ℝ → ℝ} (h : PassesThrough (valuesAt t p) (valuesAt w p) F) :
    ∀ i ∈ p, F (t.getD i 0) = w.getD i 0 := by
  intro i hi
  refine h (t.getD i 0, w.getD i 0) ?_
  unfold valuesAt
  rw [List.zip_map']
  exact List.mem_map.2 ⟨i, hi, rfl⟩

/-- With the interpolation method "spline" the curve through the frequencies at some samples is the spline of the order given
through them. -/
theorem curve_spline {lib : Libs ℝ C} {a : Call ℝ C} (hscipy : lib.eval = scipyEval) (hm : InterpolationMethod a "spline")
    {t w : List ℝ} {p : List ℕ} {f : ℝ → Py ℝ}
    (hf : CurveThrough lib a (valuesAt t p) (valuesAt w p) f) {x v : ℝ} (hv : f x = .ok v) :
    ∃ (k : ℕ) (F : ℝ → ℝ), SplineOrder a "special_interp_kwargs_for_omega_gw_extrema" k ∧
      IsSpline (min k (p.length - 1)) (Breaks (min k (p.length - 1)) (valuesAt t p)) F ∧
      (∀ i ∈ p, F (t.getD i 0) = w.getD i 0) ∧ ∀ x v, f x = .ok v → Within (valuesAt t p) x ∧ v = F x := by
  rcases hf with ⟨h, _⟩ | ⟨_, k, hk, rfl⟩
  · unfold InterpolationMethod at h hm
    rw [h] at hm
    simp at hm
  · rw [hscipy] at hv ⊢
    obtain ⟨s1, s2, s3, s4, s5, _⟩ := scipyEval_ok hv
    have hl : (valuesAt t p).length = p.length := by simp [valuesAt]
    obtain ⟨F, hF, hy⟩ := C115_exists s1 s2 s3 s5
    refine ⟨k, F, hk, by rw [← hl]; exact hF, valuesAt_zip hy, fun x v h => ?_⟩
    have hw := (scipyEval_ok h).2.2.2.2.2 rfl
    exact ⟨hw, Except.ok.inj (h.symm.trans (scipyEval_spline s1 s2 s3 s4 s5 hF hy (by omega) hw))⟩

/-- A whole call with scipy's splines, the interpolation method "spline" and reference times: the frequency at pericenters and
at apocenters as functions of time are the splines, of the order given in the options, through the caller's frequencies at the
pericenters and at the apocenters, and every eccentricity is that of the two curves at its time. -/
theorem C115_call {fuel : ℕ} {lib : Libs ℝ C} {a : Call ℝ C} {ans : Answer ℝ C} {asked : Val ℝ}
    (hscipy : lib.eval = scipyEval) (hm : InterpolationMethod a "spline")
    (hrun : run fuel lib a = some (.ok ans)) (hpi : 0 < lib.wave.pi)
    (hpr : a.precessing = .isFalse) (hasked : a.trefIn = some asked) (hdict : ProperDicts a.dataDict)
    (harrays : ∀ t A φ w, Dominant lib.wave a.dataDict t A φ w → ProperArrays t A φ w) (hpeaks : PeakFinder lib)
    (hmethod : a.method ≠ "AmplitudeFits" ∧ a.method ≠ "FrequencyFits")
    (hzero : (a.extra.getD []).get? "return_zero_if_small_ecc_failure" = none) :
    ∃ t A φ w p q fP fA ve vr, Apsides lib a ans.built.analysis.width t A φ w p q fP fA ∧
      ans.ret.get? "eccentricity" = some ve ∧ ans.ret.get? "tref_out" = some vr ∧ vr.atleast1d ≠ [] ∧
      ∃ (kp kq : ℕ) (P Q : ℝ → ℝ), SplineOrder a "special_interp_kwargs_for_omega_gw_extrema" kp ∧
        SplineOrder a "special_interp_kwargs_for_omega_gw_extrema" kq ∧
        IsSpline (min kp (p.length - 1)) (Breaks (min kp (p.length - 1)) (valuesAt t p)) P ∧
        IsSpline (min kq (q.length - 1)) (Breaks (min kq (q.length - 1)) (valuesAt t q)) Q ∧
        (∀ i ∈ p, P (t.getD i 0) = w.getD i 0) ∧ (∀ i ∈ q, Q (t.getD i 0) = w.getD i 0) ∧
        (∀ x ∈ vr.atleast1d, Within (valuesAt t p) x ∧ Within (valuesAt t q) x) ∧
        ve.atleast1d = vr.atleast1d.map fun x => lib.eccOf (P x) (Q x) := by
  obtain ⟨t, A, φ, w, p, q, fP, fA, ve, va, vr, hA, g1, _, g3, _, _, _, hne, _, hv, _⟩ :=
    C89_times hrun hpi hpr hasked hdict harrays hpeaks hmethod hzero
  obtain ⟨x0, hx0⟩ := List.exists_mem_of_ne_nil _ hne
  obtain ⟨e0, _, wp, wa, h1, h2, _⟩ := forall₂_mem_left hv hx0
  obtain ⟨kp, P, a1, a2, a3, a4⟩ := curve_spline hscipy hm hA.peri_curve h1
  obtain ⟨kq, Q, b1, b2, b3, b4⟩ := curve_spline hscipy hm hA.apo_curve h2
  refine ⟨t, A, φ, w, p, q, fP, fA, ve, vr, hA, g1, g3, hne, kp, kq, P, Q, a1, b1, a2, b2, a3, b3, fun x hx => ?_, ?_⟩
  · obtain ⟨_, _, _, _, h1, h2, _⟩ := forall₂_mem_left hv hx
    exact ⟨(a4 _ _ h1).1, (b4 _ _ h2).1⟩
  · clear g1 g3 hne hx0
    revert hv
    generalize vr.atleast1d = l
    generalize ve.atleast1d = m
    intro h
    induction h with
    | nil => rfl
    | cons h _ ih =>
      obtain ⟨wp, wa, h1, h2, rfl⟩ := h
      rw [List.map_cons, ← ih, (a4 _ _ h1).2, (b4 _ _ h2).2]

end

/-! ### C117 -/

/-- The points of the counterexample: an average frequency that grows slowly in between. -/
theorem overshoot_points : ([0, 10, 101 / 10, 201 / 10] : List ℝ)
    = [0, 1, 2, 3].map (C (201 / 20) + C (-29 / 40) * (X - C (3 / 2)) + C (33 / 10) * (X - C (3 / 2)) ^ 3 : ℝ[X]).eval := by
  simp only [List.map_cons, List.map_nil, eval_add, eval_mul, eval_C, eval_sub, eval_X, eval_pow]
  norm_num

/-- With the default order a higher reference frequency can get an earlier time, and a time outside those of the two samples
between whose frequencies it lies: average frequencies `0, 1, 2, 3` at the times `0, 10, 10.1, 20.1`, and the reference
frequencies `1.4` and `1.6`. -/
theorem C117_violated {tol : ℝ} (htol : 0 ≤ tol) :
    ∃ t₁ t₂ : ℝ, interpolate tol scipyEval [7 / 5, 8 / 5] [0, 1, 2, 3] [0, 10, 101 / 10, 201 / 10] false .spline {} false
      = .ok [t₁, t₂] ∧ t₂ < 10 ∧ 101 / 10 < t₁ := by
  refine ⟨_, _, C115_polynomial htol (by norm_num) (by norm_num) (by norm_num) (by norm_num) ?_ overshoot_points (by simp)
    fun u hu => ⟨0, 3, rfl, rfl, ?_⟩, ?_, ?_⟩
  · refine (degree_add_le _ _).trans (max_le ((degree_add_le _ _).trans (max_le ?_ ?_)) ?_)
    · exact degree_C_le.trans (by norm_num)
    · refine (degree_le_of_natDegree_le ((natDegree_C_mul_le _ _).trans ?_) : _ ≤ ((1 : ℕ) : WithBot ℕ)).trans (by norm_num)
      rw [natDegree_X_sub_C]
    · refine (degree_le_of_natDegree_le ((natDegree_C_mul_le _ _).trans ?_) : _ ≤ ((3 : ℕ) : WithBot ℕ)).trans (by norm_num)
      rw [natDegree_pow, natDegree_X_sub_C]
  · simp only [List.mem_cons, List.not_mem_nil, or_false] at hu
    rcases hu with rfl | rfl <;> norm_num
  · simp only [eval_add, eval_mul, eval_C, eval_sub, eval_X, eval_pow]
    norm_num
  · simp only [eval_add, eval_mul, eval_C, eval_sub, eval_X, eval_pow]
    norm_num

/-! ### Units and Newtonian binaries -/

section
variable {K C : Type} [Field K] [LinearOrder K] [IsStrictOrderedRing K] [FloorRing K]

theorem scipy_unitFree {lib : Libs K C} {argsort : List K → List ℕ} (h : ScipyLibs lib argsort) {u : Units K C}
    (hk : 0 < u.k) (hs : 0 < u.s) (o : OthersUnitFree lib u) : LibUnitFree lib u where
  wave := o.wave
  filter :=
    { fit := o.fit
      peaks := fun kind d n => by
        rw [h.filterPeaks]
        have : 0 < u.factor kind := by
          cases kind with
          | amp => exact hs
          | omega => exact inv_pos.2 hk
        exact (C111_units_fits this (h.scale _ this) d n 0).2
      cubic := by rw [h.filterCubic]; exact fun x y => interp1dCubic_new hk u.c x y
      spectrum := o.spectrum
      lowpass := o.lowpass }
  fits :=
    { pow := o.pow
      curveFit := fun t0 t d p lo hi => by
        rw [show d.map ((1 : K) * ·) = d by simp]; exact o.curveFit t0 t d p lo hi
      findPeaks := fun d n x => by rw [show d.map ((1 : K) * ·) = d by simp, one_mul]
      parabola := fun t d => by
        rw [show d.map ((1 : K) * ·) = d by simp, o.parabola]; simp
      cubic := o.cubic }
  fitsSamples := by rw [h.fitsPeaks]; exact (C111_fits argsort).1
  pi := o.pi
  tol := o.tol
  eccOf := o.eccOf
  evalFreq := by rw [h.eval]; exact scipyEval_freq hk u.c
  evalAmp := by rw [h.eval]; exact scipyEval_amp hk hs u.c
  evalTime := by rw [h.eval]; exact scipyEval_time hk u.c
  deriv := by rw [h.deriv]; exact scipyDeriv_freq hk u.c
  rational := o.rational
  argsort := o.argsort
  argsortRange := o.argsortRange
  peaks := by rw [h.peaks]; exact fun kw hkw r hr d => C111_units hr (h.scale r hr) kw hkw d
  peaksSamples := C111_finder h.peaks

/-- **C85** with scipy's splines and peaks: nothing has to be assumed about them. -/
theorem C85_scipy_partial (fuel : ℕ) (lib : Libs K C) (argsort : List K → List ℕ) (u : Units K C) (a : Call K C)
    (h : ScipyLibs lib argsort) (hk : 0 < u.k) (hs : 0 < u.s) (ho : OthersUnitFree lib u) (ha : UnitFreeCall lib a) :
    (run fuel lib (newCall u a)).map (·.map (·.ret))
      = (run fuel lib a).map (·.map fun r => newResult u.k u.c (Call.domain a) r.ret) :=
  C85_units_partial fuel lib u a hk hs (scipy_unitFree h hk hs ho) ha

end

section
variable {C : Type}

theorem faithful_scipy {lib : Libs ℝ C} (he : lib.eval = scipyEval) (hd : lib.deriv = scipyDeriv) (hpi : lib.wave.pi = Real.pi)
    (hecc : lib.eccOf = eccFromOmega) : FaithfulLibs lib where
  pi := hpi
  ecc := hecc
  spline := fun k xs ys c x h1 h5 hk hx hl hc hw => by
    rw [he]
    refine scipyEval_spline (F := fun _ => c) hx hl h1 h5 hk ⟨contDiff_const, fun a b _ => ⟨Polynomial.C c, ?_, fun u _ _ => by
      rw [eval_C]⟩⟩ (fun p hp => ?_) (by omega) hw
    · exact degree_C_le.trans (by positivity)
    · exact (hc _ (List.of_mem_zip hp).2).symm
  derivative := fun k xs ys x h1 h5 hk hx hl hm => by
    rw [hd]
    obtain ⟨s, hs, _⟩ := fitSpline_exists (k := k) (ext := 2) hx hl.symm h1 h5 (by omega) hk
    refine ⟨(s.deriv (k - 1)).value (k - 1) (splineKnots k xs) x, ?_⟩
    show (fitSpline k 2 xs ys >>= _) = _
    rw [hs, ok_bind, splev_within (node_within hx hm)]

/-- **C87** with scipy's splines and peaks, and splines through the frequencies at the extrema: nothing has to be assumed about
interpolation, and of the peak finder only that all extrema are as wide as the width computed from the waveform. -/
theorem C87_splines {ε q : ℝ} {f φ : ℝ → ℝ} {tEnd : ℝ} {fuel : ℕ} {lib : Libs ℝ C} {a : Call ℝ C} {ans : Answer ℝ C}
    {asked : Val ℝ} {t kept : List ℝ} {argsort : List ℝ → List ℕ} (hε : 0 < ε) (hq : 0 < q) (orbit : KeplerOrbit ε q f)
    (hφ : IsPhase (strain22 ε q f) φ) (he : lib.eval = scipyEval) (hd : lib.deriv = scipyDeriv) (hpi : lib.wave.pi = Real.pi)
    (hecc : lib.eccOf = eccFromOmega) (hscipy : lib.peaks = findPeaks argsort)
    (hwave : NewtonianUntil ε q f φ tEnd a.dataDict t) (hdict : ProperDicts a.dataDict)
    (hmethod : MethodUpTo a.method ε) (hpr : a.precessing = .isFalse) (hlevel : a.level = 0)
    (hopt : DefaultsBut a.extra "spline")
    (hasked : a.trefIn = some asked) (hrun : run fuel lib a = some (.ok ans))
    (hkept : array ans.built.data "t" = some kept) (hsteps : EqualSteps kept) (hend : ∀ x ∈ kept, x ≤ tEnd)
    (hmax : ∀ i, IsMaximum (kept.map fun x => signal a.method ε q f x) i →
      ∃ v, HasWidth (kept.map fun x => signal a.method ε q f x) i v ∧ (ans.built.analysis.width : ℝ) ≤ v)
    (hmin : ∀ i, IsMaximum (kept.map fun x => -signal a.method ε q f x) i →
      ∃ v, HasWidth (kept.map fun x => -signal a.method ε q f x) i v ∧ (ans.built.analysis.width : ℝ) ≤ v) :
    ReturnsEccentricity ε f asked ans.ret :=
  C87_returned hε hq orbit hφ (faithful_scipy he hd hpi hecc) hwave hdict hmethod hpr hlevel hopt
    (fun h => absurd h (by decide)) hasked hrun hkept hsteps hend ((C87_scipy hscipy).mpr ⟨hmax, hmin⟩)

end

/-! ### The premises are met -/

namespace NewtonCall

/-- The libraries of the demonstration with scipy's splines. -/
noncomputable def libSplines : Libs ℝ Unit := { lib with eval := scipyEval, deriv := scipyDeriv }

/-- The options asking for splines through the frequencies at the extrema. -/
def splines : Option (Extra ℝ) := some [("omega_gw_extrema_interpolation_method", .leaf (.str "spline"))]

theorem splines_defaults : DefaultsBut splines "spline" := by
  refine ⟨.inr rfl, fun key => ?_⟩
  unfold inForce splines
  simp only [Option.getD_some, Dict.get?_cons]
  by_cases h : key = "omega_gw_extrema_interpolation_method"
  · subst h
    simp
  · rw [if_neg h, if_neg h]
    rfl

/-- A whole call with scipy's splines and peak finder, on the waveform of a Newtonian binary. -/
theorem splines_return {ε q : ℝ} (hε : 0 < ε) (hq : 0 < q) (method : String) (hm : MethodUpTo method ε) :
    ∃ f φ t₀ h, KeplerOrbit ε q f ∧ 0 < h ∧
      ∃ ans, (∀ fuel, run fuel libSplines { call method ε q f φ t₀ h with extra := splines } = some (.ok ans)) ∧
      ReturnsEccentricity ε f (.scalar (t₀ + 4 * h)) ans.ret :=
  call_returns hε hq method hm libSplines rfl rfl (faithful_scipy rfl rfl rfl rfl) splines "spline" splines_defaults
    fun h => absurd h (by decide)

/-- The premises of `C115_call`. -/
example : ∃ (a : Call ℝ Unit) (ans : Answer ℝ Unit) (asked : Val ℝ), libSplines.eval = scipyEval ∧
    InterpolationMethod a "spline" ∧ run 0 libSplines a = some (.ok ans) ∧ 0 < libSplines.wave.pi ∧
    a.precessing = .isFalse ∧ a.trefIn = some asked ∧ ProperDicts a.dataDict ∧
    (∀ t A φ w, Dominant libSplines.wave a.dataDict t A φ w → ProperArrays t A φ w) ∧ PeakFinder libSplines ∧
    (a.method ≠ "AmplitudeFits" ∧ a.method ≠ "FrequencyFits") ∧
    (a.extra.getD []).get? "return_zero_if_small_ecc_failure" = none := by
  obtain ⟨f, φ, t₀, h, _, hh, ans, hrun, _⟩ := splines_return (ε := 1 / 2) (q := 1) (by norm_num) (by norm_num) "Amplitude"
    (.inl ⟨rfl, by norm_num⟩)
  refine ⟨_, ans, _, rfl, ?_, hrun 0, Real.pi_pos, rfl, rfl, data_proper _ _ _ _ _ _, ?_, C111_finder rfl, ⟨by simp [call], by simp [call]⟩, rfl⟩
  · exact (splines_defaults.2 _).trans (if_pos rfl)
  · intro t A φ' w hD
    have e1 : some (times t₀ h) = some t := hD.times
    have e2 : some ((times t₀ h).map _) = some A := hD.amplitude
    have e3 : some ((times t₀ h).map _) = some φ' := hD.phase
    have e4 : some ((times t₀ h).map _) = some w := hD.given rfl
    cases e1; cases e2; cases e3; cases e4
    refine ⟨?_, by simp, by simp, by simp⟩
    unfold times
    rw [List.pairwise_map]
    refine List.pairwise_lt_range.imp fun {i j} hij => ?_
    have : (i : ℝ) < j := by exact_mod_cast hij
    nlinarith

end NewtonCall

end GwEcc
