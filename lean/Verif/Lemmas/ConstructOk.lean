import Verif.Lemmas.Construct

set_option linter.unusedSectionVars false

/-! What a successful construction and a successful call consist of. -/

namespace GwEcc

open Spec

section
variable {K C : Type} [Field K] [LinearOrder K] [FloorRing K]

/-- The series handed to the class. -/
def seriesOf (nd : DataV K C) (an : Analysis K) (w : Wave K) (res : Option (Residual K)) : Series K :=
  { amp := w.amp, omega := w.omega, resAmp := res.map (·.resAmp), resOmega := res.map (·.resOmega),
    ampMerger := an.ampMerger, hasT0 := nd.has "t_zeroecc", hasAmp0 := nd.has "amplm_zeroecc",
    hasOmega0 := nd.has "omegalm_zeroecc" }

/-- The steps of a successful `finish`. -/
structure Finished (lib : Libs K C) (c : MethodClass) (domain : Domain) (ref : Val K) (a : Call K C) (nd : DataV K C)
    (an : Analysis K) (w : Wave K) (filtered : Bool) (extra : Option (Extra K)) (b : Built K C) where
  ex : Extra K
  useOnly : Opt K
  orbits : Option K
  w1 : List InitWarning
  wave : Wave K
  peaksKw : Kwargs K
  method : Opt K
  extremaKw : SplineKwargs
  ratKw : Kwargs K
  generalKw : Kwargs K
  general : SplineKwargs
  w2 : List InitWarning
  res : Option (Residual K)
  zeroecc : Option (List K × List K)
  find : ExtType → Py (List ℕ)
  avg : Opt K
  mid : Opt K
  zero : Opt K
  dataT : List K
  h_ex : checkKwargs extra extraDefaults = .ok ex
  h_useOnly : ex.getItem "use_only_these_many_orbits" = .ok useOnly
  h_orbits : orbitsOption useOnly = .ok orbits
  h_w1 : segmentWarning lib.wave.pi a.level orbits w = .ok w1
  h_wave : selectWave lib.wave.pi (secularTrend lib.fits.pow lib.solve) orbits domain ref.atleast1d w = .ok wave
  h_peaks : subKwargs ex "extrema_finding_kwargs" (peaksDefaults an.width) = .ok peaksKw
  h_method : ex.getItem "omega_gw_extrema_interpolation_method" = .ok method
  h_special : extremaOptions ex a.level method.name = .ok (extremaKw, ratKw)
  h_general : subKwargs ex "general_interp_kwargs" splineDefaults = .ok generalKw
  h_spline : splineKwargs generalKw = .ok general
  h_w2 : keyWarnings a.level a.dataDict.keys = .ok w2
  h_res : residualStage lib general a.precessing.truth nd an.tMerger wave = .ok (res, zeroecc)
  h_find : finder lib c ex peaksKw an.tMerger (seriesOf nd an wave res) wave = .ok find
  h_avg : ex.getItem "omega_gw_averaging_method" = .ok avg
  h_mid : ex.getItem "treat_mid_points_between_pericenters_as_apocenters" = .ok mid
  h_zero : ex.getItem "return_zero_if_small_ecc_failure" = .ok zero
  h_dataT : getArr nd "t" = .ok dataT
  eq : b = {
    ext := ⟨lib.wave.pi, lib.tol, lib.monoTol, lib.eccOf, lib.eval, lib.deriv, 
      extremaFit (lib.rational ratKw.get?) lib.eval a.level (requestedDegrees (ratKw.get? "degrees")) wave.t, lib.argsort, find⟩
    obj := {
      t := wave.t, phase := wave.phase, omega := wave.omega, dataT := dataT, domain := domain, refIn := ref,
      precessing := a.precessing.truth, filtered := filtered, midpoints := mid.truth, returnZero := zero.truth,
      useOnly := orbits.isSome, level := a.level, interpMethod := method.name, avgMethod := avg.name,
      extremaKw := extremaKw, generalKw := general, zeroecc := zeroecc }
    data := nd, analysis := an, wave := wave, warnings := w1 ++ w2 }

theorem finish_ok {lib : Libs K C} {c : MethodClass} {domain : Domain} {ref : Val K} {a : Call K C} {nd : DataV K C}
    {an : Analysis K} {w : Wave K} {filtered : Bool} {extra : Option (Extra K)} {b : Built K C}
    (h : finish lib c domain ref a nd an w filtered extra = .ok b) :
    Nonempty (Finished lib c domain ref a nd an w filtered extra b) := by
  unfold finish at h
  obtain ⟨ex, h1, h⟩ := bind_ok h
  obtain ⟨useOnly, h2, h⟩ := bind_ok h
  obtain ⟨orbits, h3, h⟩ := bind_ok h
  obtain ⟨w1, h4, h⟩ := bind_ok h
  obtain ⟨wave, h5, h⟩ := bind_ok h
  obtain ⟨peaksKw, h6, h⟩ := bind_ok h
  obtain ⟨method, h7, h⟩ := bind_ok h
  obtain ⟨⟨extremaKw, ratKw⟩, h8, h⟩ := bind_ok h
  obtain ⟨generalKw, h9, h⟩ := bind_ok h
  obtain ⟨general, h10, h⟩ := bind_ok h
  obtain ⟨w2, h11, h⟩ := bind_ok h
  obtain ⟨⟨res, zeroecc⟩, h12, h⟩ := bind_ok h
  obtain ⟨find, h13, h⟩ := bind_ok h
  obtain ⟨avg, h14, h⟩ := bind_ok h
  obtain ⟨mid, h15, h⟩ := bind_ok h
  obtain ⟨zero, h16, h⟩ := bind_ok h
  obtain ⟨dataT, h17, h⟩ := bind_ok h
  exact ⟨⟨ex, useOnly, orbits, w1, wave, peaksKw, method, extremaKw, ratKw, generalKw, general, w2, res, zeroecc, find, avg,
    mid, zero, dataT, h1, h2, h3, h4, h5, h6, h7, h8, h9, h10, h11, h12, h13, h14, h15, h16, h17, (Except.ok.inj h).symm⟩⟩

/-- The steps of a successful call. -/
structure Ran (fuel : ℕ) (lib : Libs K C) (a : Call K C) (ans : Answer K C) where
  c : MethodClass
  domain : Domain
  ref : Val K
  nd : DataV K C
  an : Analysis K
  /-- the waveform before the filter -/
  loaded : Wave K
  /-- the waveform after the filter -/
  clean : Wave K
  filtered : Bool
  extra : Option (Extra K)
  cache : AvgCache K
  h_dispatch : dispatch a = .ok (c, domain, ref)
  h_load : loadWave lib a = .ok (nd, an, loaded)
  h_filter : filterStage fuel lib a nd an loaded = some (.ok (clean, filtered, extra))
  h_finish : finish lib c domain ref a nd an clean filtered extra = .ok ans.built
  h_measure : measureEcc ans.built.ext ans.built.obj none = .ok (ans.ret, ans.meas, cache)

theorem run_ok {fuel : ℕ} {lib : Libs K C} {a : Call K C} {ans : Answer K C} (h : run fuel lib a = some (.ok ans)) :
    Nonempty (Ran fuel lib a ans) := by
  unfold run at h
  cases hd : dispatch a with
  | error e => rw [hd] at h; simp at h
  | ok r =>
    obtain ⟨c, domain, ref⟩ := r
    rw [hd] at h
    dsimp only at h
    unfold construct at h
    cases hl : loadWave lib a with
    | error e => rw [hl] at h; simp [bind, Except.bind] at h
    | ok l =>
      obtain ⟨nd, an, w⟩ := l
      rw [hl] at h
      dsimp only at h
      cases hf : filterStage fuel lib a nd an w with
      | none => rw [hf] at h; simp at h
      | some r =>
        rw [hf] at h
        cases r with
        | error e => simp [bind, Except.bind] at h
        | ok q =>
          obtain ⟨w', filtered, extra⟩ := q
          simp only [Option.map_some, Option.some.injEq, ok_bind] at h
          obtain ⟨b, h1, h⟩ := bind_ok h
          obtain ⟨⟨ret, m, cache⟩, h2, h⟩ := bind_ok h
          cases h
          exact ⟨⟨c, domain, ref, nd, an, w, w', filtered, extra, cache, hd, hl, hf, h1, h2⟩⟩

theorem Ran.to_run {fuel : ℕ} {lib : Libs K C} {a : Call K C} {ans : Answer K C} (r : Ran fuel lib a ans) :
    run fuel lib a = some (.ok ans) := by
  unfold run
  rw [r.h_dispatch]
  dsimp only
  unfold construct
  rw [r.h_load]
  dsimp only
  rw [r.h_filter]
  simp only [Option.map_some, ok_bind]
  rw [r.h_finish]
  simp only [ok_bind]
  rw [r.h_measure]
  rfl

theorem frameMessage_off {level : ℤ} {precessing : Flag} {frame : String} (v : DataV K C)
    (h : mustTransform precessing frame = false) : frameMessage level precessing frame v = .ok () := by
  unfold frameMessage; rw [h]; rfl

theorem frameMessage_congr (level : ℤ) (precessing : Flag) (frame : String) {v v' : DataV K C}
    (h : checkShape v.has = checkShape v'.has) : frameMessage level precessing frame v = frameMessage level precessing frame v' := by
  unfold frameMessage; rw [h]

theorem loadWave_ok {lib : Libs K C} {a : Call K C} {nd : DataV K C} {an : Analysis K} {w : Wave K}
    (h : loadWave lib a = .ok (nd, an, w)) :
    processData lib.wave a.precessing a.frame a.dataDict a.numOrbits = .ok (nd, an) ∧ getArr nd "t" = .ok w.t ∧
      checkSteps w.t = .ok () ∧ gwQuantities a.precessing.truth nd "" = .ok (w.amp, w.phase, w.omega) := by
  unfold loadWave at h
  obtain ⟨_, _, h⟩ := bind_ok h
  obtain ⟨⟨nd', an'⟩, h1, h⟩ := bind_ok h
  obtain ⟨t, h2, h⟩ := bind_ok h
  obtain ⟨_, h3, h⟩ := bind_ok h
  obtain ⟨⟨amp, ph, om⟩, h4, h⟩ := bind_ok h
  cases h
  exact ⟨h1, h2, h3, h4⟩

/-- Without precession the filter does nothing. -/
theorem filterStage_off (fuel : ℕ) (lib : Libs K C) (a : Call K C) (nd : DataV K C) (an : Analysis K) (w : Wave K)
    (h : a.precessing.truth = false) : filterStage fuel lib a nd an w = some (.ok (w, false, a.extra)) := by
  unfold filterStage; rw [h]; rfl

/-- With precession: the options, and what the filter returns. -/
theorem filterStage_on {fuel : ℕ} {lib : Libs K C} {a : Call K C} {nd : DataV K C} {an : Analysis K} {w w' : Wave K}
    {filtered : Bool} {extra : Option (Extra K)} (h : a.precessing.truth = true)
    (hs : filterStage fuel lib a nd an w = some (.ok (w', filtered, extra))) :
    ∃ kw cfg m f, filterOptions a.extra = .ok kw ∧ filterCfg kw = .ok cfg ∧ coprModes nd w.t = .ok m ∧
      Filter.checkAndFilter fuel lib.filter cfg an.tMerger m = some (.ok f) ∧
      w' = ⟨w.t, f.amp.best, f.phase.best, f.omega.best⟩ ∧ filtered = f.omega.filtered.isSome ∧
      extra = some ((a.extra.getD []).set "filter_kwargs" (.dict kw)) := by
  unfold filterStage at hs
  rw [if_pos h] at hs
  cases hi : filterInput a nd w with
  | error e => rw [hi] at hs; simp at hs
  | ok q =>
    obtain ⟨kw, cfg, m⟩ := q
    rw [hi] at hs
    dsimp only at hs
    unfold filterInput at hi
    obtain ⟨kw', k1, hi⟩ := bind_ok hi
    obtain ⟨cfg', k2, hi⟩ := bind_ok hi
    obtain ⟨m', k3, hi⟩ := bind_ok hi
    cases hi
    cases hc : Filter.checkAndFilter fuel lib.filter cfg an.tMerger m with
    | none => rw [hc] at hs; simp at hs
    | some r =>
      rw [hc] at hs
      cases r with
      | error e => simp [bind, Except.bind] at hs
      | ok f =>
        simp only [Option.map_some, Option.some.injEq, ok_bind, pure, Except.pure, Except.ok.injEq, Prod.mk.injEq] at hs
        obtain ⟨rfl, rfl, rfl⟩ := hs
        exact ⟨kw, cfg, m, f, k1, k2, k3, hc, rfl, rfl, rfl⟩

/-- The user's options survive the filter, except `filter_kwargs`. -/
theorem filterStage_extra {fuel : ℕ} {lib : Libs K C} {a : Call K C} {nd : DataV K C} {an : Analysis K} {w w' : Wave K}
    {filtered : Bool} {extra : Option (Extra K)} (hs : filterStage fuel lib a nd an w = some (.ok (w', filtered, extra))) :
    ∀ k, k ≠ "filter_kwargs" → (extra.getD []).get? k = (a.extra.getD []).get? k := by
  intro k hk
  cases h : a.precessing.truth with
  | false =>
    rw [filterStage_off fuel lib a nd an w h] at hs
    cases hs
    rfl
  | true =>
    obtain ⟨kw, cfg, m, f, _, _, _, _, _, _, rfl⟩ := filterStage_on h hs
    show ((a.extra.getD []).set "filter_kwargs" (.dict kw)).get? k = _
    rw [Dict.get?_set, if_neg hk]

end

end GwEcc
