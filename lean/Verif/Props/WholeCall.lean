import Verif.Lemmas.WholeCall
import Verif.Lemmas.RunDemo

/-!
# C89: where the numbers a call returns come from

`measure_eccentricity` on the data of a system that does not precess, with any method based on a peak finder and any
options: what is returned, in terms of the dictionary given.
-/

set_option linter.unusedSectionVars false

namespace GwEcc

open Spec

section
variable {K C : Type} [Field K] [LinearOrder K] [IsStrictOrderedRing K] [FloorRing K]

/-- What lies between the object and the caller's arrays: all arrays on the object are the stretch of `n` samples from
sample `s`. -/
structure Stretch (lib : Libs K C) (a : Call K C) (domain : Domain) (ref : Val K) (b : Built K C) (m : Meas K)
    (t A φ w : List K) (s n : ℕ) : Prop where
  data : Dominant lib.wave a.dataDict t A φ w
  proper : ProperArrays t A φ w
  pi : b.ext.pi = lib.wave.pi
  ecc : b.ext.eccOf = lib.eccOf
  eval : b.ext.eval = lib.eval
  argsort : b.ext.argsort = lib.argsort
  times_eq : b.obj.t = (t.drop s).take n
  phase_eq : b.obj.phase = (φ.drop s).take n
  omega_eq : b.obj.omega = (w.drop s).take n
  domain : b.obj.domain = domain
  refIn : b.obj.refIn = ref
  pericenters : m.pericenters.Pairwise (· < ·) ∧ ∀ i ∈ m.pericenters, i < b.obj.t.length
  apocenters : m.apocenters.Pairwise (· < ·) ∧ ∀ i ∈ m.apocenters, i < b.obj.t.length
  apsides : ∀ fP fA, ExtremaCurve b.ext b.obj .pericenters m.pericenters m.apocenters fP →
    ExtremaCurve b.ext b.obj .apocenters m.pericenters m.apocenters fA →
    Apsides lib a b.analysis.width t A φ w (m.pericenters.map (s + ·)) (m.apocenters.map (s + ·)) fP fA

theorem infix_positions {n : ℕ} {l l' : List ℕ} (h : l' <:+: l) (h1 : l.Pairwise (· < ·)) (h2 : ∀ i ∈ l, i < n) :
    l'.Pairwise (· < ·) ∧ ∀ i ∈ l', i < n :=
  ⟨h1.sublist h.sublist, fun i hi => h2 i (h.sublist.subset hi)⟩

theorem class_of_method {s : String} {c : MethodClass} (h : availableMethods.get? s = some c) :
    (s = "Amplitude" ∧ c = .amplitude) ∨ (s = "Frequency" ∧ c = .frequency) ∨
    (s = "ResidualAmplitude" ∧ c = .residualAmplitude) ∨ (s = "ResidualFrequency" ∧ c = .residualFrequency) ∨
    (s = "AmplitudeFits" ∧ c = .amplitudeFits) ∨ (s = "FrequencyFits" ∧ c = .frequencyFits) := by
  unfold availableMethods at h
  simp only [Dict.get?_cons] at h
  repeat' split at h
  all_goals simp_all [Dict.get?]

/-- The dictionary of options under a key. -/
theorem suboptions {a : Call K C} {ex : Extra K} {key : String} (given : ex.get? key = inForce extraDefaults a.extra key)
    {defaults kw : Kwargs K} (h : subKwargs ex key defaults = .ok kw) :
    ∃ u, Suboptions a key u ∧ checkKwargs u defaults = .ok kw := by
  unfold subKwargs at h
  obtain ⟨v, hv, h⟩ := bind_ok h
  obtain ⟨u, hu, h⟩ := bind_ok h
  have hin := given
  rw [getItem_ok hv] at hin
  refine ⟨u, ?_, h⟩
  cases v with
  | dict d => cases hu; exact Or.inr ⟨d, hin.symm, rfl⟩
  | leaf l =>
    cases l with
    | none => cases hu; exact Or.inl ⟨hin.symm, rfl⟩
    | _ => cases hu

/-- The order of splines under a key. -/
theorem splineOrder {a : Call K C} {ex : Extra K} {key : String} (given : ex.get? key = inForce extraDefaults a.extra key)
    {kw : Kwargs K} {s : SplineKwargs} (h : subKwargs ex key splineDefaults = .ok kw) (hs : splineKwargs kw = .ok s) :
    SplineOrder a key s.k := by
  obtain ⟨u, hu, h1⟩ := suboptions given h
  unfold splineKwargs at hs
  obtain ⟨v, hv, hs⟩ := bind_ok hs
  obtain ⟨k, hk, hs⟩ := bind_ok hs
  obtain ⟨_, _, hs⟩ := bind_ok hs
  obtain ⟨_, _, hs⟩ := bind_ok hs
  cases hs
  have hin := (checkKwargs_known h1).2 "k"
  rw [getItem_ok hv] at hin
  refine ⟨u, v, hu, hin.symm, ?_⟩
  cases v with
  | int n =>
    simp only [Leaf.natural] at hk
    split_ifs at hk with h0
    cases hk
    left
    rw [Int.toNat_of_nonneg h0]
  | bool b => cases hk; cases b <;> simp
  | _ => cases hk

theorem stretch_of_run {fuel : ℕ} {lib : Libs K C} {a : Call K C} {ans : Answer K C} {m : Meas K}
    (r : Ran fuel lib a ans) (hpr : a.precessing = .isFalse) (hdict : ProperDicts a.dataDict)
    (harrays : ∀ t A φ w, Dominant lib.wave a.dataDict t A φ w → ProperArrays t A φ w) (hpeaks : PeakFinder lib)
    (hmethod : a.method ≠ "AmplitudeFits" ∧ a.method ≠ "FrequencyFits") (hmeas : ans.meas = some m) :
    ∃ t A φ w s n, Stretch lib a r.domain r.ref ans.built m t A φ w s n := by
  obtain ⟨c, domain, ref, nd, an, loaded, clean, filtered, extra, cache, hdis, hload, hfilter, hfin, hmea⟩ := r
  obtain ⟨hcls, _⟩ := dispatch_cases hdis
  rw [filterStage_off _ _ _ _ _ _ (by rw [hpr]; rfl)] at hfilter
  cases hfilter
  obtain ⟨t, A, φ, w, idx, dom, hw⟩ := loadWave_dominant hload hpr hdict
  have prop := harrays t A φ w dom
  obtain ⟨hinc, lA, lφ, lw⟩ := prop
  have same : SameLength loaded := by
    rw [hw]
    simp only [SameLength, List.length_take, lA, lφ, lw, and_self]
  obtain ⟨f⟩ := finish_ok hfin
  obtain ⟨s, e, piece⟩ := C36_contiguous _ _ _ _ _ _ _ same f.h_wave
  obtain ⟨n, hst⟩ := stretch_of hw piece same
  rw [hmeas] at hmea
  obtain ⟨_, _, n1, n2, p, q, hp, hq, huse⟩ := C07_extrema_used _ _ _ _ _ _ hmea
  have wave_len : f.wave.amp.length = f.wave.t.length ∧ f.wave.omega.length = f.wave.t.length ∧
      f.wave.phase.length = f.wave.t.length := by
    rw [hst]
    simp only [List.length_take, List.length_drop, lA, lφ, lw, and_self]
  -- the finder
  have hfind := f.h_find
  unfold finder at hfind
  obtain ⟨d, hdata, hfind⟩ := bind_ok hfind
  have cls := class_of_method hcls
  have hc : c.isFits = false := by
    rcases cls with ⟨_, rfl⟩ | ⟨_, rfl⟩ | ⟨_, rfl⟩ | ⟨_, rfl⟩ | ⟨h, _⟩ | ⟨h, _⟩
    · rfl
    · rfl
    · rfl
    · rfl
    · exact absurd h hmethod.1
    · exact absurd h hmethod.2
  rw [hc, if_neg (by simp)] at hfind
  have hfind : f.find = _ := (Except.ok.inj hfind).symm
  have dlen : d.length = f.wave.t.length := by
    have res := residual_lengths f.h_res
    rcases cls with ⟨_, rfl⟩ | ⟨_, rfl⟩ | ⟨_, rfl⟩ | ⟨_, rfl⟩ | ⟨h, _⟩ | ⟨h, _⟩
    · cases hdata; exact wave_len.1
    · cases hdata; exact wave_len.2.1
    · obtain ⟨_, _, hdata⟩ := bind_ok hdata
      cases hr : f.res with
      | none => rw [hr] at hdata; cases hdata
      | some x => rw [hr] at hdata; cases hdata; rw [← wave_len.1]; exact (res x hr).1
    · obtain ⟨_, _, hdata⟩ := bind_ok hdata
      cases hr : f.res with
      | none => rw [hr] at hdata; cases hdata
      | some x => rw [hr] at hdata; cases hdata; rw [← wave_len.2.1]; exact (res x hr).2
    · exact absurd h hmethod.1
    · exact absurd h hmethod.2
  have eq := f.eq
  have efind : ans.built.ext.find = f.find := congrArg (fun b => b.ext.find) eq
  have et : ans.built.obj.t = f.wave.t := congrArg (fun b => b.obj.t) eq
  have er : ans.built.ext.ratFit = extremaFit (lib.rational f.ratKw.get?) lib.eval a.level
      (requestedDegrees (f.ratKw.get? "degrees")) f.wave.t := congrArg (fun b => b.ext.ratFit) eq
  have eo : ans.built.obj.omega = f.wave.omega := congrArg (fun b => b.obj.omega) eq
  have eφ : ans.built.obj.phase = f.wave.phase := congrArg (fun b => b.obj.phase) eq
  have ev : ans.built.ext.eval = lib.eval := congrArg (fun b => b.ext.eval) eq
  have em : ans.built.obj.midpoints = f.mid.truth := congrArg (fun b => b.obj.midpoints) eq
  rw [efind, hfind] at hp hq
  have hp : lib.peaks f.peaksKw.get? d = .ok p := by simpa [findExtremaPeaks, ExtType.name, ok_bind] using hp
  have fp := hpeaks f.peaksKw.get? d p hp
  have fq : q.Pairwise (· < ·) ∧ ∀ i ∈ q, i < d.length := by
    split at hq
    · rw [hq]; exact midpoints_positions fp.1 fp.2
    · have hq : lib.peaks f.peaksKw.get? (d.map (-·)) = .ok q := by simpa [findExtremaPeaks, ExtType.name, ok_bind] using hq
      have := hpeaks f.peaksKw.get? (d.map (-·)) q hq
      rw [List.length_map] at this
      exact this
  obtain ⟨i1, i2⟩ := huse fp.1 fq.1
  have pos1 := infix_positions i1 fp.1 fp.2
  have pos2 := infix_positions i2 fq.1 fq.2
  rw [dlen, ← et] at pos1 pos2
  have e1 : ans.built.obj.t = (t.drop s).take n := by rw [et, hst]
  have e2 : ans.built.obj.omega = (w.drop s).take n := by rw [eo, hst]
  have e3 : ans.built.obj.phase = (φ.drop s).take n := by rw [eφ, hst]
  have lenw : ((w.drop s).take n).length = ((t.drop s).take n).length := by
    simp only [List.length_take, List.length_drop, lw]
  have up : ∀ {l : List ℕ}, (l.Pairwise (· < ·) ∧ ∀ i ∈ l, i < ans.built.obj.t.length) → 2 ≤ l.length →
      Positions t.length (l.map (s + ·)) := by
    intro l hl h2
    refine ⟨?_, by rw [List.length_map]; exact h2, ?_⟩
    · rw [List.pairwise_map]
      exact hl.1.imp fun h => Nat.add_lt_add_left h s
    · intro i hi
      obtain ⟨k, hk, rfl⟩ := List.mem_map.mp hi
      have := hl.2 k hk
      rw [e1, List.length_take, List.length_drop] at this
      show s + k < t.length
      omega
  have curve : ∀ {ty : ExtType} {l l' : List ℕ} {g : K → Py K}, (∀ i ∈ l, i < ans.built.obj.t.length) →
      (∀ i ∈ l', i < ans.built.obj.t.length) → ExtremaCurve ans.built.ext ans.built.obj ty l l' g →
      CurveThrough lib a (valuesAt t ((ty.pick l l').map (s + ·))) (valuesAt w ((ty.pick l l').map (s + ·))) g := by
    intro ty l l' g hl hl' hcur
    have hv : ∀ i ∈ ty.pick l l', i < ans.built.obj.t.length := by cases ty <;> assumption
    unfold ExtremaCurve at hcur
    rw [e1] at hl hl' hv
    rw [e1, e2, stretch_values t s n l hl, stretch_values w s n l (by rw [lenw]; exact hl), stretch_values t s n l' hl',
      stretch_values w s n l' (by rw [lenw]; exact hl'), stretch_values t s n _ hv,
      stretch_values w s n _ (by rw [lenw]; exact hv)] at hcur
    have emeth : ans.built.obj.interpMethod = f.method.name := congrArg (fun b => b.obj.interpMethod) eq
    have hmeth : ∀ name, ans.built.obj.interpMethod = name → name ≠ "" → InterpolationMethod a name := by
      intro name hn h0
      have := f.given "omega_gw_extrema_interpolation_method"
      rw [getItem_ok f.h_method] at this
      unfold InterpolationMethod
      rw [← this]
      rw [emeth] at hn
      cases hm : f.method with
      | dict d => rw [hm] at hn; exact absurd hn.symm h0
      | leaf l =>
        rw [hm] at hn
        cases l with
        | str z => simp only [Opt.name] at hn; rw [hn]
        | _ => exact absurd hn.symm h0
    rcases hcur with ⟨hname, h⟩ | ⟨hname, h⟩
    · rw [er] at h
      have pick : ∀ z : List K, ty.pick (valuesAt z (l.map (s + ·))) (valuesAt z (l'.map (s + ·))) =
          valuesAt z ((ty.pick l l').map (s + ·)) := by intro z; cases ty <;> rfl
      have := extremaFit_through h
      rw [pick, pick] at this
      rcases this with ⟨d, h⟩ | h
      · exact Or.inl ⟨hmeth _ hname (by decide), Or.inl ⟨f.ratKw.get?, d, h⟩⟩
      · exact Or.inl ⟨hmeth _ hname (by decide), Or.inr h⟩
    · refine Or.inr ⟨hmeth _ hname (by decide), ans.built.obj.extremaKw.k, ?_, ?_⟩
      · have ekw : ans.built.obj.extremaKw = f.extremaKw := congrArg (fun b => b.obj.extremaKw) eq
        have hsp := f.h_special
        rw [← emeth, hname] at hsp
        unfold extremaOptions at hsp
        rw [if_neg (by decide), if_pos rfl] at hsp
        obtain ⟨kw, h1, hsp⟩ := bind_ok hsp
        obtain ⟨sk, h2, hsp⟩ := bind_ok hsp
        cases hsp
        rw [ekw]
        exact splineOrder (f.given _) h1 h2
      rw [h]
      rw [ev]
      simp only [valuesAt, List.length_map]
  have trough : (a.extra.getD []).get? "treat_mid_points_between_pericenters_as_apocenters" = none →
      lib.peaks f.peaksKw.get? (d.map (-·)) = .ok q := by
    intro hno
    have hm : f.mid = .leaf (.bool false) := by
      have := f.given "treat_mid_points_between_pericenters_as_apocenters"
      rw [inForce_eq, getItem_ok f.h_mid, hno] at this
      exact Option.some.inj this
    rw [em, hm, if_neg (by simp [Opt.truth, Leaf.truth])] at hq
    simpa [findExtremaPeaks, ExtType.name, ok_bind] using hq
  have neg : ∀ x : List K, ((x.drop s).take n).map (-·) = ((x.map (-·)).drop s).take n := by
    intro x
    rw [List.map_take, List.map_drop]
  have damp : a.method = "Amplitude" → d = (A.drop s).take n := by
    intro h
    rcases cls with ⟨_, rfl⟩ | ⟨h', _⟩ | ⟨h', _⟩ | ⟨h', _⟩ | ⟨h', _⟩ | ⟨h', _⟩
    · cases hdata
      show f.wave.amp = _
      rw [hst]
    all_goals exact absurd (h.symm.trans h') (by decide)
  have domega : a.method = "Frequency" → d = (w.drop s).take n := by
    intro h
    rcases cls with ⟨h', _⟩ | ⟨_, rfl⟩ | ⟨h', _⟩ | ⟨h', _⟩ | ⟨h', _⟩ | ⟨h', _⟩
    · exact absurd (h.symm.trans h') (by decide)
    · cases hdata
      show f.wave.omega = _
      rw [hst]
    all_goals exact absurd (h.symm.trans h') (by decide)
  have ew : ans.built.analysis.width = an.width := congrArg (fun b => b.analysis.width) eq
  have opts : FinderOptions a ans.built.analysis.width f.peaksKw.get? := by
    rw [ew]
    obtain ⟨u, hu, h1⟩ := suboptions (f.given _) f.h_peaks
    exact ⟨u, hu, (checkKwargs_known h1).2⟩
  refine ⟨t, A, φ, w, s, n, dom, ⟨hinc, lA, lφ, lw⟩, congrArg (fun b => b.ext.pi) eq, congrArg (fun b => b.ext.eccOf) eq, ev,
    congrArg (fun b => b.ext.argsort) eq, e1, e3, e2, congrArg (fun b => b.obj.domain) eq, congrArg (fun b => b.obj.refIn) eq,
    pos1, pos2, fun fP fA c1 c2 => ⟨dom, up pos1 n1, up pos2 n2, curve pos1.2 pos2.2 c1, curve pos1.2 pos2.2 c2, ?_, ?_, ?_, ?_⟩⟩
  · intro h
    refine ⟨f.peaksKw.get?, s, n, p, m.pericenters, opts, ?_, i1, rfl⟩
    rw [← damp h, hp]
  · intro h
    refine ⟨f.peaksKw.get?, s, n, p, m.pericenters, opts, ?_, i1, rfl⟩
    rw [← domega h, hp]
  · intro h hno
    refine ⟨f.peaksKw.get?, s, n, q, m.apocenters, opts, ?_, i2, rfl⟩
    rw [← neg, ← damp h, trough hno]
  · intro h hno
    refine ⟨f.peaksKw.get?, s, n, q, m.apocenters, opts, ?_, i2, rfl⟩
    rw [← neg, ← domega h, trough hno]


/-- Unless the option to return zeros is given, a call that returns has measured. -/
theorem measured {fuel : ℕ} {lib : Libs K C} {a : Call K C} {ans : Answer K C} (r : Ran fuel lib a ans)
    (hzero : (a.extra.getD []).get? "return_zero_if_small_ecc_failure" = none) : ∃ m, ans.meas = some m := by
  obtain ⟨f⟩ := finish_ok r.h_finish
  have hz : f.zero = .leaf (.bool false) := by
    have := f.given "return_zero_if_small_ecc_failure"
    rw [r.inForce _ (by decide), inForce_eq, getItem_ok f.h_zero, hzero] at this
    exact Option.some.inj this
  have ez : ans.built.obj.returnZero = f.zero.truth := congrArg (fun b => b.obj.returnZero) f.eq
  cases hm : ans.meas with
  | some m => exact ⟨m, rfl⟩
  | none =>
    have h := r.h_measure
    rw [hm] at h
    have := (C10_zero_only_if _ _ _ _ _ h).1
    rw [ez, hz] at this
    cases this

theorem valuesAt_increasing {t : List K} (ht : t.Pairwise (· < ·)) {idx : List ℕ} (h : Positions t.length idx) :
    (valuesAt t idx).Pairwise (· < ·) := by
  obtain ⟨h1, _, h2⟩ := h
  unfold valuesAt
  rw [List.pairwise_map]
  refine List.Pairwise.imp_of_mem (fun {i j} hi hj hij => ?_) h1
  have hi := h2 i hi
  have hj := h2 j hj
  rw [List.getD_eq_getElem _ _ hi, List.getD_eq_getElem _ _ hj]
  exact List.pairwise_iff_getElem.mp ht i j hi hj hij

/-- Times asked for: the call answers the times asked for between the first and the last pericenter and between the first
and the last apocenter, in the order given.  The pericenters and apocenters are samples of the caller's arrays, at least two
of each: for the methods "Amplitude" and "Frequency" neighbouring peaks and troughs of the (2, 2) amplitude or frequency.
The eccentricity at a time is computed from the values there of a curve through the caller's frequencies at the pericenters
and one through those at the apocenters.  The mean anomaly is 2π times the elapsed fraction of the time between the
pericenters before and after. -/
theorem C89_times {fuel : ℕ} {lib : Libs K C} {a : Call K C} {ans : Answer K C} {asked : Val K}
    (hrun : run fuel lib a = some (.ok ans)) (hpi : 0 < lib.wave.pi) (hpr : a.precessing = .isFalse)
    (hasked : a.trefIn = some asked) (hdict : ProperDicts a.dataDict)
    (harrays : ∀ t A φ w, Dominant lib.wave a.dataDict t A φ w → ProperArrays t A φ w) (hpeaks : PeakFinder lib)
    (hmethod : a.method ≠ "AmplitudeFits" ∧ a.method ≠ "FrequencyFits")
    (hzero : (a.extra.getD []).get? "return_zero_if_small_ecc_failure" = none) :
    ∃ t A φ w p q fP fA ve va vr, Apsides lib a ans.built.analysis.width t A φ w p q fP fA ∧
      ans.ret.get? "eccentricity" = some ve ∧ ans.ret.get? "mean_anomaly" = some va ∧ ans.ret.get? "tref_out" = some vr ∧
      ve.isScalar = asked.isScalar ∧ va.isScalar = asked.isScalar ∧ vr.isScalar = asked.isScalar ∧
      vr.atleast1d ≠ [] ∧
      (∀ keep : K → Bool, (∀ x, keep x = true ↔ Within (valuesAt t p) x ∧ Within (valuesAt t q) x) →
        vr.atleast1d = asked.atleast1d.filter keep) ∧
      List.Forall₂ (fun x e => ∃ wp wa, fP x = .ok wp ∧ fA x = .ok wa ∧ e = lib.eccOf wp wa) vr.atleast1d ve.atleast1d ∧
      List.Forall₂ (fun x l => IsMeanAnomaly lib.wave.pi (valuesAt t p) x l) vr.atleast1d va.atleast1d := by
  obtain ⟨r⟩ := run_ok hrun
  obtain ⟨m, hm⟩ := measured r hzero
  obtain ⟨t, A, φ, w, s, n, S⟩ := stretch_of_run r hpr hdict harrays hpeaks hmethod hm
  obtain ⟨_, ⟨h1, _, hd⟩ | ⟨h1, _⟩⟩ := dispatch_cases r.h_dispatch
  swap
  · rw [hasked] at h1; cases h1
  have hmea := r.h_measure
  rw [hm] at hmea
  have href : ans.built.obj.refIn = asked := by
    rw [S.refIn]
    exact Option.some.inj (h1.symm.trans hasked)
  have hdom : ans.built.obj.domain = .time := S.domain.trans hd
  have vp : (m.pericenters.map fun i => ans.built.obj.t.getD i 0) = valuesAt t (m.pericenters.map (s + ·)) := by
    rw [S.times_eq]
    exact stretch_values t s n _ (S.times_eq ▸ S.pericenters.2)
  have vq : (m.apocenters.map fun i => ans.built.obj.t.getD i 0) = valuesAt t (m.apocenters.map (s + ·)) := by
    rw [S.times_eq]
    exact stretch_values t s n _ (S.times_eq ▸ S.apocenters.2)
  have hinc : (m.pericenters.map fun i => ans.built.obj.t.getD i 0).Pairwise (· < ·) := by
    have hti : ans.built.obj.t.Pairwise (· < ·) := by
      rw [S.times_eq]
      exact S.proper.1.sublist ((List.take_sublist _ _).trans (List.drop_sublist _ _))
    have := C07_extrema_used _ _ _ _ _ _ hmea
    exact valuesAt_increasing hti ⟨S.pericenters.1, this.2.2.1, S.pericenters.2⟩
  obtain ⟨fP, fA, ve, va, vr, ts, c1, c2, g1, g2, g3, v1, v2, v3, _⟩ :=
    C75_returned_numbers _ _ _ _ _ _ (by rw [S.pi]; exact hpi) hinc hmea
  obtain ⟨ve', va', vr', _, s1, s2, s3, s4, s5, s6, _⟩ := C06_shape _ _ _ _ _ _ hmea
  rw [g1] at s1
  rw [g2] at s2
  rw [g3] at s3
  cases s1; cases s2; cases s3
  rw [hdom] at g3
  have hts := v3 hdom
  subst hts
  refine ⟨t, A, φ, w, _, _, fP, fA, ve, va, vr, S.apsides fP fA c1 c2, g1, g2, g3, href ▸ s4, href ▸ s5, href ▸ s6, ?_, ?_,
    ?_, ?_⟩
  · obtain ⟨v, k1, _, k3⟩ := C07_times_answered _ _ _ _ _ _ hdom hmea
      (fun x => @decide (Within m.tPeri x ∧ Within m.tApo x) (Classical.dec _)) (fun x => by simp)
    cases g3.symm.trans k1
    exact k3
  · intro keep hk
    obtain ⟨eP, eA, _⟩ := C07_extrema_used _ _ _ _ _ _ hmea
    obtain ⟨v, k1, k2, _⟩ := C07_times_answered _ _ _ _ _ _ hdom hmea keep (by
      intro x
      rw [hk, eP, eA, vp, vq])
    cases g3.symm.trans k1
    rw [k2, href]
  · rw [← S.ecc]; exact v1
  · rw [← S.pi, ← vp]; exact v2

theorem first_least {l : List K} (h : l.Pairwise (· < ·)) {m : K} (hm : npMin l = .ok m) : l.head? = some m := by
  obtain ⟨h1, h2⟩ := npMin_spec hm
  cases l with
  | nil => simp at h1
  | cons x l =>
    rcases List.mem_cons.mp h1 with rfl | h1
    · rfl
    · exact absurd (h2 x List.mem_cons_self) (not_le.mpr ((List.pairwise_cons.mp h).1 m h1))

theorem last_greatest {l : List K} (h : l.Pairwise (· < ·)) {m : K} (hm : npMax l = .ok m) : l.getLast? = some m := by
  obtain ⟨h1, h2⟩ := npMax_spec hm
  have hne : l ≠ [] := List.ne_nil_of_mem h1
  rw [List.getLast?_eq_getLast_of_ne_nil hne]
  rcases eq_or_ne m (l.getLast hne) with e | e
  · rw [e]
  · obtain ⟨i, hi, rfl⟩ := List.getElem_of_mem h1
    rw [List.getLast_eq_getElem] at e ⊢
    have := h2 _ (List.getElem_mem (show l.length - 1 < l.length by omega))
    have hlt : i < l.length - 1 := by
      rcases Nat.lt_or_ge i (l.length - 1) with h | h
      · exact h
      · exfalso
        apply e
        congr 1
        omega
    exact absurd this (not_le.mpr (List.pairwise_iff_getElem.mp h i _ hi (by omega) hlt))

/-- A measurement at frequencies: the average frequency at samples, and which of the frequencies asked for are kept. -/
theorem frequency_measured {e : Ext K} {o : Obj K} {cache' : AvgCache K} {ret : Dict String (Val K)} {m : Meas K}
    (hd : o.domain = .frequency) (h : measureEcc e o none = .ok (ret, some m, cache')) :
    ∃ v tAvg wAvg mn mx, ret.get? "fref_out" = some v ∧ omegaAverage e m (some o.avgMethod) = .ok (tAvg, wAvg) ∧
      npMin wAvg = .ok mn ∧ npMax wAvg = .ok mx ∧ m.o = o ∧ wAvg.Pairwise (· < ·) ∧ v.atleast1d ≠ [] ∧
      v.atleast1d = (o.refIn.atleast1d.filter fun f => decide (mn / 2 / e.pi ≤ f ∧ f < mx / 2 / e.pi)) ∧
      (o.level = 2 → ∀ ts, List.Forall₂ (fun f t => e.eval (.spline (min o.generalKw.k (wAvg.length - 1)) 2)
          (wAvg.map (· / (2 * e.pi))) tAvg f = .ok t) v.atleast1d ts → ts.Pairwise (· < ·)) := by
  obtain ⟨p, a, lacking, _, ⟨h, _⟩ | ⟨m', p', a', hmo, _, _, hm, hev⟩⟩ := measureEcc_ok h
  · exact absurd h (by simp)
  injection hmo with hmo; subst hmo
  have ho := (prepare_ok hm).1
  subst ho
  obtain ⟨trefIn, fOut, trefOut, ecc, ano, hr, htr, hne, hlen, hecc, hano, _, hret⟩ := evaluate_ok hev
  obtain ⟨ve, va, vr, rfl, _, _, _, h4, _, h6⟩ := makeReturn_ok hret
  rw [hd] at h6
  have h6 : vr.atleast1d = fOut := h6 (by rw [computeEccentricity_length hecc]; exact hlen hd)
  obtain ⟨_, c, ts, w, hf, hav, rfl, hinc, hint⟩ := trefFromFref_ok (referenceTimes_frequency hd hr)
  have hstrict := fun hl => trefFromFref_strict hl (referenceTimes_frequency hd hr)
  obtain ⟨lo, hi, hb, rfl, hne'⟩ := frefOut_ok hf
  obtain ⟨avg, mn, mx, hc, rfl, hmn, hmx, rfl, rfl, hdm⟩ := frefBounds_ok hb
  rcases hc with hc | ⟨_, hc⟩
  · exact absurd hc (by simp)
  rw [hav] at hc
  injection hc with hc; subst hc
  refine ⟨vr, ts, w, mn, mx, ((retDict_get _ _ _ _).2.2.2 hd).1, hav, hmn, hmx, rfl, (checkAverageIncreasing_ok_iff _).mp hinc,
    by rw [h6]; exact hne', h6, fun hl ts' hts' => ?_⟩
  have hv := interpolate_values hint
  rw [List.length_map, ← h6] at hv
  have : ∀ {l a b : List K}, List.Forall₂ (fun f t => e.eval (.spline (min m.o.generalKw.k (w.length - 1)) 2)
          (w.map (· / (2 * e.pi))) ts f = .ok t) l a →
      List.Forall₂ (fun f t => e.eval (.spline (min m.o.generalKw.k (w.length - 1)) 2)
          (w.map (· / (2 * e.pi))) ts f = .ok t) l b → a = b := by
    intro l a b ha
    induction ha generalizing b with
    | nil => intro hb; cases hb; rfl
    | cons h _ ih =>
      intro hb
      cases hb with
      | cons h' hb => rw [Except.ok.inj (h.symm.trans h'), ih hb]
  rw [this hts' hv]
  exact hstrict hl

/-- Frequencies asked for, with the default average.  One point per orbit, from pericenter to pericenter and from apocenter
to apocenter: the middle of the orbit and the phase accumulated per unit time.  The spline through these points, at samples
of the caller's times, is the average frequency.  The call answers the frequencies asked for from its smallest value on and
below its largest, in the order given.  The time of a frequency is the value there of the spline that gives time as a
function of average frequency; eccentricity and mean anomaly are those at that time, as in `C89_times`.  At debug level 2 the
times increase from one frequency to the next in the order given. -/
theorem C89_frequencies {fuel : ℕ} {lib : Libs K C} {a : Call K C} {ans : Answer K C} {asked : Val K}
    (hrun : run fuel lib a = some (.ok ans)) (hpi : 0 < lib.wave.pi) (hsort : ∀ l, Sorts l (lib.argsort l))
    (hpr : a.precessing = .isFalse) (hasked : a.frefIn = some asked) (hdict : ProperDicts a.dataDict)
    (harrays : ∀ t A φ w, Dominant lib.wave a.dataDict t A φ w → ProperArrays t A φ w) (hpeaks : PeakFinder lib)
    (hmethod : a.method ≠ "AmplitudeFits" ∧ a.method ≠ "FrequencyFits")
    (hzero : (a.extra.getD []).get? "return_zero_if_small_ecc_failure" = none)
    (havg : (a.extra.getD []).get? "omega_gw_averaging_method" = none) :
    ∃ t A φ w p q fP fA ve va vr, Apsides lib a ans.built.analysis.width t A φ w p q fP fA ∧
      ans.ret.get? "eccentricity" = some ve ∧ ans.ret.get? "mean_anomaly" = some va ∧ ans.ret.get? "fref_out" = some vr ∧
      ve.isScalar = asked.isScalar ∧ va.isScalar = asked.isScalar ∧ vr.isScalar = asked.isScalar ∧
      vr.atleast1d ≠ [] ∧
      ∃ (pts : List (K × K)) (k : ℕ) (tAvg wAvg ts : List K) (lo hi : K), SplineOrder a "general_interp_kwargs" k ∧
        pts.Perm (OrbitPoints φ t q ++ OrbitPoints φ t p) ∧ (pts.map (·.1)).Pairwise (· < ·) ∧
        tAvg.Sublist t ∧ wAvg.Pairwise (· < ·) ∧
        List.Forall₂ (fun x y => lib.eval (.spline (min k (pts.length - 1)) 2) (pts.map (·.1)) (pts.map (·.2)) x = .ok y)
          tAvg wAvg ∧
        wAvg.head? = some (2 * lib.wave.pi * lo) ∧ wAvg.getLast? = some (2 * lib.wave.pi * hi) ∧
        (∀ keep : K → Bool, (∀ f, keep f = true ↔ lo ≤ f ∧ f < hi) → vr.atleast1d = asked.atleast1d.filter keep) ∧
        List.Forall₂ (fun f x => lib.eval (.spline (min k (wAvg.length - 1)) 2) (wAvg.map (· / (2 * lib.wave.pi))) tAvg f
          = .ok x) vr.atleast1d ts ∧
        List.Forall₂ (fun x e => ∃ wp wa, fP x = .ok wp ∧ fA x = .ok wa ∧ e = lib.eccOf wp wa) ts ve.atleast1d ∧
        List.Forall₂ (fun x l => IsMeanAnomaly lib.wave.pi (valuesAt t p) x l) ts va.atleast1d ∧
        (a.level = 2 → ts.Pairwise (· < ·)) := by
  obtain ⟨r⟩ := run_ok hrun
  obtain ⟨m, hm⟩ := measured r hzero
  obtain ⟨t, A, φ, w, s, n, S⟩ := stretch_of_run r hpr hdict harrays hpeaks hmethod hm
  obtain ⟨_, ⟨_, h1, _⟩ | ⟨_, h1, hd⟩⟩ := dispatch_cases r.h_dispatch
  · rw [hasked] at h1; cases h1
  have hmea := r.h_measure
  rw [hm] at hmea
  have href : ans.built.obj.refIn = asked := by
    rw [S.refIn]
    exact Option.some.inj (h1.symm.trans hasked)
  have hdom : ans.built.obj.domain = .frequency := S.domain.trans hd
  have vp : (m.pericenters.map fun i => ans.built.obj.t.getD i 0) = valuesAt t (m.pericenters.map (s + ·)) := by
    rw [S.times_eq]
    exact stretch_values t s n _ (S.times_eq ▸ S.pericenters.2)
  have hinc : (m.pericenters.map fun i => ans.built.obj.t.getD i 0).Pairwise (· < ·) := by
    have hti : ans.built.obj.t.Pairwise (· < ·) := by
      rw [S.times_eq]
      exact S.proper.1.sublist ((List.take_sublist _ _).trans (List.drop_sublist _ _))
    have := C07_extrema_used _ _ _ _ _ _ hmea
    exact valuesAt_increasing hti ⟨S.pericenters.1, this.2.2.1, S.pericenters.2⟩
  obtain ⟨fP, fA, ve, va, vr, ts, c1, c2, g1, g2, g3, v1, v2, _, v3⟩ :=
    C75_returned_numbers _ _ _ _ _ _ (by rw [S.pi]; exact hpi) hinc hmea
  obtain ⟨ve', va', vr', _, s1, s2, s3, s4, s5, s6, _⟩ := C06_shape _ _ _ _ _ _ hmea
  rw [g1] at s1
  rw [g2] at s2
  rw [g3] at s3
  cases s1; cases s2; cases s3
  rw [hdom] at g3
  obtain ⟨tAvg, wAvg, hav, hts⟩ := v3 hdom
  obtain ⟨v, tAvg', wAvg', mn, mx, k1, k2, k3, k4, k5, k6, k7, k8, k9⟩ := frequency_measured hdom hmea
  cases g3.symm.trans k1
  cases hav.symm.trans k2
  have hmeth : ans.built.obj.avgMethod = "orbit_averaged_omega_gw" := by
    obtain ⟨f⟩ := finish_ok r.h_finish
    have hz : f.avg = .leaf (.str "orbit_averaged_omega_gw") := by
      have := f.given "omega_gw_averaging_method"
      rw [r.inForce _ (by decide), inForce_eq, getItem_ok f.h_avg, havg] at this
      exact Option.some.inj this
    have ez : ans.built.obj.avgMethod = f.avg.name := congrArg (fun b => b.obj.avgMethod) f.eq
    rw [ez, hz]; rfl
  have hord : SplineOrder a "general_interp_kwargs" ans.built.obj.generalKw.k := by
    obtain ⟨f⟩ := finish_ok r.h_finish
    have ekw : ans.built.obj.generalKw = f.general := congrArg (fun b => b.obj.generalKw) f.eq
    rw [ekw]
    exact splineOrder (by rw [f.given, r.inForce _ (by decide)]) f.h_general f.h_spline
  have hpts := C28_methods _ m (by rw [S.argsort]; exact hsort) _ _ _ hav
  rw [hmeth] at hpts
  obtain ⟨_, pts, p1, p2, p3⟩ | ⟨h, _⟩ | ⟨h, _⟩ := hpts
  swap
  · exact absurd h (by decide)
  swap
  · exact absurd h (by decide)
  have lφ : ((φ.drop s).take n).length = ((t.drop s).take n).length := by
    simp only [List.length_take, List.length_drop, S.proper.2.2.1]
  rw [k5, S.phase_eq, S.times_eq,
    stretch_orbit φ t s n _ (by rw [lφ, ← S.times_eq]; exact S.apocenters.2) (by rw [← S.times_eq]; exact S.apocenters.2),
    stretch_orbit φ t s n _ (by rw [lφ, ← S.times_eq]; exact S.pericenters.2) (by rw [← S.times_eq]; exact S.pericenters.2)]
    at p1
  rw [k5, S.eval] at p3
  have hlevel : ans.built.obj.level = a.level := by
    obtain ⟨f⟩ := finish_ok r.h_finish
    exact congrArg (fun b => b.obj.level) f.eq
  rw [hlevel] at k9
  have hstrict := fun hl => k9 hl ts hts
  rw [S.eval, S.pi] at hts
  rw [S.pi, href] at k8
  have hpi2 : (2 * lib.wave.pi) ≠ 0 := by positivity
  have hpi0 : lib.wave.pi ≠ 0 := hpi.ne'
  refine ⟨t, A, φ, w, _, _, fP, fA, ve, va, vr, S.apsides fP fA c1 c2, g1, g2, g3, href ▸ s4, href ▸ s5, href ▸ s6, k7, pts,
    ans.built.obj.generalKw.k, tAvg, wAvg, ts, mn / 2 / lib.wave.pi, mx / 2 / lib.wave.pi, hord, p1, p2, ?_, k6, p3, ?_, ?_, ?_,
    hts, ?_, ?_, hstrict⟩
  · unfold omegaAverage at hav
    obtain ⟨ts', t1, hav⟩ := bind_ok hav
    obtain ⟨w', _, hav⟩ := bind_ok hav
    cases hav
    unfold averageTimes at t1
    obtain ⟨⟨lo, hi⟩, _, t1⟩ := bind_ok t1
    cases t1
    rw [k5, S.times_eq]
    exact List.filter_sublist.trans ((List.take_sublist _ _).trans (List.drop_sublist _ _))
  · rw [show 2 * lib.wave.pi * (mn / 2 / lib.wave.pi) = mn by field_simp]
    exact first_least k6 k3
  · rw [show 2 * lib.wave.pi * (mx / 2 / lib.wave.pi) = mx by field_simp]
    exact last_greatest k6 k4
  · intro keep hk
    rw [k8]
    apply List.filter_congr
    intro f _
    rw [Bool.eq_iff_iff, hk, decide_eq_true_eq]
  · rw [← S.ecc]; exact v1
  · rw [← S.pi, ← vp]; exact v2

end

/-! The premises are met: the demonstration call, which returns eccentricities 10/81 and 25/204 at the times 5 and 8, and
the same waveform with frequencies asked for. -/

namespace RunDemo

theorem peakFinder : PeakFinder lib := by
  intro options d l hl
  cases hl
  refine ⟨List.pairwise_lt_range.sublist List.filter_sublist, fun i hi => ?_⟩
  exact List.mem_range.mp (List.mem_of_mem_filter hi)

theorem data_proper : ProperDicts call.dataDict := by
  intro key e h
  have h : data.get? key = some e := h
  unfold data at h
  simp only [Dict.get?_cons] at h
  split at h
  · cases h; exact ⟨fun d hd => (by cases hd), fun d hd => (by cases hd)⟩
  split at h
  · cases h; exact ⟨fun d hd => (by cases hd; decide), fun d hd => (by cases hd)⟩
  split at h
  · cases h; exact ⟨fun d hd => (by cases hd; decide), fun d hd => (by cases hd)⟩
  split at h
  · cases h; exact ⟨fun d hd => (by cases hd; decide), fun d hd => (by cases hd)⟩
  · cases h

theorem arrays_proper {t A φ w : List ℚ} (h : Dominant lib.wave call.dataDict t A φ w) : ProperArrays t A φ w := by
  have e1 := h.times
  have e2 := h.amplitude
  have e3 := h.phase
  have e4 := h.given (by decide +kernel)
  have g1 : array call.dataDict "t" = some times := rfl
  have g2 : (if call.dataDict.has "amplm" then realMode call.dataDict "amplm" (2, 2)
    else (complexMode call.dataDict "hlm" (2, 2)).map lib.wave.abs) = some amps := rfl
  have g3 : (if call.dataDict.has "phaselm" then realMode call.dataDict "phaselm" (2, 2)
    else (complexMode call.dataDict "hlm" (2, 2)).map lib.wave.phase) = some phases := rfl
  have g4 : realMode call.dataDict "omegalm" (2, 2) = some omegas := rfl
  cases e1.symm.trans g1
  cases e2.symm.trans g2
  cases e3.symm.trans g3
  cases e4.symm.trans g4
  refine ⟨?_, rfl, rfl, rfl⟩
  decide +kernel

/-- Asking for frequencies. -/
def callF : Call ℚ (ℚ × ℚ) := { call with trefIn := none, frefIn := some (.array [13 / 20, 2 / 3]) }

theorem callF_ok : (run 60 lib callF).map (fun r => r.toOption.isSome) = some true := by decide +kernel

end RunDemo

example : ∃ ans : Answer ℚ (ℚ × ℚ), run 60 RunDemo.lib RunDemo.call = some (.ok ans) ∧ 0 < RunDemo.lib.wave.pi ∧
    RunDemo.call.precessing = .isFalse ∧ RunDemo.call.trefIn = some (.array [5, 8]) ∧ ProperDicts RunDemo.call.dataDict ∧
    (∀ t A φ w, Dominant RunDemo.lib.wave RunDemo.call.dataDict t A φ w → ProperArrays t A φ w) ∧ PeakFinder RunDemo.lib ∧
    RunDemo.call.method = "Amplitude" ∧ (RunDemo.call.extra.getD []).get? "return_zero_if_small_ecc_failure" = none := by
  have h := RunDemo.call_ecc
  unfold RunDemo.ecc at h
  obtain ⟨r, hr, h⟩ := Option.map_eq_some_iff.mp h
  cases r with
  | error e => cases h
  | ok ans => exact ⟨ans, hr, by decide +kernel, rfl, rfl, RunDemo.data_proper, fun _ _ _ _ h => RunDemo.arrays_proper h,
      RunDemo.peakFinder, rfl, rfl⟩

example : ∃ ans : Answer ℚ (ℚ × ℚ), run 60 RunDemo.lib RunDemo.callF = some (.ok ans) ∧ 0 < RunDemo.lib.wave.pi ∧
    (∀ l, Sorts l (RunDemo.lib.argsort l)) ∧ RunDemo.callF.precessing = .isFalse ∧
    RunDemo.callF.frefIn = some (.array [13 / 20, 2 / 3]) ∧ ProperDicts RunDemo.callF.dataDict ∧
    (∀ t A φ w, Dominant RunDemo.lib.wave RunDemo.callF.dataDict t A φ w → ProperArrays t A φ w) ∧
    PeakFinder RunDemo.lib ∧ RunDemo.callF.method = "Amplitude" ∧ RunDemo.callF.extra = none := by
  obtain ⟨r, hr, h⟩ := Option.map_eq_some_iff.mp RunDemo.callF_ok
  cases r with
  | error e => cases h
  | ok ans => exact ⟨ans, hr, by decide +kernel, demo_sorts, rfl, rfl, RunDemo.data_proper,
      fun _ _ _ _ h => RunDemo.arrays_proper h, RunDemo.peakFinder, rfl, rfl⟩

end GwEcc
