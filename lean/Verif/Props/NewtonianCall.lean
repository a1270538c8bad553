import Verif.Lemmas.ExtremaFit
import Verif.Spec.NewtonianCall
import Verif.Props.Ends
import Verif.Props.DataDict
import Verif.Props.Measure
import Verif.Props.Keys

/-!
# C87: a whole call on the waveform of a Newtonian binary returns its eccentricity
-/

set_option linter.unusedSectionVars false

namespace GwEcc

open Spec

section
variable {K C : Type} [Field K] [LinearOrder K] [IsStrictOrderedRing K] [FloorRing K]

theorem realMode_has {v : DataV K C} {key : String} {k : LM} {l : List K} (h : realMode v key k = some l) :
    v.has key = true := by
  unfold realMode at h
  cases he : v.get? key with
  | none => rw [he] at h; cases h
  | some e => exact (Dict.has_iff_get? _ _).mpr ⟨e, he⟩

theorem realMode_entry {v : DataV K C} {key : String} {k : LM} {l : List K} (h : realMode v key k = some l) :
    ∃ d, v.get? key = some (.modesR d) ∧ d.get? k = some l := by
  unfold realMode at h
  cases he : v.get? key with
  | none => rw [he] at h; cases h
  | some e =>
    rw [he] at h
    cases e with
    | modesR d => exact ⟨d, rfl, h⟩
    | modesC d => cases h
    | arr l => cases h
    | other => cases h

theorem array_entry {v : DataV K C} {key : String} {l : List K} (h : array v key = some l) : v.get? key = some (.arr l) := by
  unfold array at h
  cases he : v.get? key with
  | none => rw [he] at h; cases h
  | some e =>
    rw [he] at h
    cases e with
    | arr l' => cases h; rfl
    | modesR d => cases h
    | modesC d => cases h
    | other => cases h

/-- Without precession, the waveform quantities used are the first samples of those given for the (2,2) mode. -/
theorem loadWave_take {lib : Libs K C} {a : Call K C} {nd : DataV K C} {an : Analysis K} {w : Wave K}
    (h : loadWave lib a = .ok (nd, an, w)) (hp : a.precessing = .isFalse) (hd : ProperDicts a.dataDict) {t A P W : List K}
    (ht : array a.dataDict "t" = some t) (hA : realMode a.dataDict "amplm" (2, 2) = some A)
    (hP : realMode a.dataDict "phaselm" (2, 2) = some P) (hW : realMode a.dataDict "omegalm" (2, 2) = some W) :
    ∃ idx, w = ⟨t.take idx, A.take idx, P.take idx, W.take idx⟩ := by
  obtain ⟨hpd, ht', _, hq⟩ := loadWave_ok h
  obtain ⟨v', full, _, hv', hnd, han, hcut⟩ := processData_ok hpd
  rw [hp] at hv'
  cases hv'
  have sp := newData_spec hnd
  obtain ⟨c1, c2, c3, c4, _⟩ := newData_contents hd hnd "" (Or.inl rfl) (2, 2)
  rw [show "amplm" ++ "" = "amplm" from rfl, realMode_has hA, if_pos rfl, hA] at c2
  rw [show "phaselm" ++ "" = "phaselm" from rfl, realMode_has hP, if_pos rfl, hP] at c3
  have c4 := c4 (realMode_has hW)
  rw [show "omegalm" ++ "" = "omegalm" from rfl, hW] at c4
  rw [show "t" ++ "" = "t" from rfl] at c1
  have ht0 : a.dataDict.get? "t" = some (.arr t) := array_entry ht
  rw [ht0] at c1
  -- what `gwQuantities` reads
  have read : ∀ {A' P' W' : List K}, realMode nd "amplm" (2, 2) = some A' → realMode nd "phaselm" (2, 2) = some P' →
      realMode nd "omegalm" (2, 2) = some W' → w.amp = A' ∧ w.phase = P' ∧ w.omega = W' := by
    intro A' P' W' h1 h2 h3
    rw [hp] at hq
    unfold gwQuantities at hq
    obtain ⟨da, g1, hq⟩ := bind_ok hq
    obtain ⟨dp, g2, hq⟩ := bind_ok hq
    rw [if_pos (by rfl)] at hq
    obtain ⟨x, g3, hq⟩ := bind_ok hq
    obtain ⟨y, g4, hq⟩ := bind_ok hq
    obtain ⟨dw, g5, hq⟩ := bind_ok hq
    obtain ⟨z, g6, hq⟩ := bind_ok hq
    have := Except.ok.inj hq
    simp only [Prod.mk.injEq] at this
    obtain ⟨rfl, rfl, rfl⟩ := this
    have k1 := getR_realMode g1 (2, 2)
    have k2 := getR_realMode g2 (2, 2)
    have k3 := getR_realMode g5 (2, 2)
    rw [getItem_ok g3] at k1
    rw [getItem_ok g4] at k2
    rw [getItem_ok g6] at k3
    exact ⟨Option.some.inj (k1.symm.trans h1), Option.some.inj (k2.symm.trans h2), Option.some.inj (k3.symm.trans h3)⟩
  rcases hcut with ⟨_, rfl⟩ | ⟨idx, _, hc⟩
  · obtain ⟨r1, r2, r3⟩ := read c2 c3 c4
    have := getArr_ok ht'
    rw [c1] at this
    refine ⟨t.length + A.length + P.length + W.length, ?_⟩
    rw [List.take_of_length_le (by omega), List.take_of_length_le (by omega), List.take_of_length_le (by omega),
      List.take_of_length_le (by omega)]
    cases w
    simp only at r1 r2 r3 this
    cases this
    rw [r1, r2, r3]
  · obtain ⟨da, e1, _⟩ := realMode_entry c2
    obtain ⟨dp, e2, _⟩ := realMode_entry c3
    obtain ⟨dw, e3, _⟩ := realMode_entry c4
    obtain ⟨w0, w', t2, g1, g2, g3, get⟩ := cutData_ok hc e1 e2
    have n1 : nd.get? "amplm" = _ := get "amplm"
    have n2 : nd.get? "phaselm" = _ := get "phaselm"
    have n3 : nd.get? "omegalm" = _ := get "omegalm"
    have n4 : nd.get? "t" = _ := get "t"
    simp only [reduceIte, String.reduceEq] at n1 n2 n3 n4
    have m1 := realMode_cut (idx := idx) e1 n1 rfl (2, 2)
    have m2 := realMode_cut (idx := idx) e2 n2 rfl (2, 2)
    have m3 := realMode_cut (idx := idx) g1 n3 g2 (2, 2)
    rw [c2] at m1
    rw [c3] at m2
    rw [c4] at m3
    obtain ⟨r1, r2, r3⟩ := read m1 m2 m3
    have := getArr_ok ht'
    rw [c1] at g3
    cases g3
    rw [n4] at this
    refine ⟨idx, ?_⟩
    cases w
    simp only at r1 r2 r3 this
    cases this
    rw [r1, r2, r3]

theorem defaultsBut_none : DefaultsBut (K := K) none "rational_fit" := by
  refine ⟨.inl rfl, fun key => ?_⟩
  rw [inForce_eq]
  split_ifs with h
  · rw [h]; rfl
  · rfl

/-- What the constructor leaves on the object with the default options, except for this interpolation of the extrema. -/
structure DefaultBuilt (lib : Libs K C) (a : Call K C) (interpolation : String) (c : MethodClass) (domain : Domain) (ref : Val K) (nd : DataV K C)
    (an : Analysis K) (w : Wave K) (b : Built K C) : Prop where
  pi : b.ext.pi = lib.wave.pi
  ecc : b.ext.eccOf = lib.eccOf
  eval : b.ext.eval = lib.eval
  deriv : b.ext.deriv = lib.deriv
  ratFit : interpolation = "rational_fit" → ∃ options, b.ext.ratFit = extremaFit (lib.rational options) lib.eval a.level (.ok none) w.t
  t : b.obj.t = w.t
  phase : b.obj.phase = w.phase
  omega : b.obj.omega = w.omega
  domain : b.obj.domain = domain
  refIn : b.obj.refIn = ref
  precessing : b.obj.precessing = a.precessing.truth
  midpoints : b.obj.midpoints = false
  returnZero : b.obj.returnZero = false
  level : b.obj.level = a.level
  method : b.obj.interpMethod = interpolation
  extremaKw : b.obj.extremaKw = {}
  generalKw : b.obj.generalKw = {}
  analysis : b.analysis = an
  wave : b.wave = w
  data : b.data = nd
  find : c.isFits = false → ∃ s, s.amp = w.amp ∧ s.omega = w.omega ∧ ∀ ty, b.ext.find ty =
    dataForExtrema c s >>= fun d => findExtremaPeaks (lib.peaks (peaksDefaults an.width).get?) d ty.name

theorem finish_default {lib : Libs K C} {c : MethodClass} {domain : Domain} {ref : Val K} {a : Call K C} {nd : DataV K C}
    {an : Analysis K} {w : Wave K} {filtered : Bool} {b : Built K C} {extra : Option (Extra K)}
    {interpolation : String} (hx : DefaultsBut extra interpolation)
    (h : finish lib c domain ref a nd an w filtered extra = .ok b) (ht : getArr nd "t" = .ok w.t) :
    DefaultBuilt lib a interpolation c domain ref nd an w b ∧ b.obj.dataT = w.t ∧ b.obj.filtered = filtered := by
  obtain ⟨f⟩ := finish_ok h
  have get : ∀ {k : String} {v x : Opt K}, f.ex.getItem k = .ok v → k ≠ "omega_gw_extrema_interpolation_method" →
      extraDefaults.get? k = some x → v = x := by
    intro k v x hk hne hx'
    have := f.given k
    rw [hx.2, if_neg hne] at this
    rw [getItem_ok hk] at this
    exact Option.some.inj (this.trans hx')
  have eu : f.useOnly = .leaf .none := get f.h_useOnly (by decide) rfl
  have em : f.method = .leaf (.str interpolation) := by
    have := f.given "omega_gw_extrema_interpolation_method"
    rw [hx.2, if_pos rfl, getItem_ok f.h_method] at this
    exact Option.some.inj this
  have ei : f.mid = .leaf (.bool false) := get f.h_mid (by decide) rfl
  have ez : f.zero = .leaf (.bool false) := get f.h_zero (by decide) rfl
  have eo : f.orbits = none := by
    have := f.h_orbits
    rw [eu] at this
    exact (Except.ok.inj this).symm
  have ew : f.wave = w := by
    have := f.h_wave
    rw [eo] at this
    exact (Except.ok.inj this).symm
  have sub : ∀ {k : String} {defaults d : Kwargs K}, subKwargs f.ex k defaults = .ok d →
      k ≠ "omega_gw_extrema_interpolation_method" → extraDefaults.get? k =
      some (.dict [] : Opt K) → ∀ j, d.get? j = defaults.get? j := by
    intro k defaults d hk hne hx' j
    obtain ⟨v, u, h1, h2, _, h4⟩ := subKwargs_ok hk
    rw [f.given, hx.2, if_neg hne] at h1
    have h1 : (.dict [] : Opt K) = v := Option.some.inj (hx'.symm.trans h1)
    subst h1
    cases h2
    rw [h4, inForce_eq]
    rfl
  have hpk : f.peaksKw.get? = (peaksDefaults an.width).get? := funext (sub f.h_peaks (by decide) rfl)
  have kws : ∀ {kw : Kwargs K} {s : SplineKwargs}, (∀ j, kw.get? j = splineDefaults.get? j) → splineKwargs kw = .ok s → s = {} := by
    intro kw s hs this
    unfold splineKwargs at this
    obtain ⟨k, k1, this⟩ := bind_ok this
    obtain ⟨k', k2, this⟩ := bind_ok this
    obtain ⟨e, k3, this⟩ := bind_ok this
    obtain ⟨e', k4, this⟩ := bind_ok this
    have k1 := getItem_ok k1
    have k3 := getItem_ok k3
    rw [hs] at k1 k3
    cases k1
    cases k3
    cases k2
    cases k4
    exact (Except.ok.inj this).symm
  have hg : f.general = {} := kws (sub f.h_general (by decide) rfl) f.h_spline
  have hek : f.extremaKw = {} := by
    have := f.h_special
    rw [em] at this
    unfold extremaOptions at this
    rcases hx.1 with rfl | rfl
    · rw [if_neg (by simp [Opt.name]), if_neg (by simp [Opt.name])] at this
      obtain ⟨kw, _, this⟩ := bind_ok this
      exact (congrArg Prod.fst (Except.ok.inj this)).symm
    · rw [if_neg (by simp [Opt.name]), if_pos (by rfl)] at this
      obtain ⟨kw, h1, this⟩ := bind_ok this
      obtain ⟨s, h2, this⟩ := bind_ok this
      have e : s = f.extremaKw := congrArg Prod.fst (Except.ok.inj this)
      rw [← e]
      exact kws (sub h1 (by decide) rfl) h2
  have hdeg : interpolation = "rational_fit" → requestedDegrees (f.ratKw.get? "degrees") = .ok none := by
    rintro rfl
    have := f.h_special
    rw [em] at this
    unfold extremaOptions at this
    rw [if_neg (by simp [Opt.name]), if_neg (by simp [Opt.name])] at this
    obtain ⟨kw, hkw, this⟩ := bind_ok this
    have hk : f.ratKw = kw.set "verbose" (.int a.level) := (congrArg Prod.snd (Except.ok.inj this)).symm
    rw [hk]
    show requestedDegrees ((kw.set "verbose" (.int a.level)).get? "degrees") = _
    rw [Dict.get?_set, if_neg (by decide), sub hkw (by decide) rfl]
    rfl
  have hf := f.h_find
  unfold finder at hf
  obtain ⟨d, d1, hf⟩ := bind_ok hf
  have hdt : f.dataT = w.t := Except.ok.inj (f.h_dataT.symm.trans ht)
  have e := f.eq
  have hrf : interpolation = "rational_fit" →
      ∃ options, b.ext.ratFit = extremaFit (lib.rational options) lib.eval a.level (.ok none) w.t := by
    intro hi
    refine ⟨f.ratKw.get?, ?_⟩
    have e1 : b.ext.ratFit = extremaFit (lib.rational f.ratKw.get?) lib.eval a.level
      (requestedDegrees (f.ratKw.get? "degrees")) f.wave.t := congrArg (fun b => b.ext.ratFit) e
    have et : f.wave.t = w.t := congrArg Wave.t ew
    rw [hdeg hi, et] at e1
    exact e1
  rw [ew] at d1 hf
  rw [e] at hrf ⊢
  refine ⟨⟨rfl, rfl, rfl, rfl, hrf, congrArg Wave.t ew,
    congrArg Wave.phase ew, congrArg Wave.omega ew, rfl, rfl, rfl, ?_, ?_, rfl, ?_, hek, hg, rfl, ew, rfl, ?_⟩, hdt, rfl⟩
  · show f.mid.truth = false
    rw [ei]; rfl
  · show f.zero.truth = false
    rw [ez]; rfl
  · show f.method.name = _
    rw [em]; rfl
  · intro hc
    rw [hc] at hf
    have hf : f.find = _ := (Except.ok.inj hf).symm
    refine ⟨seriesOf nd an w f.res, rfl, rfl, fun ty => ?_⟩
    show f.find ty = _
    rw [hf, d1, hpk]
    rfl

theorem defaultsBut_known {extra : Option (Extra K)} {interpolation : String} (hx : DefaultsBut extra interpolation) :
    ∀ k ∈ (extra.getD []).keys, k ∈ (extraDefaults (K := K)).keys := by
  intro k hk
  obtain ⟨v, hv⟩ := (Dict.has_iff_get? _ _).mp ((Dict.has_iff _ _).mpr hk)
  have := hx.2 k
  unfold inForce at this
  rw [hv] at this
  by_cases h : k = "omega_gw_extrema_interpolation_method"
  · rw [h]; simp [extraDefaults, Dict.keys]
  · rw [if_neg h] at this
    exact (Dict.has_iff _ _).mp ((Dict.has_iff_get? _ _).mpr ⟨v, this.symm⟩)

/-- Without other options and without quasicircular data the constructor has nothing to complain about. -/
theorem finish_succeeds (lib : Libs K C) {c : MethodClass} (hc : c = .amplitude ∨ c = .frequency) (domain : Domain)
    (ref : Val K) {a : Call K C} (hlevel : a.level = 0) {nd : DataV K C} (hz : nd.has "amplm_zeroecc" = false)
    (an : Analysis K) {w : Wave K} (filtered : Bool) (ht : getArr nd "t" = .ok w.t) {extra : Option (Extra K)}
    {interpolation : String} (hx : DefaultsBut extra interpolation) :
    ∃ b, finish lib c domain ref a nd an w filtered extra = .ok b := by
  obtain ⟨ex, hex, hget⟩ := checkKwargs_ok (u := extra) (defaults := (extraDefaults : Extra K)) (defaultsBut_known hx)
  have get : ∀ {k : String} {x : Opt K}, k ≠ "omega_gw_extrema_interpolation_method" → extraDefaults.get? k = some x →
      ex.getItem k = .ok x := by
    intro k x hne hx'
    have h := hget k
    rw [hx.2, if_neg hne, hx'] at h
    exact getItem_of h
  have getm : ex.getItem "omega_gw_extrema_interpolation_method" = .ok (.leaf (.str interpolation)) := by
    have h := hget "omega_gw_extrema_interpolation_method"
    rw [hx.2, if_pos rfl] at h
    exact getItem_of h
  have sub : ∀ {k : String} (defaults : Kwargs K), k ≠ "omega_gw_extrema_interpolation_method" →
      extraDefaults.get? k = some (.dict [] : Opt K) →
      ∃ d, subKwargs ex k defaults = .ok d ∧ ∀ j, d.get? j = defaults.get? j := by
    intro k defaults hne hx
    obtain ⟨d, hd, hj⟩ := checkKwargs_ok (u := some []) (defaults := defaults) (by simp [Dict.keys])
    refine ⟨d, ?_, fun j => by rw [hj, inForce_eq]; rfl⟩
    unfold subKwargs
    rw [get hne hx]
    exact hd
  obtain ⟨pk, hpk, _⟩ := sub (k := "extrema_finding_kwargs") (peaksDefaults an.width) (by decide) rfl
  obtain ⟨rk, hrk, _⟩ := sub (k := "special_interp_kwargs_for_omega_gw_extrema") rationalDefaults (by decide) rfl
  obtain ⟨sk, hsk, hs⟩ := sub (k := "special_interp_kwargs_for_omega_gw_extrema") splineDefaults (by decide) rfl
  obtain ⟨gk, hgk, hg⟩ := sub (k := "general_interp_kwargs") splineDefaults (by decide) rfl
  have hgen : ∀ {gk : Kwargs K}, (∀ j, gk.get? j = splineDefaults.get? j) → splineKwargs gk = .ok {} := by
    intro gk hg
    unfold splineKwargs Dict.getItem
    rw [hg, hg]
    rfl
  obtain ⟨kw, hspecial⟩ : ∃ kw, extremaOptions ex a.level interpolation = .ok ({}, kw) := by
    unfold extremaOptions
    rcases hx.1 with rfl | rfl
    · rw [if_neg (by simp), if_neg (by simp), hrk]
      exact ⟨_, rfl⟩
    · rw [if_neg (by simp), if_pos rfl, hsk, ok_bind, hgen hs]
      exact ⟨_, rfl⟩
  have hkw := keyWarnings_ok (level := a.level) (Or.inr (Or.inl hlevel)) a.dataDict.keys
  have hres : residualStage lib {} a.precessing.truth nd an.tMerger w = .ok (none, none) := by
    unfold residualStage residualData
    rw [hz]
    rfl
  have hfind : ∀ s, ∃ find, finder lib c ex pk an.tMerger s w = .ok find := by
    intro s
    unfold finder
    rcases hc with rfl | rfl
    · exact ⟨_, rfl⟩
    · exact ⟨_, rfl⟩
  unfold finish
  rw [hex]
  simp only [ok_bind]
  rw [get (k := "use_only_these_many_orbits") (x := .leaf .none) (by decide) rfl]
  simp only [ok_bind]
  rw [show orbitsOption (.leaf .none : Opt K) = .ok none from rfl]
  simp only [ok_bind]
  rw [show segmentWarning lib.wave.pi a.level none w = .ok [] from rfl]
  simp only [ok_bind]
  rw [show selectWave lib.wave.pi (secularTrend lib.fits.pow lib.solve) none domain ref.atleast1d w = .ok w from rfl]
  simp only [ok_bind]
  rw [hpk]
  simp only [ok_bind]
  rw [getm]
  simp only [ok_bind]
  rw [show (Opt.leaf (.str interpolation) : Opt K).name = interpolation from rfl, hspecial]
  simp only [ok_bind]
  rw [hgk]
  simp only [ok_bind]
  rw [hgen hg]
  simp only [ok_bind]
  rw [hkw]
  simp only [ok_bind]
  rw [hres]
  simp only [ok_bind]
  obtain ⟨find, hf⟩ := hfind (seriesOf nd an w none)
  unfold seriesOf at hf
  rw [hf]
  simp only [ok_bind]
  rw [get (k := "omega_gw_averaging_method") (x := .leaf (.str "orbit_averaged_omega_gw")) (by decide) rfl,
    get (k := "treat_mid_points_between_pericenters_as_apocenters") (x := .leaf (.bool false)) (by decide) rfl,
    get (k := "return_zero_if_small_ecc_failure") (x := .leaf (.bool false)) (by decide) rfl, ht]
  exact ⟨_, rfl⟩

theorem mem_take_of_le {t : List K} (ht : t.Pairwise (· < ·)) {n : ℕ} {s y : K} (hs : s ∈ t) (hy : y ∈ t.take n)
    (h : s ≤ y) : s ∈ t.take n := by
  obtain ⟨i, hi, rfl⟩ := List.mem_iff_getElem.mp hs
  obtain ⟨j, hj, rfl⟩ := List.mem_iff_getElem.mp hy
  rw [List.length_take] at hj
  rw [List.getElem_take] at h
  have hij : i ≤ j := by
    by_contra hn
    have := List.pairwise_iff_getElem.mp ht j i (by omega) hi (by omega)
    exact absurd h (not_le.mpr this)
  rw [List.mem_take_iff_getElem]
  exact ⟨i, by omega, rfl⟩

/-- What lies in the range of a contiguous part of increasing samples lies in the range of all. -/
theorem Within_infix {l l' : List ℕ} {g : ℕ → K} {x : K} (hs : (l.map g).Pairwise (· < ·)) (h : l' <:+: l)
    (hx : Within (l'.map g) x) : Within (l.map g) x := by
  obtain ⟨p, q, rfl⟩ := h
  obtain ⟨b, c, hb, hc, h1, h2⟩ := hx
  rw [List.map_append, List.map_append] at hs ⊢
  rw [List.pairwise_append, List.pairwise_append] at hs
  obtain ⟨⟨_, _, hpl⟩, _, hlq⟩ := hs
  have mb := List.mem_of_mem_head? hb
  have mc := List.mem_of_mem_getLast? hc
  have first : ∃ b', (p.map g ++ l'.map g ++ q.map g).head? = some b' ∧ b' ≤ b := by
    cases p with
    | nil =>
      refine ⟨b, ?_, le_refl _⟩
      cases l' with
      | nil => simp at hb
      | cons z l' => simpa using hb
    | cons z p => exact ⟨g z, rfl, (hpl (g z) (by simp) b mb).le⟩
  have last : ∃ c', (p.map g ++ l'.map g ++ q.map g).getLast? = some c' ∧ c ≤ c' := by
    rcases List.eq_nil_or_concat q with rfl | ⟨q', z, rfl⟩
    · refine ⟨c, ?_, le_refl _⟩
      rw [List.map_nil, List.append_nil, List.getLast?_append, hc]; rfl
    · refine ⟨g z, by simp, (hlq c (by simp [mc]) (g z) (by simp)).le⟩
  obtain ⟨b', hb', k1⟩ := first
  obtain ⟨c', hc', k2⟩ := last
  exact ⟨b', c', hb', hc', k1.trans h1, h2.trans k2⟩

end

section
variable {C : Type}

open Real

theorem dispatch_time {a : Call ℝ C} {asked : Val ℝ} {c : MethodClass} {domain : Domain} {ref : Val ℝ}
    (hasked : a.trefIn = some asked) (h : dispatch a = .ok (c, domain, ref)) :
    availableMethods.get? a.method = some c ∧ domain = .time ∧ ref = asked := by
  unfold dispatch at h
  split at h
  · obtain ⟨c', h1, h⟩ := bind_ok h
    obtain ⟨⟨d, v⟩, h2, h⟩ := bind_ok h
    cases h
    refine ⟨getItem_ok h1, ?_⟩
    rw [hasked] at h2
    unfold initReference at h2
    obtain ⟨r, h3, h2⟩ := bind_ok h2
    split at h2
    · cases h2
      cases hf : a.frefIn with
      | none => rw [hf] at h3; cases h3; exact ⟨rfl, rfl⟩
      | some x => rw [hf] at h3; cases h3
    · cases h2
  · cases h

/-- Among equally spaced samples, samples at least two apart are more than one step apart. -/
theorem spread_far {t : List ℝ} (inc : t.Pairwise (· < ·)) (hsteps : EqualSteps t) {l : List ℕ}
    (h : l.Pairwise (· < ·) ∧ (∀ i ∈ l, i < t.length) ∧ ∃ i ∈ l, ∃ j ∈ l, i + 2 ≤ j) :
    ∃ t0 t1, t[0]? = some t0 ∧ t[1]? = some t1 ∧ 0 < t1 - t0 ∧ ∃ ne : (l.map fun i => t.getD i 0) ≠ [],
      t1 - t0 < (l.map fun i => t.getD i 0).getLast ne - (l.map fun i => t.getD i 0).head ne ∧
      (l.map fun i => t.getD i 0).Pairwise (· < ·) := by
  obtain ⟨hl, hr, i, hi, j, hj, hij⟩ := h
  have hjt := hr j hj
  have lt : ∀ {x y : ℕ}, x < y → y < t.length → t.getD x 0 < t.getD y 0 := by
    intro x y hxy hy
    rw [List.getD_eq_getElem _ _ (hxy.trans hy), List.getD_eq_getElem _ _ hy]
    exact List.pairwise_iff_getElem.mp inc _ _ _ _ hxy
  have le : ∀ {x y : ℕ}, x ≤ y → y < t.length → t.getD x 0 ≤ t.getD y 0 := by
    intro x y hxy hy
    rcases hxy.eq_or_lt with rfl | hxy
    · exact le_rfl
    · exact (lt hxy hy).le
  have ne : (l.map fun i => t.getD i 0) ≠ [] := by
    intro h
    rw [List.map_eq_nil_iff.mp h] at hi
    cases hi
  have nel : l ≠ [] := fun h => ne (by rw [h]; rfl)
  refine ⟨t[0], t[1], List.getElem?_eq_getElem (by omega), List.getElem?_eq_getElem (by omega), ?_, ne, ?_, ?_⟩
  · rw [sub_pos]
    exact List.pairwise_iff_getElem.mp inc _ _ _ _ (by omega)
  · obtain ⟨dt, hdt⟩ := hsteps
    have s1 := hdt i (by omega)
    have s0 := hdt 0 (by omega)
    rw [List.head_map, List.getLast_map]
    have b1 : l.head nel ≤ i := by
      obtain ⟨n, hn, rfl⟩ := List.mem_iff_getElem.mp hi
      rw [List.head_eq_getElem]
      rcases n.eq_zero_or_pos with rfl | hn0
      · exact le_rfl
      · exact (List.pairwise_iff_getElem.mp hl _ _ _ _ hn0).le
    have b2 : j ≤ l.getLast nel := by
      obtain ⟨n, hn, rfl⟩ := List.mem_iff_getElem.mp hj
      rw [List.getLast_eq_getElem]
      rcases (Nat.le_sub_one_of_lt hn).eq_or_lt with rfl | hn0
      · exact le_rfl
      · exact (List.pairwise_iff_getElem.mp hl _ _ _ _ hn0).le
    have c1 := le b1 (by omega)
    have c2 := le b2 (hr _ (List.getLast_mem nel))
    have c3 := lt (show i + 1 < j by omega) hjt
    have d1 : t.getD i 0 = t[i] := List.getD_eq_getElem _ _ (by omega)
    have d2 : t.getD (i + 1) 0 = t[i + 1] := List.getD_eq_getElem _ _ (by omega)
    simp only [Nat.zero_add] at s0
    linarith
  · rw [List.pairwise_map]
    exact hl.imp_of_mem fun {x y} _ hy hxy => lt hxy (hr y hy)

/-- What the constructor builds from the waveform of a Newtonian binary. -/
theorem newtonian_built {ε q : ℝ} {f φ : ℝ → ℝ} {tEnd : ℝ} {lib : Libs ℝ C} {a : Call ℝ C}
    {c : MethodClass} {ref : Val ℝ} {nd : DataV ℝ C} {an : Analysis ℝ} {w : Wave ℝ} {b : Built ℝ C} {t : List ℝ}
    (hlib : FaithfulLibs lib) (hwave : NewtonianUntil ε q f φ tEnd a.dataDict t) (hdict : ProperDicts a.dataDict)
    (hpr : a.precessing = .isFalse)
    (hload : loadWave lib a = .ok (nd, an, w)) {extra : Option (Extra ℝ)} {interpolation : String}
    (hopt : DefaultsBut extra interpolation) (hrat : interpolation = "rational_fit" → FaithfulFits lib)
    (hfin : finish lib c .time ref a nd an w false extra = .ok b)
    (hend : ∀ x ∈ w.t, x ≤ tEnd) (hsteps : EqualSteps w.t) :
    NewtonianData ε q f φ b.obj ∧ KeepsConstants b.ext b.obj ∧ w.amp = w.t.map (fun x => ‖strain22 ε q f x‖) ∧
      w.omega = w.t.map (frequency (strain22 ε q f)) := by
  obtain ⟨A, P, W, hA, hP, hW, hv⟩ := hwave.given
  obtain ⟨idx, hw⟩ := loadWave_take hload hpr hdict hwave.times hA hP hW
  obtain ⟨B, hT, _⟩ := finish_default hopt hfin (loadWave_ok hload).2.1
  have hsub : w.t = t.take idx := by rw [hw]
  have hmem : ∀ x ∈ w.t, x ∈ t := by rw [hsub]; exact fun x hx => List.mem_of_mem_take hx
  have ht := hwave.increasing
  have hamp : w.amp = w.t.map (fun x => ‖strain22 ε q f x‖) := by
    rw [hw]
    simp only [← List.map_take]
    exact List.map_congr_left fun x hx => (hv x (List.mem_of_mem_take hx) (hend x (by rw [hsub]; exact hx))).1
  have hphase : w.phase = w.t.map φ := by
    rw [hw]
    simp only [← List.map_take]
    exact List.map_congr_left fun x hx => (hv x (List.mem_of_mem_take hx) (hend x (by rw [hsub]; exact hx))).2.1
  have homega : w.omega = w.t.map (frequency (strain22 ε q f)) := by
    rw [hw]
    simp only [← List.map_take]
    exact List.map_congr_left fun x hx => (hv x (List.mem_of_mem_take hx) (hend x (by rw [hsub]; exact hx))).2.2
  refine ⟨⟨?_, ?_, ?_, ?_, ?_⟩, ⟨?_, ?_, ?_⟩, hamp, homega⟩
  · rw [B.t, hsub]; exact ht.sublist (List.take_sublist _ _)
  · rw [B.t, hT]
  · rw [B.phase, B.t, hphase]
  · rw [B.omega, B.t, homega]
  · rw [B.t]
    intro x hx y hy s h1 h2 hs
    have := hwave.apsides x (hmem x hx) y (hmem y hy) (hend y hy) s h1 h2 hs
    rw [hsub] at hy ⊢
    exact mem_take_of_le ht this hy h2
  · rw [B.eval]; exact hlib.spline
  · intro hm ty p q cP cA hp hq vP vA
    rw [B.method] at hm
    obtain ⟨o, ho⟩ := B.ratFit hm
    rw [ho]
    have inc : w.t.Pairwise (· < ·) := by rw [hsub]; exact ht.sublist (List.take_sublist _ _)
    unfold Spread at hp hq
    rw [B.t] at hp hq
    have pt : b.obj.t = w.t := B.t
    obtain ⟨t0, t1, h0, h1, hpos, far⟩ := spread_far inc hsteps hp
    obtain ⟨s0, s1, g0, g1, _, far'⟩ := spread_far inc hsteps hq
    cases Option.some.inj (h0.symm.trans g0)
    cases Option.some.inj (h1.symm.trans g1)
    obtain ⟨neP, farP, incP⟩ := far
    obtain ⟨neA, farA, incA⟩ := far'
    have := extremaFit_constant (eval := lib.eval) a.level (req := none) (fun _ h => nomatch h) h0 h1 hpos ty
      (hrat hm o) neP neA farP farA incP incA (yP := p.map fun i => b.obj.omega.getD i 0)
      (yA := q.map fun i => b.obj.omega.getD i 0) (by simp) (by simp) (cP := cP) (cA := cA)
      (by simpa using vP) (by simpa using vA)
    rw [pt]
    have pick : ((ty.pick p q).map fun i => w.t.getD i 0) = ty.pick (p.map fun i => w.t.getD i 0)
      (q.map fun i => w.t.getD i 0) := by cases ty <;> rfl
    rw [pick]
    exact this
  · rw [B.deriv]; exact hlib.derivative

/-- The series of a method that does not use quasicircular data, completed by data it does not look at. -/
noncomputable def fakeSeries (ε q : ℝ) (f : ℝ → ℝ) (times : List ℝ) : Series ℝ where
  amp := times.map fun t => ‖strain22 ε q f t‖
  omega := times.map (frequency (strain22 ε q f))
  resAmp := some (times.map fun t => ‖strain22 ε q f t‖ - 0)
  resOmega := some (times.map fun t => frequency (strain22 ε q f) t - 0)
  ampMerger := 1
  hasT0 := true
  hasAmp0 := true
  hasOmega0 := true

theorem newtonian_core {ε q : ℝ} {f φ : ℝ → ℝ} {tEnd : ℝ} {lib : Libs ℝ C} {a : Call ℝ C}
    {c : MethodClass} {ref : Val ℝ} {nd : DataV ℝ C} {an : Analysis ℝ} {w : Wave ℝ} {b : Built ℝ C} {t : List ℝ}
    (hε : 0 < ε) (hq : 0 < q) (orbit : KeplerOrbit ε q f)
    (hφ : IsPhase (strain22 ε q f) φ) (hlib : FaithfulLibs lib)
    (hwave : NewtonianUntil ε q f φ tEnd a.dataDict t) (hdict : ProperDicts a.dataDict)
    (hmethod : MethodUpTo a.method ε) (hpr : a.precessing = .isFalse) (hlevel : a.level = 0)
    (hcls : availableMethods.get? a.method = some c)
    (hload : loadWave lib a = .ok (nd, an, w)) {extra : Option (Extra ℝ)} {interpolation : String}
    (hopt : DefaultsBut extra interpolation) (hrat : interpolation = "rational_fit" → FaithfulFits lib)
    (hfin : finish lib c .time ref a nd an w false extra = .ok b)
    (hend : ∀ x ∈ w.t, x ≤ tEnd) (hsteps : EqualSteps w.t) (hpeaks : FindsPeaksAndTroughs lib an.width a.method ε q f w.t) :
    ∃ p' a', b.ext.find .pericenters = .ok p' ∧ b.ext.find .apocenters = .ok a' ∧ FoundExactly b.obj (AtPericenter f) p' ∧
      FoundExactly b.obj (AtApocenter f) a' ∧
      (2 ≤ p'.length → 2 ≤ a'.length → (∃ x ∈ ref.atleast1d, Covered b.obj p' a' x) →
        ∃ ret m, measureEcc b.ext b.obj none = .ok (ret, some m, none) ∧ ReturnsEccentricity ε f ref ret) := by
  obtain ⟨D, hkeep, hamp, homega⟩ := newtonian_built hlib hwave hdict hpr hload hopt hrat hfin hend hsteps
  obtain ⟨B, _, _⟩ := finish_default hopt hfin (loadWave_ok hload).2.1
  have hc : (c = .amplitude ∧ a.method = "Amplitude" ∧ ε ≤ 6 / 7) ∨
      (c = .frequency ∧ a.method = "Frequency" ∧ ε ≤ 9 / 10) := by
    rcases hmethod with ⟨h1, h2⟩ | ⟨h1, h2⟩
    · rw [h1] at hcls
      exact .inl ⟨(Option.some.inj hcls).symm, h1, h2⟩
    · rw [h1] at hcls
      exact .inr ⟨(Option.some.inj hcls).symm, h1, h2⟩
  have hmono : MonotoneUpTo c ε := by
    rcases hc with ⟨rfl, _, h⟩ | ⟨rfl, _, h⟩ <;> exact h
  have hnf : c.isFits = false := by
    rcases hc with ⟨rfl, _⟩ | ⟨rfl, _⟩ <;> rfl
  obtain ⟨s, s1, s2, hfind⟩ := B.find hnf
  have hsig : dataForExtrema c s = .ok (w.t.map fun x => signal a.method ε q f x) ∧
      dataForExtrema c (fakeSeries ε q f w.t) = .ok (w.t.map fun x => signal a.method ε q f x) := by
    rcases hc with ⟨rfl, h, _⟩ | ⟨rfl, h, _⟩
    · simp only [dataForExtrema, s1, hamp, fakeSeries, signal, h, if_true, and_self]
    · simp only [dataForExtrema, s2, homega, fakeSeries, signal, h, String.reduceEq, if_false, and_self]
  have hser : NewtonianSeries ε q f b.obj.t (fakeSeries ε q f w.t) := by
    rw [B.t]
    exact ⟨rfl, rfl, ⟨rfl, rfl, rfl⟩, ⟨0, rfl⟩, ⟨0, rfl⟩⟩
  have hpk : ∀ d, dataForExtrema c (fakeSeries ε q f w.t) = .ok d →
      FindsAllPeaks (lib.peaks (peaksDefaults an.width).get?) d ∧
        FindsAllPeaks (lib.peaks (peaksDefaults an.width).get?) (d.map (-·)) := by
    intro d hd
    rw [hsig.2] at hd
    cases hd
    rw [List.map_map]
    exact hpeaks
  have hfind' : ∀ ty, b.ext.find ty = dataForExtrema c (fakeSeries ε q f w.t) >>= fun d =>
      findExtremaPeaks (lib.peaks (peaksDefaults an.width).get?) d ty.name := by
    intro ty
    rw [hfind, hsig.1, hsig.2]
  obtain ⟨p', a', e1, e2, e3, e4⟩ := C79_apsides_found hε hq orbit D c hmono (fakeSeries ε q f w.t) hser _ hpk
  have e1' := (hfind' .pericenters).trans e1
  have e2' := (hfind' .apocenters).trans e2
  refine ⟨p', a', e1', e2', e3, e4, fun n1 n2 hx => ?_⟩
  obtain ⟨ret, m, ve, va, vr, r1, r2, r3, r4, r5, r6, r7, r8⟩ := C79_measurement hε hq orbit hφ (B.pi.trans hlib.pi)
    (B.ecc.trans hlib.ecc) hkeep D c hmono (fakeSeries ε q f w.t) hser _ hpk hfind' B.domain
    (B.level.trans hlevel) (by rw [B.precessing, hpr]; rfl) B.midpoints (by rw [B.method]; exact hopt.1) (by rw [B.extremaKw]; decide)
    (by rw [B.extremaKw]; decide) (by rw [B.generalKw]; decide) (by rw [B.generalKw]; decide) none (by
      intro p'' a'' h1 h2
      cases e1'.symm.trans h1
      cases e2'.symm.trans h2
      rw [B.refIn]
      exact ⟨n1, n2, hx⟩)
  rw [B.refIn] at r6
  exact ⟨ret, m, r1, ve, va, vr, r2, r3, r4, r5, r6, r7, r8⟩

/-- What the next theorems ask of the peak finder, for scipy's: all maxima and minima of the signal are at least as wide as the
width computed from the waveform. -/
theorem C87_scipy {ε q : ℝ} {f : ℝ → ℝ} {lib : Libs ℝ C} {argsort : List ℝ → List ℕ} {width : ℤ} {method : String}
    {t : List ℝ} (h : lib.peaks = findPeaks argsort) : FindsPeaksAndTroughs lib width method ε q f t ↔
      (∀ i, IsMaximum (t.map fun x => signal method ε q f x) i →
        ∃ v, HasWidth (t.map fun x => signal method ε q f x) i v ∧ (width : ℝ) ≤ v) ∧
      ∀ i, IsMaximum (t.map fun x => -signal method ε q f x) i →
        ∃ v, HasWidth (t.map fun x => -signal method ε q f x) i v ∧ (width : ℝ) ≤ v := by
  unfold FindsPeaksAndTroughs
  rw [h, findsAllPeaks_iff, findsAllPeaks_iff]

/-- **C87.** The waveform of a Newtonian binary of eccentricity `ε` until `tEnd`, whatever follows, and a call with
the default options, or with splines instead of rational fits, that keeps only samples before `tEnd`, equally spaced: if it returns, every eccentricity it returns is `ε`, every mean
anomaly solves Kepler's equation, and it answers at least one of the times asked for. -/
theorem C87_returned {ε q : ℝ} {f φ : ℝ → ℝ} {tEnd : ℝ} {fuel : ℕ} {lib : Libs ℝ C} {a : Call ℝ C} {ans : Answer ℝ C}
    {asked : Val ℝ} {t kept : List ℝ} (hε : 0 < ε) (hq : 0 < q) (orbit : KeplerOrbit ε q f)
    (hφ : IsPhase (strain22 ε q f) φ) (hlib : FaithfulLibs lib)
    (hwave : NewtonianUntil ε q f φ tEnd a.dataDict t) (hdict : ProperDicts a.dataDict)
    (hmethod : MethodUpTo a.method ε) (hpr : a.precessing = .isFalse) (hlevel : a.level = 0)
    {interpolation : String} (hopt : DefaultsBut a.extra interpolation) (hrat : interpolation = "rational_fit" → FaithfulFits lib)
    (hasked : a.trefIn = some asked) (hrun : run fuel lib a = some (.ok ans))
    (hkept : array ans.built.data "t" = some kept) (hsteps : EqualSteps kept) (hend : ∀ x ∈ kept, x ≤ tEnd)
    (hpeaks : FindsPeaksAndTroughs lib ans.built.analysis.width a.method ε q f kept) :
    ReturnsEccentricity ε f asked ans.ret := by
  obtain ⟨⟨c, domain, ref, nd, an, w, clean, filtered, extra, cache, hdis, hload, hfil, hfin, hmeas⟩⟩ := run_ok hrun
  rw [filterStage_off fuel lib a nd an w (by rw [hpr]; rfl)] at hfil
  cases hfil
  obtain ⟨hcls, rfl, rfl⟩ := dispatch_time hasked hdis
  obtain ⟨B, _, _⟩ := finish_default hopt hfin (loadWave_ok hload).2.1
  have hk : kept = w.t := by
    rw [B.data] at hkept
    have := (array_entry hkept).symm.trans (getArr_ok (loadWave_ok hload).2.1)
    cases this
    rfl
  rw [hk] at hend hpeaks hsteps
  rw [B.analysis] at hpeaks
  obtain ⟨p', a', f1, f2, e1, e2, core⟩ := newtonian_core hε hq orbit hφ hlib hwave hdict hmethod hpr hlevel hcls hload hopt hrat hfin
    hend hsteps hpeaks
  obtain ⟨D, _⟩ := newtonian_built hlib hwave hdict hpr hload hopt hrat hfin hend hsteps
  cases hm : ans.meas with
  | none =>
    rw [hm] at hmeas
    have := (C10_zero_only_if _ _ _ _ _ hmeas).1
    rw [B.returnZero] at this
    cases this
  | some m =>
    rw [hm] at hmeas
    obtain ⟨t1, t2, n1, n2, p'', a'', g1, g2, g3⟩ := C07_extrema_used _ _ _ _ _ _ hmeas
    rw [B.midpoints] at g2
    cases f1.symm.trans g1
    cases f2.symm.trans g2
    obtain ⟨i1, i2⟩ := g3 e1.1 e2.1
    classical
    obtain ⟨v, v1, v2, v3⟩ := C07_times_answered _ _ _ _ _ _ B.domain hmeas
      (fun x => decide (Within m.tPeri x ∧ Within m.tApo x)) (fun x => decide_eq_true_iff)
    obtain ⟨x, hx⟩ := List.exists_mem_of_ne_nil _ v3
    rw [v2, List.mem_filter, B.refIn, decide_eq_true_eq] at hx
    obtain ⟨hx, hx1, hx2⟩ := hx
    rw [t1] at hx1
    rw [t2] at hx2
    have inc : ∀ {P : ℝ → Prop} {l : List ℕ}, FoundExactly ans.built.obj P l →
        (l.map fun i => ans.built.obj.t.getD i 0).Pairwise (· < ·) := by
      intro P l hl
      rw [List.pairwise_map]
      refine hl.1.imp_of_mem fun {i j} hi hj hij => tt_lt D ?_ hij
      have := (hl.2 j).mp hj
      omega
    obtain ⟨ret, m', r1, r2⟩ := core (n1.trans i1.length_le) (n2.trans i2.length_le)
      ⟨x, hx, Within_infix (inc e1) i1 hx1, Within_infix (inc e2) i2 hx2⟩
    have := Except.ok.inj (hmeas.symm.trans r1)
    rw [(Prod.mk.inj this).1]
    exact r2

theorem within_of_mem {l : List ℝ} (hs : l.Pairwise (· < ·)) {u v x : ℝ} (hu : u ∈ l) (hv : v ∈ l) (h1 : u ≤ x)
    (h2 : x ≤ v) : Within l x := by
  have hne : l ≠ [] := List.ne_nil_of_mem hu
  refine ⟨l.head hne, l.getLast hne, List.head?_eq_some_head hne, List.getLast?_eq_some_getLast hne, ?_, ?_⟩
  · refine le_trans ?_ h1
    cases l with
    | nil => exact absurd rfl hne
    | cons y l =>
      rcases List.mem_cons.mp hu with rfl | hu
      · exact le_refl _
      · exact ((List.pairwise_cons.mp hs).1 u hu).le
  · refine le_trans h2 ?_
    rcases List.eq_nil_or_concat l with rfl | ⟨l', y, rfl⟩
    · exact absurd rfl hne
    · have hl : (l'.concat y).getLast hne = y := by simp
      rw [hl]
      rw [List.concat_eq_append, List.mem_append, List.mem_singleton] at hv
      rcases hv with hv | rfl
      · rw [List.concat_eq_append, List.pairwise_append] at hs
        exact (hs.2.2 v hv y (by simp)).le
      · exact le_refl _

theorem checkSteps_equal {t : List ℝ} (h : EqualSteps t) (h2 : 2 ≤ t.length) : checkSteps t = .ok () := by
  obtain ⟨dt, h⟩ := h
  have hd : ∀ x ∈ diff t, x = dt := by
    clear h2
    induction t with
    | nil => simp [diff]
    | cons x l ih =>
      cases l with
      | nil => simp [diff]
      | cons y l =>
        intro d hd
        rw [diff, List.mem_cons] at hd
        rcases hd with rfl | hd
        · exact h 0 (by simp)
        · exact ih (fun i hi => h (i + 1) (by simpa using hi)) d hd
  match t, h2 with
  | x :: y :: l, _ =>
    unfold checkSteps
    have h0 : pyGet (diff (x :: y :: l)) 0 = .ok (y - x) := rfl
    rw [h0]
    simp only [ok_bind]
    rw [if_pos]
    · rfl
    · unfold allClose
      rw [List.all_eq_true]
      intro d hdm
      rw [decide_eq_true_eq, hd d hdm, hd (y - x) (by simp [diff]), sub_self, abs_zero]
      positivity

theorem no_zeroecc {lib : WaveLib ℝ C} {pr : Flag} {frame : String} {v nd : DataV ℝ C} {n : Option ℝ} {r : Analysis ℝ}
    (hpr : pr = .isFalse) (hz : NoQuasicircular v) (h : processData lib pr frame v n = .ok (nd, r)) :
    nd.has "amplm_zeroecc" = false := by
  obtain ⟨v', full, _, hv', hnd, han, hcut⟩ := processData_ok h
  rw [hpr] at hv'
  cases hv'
  have sp := newData_spec hnd
  have h1 : v.has "amplm_zeroecc" = false := by
    have := hz "amplm_zeroecc" (by simp)
    by_contra hc
    obtain ⟨e, he⟩ := (Dict.has_iff_get? _ _).mp (by simpa using hc)
    rw [this] at he; cases he
  have h2 : v.has "hlm_zeroecc" = false := by
    have := hz "hlm_zeroecc" (by simp)
    by_contra hc
    obtain ⟨e, he⟩ := (Dict.has_iff_get? _ _).mp (by simpa using hc)
    rw [this] at he; cases he
  obtain ⟨a, z, _, hzz, hna, hnz⟩ := sp.amp
  have hze : z = [] := by
    unfold realModes at hzz
    rw [show "amplm" ++ "_zeroecc" = "amplm_zeroecc" from rfl, h1, show "hlm" ++ "_zeroecc" = "hlm_zeroecc" from rfl, h2] at hzz
    exact (Except.ok.inj hzz).symm
  rw [hze] at hnz
  have key : nd.get? "amplm_zeroecc" = none := by
    rcases hcut with ⟨_, rfl⟩ | ⟨idx, _, hc⟩
    · exact hnz
    · obtain ⟨p, q, x, _, _, hnp, _⟩ := sp.omega
      obtain ⟨_, _, _, _, _, _, get⟩ := cutData_ok hc hna hnp
      rw [get]
      simp only [String.reduceEq, if_false]
      exact hnz
  cases hh : nd.has "amplm_zeroecc" with
  | false => rfl
  | true =>
    obtain ⟨e, he⟩ := (Dict.has_iff_get? _ _).mp hh
    rw [key] at he; cases he

/-- **C87.** And the call does return: it is enough that the preparation accepts the waveform, that the samples kept are
equally spaced and end before `tEnd`, and that one of the times asked for lies between two passages of each kind. -/
theorem C87_returns {ε q : ℝ} {f φ : ℝ → ℝ} {tEnd : ℝ} {lib : Libs ℝ C} {a : Call ℝ C}
    {asked : Val ℝ} {t kept : List ℝ} {nd : DataV ℝ C} {an : Analysis ℝ} (hε : 0 < ε) (hq : 0 < q)
    (orbit : KeplerOrbit ε q f) (hφ : IsPhase (strain22 ε q f) φ) (hlib : FaithfulLibs lib)
    (hwave : NewtonianUntil ε q f φ tEnd a.dataDict t) (hdict : ProperDicts a.dataDict)
    (hmethod : MethodUpTo a.method ε) (hpr : a.precessing = .isFalse) (hlevel : a.level = 0)
    {interpolation : String} (hopt : DefaultsBut a.extra interpolation) (hrat : interpolation = "rational_fit" → FaithfulFits lib)
    (hasked : a.trefIn = some asked) (hfref : a.frefIn = none) (hframe : a.frame = "inertial")
    (hzero : NoQuasicircular a.dataDict)
    (hprep : processData lib.wave .isFalse a.frame a.dataDict a.numOrbits = .ok (nd, an))
    (hkept : array nd "t" = some kept) (hsteps : EqualSteps kept) (hend : ∀ x ∈ kept, x ≤ tEnd)
    (hpeaks : FindsPeaksAndTroughs lib an.width a.method ε q f kept)
    (hbetween : ∃ x ∈ asked.atleast1d, BetweenPassages f kept x) :
    ∃ ans, (∀ fuel, run fuel lib a = some (.ok ans)) ∧ ReturnsEccentricity ε f asked ans.ret := by
  obtain ⟨x, hx, p₁, p₂, a₁, a₂, hp₁, hp₂, ha₁, ha₂, hpp, haa, x1, x2, x3, x4, inside⟩ := hbetween
  obtain ⟨A, P, W, hA, hP, hW, _⟩ := hwave.given
  have hkt : getArr nd "t" = .ok kept := by
    unfold getArr
    rw [getItem_of (array_entry hkept)]
    rfl
  -- the quantities can be read
  obtain ⟨amp, phase, omega, hq'⟩ : ∃ amp phase omega, gwQuantities false nd "" = .ok (amp, phase, omega) := by
    obtain ⟨v', full, _, hv', hnd, han, hcut⟩ := processData_ok hprep
    cases hv'
    obtain ⟨_, c2, c3, c4, _⟩ := newData_contents hdict hnd "" (Or.inl rfl) (2, 2)
    rw [show "amplm" ++ "" = "amplm" from rfl, realMode_has hA, if_pos rfl, hA] at c2
    rw [show "phaselm" ++ "" = "phaselm" from rfl, realMode_has hP, if_pos rfl, hP] at c3
    have c4 := c4 (realMode_has hW)
    rw [show "omegalm" ++ "" = "omegalm" from rfl, hW] at c4
    have read : ∀ {A' P' W' : List ℝ}, realMode nd "amplm" (2, 2) = some A' → realMode nd "phaselm" (2, 2) = some P' →
        realMode nd "omegalm" (2, 2) = some W' → gwQuantities false nd "" = .ok (A', P', W') := by
      intro A' P' W' h1 h2 h3
      obtain ⟨d1, e1, g1⟩ := realMode_entry h1
      obtain ⟨d2, e2, g2⟩ := realMode_entry h2
      obtain ⟨d3, e3, g3⟩ := realMode_entry h3
      have r : ∀ {k : String} {d : Dict LM (List ℝ)}, nd.get? k = some (.modesR d) → getR nd k = .ok d := by
        intro k d h
        unfold getR
        rw [getItem_of h]
        rfl
      unfold gwQuantities
      rw [show "amplm" ++ "" = "amplm" from rfl, show "phaselm" ++ "" = "phaselm" from rfl,
        show "omegalm" ++ "" = "omegalm" from rfl, r e1, r e2, r e3]
      simp only [ok_bind, Bool.not_false, if_true]
      rw [getItem_of g1, getItem_of g2, getItem_of g3]
      rfl
    rcases hcut with ⟨_, rfl⟩ | ⟨idx, _, hc⟩
    · exact ⟨_, _, _, read c2 c3 c4⟩
    · obtain ⟨da, e1, _⟩ := realMode_entry c2
      obtain ⟨dp, e2, _⟩ := realMode_entry c3
      obtain ⟨dw, e3, _⟩ := realMode_entry c4
      obtain ⟨w0, w', t2, g1, g2, g3, get⟩ := cutData_ok hc e1 e2
      have n1 : nd.get? "amplm" = _ := get "amplm"
      have n2 : nd.get? "phaselm" = _ := get "phaselm"
      have n3 : nd.get? "omegalm" = _ := get "omegalm"
      simp only [reduceIte, String.reduceEq] at n1 n2 n3
      have m1 := realMode_cut (idx := idx) e1 n1 rfl (2, 2)
      have m2 := realMode_cut (idx := idx) e2 n2 rfl (2, 2)
      have m3 := realMode_cut (idx := idx) g1 n3 g2 (2, 2)
      rw [c2] at m1
      rw [c3] at m2
      rw [c4] at m3
      exact ⟨_, _, _, read m1 m2 m3⟩
  have hlen : 2 ≤ kept.length := by
    obtain ⟨⟨y, hy, hy1⟩, z, hz, hz1⟩ := inside p₁ (by simp)
    have hyz : y ≠ z := (hy1.trans hz1).ne
    match kept, hy, hz with
    | [w], hy, hz => rw [List.mem_singleton] at hy hz; exact absurd (hy.trans hz.symm) hyz
    | _ :: _ :: _, _, _ => simp
  have hload : loadWave lib a = .ok (nd, an, ⟨kept, amp, phase, omega⟩) := by
    unfold loadWave
    rw [hpr, frameMessage_off _ (by rfl), ok_bind, hprep]
    simp only [ok_bind]
    rw [hkt]
    simp only [ok_bind]
    rw [checkSteps_equal hsteps hlen]
    simp only [ok_bind]
    rw [show Flag.isFalse.truth = false from rfl, hq']
    rfl
  obtain ⟨c, hcls, hc⟩ : ∃ c, availableMethods.get? a.method = some c ∧ (c = .amplitude ∨ c = .frequency) := by
    rcases hmethod with ⟨h1, _⟩ | ⟨h1, _⟩
    · rw [h1]; exact ⟨.amplitude, rfl, .inl rfl⟩
    · rw [h1]; exact ⟨.frequency, rfl, .inr rfl⟩
  have hdis : dispatch a = .ok (c, .time, asked) := by
    unfold dispatch
    rw [if_pos ((Dict.has_iff_get? _ _).mpr ⟨c, hcls⟩), getItem_of hcls]
    simp only [ok_bind]
    rw [hasked, hfref, hframe]
    rfl
  obtain ⟨b, hfin⟩ := finish_succeeds lib hc .time asked hlevel (no_zeroecc rfl hzero hprep) an (w := ⟨kept, amp, phase, omega⟩)
    false hkt hopt
  obtain ⟨B, _, _⟩ := finish_default hopt hfin hkt
  obtain ⟨D, _⟩ := newtonian_built hlib hwave hdict hpr hload hopt hrat hfin hend hsteps
  obtain ⟨p', a', _, _, e1, e2, core⟩ := newtonian_core hε hq orbit hφ hlib hwave hdict hmethod hpr hlevel hcls hload hopt hrat hfin
    hend hsteps hpeaks
  have hbt : b.obj.t = kept := B.t
  have inc : ∀ {Q : ℝ → Prop} {l : List ℕ}, FoundExactly b.obj Q l →
      (l.map fun i => b.obj.t.getD i 0).Pairwise (· < ·) := by
    intro Q l hl
    rw [List.pairwise_map]
    refine hl.1.imp_of_mem fun {i j} hi hj hij => tt_lt D ?_ hij
    have := (hl.2 j).mp hj
    omega
  -- passages with samples before and after them are found
  have found : ∀ {Q : ℝ → Prop} {l : List ℕ}, FoundExactly b.obj Q l → ∀ s, Q s → AtPericenter f s ∨ AtApocenter f s →
      (∃ y ∈ kept, y < s) → (∃ y ∈ kept, s < y) → ∃ i ∈ l, b.obj.t.getD i 0 = s := by
    intro Q l hl s hs hap ⟨y, hy, hys⟩ ⟨z, hz, hsz⟩
    have hmem : s ∈ b.obj.t := D.apsides y (by rw [hbt]; exact hy) z (by rw [hbt]; exact hz) s hys.le hsz.le hap
    obtain ⟨i, hi, rfl⟩ := List.mem_iff_getElem.mp hmem
    have hg : b.obj.t.getD i 0 = b.obj.t[i] := List.getD_eq_getElem _ _ hi
    rw [← hbt] at hy hz
    obtain ⟨j, hj, rfl⟩ := List.mem_iff_getElem.mp hy
    obtain ⟨k, hk, rfl⟩ := List.mem_iff_getElem.mp hz
    have hji : j < i := lt_of_tt D hj (by rw [hg, List.getD_eq_getElem _ _ hj]; exact hys)
    have hik : i < k := lt_of_tt D hi (by rw [hg, List.getD_eq_getElem _ _ hk]; exact hsz)
    exact ⟨i, (hl.2 i).mpr ⟨by omega, by omega, by rw [hg]; exact hs⟩, hg⟩
  obtain ⟨i1, m1, v1⟩ := found e1 p₁ hp₁ (.inl hp₁) (inside p₁ (by simp)).1 (inside p₁ (by simp)).2
  obtain ⟨i2, m2, v2⟩ := found e1 p₂ hp₂ (.inl hp₂) (inside p₂ (by simp)).1 (inside p₂ (by simp)).2
  obtain ⟨j1, n1, w1⟩ := found e2 a₁ ha₁ (.inr ha₁) (inside a₁ (by simp)).1 (inside a₁ (by simp)).2
  obtain ⟨j2, n2, w2⟩ := found e2 a₂ ha₂ (.inr ha₂) (inside a₂ (by simp)).1 (inside a₂ (by simp)).2
  have two : ∀ (l : List ℕ) (x y : ℕ), x ∈ l → y ∈ l → x ≠ y → 2 ≤ l.length := by
    intro l x y hx hy hxy
    match l, hx, hy with
    | [z], hx, hy => rw [List.mem_singleton] at hx hy; omega
    | _ :: _ :: _, _, _ => simp
  obtain ⟨ret, m, r1, r2⟩ := core (two p' i1 i2 m1 m2 (by rintro rfl; rw [v1] at v2; exact hpp.ne v2))
    (two a' j1 j2 n1 n2 (by rintro rfl; rw [w1] at w2; exact haa.ne w2))
    ⟨x, hx, within_of_mem (inc e1) (List.mem_map.mpr ⟨i1, m1, v1⟩) (List.mem_map.mpr ⟨i2, m2, v2⟩) x1 x2,
      within_of_mem (inc e2) (List.mem_map.mpr ⟨j1, n1, w1⟩) (List.mem_map.mpr ⟨j2, n2, w2⟩) x3 x4⟩
  refine ⟨⟨ret, b, some m⟩, fun fuel => ?_, r2⟩
  refine Ran.to_run ⟨c, .time, asked, nd, an, ⟨kept, amp, phase, omega⟩, ⟨kept, amp, phase, omega⟩, false, a.extra, none, hdis,
    hload, ?_, hfin, r1⟩
  rw [filterStage_off fuel lib a nd an _ (by rw [hpr]; rfl)]

end

/-! ### The premises are met -/

namespace NewtonCall

open Real

/-- At equal time steps of half a period a Newtonian binary passes alternately through pericenter and apocenter. -/
theorem half_periods {ε q : ℝ} {f : ℝ → ℝ} (hε : 0 ≤ ε) (hε1 : ε < 1) (hq : 0 < q) (orbit : KeplerOrbit ε q f)
    (hs : ∀ x, ∃ t, f t = x) : ∃ t₀ h, 0 < h ∧ ∀ i : ℕ, f (t₀ + i * h) = i * π := by
  have hm := f_strictMono hε hε1 hq orbit
  have hpos := pi_pos
  obtain ⟨T, hT⟩ := exists_period hε hε1 hq orbit
  obtain ⟨hT0, hper⟩ := hT
  obtain ⟨t₀, h0⟩ := hs 0
  obtain ⟨t₁, h1⟩ := hs π
  have hb1 : t₀ < t₁ := by rw [← hm.lt_iff_lt, h0, h1]; exact hpos
  have hb2 : t₁ < t₀ + T := by rw [← hm.lt_iff_lt, hper, h0, h1]; linarith
  -- the apocenter is half a period after the pericenter
  have hhalf : t₁ = t₀ + T / 2 := by
    obtain ⟨u, u1, u2, u3⟩ := kepler_equation hε hε1 hq orbit ⟨hT0, hper⟩ (τ := t₀) (by unfold AtPericenter; rw [h0, cos_zero]) t₁
    rw [h1, sin_pi] at u3
    have hden : 0 < 1 - ε * cos u := by
      have := cos_le_one u
      nlinarith [neg_one_le_cos u]
    have hsq : 0 < Real.sqrt (1 - ε ^ 2) := Real.sqrt_pos.mpr (by nlinarith)
    have hsin : sin u = 0 := by
      have := (div_eq_zero_iff.mp u3.symm).resolve_right hden.ne'
      exact (mul_eq_zero.mp this).resolve_left hsq.ne'
    obtain ⟨n, hn⟩ := sin_eq_zero_iff.mp hsin
    rw [hsin, mul_zero, sub_zero, ← hn] at u1
    have e1 : 2 * ((t₁ - t₀) / T) = n := by
      have : (2 * ((t₁ - t₀) / T)) * π = n * π := by rw [← u1]; ring
      exact mul_right_cancel₀ hpos.ne' this
    have g1 : (0 : ℝ) < n := by rw [← e1]; have := div_pos (sub_pos.mpr hb1) hT0; linarith
    have g2 : (n : ℝ) < 2 := by
      rw [← e1]
      have : (t₁ - t₀) / T < 1 := (div_lt_one hT0).mpr (by linarith)
      linarith
    have g3 : n = 1 := by
      have : (0 : ℤ) < n := by exact_mod_cast g1
      have : n < (2 : ℤ) := by exact_mod_cast g2
      omega
    rw [g3] at e1
    field_simp at e1
    push_cast at e1
    linarith
  refine ⟨t₀, T / 2, by linarith, fun i => ?_⟩
  have step : ∀ k : ℕ, f (t₀ + (2 * k : ℕ) * (T / 2)) = (2 * k : ℕ) * π ∧
      f (t₀ + (2 * k + 1 : ℕ) * (T / 2)) = (2 * k + 1 : ℕ) * π := by
    intro k
    induction k with
    | zero =>
      constructor
      · simp [h0]
      · have : t₀ + ((2 * 0 + 1 : ℕ) : ℝ) * (T / 2) = t₁ := by rw [hhalf]; push_cast; ring
        rw [this, h1]; simp
    | succ k ih =>
      constructor
      · have : t₀ + ((2 * (k + 1) : ℕ) : ℝ) * (T / 2) = (t₀ + (2 * k : ℕ) * (T / 2)) + T := by push_cast; ring
        rw [this, hper, ih.1]; push_cast; ring
      · have : t₀ + ((2 * (k + 1) + 1 : ℕ) : ℝ) * (T / 2) = (t₀ + (2 * k + 1 : ℕ) * (T / 2)) + T := by push_cast; ring
        rw [this, hper, ih.2]; push_cast; ring
  rcases Nat.even_or_odd' i with ⟨k, rfl | rfl⟩
  · exact (step k).1
  · exact (step k).2

/-- Libraries with the properties assumed: interpolation by the first value, and scipy's peak finder. -/
noncomputable def lib : Libs ℝ Unit where
  wave := {
    pi := π
    zero := ()
    abs := fun l => l.map fun _ => 0
    phase := fun l => l.map fun _ => 0
    polar := fun _ _ => .error .valueError
    rotate := fun _ cols => .ok cols
    totalAmp := fun ls => match ls with
      | [_, l] => .ok l
      | _ => .error .valueError }
  filter := {
    pi := π
    cos := cos
    fit := fun _ _ _ _ => .error .valueError
    peaks := fun l _ => NewtonDemo.peaks l
    cubic := fun _ _ => .error .valueError
    spectrum := id
    lowpass := fun l _ => l
    hamming := fun n => List.replicate n 1
    hanning := fun n => List.replicate n 1 }
  fits := {
    pi := π
    pow := fun _ _ => 1
    curveFit := fun _ _ _ _ _ _ => .error .valueError
    findPeaks := fun l _ _ => NewtonDemo.peaks l
    parabola := fun _ _ => .error .valueError
    cubic := fun _ _ _ => .error .valueError }
  tol := (NewtonDemo.ext [] id).tol
  monoTol := (NewtonDemo.ext [] id).monoTol
  eccOf := eccFromOmega
  eval := (NewtonDemo.ext [] id).eval
  deriv := (NewtonDemo.ext [] id).deriv
  argsort := (NewtonDemo.ext [] id).argsort
  solve := fun _ _ p => .ok p
  rational := fun _ _ _ ys => .ok fun _ => .ok (ys.headD 0)
  peaks := findPeaks fun _ => []

theorem faithful : FaithfulLibs lib :=
  ⟨rfl, rfl, (NewtonDemo.keeps [] id (NewtonDemo.obj 0 1 id id [] "")).spline,
    (NewtonDemo.keeps [] id (NewtonDemo.obj 0 1 id id [] "")).derivative⟩

theorem faithfulFits : FaithfulFits lib := fun _ _ xs ys c h1 h2 h3 _ h4 h5 =>
  ⟨_, rfl, fun x _ => by
    show Except.ok _ = _
    cases ys with
    | nil =>
      rw [← h4] at h3
      simp only [Determined, List.length_nil] at h3
      push_cast at h3
      omega
    | cons y ys => rw [List.headD_cons, h5 y (by simp)]⟩

/-- Sixteen passages through apsides; the mode (4,4) peaks at the thirteenth, which is taken as the merger. -/
noncomputable def times (t₀ h : ℝ) : List ℝ := (List.range 16).map fun i : ℕ => t₀ + i * h

noncomputable def burst : List ℝ := (List.range 16).map fun i : ℕ => 200 + (-1) * ((i : ℝ) - 12) ^ 2

noncomputable def data (ε q : ℝ) (f φ : ℝ → ℝ) (t : List ℝ) : DataV ℝ Unit :=
  [("t", .arr t),
    ("amplm", .modesR [((2, 2), t.map fun x => ‖strain22 ε q f x‖), ((4, 4), burst)]),
    ("phaselm", .modesR [((2, 2), t.map φ)]),
    ("omegalm", .modesR [((2, 2), t.map (frequency (strain22 ε q f)))])]

theorem data_proper (ε q : ℝ) (f φ : ℝ → ℝ) (t₀ h : ℝ) : ProperDicts (data ε q f φ (times t₀ h)) := by
  intro key e he
  have he : (data ε q f φ (times t₀ h)).get? key = some e := he
  unfold data at he
  simp only [Dict.get?_cons] at he
  split at he
  · cases he; exact ⟨fun _ h => (by cases h), fun _ h => (by cases h)⟩
  split at he
  · cases he; exact ⟨fun _ h => (by cases h; simp [Dict.keys]), fun _ h => (by cases h)⟩
  split at he
  · cases he; exact ⟨fun _ h => (by cases h; simp [Dict.keys]), fun _ h => (by cases h)⟩
  split at he
  · cases he; exact ⟨fun _ h => (by cases h; simp [Dict.keys]), fun _ h => (by cases h)⟩
  cases he

noncomputable def call (method : String) (ε q : ℝ) (f φ : ℝ → ℝ) (t₀ h : ℝ) : Call ℝ Unit where
  method := method
  dataDict := data ε q f φ (times t₀ h)
  trefIn := some (.scalar (t₀ + 4 * h))
  numOrbits := some 1

theorem argmin_of {l : List ℝ} {i : ℕ} (hi : i < l.length) (h1 : ∀ j (hj : j < l.length), j ≠ i → l[i] < l[j]) :
    argmin l = .ok i := by
  obtain ⟨j, hj⟩ := argmin_ok (l := l) (by rintro rfl; simp at hi)
  obtain ⟨hjl, h2, _⟩ := argmin_spec hj
  by_cases hij : j = i
  · rw [hj, hij]
  · exact absurd (h2 i hi) (not_le.mpr (h1 j hjl hij))

theorem argmax_of {l : List ℝ} {i : ℕ} (hi : i < l.length) (h1 : ∀ j (hj : j < l.length), j ≠ i → l[j] < l[i]) :
    argmax l = .ok i := by
  obtain ⟨j, hj⟩ := argmax_ok (l := l) (by rintro rfl; simp at hi)
  obtain ⟨hjl, h2, _⟩ := argmax_spec hj
  by_cases hij : j = i
  · rw [hj, hij]
  · exact absurd (h2 i hi) (not_le.mpr (h1 j hjl hij))


theorem prepared {ε q : ℝ} {f φ : ℝ → ℝ} (hε : 0 ≤ ε) (hε1 : ε < 1) (hq : 0 < q) (orbit : KeplerOrbit ε q f)
    (hφ : IsPhase (strain22 ε q f) φ) {t₀ h : ℝ} (hh : 0 < h) (hf : ∀ i : ℕ, f (t₀ + i * h) = i * π) :
    ∃ nd an, processData lib.wave .isFalse "inertial" (data ε q f φ (times t₀ h)) (some 1) = .ok (nd, an) ∧
      array nd "t" = some ((times t₀ h).take 10) ∧ an.width = 0 := by
  have hpos := pi_pos
  have hlen : (times t₀ h).length = 16 := by simp [times]
  have hget : ∀ i (hi : i < (times t₀ h).length), (times t₀ h)[i] = t₀ + i * h := by
    intro i hi
    simp [times]
  have hφi : ∀ i : ℕ, φ (t₀ + i * h) = φ (t₀ + (0 : ℕ) * h) + 2 * (i * π) := by
    intro i
    have := phase_apsis hε hε1 hq orbit hφ (s := t₀ + (0 : ℕ) * h) (t := t₀ + i * h) (by rw [hf]; exact sin_nat_mul_pi _)
      (by rw [hf]; exact sin_nat_mul_pi _)
    rw [hf, hf] at this
    push_cast at this ⊢
    linarith
  generalize hφ0 : φ (t₀ + (0 : ℕ) * h) = φ₀ at hφi
  have hgetφ : ∀ i (hi : i < ((times t₀ h).map φ).length), ((times t₀ h).map φ)[i] = φ₀ + 2 * (i * π) := by
    intro i hi
    rw [List.getElem_map, hget, hφi]
  have hpeak : peakTime (times t₀ h) burst = .ok (t₀ + 12 * h, 200) := by
    refine C17_exact _ _ (by simp [hlen, burst]) (by rw [hlen]; decide) ?_ (t₀ + 12 * h) 200 (-1 / h ^ 2) ?_ 12 ?_ ?_
    · unfold times
      rw [List.pairwise_map]
      refine List.pairwise_lt_range.imp fun {i j} hij => ?_
      have : (i : ℝ) < j := by exact_mod_cast hij
      nlinarith
    · exact div_ne_zero (by norm_num) (by positivity)
    · refine argmax_of (by simp [burst]) fun j hj hne => ?_
      simp only [burst, List.getElem_map, List.getElem_range]
      have : ((j : ℝ) - 12) ≠ 0 := by
        intro h0
        apply hne
        have : (j : ℝ) = (12 : ℕ) := by push_cast; linarith
        exact_mod_cast this
      have := sq_pos_of_ne_zero this
      push_cast
      linarith
    · intro j h1 h2 _ _
      simp only [hget, burst, List.getElem_map, List.getElem_range]
      have : t₀ + j * h - (t₀ + 12 * h) = ((j : ℝ) - 12) * h := by ring
      rw [this]
      field_simp
  have near : ∀ m : ℕ, m < 16 → argmin (((times t₀ h).map φ).map fun x => |x - (φ₀ + 2 * (m * π))|) = .ok m := by
    intro m hm
    refine argmin_of (by simp [hlen, hm]) fun j hj hne => ?_
    simp only [List.getElem_map, hget, hφi, sub_self, abs_zero]
    have : φ₀ + 2 * (j * π) - (φ₀ + 2 * (m * π)) = 2 * π * ((j : ℝ) - m) := by ring
    rw [this]
    have hjm : ((j : ℝ) - m) ≠ 0 := by
      intro h0
      apply hne
      have : (j : ℝ) = m := by linarith
      exact_mod_cast this
    exact abs_pos.mpr (mul_ne_zero (by positivity) hjm)
  have merger : argmin ((times t₀ h).map fun x => |x - (t₀ + 12 * h)|) = .ok 12 := by
    refine argmin_of (by simp [hlen]) fun j hj hne => ?_
    rw [List.getElem_map, List.getElem_map, hget, hget]
    have e1 : t₀ + (12 : ℕ) * h - (t₀ + 12 * h) = 0 := by push_cast; ring
    rw [e1, abs_zero]
    have : t₀ + j * h - (t₀ + 12 * h) = h * ((j : ℝ) - 12) := by ring
    rw [this]
    have hjm : ((j : ℝ) - 12) ≠ 0 := by
      intro h0
      apply hne
      have : (j : ℝ) = (12 : ℕ) := by push_cast; linarith
      exact_mod_cast this
    exact abs_pos.mpr (mul_ne_zero hh.ne' hjm)
  have gφ : ∀ i, i < 16 → pyGet ((times t₀ h).map φ) i = .ok (φ₀ + 2 * (i * π)) := by
    intro i hi
    rw [pyGet_of_lt (by simp [hlen, hi]), hgetφ]
  have gt : ∀ i, i < 16 → pyGet (times t₀ h) i = .ok (t₀ + i * h) := by
    intro i hi
    rw [pyGet_of_lt (by rw [hlen]; exact hi), hget]
  have gA : ∃ x, pyGet ((times t₀ h).map fun x => ‖strain22 ε q f x‖) 12 = .ok x :=
    ⟨_, pyGet_of_lt (by simp [hlen])⟩
  have gW : pyGet ((times t₀ h).map (frequency (strain22 ε q f))) 12 = .ok (frequency (strain22 ε q f) (t₀ + (12 : ℕ) * h)) := by
    rw [pyGet_of_lt (by simp [hlen]), List.getElem_map, hget]
  have back : ∀ n : ℕ, n ≤ 6 → indexBeforeMerger π ((times t₀ h).map φ) (φ₀ + 2 * ((12 : ℕ) * π)) n = .ok (12 - 2 * n) := by
    intro n hn
    unfold indexBeforeMerger
    dsimp only
    rw [gφ 0 (by omega)]
    simp only [ok_bind]
    have e : φ₀ + 2 * ((12 : ℕ) * π) - 4 * π * (n : ℝ) = φ₀ + 2 * (((12 - 2 * n : ℕ) : ℝ) * π) := by
      rw [Nat.cast_sub (by omega)]
      push_cast
      ring
    rw [e, if_neg, near _ (by omega)]
    have : (0 : ℝ) ≤ ((12 - 2 * n : ℕ) : ℝ) := Nat.cast_nonneg _
    push_cast
    nlinarith
  have hwidth : peakWidth π (times t₀ h) ((times t₀ h).map φ) (φ₀ + 2 * ((12 : ℕ) * π)) = .ok (pyInt
      ((t₀ + (10 : ℕ) * h - (t₀ + (8 : ℕ) * h)) / (t₀ + (1 : ℕ) * h - (t₀ + (0 : ℕ) * h)) / 4)) := by
    unfold peakWidth
    have b2 := back 2 (by omega)
    have b1 := back 1 (by omega)
    norm_num only at b1 b2
    push_cast
    rw [b2, ok_bind, gt 8 (by omega), ok_bind, b1, ok_bind, gt 10 (by omega), ok_bind]
    rw [gt 1 (by omega), ok_bind, gt 0 (by omega), ok_bind, if_neg]
    · push_cast; rfl
    · push_cast; ring_nf; exact hh.ne'
  obtain ⟨A, hA⟩ := gA
  have hfreq : 0 ≤ frequency (strain22 ε q f) (t₀ + (12 : ℕ) * h) := by
    rw [frequency_apsis hε hε1 hq orbit _ 1 (by rw [hf, cos_eq_one_iff]; exact ⟨6, by push_cast; ring⟩) (by norm_num)]
    positivity
  have hnew : newData lib.wave (data ε q f φ (times t₀ h)) = .ok (data ε q f φ (times t₀ h)) := rfl
  have hgw : gwQuantities false (data ε q f φ (times t₀ h)) "" = .ok ((times t₀ h).map fun x => ‖strain22 ε q f x‖,
    (times t₀ h).map φ, (times t₀ h).map (frequency (strain22 ε q f))) := rfl
  have hana : analyse lib.wave false (data ε q f φ (times t₀ h)) (some 1) = .ok ⟨t₀ + 12 * h, A, pyInt
      ((t₀ + (10 : ℕ) * h - (t₀ + (8 : ℕ) * h)) / (t₀ + (1 : ℕ) * h - (t₀ + (0 : ℕ) * h)) / 4), some 10⟩ := by
    unfold analyse
    rw [show getArr (data ε q f φ (times t₀ h)) "t" = .ok (times t₀ h) from rfl, ok_bind]
    rw [show getR (data ε q f φ (times t₀ h)) "amplm" = .ok [((2, 2), (times t₀ h).map fun x => ‖strain22 ε q f x‖), ((4, 4), burst)] from rfl, ok_bind]
    rw [show lib.wave.totalAmp (List.map Prod.snd ([((2, 2), (times t₀ h).map fun x => ‖strain22 ε q f x‖), ((4, 4), burst)] : Dict LM (List ℝ))) = .ok burst from rfl, ok_bind]
    rw [hpeak, ok_bind]
    dsimp only
    rw [merger, ok_bind, hgw, ok_bind]
    dsimp only
    rw [hA, ok_bind, gφ 12 (by omega), ok_bind, gW, ok_bind, gφ 0 (by omega), ok_bind]
    rw [if_neg (by push_cast; nlinarith), if_neg (not_lt.mpr hfreq)]
    rw [show lib.wave.pi = π from rfl, hwidth, ok_bind, if_neg (by norm_num)]
    have b1 := back 1 (by omega)
    rw [Nat.cast_one] at b1
    rw [b1]
    rfl
  obtain ⟨nd, hcut, hnd⟩ : ∃ nd, cutData 10 (data ε q f φ (times t₀ h)) = .ok nd ∧
      array nd "t" = some ((times t₀ h).take 10) := ⟨_, rfl, rfl⟩
  obtain ⟨an, han, hac, haw⟩ : ∃ an, analyse lib.wave false (data ε q f φ (times t₀ h)) (some 1) = .ok an ∧ an.cut = some 10 ∧
      an.width = 0 := by
    refine ⟨_, hana, rfl, ?_⟩
    show pyInt _ = 0
    have e : (t₀ + (10 : ℕ) * h - (t₀ + (8 : ℕ) * h)) / (t₀ + (1 : ℕ) * h - (t₀ + (0 : ℕ) * h)) / 4 = 1 / 2 := by
      have e1 : t₀ + (10 : ℕ) * h - (t₀ + (8 : ℕ) * h) = 2 * h := by push_cast; ring
      have e2 : t₀ + (1 : ℕ) * h - (t₀ + (0 : ℕ) * h) = h := by push_cast; ring
      rw [e1, e2, mul_div_cancel_right₀ _ hh.ne']
      norm_num
    rw [e]
    unfold pyInt
    norm_num
  refine ⟨nd, an, ?_, hnd, haw⟩
  unfold processData
  rw [show checkShape (Dict.has (data ε q f φ (times t₀ h))) = .ok () from rfl, ok_bind]
  rw [show mustTransform .isFalse "inertial" = false from rfl]
  simp only [Bool.false_eq_true, if_false, pure_eq_ok, ok_bind]
  rw [hnew, ok_bind, show Flag.isFalse.truth = false from rfl, han, ok_bind, hac]
  dsimp only
  rw [hcut]
  rfl

theorem call_returns {ε q : ℝ} (hε : 0 < ε) (hq : 0 < q) (method : String) (hm : MethodUpTo method ε) (lib' : Libs ℝ Unit)
    (hw : lib'.wave = lib.wave) (hp : lib'.peaks = lib.peaks) (hlib : FaithfulLibs lib') (extra : Option (Extra ℝ))
    (interpolation : String) (hopt : DefaultsBut extra interpolation)
    (hrat : interpolation = "rational_fit" → FaithfulFits lib') :
    ∃ f φ t₀ h, KeplerOrbit ε q f ∧ 0 < h ∧
      ∃ ans, (∀ fuel, run fuel lib' { call method ε q f φ t₀ h with extra := extra } = some (.ok ans)) ∧
      ReturnsEccentricity ε f (.scalar (t₀ + 4 * h)) ans.ret := by
  have hε1 : ε < 1 := by rcases hm with ⟨_, h⟩ | ⟨_, h⟩ <;> linarith
  obtain ⟨f, orbit, hs⟩ := exists_kepler hε.le hε1 hq
  obtain ⟨φ, hφ⟩ := exists_phase hε.le hε1 hq orbit
  obtain ⟨t₀, h, hh, hf⟩ := half_periods hε.le hε1 hq orbit hs
  have hmono := f_strictMono hε.le hε1 hq orbit
  have hpos := pi_pos
  obtain ⟨nd, an, hprep, hkept, hwidth⟩ := prepared hε.le hε1 hq orbit hφ hh hf
  have kept_mem : ∀ x, x ∈ (times t₀ h).take 10 ↔ ∃ i : ℕ, i < 10 ∧ x = t₀ + i * h := by
    intro x
    rw [List.mem_take_iff_getElem]
    constructor
    · rintro ⟨i, hi, rfl⟩
      exact ⟨i, by simp at hi; omega, by simp [times]⟩
    · rintro ⟨i, hi, rfl⟩
      exact ⟨i, by simp [times]; omega, by simp [times]⟩
  have mem : ∀ x, x ∈ times t₀ h ↔ ∃ i : ℕ, i < 16 ∧ x = t₀ + i * h := by
    intro x
    unfold times
    rw [List.mem_map]
    simp only [List.mem_range]
    exact ⟨fun ⟨i, h1, h2⟩ => ⟨i, h1, h2.symm⟩, fun ⟨i, h1, h2⟩ => ⟨i, h1, h2.symm⟩⟩
  rw [← hw] at hprep
  refine ⟨f, φ, t₀, h, orbit, hh, C87_returns (tEnd := t₀ + 9 * h) (t := times t₀ h) hε hq orbit hφ hlib ?_ ?_ hm rfl rfl hopt hrat
    rfl rfl rfl ?_ hprep hkept ?_ ?_ (by
      unfold FindsPeaksAndTroughs
      rw [hwidth, hp]
      exact ⟨NewtonDemo.findsAllPeaks _, NewtonDemo.findsAllPeaks _⟩) ?_⟩
  · refine ⟨rfl, ?_, ⟨fun x => ‖strain22 ε q f x‖, φ, frequency (strain22 ε q f), rfl, rfl, rfl, fun _ _ _ => ⟨rfl, rfl, rfl⟩⟩, ?_⟩
    · unfold times
      rw [List.pairwise_map]
      refine List.pairwise_lt_range.imp fun {i j} hij => ?_
      have : (i : ℝ) < j := by exact_mod_cast hij
      nlinarith
    · intro x hx y hy _ s h1 h2 hs
      rw [mem] at hx hy ⊢
      obtain ⟨i, hi, rfl⟩ := hx
      obtain ⟨j, hj, rfl⟩ := hy
      obtain ⟨n, hn⟩ : ∃ n : ℤ, (n : ℝ) * π = f s := by
        rw [← sin_eq_zero_iff]
        exact sin_of_cos hs
      have b1 := hmono.monotone h1
      have b2 := hmono.monotone h2
      rw [hf, ← hn] at b1 b2
      have c1 : ((i : ℤ) : ℝ) ≤ n := by
        have := le_of_mul_le_mul_right b1 hpos
        exact_mod_cast this
      have c2 : (n : ℝ) ≤ (j : ℤ) := by
        have := le_of_mul_le_mul_right b2 hpos
        exact_mod_cast this
      have c1' : (i : ℤ) ≤ n := by exact_mod_cast c1
      have c2' : n ≤ (j : ℤ) := by exact_mod_cast c2
      obtain ⟨k, rfl⟩ := Int.eq_ofNat_of_zero_le (by omega : 0 ≤ n)
      refine ⟨k, by omega, ?_⟩
      apply hmono.injective
      rw [hf, ← hn]
      simp
  · exact data_proper _ _ _ _ _ _
  · intro key hkey
    simp only [List.mem_cons, List.not_mem_nil, or_false] at hkey
    rcases hkey with rfl | rfl | rfl | rfl | rfl <;> rfl
  · refine ⟨h, fun i hi => ?_⟩
    simp only [List.getElem_take, times, List.getElem_map, List.getElem_range]
    push_cast
    ring
  · intro x hx
    rw [kept_mem] at hx
    obtain ⟨i, hi, rfl⟩ := hx
    have : (i : ℝ) ≤ 9 := by exact_mod_cast (by omega : i ≤ 9)
    nlinarith
  · refine ⟨t₀ + 4 * h, by simp [Val.atleast1d], t₀ + (2 : ℕ) * h, t₀ + (6 : ℕ) * h, t₀ + (1 : ℕ) * h, t₀ + (5 : ℕ) * h,
      ?_, ?_, ?_, ?_, by push_cast; linarith, by push_cast; linarith, by push_cast; linarith, by push_cast; linarith,
      by push_cast; linarith, by push_cast; linarith, ?_⟩
    · unfold AtPericenter; rw [hf, cos_eq_one_iff]; exact ⟨1, by push_cast; ring⟩
    · unfold AtPericenter; rw [hf, cos_eq_one_iff]; exact ⟨3, by push_cast; ring⟩
    · unfold AtApocenter; rw [hf, cos_eq_neg_one_iff]; exact ⟨0, by push_cast; ring⟩
    · unfold AtApocenter; rw [hf, cos_eq_neg_one_iff]; exact ⟨2, by push_cast; ring⟩
    · intro s hs
      have : ∃ i : ℕ, 0 < i ∧ i < 9 ∧ s = t₀ + i * h := by
        simp only [List.mem_cons, List.not_mem_nil, or_false] at hs
        rcases hs with rfl | rfl | rfl | rfl
        · exact ⟨2, by omega, by omega, rfl⟩
        · exact ⟨6, by omega, by omega, rfl⟩
        · exact ⟨1, by omega, by omega, rfl⟩
        · exact ⟨5, by omega, by omega, rfl⟩
      obtain ⟨i, hi0, hi9, rfl⟩ := this
      have h0 : (0 : ℝ) < i := by exact_mod_cast hi0
      have h9 : (i : ℝ) < 9 := by exact_mod_cast hi9
      refine ⟨⟨t₀ + (0 : ℕ) * h, (kept_mem _).mpr ⟨0, by omega, rfl⟩, by push_cast; nlinarith⟩,
        t₀ + (9 : ℕ) * h, (kept_mem _).mpr ⟨9, by omega, rfl⟩, by push_cast; nlinarith⟩

/-- For every eccentricity the theorem covers, a whole call on such a waveform returns the eccentricity of the orbit. -/
example {ε q : ℝ} (hε : 0 < ε) (hq : 0 < q) (method : String) (hm : MethodUpTo method ε) :
    ∃ f φ t₀ h, KeplerOrbit ε q f ∧ 0 < h ∧ ∃ ans, (∀ fuel, run fuel lib (call method ε q f φ t₀ h) = some (.ok ans)) ∧
      ReturnsEccentricity ε f (.scalar (t₀ + 4 * h)) ans.ret :=
  call_returns hε hq method hm lib rfl rfl faithful none _ defaultsBut_none fun _ => faithfulFits

end NewtonCall

end GwEcc
