import Verif.Props.WholeCall
import Verif.Props.Spline

/-!
# C119: asking at a frequency is asking at its time; C120: frequencies need a chirp

A call with reference frequencies and the same call with the times those frequencies stand for.
-/

set_option linter.unusedSectionVars false

namespace GwEcc

open Spec

section
variable {K C : Type} [Field K] [LinearOrder K] [IsStrictOrderedRing K] [FloorRing K]

/-- The object of the same call with reference times. -/
def Obj.atTimes (o : Obj K) (x : Val K) : Obj K := { o with domain := .time, refIn := x }

theorem prepare_atTimes {e : Ext K} {o : Obj K} {p a : List ℕ} {m : Meas K} (x : Val K) (h : prepare e o p a = .ok m) :
    prepare e (o.atTimes x) p a = .ok { m with o := o.atTimes x } := by
  unfold prepare at h ⊢
  obtain ⟨pl, h1, h⟩ := bind_ok h
  obtain ⟨al, h2, h⟩ := bind_ok h
  obtain ⟨pf, h3, h⟩ := bind_ok h
  obtain ⟨af, h4, h⟩ := bind_ok h
  obtain ⟨fP, h5, h⟩ := bind_ok h
  obtain ⟨fA, h6, h⟩ := bind_ok h
  cases h
  dsimp only at h1 h2 h3 h4 h5 h6 ⊢
  rw [show (o.atTimes x).t = o.t from rfl, h1, ok_bind, h2, ok_bind, h3, ok_bind, h4, ok_bind]
  rw [show extremaInterpolant e (o.atTimes x) .pericenters = extremaInterpolant e o .pericenters from rfl,
    show extremaInterpolant e (o.atTimes x) .apocenters = extremaInterpolant e o .apocenters from rfl,
    show (o.atTimes x).dataT = o.dataT from rfl, h5, ok_bind, h6, ok_bind]
  rfl

/-- A list of values shaped like what was asked for. -/
def Val.like (v : Val K) (l : List K) : Val K :=
  match v, l with
  | .scalar _, [x] => .scalar x
  | _, l => .array l

theorem Val.like_spec {v : Val K} {l : List K} (h : v.isScalar = true → l.length = 1) :
    (v.like l).isScalar = v.isScalar ∧ (v.like l).atleast1d = l := by
  cases v with
  | array _ => exact ⟨rfl, rfl⟩
  | scalar _ =>
    obtain ⟨x, rfl⟩ := List.length_eq_one_iff.mp (h rfl)
    exact ⟨rfl, rfl⟩

theorem Val.same {u v : Val K} (h : u.isScalar = v.isScalar) (h' : u.atleast1d = v.atleast1d) : u = v := by
  cases u <;> cases v <;> simp_all [Val.isScalar, Val.atleast1d]

theorem filter_eq_self_of_length {α : Type} {p : α → Bool} {l : List α} (h : (l.filter p).length = l.length) : l.filter p = l :=
  List.filter_sublist.eq_of_length h

/-- The measurement at the times of the frequencies. -/
theorem measure_atTimes {e : Ext K} {o : Obj K} {cache : AvgCache K} {ret : Dict String (Val K)} {m : Meas K}
    (hd : o.domain = .frequency) (h : measureEcc e o none = .ok (ret, some m, cache)) :
    ∃ ve va vr x tAvg wAvg ret', ret = retDict .frequency ve va vr ∧ x.isScalar = o.refIn.isScalar ∧
      omegaAverage e m (some o.avgMethod) = .ok (tAvg, wAvg) ∧ wAvg.Pairwise (· < ·) ∧ m.o = o ∧
      List.Forall₂ (fun f t => e.eval (.spline (min o.generalKw.k (wAvg.length - 1)) 2)
          (wAvg.map (· / (2 * e.pi))) tAvg f = .ok t) vr.atleast1d x.atleast1d ∧
      measureEcc e (o.atTimes x) none = .ok (ret', some { m with o := o.atTimes x }, none) ∧ ret' = retDict .time ve va x := by
  unfold measureEcc at h
  obtain ⟨⟨p, a, lacking⟩, hf, h⟩ := bind_ok h
  dsimp only at h
  split at h
  · obtain ⟨r, _, h⟩ := bind_ok h
    cases h
  rename_i hz
  obtain ⟨⟨p', a'⟩, hs, h⟩ := bind_ok h
  obtain ⟨m', hm, h⟩ := bind_ok h
  obtain ⟨⟨r, c⟩, hev, h⟩ := bind_ok h
  cases h
  have ho : m.o = o := (prepare_ok hm).1
  unfold evaluate at hev
  obtain ⟨⟨tref, fOut, c'⟩, hr, hev⟩ := bind_ok hev
  dsimp only at hev
  split at hev
  · cases hev
  rename_i hlen
  have hlen : fOut.length = (tref.filter fun x => decide (x ≤ m.tmax ∧ m.tmin ≤ x)).length := by
    by_contra hc; exact hlen ⟨by rw [ho]; exact hd, hc⟩
  split at hev
  · obtain ⟨_, _, hev⟩ := bind_ok hev
    cases hev
  rename_i hne
  obtain ⟨t0, ht0, hev⟩ := bind_ok hev
  obtain ⟨t1, ht1, hev⟩ := bind_ok hev
  obtain ⟨p0, hp0, hev⟩ := bind_ok hev
  obtain ⟨p1, hp1, hev⟩ := bind_ok hev
  split at hev
  · cases hev
  rename_i hin
  obtain ⟨ecc, hecc, hev⟩ := bind_ok hev
  obtain ⟨ano, hano, hev⟩ := bind_ok hev
  obtain ⟨_, hmono, hev⟩ := bind_ok hev
  obtain ⟨_, hneg, hev⟩ := bind_ok hev
  obtain ⟨ret1, hret, hev⟩ := bind_ok hev
  cases hev
  obtain ⟨_, c1, ts, w, _, hav, rfl, hinc, hint⟩ := trefFromFref_ok (referenceTimes_frequency (by rw [ho]; exact hd) hr)
  have hv := interpolate_values hint
  have hall : (tref.filter fun x => decide (x ≤ m.tmax ∧ m.tmin ≤ x)) = tref :=
    filter_eq_self_of_length (by rw [← hlen, hv.length_eq])
  rw [hall] at hlen hne ht0 ht1 hecc hano hret
  have hle := computeEccentricity_length hecc
  obtain ⟨ve, va, vr, rfl, s1, s2, s3, v1, v2, v3⟩ := makeReturn_ok hret
  have hpick : m.o.domain.pick tref fOut = fOut := by rw [ho, hd]; rfl
  rw [hpick] at v3
  have v3 : vr.atleast1d = fOut := v3 (by rw [hle, hlen])
  have hsc : m.o.refIn.isScalar = true → tref.length = 1 := by
    intro hs'
    rw [← hle, ← v1]
    cases ve with
    | scalar _ => rfl
    | array _ => rw [hs'] at s1; cases s1
  obtain ⟨x1, x2⟩ := Val.like_spec hsc
  set x := m.o.refIn.like tref with hx
  have hret' : makeReturn .time x.isScalar ecc ano tref = .ok (retDict .time ve va x) := by
    rw [x1]
    have hx' : vr.isScalar = true → tref.length = 1 := fun h => hsc (by rw [← s3]; exact h)
    cases hs : m.o.refIn.isScalar with
    | false =>
      have : x = .array tref := Val.same (by rw [x1, hs]; rfl) x2
      rw [this]
      have e1 : ve = .array ecc := Val.same (by rw [s1, hs]; rfl) v1
      have e2 : va = .array ano := Val.same (by rw [s2, hs]; rfl) v2
      rw [e1, e2]; rfl
    | true =>
      obtain ⟨t, ht⟩ := List.length_eq_one_iff.mp (hsc hs)
      have : x = .scalar t := Val.same (by rw [x1, hs]; rfl) (by rw [x2, ht]; rfl)
      rw [this]
      rw [hs] at s1 s2
      cases ve with
      | array _ => cases s1
      | scalar e0 =>
        cases va with
        | array _ => cases s2
        | scalar a0 =>
          have v1 : [e0] = ecc := v1
          have v2 : [a0] = ano := v2
          subst v1 v2
          rw [ht]; rfl
  refine ⟨ve, va, vr, x, ts, w, retDict .time ve va x, by rw [ho, hd], by rw [x1, ho], ?_, (checkAverageIncreasing_ok_iff _).mp hinc, ho,
    ?_, ?_, rfl⟩
  · rw [ho] at hav; exact hav
  · rw [v3, x2, ← ho]
    rw [List.length_map] at hv
    exact hv
  unfold measureEcc
  rw [show findBoth e (o.atTimes x) = findBoth e o from rfl, hf, ok_bind]
  dsimp only
  rw [show (o.atTimes x).returnZero = o.returnZero from rfl, if_neg hz,
    show settleExtrema e (o.atTimes x) p a = settleExtrema e o p a from rfl, hs, ok_bind]
  dsimp only
  rw [prepare_atTimes x hm, ok_bind]
  have hev' : evaluate e { m with o := o.atTimes x } none = .ok (retDict .time ve va x, none) := by
    unfold evaluate
    rw [show referenceTimes e { m with o := o.atTimes x } none = .ok (x.atleast1d, [], none) from rfl, ok_bind]
    dsimp only
    rw [x2, hall, if_neg (by rintro ⟨h, _⟩; cases h), if_neg hne, ht0, ok_bind, ht1, ok_bind, hp0, ok_bind, hp1, ok_bind,
      if_neg hin]
    rw [show computeEccentricity e { m with o := o.atTimes x } tref = computeEccentricity e m tref from by rw [← ho]; rfl, hecc, ok_bind,
      show computeMeanAnomaly e { m with o := o.atTimes x } tref = computeMeanAnomaly e m tref from by rw [← ho]; rfl, hano, ok_bind,
      show checkMonotonicity e { m with o := o.atTimes x } = checkMonotonicity e m from by rw [← ho]; rfl, hmono, ok_bind,
      show (o.atTimes x).level = m.o.level from by rw [ho]; rfl, hneg, ok_bind,
      show makeReturn (o.atTimes x).domain (o.atTimes x).refIn.isScalar ecc ano ((o.atTimes x).domain.pick tref []) =
        makeReturn .time x.isScalar ecc ano tref from rfl, hret', ok_bind]
    rfl
  rw [hev', ok_bind]
  rfl

/-- Without `use_only_these_many_orbits` the constructor does the same with reference times. -/
theorem finish_atTimes {lib : Libs K C} {c : MethodClass} {domain : Domain} {ref : Val K} {a : Call K C} {nd : DataV K C}
    {an : Analysis K} {w : Wave K} {filtered : Bool} {extra : Option (Extra K)} {b : Built K C}
    (f : Finished lib c domain ref a nd an w filtered extra b) (horb : f.orbits = none) (x : Val K) :
    finish lib c .time x { a with trefIn := some x, frefIn := none } nd an w filtered extra =
      .ok { b with obj := b.obj.atTimes x } := by
  have hsel : ∀ d l, selectWave lib.wave.pi (secularTrend lib.fits.pow lib.solve) none d l w = .ok w := fun _ _ => rfl
  have hw : f.wave = w := by
    have := f.h_wave
    rw [horb, hsel] at this
    exact (Except.ok.inj this).symm
  have h3 := f.h_orbits
  have h4 := f.h_w1
  have h12 := f.h_res
  have h13 := f.h_find
  have e := f.eq
  rw [horb] at h3 h4 e
  rw [hw] at h12 h13 e
  unfold finish
  rw [f.h_ex, ok_bind, f.h_useOnly, ok_bind, h3, ok_bind]
  dsimp only
  rw [h4, ok_bind, hsel, ok_bind, f.h_peaks, ok_bind, f.h_method, ok_bind, f.h_special, ok_bind]
  dsimp only
  rw [f.h_general, ok_bind, f.h_spline, ok_bind, f.h_w2, ok_bind, h12, ok_bind]
  dsimp only
  unfold seriesOf at h13
  rw [h13, ok_bind, f.h_avg, ok_bind, f.h_mid, ok_bind, f.h_zero, ok_bind, f.h_dataT, ok_bind]
  exact congrArg (fun b : Built K C => (Except.ok { b with obj := b.obj.atTimes x } : Py (Built K C))) e.symm

/-- A call with reference frequencies that returns, with any method and any options except the two named.  There is a time for
each frequency returned: the value there of the spline that gives time as a function of the average frequency.  The same call
with these times as reference times returns too, and gives the same eccentricities and mean anomalies, for all these times.
The average frequency is the one the options name: the spline through one point per orbit, the mean of the curves through
the frequencies at pericenters and at apocenters, or the spline through the frequency of the quasicircular waveform. -/
theorem C119_call {fuel : ℕ} {lib : Libs K C} {a : Call K C} {ans : Answer K C} {asked : Val K}
    (hrun : run fuel lib a = some (.ok ans)) (hsort : ∀ l, Sorts l (lib.argsort l)) (hasked : a.frefIn = some asked)
    (hzero : (a.extra.getD []).get? "return_zero_if_small_ecc_failure" = none)
    (horb : (a.extra.getD []).get? "use_only_these_many_orbits" = none) :
    ∃ m ve va vr x, ans.meas = some m ∧ ans.ret.get? "eccentricity" = some ve ∧ ans.ret.get? "mean_anomaly" = some va ∧
      ans.ret.get? "fref_out" = some vr ∧ x.isScalar = asked.isScalar ∧
      (∃ (k : ℕ) (tAvg wAvg : List K), SplineOrder a "general_interp_kwargs" k ∧ wAvg.Pairwise (· < ·) ∧
        ((inForce extraDefaults a.extra "omega_gw_averaging_method" = some (.leaf (.str "orbit_averaged_omega_gw")) ∧
            ∃ pts : List (K × K),
            pts.Perm (OrbitPoints m.o.phase m.o.t m.apocenters ++ OrbitPoints m.o.phase m.o.t m.pericenters) ∧
            (pts.map (·.1)).Pairwise (· < ·) ∧
            List.Forall₂ (fun t w => lib.eval (.spline (min k (pts.length - 1)) 2) (pts.map (·.1)) (pts.map (·.2)) t = .ok w)
              tAvg wAvg) ∨
          (inForce extraDefaults a.extra "omega_gw_averaging_method" = some (.leaf (.str "mean_of_extrema_interpolants")) ∧
            List.Forall₂ (fun t w => ∃ wp wa, m.interpP t = .ok wp ∧ m.interpA t = .ok wa ∧ w = (wp + wa) / 2) tAvg wAvg) ∨
          (inForce extraDefaults a.extra "omega_gw_averaging_method" = some (.leaf (.str "omega_gw_zeroecc")) ∧
            ∃ tz wz, m.o.zeroecc = some (tz, wz) ∧
            List.Forall₂ (fun t w => lib.eval (.spline (min k (tz.length - 1)) 2) tz wz t = .ok w) tAvg wAvg)) ∧
        List.Forall₂ (fun f t => lib.eval (.spline (min k (wAvg.length - 1)) 2) (wAvg.map (· / (2 * lib.wave.pi))) tAvg f = .ok t)
          vr.atleast1d x.atleast1d) ∧
      ∃ ans' : Answer K C, run fuel lib { a with trefIn := some x, frefIn := none } = some (.ok ans') ∧
        ans'.ret.get? "eccentricity" = some ve ∧ ans'.ret.get? "mean_anomaly" = some va ∧
        ans'.ret.get? "tref_out" = some x := by
  obtain ⟨r⟩ := run_ok hrun
  obtain ⟨m, hm⟩ := measured r hzero
  obtain ⟨f⟩ := finish_ok r.h_finish
  obtain ⟨hav, ⟨_, h1, _⟩ | ⟨_, h1, hd⟩⟩ := dispatch_cases r.h_dispatch
  · rw [hasked] at h1; cases h1
  have href : ans.built.obj.refIn = asked := by
    have : ans.built.obj.refIn = r.ref := congrArg (fun b => b.obj.refIn) f.eq
    rw [this]
    exact Option.some.inj (h1.symm.trans hasked)
  have hdom : ans.built.obj.domain = .frequency := (congrArg (fun b => b.obj.domain) f.eq).trans hd
  have horbits : f.orbits = none := by
    have hz : f.useOnly = .leaf .none := by
      have := f.given "use_only_these_many_orbits"
      rw [r.inForce _ (by decide), inForce_eq, getItem_ok f.h_useOnly, horb] at this
      exact Option.some.inj this
    have := f.h_orbits
    rw [hz] at this
    exact (Except.ok.inj this).symm
  have hmea := r.h_measure
  rw [hm] at hmea
  obtain ⟨ve, va, vr, x, tAvg, wAvg, ret', hret, hx, hom, hinc, ho, hts, hmea', hret'⟩ := measure_atTimes hdom hmea
  have e1 : ans.built.ext.pi = lib.wave.pi := congrArg (fun b => b.ext.pi) f.eq
  have e2 : ans.built.ext.eval = lib.eval := congrArg (fun b => b.ext.eval) f.eq
  have e3 : ans.built.ext.argsort = lib.argsort := congrArg (fun b => b.ext.argsort) f.eq
  have e4 : ans.built.obj.avgMethod = f.avg.name := congrArg (fun b => b.obj.avgMethod) f.eq
  have e5 : ans.built.obj.generalKw = f.general := congrArg (fun b => b.obj.generalKw) f.eq
  have hgiven : Spec.inForce extraDefaults a.extra "omega_gw_averaging_method" = some f.avg := by
    rw [← r.inForce _ (by decide), ← f.given, getItem_ok f.h_avg]
  have hname : ∀ n : String, n ≠ "" → f.avg.name = n → f.avg = .leaf (.str n) := by
    intro n hn h
    cases hv : f.avg with
    | dict d => rw [hv] at h; exact absurd h.symm hn
    | leaf l =>
      cases l <;> rw [hv] at h <;> first | exact absurd h.symm hn | (rw [← h]; rfl)
  have hk := retDict_get .frequency ve va vr
  have hk' := retDict_get .time ve va x
  refine ⟨m, ve, va, vr, x, hm, by rw [hret]; exact hk.1, by rw [hret]; exact hk.2.1, by rw [hret]; exact (hk.2.2.2 rfl).1,
    by rw [hx, href], ⟨f.general.k, tAvg, wAvg, splineOrder (by rw [f.given, r.inForce _ (by decide)]) f.h_general f.h_spline,
    hinc, ?_, ?_⟩, ?_⟩
  · have h28 := C28_methods _ m (by rw [e3]; exact hsort) _ _ _ hom
    rw [e4, ho, e5, e2] at h28
    rw [hgiven, ho]
    obtain ⟨h, h'⟩ | ⟨h, h'⟩ | ⟨h, h'⟩ := h28
    · exact Or.inl ⟨congrArg some (hname _ (by decide) h), h'⟩
    · exact Or.inr (Or.inl ⟨congrArg some (hname _ (by decide) h), h'⟩)
    · exact Or.inr (Or.inr ⟨congrArg some (hname _ (by decide) h), h'⟩)
  · rw [e1, e2, e5] at hts
    exact hts
  · have hdisp : dispatch { a with trefIn := some x, frefIn := none } = .ok (r.c, .time, x) := by
      have h := r.h_dispatch
      unfold dispatch at h ⊢
      dsimp only
      split at h
      · rename_i hh
        rw [if_pos hh]
        obtain ⟨c', h1', h⟩ := bind_ok h
        obtain ⟨⟨d, v⟩, h2', h⟩ := bind_ok h
        cases h
        rw [h1', ok_bind]
        unfold initReference at h2' ⊢
        obtain ⟨q, _, h2'⟩ := bind_ok h2'
        split at h2'
        · rename_i hfr
          simp only [pure_eq_ok, ok_bind, if_pos hfr]
        · cases h2'
      · cases h
    have rn : Ran fuel lib { a with trefIn := some x, frefIn := none }
        ⟨ret', { ans.built with obj := ans.built.obj.atTimes x }, some { m with o := ans.built.obj.atTimes x }⟩ :=
      { c := r.c, domain := .time, ref := x, nd := r.nd, an := r.an, loaded := r.loaded, clean := r.clean, filtered := r.filtered,
        extra := r.extra, cache := none, h_dispatch := hdisp, h_load := r.h_load, h_filter := r.h_filter,
        h_finish := finish_atTimes f horbits x, h_measure := hmea' }
    exact ⟨_, rn.to_run, by rw [hret']; exact hk'.1, by rw [hret']; exact hk'.2.1, by rw [hret']; exact (hk'.2.2.1 rfl).1⟩

/-- The interpolation library passes through the points it is given. -/
def ThroughPoints (lib : Libs K C) : Prop :=
  ∀ (k i : ℕ) (x y : List K) (u v z : K), x.Pairwise (· < ·) → x[i]? = some u → y[i]? = some v →
    lib.eval (.spline k 2) x y u = .ok z → z = v

/-- The interpolation library puts a constant through points of equal height. -/
def KeepsConstants (lib : Libs K C) : Prop :=
  ∀ (k : ℕ) (x y : List K) (c u z : K), x.Pairwise (· < ·) → (∀ v ∈ y, v = c) → lib.eval (.spline k 2) x y u = .ok z → z = c

/-- One frequency asked for, with the average over orbits.  If the average frequency at a sample is exactly the frequency asked for,
asking for the time of the sample returns the same eccentricity and mean anomaly. -/
theorem C119_sampled {fuel : ℕ} {lib : Libs K C} {a : Call K C} {ans : Answer K C} {f : K}
    (hrun : run fuel lib a = some (.ok ans)) (hpi : 0 < lib.wave.pi) (hsort : ∀ l, Sorts l (lib.argsort l)) (hlib : ThroughPoints lib)
    (hasked : a.frefIn = some (.scalar f))
    (hzero : (a.extra.getD []).get? "return_zero_if_small_ecc_failure" = none)
    (horb : (a.extra.getD []).get? "use_only_these_many_orbits" = none)
    (havg : (a.extra.getD []).get? "omega_gw_averaging_method" = none) :
    ∃ m ve va vr, ans.meas = some m ∧ ans.ret.get? "eccentricity" = some ve ∧ ans.ret.get? "mean_anomaly" = some va ∧
      ans.ret.get? "fref_out" = some vr ∧
      ∃ (k : ℕ) (tAvg wAvg : List K) (pts : List (K × K)), SplineOrder a "general_interp_kwargs" k ∧ wAvg.Pairwise (· < ·) ∧
        pts.Perm (OrbitPoints m.o.phase m.o.t m.apocenters ++ OrbitPoints m.o.phase m.o.t m.pericenters) ∧
        (pts.map (·.1)).Pairwise (· < ·) ∧
        List.Forall₂ (fun t w => lib.eval (.spline (min k (pts.length - 1)) 2) (pts.map (·.1)) (pts.map (·.2)) t = .ok w) tAvg wAvg ∧
        ∀ (i : ℕ) (t : K), tAvg[i]? = some t → wAvg[i]? = some (2 * lib.wave.pi * f) →
          ∃ ans' : Answer K C, run fuel lib { a with trefIn := some (.scalar t), frefIn := none } = some (.ok ans') ∧
            ans'.ret.get? "eccentricity" = some ve ∧ ans'.ret.get? "mean_anomaly" = some va ∧
            ans'.ret.get? "tref_out" = some (.scalar t) := by
  obtain ⟨m, ve, va, vr, x, hm, g1, g2, g3, hx, ⟨k, tAvg, wAvg, hord, hinc, hcase, hts⟩, ans', hrun', r1, r2, r3⟩ :=
    C119_call hrun hsort hasked hzero horb
  have hforce : Spec.inForce extraDefaults a.extra "omega_gw_averaging_method" =
      some (.leaf (.str "orbit_averaged_omega_gw") : Opt K) := by
    rw [inForce_eq, havg]; rfl
  rw [hforce] at hcase
  obtain ⟨_, pts, h1, h2, h3⟩ | ⟨h, _⟩ | ⟨h, _⟩ := hcase
  swap
  · simp at h
  swap
  · simp at h
  refine ⟨m, ve, va, vr, hm, g1, g2, g3, k, tAvg, wAvg, pts, hord, hinc, h1, h2, h3, fun i t hi hw => ?_⟩
  have hvr : vr.atleast1d = [f] := by
    obtain ⟨r⟩ := run_ok hrun
    have hmea := r.h_measure
    obtain ⟨fin⟩ := finish_ok r.h_finish
    obtain ⟨_, ⟨_, h1, _⟩ | ⟨_, h1, hd⟩⟩ := dispatch_cases r.h_dispatch
    · rw [hasked] at h1; cases h1
    have hdom : ans.built.obj.domain = .frequency := (congrArg (fun b => b.obj.domain) fin.eq).trans hd
    have href : ans.built.obj.refIn = .scalar f := by
      have : ans.built.obj.refIn = r.ref := congrArg (fun b => b.obj.refIn) fin.eq
      rw [this]
      exact Option.some.inj (h1.symm.trans hasked)
    rw [hm] at hmea
    obtain ⟨v, _, _, _, _, hv, _, _, _, _, _, hne, hv', _⟩ := frequency_measured hdom hmea
    rw [g3] at hv
    cases hv
    rw [hv', href] at hne ⊢
    show List.filter _ [f] = [f]
    have hne : List.filter _ [f] ≠ [] := hne
    rw [List.filter_cons] at hne ⊢
    split
    · rfl
    · rename_i hc
      rw [if_neg hc] at hne
      exact absurd rfl hne
  rw [hvr] at hts
  obtain ⟨t', hx'⟩ : ∃ t', x = .scalar t' := by
    cases x with
    | scalar t' => exact ⟨t', rfl⟩
    | array _ => cases hx
  subst hx'
  have hpi2 : (2 * lib.wave.pi) ≠ 0 := by positivity
  have ht : t' = t := by
    have h0 : List.Forall₂ _ [f] [t'] := hts
    cases h0 with
    | cons h _ =>
      refine hlib _ i _ _ f t t' ?_ ?_ hi h
      · rw [List.pairwise_map]
        exact hinc.imp fun h => div_lt_div_of_pos_right h (by positivity)
      · rw [List.getElem?_map, hw, Option.map_some]
        congr 1
        field_simp
  subst ht
  exact ⟨ans', hrun', r1, r2, r3⟩

/-- A call with reference frequencies and the average over orbits only returns if the average frequency of the orbits is not always
the same. -/
theorem C120_chirp {fuel : ℕ} {lib : Libs K C} {a : Call K C} {ans : Answer K C} {asked : Val K}
    (hrun : run fuel lib a = some (.ok ans)) (hpi : 0 < lib.wave.pi) (hsort : ∀ l, Sorts l (lib.argsort l)) (hlib : KeepsConstants lib)
    (hpr : a.precessing = .isFalse) (hasked : a.frefIn = some asked) (hdict : ProperDicts a.dataDict)
    (harrays : ∀ t A φ w, Dominant lib.wave a.dataDict t A φ w → ProperArrays t A φ w) (hpeaks : PeakFinder lib)
    (hmethod : a.method ≠ "AmplitudeFits" ∧ a.method ≠ "FrequencyFits")
    (hzero : (a.extra.getD []).get? "return_zero_if_small_ecc_failure" = none)
    (havg : (a.extra.getD []).get? "omega_gw_averaging_method" = none) :
    ∃ t A φ w p q fP fA, Apsides lib a ans.built.analysis.width t A φ w p q fP fA ∧
      ∃ o ∈ OrbitPoints φ t q ++ OrbitPoints φ t p, ∃ o' ∈ OrbitPoints φ t q ++ OrbitPoints φ t p, o.2 ≠ o'.2 := by
  obtain ⟨t, A, φ, w, p, q, fP, fA, ve, va, vr, hA, _, _, _, _, _, _, hne, pts, k, tAvg, wAvg, ts, lo, hi, _, hperm, hsorted, _,
    hinc, hev, hlo, hhi, hkeep, _⟩ := C89_frequencies hrun hpi hsort hpr hasked hdict harrays hpeaks hmethod hzero havg
  refine ⟨t, A, φ, w, p, q, fP, fA, hA, ?_⟩
  by_contra hcon
  push Not at hcon
  have hall : ∃ c, ∀ v ∈ pts.map (·.2), v = c := by
    cases hp : OrbitPoints φ t q ++ OrbitPoints φ t p with
    | nil =>
      refine ⟨0, fun v hv => ?_⟩
      obtain ⟨o, ho, _⟩ := List.mem_map.mp hv
      have := hperm.mem_iff.mp ho
      rw [hp] at this
      cases this
    | cons o l =>
      refine ⟨o.2, fun v hv => ?_⟩
      obtain ⟨o', ho, rfl⟩ := List.mem_map.mp hv
      exact hcon o' (hperm.mem_iff.mp ho) o (by rw [hp]; exact List.mem_cons_self)
  obtain ⟨c, hc⟩ := hall
  have hwc : ∀ y ∈ wAvg, y = c := by
    intro y hy
    obtain ⟨x, _, hx⟩ : ∃ x ∈ tAvg, lib.eval (.spline (min k (pts.length - 1)) 2) (pts.map (·.1)) (pts.map (·.2)) x = .ok y := by
      clear * - hev hy
      induction hev with
      | nil => cases hy
      | cons h _ ih =>
        rcases List.mem_cons.mp hy with rfl | hy
        · exact ⟨_, List.mem_cons_self, h⟩
        · obtain ⟨x, hx, hx'⟩ := ih hy
          exact ⟨x, List.mem_cons_of_mem _ hx, hx'⟩
    exact hlib _ _ _ c x y hsorted hc hx
  have h1 := hwc _ (List.mem_of_mem_head? hlo)
  have h2 := hwc _ (List.mem_of_getLast? hhi)
  have hpi2 : (2 * lib.wave.pi) ≠ 0 := by positivity
  have hlohi : lo = hi := mul_left_cancel₀ hpi2 (h1.trans h2.symm)
  apply hne
  rw [hkeep (fun _ => false) (fun f => by simp [hlohi])]
  simp

/-- C107: at the strict level no call with reference frequencies returns if `use_only_these_many_orbits` is true in a condition,
as every number but 0 is: finding the range of frequencies gives a message about that option. -/
theorem C107_strict_frequencies {fuel : ℕ} {lib : Libs K C} {a : Call K C} {r : Py (Answer K C)} {asked : Val K} {v : Opt K}
    (hrun : run fuel lib a = some r) (h2 : a.level = 2) (hasked : a.frefIn = some asked)
    (hzero : (a.extra.getD []).get? "return_zero_if_small_ecc_failure" = none)
    (hv : (a.extra.getD []).get? "use_only_these_many_orbits" = some v) (htrue : v.truth = true) : ∃ e, r = .error e := by
  cases r with
  | error e => exact ⟨e, rfl⟩
  | ok ans =>
    exfalso
    obtain ⟨r⟩ := run_ok hrun
    obtain ⟨m, hm⟩ := measured r hzero
    obtain ⟨f⟩ := finish_ok r.h_finish
    obtain ⟨_, ⟨_, h1, _⟩ | ⟨_, h1, hd⟩⟩ := dispatch_cases r.h_dispatch
    · rw [hasked] at h1; cases h1
    have hdom : ans.built.obj.domain = .frequency := (congrArg (fun b => b.obj.domain) f.eq).trans hd
    have hlevel : ans.built.obj.level = 2 := (congrArg (fun b => b.obj.level) f.eq).trans h2
    have huse : ans.built.obj.useOnly = true := by
      have e : ans.built.obj.useOnly = f.orbits.isSome := congrArg (fun b => b.obj.useOnly) f.eq
      have hz : f.useOnly = v := by
        have := f.given "use_only_these_many_orbits"
        rw [r.inForce _ (by decide), inForce_eq, getItem_ok f.h_useOnly, hv] at this
        exact Option.some.inj this
      have h3 := f.h_orbits
      rw [hz] at h3
      unfold orbitsOption at h3
      rw [if_pos htrue] at h3
      cases v with
      | dict _ => cases h3
      | leaf l =>
        obtain ⟨x, _, h3⟩ := bind_ok h3
        rw [e, ← Except.ok.inj h3]; rfl
    have hmea := r.h_measure
    rw [hm] at hmea
    obtain ⟨p, q, lacking, _, ⟨hn, _⟩ | ⟨m', p', a', hmo, _, _, hp, hev⟩⟩ := measureEcc_ok hmea
    · cases hn
    cases hmo
    have ho := (prepare_ok hp).1
    obtain ⟨trefIn, fOut, trefOut, ecc, ano, hr, _⟩ := evaluate_ok hev
    obtain ⟨_, c, ts, w, hf, _⟩ := trefFromFref_ok (referenceTimes_frequency (by rw [ho]; exact hdom) hr)
    obtain ⟨lo, hi, hb, _⟩ := frefOut_ok hf
    obtain ⟨avg, mn, mx, _, _, _, _, _, _, hmsg⟩ := frefBounds_ok hb
    obtain ⟨out, hout⟩ := hmsg (by rw [ho]; exact huse)
    rw [ho, hlevel] at hout
    cases hout

end

/-! The premises are met: linear interpolation passes through its points and keeps constants, and so does scipy's spline. -/

theorem npInterp_through {K : Type} [Field K] [LinearOrder K] [IsStrictOrderedRing K] {u v z : K} : ∀ {x y : List K} {i : ℕ},
    x.Pairwise (· < ·) → x[i]? = some u → y[i]? = some v → npInterp u (x.zip y) = .ok z → z = v
  | [], _, _, _, h, _, _ => by simp at h
  | _ :: _, [], _, _, _, h, _ => by simp at h
  | [x0], y0 :: y, i, _, h, h', hz => by
    cases i with
    | zero => cases h; cases h'; exact (Except.ok.inj hz).symm
    | succ i => simp at h
  | x0 :: x1 :: x, [y0], i, _, h, h', hz => by
    cases i with
    | zero => cases h; cases h'; exact (Except.ok.inj hz).symm
    | succ i => simp at h'
  | x0 :: x1 :: x, y0 :: y1 :: y, i, hs, h, h', hz => by
    rw [List.zip_cons_cons, List.zip_cons_cons] at hz
    unfold npInterp at hz
    cases i with
    | zero =>
      cases h; cases h'
      rw [if_pos le_rfl] at hz
      exact (Except.ok.inj hz).symm
    | succ i =>
      rw [List.getElem?_cons_succ] at h h'
      obtain ⟨hs1, hs2⟩ := List.pairwise_cons.mp hs
      have hlt := hs1 u (List.mem_of_getElem? h)
      rw [if_neg (not_le.mpr hlt)] at hz
      have hge : ¬ u < x1 := by
        cases i with
        | zero => cases h; exact lt_irrefl _
        | succ i =>
          rw [List.getElem?_cons_succ] at h
          exact not_lt.mpr ((List.pairwise_cons.mp hs2).1 u (List.mem_of_getElem? h)).le
      rw [if_neg hge] at hz
      exact npInterp_through hs2 h h' (by rw [List.zip_cons_cons]; exact hz)

theorem npInterp_const {K : Type} [Field K] [LinearOrder K] [IsStrictOrderedRing K] {u c z : K} : ∀ {l : List (K × K)},
    (∀ q ∈ l, q.2 = c) → npInterp u l = .ok z → z = c
  | [], _, h => by cases h
  | [q], hl, h => by rw [← Except.ok.inj h]; exact hl q (by simp)
  | q0 :: q1 :: l, hl, h => by
    have e0 := hl q0 (by simp)
    have e1 := hl q1 (by simp)
    unfold npInterp at h
    split at h
    · rw [← Except.ok.inj h]; exact e0
    split at h
    · rw [← Except.ok.inj h, e0, e1]; ring
    · exact npInterp_const (fun q hq => hl q (List.mem_cons_of_mem _ hq)) h

theorem scipy_throughPoints {C : Type} {lib : Libs ℝ C} (h : lib.eval = scipyEval) : ThroughPoints lib := by
  intro k i x y u v z _ hu hv hz
  rw [h] at hz
  obtain ⟨s1, s2, s3, s4, s5, s6⟩ := scipyEval_ok hz
  obtain ⟨F, hF, hy⟩ := C115_exists s1 s2 s3 s5
  have := scipyEval_spline s1 s2 s3 s4 s5 hF hy (ext := 2) (by omega) (s6 rfl)
  rw [Except.ok.inj (hz.symm.trans this)]
  refine hy (u, v) (List.mem_of_getElem? (i := i) ?_)
  rw [List.getElem?_zip_eq_some]
  exact ⟨hu, hv⟩

theorem scipy_keepsConstants {C : Type} {lib : Libs ℝ C} (h : lib.eval = scipyEval) : KeepsConstants lib := by
  intro k x y c u z _ hc hz
  rw [h] at hz
  obtain ⟨s1, s2, s3, s4, s5, s6⟩ := scipyEval_ok hz
  have hF : IsSpline k (Breaks k x) fun _ => c := ⟨contDiff_const, fun _ _ _ => ⟨Polynomial.C c, Polynomial.degree_C_le.trans (by positivity),
    fun _ _ _ => (Polynomial.eval_C).symm⟩⟩
  have hy : PassesThrough x y fun _ => c := fun p hp => (hc _ (List.of_mem_zip hp).2).symm
  exact Except.ok.inj (hz.symm.trans (scipyEval_spline s1 s2 s3 s4 s5 hF hy (ext := 2) (by omega) (s6 rfl)))

theorem RunDemo.throughPoints : ThroughPoints RunDemo.lib := fun _ _ _ _ _ _ _ h h1 h2 h3 => npInterp_through h h1 h2 h3

theorem RunDemo.keepsConstants : KeepsConstants RunDemo.lib := fun _ _ _ _ _ _ _ h h1 =>
  npInterp_const (fun q hq => h q.2 (List.of_mem_zip hq).2) h1

namespace RunDemo

/-- One frequency asked for. -/
def callS : Call ℚ (ℚ × ℚ) := { call with trefIn := none, frefIn := some (.scalar (2 / 3)) }

theorem callS_ok : (run 60 lib callS).map (fun r => r.toOption.isSome) = some true := by decide +kernel

end RunDemo

example : ∃ ans : Answer ℚ (ℚ × ℚ), run 60 RunDemo.lib RunDemo.callS = some (.ok ans) ∧ 0 < RunDemo.lib.wave.pi ∧
    (∀ l, Sorts l (RunDemo.lib.argsort l)) ∧ ThroughPoints RunDemo.lib ∧ KeepsConstants RunDemo.lib ∧
    RunDemo.callS.frefIn = some (.scalar (2 / 3)) ∧ RunDemo.callS.precessing = .isFalse ∧ ProperDicts RunDemo.callS.dataDict ∧
    (∀ t A φ w, Dominant RunDemo.lib.wave RunDemo.callS.dataDict t A φ w → ProperArrays t A φ w) ∧
    PeakFinder RunDemo.lib ∧ RunDemo.callS.method = "Amplitude" ∧ RunDemo.callS.extra = none := by
  obtain ⟨r, hr, h⟩ := Option.map_eq_some_iff.mp RunDemo.callS_ok
  cases r with
  | error e => cases h
  | ok ans => exact ⟨ans, hr, by decide +kernel, demo_sorts, RunDemo.throughPoints, RunDemo.keepsConstants, rfl, rfl,
      RunDemo.data_proper, fun _ _ _ _ h => RunDemo.arrays_proper h, RunDemo.peakFinder, rfl, rfl⟩

namespace RunDemo

/-- Frequencies asked for, with a few orbits around them. -/
def callO (level : ℤ) : Call ℚ (ℚ × ℚ) :=
  { callF with level := level, extra := some [("use_only_these_many_orbits", .leaf (.int 4))] }

end RunDemo

example : ∃ r : Py (Answer ℚ (ℚ × ℚ)), run 60 RunDemo.lib (RunDemo.callO 2) = some r ∧ (RunDemo.callO 2).level = 2 ∧
    (RunDemo.callO 2).frefIn = some (.array [13 / 20, 2 / 3]) ∧
    ((RunDemo.callO 2).extra.getD []).get? "return_zero_if_small_ecc_failure" = none ∧
    ((RunDemo.callO 2).extra.getD []).get? "use_only_these_many_orbits" = some (.leaf (.int 4)) ∧
    (Opt.leaf (.int 4) : Opt ℚ).truth = true := by
  have : (run 60 RunDemo.lib (RunDemo.callO 2)).isSome = true := by decide +kernel
  obtain ⟨r, hr⟩ := Option.isSome_iff_exists.mp this
  exact ⟨r, hr, rfl, rfl, rfl, rfl, by decide +kernel⟩

/-- With two frequencies asked for, the call the theorem speaks of: the times it gives the frequencies, and what asking there gives. -/
example : ∃ ans : Answer ℚ (ℚ × ℚ), run 60 RunDemo.lib RunDemo.callF = some (.ok ans) ∧ (∀ l, Sorts l (RunDemo.lib.argsort l)) ∧
    RunDemo.callF.frefIn = some (.array [13 / 20, 2 / 3]) ∧
    (RunDemo.callF.extra.getD []).get? "return_zero_if_small_ecc_failure" = none ∧
    (RunDemo.callF.extra.getD []).get? "use_only_these_many_orbits" = none := by
  obtain ⟨r, hr, h⟩ := Option.map_eq_some_iff.mp RunDemo.callF_ok
  cases r with
  | error e => cases h
  | ok ans => exact ⟨ans, hr, demo_sorts, rfl, rfl, rfl⟩

end GwEcc
