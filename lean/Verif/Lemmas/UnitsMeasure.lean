import Verif.Lemmas.Units

set_option linter.unusedSectionVars false

namespace GwEcc

open Spec

variable {K : Type} [Field K] [LinearOrder K] [IsStrictOrderedRing K]

/-- Two measurements of the same waveform in different units. -/
structure MeasRel (k c : K) (m m' : Meas K) : Prop where
  o : m'.o = newObj k c m.o
  per : m'.pericenters = m.pericenters
  apo : m'.apocenters = m.apocenters
  vper : ValidIdx m.o m.pericenters
  vapo : ValidIdx m.o m.apocenters
  tPeri : m'.tPeri = m.tPeri.map (newTime k c)
  tApo : m'.tApo = m.tApo.map (newTime k c)
  tmin : m'.tmin = newTime k c m.tmin
  tmax : m'.tmax = newTime k c m.tmax
  tChecks : m'.tChecks = m.tChecks.map (newTime k c)
  interpP : ∀ u, m'.interpP (newTime k c u) = (m.interpP u).map (newFreq k)
  interpA : ∀ u, m'.interpA (newTime k c u) = (m.interpA u).map (newFreq k)

/-- `UnitFree` without the rational fit. -/
structure UnitFree0 (e : Ext K) (k c : K) : Prop where
  pi : 0 < e.pi
  tol : 0 ≤ e.tol
  eccOf : ∀ wp wa, e.eccOf (newFreq k wp) (newFreq k wa) = e.eccOf wp wa
  evalFreq : ∀ call x y u, e.eval call (x.map (newTime k c)) (y.map (newFreq k)) (newTime k c u)
    = (e.eval call x y u).map (newFreq k)
  evalTime : ∀ call x y u, (∃ a ∈ x, a ≤ u) → (∃ b ∈ x, u ≤ b) → e.eval call (x.map (newFreq k)) (y.map (newTime k c)) (newFreq k u)
    = (e.eval call x y u).map (newTime k c)
  deriv : ∀ call x y u, e.deriv call (x.map (newTime k c)) y (newTime k c u) = (e.deriv call x y u).map (newFreq k)
  argsort : ∀ l, e.argsort (l.map (newTime k c)) = e.argsort l
  argsortRange : ∀ l, ∀ i ∈ e.argsort l, i < l.length

/-- The rational fits in the old and in the new units. -/
def FitFree (k c : K) (fit fit' : ExtType → List K → List K → List K → List K → Py (K → Py K)) : Prop :=
  ∀ ty x y x' y', (∀ f, fit ty x y x' y' = .ok f → ∃ f', fit' ty (x.map (newTime k c)) (y.map (newFreq k))
      (x'.map (newTime k c)) (y'.map (newFreq k)) = .ok f' ∧ ∀ u, f' (newTime k c u) = (f u).map (newFreq k)) ∧
    (∀ err, fit ty x y x' y' = .error err → fit' ty (x.map (newTime k c)) (y.map (newFreq k))
      (x'.map (newTime k c)) (y'.map (newFreq k)) = .error err)

omit [IsStrictOrderedRing K] in
theorem Spec.UnitFree.base {e : Ext K} {k c : K} (h : UnitFree e k c) : UnitFree0 e k c :=
  ⟨h.pi, h.tol, h.eccOf, h.evalFreq, h.evalTime, h.deriv, h.argsort, h.argsortRange⟩

variable {k : K} (hk : 0 < k) (c : K) {e : Ext K} (hu : UnitFree0 e k c)
include hk hu

theorem extremaInterpolant_rel {fit' : ExtType → List K → List K → List K → List K → Py (K → Py K)} (hfit : FitFree k c e.ratFit fit')
    (o : Obj K) (ty : ExtType) (p a : List ℕ) (vp : ValidIdx o p) (va : ValidIdx o a) (tC : List K) :
    PyRel (fun f f' => ∀ u, f' (newTime k c u) = (f u).map (newFreq k)) (extremaInterpolant e o ty p a tC)
      (extremaInterpolant { e with ratFit := fit' } (newObj k c o) ty p a (tC.map (newTime k c))) := by
  unfold extremaInterpolant
  refine PyRel.ite Iff.rfl (fun _ _ => ?_) fun _ _ => .error _
  have hv : ValidIdx o (ty.pick p a) := by cases ty <;> assumption
  have e1 : ∀ ext, ValidIdx o ext → takeAt (newObj k c o).t ext = (takeAt o.t ext).map (newTime k c) :=
    fun _ hv => takeAt_map (Or.inl hv)
  have e2 : ∀ ext, takeAt (newObj k c o).omega ext = (takeAt o.omega ext).map (newFreq k) :=
    fun _ => takeAt_map (Or.inr (newFreq_zero k))
  simp only [e1 _ hv, e1 _ vp, e1 _ va, e2]
  refine PyRel.bind (R := fun f f' => ∀ u, f' (newTime k c u) = (f u).map (newFreq k)) ?_ fun f f' hf => ?_
  · show PyRel _ (if o.interpMethod = "rational_fit" then _ else _) (if o.interpMethod = "rational_fit" then _ else _)
    refine PyRel.ite Iff.rfl (fun _ _ => ?_) fun _ _ => ?_
    · have := hfit ty (takeAt o.t p) (takeAt o.omega p) (takeAt o.t a) (takeAt o.omega a)
      cases hr : e.ratFit ty (takeAt o.t p) (takeAt o.omega p) (takeAt o.t a) (takeAt o.omega a) with
      | error err => rw [this.2 err hr]; exact .error _
      | ok f =>
        obtain ⟨f', hf', hff⟩ := this.1 f hr
        rw [hf']; exact .ok hff
    · refine PyRel.ite Iff.rfl (fun _ _ => ?_) fun _ _ => .error _
      rw [getInterpolant_map (fun x y => newTime_lt hk c)]
      refine PyRel.bind (PyRel.refl (R := Eq) (fun _ => rfl) _) fun r r' hr => ?_
      subst hr
      exact .ok fun u => hu.evalFreq _ _ _ _
  · refine PyRel.bind (PyRel.mapM (g := newFreq k) tC fun x _ => PyRel.of_map (hf x)) fun v v' hv' => ?_
    subst hv'
    refine PyRel.bind (notStrictlyMonotonic_rel k hk c _ _ _) fun b b' hb => ?_
    subst hb
    refine PyRel.bind (PyRel.refl (R := Eq) (fun _ => rfl) _) fun _ _ _ => ?_
    exact .ok hf

theorem prepare_rel {fit' : ExtType → List K → List K → List K → List K → Py (K → Py K)} (hfit : FitFree k c e.ratFit fit')
    (o : Obj K) (p a : List ℕ) (vp : ValidIdx o p) (va : ValidIdx o a) :
    PyRel (fun m m' => MeasRel k c m m' ∧ m.o = o) (prepare e o p a)
      (prepare { e with ratFit := fit' } (newObj k c o) p a) := by
  unfold prepare
  have e1 : takeAt (newObj k c o).t p = (takeAt o.t p).map (newTime k c) := takeAt_map (Or.inl vp)
  have e2 : takeAt (newObj k c o).t a = (takeAt o.t a).map (newTime k c) := takeAt_map (Or.inl va)
  simp only [e1, e2]
  refine PyRel.bind (PyRel.pyLast (s := newTime k c) _) fun p1 p1' h1 => ?_
  refine PyRel.bind (PyRel.pyLast (s := newTime k c) _) fun a1 a1' h2 => ?_
  refine PyRel.bind (PyRel.pyGet (s := newTime k c) _ 0) fun p0 p0' h3 => ?_
  refine PyRel.bind (PyRel.pyGet (s := newTime k c) _ 0) fun a0 a0' h4 => ?_
  subst h1 h2 h3 h4
  have hmin : min (newTime k c p1) (newTime k c a1) = newTime k c (min p1 a1) := ((newTime_mono hk c).map_min).symm
  have hmax : max (newTime k c p0) (newTime k c a0) = newTime k c (max p0 a0) := ((newTime_mono hk c).map_max).symm
  rw [hmin, hmax]
  have ef : (newObj k c o).dataT.filter (fun x => decide (newTime k c (max p0 a0) ≤ x ∧ x ≤ newTime k c (min p1 a1)))
      = (o.dataT.filter (fun x => decide (max p0 a0 ≤ x ∧ x ≤ min p1 a1))).map (newTime k c) := by
    apply filter_map_of
    intro x
    simp only [newTime_le hk c]
  rw [ef]
  refine PyRel.bind (extremaInterpolant_rel hk c hu hfit o .pericenters p a vp va _) fun f f' hf => ?_
  refine PyRel.bind (extremaInterpolant_rel hk c hu hfit o .apocenters p a vp va _) fun g g' hg => ?_
  refine .ok ⟨⟨rfl, rfl, rfl, vp, va, rfl, rfl, rfl, rfl, rfl, hf, hg⟩, rfl⟩

omit hu in
theorem checkInputLimits_rel (ts : List K) (lo hi : K) :
    checkInputLimits (ts.map (newTime k c)) (newTime k c lo) (newTime k c hi) = checkInputLimits ts lo hi := by
  unfold checkInputLimits
  rw [any_map_of (P := fun x => decide (x > hi)) (fun x => by simp only [gt_iff_lt, newTime_lt hk c]),
    any_map_of (P := fun x => decide (x < lo)) (fun x => by simp only [newTime_lt hk c])]

omit hu in
theorem checkInputLimits_freq (ts : List K) (lo hi : K) :
    checkInputLimits (ts.map (newFreq k)) (newFreq k lo) (newFreq k hi) = checkInputLimits ts lo hi := by
  unfold checkInputLimits
  rw [any_map_of (P := fun x => decide (x > hi)) (fun x => by simp only [gt_iff_lt, newFreq_lt hk]),
    any_map_of (P := fun x => decide (x < lo)) (fun x => by simp only [newFreq_lt hk])]

theorem computeEccentricity_rel {m m' : Meas K} (hm : MeasRel k c m m') (ts : List K) :
    PyRel Eq (computeEccentricity e m ts) (computeEccentricity e m' (ts.map (newTime k c))) := by
  unfold computeEccentricity
  rw [hm.tmin, hm.tmax, checkInputLimits_rel hk c]
  refine PyRel.bind (PyRel.refl (R := Eq) (fun _ => rfl) _) fun _ _ _ => ?_
  refine PyRel.bind (PyRel.mapM (g := newFreq k) ts fun x _ => PyRel.of_map (hm.interpP x)) fun wp wp' h1 => ?_
  refine PyRel.bind (PyRel.mapM (g := newFreq k) ts fun x _ => PyRel.of_map (hm.interpA x)) fun wa wa' h2 => ?_
  subst h1 h2
  refine .ok ?_
  rw [List.zipWith_map]
  simp only [hu.eccOf]

omit hu in
theorem npInterp_rel (x : K) : ∀ l : List (K × K),
    npInterp (newTime k c x) (l.map fun q => (newTime k c q.1, q.2)) = npInterp x l
  | [] => rfl
  | [q] => rfl
  | q0 :: q1 :: l => by
    have ih := npInterp_rel x (q1 :: l)
    simp only [List.map_cons] at ih ⊢
    unfold npInterp
    rw [ih]
    simp only [newTime_le hk c, newTime_lt hk c]
    have e1 : newTime k c q1.1 - newTime k c q0.1 = k * (q1.1 - q0.1) := by unfold newTime; ring
    have e2 : newTime k c x - newTime k c q0.1 = k * (x - q0.1) := by unfold newTime; ring
    rw [e1, e2]
    have : (q1.2 - q0.2) / (k * (q1.1 - q0.1)) * (k * (x - q0.1)) = (q1.2 - q0.2) / (q1.1 - q0.1) * (x - q0.1) := by
      have : k ≠ 0 := hk.ne'
      rw [mul_comm k (q1.1 - q0.1), ← div_div, div_mul_eq_mul_div, mul_comm k (x - q0.1), ← mul_assoc,
        mul_div_assoc, div_self this, mul_one]
    rw [this]

theorem computeMeanAnomaly_rel [FloorRing K] {m m' : Meas K} (hm : MeasRel k c m m') (ts : List K) :
    PyRel Eq (computeMeanAnomaly e m ts) (computeMeanAnomaly e m' (ts.map (newTime k c))) := by
  unfold computeMeanAnomaly
  rw [hm.tmin, hm.tmax, checkInputLimits_rel hk c, hm.tPeri]
  refine PyRel.bind (PyRel.refl (R := Eq) (fun _ => rfl) _) fun _ _ _ => ?_
  refine PyRel.bind (PyRel.mapM (g := id) ts fun x _ => PyRel.of_map ?_) fun v v' h1 => ?_
  · rw [List.length_map, List.zip_map_left]
    rw [show (Prod.map (newTime k c) (id : K → K)) = (fun q : K × K => (newTime k c q.1, q.2)) from rfl,
      npInterp_rel hk c]
    cases npInterp x _ <;> rfl
  · rw [List.map_id] at h1
    subst h1
    exact .ok rfl

theorem checkMonotonicity_rel {m m' : Meas K} (hm : MeasRel k c m m') :
    PyRel Eq (checkMonotonicity e m) (checkMonotonicity e m') := by
  unfold checkMonotonicity derivativeOfEccentricity
  rw [hm.tChecks, hm.tmin, hm.tmax, checkInputLimits_rel hk c, hm.o]
  refine PyRel.bind (R := fun d d' => d' = d.map (newFreq k)) ?_ fun d d' hd => ?_
  · refine PyRel.bind (PyRel.refl (R := Eq) (fun _ => rfl) _) fun _ _ _ => ?_
    refine PyRel.bind (computeEccentricity_rel hk c hu hm _) fun ecc ecc' h => ?_
    subst h
    rw [getInterpolant_map (fun x y => newTime_lt hk c)]
    refine PyRel.bind (PyRel.refl (R := Eq) (fun _ => rfl) _) fun r r' h => ?_
    subst h
    exact PyRel.mapM _ fun x _ => PyRel.of_map (hu.deriv _ _ _ _)
  · subst hd
    rw [any_map_of (P := fun x => decide (x > 0)) (fun x => by
      rw [decide_eq_decide, gt_iff_lt, gt_iff_lt, ← newFreq_zero k, newFreq_lt hk, newFreq_zero])]
    exact PyRel.refl (fun _ => rfl) _

/-! ### Average frequency -/

omit hu in
theorem midTimes_rel (l : List K) : midTimes (l.map (newTime k c)) = (midTimes l).map (newTime k c) := by
  unfold midTimes
  rw [← List.map_dropLast, ← List.map_drop, List.zipWith_map, List.map_zipWith]
  congr 1
  funext a b
  unfold newTime; ring

omit hu in
theorem orbitAveraged_rel (o : Obj K) (ext : List ℕ) (hv : ValidIdx o ext) :
    orbitAveraged (newObj k c o) ext = (orbitAveraged o ext).map (newFreq k) := by
  unfold orbitAveraged
  have e1 : takeAt (newObj k c o).t ext = (takeAt o.t ext).map (newTime k c) := takeAt_map (Or.inl hv)
  have e2 : takeAt (newObj k c o).phase ext = takeAt o.phase ext := rfl
  rw [e1, e2, diff_newTime hk, List.zipWith_map_right, List.map_zipWith]
  congr 1
  funext a b
  unfold newFreq
  rw [mul_comm, div_div]

theorem tAverage_rel {m m' : Meas K} (hm : MeasRel k c m m') :
    tAverage e m' = ((tAverage e m).1.map (newTime k c), (tAverage e m).2) := by
  unfold tAverage
  have e1 : takeAt m'.o.t m'.apocenters = (takeAt m.o.t m.apocenters).map (newTime k c) := by
    rw [hm.o, hm.apo]; exact takeAt_map (Or.inl hm.vapo)
  have e2 : takeAt m'.o.t m'.pericenters = (takeAt m.o.t m.pericenters).map (newTime k c) := by
    rw [hm.o, hm.per]; exact takeAt_map (Or.inl hm.vper)
  simp only [e1, e2, midTimes_rel hk c, ← List.map_append, hu.argsort]
  rw [takeAt_map (Or.inl (hu.argsortRange _))]

omit hu in
theorem checkAverageIncreasing_rel (w : List K) :
    checkAverageIncreasing (w.map (newFreq k)) = checkAverageIncreasing w := by
  unfold checkAverageIncreasing
  rw [diff_newFreq hk, any_map_of (P := fun d => decide (d ≤ 0))]
  intro x
  rw [decide_eq_decide]
  constructor
  · intro h; by_contra hc; exact absurd (div_pos (not_le.mp hc) hk) (not_lt.mpr h)
  · intro h; exact div_nonpos_of_nonpos_of_nonneg h hk.le

theorem computeOrbitAveraged_rel {m m' : Meas K} (hm : MeasRel k c m m') (ts : List K)
    (hin : ∀ lo hi, npMin (tAverage e m).1 = .ok lo → npMax (tAverage e m).1 = .ok hi → ∀ x ∈ ts, lo ≤ x ∧ x ≤ hi) :
    PyRel (fun r r' => r' = r.map (newFreq k)) (computeOrbitAveraged e m ts)
      (computeOrbitAveraged e m' (ts.map (newTime k c))) := by
  have hT := tAverage_rel hk c hu hm
  unfold computeOrbitAveraged
  have e1 : orbitAveraged m'.o m'.pericenters = (orbitAveraged m.o m.pericenters).map (newFreq k) := by
    rw [hm.o, hm.per]; exact orbitAveraged_rel hk c _ _ hm.vper
  have e2 : orbitAveraged m'.o m'.apocenters = (orbitAveraged m.o m.apocenters).map (newFreq k) := by
    rw [hm.o, hm.apo]; exact orbitAveraged_rel hk c _ _ hm.vapo
  simp only [e1, e2, checkAverageIncreasing_rel hk, hT]
  refine PyRel.bind (PyRel.refl (R := Eq) (fun _ => rfl) _) fun _ _ _ => ?_
  refine PyRel.bind (PyRel.refl (R := Eq) (fun _ => rfl) _) fun _ _ _ => ?_
  rw [← List.map_append, takeAt_map (Or.inr (newFreq_zero k)), checkAverageIncreasing_rel hk]
  refine PyRel.bind (PyRel.refl (R := Eq) (fun _ => rfl) _) fun _ _ _ => ?_
  have ekw : m'.o.generalKw = m.o.generalKw := by rw [hm.o]; rfl
  rw [ekw]
  exact interpolate_rel (fun x y => newTime_lt hk c) _ (fun a x y u _ _ => hu.evalFreq a x y u) _ _ _ (Or.inr ⟨hu.tol, hin⟩) _ _ _

theorem averageTimes_rel {m m' : Meas K} (hm : MeasRel k c m m') (method : String) :
    PyRel (fun r r' => r' = r.map (newTime k c) ∧ (method = "orbit_averaged_omega_gw" →
        ∀ lo hi, npMin (tAverage e m).1 = .ok lo → npMax (tAverage e m).1 = .ok hi → ∀ x ∈ r, lo ≤ x ∧ x ≤ hi))
      (averageTimes e m method) (averageTimes e m' method) := by
  have hT := tAverage_rel hk c hu hm
  unfold averageTimes
  refine PyRel.bind (R := fun b b' => b' = (newTime k c b.1, newTime k c b.2) ∧ (method = "orbit_averaged_omega_gw" →
      ∀ lo hi, npMin (tAverage e m).1 = .ok lo → npMax (tAverage e m).1 = .ok hi → lo ≤ b.1 ∧ b.2 ≤ hi))
    ?_ fun b b' hb => ?_
  · refine PyRel.ite Iff.rfl (fun h _ => ?_) fun _ _ => ?_
    · exact .ok ⟨by rw [hm.tmin, hm.tmax], fun h' => absurd h' h⟩
    · rw [hT]
      refine PyRel.bind (npMin_rel (newTime_mono hk c) _) fun mn mn' h1 => ?_
      refine PyRel.bind (npMax_rel (newTime_mono hk c) _) fun mx mx' h2 => ?_
      obtain ⟨rfl, h1⟩ := h1
      obtain ⟨rfl, h2⟩ := h2
      refine .ok ⟨?_, ?_⟩
      · rw [hm.tmin, hm.tmax, ← (newTime_mono hk c).map_max, ← (newTime_mono hk c).map_min]
      · intro _ lo hi hlo hhi
        rw [h1] at hlo; rw [h2] at hhi
        injection hlo with hlo; injection hhi with hhi
        subst hlo hhi
        exact ⟨le_max_right _ _, min_le_right _ _⟩
  · obtain ⟨rfl, hb⟩ := hb
    refine .ok ⟨?_, ?_⟩
    · rw [hm.o]
      apply filter_map_of
      intro x
      simp only [newTime_le hk c]
    · intro h lo hi hlo hhi x hx
      have := (List.mem_filter.mp hx).2
      rw [decide_eq_true_eq] at this
      have hb := hb h lo hi hlo hhi
      exact ⟨hb.1.trans this.1, this.2.trans hb.2⟩

theorem omegaAverage_rel {m m' : Meas K} (hm : MeasRel k c m m') (method : String)
    (hz : method ≠ "omega_gw_zeroecc" ∨ e.tol = 0) :
    PyRel (fun r r' => r' = (r.1.map (newTime k c), r.2.map (newFreq k))) (omegaAverage e m (some method))
      (omegaAverage e m' (some method)) := by
  unfold omegaAverage
  simp only [Option.getD_some]
  refine PyRel.bind (averageTimes_rel hk c hu hm method) fun ts ts' hts => ?_
  obtain ⟨rfl, hin⟩ := hts
  refine PyRel.bind (R := fun r r' => r' = r.map (newFreq k)) ?_ fun w w' hw => .ok (by rw [hw])
  unfold evalAverage
  refine PyRel.ite Iff.rfl (fun _ _ => ?_) fun _ _ => ?_
  · unfold computeMeanOfInterpolants
    refine PyRel.bind (PyRel.mapM (g := newFreq k) ts fun x _ => PyRel.of_map (hm.interpP x)) fun wp wp' h1 => ?_
    refine PyRel.bind (PyRel.mapM (g := newFreq k) ts fun x _ => PyRel.of_map (hm.interpA x)) fun wa wa' h2 => ?_
    subst h1 h2
    refine .ok ?_
    rw [List.zipWith_map, List.map_zipWith]
    congr 1
    funext a b
    unfold newFreq; ring
  refine PyRel.ite Iff.rfl (fun h _ => ?_) fun _ _ => ?_
  · exact computeOrbitAveraged_rel hk c hu hm ts (hin h)
  refine PyRel.ite Iff.rfl (fun h _ => ?_) fun _ _ => .error _
  have htol : e.tol = 0 := hz.resolve_left (fun hc => hc h)
  unfold computeOmegaZeroecc
  rw [hm.o]
  cases hzz : m.o.zeroecc with
  | none => simp only [newObj, hzz, Option.map_none]; exact .error _
  | some z =>
    obtain ⟨tz, wz⟩ := z
    simp only [newObj, hzz, Option.map_some]
    exact interpolate_rel (fun x y => newTime_lt hk c) _ (fun a x y u _ _ => hu.evalFreq a x y u) _ _ _ (Or.inl htol) _ _ _

/-! ### Reference points and the result -/

theorem referenceTimes_rel {m m' : Meas K} (hm : MeasRel k c m m')
    (hz : m.o.avgMethod ≠ "omega_gw_zeroecc" ∨ e.tol = 0) :
    PyRel (fun r r' => r'.1 = r.1.map (newTime k c) ∧ r'.2.1 = r.2.1.map (newFreq k)) (referenceTimes e m none)
      (referenceTimes e m' none) := by
  unfold referenceTimes
  have hd : m'.o.domain = m.o.domain := by rw [hm.o]; rfl
  have hlist : m'.o.refIn.atleast1d = m.o.refIn.atleast1d.map (newRef k c m.o.domain) := by
    rw [hm.o]
    show (m.o.refIn.map _).atleast1d = _
    cases m.o.refIn <;> rfl
  rw [hd, hlist]
  cases hdd : m.o.domain with
  | time => exact .ok ⟨rfl, rfl⟩
  | frequency =>
    simp only
    have eavg : m'.o.avgMethod = m.o.avgMethod := by rw [hm.o]; rfl
    have elev : m'.o.level = m.o.level := by rw [hm.o]; rfl
    have euse : m'.o.useOnly = m.o.useOnly := by rw [hm.o]; rfl
    have ekw : m'.o.generalKw = m.o.generalKw := by rw [hm.o]; rfl
    have hav := omegaAverage_rel hk c hu hm m.o.avgMethod hz
    refine PyRel.bind (R := fun r r' => r'.1 = (r.1.1.map (newTime k c), r.1.2.map (newFreq k))) ?_
      fun r r' hr => ?_
    · unfold trefFromFref
      rw [eavg]
      refine PyRel.ite Iff.rfl (fun _ _ => ?_) fun _ _ => .error _
      refine PyRel.bind (R := fun r r' => r'.1 = r.1.map (newFreq k) ∧
          ∃ ts w mn mx, omegaAverage e m (some m.o.avgMethod) = .ok (ts, w) ∧ npMin w = .ok mn ∧ npMax w = .ok mx ∧
            ∀ f ∈ r.1, mn / 2 / e.pi ≤ f ∧ f < mx / 2 / e.pi) ?_ fun r r' hr => ?_
      · unfold frefOut frefBounds
        refine PyRel.bind (R := fun b b' => b'.1 = (newFreq k b.1.1, newFreq k b.1.2) ∧
          ∃ ts w mn mx, omegaAverage e m (some m.o.avgMethod) = .ok (ts, w) ∧ npMin w = .ok mn ∧ npMax w = .ok mx ∧
            b.1 = (mn / 2 / e.pi, mx / 2 / e.pi)) ?_ fun b b' hb => ?_
        · rw [euse, elev]
          refine PyRel.bind (PyRel.refl (R := Eq) (fun _ => rfl) _) fun _ _ _ => ?_
          simp only
          refine PyRel.bind (R := fun r r' => r' = (r.1.map (newTime k c), r.2.map (newFreq k)) ∧
            omegaAverage e m (some m.o.avgMethod) = .ok r) ?_ fun avg avg' ha => ?_
          · cases hav0 : omegaAverage e m (some m.o.avgMethod) with
            | error err =>
              rw [hav0] at hav
              generalize omegaAverage e m' (some m.o.avgMethod) = z at hav ⊢
              cases hav; exact .error _
            | ok r =>
              rw [hav0] at hav
              generalize omegaAverage e m' (some m.o.avgMethod) = z at hav ⊢
              cases hav with
              | ok hav => exact .ok ⟨hav, rfl⟩
          · obtain ⟨rfl, ha⟩ := ha
            refine PyRel.bind (npMin_rel (newFreq_mono hk) _) fun mn mn' h1 => ?_
            refine PyRel.bind (npMax_rel (newFreq_mono hk) _) fun mx mx' h2 => ?_
            obtain ⟨rfl, h1⟩ := h1
            obtain ⟨rfl, h2⟩ := h2
            refine .ok ⟨?_, avg.1, avg.2, mn, mx, ha, h1, h2, rfl⟩
            simp only [newFreq, Prod.mk.injEq]
            exact ⟨by ring, by ring⟩
        · obtain ⟨hb, ts, w, mn, mx, ha, h1, h2, hb2⟩ := hb
          obtain ⟨⟨lo, hi⟩, cc⟩ := b
          obtain ⟨⟨lo', hi'⟩, cc'⟩ := b'
          simp only [Prod.mk.injEq] at hb hb2
          obtain ⟨rfl, rfl⟩ := hb
          obtain ⟨rfl, rfl⟩ := hb2
          have ef : (m.o.refIn.atleast1d.map (newFreq k)).filter
                (fun f => decide (newFreq k (mn / 2 / e.pi) ≤ f ∧ f < newFreq k (mx / 2 / e.pi)))
              = (m.o.refIn.atleast1d.filter (fun f => decide (mn / 2 / e.pi ≤ f ∧ f < mx / 2 / e.pi))).map (newFreq k) :=
            filter_map_of (fun x => by simp only [newFreq_le hk, newFreq_lt hk]) _
          have er : newRef k c Domain.frequency = newFreq k := rfl
          simp only [er, ef, List.length_map, checkInputLimits_freq hk]
          refine PyRel.ite Iff.rfl (fun _ _ => ?_) fun _ _ => ?_
          · exact PyRel.bind (PyRel.refl (R := Eq) (fun _ => rfl) _) fun _ _ _ => .error _
          · refine .ok ⟨rfl, ts, w, mn, mx, ha, h1, h2, ?_⟩
            intro f hf
            simpa using (List.mem_filter.mp hf).2
      · obtain ⟨hr1, ts, w, mn, mx, ha, h1, h2, hin⟩ := hr
        obtain ⟨fOut, cc⟩ := r
        obtain ⟨fOut', cc'⟩ := r'
        simp only at hr1 hin ⊢
        subst hr1
        rw [ha] at hav ⊢
        generalize omegaAverage e m' (some m.o.avgMethod) = z at hav ⊢
        cases hav with
        | ok hav =>
        subst hav
        simp only [ok_bind]
        rw [checkAverageIncreasing_rel hk]
        refine PyRel.bind (PyRel.refl (R := Eq) (fun _ => rfl) _) fun _ _ _ => ?_
        have ew : (w.map (newFreq k)).map (· / (2 * e.pi)) = (w.map (· / (2 * e.pi))).map (newFreq k) := by
          rw [List.map_map, List.map_map]
          congr 1
          funext x
          simp only [Function.comp, newFreq]
          rw [div_right_comm]
        have hpi := hu.pi
        have h2pi : (0 : K) < 2 * e.pi := by positivity
        have hdiv : Monotone (fun x : K => x / (2 * e.pi)) := fun _ _ h => div_le_div_of_nonneg_right h h2pi.le
        rw [ew, ekw, elev]
        refine PyRel.bind (interpolate_rel (fun x y => newFreq_lt hk) _ hu.evalTime _ _ _
          (Or.inr ⟨hu.tol, ?_⟩) _ _ _) fun tr tr' htr => ?_
        · intro lo hi hlo hhi x hx
          have hx := hin x hx
          have hm1 := npMin_rel hdiv w
          have hm2 := npMax_rel hdiv w
          rw [h1, hlo] at hm1
          rw [h2, hhi] at hm2
          cases hm1 with
          | ok hm1 =>
          cases hm2 with
          | ok hm2 =>
          rw [hm1.1, hm2.1]
          rw [div_div, div_div] at hx
          exact ⟨hx.1, hx.2.le⟩
        · subst htr
          rw [diff_newTime hk, any_map_of (P := fun d => decide (d ≤ 0)) (fun x => by
            rw [decide_eq_decide]
            constructor
            · intro h; by_contra hc; exact absurd (mul_pos hk (not_le.mp hc)) (not_lt.mpr h)
            · intro h; exact mul_nonpos_of_nonneg_of_nonpos hk.le h)]
          refine PyRel.bind (PyRel.refl (R := Eq) (fun _ => rfl) _) fun _ _ _ => ?_
          exact .ok rfl
    · obtain ⟨⟨a, b⟩, cc⟩ := r
      obtain ⟨⟨a', b'⟩, cc'⟩ := r'
      simp only [Prod.mk.injEq] at hr
      exact .ok hr

omit hk hu in
theorem makeReturn_rel (d : Domain) (s : Bool) (ecc ano ref : List K) :
    PyRel (fun r r' => r' = newResult k c d r) (makeReturn d s ecc ano ref)
      (makeReturn d s ecc ano (ref.map (newRef k c d))) := by
  unfold makeReturn
  refine PyRel.bind (R := fun r r' => r' = (r.1, r.2.1, r.2.2.map (newRef k c d))) ?_ fun r r' hr => ?_
  · refine PyRel.ite Iff.rfl (fun _ _ => ?_) fun _ _ => .ok rfl
    refine PyRel.ite Iff.rfl (fun _ _ => .error _) fun _ _ => ?_
    refine PyRel.ite Iff.rfl (fun _ _ => .error _) fun _ _ => ?_
    refine PyRel.bind (PyRel.refl (R := Eq) (fun _ => rfl) _) fun _ _ h1 => ?_
    refine PyRel.bind (PyRel.refl (R := Eq) (fun _ => rfl) _) fun _ _ h2 => ?_
    refine PyRel.bind (PyRel.pyGet (s := newRef k c d) ref 0) fun _ _ h3 => ?_
    subst h1 h2 h3
    exact .ok rfl
  · subst hr
    obtain ⟨v1, v2, v3⟩ := r
    refine .ok ?_
    cases d <;> simp [newResult, Dict.set, Domain.key]

theorem evaluate_rel [FloorRing K] {m m' : Meas K} (hm : MeasRel k c m m')
    (hz : m.o.avgMethod ≠ "omega_gw_zeroecc" ∨ e.tol = 0) :
    PyRel (fun r r' => r'.1 = newResult k c m.o.domain r.1) (evaluate e m none) (evaluate e m' none) := by
  unfold evaluate
  refine PyRel.bind (referenceTimes_rel hk c hu hm hz) fun r r' hr => ?_
  obtain ⟨tr, fo, cc⟩ := r
  obtain ⟨tr', fo', cc'⟩ := r'
  simp only at hr ⊢
  obtain ⟨rfl, rfl⟩ := hr
  have hd : m'.o.domain = m.o.domain := by rw [hm.o]; rfl
  have elev : m'.o.level = m.o.level := by rw [hm.o]; rfl
  have esc : m'.o.refIn.isScalar = m.o.refIn.isScalar := by
    rw [hm.o]
    show (m.o.refIn.map _).isScalar = _
    cases m.o.refIn <;> rfl
  have ef : (tr.map (newTime k c)).filter (fun x => decide (x ≤ newTime k c m.tmax ∧ newTime k c m.tmin ≤ x))
      = (tr.filter (fun x => decide (x ≤ m.tmax ∧ m.tmin ≤ x))).map (newTime k c) :=
    filter_map_of (fun x => by simp only [newTime_le hk c]) _
  simp only [hm.tmin, hm.tmax, ef, hd, List.length_map, checkInputLimits_rel hk c, hm.tPeri]
  generalize tr.filter (fun x => decide (x ≤ m.tmax ∧ m.tmin ≤ x)) = tout
  refine PyRel.ite Iff.rfl (fun _ _ => .error _) fun hlen _ => ?_
  refine PyRel.ite Iff.rfl (fun _ _ => ?_) fun _ _ => ?_
  · exact PyRel.bind (PyRel.refl (R := Eq) (fun _ => rfl) _) fun _ _ _ => .error _
  refine PyRel.bind (PyRel.pyGet (s := newTime k c) _ 0) fun t0 t0' h1 => ?_
  refine PyRel.bind (PyRel.pyLast (s := newTime k c) _) fun t1 t1' h2 => ?_
  refine PyRel.bind (PyRel.pyGet (s := newTime k c) _ 0) fun p0 p0' h3 => ?_
  refine PyRel.bind (PyRel.pyLast (s := newTime k c) _) fun p1 p1' h4 => ?_
  subst h1 h2 h3 h4
  refine PyRel.ite (by simp only [gt_iff_lt, newTime_lt hk c]) (fun _ _ => .error _) fun _ _ => ?_
  refine PyRel.bind (computeEccentricity_rel hk c hu hm _) fun ecc ecc' h => ?_
  subst h
  refine PyRel.bind (computeMeanAnomaly_rel hk c hu hm _) fun ano ano' h => ?_
  subst h
  refine PyRel.bind (checkMonotonicity_rel hk c hu hm) fun _ _ _ => ?_
  rw [elev]
  refine PyRel.bind (PyRel.refl (R := Eq) (fun _ => rfl) _) fun _ _ _ => ?_
  rw [esc]
  have epick : m.o.domain.pick (tout.map (newTime k c)) (fo.map (newFreq k))
      = (m.o.domain.pick tout fo).map (newRef k c m.o.domain) := by
    cases m.o.domain <;> rfl
  rw [epick]
  refine PyRel.bind (makeReturn_rel c _ _ _ _ _) fun r r' h => ?_
  exact .ok h


omit hk hu in
theorem setToZero_rel (o : Obj K) :
    PyRel (fun r r' => r' = newResult k c o.domain r) (setToZero o) (setToZero (newObj k c o)) := by
  unfold setToZero
  have hlist : (newObj k c o).refIn.atleast1d = o.refIn.atleast1d.map (newRef k c o.domain) := by
    show (o.refIn.map _).atleast1d = _
    cases o.refIn <;> rfl
  have esc : (newObj k c o).refIn.isScalar = o.refIn.isScalar := by
    show (o.refIn.map _).isScalar = _
    cases o.refIn <;> rfl
  simp only [hlist, esc, List.length_map]
  exact makeReturn_rel c _ _ _ _ _

omit hu hk in
theorem findBoth_rel (o : Obj K) (hf : FindsSamples e o) :
    PyRel (fun r r' => r' = r ∧ (r.1.Pairwise (· < ·) ∧ ValidIdx o r.1) ∧ (r.2.1.Pairwise (· < ·) ∧ ValidIdx o r.2.1))
      (findBoth e o) (findBoth e (newObj k c o)) := by
  have : findBoth e (newObj k c o) = findBoth e o := rfl
  rw [this]
  cases h : findBoth e o with
  | error err => exact .error _
  | ok r =>
    refine .ok ⟨rfl, ?_⟩
    unfold findBoth at h
    obtain ⟨p, hp, h⟩ := bind_ok h
    obtain ⟨ip, _, h⟩ := bind_ok h
    obtain ⟨a, ha, h⟩ := bind_ok h
    obtain ⟨ia, _, h⟩ := bind_ok h
    injection h with h
    subst h
    have hp' := hf _ _ hp
    refine ⟨hp', ?_⟩
    split at ha
    · injection ha with ha
      subst ha
      exact ⟨midpoints_sorted _ hp'.1, midpoints_bound _ _ hp'.2⟩
    · exact hf _ _ ha

theorem measureEcc_rel [FloorRing K] {fit' : ExtType → List K → List K → List K → List K → Py (K → Py K)} (hfit : FitFree k c e.ratFit fit')
    (o : Obj K) (hf : FindsSamples e o) (hz : o.avgMethod ≠ "omega_gw_zeroecc" ∨ e.tol = 0) :
    PyRel (fun r r' => r'.1 = newResult k c o.domain r.1) (measureEcc e o none)
      (measureEcc { e with ratFit := fit' } (newObj k c o) none) := by
  unfold measureEcc
  refine PyRel.bind (findBoth_rel c o hf) fun r r' hr => ?_
  obtain ⟨p, a, lacking⟩ := r
  obtain ⟨rfl, ⟨hp, vp⟩, ⟨ha, va⟩⟩ := hr
  refine PyRel.ite Iff.rfl (fun _ _ => ?_) fun _ _ => ?_
  · refine PyRel.bind (setToZero_rel c o) fun r r' hr => .ok hr
  · refine PyRel.bind (settleExtrema_rel hk c e o p a hp ha vp va) fun r r' hr => ?_
    obtain ⟨p', a'⟩ := r
    obtain ⟨rfl, vp', va'⟩ := hr
    refine PyRel.bind (prepare_rel hk c hu hfit o p' a' vp' va') fun m m' hm => ?_
    obtain ⟨hm, hmo⟩ := hm
    rw [← hmo] at hz
    refine PyRel.bind (evaluate_rel hk c hu hm hz) fun r r' hr => ?_
    rw [hmo] at hr
    exact .ok hr

end GwEcc
