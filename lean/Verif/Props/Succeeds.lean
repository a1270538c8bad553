import Verif.Props.Strict

/-!
# C77: data on which a measurement succeeds
-/

set_option linter.unusedSectionVars false

namespace GwEcc

open Spec

variable {K : Type} [Field K] [LinearOrder K] [IsStrictOrderedRing K]

/-- The extrema found are usable as they are: at least two of each kind, at samples of increasing time and phase,
strictly alternating, with no separation in phase that jumps (by more than a factor 3/2) or is below two orbits of the
wave (4π). -/
structure Spec.GoodExtrema (e : Ext K) (o : Obj K) (p a : List ℕ) : Prop where
  times : o.t.Pairwise (· < ·)
  foundP : e.find .pericenters = .ok p
  foundA : if o.midpoints then a = midpointApocenters p else e.find .apocenters = .ok a
  incP : p.Pairwise (· < ·)
  incA : a.Pairwise (· < ·)
  inP : ∀ i ∈ p, i < o.t.length
  inA : ∀ i ∈ a, i < o.t.length
  twoP : 2 ≤ p.length
  twoA : 2 ≤ a.length
  phaseP : (p.map fun i => o.phase.getD i 0).Pairwise (· < ·)
  phaseA : (a.map fun i => o.phase.getD i 0).Pairwise (· < ·)
  stepsP : ∀ j, ¬ Grows (fun i => o.phase.getD i 0) (3 / 2) p j ∧ ¬ Shrinks (fun i => o.phase.getD i 0) (3 / 2) p j ∧
    ¬ Close (fun i => o.phase.getD i 0) (4 * e.pi) p j
  stepsA : ∀ j, ¬ Grows (fun i => o.phase.getD i 0) (3 / 2) a j ∧ ¬ Shrinks (fun i => o.phase.getD i 0) (3 / 2) a j ∧
    ¬ Close (fun i => o.phase.getD i 0) (4 * e.pi) a j
  alternate : Alternate p a

/-- The time `x` is not before the first nor after the last of the pericenters `p`, and likewise for the apocenters. -/
def Spec.Covered (o : Obj K) (p a : List ℕ) (x : K) : Prop :=
  Within (p.map fun i => o.t.getD i 0) x ∧ Within (a.map fun i => o.t.getD i 0) x

theorem takeAt_increasing {l : List K} {ext : List ℕ} (hl : l.Pairwise (· < ·)) (hin : ∀ i ∈ ext, i < l.length)
    (hs : ext.Pairwise (· < ·)) : (takeAt l ext).Pairwise (· < ·) := by
  unfold takeAt
  rw [List.pairwise_map]
  refine hs.imp_of_mem ?_
  intro i j hi hj hij
  unfold at'
  rw [List.getD_eq_getElem _ _ (hin i hi), List.getD_eq_getElem _ _ (hin j hj)]
  exact List.pairwise_iff_getElem.mp hl i j _ _ hij

theorem settle_good {e : Ext K} {o : Obj K} {p a : List ℕ} (g : GoodExtrema e o p a) (hl : o.level = 0)
    (hpf : (o.precessing && o.filtered) = false) : settleExtrema e o p a = .ok (p, a) := by
  have ne : ∀ l : List ℕ, 2 ≤ l.length → l ≠ [] := by
    intro l h hc; rw [hc] at h; simp at h
  have hg : getGoodExtrema (at' o.phase) (3 / 2) (4 * e.pi) o.level p a = .ok (p, a) := by
    refine C23_unchanged (at' o.phase) (3 / 2) (4 * e.pi) (by norm_num) o.level p a g.incP g.incA (ne p g.twoP) (ne a g.twoA)
      g.phaseP g.phaseA g.stepsP g.stepsA ?_ ?_ ?_ ?_
    · intro u hu v hv h1 h2
      rcases lt_trichotomy u v with h | h | h
      · obtain ⟨z, hz, hz1, hz2⟩ := g.alternate.1 u hu v hv h
        exact absurd (h1 z hz) (by omega)
      · exact h
      · obtain ⟨z, hz, hz1, hz2⟩ := g.alternate.1 v hv u hu h
        exact absurd (h2 z hz) (by omega)
    · intro u hu v hv h1 h2
      rcases lt_trichotomy u v with h | h | h
      · obtain ⟨z, hz, hz1, hz2⟩ := g.alternate.2 u hu v hv h
        exact absurd (h1 z hz) (by omega)
      · exact h
      · obtain ⟨z, hz, hz1, hz2⟩ := g.alternate.2 v hv u hu h
        exact absurd (h2 z hz) (by omega)
    · intro u hu v hv h1 h2
      rcases lt_trichotomy u v with h | h | h
      · obtain ⟨z, hz, hz1, hz2⟩ := g.alternate.1 u hu v hv h
        exact absurd (h2 z hz) (by omega)
      · exact h
      · obtain ⟨z, hz, hz1, hz2⟩ := g.alternate.1 v hv u hu h
        exact absurd (h1 z hz) (by omega)
    · intro u hu v hv h1 h2
      rcases lt_trichotomy u v with h | h | h
      · obtain ⟨z, hz, hz1, hz2⟩ := g.alternate.2 u hu v hv h
        exact absurd (h2 z hz) (by omega)
      · exact h
      · obtain ⟨z, hz, hz1, hz2⟩ := g.alternate.2 v hv u hu h
        exact absurd (h1 z hz) (by omega)
  unfold settleExtrema
  rw [hg, ok_bind, hl]
  simp only [hpf]
  rfl

theorem mapM_total {α β : Type} {f : α → Py β} {l : List α} (h : ∀ x ∈ l, ∃ y, f x = .ok y) : ∃ r, l.mapM f = .ok r := by
  induction l with
  | nil => exact ⟨[], rfl⟩
  | cons a l ih =>
    obtain ⟨y, hy⟩ := h a (by simp)
    obtain ⟨r, hr⟩ := ih fun x hx => h x (by simp [hx])
    exact ⟨y :: r, by rw [List.mapM_cons, hy, ok_bind, hr, ok_bind]; rfl⟩

theorem npGradient_total (dx : K) {y : List K} (h : 2 ≤ y.length) : ∃ g, npGradient dx y = .ok g := by
  match y, h with
  | a :: b :: l, _ => exact ⟨_, rfl⟩

theorem extremaInterpolant_total {e : Ext K} {o : Obj K} {ty : ExtType} {p a : List ℕ} {ts : List K} {f : K → Py K}
    (hc : ExtremaCurve e o ty p a f) (h2 : 2 ≤ (ty.pick p a).length) (hinc : (takeAt o.t (ty.pick p a)).Pairwise (· < ·))
    (hl : o.level = 0) (hts : 2 ≤ ts.length) (hf : ∀ x ∈ ts, ∃ y, f x = .ok y) :
    extremaInterpolant e o ty p a ts = .ok f := by
  have htail : ∀ g : K → Py K, g = f → (ts.mapM g >>= fun vals => notStrictlyMonotonic ts vals e.monoTol >>= fun bad =>
      (if bad then debugMessage o.level true else pure .silent) >>= fun _ => pure g) = .ok f := by
    rintro g rfl
    obtain ⟨vals, hv⟩ := mapM_total hf
    have hlen := mapM_py_length hv
    have hbad : ∃ bad, notStrictlyMonotonic ts vals e.monoTol = .ok bad := by
      unfold notStrictlyMonotonic
      rw [pyGet_of_lt (by omega : 1 < ts.length), pyGet_of_lt (by omega : 0 < ts.length)]
      obtain ⟨gr, hgr⟩ := npGradient_total (ts[1] - ts[0]) (y := vals) (by omega)
      simp only [ok_bind, hgr]
      exact ⟨_, rfl⟩
    obtain ⟨bad, hbad⟩ := hbad
    rw [hv, ok_bind, hbad, ok_bind, hl]
    cases bad <;> rfl
  unfold extremaInterpolant
  rw [if_pos h2]
  rcases hc with ⟨hm, hr⟩ | ⟨hm, rfl⟩
  · simp only [hm, if_true]
    have : e.ratFit ty (takeAt o.t p) (takeAt o.omega p) (takeAt o.t a) (takeAt o.omega a) = .ok f := hr
    rw [this, ok_bind]
    exact htail f rfl
  · simp only [hm, String.reduceEq, if_false, if_true]
    obtain ⟨⟨call, kw', w⟩, hr⟩ := (C35_accepts (takeAt o.t (ty.pick p a)) false .spline o.extremaKw true).mpr
      ⟨hinc, by simp, fun _ => by simpa [takeAt] using h2⟩
    obtain ⟨⟨x, hcall, hx⟩, _⟩ := C35_spline_call _ _ _ _ _ _ _ hr
    rw [hx.mpr rfl] at hcall
    rw [hr, ok_bind]
    simp only [pure_eq_ok, ok_bind]
    apply htail
    rw [hcall]
    simp only [takeAt, List.length_map]
    rfl

theorem prepare_good {e : Ext K} {o : Obj K} {p a : List ℕ} {fP fA : K → Py K} (g : GoodExtrema e o p a) (hl : o.level = 0)
    (hP : ExtremaCurve e o .pericenters p a fP) (hA : ExtremaCurve e o .apocenters p a fA)
    (htot : ∀ x, Covered o p a x → (∃ y, fP x = .ok y) ∧ ∃ y, fA x = .ok y)
    (htwo : ∃ x y, x ≠ y ∧ x ∈ o.dataT ∧ y ∈ o.dataT ∧ Covered o p a x ∧ Covered o p a y) :
    ∃ m, prepare e o p a = .ok m := by
  have ltp : (takeAt o.t p).length = p.length := by simp [takeAt]
  have lta : (takeAt o.t a).length = a.length := by simp [takeAt]
  have nep : takeAt o.t p ≠ [] := by intro h; rw [h] at ltp; have := g.twoP; simp at ltp; omega
  have nea : takeAt o.t a ≠ [] := by intro h; rw [h] at lta; have := g.twoA; simp at lta; omega
  have g2p := g.twoP
  have g2a := g.twoA
  unfold prepare
  dsimp only
  rw [pyLast_of_ne nep, pyLast_of_ne nea, pyGet_of_lt (by omega : 0 < (takeAt o.t p).length),
    pyGet_of_lt (by omega : 0 < (takeAt o.t a).length)]
  simp only [ok_bind]
  obtain ⟨tmax, hmax⟩ : ∃ x, x = min ((takeAt o.t p).getLast nep) ((takeAt o.t a).getLast nea) := ⟨_, rfl⟩
  obtain ⟨tmin, hmin⟩ : ∃ x, x = max ((takeAt o.t p)[0]'(by omega)) ((takeAt o.t a)[0]'(by omega)) := ⟨_, rfl⟩
  rw [← hmax, ← hmin]
  have hcov : ∀ x, (tmin ≤ x ∧ x ≤ tmax) ↔ Covered o p a x := by
    intro x
    rw [hmin, hmax, max_le_iff, le_min_iff]
    have hh : ∀ (l : List K) (h : l ≠ []) (h0 : 0 < l.length), Within l x ↔ l[0] ≤ x ∧ x ≤ l.getLast h := by
      intro l h h0
      constructor
      · rintro ⟨u, v, hu, hv, h1, h2⟩
        rw [List.head?_eq_getElem?, List.getElem?_eq_getElem h0] at hu
        rw [List.getLast?_eq_some_getLast h] at hv
        rw [Option.some.inj hu, Option.some.inj hv]
        exact ⟨h1, h2⟩
      · rintro ⟨h1, h2⟩
        exact ⟨_, _, by rw [List.head?_eq_getElem?, List.getElem?_eq_getElem h0], List.getLast?_eq_some_getLast h, h1, h2⟩
    have e1 := hh (takeAt o.t p) nep (by omega)
    have e2 := hh (takeAt o.t a) nea (by omega)
    unfold Covered
    show _ ↔ Within (takeAt o.t p) x ∧ Within (takeAt o.t a) x
    rw [e1, e2]
    tauto
  obtain ⟨ts, hts⟩ : ∃ l, l = o.dataT.filter (fun x => decide (tmin ≤ x ∧ x ≤ tmax)) := ⟨_, rfl⟩
  rw [← hts]
  have hmem : ∀ x, x ∈ ts ↔ x ∈ o.dataT ∧ Covered o p a x := by
    intro x; rw [hts, List.mem_filter, decide_eq_true_eq, hcov]
  have hlen : 2 ≤ ts.length := by
    obtain ⟨x, y, hxy, hx, hy, cx, cy⟩ := htwo
    have mx := (hmem x).mpr ⟨hx, cx⟩
    have my := (hmem y).mpr ⟨hy, cy⟩
    match ts, mx, my with
    | [z], mx, my =>
      rw [List.mem_singleton] at mx my
      exact absurd (mx.trans my.symm) hxy
    | _ :: _ :: _, _, _ => simp
  have iP := extremaInterpolant_total hP g.twoP (takeAt_increasing g.times g.inP g.incP) hl hlen
    (fun x hx => (htot x ((hmem x).mp hx).2).1)
  have iA := extremaInterpolant_total hA g.twoA (takeAt_increasing g.times g.inA g.incA) hl hlen
    (fun x hx => (htot x ((hmem x).mp hx).2).2)
  rw [iP, ok_bind, iA, ok_bind]
  exact ⟨_, rfl⟩

/-- Everything but the reference times. -/
theorem measure_good [FloorRing K] (e : Ext K) (o : Obj K) (cache : AvgCache K) (p a : List ℕ) (fP fA : K → Py K)
    (hpi : 0 < e.pi) (hl : o.level = 0) (hpf : (o.precessing && o.filtered) = false)
    (g : GoodExtrema e o p a) (hdata : o.dataT.Pairwise (· < ·))
    (hP : ExtremaCurve e o .pericenters p a fP) (hA : ExtremaCurve e o .apocenters p a fA)
    (htot : ∀ x, Covered o p a x → (∃ y, fP x = .ok y) ∧ ∃ y, fA x = .ok y)
    (htwo : ∃ x y, x ≠ y ∧ x ∈ o.dataT ∧ y ∈ o.dataT ∧ Covered o p a x ∧ Covered o p a y)
    (hder : ∀ x y t, x.length = y.length → 2 ≤ x.length → x.Pairwise (· < ·) → t ∈ x →
      ∃ v, e.deriv (.spline (min o.generalKw.k (x.length - 1)) 2) x y t = .ok v)
    (hrt : ∀ m, prepare e o p a = .ok m → ∃ trefIn fOut cache', referenceTimes e m cache = .ok (trefIn, fOut, cache') ∧
      (∃ x ∈ trefIn, Covered o p a x) ∧ trefIn.length ≤ o.refIn.atleast1d.length ∧
      (o.domain = .frequency → fOut.length = trefIn.length ∧ ∀ x ∈ trefIn, Covered o p a x)) :
    ∃ ret m trefIn fOut cache', prepare e o p a = .ok m ∧ referenceTimes e m cache = .ok (trefIn, fOut, cache') ∧
      measureEcc e o cache = .ok (ret, some m, cache') ∧ m.pericenters = p ∧ m.apocenters = a := by
  -- the extrema
  have hf : findBoth e o = .ok (p, a, false) := by
    have c1 : checkNumExtrema e o p = .ok false := by
      unfold checkNumExtrema; rw [if_neg (by have := g.twoP; omega)]; rfl
    have c2 : checkNumExtrema e o a = .ok false := by
      unfold checkNumExtrema; rw [if_neg (by have := g.twoA; omega)]; rfl
    have ha : (if o.midpoints then pure (midpointApocenters p) else e.find .apocenters) = (.ok a : Py (List ℕ)) := by
      have := g.foundA
      split at this
      · rename_i hm; rw [if_pos hm, this]; rfl
      · rename_i hm; rw [if_neg hm, this]
    unfold findBoth
    rw [g.foundP, ok_bind, c1, ok_bind, ha, ok_bind, c2, ok_bind]
    rfl
  obtain ⟨m, hm⟩ := prepare_good g hl hP hA htot htwo
  obtain ⟨ho, hpp, haa, htp, hta, _, _, ⟨q0, q1, b0, b1, k1, k2, k3, k4, k5, k6⟩, htc, iP, iA⟩ := prepare_ok hm
  subst ho
  have hcov : ∀ x, (m.tmin ≤ x ∧ x ≤ m.tmax) ↔ Covered m.o p a x := by
    intro x
    rw [prepare_window hm x, htp, hta]
    rfl
  -- the interpolants are the curves
  have eP : m.interpP = fP := by
    rcases hP with ⟨h1, h2⟩ | ⟨h1, h2⟩
    · rcases extremaInterpolant_curve iP with ⟨_, h4⟩ | ⟨h3, _⟩
      · rw [h2] at h4; exact (Except.ok.inj h4).symm
      · rw [h1] at h3; exact absurd h3 (by decide)
    · rcases extremaInterpolant_curve iP with ⟨h3, _⟩ | ⟨_, h4⟩
      · rw [h1] at h3; exact absurd h3 (by decide)
      · rw [h2, h4]
  have eA : m.interpA = fA := by
    rcases hA with ⟨h1, h2⟩ | ⟨h1, h2⟩
    · rcases extremaInterpolant_curve iA with ⟨_, h4⟩ | ⟨h3, _⟩
      · rw [h2] at h4; exact (Except.ok.inj h4).symm
      · rw [h1] at h3; exact absurd h3 (by decide)
    · rcases extremaInterpolant_curve iA with ⟨h3, _⟩ | ⟨_, h4⟩
      · rw [h1] at h3; exact absurd h3 (by decide)
      · rw [h2, h4]
  -- eccentricities
  have hecc : ∀ ts : List K, (∀ x ∈ ts, Covered m.o p a x) → ∃ r, computeEccentricity e m ts = .ok r := by
    intro ts hts
    unfold computeEccentricity
    rw [(checkInputLimits_ok_iff ts m.tmin m.tmax).mpr fun x hx => (hcov x).mpr (hts x hx), ok_bind, eP, eA]
    obtain ⟨r1, h1⟩ := mapM_total (f := fP) fun x hx => (htot x (hts x hx)).1
    obtain ⟨r2, h2⟩ := mapM_total (f := fA) fun x hx => (htot x (hts x hx)).2
    rw [h1, ok_bind, h2, ok_bind]
    exact ⟨_, rfl⟩
  have htcmem : ∀ x, x ∈ m.tChecks ↔ x ∈ m.o.dataT ∧ Covered m.o p a x := by
    intro x; rw [htc, List.mem_filter, decide_eq_true_eq, hcov]
  have hmono : ∃ out, checkMonotonicity e m = .ok out := by
    unfold checkMonotonicity derivativeOfEccentricity
    rw [(checkInputLimits_ok_iff m.tChecks m.tmin m.tmax).mpr fun x hx => (hcov x).mpr ((htcmem x).mp hx).2, ok_bind]
    obtain ⟨r, hr⟩ := hecc m.tChecks fun x hx => ((htcmem x).mp hx).2
    rw [hr, ok_bind]
    have hlen : 2 ≤ m.tChecks.length := by
      obtain ⟨x, y, hxy, hx, hy, cx, cy⟩ := htwo
      have mx := (htcmem x).mpr ⟨hx, cx⟩
      have my := (htcmem y).mpr ⟨hy, cy⟩
      match hh : m.tChecks, mx, my with
      | [z], mx, my =>
        rw [List.mem_singleton] at mx my
        exact absurd (mx.trans my.symm) hxy
      | _ :: _ :: _, _, _ => simp
    have hinc : m.tChecks.Pairwise (· < ·) := by rw [htc]; exact hdata.sublist List.filter_sublist
    obtain ⟨⟨call, kw', w⟩, hq⟩ := (C35_accepts m.tChecks false .spline m.o.generalKw true).mpr
      ⟨hinc, by simp, fun _ => hlen⟩
    obtain ⟨⟨x, hcall, hx⟩, _⟩ := C35_spline_call _ _ _ _ _ _ _ hq
    rw [hx.mpr rfl] at hcall
    rw [hq, ok_bind]
    obtain ⟨ds, hds⟩ := mapM_total (f := e.deriv call m.tChecks r) (l := m.tChecks) fun x hx => by
      rw [hcall]
      exact hder _ _ x (computeEccentricity_length hr).symm hlen hinc hx
    rw [hds, ok_bind, hl]
    split
    · exact ⟨_, rfl⟩
    · exact ⟨_, rfl⟩
  obtain ⟨out, hout⟩ := hmono
  -- the reference times
  obtain ⟨trefIn, fOut, cache', hrt, href, hle0, hfreq⟩ := hrt m hm
  obtain ⟨tref, htref⟩ : ∃ l, l = trefIn.filter (fun x => decide (x ≤ m.tmax ∧ m.tmin ≤ x)) := ⟨_, rfl⟩
  have htm : ∀ x ∈ tref, Covered m.o p a x := by
    intro x hx
    rw [htref, List.mem_filter, decide_eq_true_eq] at hx
    exact (hcov x).mp ⟨hx.2.2, hx.2.1⟩
  have hne : 0 < tref.length := by
    obtain ⟨x, hx, hc⟩ := href
    apply List.length_pos_of_mem (a := x)
    rw [htref, List.mem_filter, decide_eq_true_eq]
    exact ⟨hx, ((hcov x).mpr hc).2, ((hcov x).mpr hc).1⟩
  obtain ⟨ecc, hecc1⟩ := hecc tref htm
  obtain ⟨ano, hano, _⟩ := C15_mean_anomaly e m.o p a m hm hpi
    (by rw [htp]; exact takeAt_increasing g.times g.inP g.incP) tref (fun x hx => by rw [htp, hta]; exact htm x hx)
  have hkeep : m.o.domain = .frequency → tref.length = fOut.length := by
    intro hd
    rw [(hfreq hd).1, htref]
    congr 1
    rw [List.filter_eq_self]
    intro x hx
    have := (hcov x).mpr ((hfreq hd).2 x hx)
    exact decide_eq_true ⟨this.2, this.1⟩
  have hrefOut : 0 < (m.o.domain.pick tref fOut).length := by
    cases hd : m.o.domain with
    | time => exact hne
    | frequency => exact (hkeep hd).symm ▸ hne
  have hret : ∃ ret, makeReturn m.o.domain m.o.refIn.isScalar ecc ano (m.o.domain.pick tref fOut) = .ok ret := by
    unfold makeReturn
    cases hsc : m.o.refIn.isScalar with
    | false => exact ⟨_, rfl⟩
    | true =>
      have hone : tref.length = 1 := by
        have hle : tref.length ≤ m.o.refIn.atleast1d.length := by
          rw [htref]; exact (List.length_filter_le _ _).trans hle0
        cases hr : m.o.refIn with
        | scalar x => rw [hr] at hle; simp [Val.atleast1d] at hle; omega
        | array l => rw [hr] at hsc; simp [Val.isScalar] at hsc
      have l1 := computeEccentricity_length hecc1
      have l2 := computeMeanAnomaly_length hano
      simp only [if_true]
      rw [if_neg (by omega), if_neg (by omega), pyGet_of_lt (by omega : 0 < ecc.length),
        pyGet_of_lt (by omega : 0 < ano.length), pyGet_of_lt hrefOut]
      exact ⟨_, rfl⟩
  obtain ⟨ret, hret⟩ := hret
  have hev : evaluate e m cache = .ok (ret, cache') := by
    unfold evaluate
    rw [hrt]
    simp only [pure_eq_ok, ok_bind]
    rw [← htref, if_neg (by rintro ⟨hd, h⟩; exact h (hkeep hd).symm), if_neg (by omega), pyGet_of_lt hne,
      pyLast_of_ne (by intro h; rw [h] at hne; simp at hne)]
    obtain ⟨hpl, hpl2⟩ : ∃ h : m.tPeri ≠ [], m.tPeri.getLast h = q1 := by
      have : m.tPeri ≠ [] := by intro h; rw [h] at k2; simp at k2
      refine ⟨this, ?_⟩
      rw [List.getLast?_eq_some_getLast this] at k2
      exact Option.some.inj k2
    have hp0 : 0 < m.tPeri.length := List.length_pos_iff.mpr hpl
    rw [pyLast_of_ne hpl, pyGet_of_lt hp0]
    simp only [ok_bind]
    rw [if_neg]
    · rw [hecc1, ok_bind, hano, ok_bind, hout, ok_bind]
      have hneg : ∃ w, (if ecc.any (fun x => decide (x < 0)) then debugMessage m.o.level true true else .ok .silent)
          = .ok w := by
        rw [hl]; split
        · exact ⟨_, rfl⟩
        · exact ⟨_, rfl⟩
      obtain ⟨w, hw⟩ := hneg
      rw [hw, ok_bind]
      rw [hret]
      rfl
    · push Not
      have hh : m.tPeri[0] = q0 := by
        rw [List.head?_eq_getElem?, List.getElem?_eq_getElem hp0] at k1
        exact Option.some.inj k1
      rw [hpl2, hh]
      have w1 := (hcov _).mpr (htm _ (List.getElem_mem hne))
      have w2 := (hcov _).mpr (htm _ (List.getLast_mem (by intro h; rw [h] at hne; simp at hne : tref ≠ [])))
      rw [k5] at w1
      rw [k6] at w2
      exact ⟨(le_max_left _ _).trans w1.1, w2.2.trans (min_le_left _ _)⟩
  refine ⟨ret, m, trefIn, fOut, cache', hm, hrt, ?_, hpp, haa⟩
  unfold measureEcc
  rw [hf, ok_bind]
  simp only [Bool.false_and, Bool.false_eq_true, if_false]
  rw [settle_good g hl hpf, ok_bind]
  simp only
  rw [hm, ok_bind, hev, ok_bind]
  rfl

/-- A measurement at given times succeeds (at the default debug level) whenever the extrema found are usable, the two curves
through the frequencies there can be evaluated in their common range, at least two samples and one of the reference times lie
in that range, and scipy differentiates its splines at their nodes.  All extrema found are used. -/
theorem C77_succeeds [FloorRing K] (e : Ext K) (o : Obj K) (cache : AvgCache K) (p a : List ℕ) (fP fA : K → Py K)
    (hpi : 0 < e.pi) (hd : o.domain = .time) (hl : o.level = 0) (hpf : (o.precessing && o.filtered) = false)
    (g : GoodExtrema e o p a) (hdata : o.dataT.Pairwise (· < ·))
    (hP : ExtremaCurve e o .pericenters p a fP) (hA : ExtremaCurve e o .apocenters p a fA)
    (htot : ∀ x, Covered o p a x → (∃ y, fP x = .ok y) ∧ ∃ y, fA x = .ok y)
    (htwo : ∃ x y, x ≠ y ∧ x ∈ o.dataT ∧ y ∈ o.dataT ∧ Covered o p a x ∧ Covered o p a y)
    (href : ∃ x ∈ o.refIn.atleast1d, Covered o p a x)
    (hder : ∀ x y t, x.length = y.length → 2 ≤ x.length → x.Pairwise (· < ·) → t ∈ x →
      ∃ v, e.deriv (.spline (min o.generalKw.k (x.length - 1)) 2) x y t = .ok v) :
    ∃ ret m, measureEcc e o cache = .ok (ret, some m, cache) ∧ m.pericenters = p ∧ m.apocenters = a := by
  obtain ⟨ret, m, trefIn, fOut, cache', hm, hr, h, hpp, haa⟩ := measure_good e o cache p a fP fA hpi hl hpf g hdata hP hA htot
    htwo hder fun m hm => by
      have ho := (prepare_ok hm).1
      subst ho
      refine ⟨m.o.refIn.atleast1d, [], cache, ?_, href, le_rfl, fun h => ?_⟩
      · unfold referenceTimes; rw [hd]; rfl
      · rw [hd] at h; cases h
  have ho := (prepare_ok hm).1
  subst ho
  unfold referenceTimes at hr
  rw [hd] at hr
  cases hr
  exact ⟨ret, m, h, hpp, haa⟩

/-! ### The premises are met -/

namespace Demo

theorem good : GoodExtrema ext obj [2, 6, 10, 14] [4, 8, 12, 16] := by
  have steps : ∀ l : List ℕ, l = [2, 6, 10, 14] ∨ l = [4, 8, 12, 16] → ∀ j,
      ¬ Grows (fun i => obj.phase.getD i 0) (3 / 2) l j ∧ ¬ Shrinks (fun i => obj.phase.getD i 0) (3 / 2) l j ∧
      ¬ Close (fun i => obj.phase.getD i 0) (4 * ext.pi) l j := by
    intro l hl j
    by_cases hj : j < 3
    · unfold Grows Shrinks Close
      rcases hl with rfl | rfl <;> interval_cases j <;> decide +kernel
    · have : l.length = 4 := by rcases hl with rfl | rfl <;> rfl
      refine ⟨?_, ?_, ?_⟩
      · rintro ⟨h, _⟩; omega
      · rintro ⟨h, _⟩; omega
      · rintro ⟨h, _⟩; omega
  exact
    { times := by decide +kernel
      foundP := rfl
      foundA := rfl
      incP := by decide
      incA := by decide
      inP := by decide +kernel
      inA := by decide +kernel
      twoP := by decide
      twoA := by decide
      phaseP := by decide +kernel
      phaseA := by decide +kernel
      stepsP := steps _ (Or.inl rfl)
      stepsA := steps _ (Or.inr rfl)
      alternate := by unfold Alternate; decide }

theorem npInterp_total (x : ℚ) : ∀ l : List (ℚ × ℚ), l ≠ [] → ∃ y, npInterp x l = .ok y
  | [], h => absurd rfl h
  | [q], _ => ⟨q.2, rfl⟩
  | q0 :: q1 :: l, _ => by
    unfold npInterp
    split
    · exact ⟨_, rfl⟩
    · split
      · exact ⟨_, rfl⟩
      · exact npInterp_total x (q1 :: l) (by simp)

example : ∃ ret m, measureEcc ext obj none = .ok (ret, some m, none) ∧ m.pericenters = [2, 6, 10, 14] ∧
    m.apocenters = [4, 8, 12, 16] := by
  have cov : ∀ x : ℚ, 4 ≤ x → x ≤ 14 → Covered obj [2, 6, 10, 14] [4, 8, 12, 16] x := by
    intro x h1 h2
    refine ⟨⟨2, 14, by decide +kernel, by decide +kernel, by linarith, h2⟩,
      ⟨4, 16, by decide +kernel, by decide +kernel, h1, by linarith⟩⟩
  refine C77_succeeds ext obj none _ _ _ _ (by decide +kernel) rfl rfl rfl good (by decide +kernel)
    (Or.inl ⟨rfl, rfl⟩) (Or.inl ⟨rfl, rfl⟩) (fun x _ => ⟨npInterp_total x _ (by decide +kernel),
      npInterp_total x _ (by decide +kernel)⟩)
    ⟨5, 6, by norm_num, by decide +kernel, by decide +kernel, cov 5 (by norm_num) (by norm_num),
      cov 6 (by norm_num) (by norm_num)⟩
    ⟨5, by decide +kernel, cov 5 (by norm_num) (by norm_num)⟩ (fun _ _ _ _ _ _ _ => ⟨0, rfl⟩)

end Demo

end GwEcc
