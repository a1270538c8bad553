import Verif.Props.Measure
import Verif.Props.MeanAnomaly
import Verif.Props.Average
import Verif.Props.Ecc

/-!
# What the returned numbers are: C75, and C28 for the averages that frequencies are matched against
-/

set_option linter.unusedSectionVars false

namespace GwEcc

open Spec

variable {K : Type} [Field K] [LinearOrder K] [IsStrictOrderedRing K]

theorem mapM_forall₂ {α β : Type} {f : α → Py β} : ∀ {l : List α} {r : List β}, l.mapM f = .ok r →
    List.Forall₂ (fun x y => f x = .ok y) l r
  | [], r, h => by
    rw [List.mapM_nil, pure_eq_ok, Except.ok.injEq] at h; subst h; exact .nil
  | a :: l, r, h => by
    rw [List.mapM_cons] at h
    obtain ⟨b, hb, h⟩ := bind_ok h
    obtain ⟨bs, hbs, h⟩ := bind_ok h
    rw [pure_eq_ok, Except.ok.injEq] at h; subst h
    exact .cons hb (mapM_forall₂ hbs)

/-- `interpolate` evaluates, at each new point, the spline of order `min k (n - 1)` through the old points, which raises
outside them. -/
theorem interpolate_values {tol : K} {eval : InterpCall → List K → List K → K → Py K} {newX oldX oldY out : List K}
    {kw : SplineKwargs} {given : Bool}
    (h : interpolate tol eval newX oldX oldY false .spline kw given = .ok out) :
    List.Forall₂ (fun x y => eval (.spline (min kw.k (oldX.length - 1)) 2) oldX oldY x = .ok y) newX out := by
  unfold interpolate at h
  split at h
  · exact absurd h (by simp)
  · rw [if_neg (by simp)] at h
    obtain ⟨mn, _, ha⟩ := bind_ok h
    obtain ⟨mo, _, hb⟩ := bind_ok ha
    obtain ⟨Mn, _, hc⟩ := bind_ok hb
    obtain ⟨Mo, _, hd⟩ := bind_ok hc
    have h1 : (getInterpolant oldX false .spline kw given >>= fun r => newX.mapM (eval r.1 oldX oldY)) = .ok out := by
      split at hd
      · exact absurd hd (by simp [bind, Except.bind])
      · exact hd
    obtain ⟨⟨call, kw', w⟩, hr, h2⟩ := bind_ok h1
    obtain ⟨⟨x, hcall, hx⟩, _⟩ := C35_spline_call _ _ _ _ _ _ _ hr
    rw [hx.mpr rfl] at hcall
    have := mapM_forall₂ h2
    rwa [hcall] at this

/-! ## C75 The returned numbers -/

/-- The curve through the values of the frequency at the pericenters `p` or the apocenters `a`: what the chosen interpolation
method ("rational_fit" or "spline") makes of the times of these extrema and the frequencies there.  (The degrees of the rational
fit through the one kind of extrema may depend on the other kind.) -/
def Spec.ExtremaCurve (e : Ext K) (o : Obj K) (ty : ExtType) (p a : List ℕ) (f : K → Py K) : Prop :=
  (o.interpMethod = "rational_fit" ∧
    e.ratFit ty (p.map fun i => o.t.getD i 0) (p.map fun i => o.omega.getD i 0) (a.map fun i => o.t.getD i 0)
      (a.map fun i => o.omega.getD i 0) = .ok f) ∨
  (o.interpMethod = "spline" ∧
    f = e.eval (.spline (min o.extremaKw.k ((ty.pick p a).length - 1)) 2) ((ty.pick p a).map fun i => o.t.getD i 0)
      ((ty.pick p a).map fun i => o.omega.getD i 0))

theorem extremaInterpolant_curve {e : Ext K} {o : Obj K} {ty : ExtType} {p a : List ℕ} {ts : List K} {f : K → Py K}
    (h : extremaInterpolant e o ty p a ts = .ok f) : ExtremaCurve e o ty p a f := by
  unfold extremaInterpolant at h
  split at h
  · obtain ⟨g, hg, h1⟩ := bind_ok h
    obtain ⟨_, _, h2⟩ := bind_ok h1
    obtain ⟨_, _, h3⟩ := bind_ok h2
    obtain ⟨_, _, h4⟩ := bind_ok h3
    have h5 := Except.ok.inj h4
    subst h5
    split at hg
    · rename_i hr
      exact Or.inl ⟨hr, hg⟩
    · split at hg
      · rename_i hs
        obtain ⟨⟨call, kw', w⟩, hr, hg1⟩ := bind_ok hg
        have hg2 := Except.ok.inj hg1
        obtain ⟨⟨x, hc, hx⟩, _⟩ := C35_spline_call _ _ _ _ _ _ _ hr
        rw [hx.mpr rfl] at hc
        refine Or.inr ⟨hs, ?_⟩
        rw [← hg2, hc]
        simp only [takeAt, List.length_map]
        rfl
      · exact absurd hg (by simp)
  · exact absurd h (by simp)

/-- Each returned eccentricity is computed from the values, at one and the same time `t`, of the curve through the
frequencies at the pericenters used and of the curve through the frequencies at the apocenters used; the returned mean
anomaly belongs to the same time.  `t` is the returned reference time, or, for frequency input, the time at which the
average frequency takes the returned frequency. -/
theorem C75_returned_numbers [FloorRing K] (e : Ext K) (o : Obj K) (cache cache' : AvgCache K) (ret : Dict String (Val K))
    (m : Meas K) (hpi : 0 < e.pi) (hp : (m.pericenters.map fun i => o.t.getD i 0).Pairwise (· < ·))
    (h : measureEcc e o cache = .ok (ret, some m, cache')) :
    ∃ fP fA ve va vr ts,
      ExtremaCurve e o .pericenters m.pericenters m.apocenters fP ∧
      ExtremaCurve e o .apocenters m.pericenters m.apocenters fA ∧
      ret.get? "eccentricity" = some ve ∧ ret.get? "mean_anomaly" = some va ∧ ret.get? o.domain.key = some vr ∧
      List.Forall₂ (fun t x => ∃ wp wa, fP t = .ok wp ∧ fA t = .ok wa ∧ x = e.eccOf wp wa) ts ve.atleast1d ∧
      List.Forall₂ (fun t x => IsMeanAnomaly e.pi (m.pericenters.map fun i => o.t.getD i 0) t x) ts va.atleast1d ∧
      (o.domain = .time → vr.atleast1d = ts) ∧
      (o.domain = .frequency → ∃ tAvg wAvg, omegaAverage e m (some o.avgMethod) = .ok (tAvg, wAvg) ∧
        List.Forall₂ (fun f t => e.eval (.spline (min o.generalKw.k (wAvg.length - 1)) 2)
          (wAvg.map (· / (2 * e.pi))) tAvg f = .ok t) vr.atleast1d ts) := by
  obtain ⟨p, a, lacking, _, ⟨hn, _⟩ | ⟨m', p', a', hmo, _, _, hm, hev⟩⟩ := measureEcc_ok h
  · exact absurd hn (by simp)
  injection hmo with hmo; subst hmo
  obtain ⟨ho, hpp, haa, htp, hta, _, _, _, _, hP, hA⟩ := prepare_ok hm
  obtain ⟨trefIn, fOut, trefOut, ecc, ano, hr, htr, hne, hlen, hecc, hano, _, hret⟩ := evaluate_ok hev
  obtain ⟨ve, va, vr, hre, h1, h2, h3, h4, h5, h6⟩ := makeReturn_ok hret
  have hk := retDict_get m.o.domain ve va vr
  rw [← hre] at hk
  subst ho hpp haa
  have hts : m.tPeri = m.pericenters.map fun i => m.o.t.getD i 0 := htp
  refine ⟨m.interpP, m.interpA, ve, va, vr, trefOut, extremaInterpolant_curve hP, extremaInterpolant_curve hA, hk.1,
    hk.2.1, ?_, ?_, ?_, ?_, ?_⟩
  · cases hd : m.o.domain with
    | time => exact (hk.2.2.1 hd).1
    | frequency => exact (hk.2.2.2 hd).1
  · rw [h4]
    unfold computeEccentricity at hecc
    obtain ⟨_, _, hecc1⟩ := bind_ok hecc
    obtain ⟨wp, hwp, hecc2⟩ := bind_ok hecc1
    obtain ⟨wa, hwa, hecc3⟩ := bind_ok hecc2
    have hecc4 := Except.ok.inj hecc3
    rw [← hecc4]
    have hwp' := mapM_forall₂ hwp
    have hwa' := mapM_forall₂ hwa
    clear * - hwp' hwa'
    induction hwp' generalizing wa with
    | nil => cases hwa'; exact .nil
    | cons hx _ ih =>
      cases hwa' with
      | cons hy hys => exact .cons ⟨_, _, hx, hy, rfl⟩ (ih _ hys)
  · rw [h5]
    have hin : ∀ x ∈ trefOut, Within m.tPeri x ∧ Within m.tApo x := by
      intro x hx
      rw [htr, List.mem_filter] at hx
      have := of_decide_eq_true hx.2
      exact (prepare_window hm x).mp ⟨this.2, this.1⟩
    obtain ⟨r, hr', hall⟩ := C15_mean_anomaly e _ _ _ m hm hpi (hts ▸ hp) trefOut hin
    rw [hano] at hr'
    have hr2 := Except.ok.inj hr'
    rw [← hts, hr2]
    exact hall.imp fun x v hv => hv.2.2
  · intro hd
    rw [hd] at h6
    exact h6 (computeEccentricity_length hecc).symm
  · intro hd
    rw [hd] at h6
    have h7 : vr.atleast1d = fOut := h6 (by rw [computeEccentricity_length hecc]; exact hlen hd)
    obtain ⟨_, c, tAvg, wAvg, _, hav, _, _, hint⟩ := trefFromFref_ok (referenceTimes_frequency hd hr)
    have hv := interpolate_values hint
    have hall : trefOut = trefIn := by
      rw [htr]
      apply List.filter_sublist.eq_of_length
      rw [← htr, ← hlen hd]
      exact hv.length_eq
    rw [hall, h7]
    refine ⟨tAvg, wAvg, hav, ?_⟩
    simpa only [List.length_map] using hv

/-- The premises are met: the demonstration runs return times 5 and 13, and frequencies 13/20 and 2/3; the pericenter curve
through (2, 504/100), (6, 512/100), ... at time 5 is 51/10 and the apocenter curve is 41/10. -/
example : (measureEcc Demo.ext Demo.obj none).map (fun r => (r.1.get? "eccentricity", r.1.get? "tref_out"))
    = .ok (some (.array [(51 / 10 - 41 / 10) / (51 / 10 + 41 / 10), (263 / 50 - 213 / 50) / (263 / 50 + 213 / 50)]),
      some (.array [5, 13])) := by decide +kernel

example : (measureEcc Demo.ext Demo.objF none).toOption.isSome = true := by decide +kernel

/-- With the formula the code uses: wherever the pericenter curve is not below the apocenter curve and this one is positive,
the returned eccentricity is in [0, 1); it is negative exactly where the two curves, both positive, are in the wrong order. -/
theorem C75_range (e : Ext ℝ) (o : Obj ℝ) (cache cache' : AvgCache ℝ) (ret : Dict String (Val ℝ)) (m : Meas ℝ)
    (hecc : e.eccOf = eccFromOmega) (hpi : 0 < e.pi)
    (hp : (m.pericenters.map fun i => o.t.getD i 0).Pairwise (· < ·)) (hd : o.domain = .time)
    (h : measureEcc e o cache = .ok (ret, some m, cache')) :
    ∃ fP fA ve vr, ExtremaCurve e o .pericenters m.pericenters m.apocenters fP ∧
      ExtremaCurve e o .apocenters m.pericenters m.apocenters fA ∧
      ret.get? "eccentricity" = some ve ∧ ret.get? "tref_out" = some vr ∧
      List.Forall₂ (fun t x => ∃ wp wa, fP t = .ok wp ∧ fA t = .ok wa ∧
        (0 < wa → wa ≤ wp → 0 ≤ x ∧ x < 1) ∧ (0 < wa → 0 < wp → (x < 0 ↔ wp < wa))) vr.atleast1d ve.atleast1d := by
  obtain ⟨fP, fA, ve, va, vr, ts, h1, h2, h3, h4, h5, h6, h7, h8, _⟩ :=
    C75_returned_numbers e o cache cache' ret m hpi hp h
  rw [hd] at h5
  refine ⟨fP, fA, ve, vr, h1, h2, h3, h5, ?_⟩
  rw [h8 hd]
  refine h6.imp ?_
  rintro t x ⟨wp, wa, hw, ha, rfl⟩
  rw [hecc]
  exact ⟨wp, wa, hw, ha, fun h0 hle => C11_eccentricity_range h0 hle,
    fun h0 h0' => (C12_eccentricity_sign h0' h0).2.1⟩

/-- **C11** and **C12** for what a call returns, at reference times or frequencies: there are times, one for each returned
eccentricity, at which the two curves through the extrema have values `ω_p` and `ω_a` such that the eccentricity is in
[0, 1) if `0 < ω_a ≤ ω_p`, and, if both are positive, zero exactly where they agree and negative exactly where the
pericenter curve is the lower. -/
theorem C11_reported (e : Ext ℝ) (o : Obj ℝ) (cache cache' : AvgCache ℝ) (ret : Dict String (Val ℝ)) (m : Meas ℝ)
    (hecc : e.eccOf = eccFromOmega) (hpi : 0 < e.pi)
    (hp : (m.pericenters.map fun i => o.t.getD i 0).Pairwise (· < ·))
    (h : measureEcc e o cache = .ok (ret, some m, cache')) :
    ∃ fP fA ve ts, ExtremaCurve e o .pericenters m.pericenters m.apocenters fP ∧
      ExtremaCurve e o .apocenters m.pericenters m.apocenters fA ∧
      ret.get? "eccentricity" = some ve ∧
      List.Forall₂ (fun t x => ∃ wp wa, fP t = .ok wp ∧ fA t = .ok wa ∧
        (0 < wa → wa ≤ wp → 0 ≤ x ∧ x < 1) ∧
        (0 < wa → 0 < wp → (x = 0 ↔ wp = wa) ∧ (x < 0 ↔ wp < wa) ∧ (0 < x ↔ wa < wp))) ts ve.atleast1d := by
  obtain ⟨fP, fA, ve, va, vr, ts, h1, h2, h3, h4, h5, h6, _⟩ :=
    C75_returned_numbers e o cache cache' ret m hpi hp h
  refine ⟨fP, fA, ve, ts, h1, h2, h3, h6.imp ?_⟩
  rintro t x ⟨wp, wa, hw, ha, rfl⟩
  rw [hecc]
  exact ⟨wp, wa, hw, ha, fun h0 hle => C11_eccentricity_range h0 hle, fun h0 h0' => C12_eccentricity_sign h0' h0⟩

/-! ## C28 The averages -/

/-- The orbit-averaged frequency at new times is the spline (of order `min k (n - 1)`, raising outside its nodes) through
one point per orbit, pericenter to pericenter and apocenter to apocenter, put in the order of time: the middle of the
orbit and the phase accumulated per unit time. -/
theorem C28_interpolated (e : Ext K) (m : Meas K) (hsort : ∀ l, Sorts l (e.argsort l)) (ts r : List K)
    (h : computeOrbitAveraged e m ts = .ok r) :
    ∃ pts : List (K × K),
      pts.Perm (OrbitPoints m.o.phase m.o.t m.apocenters ++ OrbitPoints m.o.phase m.o.t m.pericenters) ∧
      (pts.map (·.1)).Pairwise (· < ·) ∧ (pts.map (·.2)).Pairwise (· < ·) ∧
      List.Forall₂ (fun t w => e.eval (.spline (min m.o.generalKw.k (pts.length - 1)) 2)
        (pts.map (·.1)) (pts.map (·.2)) t = .ok w) ts r := by
  obtain ⟨hperm, _⟩ := C28_attached e m hsort
  have hv := C28_value e m ts r h
  unfold computeOrbitAveraged at h
  obtain ⟨_, _, h1⟩ := bind_ok h
  obtain ⟨_, _, h2⟩ := bind_ok h1
  simp only at h2
  obtain ⟨_, _, h3⟩ := bind_ok h2
  have hlen := (C35_interpolate _ _ _ _ _ _ _ _ _ h3).1
  have hi := interpolate_values h3
  refine ⟨_, hperm, ?_, ?_, ?_⟩
  · rw [List.map_fst_zip hlen.ge]; exact hv.2.2.2.1
  · rw [List.map_snd_zip hlen.le]; exact hv.2.2.1
  · rw [List.map_fst_zip hlen.ge, List.map_snd_zip hlen.le, List.length_zip, hlen, min_self]
    exact hi

example : (prepare Demo.ext Demo.obj [2, 6, 10, 14] [4, 8, 12, 16] >>= fun m =>
    computeOrbitAveraged Demo.ext m [4, 5, 13]) = .ok [102 / 25, 41 / 10, 213 / 50] := by decide +kernel

theorem insertIdx_spec (l : List ℚ) (i : ℕ) : ∀ r : List ℕ, (r.map (fun i => l.getD i 0)).Pairwise (· ≤ ·) →
    (Demo.insertIdx l i r).Perm (i :: r) ∧ ((Demo.insertIdx l i r).map (fun i => l.getD i 0)).Pairwise (· ≤ ·)
  | [], _ => by simp [Demo.insertIdx]
  | j :: r, h => by
    rw [List.map_cons, List.pairwise_cons] at h
    unfold Demo.insertIdx
    split
    · rename_i hlt
      refine ⟨List.Perm.refl _, ?_⟩
      rw [List.map_cons, List.pairwise_cons]
      refine ⟨?_, by rw [List.map_cons, List.pairwise_cons]; exact h⟩
      intro y hy
      rw [List.map_cons, List.mem_cons] at hy
      rcases hy with rfl | hy
      · exact hlt.le
      · exact hlt.le.trans (h.1 y hy)
    · rename_i hge
      obtain ⟨h1, h2⟩ := insertIdx_spec l i r h.2
      refine ⟨(h1.cons j).trans (List.Perm.swap _ _ _), ?_⟩
      rw [List.map_cons, List.pairwise_cons]
      refine ⟨?_, h2⟩
      intro y hy
      have hy' := (h1.map (fun i => l.getD i 0)).mem_iff.mp hy
      rw [List.map_cons, List.mem_cons] at hy'
      rcases hy' with rfl | hy'
      · exact not_lt.mp hge
      · exact h.1 y hy'

/-- The sorting used in the demonstration meets the premise. -/
theorem demo_sorts (l : List ℚ) : Sorts l (Demo.ext.argsort l) := by
  have key : ∀ n, ((List.range n).foldl (fun acc i => Demo.insertIdx l i acc) []).Perm (List.range n) ∧
      (((List.range n).foldl (fun acc i => Demo.insertIdx l i acc) []).map (fun i => l.getD i 0)).Pairwise (· ≤ ·) := by
    intro n
    induction n with
    | zero => simp
    | succ n ih =>
      rw [List.range_succ, List.foldl_append]
      obtain ⟨h1, h2⟩ := insertIdx_spec l n _ ih.2
      refine ⟨?_, h2⟩
      exact (h1.trans (ih.1.cons n)).trans (List.perm_append_singleton n _).symm
  exact key l.length

/-- What the three documented averages are: the name chosen decides which is computed, and any other name raises. -/
theorem C28_methods (e : Ext K) (m : Meas K) (hsort : ∀ l, Sorts l (e.argsort l)) (method : String) (ts w : List K)
    (h : omegaAverage e m (some method) = .ok (ts, w)) :
    (method = "orbit_averaged_omega_gw" ∧ ∃ pts : List (K × K),
      pts.Perm (OrbitPoints m.o.phase m.o.t m.apocenters ++ OrbitPoints m.o.phase m.o.t m.pericenters) ∧
      (pts.map (·.1)).Pairwise (· < ·) ∧
      List.Forall₂ (fun t w => e.eval (.spline (min m.o.generalKw.k (pts.length - 1)) 2)
        (pts.map (·.1)) (pts.map (·.2)) t = .ok w) ts w) ∨
    (method = "mean_of_extrema_interpolants" ∧
      List.Forall₂ (fun t w => ∃ wp wa, m.interpP t = .ok wp ∧ m.interpA t = .ok wa ∧ w = (wp + wa) / 2) ts w) ∨
    (method = "omega_gw_zeroecc" ∧ ∃ tz wz, m.o.zeroecc = some (tz, wz) ∧
      List.Forall₂ (fun t w => e.eval (.spline (min m.o.generalKw.k (tz.length - 1)) 2) tz wz t = .ok w) ts w) := by
  unfold omegaAverage at h
  simp only [Option.getD_some] at h
  obtain ⟨ts', _, h1⟩ := bind_ok h
  obtain ⟨w', hw, h2⟩ := bind_ok h1
  have h3 := Except.ok.inj h2
  simp only [Prod.mk.injEq] at h3
  obtain ⟨rfl, rfl⟩ := h3
  unfold evalAverage at hw
  split at hw
  · rename_i hm
    refine Or.inr (Or.inl ⟨hm, ?_⟩)
    unfold computeMeanOfInterpolants at hw
    obtain ⟨wp, hwp, hw1⟩ := bind_ok hw
    obtain ⟨wa, hwa, hw2⟩ := bind_ok hw1
    have hw3 := Except.ok.inj hw2
    rw [← hw3]
    have hwp' := mapM_forall₂ hwp
    have hwa' := mapM_forall₂ hwa
    clear * - hwp' hwa'
    induction hwp' generalizing wa with
    | nil => cases hwa'; exact .nil
    | cons hx _ ih =>
      cases hwa' with
      | cons hy hys => exact .cons ⟨_, _, hx, hy, by ring⟩ (ih _ hys)
  · split at hw
    · rename_i hm
      obtain ⟨pts, hp, h1, _, h3⟩ := C28_interpolated e m hsort _ _ hw
      exact Or.inl ⟨hm, pts, hp, h1, h3⟩
    · split at hw
      · rename_i hm
        refine Or.inr (Or.inr ⟨hm, ?_⟩)
        unfold computeOmegaZeroecc at hw
        split at hw
        · exact absurd hw (by simp)
        · rename_i tz wz hz
          exact ⟨tz, wz, hz, interpolate_values hw⟩
      · exact absurd hw (by simp)

end GwEcc
