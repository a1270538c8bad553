import Verif.Props.Reference

set_option linter.unusedSectionVars false

/-!
# C106 for frequencies: asking for fewer frequencies
-/

namespace GwEcc

open Spec Points

namespace Points

section
variable {K : Type} [Field K] [LinearOrder K] [FloorRing K]

/-- The second half of a measurement returns when its steps do. -/
theorem evaluate_steps {e : Ext K} {o : Obj K} {p a : List ℕ} {m : Meas K} (hm : prepare e o p a = .ok m) {d : Domain} {r : Val K}
    {ts fOut : List K} {c c' : AvgCache K} (href : referenceTimes e (turnM m d r) c = .ok (ts, fOut, c'))
    (hlen : d = .frequency → fOut.length = ts.length) (hne : ts ≠ [])
    (hfine : ∀ x ∈ ts, Fine e m x) (hacc : Accepted e m ts) {ret : Dict String (Val K)}
    (hret : makeReturn d r.isScalar (ts.map (eccAt e m)) (ts.map (anoAt e m)) (d.pick ts fOut) = .ok ret) :
    evaluate e (turnM m d r) c = .ok (ret, c') := by
  obtain ⟨h1, h2⟩ := both_of hfine
  obtain ⟨⟨o1, k1⟩, o2, k2⟩ := hacc
  have hts : ts.filter (fun x => decide (x ≤ m.tmax ∧ m.tmin ≤ x)) = ts := by
    refine List.filter_eq_self.mpr fun x hx => ?_
    rw [decide_eq_true_eq]
    exact ⟨(hfine x hx).1.2, (hfine x hx).1.1⟩
  unfold evaluate
  rw [href]
  simp only [ok_bind]
  rw [show (turnM m d r).tmax = m.tmax from rfl, show (turnM m d r).tmin = m.tmin from rfl, hts]
  rw [if_neg (by rintro ⟨h, h'⟩; exact h' (hlen h)), if_neg (by simpa using hne)]
  obtain ⟨-, -, -, -, -, -, -, ⟨p0, p1, a0, a1, q1, q2, -, -, q5, q6⟩, -⟩ := prepare_ok hm
  obtain ⟨x0, hx0, hm0⟩ : ∃ x0, pyGet ts 0 = .ok x0 ∧ x0 ∈ ts := by
    obtain ⟨x0, xs, rfl⟩ := List.exists_cons_of_ne_nil hne
    exact ⟨x0, rfl, by simp⟩
  obtain ⟨x1, hx1, hm1⟩ : ∃ x1, pyLast ts = .ok x1 ∧ x1 ∈ ts := by
    refine ⟨ts.getLast hne, ?_, List.getLast_mem hne⟩
    unfold pyLast
    rw [List.getLast?_eq_some_getLast hne]
  have hp0 : pyGet (turnM m d r).tPeri 0 = .ok p0 := by
    unfold pyGet
    rw [← List.head?_eq_getElem?, show (turnM m d r).tPeri = m.tPeri from rfl, q1]
  have hp1 : pyLast (turnM m d r).tPeri = .ok p1 := by
    unfold pyLast
    rw [show (turnM m d r).tPeri = m.tPeri from rfl, q2]
  rw [hx0, hx1, hp0, hp1]
  simp only [ok_bind]
  rw [if_neg, ecc_turn, ano_turn, mono_turn, h1, h2, k1]
  · simp only [ok_bind]
    rw [show (turnM m d r).o.level = m.o.level from rfl, k2]
    simp only [ok_bind]
    rw [show (turnM m d r).o.domain = d from rfl, show (turnM m d r).o.refIn = r from rfl, hret]
    rfl
  · have g0 := (hfine x0 hm0).1.1
    have g1 := (hfine x1 hm1).1.2
    rw [q5] at g0
    rw [q6] at g1
    push Not
    exact ⟨le_trans (le_max_left _ _) g0, le_trans g1 (min_le_left _ _)⟩

/-- Interpolating at some of the points. -/
theorem interpolate_sub {tol : K} {eval : InterpCall → List K → List K → K → Py K} {newX newX' oldX oldY out : List K}
    {ip : Interpolator} {kw : SplineKwargs} {given : Bool} (h : interpolate tol eval newX oldX oldY false ip kw given = .ok out)
    (hne : newX' ≠ []) (hsub : ∀ x ∈ newX', x ∈ newX) :
    ∃ out', interpolate tol eval newX' oldX oldY false ip kw given = .ok out' := by
  unfold interpolate at h ⊢
  split at h
  · cases h
  rename_i hl
  rw [if_neg hl]
  simp only [Bool.false_eq_true, if_false] at h ⊢
  obtain ⟨mn, h1, h⟩ := bind_ok h
  obtain ⟨mo, h2, h⟩ := bind_ok h
  obtain ⟨Mn, h3, h⟩ := bind_ok h
  obtain ⟨Mo, h4, h⟩ := bind_ok h
  split at h
  · cases h
  rename_i hr
  obtain ⟨q, h5, h⟩ := bind_ok h
  obtain ⟨mn', k1⟩ := npMin_ok hne
  obtain ⟨Mn', k3⟩ := npMax_ok hne
  rw [k1, h2, k3, h4]
  simp only [ok_bind]
  push Not at hr
  have b1 := (npMin_spec h1).2 mn' (hsub _ (npMin_spec k1).1)
  have b2 := (npMax_spec h3).2 Mn' (hsub _ (npMax_spec k3).1)
  rw [if_neg (by push Not; exact ⟨hr.1.trans b1, b2.trans hr.2⟩), h5]
  exact mapM_ok_iff.mpr fun x hx => mapM_ok_iff.mp ⟨out, h⟩ x (hsub x hx)

end

section
variable {K : Type} [Field K] [LinearOrder K] [IsStrictOrderedRing K] [FloorRing K]

/-- The message about times that do not increase is accepted at the frequencies `l'` if it is at `l`. -/
def Fewer (level : ℤ) (l' l : List K) : Prop :=
  l'.Sublist l ∨ ((∀ x ∈ l', x ∈ l) ∧ (level = -1 ∨ level = 0 ∨ level = 1))

theorem Fewer.mem {level : ℤ} {l' l : List K} (h : Fewer level l' l) : ∀ x ∈ l', x ∈ l := by
  rcases h with h | ⟨h, -⟩
  · exact fun x hx => h.subset hx
  · exact h

theorem Fewer.message {level : ℤ} {l' l : List K} (h : Fewer level l' l) (f : K → K) {o : Outcome}
    (hm : (if (diff (l.map f)).any (fun d => decide (d ≤ 0)) then debugMessage level false else pure .silent) = .ok o) :
    ∃ o', (if (diff (l'.map f)).any (fun d => decide (d ≤ 0)) then debugMessage level false else pure .silent) = .ok o' := by
  by_cases hc : (diff (l'.map f)).any (fun d => decide (d ≤ 0)) = true
  · rw [if_pos hc]
    rcases h with h | ⟨-, h⟩
    · refine ⟨o, ?_⟩
      rw [if_pos] at hm
      · exact hm
      by_contra hn
      have hp : (l.map f).Pairwise (· < ·) := by
        rw [← diff_pos_iff]
        intro d hd
        by_contra hc
        exact hn (List.any_eq_true.2 ⟨d, hd, decide_eq_true (not_lt.1 hc)⟩)
      have hp' := (diff_pos_iff _).mpr (hp.sublist (h.map f))
      obtain ⟨d, hd, hd'⟩ := List.any_eq_true.mp hc
      exact absurd (hp' d hd) (not_lt.mpr (of_decide_eq_true hd'))
    · rcases h with rfl | rfl | rfl <;> exact ⟨_, rfl⟩
  · rw [if_neg hc]; exact ⟨_, rfl⟩

theorem fewer_filter {level : ℤ} {l' l : List K} (h : Fewer level l' l) (p : K → Bool) : Fewer level (l'.filter p) (l.filter p) := by
  rcases h with h | ⟨h, hl⟩
  · exact .inl (h.filter p)
  · refine .inr ⟨fun x hx => ?_, hl⟩
    rw [List.mem_filter] at hx ⊢
    exact ⟨h x hx.1, hx.2⟩

/-- The second half of a measurement for fewer frequencies. -/
theorem frequencies_fewer {e : Ext K} {o : Obj K} {p a : List ℕ} {m : Meas K} (hm : prepare e o p a = .ok m) {v w : Val K}
    {c : AvgCache K} {ret : Dict String (Val K)} (h : evaluate e (turnM m .frequency v) none = .ok (ret, c))
    (hf : Fewer m.o.level w.atleast1d v.atleast1d) :
    ∃ (keep : K → Bool) (ve va vr : Val K), Returns ret "fref_out" ve va vr ∧ vr.atleast1d = v.atleast1d.filter keep ∧
      (w.atleast1d.filter keep ≠ [] → ∃ ret' c' ve' va' vr', evaluate e (turnM m .frequency w) none = .ok (ret', c') ∧
        Returns ret' "fref_out" ve' va' vr' ∧ vr'.atleast1d = w.atleast1d.filter keep) := by
  obtain ⟨tref, fOut, ts, hr, hts, hne, hlen, hfine, hacc, hret⟩ := evaluate_full h
  have htr := referenceTimes_frequency rfl hr
  have ht := trefs_val htr
  have hall : ts = tref := by
    rw [hts]
    refine (List.filter_eq_self (l := tref)).mpr ?_
    have hl : ts.length = tref.length := by rw [← hlen rfl, ht, List.length_map]
    rw [hts] at hl
    exact List.length_filter_eq_length_iff.mp hl
  subst hall
  clear hts
  rw [show (turnM m .frequency v).o.refIn = v from rfl] at htr
  unfold trefFromFref at htr
  split at htr
  swap
  · cases htr
  rename_i hav
  obtain ⟨⟨fo, c1⟩, h1, htr⟩ := bind_ok htr
  obtain ⟨⟨tt, ww⟩, h2, htr⟩ := bind_ok htr
  obtain ⟨u, h3, htr⟩ := bind_ok htr
  obtain ⟨tr, h4, htr⟩ := bind_ok htr
  obtain ⟨o1, h5, htr⟩ := bind_ok htr
  simp only [pure_eq_ok, Except.ok.injEq, Prod.mk.injEq] at htr
  obtain ⟨⟨rfl, rfl⟩, rfl⟩ := htr
  obtain ⟨lo, hi, hb, hfo, hfne⟩ := frefOut_ok h1
  obtain ⟨ve, va, vr, k, -, -, -, -, -, k6⟩ := return_entries hret (by rw [ht]; simp [Domain.pick, turnM, turn])
  refine ⟨fun f => decide (lo ≤ f ∧ f < hi), ve, va, vr, k, by rw [k6, ← hfo]; rfl, fun hwne => ?_⟩
  have hsub := fewer_filter hf (fun f => decide (lo ≤ f ∧ f < hi))
  rw [← hfo] at hsub
  obtain ⟨tr', h4'⟩ := interpolate_sub h4 hwne hsub.mem
  obtain ⟨o2, h5'⟩ : ∃ o', (if (diff tr').any (fun d => decide (d ≤ 0)) then debugMessage m.o.level false else pure .silent) = .ok o' := by
    have e1 : tr' = (w.atleast1d.filter fun f => decide (lo ≤ f ∧ f < hi)).map (timeAt e m) := by
      obtain ⟨q, hq, hm'⟩ := interpolate_val h4'
      rw [mapM_val hm']
      refine List.map_congr_left fun x _ => ?_
      have hw' : omegaAverage e m (some m.o.avgMethod) = .ok (tt, ww) := h2
      have hq' : getInterpolant (ww.map (· / (2 * e.pi))) false .spline m.o.generalKw true = .ok q := hq
      unfold timeAt
      rw [hw']
      dsimp only
      rw [hq']
    rw [e1]
    rw [ht] at h5
    exact hsub.message _ h5
  have htw : trefFromFref e (turnM m .frequency w) none w.atleast1d =
      .ok ((tr', w.atleast1d.filter fun f => decide (lo ≤ f ∧ f < hi)), some (tt, ww)) := by
    have hbw : frefBounds e (turnM m .frequency w) none (some (turnM m .frequency w).o.avgMethod) = .ok ((lo, hi), c1) := hb
    have hfw : frefOut e (turnM m .frequency w) none w.atleast1d (turnM m .frequency w).o.avgMethod =
        .ok (w.atleast1d.filter fun f => decide (lo ≤ f ∧ f < hi), c1) := by
      unfold frefOut
      rw [hbw]
      simp only [ok_bind]
      rw [if_neg (by simpa using hwne)]
      rfl
    unfold trefFromFref
    rw [if_pos (show (turnM m .frequency w).o.avgMethod ∈ averagingMethods from hav), hfw]
    simp only [ok_bind]
    rw [show omegaAverage e (turnM m .frequency w) (some (turnM m .frequency w).o.avgMethod) = .ok (tt, ww) from h2]
    simp only [ok_bind]
    rw [h3]
    simp only [ok_bind]
    rw [show (turnM m .frequency w).o.generalKw = (turnM m .frequency v).o.generalKw from rfl, h4']
    simp only [ok_bind]
    rw [show (turnM m .frequency w).o.level = m.o.level from rfl, h5']
    rfl
  have ht' := trefs_val htw
  have hrw : referenceTimes e (turnM m .frequency w) none =
      .ok (tr', w.atleast1d.filter fun f => decide (lo ≤ f ∧ f < hi), some (tt, ww)) := by
    unfold referenceTimes
    rw [show (turnM m .frequency w).o.domain = .frequency from rfl, show (turnM m .frequency w).o.refIn = w from rfl]
    dsimp only
    rw [htw]
    rfl
  have hmem : ∀ x ∈ tr', x ∈ tr := by
    rw [ht', ht]
    intro x hx
    obtain ⟨f, hf', rfl⟩ := List.mem_map.mp hx
    exact List.mem_map.mpr ⟨f, hsub.mem f hf', rfl⟩
  obtain ⟨ret', hret'⟩ := return_ok (d := .frequency) (s := w.isScalar) (ecc := tr'.map (eccAt e m)) (ano := tr'.map (anoAt e m))
    (ref := w.atleast1d.filter fun f => decide (lo ≤ f ∧ f < hi)) (by rw [ht']; simp) (by rw [ht']; simp)
    (filter_scalar hwne)
  have hev := evaluate_steps hm hrw (fun _ => by rw [ht']; simp) (by rw [ht']; simpa using hwne)
    (fun x hx => hfine x (hmem x hx)) (accepted_sub hacc hmem) hret'
  obtain ⟨ve', va', vr', k', -, -, -, -, -, k6'⟩ := return_entries hret' (by rw [ht']; simp)
  exact ⟨ret', _, ve', va', vr', hev, k', k6'⟩

end

end Points

section
variable {K C : Type} [Field K] [LinearOrder K] [IsStrictOrderedRing K] [FloorRing K]

/-- Asking for fewer frequencies: if a call returns, a call for some of its frequencies returns too, as long as one of them was
answered, and it answers those of them that were.  The frequencies left are in their former order, or in any order if the
debug level is not the strict one. -/
theorem C106_fewer_frequencies (fuel : ℕ) (lib : Libs K C) (a : Call K C) (hseg : WholeWaveform a) (v w : Val K) (ans : Answer K C)
    (hrun : run fuel lib (askFrequencies a v) = some (.ok ans)) (ve va vr : Val K) (hret : Returns ans.ret "fref_out" ve va vr)
    (hsub : w.atleast1d.Sublist v.atleast1d ∨ ((∀ x ∈ w.atleast1d, x ∈ v.atleast1d) ∧ (a.level = -1 ∨ a.level = 0 ∨ a.level = 1)))
    (hone : ∃ x ∈ w.atleast1d, x ∈ vr.atleast1d) :
    ∃ ans' ve' va' vr', run fuel lib (askFrequencies a w) = some (.ok ans') ∧ Returns ans'.ret "fref_out" ve' va' vr' ∧
      ∀ keep : K → Bool, (∀ x, keep x = true ↔ x ∈ vr.atleast1d) → vr'.atleast1d = w.atleast1d.filter keep := by
  have hmem : ∀ x ∈ w.atleast1d, x ∈ v.atleast1d := by
    rcases hsub with h | ⟨h, -⟩
    · exact fun x hx => h.subset hx
    · exact h
  rcases source (d := .frequency) (r := v) hrun hseg with ⟨o, hz⟩ | ⟨e, o, p, q, m, hm, hl, hev⟩
  · obtain ⟨_, _, vr0, k0, -, -, -, -, -, k6⟩ := zero_entries ((hz .frequency v ans.ret).mp ⟨ans, hrun, rfl⟩)
    obtain ⟨-, -, rfl⟩ := returns_unique hret k0
    obtain ⟨ret, hr⟩ := zero_ok o .frequency w
    obtain ⟨ans', h1, rfl⟩ := (hz .frequency w ret).mpr hr
    obtain ⟨ve', va', vr', k0', -, -, -, -, -, k6'⟩ := zero_entries hr
    refine ⟨ans', ve', va', vr', h1, k0', fun keep hk => ?_⟩
    rw [k6']
    refine (List.filter_eq_self.mpr fun x hx => ?_).symm
    rw [hk, k6]
    exact hmem x hx
  · obtain ⟨c, h3⟩ := (hev .frequency v ans.ret).mp ⟨ans, hrun, rfl⟩
    have hf : Fewer m.o.level w.atleast1d v.atleast1d := by
      rw [prepare_obj hm, hl]
      exact hsub
    obtain ⟨kp, _, _, vr0, k0, k6, hw⟩ := frequencies_fewer hm h3 hf
    obtain ⟨-, -, rfl⟩ := returns_unique hret k0
    have hkp : ∀ x ∈ w.atleast1d, (kp x = true ↔ x ∈ vr.atleast1d) := by
      intro x hx
      rw [k6, List.mem_filter]
      exact ⟨fun h => ⟨hmem x hx, h⟩, fun h => h.2⟩
    obtain ⟨ret, c', ve', va', vr', h4, k0', k6'⟩ := hw (by
      obtain ⟨x, hx, hx'⟩ := hone
      exact List.ne_nil_of_mem (List.mem_filter.mpr ⟨hx, (hkp x hx).mpr hx'⟩))
    obtain ⟨ans', h5, rfl⟩ := (hev .frequency w ret).mpr ⟨_, h4⟩
    refine ⟨ans', ve', va', vr', h5, k0', fun keep hk => ?_⟩
    rw [k6']
    refine List.filter_congr fun x hx => ?_
    rw [Bool.eq_iff_iff, hk, hkp x hx]

end

namespace ReferenceDemo

open RunDemo

/-- The premises are met by the demonstration call for two frequencies in the range and one outside of it, and the second of them. -/
example : ∃ ans ve va vr, run 60 lib (askFrequencies call (.array [13 / 20, 2 / 3, 100])) = some (.ok ans) ∧
    Returns ans.ret "fref_out" ve va vr ∧ (Val.scalar (2 / 3 : ℚ)).atleast1d.Sublist (Val.array [13 / 20, 2 / 3, 100]).atleast1d ∧
      ∃ x ∈ (Val.scalar (2 / 3 : ℚ)).atleast1d, x ∈ vr.atleast1d := by
  obtain ⟨ans, h⟩ := some_answer (a := askFrequencies call (.array [13 / 20, 2 / 3, 100])) (by decide +kernel)
  have hv : (run 60 lib (askFrequencies call (.array [13 / 20, 2 / 3, 100]))).bind (fun r => r.toOption.bind fun x =>
      (x.ret.get? "eccentricity").bind fun _ => (x.ret.get? "mean_anomaly").bind fun _ =>
        (x.ret.get? "fref_out").map fun v => v.atleast1d) = some [13 / 20, 2 / 3] := by decide +kernel
  rw [h, Option.bind_some] at hv
  change ((ans.ret.get? "eccentricity").bind fun _ => _) = _ at hv
  obtain ⟨ve, h1, hv⟩ := Option.bind_eq_some_iff.mp hv
  obtain ⟨va, h2, hv⟩ := Option.bind_eq_some_iff.mp hv
  obtain ⟨vr, h3, hv⟩ := Option.map_eq_some_iff.mp hv
  exact ⟨ans, ve, va, vr, h, ⟨h1, h2, h3⟩, by decide +kernel, 2 / 3, by simp [Val.atleast1d], by rw [hv]; simp⟩

end ReferenceDemo

end GwEcc
