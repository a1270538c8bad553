import Verif.Lemmas.Average
import Verif.Lemmas.MeasureDemo
import Verif.Props.Measure

/-!
# C28–C30 Average frequency and reference frequencies
-/

set_option linter.unusedSectionVars false

namespace GwEcc

open Spec

variable {K : Type} [Field K] [LinearOrder K] [IsStrictOrderedRing K]

/-! ## C28 Orbit averaged frequency -/

/-- There is one average per pair of neighbouring extrema: phase accumulated over elapsed time. -/
theorem C28_formula (o : Obj K) (ext : List ℕ) :
    orbitAveraged o ext = (OrbitPoints o.phase o.t ext).map (·.2) ∧
    midTimes (takeAt o.t ext) = (OrbitPoints o.phase o.t ext).map (·.1) := by
  rw [← zip_orbitAveraged]
  have h1 := length_midTimes (takeAt o.t ext)
  have h2 := length_orbitAveraged o ext
  have h3 : (takeAt o.t ext).length = ext.length := by simp [takeAt]
  constructor
  · rw [List.map_snd_zip]; omega
  · rw [List.map_fst_zip]; omega

/-- It lies between the rates of two single time steps of that orbit. -/
theorem C28_between (phase t : List K) (i j : ℕ) (hij : i < j)
    (ht : ∀ k, i ≤ k → k < j → t.getD k 0 < t.getD (k + 1) 0) :
    (∃ k, i ≤ k ∧ k < j ∧ MeanRate phase t k (k + 1) ≤ MeanRate phase t i j) ∧
    (∃ k, i ≤ k ∧ k < j ∧ MeanRate phase t i j ≤ MeanRate phase t k (k + 1)) := by
  obtain ⟨n, rfl⟩ : ∃ n, j = i + n + 1 := ⟨j - i - 1, by omega⟩
  -- smallest and largest rate among finitely many steps
  have exmin : ∀ n, ∃ k, i ≤ k ∧ k < i + n + 1 ∧ ∀ q, i ≤ q → q < i + n + 1 →
      MeanRate phase t k (k + 1) ≤ MeanRate phase t q (q + 1) := by
    intro n
    induction n with
    | zero =>
      refine ⟨i, le_refl _, by omega, fun q a b => ?_⟩
      have : q = i := by omega
      subst this; exact le_refl _
    | succ n ih =>
      obtain ⟨k, h1, h2, h3⟩ := ih
      rcases le_total (MeanRate phase t k (k + 1)) (MeanRate phase t (i + n + 1) (i + n + 1 + 1)) with h | h
      · refine ⟨k, h1, by omega, fun q a b => ?_⟩
        by_cases hq : q < i + n + 1
        · exact h3 q a hq
        · have : q = i + n + 1 := by omega
          subst this; exact h
      · refine ⟨i + n + 1, by omega, by omega, fun q a b => ?_⟩
        by_cases hq : q < i + n + 1
        · exact h.trans (h3 q a hq)
        · have : q = i + n + 1 := by omega
          subst this; exact le_refl _
  have exmax : ∀ n, ∃ k, i ≤ k ∧ k < i + n + 1 ∧ ∀ q, i ≤ q → q < i + n + 1 →
      MeanRate phase t q (q + 1) ≤ MeanRate phase t k (k + 1) := by
    intro n
    induction n with
    | zero =>
      refine ⟨i, le_refl _, by omega, fun q a b => ?_⟩
      have : q = i := by omega
      subst this; exact le_refl _
    | succ n ih =>
      obtain ⟨k, h1, h2, h3⟩ := ih
      rcases le_total (MeanRate phase t k (k + 1)) (MeanRate phase t (i + n + 1) (i + n + 1 + 1)) with h | h
      · refine ⟨i + n + 1, by omega, by omega, fun q a b => ?_⟩
        by_cases hq : q < i + n + 1
        · exact (h3 q a hq).trans h
        · have : q = i + n + 1 := by omega
          subst this; exact le_refl _
      · refine ⟨k, h1, by omega, fun q a b => ?_⟩
        by_cases hq : q < i + n + 1
        · exact h3 q a hq
        · have : q = i + n + 1 := by omega
          subst this; exact h
  obtain ⟨k1, a1, b1, c1⟩ := exmin n
  obtain ⟨k2, a2, b2, c2⟩ := exmax n
  have := meanRate_between phase t i _ _ n ht (fun k a b => ⟨c1 k a b, c2 k a b⟩)
  exact ⟨⟨k1, a1, b1, this.2.1⟩, ⟨k2, a2, b2, this.2.2⟩⟩

/-- After merging pericenter and apocenter data and sorting by time, the list of (time, average) pairs is a rearrangement
of the points of the two kinds of orbits: every average stays with the midpoint of its own orbit, none is lost or
duplicated, and the times increase. -/
theorem C28_attached (e : Ext K) (m : Meas K) (hsort : ∀ l, Sorts l (e.argsort l)) :
    ((tAverage e m).1.zip (takeAt (orbitAveraged m.o m.apocenters ++ orbitAveraged m.o m.pericenters)
        (tAverage e m).2)).Perm
      (OrbitPoints m.o.phase m.o.t m.apocenters ++ OrbitPoints m.o.phase m.o.t m.pericenters) ∧
    (tAverage e m).1.Pairwise (· ≤ ·) := by
  unfold tAverage
  simp only
  set T := midTimes (takeAt m.o.t m.apocenters) ++ midTimes (takeAt m.o.t m.pericenters) with hT
  set W := orbitAveraged m.o m.apocenters ++ orbitAveraged m.o m.pericenters with hW
  have hlen : T.length = W.length := by
    rw [hT, hW, List.length_append, List.length_append, length_midTimes, length_midTimes, length_orbitAveraged,
      length_orbitAveraged]
    simp [takeAt]
  obtain ⟨hperm, hsorted⟩ := hsort T
  have hmem : ∀ i ∈ e.argsort T, i < T.length := by
    intro i hi
    have := hperm.mem_iff.mp hi
    simpa using this
  refine ⟨?_, hsorted⟩
  rw [takeAt_zip T W _ hlen hmem, ← zip_orbitAveraged, ← zip_orbitAveraged, ← List.zip_append]
  · exact perm_getD _ _ _ (by rw [List.length_zip, ← hlen, min_self]; exact hperm)
  · rw [length_midTimes, length_orbitAveraged]; simp [takeAt]

/-- The orbit-averaged frequency is only given if the averages over pericenter orbits, over apocenter orbits and over all
of them in time order are strictly increasing and the midpoints are strictly increasing; it is then interpolated through
those points, and only at times between the first and the last midpoint (up to the tolerance of `interpolate`). -/
theorem C28_value (e : Ext K) (m : Meas K) (ts r : List K) (h : computeOrbitAveraged e m ts = .ok r) :
    (orbitAveraged m.o m.pericenters).Pairwise (· < ·) ∧ (orbitAveraged m.o m.apocenters).Pairwise (· < ·) ∧
    (takeAt (orbitAveraged m.o m.apocenters ++ orbitAveraged m.o m.pericenters) (tAverage e m).2).Pairwise (· < ·) ∧
    (tAverage e m).1.Pairwise (· < ·) ∧ r.length = ts.length ∧
    ∃ lo ∈ (tAverage e m).1, ∃ hi ∈ (tAverage e m).1, ∀ x ∈ ts, lo - e.tol ≤ x ∧ x ≤ hi + e.tol := by
  unfold computeOrbitAveraged at h
  obtain ⟨_, h1, h⟩ := bind_ok h
  obtain ⟨_, h2, h⟩ := bind_ok h
  simp only at h
  obtain ⟨_, h3, h⟩ := bind_ok h
  obtain ⟨_, h5, h6, h7⟩ := C35_interpolate _ _ _ _ _ _ _ _ _ h
  exact ⟨(checkAverageIncreasing_ok_iff _).mp h1, (checkAverageIncreasing_ok_iff _).mp h2,
    (checkAverageIncreasing_ok_iff _).mp h3, h5, h6, h7⟩

/-- Not increasing: an exception. -/
theorem C28_not_increasing_raises (e : Ext K) (m : Meas K) (ts : List K)
    (hbad : ¬ (orbitAveraged m.o m.pericenters).Pairwise (· < ·) ∨ ¬ (orbitAveraged m.o m.apocenters).Pairwise (· < ·) ∨
      ¬ (takeAt (orbitAveraged m.o m.apocenters ++ orbitAveraged m.o m.pericenters) (tAverage e m).2).Pairwise (· < ·)) :
    ∃ err, computeOrbitAveraged e m ts = .error err := by
  cases h : computeOrbitAveraged e m ts with
  | error err => exact ⟨err, rfl⟩
  | ok r =>
    have := C28_value e m ts r h
    tauto

example : (prepare Demo.ext Demo.obj [2, 6, 10, 14] [4, 8, 12, 16]).map (fun m =>
      ((tAverage Demo.ext m).1, takeAt (orbitAveraged m.o m.apocenters ++ orbitAveraged m.o m.pericenters)
        (tAverage Demo.ext m).2))
    = .ok ([4, 6, 8, 10, 12, 14], [102 / 25, 103 / 25, 104 / 25, 21 / 5, 106 / 25, 107 / 25]) := by decide +kernel

/-! ## C29 Frequency inputs need an increasing average frequency -/

/-- When a measurement for frequencies succeeds, the average frequency over the samples used is strictly increasing, so
the interpolation nodes (average over 2π) are valid, and every frequency answered lies between two of them. -/
theorem C29_increasing [FloorRing K] (e : Ext K) (o : Obj K) (cache' : AvgCache K)
    (ret : Dict String (Val K)) (m : Meas K) (hd : o.domain = .frequency)
    (h : measureEcc e o none = .ok (ret, some m, cache')) :
    ∃ ts w v, omegaAverage e m (some o.avgMethod) = .ok (ts, w) ∧ ts.length = w.length ∧ w.Pairwise (· < ·) ∧
      (w.map (· / (2 * e.pi))).Pairwise (· < ·) ∧ ret.get? "fref_out" = some v ∧
      ∀ f ∈ v.atleast1d, ∃ lo ∈ w.map (· / (2 * e.pi)), ∃ hi ∈ w.map (· / (2 * e.pi)), lo ≤ f ∧ f < hi := by
  obtain ⟨p, a, lacking, _, ⟨h, _⟩ | ⟨m', p', a', hmo, _, _, hm, hev⟩⟩ := measureEcc_ok h
  · exact absurd h (by simp)
  · injection hmo with hmo; subst hmo
    have ho := (prepare_ok hm).1
    subst ho
    obtain ⟨trefIn, fOut, trefOut, ecc, ano, hr, htr, hne, hlen, hecc, hano, _, hret⟩ := evaluate_ok hev
    obtain ⟨ve, va, vr, rfl, _, _, _, h4, _, h6⟩ := makeReturn_ok hret
    rw [hd] at h6
    have h6 : vr.atleast1d = fOut := h6 (by rw [computeEccentricity_length hecc]; exact hlen hd)
    obtain ⟨_, c, ts, w, hf, hav, rfl, hinc, hint⟩ := trefFromFref_ok (referenceTimes_frequency hd hr)
    obtain ⟨lo, hi, hb, rfl, hne'⟩ := frefOut_ok hf
    obtain ⟨avg, mn, mx, hc, rfl, hmn, hmx, rfl, rfl, hdm⟩ := frefBounds_ok hb
    rcases hc with hc | ⟨_, hc⟩
    · exact absurd hc (by simp)
    · rw [hav] at hc
      injection hc with hc; subst hc
      obtain ⟨hl, hpw, _⟩ := C35_interpolate _ _ _ _ _ _ _ _ _ hint
      refine ⟨ts, w, vr, hav, ?_, (checkAverageIncreasing_ok_iff _).mp hinc, hpw, ((retDict_get _ _ _ _).2.2.2 hd).1, ?_⟩
      · simpa using hl
      · intro f hf'
        rw [h6, List.mem_filter, decide_eq_true_eq] at hf'
        refine ⟨mn / (2 * e.pi), ?_, mx / (2 * e.pi), ?_, ?_, ?_⟩
        · exact List.mem_map.mpr ⟨mn, (npMin_spec hmn).1, rfl⟩
        · exact List.mem_map.mpr ⟨mx, (npMax_spec hmx).1, rfl⟩
        · rw [← div_div]; exact hf'.2.1
        · rw [← div_div]; exact hf'.2.2

/-- If the average frequency is not strictly increasing, a request by frequency raises. -/
theorem C29_not_increasing_raises [FloorRing K] (e : Ext K) (m : Meas K) (cache : AvgCache K) (ts w : List K)
    (hd : m.o.domain = .frequency) (hav : omegaAverage e m (some m.o.avgMethod) = .ok (ts, w))
    (hbad : ¬ w.Pairwise (· < ·)) : ∃ err, evaluate e m cache = .error err := by
  cases h : evaluate e m cache with
  | error err => exact ⟨err, rfl⟩
  | ok r =>
    exfalso
    obtain ⟨ret, c⟩ := r
    obtain ⟨trefIn, fOut, trefOut, ecc, ano, hr, _⟩ := evaluate_ok h
    obtain ⟨_, c, ts', w', hf, hav', rfl, hinc, hint⟩ := trefFromFref_ok (referenceTimes_frequency hd hr)
    rw [hav] at hav'
    simp only [Except.ok.injEq, Prod.mk.injEq] at hav'
    obtain ⟨rfl, rfl⟩ := hav'
    exact hbad ((checkAverageIncreasing_ok_iff _).mp hinc)

/-- The times at which the average is taken are samples inside the window of the extrema. -/
theorem C29_samples (e : Ext K) (m : Meas K) (method : Option String) (ts w : List K)
    (h : omegaAverage e m method = .ok (ts, w)) : ts.Sublist m.o.t ∧ ∀ x ∈ ts, m.tmin ≤ x ∧ x ≤ m.tmax := by
  unfold omegaAverage at h
  simp only at h
  obtain ⟨ts', hts, h⟩ := bind_ok h
  obtain ⟨w', hw, h⟩ := bind_ok h
  simp only [pure_eq_ok, Except.ok.injEq, Prod.mk.injEq] at h
  obtain ⟨rfl, rfl⟩ := h
  unfold averageTimes at hts
  obtain ⟨⟨lo, hi⟩, hb, hts⟩ := bind_ok hts
  simp only [pure_eq_ok, Except.ok.injEq] at hts
  subst hts
  have hlim : m.tmin ≤ lo ∧ hi ≤ m.tmax := by
    split at hb
    · simp only [pure_eq_ok, Except.ok.injEq, Prod.mk.injEq] at hb
      exact ⟨hb.1.le, hb.2.ge⟩
    · obtain ⟨mn, _, hb⟩ := bind_ok hb
      obtain ⟨mx, _, hb⟩ := bind_ok hb
      simp only [pure_eq_ok, Except.ok.injEq, Prod.mk.injEq] at hb
      exact ⟨hb.1 ▸ le_max_left _ _, hb.2 ▸ min_le_left _ _⟩
  refine ⟨List.filter_sublist, fun x hx => ?_⟩
  have := (List.mem_filter.mp hx).2
  rw [decide_eq_true_eq] at this
  exact ⟨hlim.1.trans this.1, this.2.trans hlim.2⟩

/-- An average frequency that decreases somewhere. -/
example : (measureEcc Demo.ext { Demo.objF with phase := Demo.times.map (fun x => 4 * x - x * x / 100) } none).map (·.1)
    = .error .exception := by decide +kernel

/-! ## C30 Reference frequency bounds -/

/-- The bounds are the smallest and the largest average frequency over 2π, where the average is the stored one if there
is one and otherwise is computed with the method passed (or the method of the options); it is stored. -/
theorem C30_bounds (e : Ext K) (m : Meas K) (cache cache' : AvgCache K) (method : Option String) (lo hi : K)
    (h : frefBounds e m cache method = .ok ((lo, hi), cache')) :
    ∃ ts w, cache' = some (ts, w) ∧ (cache = some (ts, w) ∨ (cache = none ∧ omegaAverage e m method = .ok (ts, w))) ∧
      (∃ x ∈ w, lo = x / 2 / e.pi ∧ ∀ y ∈ w, x ≤ y) ∧ (∃ x ∈ w, hi = x / 2 / e.pi ∧ ∀ y ∈ w, y ≤ x) := by
  obtain ⟨⟨ts, w⟩, mn, mx, hc, rfl, hmn, hmx, rfl, rfl, _⟩ := frefBounds_ok h
  exact ⟨ts, w, rfl, hc, ⟨mn, (npMin_spec hmn).1, rfl, (npMin_spec hmn).2⟩,
    ⟨mx, (npMax_spec hmx).1, rfl, (npMax_spec hmx).2⟩⟩

/-- What a user can do with a measurement object: measure, or ask for the bounds with some method. -/
inductive Request
  | measure
  | bounds (method : Option String)

/-- A sequence of requests that all succeed: the bounds returned, in order (a measurement adds nothing).  `m` is what the
first measurement left on the object. -/
def serve [FloorRing K] (e : Ext K) (o : Obj K) (m : Meas K) : AvgCache K → List Request → Py (List (K × K))
  | _, [] => .ok []
  | c, .measure :: l => do
    let r ← measureEcc e o c
    serve e o m r.2.2 l
  | c, .bounds method :: l => do
    let r ← frefBounds e m c method
    let rest ← serve e o m r.2 l
    pure (r.1 :: rest)

theorem frefBounds_stored {e : Ext K} {m : Meas K} {cache cache' : AvgCache K} {method : Option String} {b : K × K}
    (h : frefBounds e m cache method = .ok (b, cache')) (method' : Option String) :
    frefBounds e m cache' method' = .ok (b, cache') := by
  obtain ⟨lo, hi⟩ := b
  obtain ⟨avg, mn, mx, _, rfl, hmn, hmx, rfl, rfl, hdm⟩ := frefBounds_ok h
  unfold frefBounds
  simp only [pure_eq_ok, ok_bind]
  by_cases hu : m.o.useOnly = true
  · obtain ⟨out, hout⟩ := hdm hu
    rw [if_pos hu, hout, ok_bind, hmn, ok_bind, hmx, ok_bind]
  · rw [if_neg hu, ok_bind, hmn, ok_bind, hmx, ok_bind]

/-- What a measurement does to the stored average: nothing for time input, the average of the chosen method for frequency
input. -/
theorem measureEcc_cache [FloorRing K] {e : Ext K} {o : Obj K} {cache cache' : AvgCache K} {ret : Dict String (Val K)}
    {mo : Option (Meas K)} (h : measureEcc e o cache = .ok (ret, mo, cache')) :
    match mo, o.domain with
    | some m, .frequency => ∃ avg, cache' = some avg ∧ omegaAverage e m (some o.avgMethod) = .ok avg
    | _, _ => cache' = cache := by
  obtain ⟨p, a, lacking, hf, ⟨rfl, hc, _⟩ | ⟨m, p', a', rfl, _, hs, hm, hev⟩⟩ := measureEcc_ok h
  · simpa using hc
  · have ho := (prepare_ok hm).1
    subst ho
    obtain ⟨trefIn, fOut, trefOut, ecc, ano, hr, _⟩ := evaluate_ok hev
    cases hd : m.o.domain with
    | time =>
      unfold referenceTimes at hr
      rw [hd] at hr
      simp only [pure_eq_ok, Except.ok.injEq, Prod.mk.injEq] at hr
      exact hr.2.2.symm
    | frequency =>
      obtain ⟨_, c, ts, w, hf, hav, rfl, _⟩ := trefFromFref_ok (referenceTimes_frequency hd hr)
      exact ⟨(ts, w), rfl, hav⟩

/-- Measuring twice on one object gives the same outcome the second time (given that the extrema finder and the fits
return the same, see C22 and C31 for when they do). -/
theorem measureEcc_meas [FloorRing K] {e : Ext K} {o : Obj K} {c1 c2 c1' c2' : AvgCache K} {r1 r2 : Dict String (Val K)}
    {m1 m2 : Option (Meas K)} (h1 : measureEcc e o c1 = .ok (r1, m1, c1')) (h2 : measureEcc e o c2 = .ok (r2, m2, c2')) :
    m1 = m2 := by
  obtain ⟨p, a, lacking, hf, h1⟩ := measureEcc_ok h1
  obtain ⟨p', a', lacking', hf', h2⟩ := measureEcc_ok h2
  rw [hf] at hf'
  simp only [Except.ok.injEq, Prod.mk.injEq] at hf'
  obtain ⟨rfl, rfl, rfl⟩ := hf'
  rcases h1 with ⟨rfl, _, hl, _⟩ | ⟨m, q, b, rfl, hl, hs, hm, _⟩
  · rcases h2 with ⟨rfl, _⟩ | ⟨m, q, b, rfl, hl', _⟩
    · rfl
    · rw [hl] at hl'; exact absurd hl' (by simp)
  · rcases h2 with ⟨rfl, _, hl', _⟩ | ⟨m', q', b', rfl, _, hs', hm', _⟩
    · rw [hl] at hl'; exact absurd hl' (by simp)
    · rw [hs] at hs'
      simp only [Except.ok.injEq, Prod.mk.injEq] at hs'
      obtain ⟨rfl, rfl⟩ := hs'
      rw [hm] at hm'
      injection hm' with hm'
      rw [hm']

/-- After a measurement, all requests for the bounds return the same bounds, whatever methods are passed and however often
the measurement is repeated in between. -/
theorem C30_history [FloorRing K] (e : Ext K) (o : Obj K) (m : Meas K) (c : AvgCache K) (ret : Dict String (Val K))
    (h : measureEcc e o none = .ok (ret, some m, c)) (reqs : List Request) (bs : List (K × K))
    (hs : serve e o m c reqs = .ok bs) : ∃ b, ∀ b' ∈ bs, b' = b := by
  -- a stored average that a measurement does not change
  have stable : ∀ (reqs : List Request) (avg : List K × List K) (bs : List (K × K)),
      (o.domain = .frequency → omegaAverage e m (some o.avgMethod) = .ok avg) →
      serve e o m (some avg) reqs = .ok bs →
      ∀ b' ∈ bs, ∃ c', frefBounds e m (some avg) none = .ok (b', c') := by
    intro reqs
    induction reqs with
    | nil =>
      intro avg bs _ hs b' hb'
      simp only [serve, Except.ok.injEq] at hs; subst hs; simp at hb'
    | cons q l ih =>
      intro avg bs hav hs b' hb'
      cases q with
      | measure =>
        unfold serve at hs
        obtain ⟨⟨r, mo, c'⟩, hr, hs⟩ := bind_ok hs
        simp only at hs
        have hmo := measureEcc_meas h hr
        subst hmo
        have hcache := measureEcc_cache hr
        have : c' = some avg := by
          cases hd : o.domain with
          | time => rw [hd] at hcache; exact hcache
          | frequency =>
            rw [hd] at hcache
            obtain ⟨avg', rfl, hav'⟩ := hcache
            rw [hav hd] at hav'
            injection hav' with hav'
            rw [hav']
        subst this
        exact ih avg bs hav hs b' hb'
      | bounds method =>
        unfold serve at hs
        obtain ⟨⟨b, c'⟩, hr, hs⟩ := bind_ok hs
        obtain ⟨rest, hrest, hs⟩ := bind_ok hs
        simp only [pure_eq_ok, Except.ok.injEq] at hs
        subst hs
        have hc' : c' = some avg := by
          obtain ⟨lo, hi⟩ := b
          obtain ⟨avg', _, _, hcc, rfl, _⟩ := frefBounds_ok hr
          rcases hcc with hcc | ⟨hcc, _⟩
          · exact hcc.symm
          · exact absurd hcc (by simp)
        subst hc'
        rcases List.mem_cons.mp hb' with rfl | hb'
        · exact ⟨some avg, frefBounds_stored hr none⟩
        · exact ih avg rest hav hrest b' hb'
  -- until something is stored (time input), a measurement changes nothing
  have hstart : ∀ (reqs : List Request) (c : AvgCache K) (bs : List (K × K)),
      (match c with
        | some avg => o.domain = .frequency → omegaAverage e m (some o.avgMethod) = .ok avg
        | none => o.domain = .time) →
      serve e o m c reqs = .ok bs → ∃ b, ∀ b' ∈ bs, b' = b := by
    intro reqs
    induction reqs with
    | nil =>
      intro c bs _ hs
      simp only [serve, Except.ok.injEq] at hs; subst hs; exact ⟨(0, 0), by simp⟩
    | cons q l ih =>
      intro c bs hc hs
      cases c with
      | some avg =>
        have := stable (q :: l) avg bs hc hs
        cases bs with
        | nil => exact ⟨(0, 0), by simp⟩
        | cons b bs =>
          obtain ⟨c', hb⟩ := this b (by simp)
          refine ⟨b, fun b' hb' => ?_⟩
          obtain ⟨c'', hb''⟩ := this b' hb'
          rw [hb] at hb''
          simp only [Except.ok.injEq, Prod.mk.injEq] at hb''
          exact hb''.1.symm
      | none =>
        simp only at hc
        cases q with
        | measure =>
          unfold serve at hs
          obtain ⟨⟨r, mo, c'⟩, hr, hs⟩ := bind_ok hs
          simp only at hs
          have hcache := measureEcc_cache hr
          rw [hc] at hcache
          have : c' = none := by cases mo <;> exact hcache
          subst this
          exact ih none bs hc hs
        | bounds method =>
          unfold serve at hs
          obtain ⟨⟨b, c'⟩, hr, hs⟩ := bind_ok hs
          obtain ⟨rest, hrest, hs⟩ := bind_ok hs
          simp only [pure_eq_ok, Except.ok.injEq] at hs
          subst hs
          obtain ⟨lo, hi⟩ := b
          obtain ⟨avg, _, _, _, rfl, _⟩ := frefBounds_ok hr
          have := stable l avg rest (fun hf => absurd hf (by rw [hc]; simp)) hrest
          refine ⟨(lo, hi), fun b' hb' => ?_⟩
          rcases List.mem_cons.mp hb' with rfl | hb'
          · rfl
          · obtain ⟨c'', hb''⟩ := this b' hb'
            have h1 := frefBounds_stored hr none
            rw [h1] at hb''
            simp only [Except.ok.injEq, Prod.mk.injEq] at hb''
            exact hb''.1.symm
  refine hstart reqs c bs ?_ hs
  have hcache := measureEcc_cache h
  cases hd : o.domain with
  | time =>
    rw [hd] at hcache
    simp only at hcache
    rw [hcache]
  | frequency =>
    rw [hd] at hcache
    obtain ⟨avg, rfl, hav⟩ := hcache
    exact fun _ => hav

/-- A time measurement, then bounds by two different methods with another measurement in between. -/
example : (measureEcc Demo.ext Demo.obj none >>= fun r => match r.2.1 with
      | some m => serve Demo.ext Demo.obj m r.2.2
          [.bounds (some "mean_of_extrema_interpolants"), .measure, .bounds (some "orbit_averaged_omega_gw"),
            .bounds none]
      | none => .ok [])
    = .ok [(1603 / 2200, 1673 / 2200), (1603 / 2200, 1673 / 2200), (1603 / 2200, 1673 / 2200)] := by decide +kernel

end GwEcc
