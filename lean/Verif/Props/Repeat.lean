import Verif.Props.Average
import Verif.Props.RationalDegree

/-!
# C68 Measuring again on the same object
-/

set_option linter.unusedSectionVars false

namespace GwEcc

open Spec

section measurement

variable {K : Type} [Field K] [LinearOrder K] [IsStrictOrderedRing K]

/-- The stored averages an object can hold after the first successful measurement: whatever is requested in between, any number
of times, in any order. -/
inductive Later [FloorRing K] (e : Ext K) (o : Obj K) (m : Meas K) (c : AvgCache K) : AvgCache K → Prop
  | first : Later e o m c c
  | bounds {c1 c2 : AvgCache K} {method : Option String} {b : K × K} :
      Later e o m c c1 → frefBounds e m c1 method = .ok (b, c2) → Later e o m c c2
  | measure {c1 c2 : AvgCache K} {r : Dict String (Val K)} {mo : Option (Meas K)} :
      Later e o m c c1 → measureEcc e o c1 = .ok (r, mo, c2) → Later e o m c c2

/-- For time input nothing that was stored matters. -/
theorem evaluate_time [FloorRing K] {e : Ext K} {m : Meas K} (hd : m.o.domain = .time) {c c' : AvgCache K}
    {r : Dict String (Val K)} (h : evaluate e m c = .ok (r, c')) (c1 : AvgCache K) : evaluate e m c1 = .ok (r, c1) := by
  have href : ∀ c, referenceTimes e m c = .ok (m.o.refIn.atleast1d, [], c) := by
    intro c; unfold referenceTimes; rw [hd]; rfl
  unfold evaluate at h ⊢
  rw [href, ok_bind] at h ⊢
  simp only at h ⊢
  split at h
  · cases h
  · rename_i hf
    rw [if_neg hf]
    split at h
    · obtain ⟨_, _, h⟩ := bind_ok h
      cases h
    · rename_i h0
      rw [if_neg h0]
      obtain ⟨t0, ht0, h1⟩ := bind_ok h
      obtain ⟨t1, ht1, h2⟩ := bind_ok h1
      obtain ⟨p0, hp0, h3⟩ := bind_ok h2
      obtain ⟨p1, hp1, h4⟩ := bind_ok h3
      rw [ht0, ok_bind, ht1, ok_bind, hp0, ok_bind, hp1, ok_bind]
      split at h4
      · cases h4
      · rename_i hb
        rw [if_neg hb]
        obtain ⟨ecc, he, h5⟩ := bind_ok h4
        obtain ⟨ano, ha, h6⟩ := bind_ok h5
        obtain ⟨x, hx, h7⟩ := bind_ok h6
        obtain ⟨y, hy, h8⟩ := bind_ok h7
        obtain ⟨ret, hr, h9⟩ := bind_ok h8
        rw [he, ok_bind, ha, ok_bind, hx, ok_bind, hy, ok_bind, hr, ok_bind]
        simp only [pure_eq_ok, Except.ok.injEq, Prod.mk.injEq] at h9 ⊢
        exact ⟨h9.1, trivial⟩

/-- For frequency input, a measurement repeated with its own average stored. -/
theorem evaluate_frequency [FloorRing K] {e : Ext K} {m : Meas K} (hd : m.o.domain = .frequency)
    {c' : AvgCache K} {r : Dict String (Val K)} (h : evaluate e m none = .ok (r, c')) : evaluate e m c' = .ok (r, c') := by
  have href : ∀ q, referenceTimes e m none = .ok q → referenceTimes e m q.2.2 = .ok q := by
    rintro ⟨tref, fOut, cc⟩ hq
    have h1 := referenceTimes_frequency hd hq
    have hall := trefFromFref_ok h1
    obtain ⟨hmem, c1, ts, w, hfo, hav, rfl, hinc, hint⟩ := hall
    obtain ⟨lo, hi, hb, hout, hne⟩ := frefOut_ok hfo
    obtain ⟨avg, mn, mx, hc1, hcc, hmn, hmx, hlo, hhi, hdm⟩ := frefBounds_ok hb
    rcases hc1 with hc1 | ⟨_, hc1⟩
    · cases hc1
    · rw [hav] at hc1
      obtain rfl := Except.ok.inj hc1
      have hb' : frefBounds e m (some (ts, w)) (some m.o.avgMethod) = .ok ((lo, hi), some (ts, w)) := by
        have := frefBounds_stored hb (some m.o.avgMethod)
        rw [hcc] at this
        exact this
      have hfo' : frefOut e m (some (ts, w)) m.o.refIn.atleast1d m.o.avgMethod = .ok (fOut, some (ts, w)) := by
        unfold frefOut
        rw [hb', ok_bind]
        simp only
        rw [← hout, if_neg (fun h => hne (List.length_eq_zero_iff.mp h))]
        rfl
      have hmain : trefFromFref e m (some (ts, w)) m.o.refIn.atleast1d = trefFromFref e m none m.o.refIn.atleast1d := by
        unfold trefFromFref
        rw [hfo', hfo]
        rfl
      unfold referenceTimes
      rw [hd]
      simp only
      rw [hmain, h1]
      rfl
  unfold evaluate at h ⊢
  obtain ⟨⟨tref, fOut, cc⟩, hq, h0⟩ := bind_ok h
  have hcc : cc = c' := by
    obtain ⟨_, _, _, _, _, hr, _⟩ := evaluate_ok h
    rw [hq] at hr
    simp only [Except.ok.injEq, Prod.mk.injEq] at hr
    exact hr.2.2
  subst hcc
  rw [href _ hq, ok_bind]
  exact h0

/-- The same object with the same data answers the same: after a successful measurement, and whatever was requested since, a
further measurement succeeds and returns the same dictionary and the same extrema and interpolants.  (The extrema finder and
the fits are taken to return the same again; see `C22` for what the finder leaves behind and below for the fits.) -/
theorem C68_repeat [FloorRing K] (e : Ext K) (o : Obj K) (m : Meas K) (c c1 : AvgCache K) (ret : Dict String (Val K))
    (h : measureEcc e o none = .ok (ret, some m, c)) (hl : Later e o m c c1) :
    ∃ c2, measureEcc e o c1 = .ok (ret, some m, c2) := by
  obtain ⟨p, a, lacking, hf, ⟨hmo, _⟩ | ⟨m', p', a', hmo, hlack, hs, hm, hev⟩⟩ := measureEcc_ok h
  · cases hmo
  obtain rfl : m = m' := by simpa using hmo
  have ho : m.o = o := (prepare_ok hm).1
  -- any measurement is determined by the last stage
  have hrun : ∀ c1, measureEcc e o c1 = (evaluate e m c1).map (fun q => (q.1, some m, q.2)) := by
    intro c1
    unfold measureEcc
    rw [hf, ok_bind]
    simp only
    rw [if_neg (by rw [hlack]; simp), hs, ok_bind]
    simp only
    rw [hm, ok_bind]
    cases evaluate e m c1 <;> rfl
  cases hd : m.o.domain with
  | time =>
    refine ⟨c1, ?_⟩
    rw [hrun, evaluate_time hd hev c1]
    rfl
  | frequency =>
    have hrep := evaluate_frequency hd hev
    -- the stored average never changes again
    have hsame : c1 = c := by
      induction hl with
      | first => rfl
      | bounds _ hb ih =>
        subst ih
        obtain ⟨_, _, _, _, _, hr, _⟩ := evaluate_ok hev
        obtain ⟨_, _, ts, w, _, _, rfl, _⟩ := trefFromFref_ok (referenceTimes_frequency hd hr)
        obtain ⟨avg', mn, mx, hcc, rfl, _⟩ := frefBounds_ok hb
        rcases hcc with hcc | ⟨hcc, _⟩
        · exact hcc.symm
        · cases hcc
      | measure _ hmm ih =>
        subst ih
        rw [hrun, hrep] at hmm
        have := Except.ok.inj hmm
        simp only [Prod.mk.injEq] at this
        exact this.2.2.symm
    subst hsame
    refine ⟨c1, ?_⟩
    rw [hrun, hrep]
    rfl

/-- The premises are met: frequency input, bounds requested with another method in between. -/
example : (measureEcc Demo.ext Demo.objF none >>= fun r => match r.2.1 with
      | some m => frefBounds Demo.ext m r.2.2 (some "mean_of_extrema_interpolants") >>= fun b =>
          measureEcc Demo.ext Demo.objF b.2 >>= fun r2 => pure (decide (r.1 = r2.1), r.1.has "fref_out")
      | none => pure (false, false)) = .ok (true, true) := by decide +kernel

end measurement

/-! ### Rational fits -/

variable {F S : Type}

/-- The fits with equal degrees up to `D` are monotonic and those above are not, and there are points enough to notice it. -/
structure Settles (x : FitData F S) (D : ℕ) (f : F) : Prop where
  one_le : 1 ≤ D
  fits : ∀ k : ℕ, 1 ≤ k → ∃ g, x.fit (k, k) = .ok g ∧ x.nonmono g = .ok (decide (D < k))
  best : x.fit (D, D) = .ok f
  enough : 2 * (D + 1) + 1 < x.nPoints

theorem diag_underdetermined (k n : ℕ) : isUnderdetermined ((k : ℤ), (k : ℤ)) n = decide (n ≤ 2 * k + 1) := by
  unfold isUnderdetermined
  rw [decide_eq_decide]
  simp only
  omega

/-- The search ends at the highest monotonic degree from every equal starting degrees the data determine. -/
theorem settles_search {level : ℤ} (hl : level = -1 ∨ level = 0 ∨ level = 1) {x : FitData F S} {D : ℕ} {f : F} (hx : Settles x D f) (q nP nA fuel : ℕ) (hq : 1 ≤ q)
    (hdet : 2 * q + 1 < x.nPoints) (hist : Dict Degrees Bool) (r : Py (SearchResult F S))
    (h : rationalFitForExtrema level x.fit x.nonmono x.spline x.nPoints nP nA (some ((q : ℤ), (q : ℤ))) hist fuel = some r) :
    ∃ h', r = .ok ⟨.rational f, some ((D : ℤ), (D : ℤ)), h'⟩ := by
  have hD := hx.one_le
  have hstart : startDegrees fuel (some ((q : ℤ), (q : ℤ))) nP nA x.nPoints = some (.ok ((q : ℤ), (q : ℤ))) := by
    unfold startDegrees
    simp only [Option.getD_some]
    rw [diag_underdetermined, if_neg (by simp; omega)]
  unfold rationalFitForExtrema at h
  rw [hstart] at h
  simp only [searchFrom, raiseCheck_quiet hl] at h
  simp only [announced_quiet hl] at h
  obtain ⟨g0, hg0, hn0⟩ := hx.fits q hq
  have hfc : fitAndCheck x.fit x.nonmono ((q : ℤ), (q : ℤ)) = .ok (g0, decide (D < q)) :=
    fitAndCheck_ok.mpr ⟨hg0, hn0⟩
  rw [hfc] at h
  by_cases hlt : D < q
  · -- lowering
    simp only [hlt, decide_true] at h
    refine runLoop_inv (fun s : Degrees × Dict Degrees Bool => ∃ k : ℕ, s.1 = ((k : ℤ), (k : ℤ)) ∧ D < k)
      (fun r => ∃ h', r = .ok ⟨.rational f, some ((D : ℤ), (D : ℤ)), h'⟩) ?_ ?_ ⟨q, rfl, hlt⟩ h
    · rintro ⟨d, hs⟩ s' ⟨k, hk, hDk⟩ hst
      simp only at hk
      subst hk
      unfold lowerStep at hst
      simp only at hst
      rw [if_neg (by omega)] at hst
      have hd : ((max ((k : ℤ) - 1) 1, max ((k : ℤ) - 1) 1) : Degrees) = (((k - 1 : ℕ) : ℤ), ((k - 1 : ℕ) : ℤ)) := by
        ext <;> simp only <;> omega
      rw [hd] at hst
      obtain ⟨g, hg, hn⟩ := hx.fits (k - 1) (by omega)
      rw [fitAndCheck_ok.mpr ⟨hg, hn⟩] at hst
      by_cases hk1 : D < k - 1
      · simp only [hk1, decide_true] at hst
        obtain rfl := Sum.inl.inj hst
        exact ⟨k - 1, rfl, hk1⟩
      · simp only [hk1, decide_false] at hst
        cases hst
    · rintro ⟨d, hs⟩ r' ⟨k, hk, hDk⟩ hst
      simp only at hk
      subst hk
      unfold lowerStep at hst
      simp only at hst
      rw [if_neg (by omega)] at hst
      have hd : ((max ((k : ℤ) - 1) 1, max ((k : ℤ) - 1) 1) : Degrees) = (((k - 1 : ℕ) : ℤ), ((k - 1 : ℕ) : ℤ)) := by
        ext <;> simp only <;> omega
      rw [hd] at hst
      obtain ⟨g, hg, hn⟩ := hx.fits (k - 1) (by omega)
      rw [fitAndCheck_ok.mpr ⟨hg, hn⟩] at hst
      by_cases hk1 : D < k - 1
      · simp only [hk1, decide_true] at hst
        cases hst
      · simp only [hk1, decide_false] at hst
        obtain rfl := Sum.inr.inj hst
        have hkD : k - 1 = D := by omega
        rw [hkD] at hg ⊢
        rw [hx.best] at hg
        obtain rfl := Except.ok.inj hg
        exact ⟨_, rfl⟩
  · -- raising
    simp only [hlt, decide_false] at h
    refine runLoop_inv (fun s : F × Degrees × Dict Degrees Bool =>
        ∃ k : ℕ, 1 ≤ k ∧ s.2.1 = ((k : ℤ), (k : ℤ)) ∧ k ≤ D ∧ x.fit ((k : ℤ), (k : ℤ)) = .ok s.1)
      (fun r => ∃ h', r = .ok ⟨.rational f, some ((D : ℤ), (D : ℤ)), h'⟩) ?_ ?_ ⟨q, hq, rfl, by omega, hg0⟩ h
    · rintro ⟨g1, d, hs⟩ s' ⟨k, hk1, hk, hkD, hgk⟩ hst
      simp only at hk hgk
      subst hk
      unfold raiseStep at hst
      simp only at hst
      have hd : (((k : ℤ) + 1, (k : ℤ) + 1) : Degrees) = (((k + 1 : ℕ) : ℤ), ((k + 1 : ℕ) : ℤ)) := by
        ext <;> simp
      rw [hd, diag_underdetermined] at hst
      have := hx.enough
      rw [if_neg (by simp; omega)] at hst
      obtain ⟨g, hg, hn⟩ := hx.fits (k + 1) (by omega)
      rw [fitAndCheck_ok.mpr ⟨hg, hn⟩] at hst
      by_cases hk2 : D < k + 1
      · simp only [hk2, decide_true] at hst
        cases hst
      · simp only [hk2, decide_false] at hst
        obtain rfl := Sum.inl.inj hst
        exact ⟨k + 1, by omega, rfl, by omega, hg⟩
    · rintro ⟨g1, d, hs⟩ r' ⟨k, hk1, hk, hkD, hgk⟩ hst
      simp only at hk hgk
      subst hk
      unfold raiseStep at hst
      simp only at hst
      have hd : (((k : ℤ) + 1, (k : ℤ) + 1) : Degrees) = (((k + 1 : ℕ) : ℤ), ((k + 1 : ℕ) : ℤ)) := by
        ext <;> simp
      rw [hd, diag_underdetermined] at hst
      have := hx.enough
      rw [if_neg (by simp; omega)] at hst
      obtain ⟨g, hg, hn⟩ := hx.fits (k + 1) (by omega)
      rw [fitAndCheck_ok.mpr ⟨hg, hn⟩] at hst
      by_cases hk2 : D < k + 1
      · simp only [hk2, decide_true] at hst
        obtain rfl := Sum.inr.inj hst
        have hkD' : k = D := by omega
        rw [hkD'] at hgk ⊢
        rw [hx.best] at hgk
        obtain rfl := Except.ok.inj hgk
        exact ⟨_, rfl⟩
      · simp only [hk2, decide_false] at hst
        cases hst

/-- Full statement wanted: a second measurement on one object uses the same fits as the first.  Proved: it does when, for both
kinds of extrema, the fits with equal degrees are monotonic up to some degree and not above, the points suffice for one degree
more, the starting degrees are equal and determined by both sets of points, and messages do not raise.  Missing: the other cases, in which it is
false (below). -/
theorem C68_fits_partial (level : ℤ) (hl : level = -1 ∨ level = 0 ∨ level = 1) (p a : FitData F S) (DP DA q : ℕ) (fP fA : F) (hp : Settles p DP fP) (ha : Settles a DA fA)
    (hq : 1 ≤ q) (hqp : 2 * q + 1 < p.nPoints) (hpa : 2 * DP + 1 < a.nPoints) (hap : 2 * DA + 1 < p.nPoints)
    (fuel fuel' : ℕ) (iP iA : Interpolant F S) (left : Option Degrees) (r2 : Py (Interpolant F S × Interpolant F S × Option Degrees))
    (h1 : fitBoth level p a (some ((q : ℤ), (q : ℤ))) fuel = some (.ok (iP, iA, left)))
    (h2 : fitBoth level p a left fuel' = some r2) :
    iP = .rational fP ∧ iA = .rational fA ∧ r2 = .ok (iP, iA, left) := by
  have one : ∀ (q fuel : ℕ) (r : Py (Interpolant F S × Interpolant F S × Option Degrees)), 1 ≤ q → 2 * q + 1 < p.nPoints →
      fitBoth level p a (some ((q : ℤ), (q : ℤ))) fuel = some r →
      r = .ok (.rational fP, .rational fA, some ((DA : ℤ), (DA : ℤ))) := by
    intro q fuel r hq hqp h
    unfold fitBoth at h
    cases hrp : rationalFitForExtrema level p.fit p.nonmono p.spline p.nPoints p.nPoints a.nPoints (some ((q : ℤ), (q : ℤ))) [] fuel with
    | none => rw [hrp] at h; cases h
    | some rp =>
      obtain ⟨h', rfl⟩ := settles_search hl hp q _ _ fuel hq hqp [] rp hrp
      rw [hrp] at h
      simp only at h
      cases hra : rationalFitForExtrema level a.fit a.nonmono a.spline a.nPoints p.nPoints a.nPoints (some ((DP : ℤ), (DP : ℤ))) [] fuel with
      | none => rw [hra] at h; cases h
      | some ra =>
        obtain ⟨h'', rfl⟩ := settles_search hl ha DP _ _ fuel hp.one_le hpa [] ra hra
        rw [hra] at h
        exact (Option.some.inj h).symm
  have e1 := one q fuel _ hq hqp h1
  have e1' := Except.ok.inj e1
  simp only [Prod.mk.injEq] at e1'
  obtain ⟨rfl, rfl, rfl⟩ := e1'
  exact ⟨rfl, rfl, one DA fuel' r2 ha.one_le hap h2⟩

/-- Violated: the degrees found are stored over the degrees the user asked for, and the next search starts from them.  With
eight pericenters and seven apocenters and every fit monotonic, the first measurement fits the pericenters with degrees (3, 3),
the second one, on the same object, with degrees (3, 2). -/
theorem C68_fits_violation :
    ∃ (p a : FitData Degrees Unit) (left : Option Degrees) (rest rest' : Interpolant Degrees Unit × Option Degrees),
      (∀ d, p.fit d = .ok d) ∧ (∀ d, p.nonmono d = .ok false) ∧ (∀ d, a.fit d = .ok d) ∧ (∀ d, a.nonmono d = .ok false) ∧
      rest.2 = left ∧
      fitBoth 0 p a none 100 = some (.ok (.rational (3, 3), rest)) ∧
      fitBoth 0 p a left 100 = some (.ok (.rational (3, 2), rest')) :=
  ⟨⟨.ok, fun _ => .ok false, .ok (), 8⟩, ⟨.ok, fun _ => .ok false, .ok (), 7⟩, some (3, 2),
    (.rational (3, 2), some (3, 2)), (.rational (3, 2), some (3, 2)), fun _ => rfl, fun _ => rfl, fun _ => rfl, fun _ => rfl,
    rfl, rfl, rfl⟩

/-- The premise on the fits is met. -/
example : Settles (F := Degrees) (S := Unit) ⟨.ok, fun d => .ok (decide ((4 : ℤ) < d.1)), .ok (), 20⟩ 4 (4, 4) where
  one_le := by decide
  fits := by
    intro k hk
    refine ⟨(k, k), rfl, ?_⟩
    simp only [Except.ok.injEq, decide_eq_decide]
    omega
  best := rfl
  enough := by decide

end GwEcc
