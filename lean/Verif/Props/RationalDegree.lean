import Verif.Lemmas.RationalDegree

/-!
# Properties of the choice of degrees: C31, C32
-/

set_option linter.unusedSectionVars false

namespace GwEcc

open Spec

/-! ## C32 Automatic degree reduction -/

/-- The reduction always finishes: for all requested degrees and numbers of points. -/
theorem C32_terminates (d : Degrees) (nPoints : ℤ) :
    ∃ passes, ∀ fuel ≥ passes, ∃ r, getReducedDegrees fuel d nPoints = some r :=
  ⟨2 * (d.1.toNat + d.2.toNat) + 1, fun f hf => reduce_terminates d nPoints f (by omega)⟩

/-- With `N ≥ 2` points the reduced degrees do not exceed the requested ones, are not negative, and their sum is
exactly `min (m + n) (N - 2)`: as large as `N` points determine. -/
theorem C32_reduced (m n N fuel : ℕ) (hN : 2 ≤ N) (r : Py Degrees)
    (h : getReducedDegrees fuel (m, n) N = some r) :
    ∃ m' n' : ℕ, r = .ok ((m' : ℤ), (n' : ℤ)) ∧ m' ≤ m ∧ n' ≤ n ∧ m' + n' = min (m + n) (N - 2) := by
  have hm : (0 : ℤ) ≤ m := Int.natCast_nonneg m
  have hn : (0 : ℤ) ≤ n := Int.natCast_nonneg n
  cases r with
  | error e =>
    have := (reduce_error hm hn h).2
    omega
  | ok d' =>
    by_cases hu : (N : ℤ) ≤ m + n + 1
    · obtain ⟨h1, h2, h3, h4, h5⟩ := reduce_ok hm hn hu h
      refine ⟨d'.1.toNat, d'.2.toNat, ?_, by omega, by omega, by omega⟩
      rw [Int.toNat_of_nonneg h1, Int.toNat_of_nonneg h3]
    · cases fuel with
      | zero => simp [getReducedDegrees, runLoop] at h
      | succ f =>
        have hstep : reduceStep N ((m : ℤ), (n : ℤ), true) = .inr (.ok (m, n)) := by
          simp only [reduceStep]
          rw [if_neg]
          rw [isUnderdetermined_iff]; exact hu
        unfold getReducedDegrees at h
        rw [runLoop_inr hstep] at h
        injection h with h; injection h with h
        exact ⟨m, n, by rw [← h], le_refl _, le_refl _, by omega⟩

/-- With fewer than two points no degrees are determined, and the reduction raises `ValueError`. -/
theorem C32_raises (m n N fuel : ℕ) (hN : N < 2) (r : Py Degrees)
    (h : getReducedDegrees fuel (m, n) N = some r) : r = .error .valueError := by
  have hm : (0 : ℤ) ≤ m := Int.natCast_nonneg m
  have hn : (0 : ℤ) ≤ n := Int.natCast_nonneg n
  cases r with
  | error e => rw [(reduce_error hm hn h).1]
  | ok d' =>
    obtain ⟨h1, h2, h3, h4, h5⟩ := reduce_ok hm hn (by omega) h
    omega

/-- (6,6) with 9 points: the denominator is lowered first. -/
example : getReducedDegrees 20 (6, 6) 9 = some (.ok (4, 3)) := by decide +kernel
/-- A degree that is already zero is skipped. -/
example : getReducedDegrees 20 (5, 0) 4 = some (.ok (2, 0)) := by decide +kernel
example : getReducedDegrees 20 (0, 5) 4 = some (.ok (0, 2)) := by decide +kernel
example : getReducedDegrees 20 (3, 3) 1 = some (.error .valueError) := by decide +kernel

/-- The two degrees are lowered in turn: when neither reaches zero they are lowered by amounts differing by at most
one, the denominator never by less. -/
theorem C32_balanced (m n N fuel : ℕ) (d' : Degrees)
    (h : getReducedDegrees fuel (m, n) N = some (.ok d')) (h1 : 0 < d'.1) (h2 : 0 < d'.2) :
    (m : ℤ) - d'.1 ≤ n - d'.2 ∧ (n : ℤ) - d'.2 ≤ m - d'.1 + 1 := by
  have := runLoop_inv (step := reduceStep N)
    (fun s => 0 < s.1 → 0 < s.2.1 → (n - s.2.1 = m - s.1 + if s.2.2 then 0 else 1))
    (fun r => ∀ d' : Degrees, r = .ok d' → 0 < d'.1 → 0 < d'.2 →
      (m : ℤ) - d'.1 ≤ n - d'.2 ∧ (n : ℤ) - d'.2 ≤ m - d'.1 + 1)
    ?_ ?_ (s := ((m : ℤ), (n : ℤ), true)) (by simp) h
  · exact this d' rfl h1 h2
  · rintro ⟨m1, n1, b⟩ ⟨m', n', b'⟩ hI hs
    simp only [reduceStep, isUnderdetermined_iff] at hs hI ⊢
    split at hs
    · split at hs
      · cases hs
      · split at hs
        · next hb =>
          injection hs with h; cases h
          obtain ⟨hb, hn⟩ := hb; subst hb
          simp only [Bool.not_true, if_true, if_false, Bool.false_eq_true] at hI ⊢
          intro a b; have := hI a (by omega); omega
        · split at hs
          · next hb hm =>
            injection hs with h; cases h
            cases b
            · simp only [Bool.not_false, if_true, if_false, Bool.false_eq_true] at hI ⊢
              intro a b; have := hI (by omega) b; omega
            · simp only [true_and] at hb
              intro a b; omega
          · injection hs with h; cases h
            intro a b; omega
    · cases hs
  · rintro ⟨m1, n1, b⟩ r hI hs d' rfl g1 g2
    simp only [reduceStep, isUnderdetermined_iff] at hs hI ⊢
    split at hs
    · split at hs
      · cases hs
      · split at hs
        · cases hs
        · split at hs <;> cases hs
    · injection hs with hs
      injection hs with hs
      subst hs
      have := hI g1 g2
      split at this <;> simp only at * <;> omega

example : (0 : ℤ) < ((4, 3) : Degrees).1 ∧ (0 : ℤ) < ((4, 3) : Degrees).2 ∧
    getReducedDegrees 20 (((6 : ℕ) : ℤ), ((6 : ℕ) : ℤ)) ((9 : ℕ) : ℤ) = some (.ok (4, 3)) := by decide +kernel

/-! ## C31 Adaptive degree search -/

variable {F S : Type}

/-- The search always terminates, whatever the fitting routine and the monotonicity check answer, for every number of
points, every requested degrees and every earlier history. -/
theorem C31_terminates (level : ℤ) (fit : Degrees → Py F) (nonmono : F → Py Bool) (spline : Py S)
    (nPoints nP nA : ℕ) (requested : Option Degrees) (hist : Dict Degrees Bool) :
    ∃ passes, ∀ fuel ≥ passes, ∃ r,
      rationalFitForExtrema level fit nonmono spline nPoints nP nA requested hist fuel = some r := by
  -- the start
  have hstart : ∃ p0, ∀ fuel ≥ p0, ∃ r, startDegrees fuel requested nP nA nPoints = some r := by
    unfold startDegrees
    generalize requested.getD (approximateDegree nP nA) = q
    refine ⟨2 * (q.1.toNat + q.2.toNat) + 1, fun fuel hf => ?_⟩
    simp only
    split
    · exact reduce_terminates q nPoints fuel (by omega)
    · exact ⟨_, rfl⟩
  obtain ⟨p0, hp0⟩ := hstart
  obtain ⟨r0, hr0⟩ := hp0 p0 le_rfl
  -- the start does not depend on the fuel
  have hfix : ∀ fuel ≥ p0, startDegrees fuel requested nP nA nPoints = some r0 := by
    intro fuel hf
    unfold startDegrees at hr0 ⊢
    revert hr0
    generalize requested.getD (approximateDegree nP nA) = q
    simp only
    split
    · intro hr0; exact runLoop_mono hr0 hf
    · exact id
  cases r0 with
  | error e =>
    refine ⟨p0, fun fuel hf => ⟨.error e, ?_⟩⟩
    unfold rationalFitForExtrema
    rw [hfix fuel hf]
  | ok d =>
    refine ⟨p0 + ((max d.1 1).toNat + (max d.2 1).toNat) + (nPoints - d.1 - d.2).toNat + 1, fun fuel hf => ?_⟩
    unfold rationalFitForExtrema
    rw [hfix fuel (by omega)]
    simp only [searchFrom]
    split
    · exact ⟨_, rfl⟩
    · exact lower_terminates _ _ _ _ _ _ (by omega)
    · exact raise_terminates _ _ _ _ _ _ _ (by omega)

/-- What is returned: either a rational fit of the recorded degrees, which passed the monotonicity check and is
determined by the data; or the spline, with no degrees recorded, and then a fit with both degrees at most one was
tried and failed the check. -/
theorem C31_returned (level : ℤ) (fit : Degrees → Py F) (nonmono : F → Py Bool) (spline : Py S)
    (nPoints nP nA : ℕ) (requested : Option Degrees) (hist : Dict Degrees Bool) (fuel : ℕ)
    (hreq : ∀ q, requested = some q → 0 ≤ q.1 ∧ 0 ≤ q.2)
    (r : SearchResult F S)
    (h : rationalFitForExtrema level fit nonmono spline nPoints nP nA requested hist fuel = some (.ok r)) :
    (∃ f d, r.interpolant = .rational f ∧ r.degrees = some d ∧ fit d = .ok f ∧ nonmono f = .ok false ∧
      Determined d nPoints) ∨
    (∃ s d f, r.interpolant = .spline s ∧ r.degrees = none ∧ spline = .ok s ∧
      d.1 ≤ 1 ∧ d.2 ≤ 1 ∧ fit d = .ok f ∧ nonmono f = .ok true) := by
  unfold rationalFitForExtrema at h
  split at h
  · cases h
  · injection h with h; cases h
  · next d0 hd0 =>
    obtain ⟨hdet, hn1, hn2⟩ := startDegrees_determined hreq hd0
    unfold searchFrom at h
    split at h
    · injection h with h; cases h
    · next f hfc =>
      rcases lower_spec announced_ok ⟨f, fitAndCheck_ok.mp hfc⟩ h with
        ⟨k, g, h1, h2, h3, h4, h5, h6⟩ | ⟨k, s, h1, h2, h3, h4, h5, h6⟩
      · exact Or.inl ⟨g, _, h1, h2, h3, h4, ((lowered_iterate hn1 hn2 hdet k).2 h6).2⟩
      · obtain ⟨g, hg⟩ := h6 k le_rfl
        exact Or.inr ⟨s, _, g, h1, h3, announced_ok h2, h4, h5, hg.1, hg.2⟩
    · next f hfc =>
      obtain ⟨h1, h2⟩ := fitAndCheck_ok.mp hfc
      obtain ⟨k, g, h3, h4, h5, h6, h7, -⟩ := raise_spec h1 h2 hdet h raiseCheck_ok
      exact Or.inl ⟨g, _, h3, h4, h5, h6, h7⟩

/-- When the first fit passes the check, the degrees are raised together as long as the fits pass and are determined,
and the last good fit is the one returned: every fit up to it passed; the next one failed or was not determined. -/
theorem C31_raised (level : ℤ) (fit : Degrees → Py F) (nonmono : F → Py Bool) (spline : Py S)
    (nPoints nP nA : ℕ) (requested : Option Degrees) (hist : Dict Degrees Bool) (fuel : ℕ)
    (hreq : ∀ q, requested = some q → 0 ≤ q.1 ∧ 0 ≤ q.2)
    (r : SearchResult F S)
    (h : rationalFitForExtrema level fit nonmono spline nPoints nP nA requested hist fuel = some (.ok r))
    (d0 : Degrees) (hd0 : startDegrees fuel requested nP nA nPoints = some (.ok d0))
    (f0 : F) (hf0 : fit d0 = .ok f0) (hm : nonmono f0 = .ok false) :
    ∃ k, r.degrees = some (raisedBy k d0) ∧
      (∀ i ≤ k, ∃ g, fit (raisedBy i d0) = .ok g ∧ nonmono g = .ok false) ∧
      (¬ Determined (raisedBy (k + 1) d0) nPoints ∨
        ∃ g, fit (raisedBy (k + 1) d0) = .ok g ∧ nonmono g = .ok true) := by
  obtain ⟨hdet, hn1, hn2⟩ := startDegrees_determined hreq hd0
  unfold rationalFitForExtrema at h
  rw [hd0] at h
  have hfc : fitAndCheck fit nonmono d0 = .ok (f0, false) := fitAndCheck_ok.mpr ⟨hf0, hm⟩
  simp only [searchFrom, hfc] at h
  obtain ⟨k, g, h3, h4, h5, h6, h7, h8, h9⟩ := raise_spec hf0 hm hdet h raiseCheck_ok
  exact ⟨k, h4, h8, h9⟩

/-- At the strict level a search that returns has gone only upwards: the first fit passed, so did every fit tried after it, and the
one returned is the last that the data determine. -/
theorem C31_strict (fit : Degrees → Py F) (nonmono : F → Py Bool) (spline : Py S)
    (nPoints nP nA : ℕ) (requested : Option Degrees) (hist : Dict Degrees Bool) (fuel : ℕ)
    (hreq : ∀ q, requested = some q → 0 ≤ q.1 ∧ 0 ≤ q.2)
    (r : SearchResult F S)
    (h : rationalFitForExtrema 2 fit nonmono spline nPoints nP nA requested hist fuel = some (.ok r)) :
    ∃ d0 k f, startDegrees fuel requested nP nA nPoints = some (.ok d0) ∧ r.interpolant = .rational f ∧
      r.degrees = some (raisedBy k d0) ∧ fit (raisedBy k d0) = .ok f ∧
      (∀ i ≤ k, ∃ g, fit (raisedBy i d0) = .ok g ∧ nonmono g = .ok false) ∧
      Determined (raisedBy k d0) nPoints ∧ ¬ Determined (raisedBy (k + 1) d0) nPoints := by
  unfold rationalFitForExtrema at h
  split at h
  · cases h
  · injection h with h; cases h
  · next d0 hd0 =>
    obtain ⟨hdet, _, _⟩ := startDegrees_determined hreq hd0
    unfold searchFrom at h
    split at h
    · injection h with h; cases h
    · exfalso
      cases fuel with
      | zero => cases h
      | succ n =>
        have hstep : ∃ e, lowerStep (fun d => announced 2 false (fit d)) nonmono (announced 2 true spline) (d0, hist.set d0 true) =
            .inr (.error e) := by
          unfold lowerStep
          dsimp only
          split
          · exact ⟨_, rfl⟩
          · exact ⟨_, rfl⟩
        obtain ⟨e, he⟩ := hstep
        rw [runLoop_inr he] at h
        injection h with h; cases h
    · next f hfc =>
      obtain ⟨h1, h2⟩ := fitAndCheck_ok.mp hfc
      have hsub : ∀ {g b}, (do let b ← nonmono g; if b then announced 2 false (pure b) else pure b) = .ok b →
          nonmono g = .ok b ∧ b = false := by
        intro g b hb
        obtain ⟨b', k1, k2⟩ := bind_ok hb
        cases b' with
        | true => exact nomatch k2
        | false =>
          have k2 := Except.ok.inj k2
          subst k2
          exact ⟨k1, rfl⟩
      obtain ⟨k, g, r1, r2, r3, r4, r5, r6, r7⟩ := raise_spec (nonmono := fun f => do
        let b ← nonmono f
        if b then announced 2 false (pure b) else pure b) h1 (by rw [h2]; rfl) hdet h id
      refine ⟨d0, k, g, hd0, r1, r2, r3, fun i hi => ?_, r5, ?_⟩
      · obtain ⟨g', g1, g2⟩ := r6 i hi
        exact ⟨g', g1, (hsub g2).1⟩
      · rcases r7 with h7 | ⟨g', _, g2⟩
        · exact h7
        · exact nomatch (hsub g2).2

/-- When the first fit fails the check, the degrees are lowered together, not below one, to the first degrees whose
fit passes; when none passes down to (at most) one, the spline is returned. -/
theorem C31_lowered (level : ℤ) (fit : Degrees → Py F) (nonmono : F → Py Bool) (spline : Py S)
    (nPoints nP nA : ℕ) (requested : Option Degrees) (hist : Dict Degrees Bool) (fuel : ℕ)
    (r : SearchResult F S)
    (h : rationalFitForExtrema level fit nonmono spline nPoints nP nA requested hist fuel = some (.ok r))
    (d0 : Degrees) (hd0 : startDegrees fuel requested nP nA nPoints = some (.ok d0))
    (f0 : F) (hf0 : fit d0 = .ok f0) (hm : nonmono f0 = .ok true) :
    ∃ k, (∀ i ≤ k, ∃ g, fit (lowered^[i] d0) = .ok g ∧ nonmono g = .ok true) ∧
      (if (lowered^[k] d0).1 ≤ 1 ∧ (lowered^[k] d0).2 ≤ 1 then
        r.degrees = none ∧ ∃ s, r.interpolant = .spline s ∧ spline = .ok s
      else r.degrees = some (lowered^[k + 1] d0) ∧
        ∃ g, r.interpolant = .rational g ∧ fit (lowered^[k + 1] d0) = .ok g ∧ nonmono g = .ok false) := by
  unfold rationalFitForExtrema at h
  rw [hd0] at h
  have hfc : fitAndCheck fit nonmono d0 = .ok (f0, true) := fitAndCheck_ok.mpr ⟨hf0, hm⟩
  simp only [searchFrom, hfc] at h
  rcases lower_spec announced_ok ⟨f0, hf0, hm⟩ h with
    ⟨k, g, h1, h2, h3, h4, h5, h6⟩ | ⟨k, s, h1, h2, h3, h4, h5, h6⟩
  · exact ⟨k, h5, by rw [if_neg h6]; exact ⟨h2, g, h1, h3, h4⟩⟩
  · exact ⟨k, h6, by rw [if_pos ⟨h4, h5⟩]; exact ⟨h3, s, h1, announced_ok h2⟩⟩

/-- The start: the requested degrees if any, otherwise 3 to 6 according to the larger number of extrema; reduced to what
the data determine, which needs at least two points. -/
theorem C31_start (nPoints nP nA : ℕ) (requested : Option Degrees) (fuel : ℕ)
    (hreq : ∀ q, requested = some q → 0 ≤ q.1 ∧ 0 ≤ q.2) (r : Py Degrees)
    (h : startDegrees fuel requested nP nA nPoints = some r) :
    (nPoints < 2 → r = .error .valueError) ∧
    (2 ≤ nPoints → ∃ d q : Degrees, r = .ok d ∧
      (requested = some q ∨ requested = none ∧ q.1 = q.2 ∧ 3 ≤ q.1 ∧ q.1 ≤ 6 ∧
        (max nP nA ≤ 20 → q.1 = 3) ∧ (60 < max nP nA → q.1 = 6)) ∧
      0 ≤ d.1 ∧ d.1 ≤ q.1 ∧ 0 ≤ d.2 ∧ d.2 ≤ q.2 ∧ d.1 + d.2 = min (q.1 + q.2) (nPoints - 2)) := by
  have key : ∀ q : Degrees, 0 ≤ q.1 → 0 ≤ q.2 →
      (if isUnderdetermined q nPoints then getReducedDegrees fuel q nPoints else some (.ok q)) = some r →
      (nPoints < 2 → r = .error .valueError) ∧
      (2 ≤ nPoints → ∃ d, r = .ok d ∧ 0 ≤ d.1 ∧ d.1 ≤ q.1 ∧ 0 ≤ d.2 ∧ d.2 ≤ q.2 ∧
        d.1 + d.2 = min (q.1 + q.2) (nPoints - 2)) := by
    rintro ⟨m, n⟩ hm hn hh
    simp only at hm hn
    lift m to ℕ using hm
    lift n to ℕ using hn
    split at hh
    · refine ⟨fun hN => C32_raises m n nPoints fuel hN r hh, fun hN => ?_⟩
      obtain ⟨m', n', h1, h2, h3, h4⟩ := C32_reduced m n nPoints fuel hN r hh
      exact ⟨_, h1, by simp; omega⟩
    · next hu =>
      rw [isUnderdetermined_iff] at hu
      simp only at hu
      injection hh with hh
      exact ⟨fun hN => by omega, fun hN => ⟨_, hh.symm, by simp; omega⟩⟩
  unfold startDegrees at h
  cases requested with
  | none =>
    obtain ⟨k1, k2⟩ := key (approximateDegree nP nA)
      (by simp only [approximateDegree]; split_ifs <;> simp)
      (by simp only [approximateDegree]; split_ifs <;> simp) h
    refine ⟨k1, fun hN => ?_⟩
    obtain ⟨d, hd⟩ := k2 hN
    refine ⟨d, approximateDegree nP nA, hd.1, Or.inr ⟨rfl, ?_⟩, hd.2⟩
    simp only [approximateDegree]
    split_ifs with h1 h2 h3 <;> simp <;> omega
  | some q =>
    obtain ⟨k1, k2⟩ := key q (hreq q rfl).1 (hreq q rfl).2 h
    refine ⟨k1, fun hN => ?_⟩
    obtain ⟨d, hd⟩ := k2 hN
    exact ⟨d, q, hd.1, Or.inl rfl, hd.2⟩

/-- Every flag in the history kept for the user is the outcome of the fit with these degrees (or an older entry). -/
theorem C31_history (level : ℤ) (fit : Degrees → Py F) (nonmono : F → Py Bool) (spline : Py S)
    (nPoints nP nA : ℕ) (requested : Option Degrees) (hist : Dict Degrees Bool) (fuel : ℕ)
    (r : SearchResult F S)
    (h : rationalFitForExtrema level fit nonmono spline nPoints nP nA requested hist fuel = some (.ok r))
    (d : Degrees) (b : Bool) (hd : Dict.get? r.history d = some b) :
    Dict.get? hist d = some b ∨ ∃ f, fit d = .ok f ∧ nonmono f = .ok b := by
  unfold rationalFitForExtrema at h
  have h0 : HistOk fit nonmono hist hist := fun d b h => Or.inl h
  split at h
  · cases h
  · injection h with h; cases h
  · next d0 hd0 =>
    unfold searchFrom at h
    split at h
    · injection h with h; cases h
    · next f hfc =>
      obtain ⟨h1, h2⟩ := fitAndCheck_ok.mp hfc
      exact lower_hist announced_ok (h0.set h1 h2) h d b hd
    · next f hfc =>
      obtain ⟨h1, h2⟩ := fitAndCheck_ok.mp hfc
      exact raise_hist (h0.set h1 h2) h raiseCheck_ok d b hd

variable {K : Type} [Field K] [LinearOrder K] [IsStrictOrderedRing K]

/-- What "passes the check" means in the search (tolerance one): as soon as the first derivative sample is not zero, the
check passes exactly when all derivative samples have one sign, so that the sampled fit has no turning point. -/
theorem C31_check (x y : List K) (hx : 2 ≤ x.length) (g : List K) (g0 : K) (dx : K)
    (hdx : dx = x[1] - x[0]) (hg : npGradient dx y = .ok (g0 :: g)) (h0 : g0 ≠ 0) :
    notStrictlyMonotonic x y 1 = .ok false ↔
      (∀ v ∈ g0 :: g, 0 < v) ∨ (∀ v ∈ g0 :: g, v < 0) := by
  rw [← anyConsecutive_sign g0 g h0]
  unfold notStrictlyMonotonic
  rw [pyGet_of_lt (by omega : 1 < x.length), pyGet_of_lt (by omega : 0 < x.length)]
  simp only [ok_bind, ← hdx, hg, pure_eq_ok, Except.ok.injEq]

/-- The derivative samples: central differences inside, one sided at the ends. -/
theorem C31_gradient (dx : K) (y : List K) (hy : 2 ≤ y.length) :
    ∃ g, npGradient dx y = .ok g ∧ ∃ hl : g.length = y.length,
      g[0] = (y[1] - y[0]) / dx ∧
      g[y.length - 1] = (y[y.length - 1] - y[y.length - 2]) / dx ∧
      ∀ i, (hi : 0 < i ∧ i + 1 < y.length) → g[i] = (y[i + 1] - y[i - 1]) / (2 * dx) := by
  match y, hy with
  | a :: b :: l, _ =>
    have hc : ∀ l' : List K, (centralDiffs dx l').length = l'.length - 2 ∧
        ∀ i, (h : i + 2 < l'.length) → (centralDiffs dx l')[i]? = some ((l'[i + 2] - l'[i]) / (2 * dx)) := by
      intro l'
      induction l' with
      | nil => exact ⟨rfl, fun i h => by simp at h⟩
      | cons a' l1 ih =>
        match l1, ih with
        | [], _ => exact ⟨rfl, fun i h => by simp at h⟩
        | [b'], _ => exact ⟨rfl, fun i h => by simp at h⟩
        | b' :: c' :: l2, ih =>
          refine ⟨by simp only [centralDiffs, List.length_cons, ih.1]; omega, fun i h => ?_⟩
          cases i with
          | zero => simp [centralDiffs]
          | succ i =>
            simp only [centralDiffs, List.getElem?_cons_succ]
            rw [ih.2 i (by simpa using h)]
            simp
    obtain ⟨hcl, hcv⟩ := hc (a :: b :: l)
    refine ⟨_, rfl, by simp [hcl], ?_, ?_, ?_⟩
    · simp
    · have h1 : (a :: b :: l).length - 1 = (centralDiffs dx (a :: b :: l)).length + 1 := by
        rw [hcl]; simp
      simp only [List.cons_append, h1, List.getElem_cons_succ]
      rw [List.getElem_append_right (by omega)]
      simp only [Nat.sub_self, List.getElem_cons_zero]
      congr 2
      · rw [List.getLast_eq_getElem]
        simp only [hcl]
        simp
      · exact (List.getLast_eq_getElem _).trans (by simp only [List.getElem_dropLast, List.length_dropLast, List.length_cons, Nat.add_sub_cancel]; congr 1)
    · rintro i ⟨h1, h2⟩
      obtain ⟨i, rfl⟩ : ∃ j, i = j + 1 := ⟨i - 1, by omega⟩
      simp only [List.cons_append, List.getElem_cons_succ]
      have h3 := hcv i (by omega)
      have hlt : i < (centralDiffs dx (a :: b :: l)).length := by rw [hcl]; omega
      rw [List.getElem_append_left hlt]
      rw [List.getElem?_eq_getElem hlt] at h3
      simpa using h3

/-- A parabola with a turning point is flagged, an increasing cubic is not. -/
example : notStrictlyMonotonic [0, 1, 2, 3, 4] [4, 1, 0, 1, (4 : ℚ)] 1 = .ok true := by decide +kernel
example : notStrictlyMonotonic [0, 1, 2, 3] [0, 1, 8, (27 : ℚ)] 1 = .ok false ∧
    npGradient (1 : ℚ) [0, 1, 8, 27] = .ok [1, 4, 13, 19] := by decide +kernel

/-- Raising: fits up to degree (4,4) pass, (5,5) fails; 30 points, start (3,3). -/
example : ((rationalFitForExtrema (S := Unit) 0 (fun d => .ok d) (fun d => .ok (decide (4 < d.1))) (.ok ()) 30 8 9 none []
    10)) =
    some (.ok ⟨.rational (4, 4), some (4, 4), [((3, 3), false), ((4, 4), false), ((5, 5), true)]⟩) := by decide +kernel
/-- Lowering from requested degrees (4,2), reduced to (3,0) by five points; only (1,1) passes. -/
example : ((rationalFitForExtrema (S := Unit) 0 (fun d => .ok d) (fun d => .ok (decide (1 < d.1))) (.ok ()) 5 8 9
    (some (4, 2)) [] 10)) =
    some (.ok ⟨.rational (1, 1), some (1, 1), [((3, 0), true), ((2, 1), true), ((1, 1), false)]⟩) := by decide +kernel
/-- Nothing passes: the spline. -/
example : ((rationalFitForExtrema (S := Unit) 0 (fun d => .ok d) (fun _ => .ok true) (.ok ()) 9 8 9
    none [] 10)) =
    some (.ok ⟨.spline (), none, [((3, 3), true), ((2, 2), true), ((1, 1), true)]⟩) := by decide +kernel

/-- The strict level: all fits the eleven points determine pass; if the raised one fails, the search raises although the fit before it
is good. -/
example : ((rationalFitForExtrema (S := Unit) 2 (fun d => .ok d) (fun _ => .ok false) (.ok ()) 11 8 9 none [] 10)) =
    some (.ok ⟨.rational (4, 4), some (4, 4), [((3, 3), false), ((4, 4), false)]⟩) ∧
    ((rationalFitForExtrema (S := Unit) 2 (fun d => .ok d) (fun d => .ok (decide (4 < d.1))) (.ok ()) 30 8 9 none [] 10)) =
    some (.error .exception) := by decide +kernel

end GwEcc
