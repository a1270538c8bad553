import Verif.Model.ExtremaFit
import Verif.Lemmas.RationalDegree
import Verif.Lemmas.Levels
import Verif.Lemmas.Units

/-!
# Lemmas on the rational fits through the extrema
-/

set_option linter.unusedSectionVars false

namespace GwEcc

open Spec

section search

variable {F S : Type}

/-- The degrees the search starts from lie between zero and those given. -/
theorem startDegrees_between {fuel : ℕ} {req : Option Degrees} {nP nA N : ℕ} {d : Degrees}
    (h : startDegrees fuel req nP nA N = some (.ok d)) :
    (d.1 ≤ (req.getD (approximateDegree nP nA)).1 ∧ min (req.getD (approximateDegree nP nA)).1 0 ≤ d.1) ∧
      d.2 ≤ (req.getD (approximateDegree nP nA)).2 ∧ min (req.getD (approximateDegree nP nA)).2 0 ≤ d.2 := by
  unfold startDegrees at h
  dsimp only at h
  generalize req.getD (approximateDegree nP nA) = q at *
  split at h
  · have := runLoop_inv (step := reduceStep N)
      (fun s => (s.1 ≤ q.1 ∧ min q.1 0 ≤ s.1) ∧ s.2.1 ≤ q.2 ∧ min q.2 0 ≤ s.2.1)
      (fun r => ∀ d', r = .ok d' → (d'.1 ≤ q.1 ∧ min q.1 0 ≤ d'.1) ∧ d'.2 ≤ q.2 ∧ min q.2 0 ≤ d'.2)
      ?_ ?_ (s := (q.1, q.2, true)) ⟨⟨le_refl _, min_le_left _ _⟩, le_refl _, min_le_left _ _⟩ h
    · exact this d rfl
    · rintro ⟨m, n, b⟩ ⟨m', n', b'⟩ hI hs
      simp only [reduceStep] at hs
      split at hs
      · split at hs
        · cases hs
        · split at hs
          · injection hs with hs; cases hs; dsimp only at *; omega
          · split at hs
            · injection hs with hs; cases hs; dsimp only at *; omega
            · injection hs with hs; cases hs; dsimp only at *; omega
      · cases hs
    · rintro ⟨m, n, b⟩ r hI hs d' rfl
      simp only [reduceStep] at hs
      split at hs
      · split at hs
        · cases hs
        · split at hs
          · cases hs
          · split at hs <;> cases hs
      · cases hs; exact hI
  · cases h
    exact ⟨⟨le_refl _, min_le_left _ _⟩, le_refl _, min_le_left _ _⟩

/-- The bound on the number of passes is never reached. -/
theorem search_terminates (level : ℤ) (fit : Degrees → Py F) (nonmono : F → Py Bool) (spline : Py S)
    (nPoints nP nA : ℕ) (requested : Option Degrees) (hist : Dict Degrees Bool) (fuel : ℕ)
    (hf : searchPasses (requested.getD (approximateDegree nP nA)) nPoints ≤ fuel) :
    ∃ r, rationalFitForExtrema level fit nonmono spline nPoints nP nA requested hist fuel = some r := by
  unfold searchPasses at hf
  have hstart : ∃ r, startDegrees fuel requested nP nA nPoints = some r := by
    unfold startDegrees
    dsimp only
    split
    · exact reduce_terminates _ nPoints fuel (by omega)
    · exact ⟨_, rfl⟩
  obtain ⟨r0, hr0⟩ := hstart
  unfold rationalFitForExtrema
  cases r0 with
  | error e => exact ⟨.error e, by rw [hr0]⟩
  | ok d =>
    rw [hr0]
    have hb := startDegrees_between hr0
    simp only [searchFrom]
    split
    · exact ⟨_, rfl⟩
    · exact lower_terminates _ _ _ _ _ _ (by omega)
    · exact raise_terminates _ _ _ _ _ _ _ (by omega)

theorem degreeSearch_eq (level : ℤ) (d : FitData F S) (nP nA : ℕ) (requested : Option Degrees) :
    rationalFitForExtrema level d.fit d.nonmono d.spline d.nPoints nP nA requested []
      (searchPasses (requested.getD (approximateDegree nP nA)) d.nPoints) = some (degreeSearch level d nP nA requested) := by
  obtain ⟨r, hr⟩ := search_terminates level d.fit d.nonmono d.spline d.nPoints nP nA requested [] _ le_rfl
  unfold degreeSearch
  rw [hr]
  rfl

/-- Two loops whose states remain related. -/
theorem runLoop_lvl {q : Prop} {σ σ' R R' : Type} {step : σ → σ ⊕ Py R} {step' : σ' → σ' ⊕ Py R'} (I : σ → σ' → Prop)
    (P : R → R' → Prop)
    (h : ∀ s s', I s s' → (∃ t t', step s = .inl t ∧ step' s' = .inl t' ∧ I t t') ∨
      (∃ r r', step s = .inr r ∧ step' s' = .inr r' ∧ Lvl q P r r') ∨ (¬ q ∧ ∃ e, step s = .inr (.error e))) :
    ∀ (fuel : ℕ) s s', I s s' →
      Lvl q P ((runLoop step fuel s).getD (.error .exception)) ((runLoop step' fuel s').getD (.error .exception))
  | 0, _, _, _ => .error _
  | fuel + 1, s, s', hI => by
    rw [runLoop_succ, runLoop_succ]
    rcases h s s' hI with ⟨t, t', h1, h2, h3⟩ | ⟨r, r', h1, h2, h3⟩ | ⟨hq, e, h1⟩
    · rw [h1, h2]
      exact runLoop_lvl I P h fuel t t' h3
    · rw [h1, h2]
      exact h3
    · rw [h1]
      exact .strict hq e _

variable {F' S' : Type}

/-- What two searches return, when the fits are related by `R` and the splines by `T`. -/
def SearchRel (R : F → F' → Prop) (T : S → S' → Prop) (r : SearchResult F S) (r' : SearchResult F' S') : Prop :=
  r'.degrees = r.degrees ∧ ((∃ f f', r.interpolant = .rational f ∧ r'.interpolant = .rational f' ∧ R f f') ∨
    ∃ s s', r.interpolant = .spline s ∧ r'.interpolant = .spline s' ∧ T s s')

/-- Data that look the same to the search. -/
structure DataRel (q : Prop) (R : F → F' → Prop) (T : S → S' → Prop) (d : FitData F S) (d' : FitData F' S') : Prop where
  fit : ∀ k, Lvl q R (d.fit k) (d'.fit k)
  nonmono : ∀ f f', R f f' → Lvl q Eq (d.nonmono f) (d'.nonmono f')
  spline : Lvl q T d.spline d'.spline
  nPoints : d'.nPoints = d.nPoints

theorem announced_lvl {q : Prop} {α β : Type} {R : α → β → Prop} {L L' : ℤ}
    (hm : ∀ b, Lvl q (fun _ _ => True) (debugMessage L b) (debugMessage L' b)) (b : Bool) {x : Py α} {y : Py β}
    (h : Lvl q R x y) : Lvl q R (announced L b x) (announced L' b y) :=
  Lvl.bind (hm b) fun _ _ _ => h

theorem fitAndCheck_lvl {q : Prop} {R : F → F' → Prop} {fit : Degrees → Py F} {fit' : Degrees → Py F'} {nm : F → Py Bool}
    {nm' : F' → Py Bool} (h1 : ∀ k, Lvl q R (fit k) (fit' k)) (h2 : ∀ f f', R f f' → Lvl q Eq (nm f) (nm' f')) (k : Degrees) :
    Lvl q (fun r r' => R r.1 r'.1 ∧ r'.2 = r.2) (fitAndCheck fit nm k) (fitAndCheck fit' nm' k) := by
  refine Lvl.bind (h1 k) fun f f' hf => Lvl.bind (h2 f f' hf) fun b b' hb => .ok ⟨hf, hb.symm⟩

theorem degreeSearch_lvl {q : Prop} {R : F → F' → Prop} {T : S → S' → Prop} {d : FitData F S} {d' : FitData F' S'} {L L' : ℤ}
    (hm : ∀ b, Lvl q (fun _ _ => True) (debugMessage L b) (debugMessage L' b)) (h : DataRel q R T d d') (nP nA : ℕ)
    (requested : Option Degrees) :
    Lvl q (SearchRel R T) (degreeSearch L d nP nA requested) (degreeSearch L' d' nP nA requested) := by
  unfold degreeSearch rationalFitForExtrema
  rw [h.nPoints]
  generalize searchPasses _ _ = fuel
  rcases hs : startDegrees fuel requested nP nA d.nPoints with _ | (e | k)
  · exact .error _
  · exact .error _
  · dsimp only
    have hraise : ∀ f f', R f f' → Lvl q Eq
        (d.nonmono f >>= fun b => if b = true then announced L false (pure b) else pure b)
        (d'.nonmono f' >>= fun b => if b = true then announced L' false (pure b) else pure b) := by
      intro f f' hf
      refine Lvl.bind (h.nonmono f f' hf) fun b b' hb => ?_
      subst hb
      exact Lvl.ite (fun _ => announced_lvl hm false (Lvl.rfl' _)) fun _ => Lvl.rfl' _
    unfold searchFrom
    have h0 := fitAndCheck_lvl h.fit h.nonmono k
    generalize fitAndCheck d.fit d.nonmono k = x at h0
    generalize fitAndCheck d'.fit d'.nonmono k = x' at h0
    cases h0 with
    | error e => exact .error e
    | strict hq e y => exact .strict hq e _
    | ok hr =>
      rename_i r r'
      obtain ⟨f, b⟩ := r
      obtain ⟨f', b'⟩ := r'
      obtain ⟨hf, hb⟩ := hr
      dsimp only at hf hb
      subst hb
      cases b' with
      | true =>
        refine runLoop_lvl (fun s s' => s'.1 = s.1) _ ?_ _ _ _ rfl
        rintro ⟨⟨m, n⟩, hist⟩ ⟨⟨m', n'⟩, hist'⟩ hI
        cases hI
        unfold lowerStep
        dsimp only
        split
        · refine .inr (.inl ⟨_, _, rfl, rfl, ?_⟩)
          have := announced_lvl hm true h.spline
          generalize announced L true d.spline = y at this
          generalize announced L' true d'.spline = y' at this
          cases this with
          | ok h => exact .ok ⟨rfl, .inr ⟨_, _, rfl, rfl, h⟩⟩
          | error e => exact .error e
          | strict hq e y => exact .strict hq e _
        · have := fitAndCheck_lvl (fun k => announced_lvl hm false (h.fit k)) h.nonmono (max (m - 1) 1, max (n - 1) 1)
          generalize fitAndCheck (fun k => announced L false (d.fit k)) d.nonmono (max (m - 1) 1, max (n - 1) 1) = y at this
          generalize fitAndCheck (fun k => announced L' false (d'.fit k)) d'.nonmono (max (m - 1) 1, max (n - 1) 1) = y' at this
          cases this with
          | ok h =>
            rename_i r r'
            obtain ⟨g, b⟩ := r
            obtain ⟨g', b'⟩ := r'
            obtain ⟨hg, hb⟩ := h
            dsimp only at hg hb
            subst hb
            cases b' with
            | true => exact .inl ⟨_, _, rfl, rfl, rfl⟩
            | false => exact .inr (.inl ⟨_, _, rfl, rfl, .ok ⟨rfl, .inl ⟨_, _, rfl, rfl, hg⟩⟩⟩)
          | error e => exact .inr (.inl ⟨_, _, rfl, rfl, .error e⟩)
          | strict hq e y => exact .inr (.inr ⟨hq, e, rfl⟩)
      | false =>
        refine runLoop_lvl (fun s s' => R s.1 s'.1 ∧ s'.2.1 = s.2.1) _ ?_ _ _ _ ⟨hf, rfl⟩
        rintro ⟨f0, ⟨m, n⟩, hist⟩ ⟨f0', ⟨m', n'⟩, hist'⟩ ⟨hI, hI'⟩
        cases hI'
        unfold raiseStep
        dsimp only at hI ⊢
        split
        · exact .inr (.inl ⟨_, _, rfl, rfl, .ok ⟨rfl, .inl ⟨_, _, rfl, rfl, hI⟩⟩⟩)
        · have := fitAndCheck_lvl h.fit hraise (m + 1, n + 1)
          generalize fitAndCheck d.fit _ (m + 1, n + 1) = y at this
          generalize fitAndCheck d'.fit _ (m + 1, n + 1) = y' at this
          cases this with
          | ok h =>
            rename_i r r'
            obtain ⟨g, b⟩ := r
            obtain ⟨g', b'⟩ := r'
            obtain ⟨hg, hb⟩ := h
            dsimp only at hg hb
            subst hb
            cases b' with
            | true => exact .inr (.inl ⟨_, _, rfl, rfl, .ok ⟨rfl, .inl ⟨_, _, rfl, rfl, hI⟩⟩⟩)
            | false => exact .inl ⟨_, _, rfl, rfl, hg, rfl⟩
          | error e => exact .inr (.inl ⟨_, _, rfl, rfl, .error e⟩)
          | strict hq e y => exact .inr (.inr ⟨hq, e, rfl⟩)

/-- What a search returns. -/
theorem search_returned {level : ℤ} {fit : Degrees → Py F} {nonmono : F → Py Bool} {spline : Py S}
    {nPoints nP nA : ℕ} {requested : Option Degrees} {hist : Dict Degrees Bool} {fuel : ℕ} {r : SearchResult F S}
    (h : rationalFitForExtrema level fit nonmono spline nPoints nP nA requested hist fuel = some (.ok r)) :
    (∃ f d, r.interpolant = .rational f ∧ fit d = .ok f) ∨ ∃ s, r.interpolant = .spline s ∧ spline = .ok s := by
  unfold rationalFitForExtrema at h
  split at h
  · cases h
  · injection h with h; cases h
  · next d0 hd0 =>
    unfold searchFrom at h
    split at h
    · injection h with h; cases h
    · next f hfc =>
      rcases lower_spec announced_ok ⟨f, fitAndCheck_ok.mp hfc⟩ h with
        ⟨k, g, h1, h2, h3, h4, h5, h6⟩ | ⟨k, s, h1, h2, h3, h4, h5, h6⟩
      · exact Or.inl ⟨g, _, h1, h3⟩
      · exact Or.inr ⟨s, h1, announced_ok h2⟩
    · next f hfc =>
      have := runLoop_inv (step := raiseStep (S := S) fit _ nPoints) (fun s => fit s.2.1 = .ok s.1)
        (fun r => ∀ x, r = .ok x → ∃ f d, x.interpolant = .rational f ∧ fit d = .ok f) ?_ ?_
        (s := (f, d0, hist.set d0 false)) (fitAndCheck_ok.mp hfc).1 h
      · exact .inl (this r rfl)
      · rintro ⟨g, ⟨m, n⟩, hist⟩ ⟨g', ⟨m', n'⟩, hist'⟩ hI hs
        simp only [raiseStep] at hs
        split at hs
        · cases hs
        · split at hs
          · cases hs
          · cases hs
          · next hfc => cases hs; exact (fitAndCheck_ok.mp hfc).1
      · rintro ⟨g, ⟨m, n⟩, hist⟩ r hI hs x rfl
        simp only [raiseStep] at hs
        split at hs
        · cases hs; exact ⟨_, _, rfl, hI⟩
        · split at hs
          · cases hs
          · cases hs; exact ⟨_, _, rfl, hI⟩
          · cases hs

/-- A search in which every fit passes the check ends with a fit. -/
theorem degreeSearch_passes (level : ℤ) (d : FitData F S) (nP nA : ℕ) (requested : Option Degrees)
    (hreq : ∀ q, requested = some q → 0 ≤ q.1 ∧ 0 ≤ q.2) (h2 : 2 ≤ d.nPoints)
    (hfit : ∀ k : Degrees, 0 ≤ k.1 → 0 ≤ k.2 → Determined k d.nPoints → ∃ f, d.fit k = .ok f ∧ d.nonmono f = .ok false) :
    ∃ r k f, degreeSearch level d nP nA requested = .ok r ∧ r.interpolant = .rational f ∧ r.degrees = some k ∧ 0 ≤ k.1 ∧
      0 ≤ k.2 ∧ Determined k d.nPoints ∧ d.fit k = .ok f := by
  have hse := degreeSearch_eq level d nP nA requested
  generalize hr : degreeSearch level d nP nA requested = r at hse
  generalize searchPasses _ _ = fuel at hse
  unfold rationalFitForExtrema at hse
  rcases hs : startDegrees fuel requested nP nA d.nPoints with _ | (e | k)
  · rw [hs] at hse; cases hse
  · exfalso
    -- with two points the reduction ends
    have hq : 0 ≤ (requested.getD (approximateDegree nP nA)).1 ∧ 0 ≤ (requested.getD (approximateDegree nP nA)).2 := by
      cases requested with
      | none => simp only [Option.getD_none, approximateDegree]; split_ifs <;> simp
      | some q => exact hreq q rfl
    unfold startDegrees at hs
    dsimp only at hs
    generalize requested.getD (approximateDegree nP nA) = q at *
    split at hs
    · have := runLoop_inv (step := reduceStep d.nPoints) (fun s => 0 ≤ s.1 ∧ 0 ≤ s.2.1) (fun r => ∀ e, r ≠ .error e) ?_ ?_
        (s := (q.1, q.2, true)) hq hs
      · exact this e rfl
      · rintro ⟨m, n, b⟩ ⟨m', n', b'⟩ hI hs
        simp only [reduceStep] at hs
        split at hs
        · split at hs
          · cases hs
          · split at hs
            · injection hs with hs; cases hs; dsimp only at *; omega
            · split at hs
              · injection hs with hs; cases hs; dsimp only at *; omega
              · injection hs with hs; cases hs; dsimp only at *; omega
        · cases hs
      · rintro ⟨m, n, b⟩ r hI hs e rfl
        simp only [reduceStep] at hs
        split at hs
        · next hu =>
          rw [isUnderdetermined_iff] at hu
          split at hs
          · next hle => dsimp only at *; omega
          · split at hs
            · cases hs
            · split at hs <;> cases hs
        · cases hs
    · cases hs
  · rw [hs] at hse
    dsimp only at hse
    obtain ⟨hdet, k1, k2⟩ := startDegrees_determined hreq hs
    obtain ⟨f, f1, f2⟩ := hfit k k1 k2 hdet
    unfold searchFrom at hse
    rw [fitAndCheck_ok.mpr ⟨f1, f2⟩] at hse
    dsimp only at hse
    have := runLoop_inv (step := raiseStep (S := S) d.fit (fun f => do
        let b ← d.nonmono f
        if b then announced level false (pure b) else pure b) d.nPoints)
      (fun s => d.fit s.2.1 = .ok s.1 ∧ 0 ≤ s.2.1.1 ∧ 0 ≤ s.2.1.2 ∧ Determined s.2.1 d.nPoints)
      (fun r => ∃ x k f, r = .ok x ∧ x.interpolant = .rational f ∧ x.degrees = some k ∧ 0 ≤ k.1 ∧
        0 ≤ k.2 ∧ Determined k d.nPoints ∧ d.fit k = .ok f) ?_ ?_ ⟨f1, k1, k2, hdet⟩ hse
    · exact this
    · rintro ⟨g, ⟨m, n⟩, hist⟩ ⟨g', ⟨m', n'⟩, hist'⟩ ⟨i1, i2, i3, i4⟩ hs
      dsimp only at i1 i2 i3 i4
      simp only [raiseStep] at hs
      split at hs
      · cases hs
      · next hu =>
        rw [isUnderdetermined_iff] at hu
        obtain ⟨g2, p1, p2⟩ := hfit (m + 1, n + 1) (by dsimp only; omega) (by dsimp only; omega)
          (by simp only [Determined]; dsimp only at hu; omega)
        rw [fitAndCheck_ok.mpr ⟨p1, (by rw [p2]; rfl)⟩] at hs
        cases hs
        exact ⟨p1, by dsimp only; omega, by dsimp only; omega, by simp only [Determined]; dsimp only at hu; omega⟩
    · rintro ⟨g, ⟨m, n⟩, hist⟩ r ⟨i1, i2, i3, i4⟩ hs
      dsimp only at i1 i2 i3 i4
      simp only [raiseStep] at hs
      split at hs
      · cases hs
        exact ⟨_, _, _, rfl, rfl, rfl, i2, i3, i4, i1⟩
      · next hu =>
        rw [isUnderdetermined_iff] at hu
        obtain ⟨g2, p1, p2⟩ := hfit (m + 1, n + 1) (by dsimp only; omega) (by dsimp only; omega)
          (by simp only [Determined]; dsimp only at hu; omega)
        rw [fitAndCheck_ok.mpr ⟨p1, (by rw [p2]; rfl)⟩] at hs
        cases hs

end search

/-! ### The fits of a measurement -/

variable {K : Type} [Field K] [LinearOrder K] [IsStrictOrderedRing K] [FloorRing K]

/-- Both searches of one measurement against both searches of another. -/
theorem extremaFit_lvl {q : Prop} {R : (K → Py K) → (K → Py K) → Prop} {L L' : ℤ}
    (hm : ∀ b, Lvl q (fun _ _ => True) (debugMessage L b) (debugMessage L' b))
    {rat rat' : Degrees → List K → List K → Py (K → Py K)} {eval eval' : InterpCall → List K → List K → K → Py K}
    {req req' : Py (Option Degrees)} (hreq : req' = req) {t t' xP yP xA yA xP' yP' xA' yA' : List K}
    (hP : DataRel q R R (extremaData rat eval t xP yP) (extremaData rat' eval' t' xP' yP'))
    (hA : DataRel q R R (extremaData rat eval t xA yA) (extremaData rat' eval' t' xA' yA')) (ty : ExtType) :
    Lvl q R (extremaFit rat eval L req t ty xP yP xA yA) (extremaFit rat' eval' L' req' t' ty xP' yP' xA' yA') := by
  unfold extremaFit
  rw [hreq, show xP'.length = xP.length from hP.nPoints, show xA'.length = xA.length from hA.nPoints]
  have hfn : ∀ {r r' : SearchResult (K → Py K) (K → Py K)}, SearchRel R R r r' → R r.interpolant.fn r'.interpolant.fn := by
    rintro r r' ⟨_, ⟨f, f', h1, h2, h3⟩ | ⟨f, f', h1, h2, h3⟩⟩
    · rw [h1, h2]; exact h3
    · rw [h1, h2]; exact h3
  refine Lvl.bind (Lvl.rfl' _) ?_
  rintro k _ rfl
  refine Lvl.bind (degreeSearch_lvl hm hP _ _ _) fun r r' hr => ?_
  cases ty with
  | pericenters => exact .ok (hfn hr)
  | apocenters =>
    dsimp only
    rw [hr.1]
    exact Lvl.bind (degreeSearch_lvl hm hA _ _ _) fun s s' hs => .ok (hfn hs)

theorem Lvl.of_pyRel {α β : Type} {q : Prop} {R : α → β → Prop} {x : Py α} {y : Py β} (h : PyRel R x y) : Lvl q R x y := by
  cases h with
  | ok h => exact .ok h
  | error e => exact .error e

theorem Lvl.to_pyRel {α β : Type} {R : α → β → Prop} {x : Py α} {y : Py β} (h : Lvl True R x y) : PyRel R x y := by
  cases h with
  | ok h => exact .ok h
  | error e => exact .error e
  | strict h => exact absurd trivial h

/-- The level of the messages. -/
theorem extremaFit_level (L : ℤ) (rat : Degrees → List K → List K → Py (K → Py K)) (eval : InterpCall → List K → List K → K → Py K)
    (req : Py (Option Degrees)) (t : List K) (ty : ExtType) (xP yP xA yA : List K) :
    Lvl (Quiet L) Eq (extremaFit rat eval L req t ty xP yP xA yA) (extremaFit rat eval 0 req t ty xP yP xA yA) := by
  refine extremaFit_lvl (fun b => ?_) rfl ?_ ?_ ty
  · have := message_bind (L := L) (i := b) (v := false) (S := fun (_ _ : Outcome) => True) (f := pure) (g := pure)
      fun _ _ => .ok trivial
    simpa using this
  all_goals exact ⟨fun _ => Lvl.rfl' _, by rintro f _ rfl; exact Lvl.rfl' _, Lvl.rfl' _, rfl⟩

theorem testPoints_new {k : K} (hk : 0 < k) (c : K) (t x : List K) :
    PyRel (fun l l' => l' = l.map (newTime k c)) (testPoints t x) (testPoints (t.map (newTime k c)) (x.map (newTime k c))) := by
  unfold testPoints
  refine PyRel.bind (PyRel.pyGet _ _) ?_
  rintro a _ rfl
  refine PyRel.bind (PyRel.pyLast _) ?_
  rintro b _ rfl
  refine PyRel.bind (PyRel.pyGet _ _) ?_
  rintro t1 _ rfl
  refine PyRel.bind (PyRel.pyGet _ _) ?_
  rintro t0 _ rfl
  have e1 : newTime k c t1 - newTime k c t0 = k * (t1 - t0) := by unfold newTime; ring
  have e2 : newTime k c b - newTime k c a = k * (b - a) := by unfold newTime; ring
  unfold Load.arange
  rw [e1, e2]
  refine PyRel.ite (by rw [mul_eq_zero, or_iff_right hk.ne']) (fun _ _ => .error _) fun _ _ => .ok ?_
  rw [mul_div_mul_left _ _ hk.ne', List.map_map]
  refine List.map_congr_left fun i _ => ?_
  simp only [Function.comp, newTime]
  ring

/-- The fits in other units. -/
theorem extremaFit_new {k : K} (hk : 0 < k) (c : K) {rat : Degrees → List K → List K → Py (K → Py K)}
    {eval : InterpCall → List K → List K → K → Py K} (L : ℤ) (req : Py (Option Degrees)) (t : List K) (ty : ExtType)
    (hrat : ∀ d x y, PyRel (fun f f' => ∀ p, f' (newTime k c p) = (f p).map (newFreq k)) (rat d x y)
      (rat d (x.map (newTime k c)) (y.map (newFreq k))))
    (heval : ∀ call x y p, eval call (x.map (newTime k c)) (y.map (newFreq k)) (newTime k c p) = (eval call x y p).map (newFreq k))
    (xP yP xA yA : List K) :
    PyRel (fun f f' => ∀ p, f' (newTime k c p) = (f p).map (newFreq k)) (extremaFit rat eval L req t ty xP yP xA yA)
      (extremaFit rat eval L req (t.map (newTime k c)) ty (xP.map (newTime k c)) (yP.map (newFreq k)) (xA.map (newTime k c))
        (yA.map (newFreq k))) := by
  have data : ∀ x y, DataRel True (fun f f' => ∀ p, f' (newTime k c p) = (f p).map (newFreq k))
      (fun f f' => ∀ p, f' (newTime k c p) = (f p).map (newFreq k)) (extremaData rat eval t x y)
      (extremaData rat eval (t.map (newTime k c)) (x.map (newTime k c)) (y.map (newFreq k))) := by
    intro x y
    refine ⟨fun d => .of_pyRel ?_, fun f f' hf => .of_pyRel ?_, .of_pyRel ?_, by simp [extremaData]⟩
    · exact PyRel.bind (testPoints_new hk c t x) fun _ _ _ => hrat d x y
    · refine PyRel.bind (testPoints_new hk c t x) ?_
      rintro l _ rfl
      refine PyRel.bind (PyRel.mapM l fun p _ => PyRel.of_map (hf p)) ?_
      rintro v _ rfl
      exact notStrictlyMonotonic_rel k hk c _ _ _
    · unfold extremaData
      dsimp only
      rw [getInterpolant_map (fun x y => newTime_lt hk c)]
      refine PyRel.bind (R := Eq) (PyRel.of_eq rfl) ?_
      rintro r _ rfl
      exact .ok fun p => heval _ _ _ _
  exact (extremaFit_lvl (fun b => Lvl.refl (fun _ => trivial) _) rfl (data xP yP) (data xA yA) ty).to_pyRel

/-- What the fits return: a rational fit through the points, or the spline through them. -/
theorem extremaFit_through {rat : Degrees → List K → List K → Py (K → Py K)} {eval : InterpCall → List K → List K → K → Py K}
    {L : ℤ} {req : Py (Option Degrees)} {t : List K} {ty : ExtType} {xP yP xA yA : List K} {f : K → Py K}
    (h : extremaFit rat eval L req t ty xP yP xA yA = .ok f) :
    (∃ d, rat d (ty.pick xP xA) (ty.pick yP yA) = .ok f) ∨
      f = eval (.spline (min 3 ((ty.pick xP xA).length - 1)) 2) (ty.pick xP xA) (ty.pick yP yA) := by
  have one : ∀ {x y : List K} {nP nA : ℕ} {q : Option Degrees} {r : SearchResult (K → Py K) (K → Py K)},
      degreeSearch L (extremaData rat eval t x y) nP nA q = .ok r →
      (∃ d, rat d x y = .ok r.interpolant.fn) ∨ r.interpolant.fn = eval (.spline (min 3 (x.length - 1)) 2) x y := by
    intro x y nP nA q r hr
    have := degreeSearch_eq L (extremaData rat eval t x y) nP nA q
    rw [hr] at this
    rcases search_returned this with ⟨g, d, h1, h2⟩ | ⟨g, h1, h2⟩
    · obtain ⟨_, _, h2⟩ := bind_ok h2
      rw [h1]
      exact .inl ⟨d, h2⟩
    · obtain ⟨v, h3, h4⟩ := bind_ok h2
      rw [h1]
      refine .inr ?_
      show g = _
      rw [← Except.ok.inj h4]
      unfold getInterpolant at h3
      split at h3
      · cases h3
      · dsimp only at h3
        split at h3
        · next hlen =>
          cases h3
          by_cases h3 : x.length ≤ 3
          · have : min 3 (x.length - 1) = x.length - 1 := by omega
            simp [h3, this]
          · have : min 3 (x.length - 1) = 3 := by omega
            simp [h3, this]
        · cases h3
  unfold extremaFit at h
  obtain ⟨q, _, h⟩ := bind_ok h
  obtain ⟨r, hr, h⟩ := bind_ok h
  cases ty with
  | pericenters =>
    cases h
    exact one hr
  | apocenters =>
    obtain ⟨r', hr', h⟩ := bind_ok h
    cases h
    exact one hr'

/-- The test points, when the first and the last point are more than one step apart. -/
theorem testPoints_two {t x : List K} {t0 t1 : K} (h0 : t[0]? = some t0) (h1 : t[1]? = some t1) (hpos : 0 < t1 - t0)
    (hx : x ≠ []) (hfar : t1 - t0 < x.getLast hx - x.head hx) :
    ∃ l, testPoints t x = .ok l ∧ 2 ≤ l.length ∧ ∀ p ∈ l, x.head hx ≤ p ∧ p ≤ x.getLast hx := by
  refine ⟨(List.range ⌈(x.getLast hx - x.head hx) / (t1 - t0)⌉.toNat).map fun (k : ℕ) => x.head hx + k * (t1 - t0), ?_, ?_, ?_⟩
  · unfold testPoints Load.arange
    have e1 : pyGet x 0 = .ok (x.head hx) := by
      cases x with
      | nil => exact absurd rfl hx
      | cons a l => rfl
    have e2 : pyLast x = .ok (x.getLast hx) := by
      unfold pyLast
      rw [List.getLast?_eq_some_getLast hx]
    have e3 : pyGet t 1 = .ok t1 := by unfold pyGet; rw [h1]
    have e4 : pyGet t 0 = .ok t0 := by unfold pyGet; rw [h0]
    rw [e1, e2, e3, e4]
    simp only [ok_bind]
    rw [if_neg hpos.ne']
  · rw [List.length_map, List.length_range]
    have : (1 : K) < (x.getLast hx - x.head hx) / (t1 - t0) := by rwa [one_lt_div hpos]
    have : (1 : ℤ) < ⌈(x.getLast hx - x.head hx) / (t1 - t0)⌉ := Int.lt_ceil.mpr (by exact_mod_cast this)
    omega
  · intro p hp
    obtain ⟨k, hk, rfl⟩ := List.mem_map.mp hp
    rw [List.mem_range, Int.lt_toNat] at hk
    have := Int.lt_ceil.mp hk
    rw [lt_div_iff₀ hpos] at this
    push_cast at this
    refine ⟨?_, by linarith⟩
    have : (0 : K) ≤ k * (t1 - t0) := mul_nonneg (Nat.cast_nonneg k) hpos.le
    linarith

/-- Values that are all equal pass the check. -/
theorem constant_passes {x y : List K} {c tol : K} (h : 2 ≤ x.length) (hl : y.length = x.length) (hy : ∀ v ∈ y, v = c) :
    notStrictlyMonotonic x y tol = .ok false := by
  match x, h with
  | a :: b :: l, _ =>
    match y, hl with
    | u :: v :: m, _ =>
      unfold notStrictlyMonotonic
      have e1 : pyGet (a :: b :: l) 1 = .ok b := rfl
      have e0 : pyGet (a :: b :: l) 0 = .ok a := rfl
      rw [e1, e0]
      simp only [ok_bind]
      have hc : ∀ (dx : K) (y : List K), (∀ v ∈ y, v = c) → ∀ g ∈ centralDiffs dx y, g = 0 := by
        intro dx y
        induction y using centralDiffs.induct with
        | case1 p q r l ih =>
          intro hy g hg
          rw [centralDiffs] at hg
          rcases List.mem_cons.mp hg with rfl | hg
          · rw [hy r (by simp), hy p (by simp), sub_self, zero_div]
          · exact ih (fun v hv => hy v (List.mem_cons_of_mem _ hv)) g hg
        | case2 y h =>
          intro _ g hg
          have : centralDiffs dx y = [] := by
            unfold centralDiffs
            split
            · exact absurd rfl (h _ _ _ _)
            · rfl
          rw [this] at hg; cases hg
      have hz : ∀ g ∈ ((v - u) / (b - a) :: centralDiffs (b - a) (u :: v :: m) ++
          [((v :: m).getLast (by simp) - (u :: v :: m).dropLast.getLast (by simp)) / (b - a)]), g = 0 := by
        intro g hg
        rw [List.mem_append, List.mem_cons, List.mem_singleton] at hg
        rcases hg with (rfl | hg) | rfl
        · rw [hy u (by simp), hy v (by simp), sub_self, zero_div]
        · exact hc _ _ hy g hg
        · rw [hy _ (List.mem_cons_of_mem _ (List.getLast_mem _)), hy _ (List.mem_of_mem_dropLast (List.getLast_mem _)), sub_self,
            zero_div]
      have hn : npGradient (b - a) (u :: v :: m) = .ok ((v - u) / (b - a) :: centralDiffs (b - a) (u :: v :: m) ++
          [((v :: m).getLast (by simp) - (u :: v :: m).dropLast.getLast (by simp)) / (b - a)]) := rfl
      rw [hn]
      simp only [ok_bind]
      have hany : ∀ g : List K, (∀ x ∈ g, x = 0) → anyConsecutive (ratioBelowOne tol) g = false := by
        intro g
        induction g with
        | nil => intro _; rfl
        | cons p g ih =>
          intro hg
          cases g with
          | nil => rfl
          | cons r g =>
            rw [anyConsecutive, ih fun x hx => hg x (List.mem_cons_of_mem _ hx), hg p (by simp), hg r (by simp)]
            simp [ratioBelowOne]
      rw [hany _ hz]
      rfl

theorem mapM_const {α β : Type} {f : α → Py β} {b : β} : ∀ {l : List α}, (∀ a ∈ l, f a = .ok b) → l.mapM f = .ok (l.map fun _ => b)
  | [], _ => rfl
  | a :: l, h => by
    rw [List.mapM_cons, h a (by simp), ok_bind, mapM_const fun x hx => h x (by simp [hx])]
    rfl

/-- Fits through points of equal height, when the fitting routine keeps constants. -/
theorem extremaFit_constant {rat : Degrees → List K → List K → Py (K → Py K)} {eval : InterpCall → List K → List K → K → Py K}
    (L : ℤ) {req : Option Degrees} (hreq : ∀ q, req = some q → 0 ≤ q.1 ∧ 0 ≤ q.2) {t : List K} {t0 t1 : K}
    (h0 : t[0]? = some t0) (h1 : t[1]? = some t1) (hpos : 0 < t1 - t0) (ty : ExtType) {xP yP xA yA : List K} {cP cA : K}
    (hrat : ∀ d x y c, 0 ≤ d.1 → 0 ≤ d.2 → Determined d x.length → x.Pairwise (· < ·) → y.length = x.length → (∀ v ∈ y, v = c) →
      ∃ g, rat d x y = .ok g ∧ ∀ p, Within x p → g p = .ok c)
    (hP : xP ≠ []) (hA : xA ≠ []) (fP : t1 - t0 < xP.getLast hP - xP.head hP) (fA : t1 - t0 < xA.getLast hA - xA.head hA)
    (sP : xP.Pairwise (· < ·)) (sA : xA.Pairwise (· < ·)) (lP : yP.length = xP.length) (lA : yA.length = xA.length)
    (vP : ∀ v ∈ yP, v = cP) (vA : ∀ v ∈ yA, v = cA) :
    ∃ g, extremaFit rat eval L (.ok req) t ty xP yP xA yA = .ok g ∧
      ∀ p, Within (ty.pick xP xA) p → g p = .ok (ty.pick cP cA) := by
  have one : ∀ {x y : List K} {c : K} (hx : x ≠ []), t1 - t0 < x.getLast hx - x.head hx → x.Pairwise (· < ·) →
      y.length = x.length → (∀ v ∈ y, v = c) → ∀ (nP nA : ℕ) (q : Option Degrees), (∀ k, q = some k → 0 ≤ k.1 ∧ 0 ≤ k.2) →
      ∃ r, degreeSearch L (extremaData rat eval t x y) nP nA q = .ok r ∧ (∀ k, r.degrees = some k → 0 ≤ k.1 ∧ 0 ≤ k.2) ∧
        ∀ p, Within x p → r.interpolant.fn p = .ok c := by
    intro x y c hx hfar hs hl hv nP nA q hq
    obtain ⟨l, l1, l2, l3⟩ := testPoints_two h0 h1 hpos hx hfar
    have h2 : 2 ≤ x.length := by
      match x, hx, hfar with
      | [a], _, hfar => simp at hfar; exact absurd hfar (by simpa using hpos.le)
      | _ :: _ :: _, _, _ => simp
    have hwithin : ∀ p ∈ l, Within x p := fun p hp => ⟨x.head hx, x.getLast hx, by simp [List.head?_eq_some_head hx],
      by simp [List.getLast?_eq_some_getLast hx], l3 p hp⟩
    obtain ⟨r, k, f, r1, r2, r3, r4, r5, r6, r7⟩ := degreeSearch_passes L (extremaData rat eval t x y) nP nA q hq h2 (by
      intro k k1 k2 k3
      obtain ⟨g, g1, g2⟩ := hrat k x y c k1 k2 k3 hs hl hv
      refine ⟨g, ?_, ?_⟩
      · show (testPoints t x >>= fun _ => rat k x y) = _
        rw [l1]; exact g1
      · show (testPoints t x >>= fun xs => xs.mapM g >>= fun ys => notStrictlyMonotonic xs ys 1) = _
        rw [l1]
        have : l.mapM g = .ok (l.map fun _ => c) := mapM_const fun p hp => g2 p (hwithin p hp)
        simp only [ok_bind, this]
        refine constant_passes l2 (by rw [List.length_map]) (c := c) fun v hv => ?_
        obtain ⟨_, _, rfl⟩ := List.mem_map.mp hv
        rfl)
    obtain ⟨g, g1, g2⟩ := hrat k x y c r4 r5 r6 hs hl hv
    have hfit : rat k x y = .ok f := by
      have : (testPoints t x >>= fun _ => rat k x y) = .ok f := r7
      rw [l1] at this; exact this
    rw [g1] at hfit
    cases hfit
    refine ⟨r, r1, fun k' hk' => ?_, fun p hp => ?_⟩
    · rw [r3] at hk'; cases hk'; exact ⟨r4, r5⟩
    · rw [r2]; exact g2 p hp
  obtain ⟨r, r1, r2, r3⟩ := one hP fP sP lP vP xP.length xA.length req hreq
  obtain ⟨r', r1', r2', r3'⟩ := one hA fA sA lA vA xP.length xA.length r.degrees r2
  unfold extremaFit
  simp only [ok_bind]
  rw [r1]
  simp only [ok_bind]
  cases ty with
  | pericenters => exact ⟨_, rfl, r3⟩
  | apocenters =>
    dsimp only
    rw [r1']
    exact ⟨_, rfl, r3'⟩

end GwEcc
