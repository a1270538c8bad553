import Verif.Model.RationalDegree
import Verif.Spec.RationalDegree
import Verif.Lemmas.Extrema
import Verif.Lemmas.Dict
import Mathlib.Tactic.Linarith
import Mathlib.Tactic.FieldSimp
import Mathlib.Order.Iterate

/-!
# Lemmas on the degree search
-/

set_option linter.unusedSectionVars false

namespace GwEcc

open Spec

theorem isUnderdetermined_iff (d : Degrees) (N : ℤ) : isUnderdetermined d N = true ↔ N ≤ d.1 + d.2 + 1 := by
  simp [isUnderdetermined]

/-! ## Reduction -/

/-- The loop of `get_reduced_degrees` terminates for all integers. -/
theorem reduce_terminates (d : Degrees) (N : ℤ) (f : ℕ) (hf : 2 * (d.1.toNat + d.2.toNat) < f) :
    ∃ r, getReducedDegrees f d N = some r := by
  unfold getReducedDegrees
  apply runLoop_term (fun _ => True)
    (fun s => 2 * (s.1.toNat + s.2.1.toNat) + (if s.2.2 then 0 else 1)) ?_ trivial (by simpa using hf)
  rintro ⟨m, n, b⟩ ⟨m', n', b'⟩ - h
  refine ⟨trivial, ?_⟩
  simp only [reduceStep] at h
  split at h
  · split at h
    · cases h
    · split at h
      · next hb =>
        injection h with h; cases h
        obtain ⟨hb, hn⟩ := hb
        subst hb; simp; omega
      · split at h
        · injection h with h; cases h
          cases b <;> simp <;> omega
        · injection h with h; cases h
          cases b
          · simp
          · simp only [Bool.not_true, true_and] at *
            omega
  · cases h

/-- What the reduction loop returns. -/
theorem reduce_ok {m n N : ℤ} {f : ℕ} {d' : Degrees}
    (hm : 0 ≤ m) (hn : 0 ≤ n) (hu : N ≤ m + n + 1)
    (h : getReducedDegrees f (m, n) N = some (.ok d')) :
    0 ≤ d'.1 ∧ d'.1 ≤ m ∧ 0 ≤ d'.2 ∧ d'.2 ≤ n ∧ d'.1 + d'.2 = N - 2 := by
  have := runLoop_inv (step := reduceStep N)
    (fun s => 0 ≤ s.1 ∧ s.1 ≤ m ∧ 0 ≤ s.2.1 ∧ s.2.1 ≤ n ∧ N - 2 ≤ s.1 + s.2.1)
    (fun r => ∀ d', r = .ok d' → 0 ≤ d'.1 ∧ d'.1 ≤ m ∧ 0 ≤ d'.2 ∧ d'.2 ≤ n ∧ d'.1 + d'.2 = N - 2)
    ?_ ?_ (s := (m, n, true)) ⟨hm, le_refl _, hn, le_refl _, by simp; omega⟩ h
  · exact this d' rfl
  · rintro ⟨m1, n1, b⟩ ⟨m', n', b'⟩ hI hs
    simp only [reduceStep, isUnderdetermined_iff] at hs hI ⊢
    split at hs
    · split at hs
      · cases hs
      · split at hs
        · injection hs with h; cases h; simp_all; omega
        · split at hs
          · injection hs with h; cases h; simp_all; omega
          · injection hs with h; cases h; simp_all
    · cases hs
  · rintro ⟨m1, n1, b⟩ r hI hs d' rfl
    simp only [reduceStep, isUnderdetermined_iff] at hs hI ⊢
    split at hs
    · split at hs
      · cases hs
      · split at hs
        · cases hs
        · split at hs <;> cases hs
    · injection hs with hs
      injection hs with hs
      subst hs
      simp_all; omega

theorem reduce_error {m n N : ℤ} {f : ℕ} {e : Err}
    (hm : 0 ≤ m) (hn : 0 ≤ n)
    (h : getReducedDegrees f (m, n) N = some (.error e)) : e = .valueError ∧ N < 2 := by
  have := runLoop_inv (step := reduceStep N)
    (fun s => 0 ≤ s.1 ∧ 0 ≤ s.2.1)
    (fun r => ∀ e, r = .error e → e = .valueError ∧ N < 2)
    ?_ ?_ (s := (m, n, true)) ⟨hm, hn⟩ h
  · exact this e rfl
  · rintro ⟨m1, n1, b⟩ ⟨m', n', b'⟩ hI hs
    simp only [reduceStep, isUnderdetermined_iff] at hs hI ⊢
    split at hs
    · split at hs
      · cases hs
      · split at hs
        · injection hs with h; cases h; simp_all; omega
        · split at hs
          · injection hs with h; cases h; simp_all; omega
          · injection hs with h; cases h; simp_all
    · cases hs
  · rintro ⟨m1, n1, b⟩ r hI hs e rfl
    simp only [reduceStep, isUnderdetermined_iff] at hs hI ⊢
    split at hs
    · split at hs
      · injection hs with hs; injection hs with hs; subst hs
        exact ⟨rfl, by omega⟩
      · split at hs
        · cases hs
        · split at hs <;> cases hs
    · cases hs

/-! ## The search -/

variable {F S : Type}

theorem announced_ok {α : Type} {level : ℤ} {b : Bool} {x : Py α} {v : α} (h : announced level b x = .ok v) : x = .ok v := by
  unfold announced at h
  obtain ⟨_, _, h⟩ := bind_ok h
  exact h

theorem announced_quiet {α : Type} {level : ℤ} (hl : level = -1 ∨ level = 0 ∨ level = 1) (b : Bool) (x : Py α) :
    announced level b x = x := by
  obtain ⟨o, ho⟩ : ∃ o, debugMessage level b = .ok o := by
    unfold debugMessage
    rcases hl with rfl | rfl | rfl <;> cases b <;> exact ⟨_, rfl⟩
  unfold announced
  rw [ho, ok_bind]

/-- The check of the raising loop, with its message. -/
theorem raiseCheck_ok {level : ℤ} {nonmono : F → Py Bool} {f : F} {b : Bool}
    (h : (do let b ← nonmono f
             if b then announced level false (pure b) else pure b) = (.ok b : Py Bool)) : nonmono f = .ok b := by
  obtain ⟨c, hc, h⟩ := bind_ok h
  split at h
  · rw [hc, ← announced_ok h]; rfl
  · rw [hc, ← h]; rfl

theorem raiseCheck_false {level : ℤ} {nonmono : F → Py Bool} {f : F} (h : nonmono f = .ok false) :
    (do let b ← nonmono f
        if b then announced level false (pure b) else pure b) = (.ok false : Py Bool) := by
  rw [h]; rfl

theorem raiseCheck_quiet {level : ℤ} (hl : level = -1 ∨ level = 0 ∨ level = 1) (nonmono : F → Py Bool) :
    (fun f => do let b ← nonmono f
                 if b then announced level false (pure b) else pure b) = nonmono := by
  funext f
  cases h : nonmono f with
  | error e => rfl
  | ok b =>
    rw [ok_bind]
    cases b
    · rfl
    · rw [if_pos rfl, announced_quiet hl]; rfl

/-- The fit with degrees `d` exists and is flagged. -/
def Flagged (fit : Degrees → Py F) (nonmono : F → Py Bool) (d : Degrees) : Prop :=
  ∃ f, fit d = .ok f ∧ nonmono f = .ok true

theorem fitAndCheck_ok {fit : Degrees → Py F} {nonmono : F → Py Bool} {d : Degrees} {f : F} {b : Bool} :
    fitAndCheck fit nonmono d = .ok (f, b) ↔ fit d = .ok f ∧ nonmono f = .ok b := by
  unfold fitAndCheck
  cases hf : fit d with
  | error e => simp [err_bind]
  | ok g =>
    rw [ok_bind]
    cases hb : nonmono g with
    | error e =>
      simp only [err_bind, reduceCtorEq, Except.ok.injEq, false_iff, not_and]
      rintro rfl; rw [hb]; simp
    | ok c =>
      simp only [ok_bind, pure_eq_ok, Except.ok.injEq, Prod.mk.injEq]
      constructor
      · rintro ⟨rfl, rfl⟩; exact ⟨rfl, hb⟩
      · rintro ⟨rfl, h⟩; rw [hb] at h; exact ⟨rfl, by injection h⟩

theorem lower_terminates (fit : Degrees → Py F) (nonmono : F → Py Bool) (spline : Py S)
    (d : Degrees) (hist : Dict Degrees Bool) (f : ℕ) (hf : (max d.1 1).toNat + (max d.2 1).toNat < f) :
    ∃ r, runLoop (lowerStep fit nonmono spline) f (d, hist) = some r := by
  apply runLoop_term (fun _ => True) (fun s => (max s.1.1 1).toNat + (max s.1.2 1).toNat) ?_ trivial
    (by simpa using hf)
  rintro ⟨⟨m, n⟩, h1⟩ ⟨⟨m', n'⟩, h2⟩ - h
  refine ⟨trivial, ?_⟩
  simp only [lowerStep] at h
  split at h
  · cases h
  · split at h
    · cases h
    · injection h with h; cases h; simp only; omega
    · cases h

theorem raise_terminates (fit : Degrees → Py F) (nonmono : F → Py Bool) (N : ℤ)
    (fl : F) (d : Degrees) (hist : Dict Degrees Bool) (f : ℕ) (hf : (N - d.1 - d.2).toNat < f) :
    ∃ r, runLoop (raiseStep (S := S) fit nonmono N) f (fl, d, hist) = some r := by
  apply runLoop_term (fun _ => True) (fun s => (N - s.2.1.1 - s.2.1.2).toNat) ?_ trivial
    (by simpa using hf)
  rintro ⟨g, ⟨m, n⟩, h1⟩ ⟨g', ⟨m', n'⟩, h2⟩ - h
  refine ⟨trivial, ?_⟩
  simp only [raiseStep, isUnderdetermined_iff] at h
  split at h
  · cases h
  · split at h
    · cases h
    · cases h
    · injection h with h; cases h; simp only; omega

/-- Outcome of the lowering loop. -/
theorem lower_spec {fit fit' : Degrees → Py F} {nonmono : F → Py Bool} {spline : Py S}
    {d0 : Degrees} {hist : Dict Degrees Bool} {fuel : ℕ} {r : SearchResult F S}
    (hsub : ∀ {d g}, fit' d = .ok g → fit d = .ok g) (h0 : Flagged fit nonmono d0)
    (h : runLoop (lowerStep fit' nonmono spline) fuel (d0, hist) = some (.ok r)) :
    (∃ k f, r.interpolant = .rational f ∧ r.degrees = some (lowered^[k + 1] d0) ∧
      fit (lowered^[k + 1] d0) = .ok f ∧ nonmono f = .ok false ∧
      (∀ i ≤ k, Flagged fit nonmono (lowered^[i] d0)) ∧
      ¬ ((lowered^[k] d0).1 ≤ 1 ∧ (lowered^[k] d0).2 ≤ 1)) ∨
    (∃ k s, r.interpolant = .spline s ∧ spline = .ok s ∧ r.degrees = none ∧
      (lowered^[k] d0).1 ≤ 1 ∧ (lowered^[k] d0).2 ≤ 1 ∧
      (∀ i ≤ k, Flagged fit nonmono (lowered^[i] d0))) := by
  have := runLoop_inv (step := lowerStep fit' nonmono spline)
    (fun s => ∃ k, s.1 = lowered^[k] d0 ∧ ∀ i ≤ k, Flagged fit nonmono (lowered^[i] d0))
    (fun r => ∀ v, r = .ok v → 
      (∃ k f, v.interpolant = .rational f ∧ v.degrees = some (lowered^[k + 1] d0) ∧
        fit (lowered^[k + 1] d0) = .ok f ∧ nonmono f = .ok false ∧
        (∀ i ≤ k, Flagged fit nonmono (lowered^[i] d0)) ∧
        ¬ ((lowered^[k] d0).1 ≤ 1 ∧ (lowered^[k] d0).2 ≤ 1)) ∨
      (∃ k s, v.interpolant = .spline s ∧ spline = .ok s ∧ v.degrees = none ∧
        (lowered^[k] d0).1 ≤ 1 ∧ (lowered^[k] d0).2 ≤ 1 ∧
        (∀ i ≤ k, Flagged fit nonmono (lowered^[i] d0))))
    ?_ ?_ (s := (d0, hist)) ⟨0, rfl, fun i hi => by obtain rfl : i = 0 := by omega
                                                    exact h0⟩ h
  · exact this r rfl
  · rintro ⟨⟨m, n⟩, h1⟩ ⟨d', h2⟩ ⟨k, hk, hall⟩ hs
    simp only [lowerStep] at hs
    split at hs
    · cases hs
    · split at hs
      · cases hs
      · next f hfc =>
        injection hs with hs; cases hs
        have hd : ((max (m - 1) 1, max (n - 1) 1) : Degrees) = lowered^[k + 1] d0 := by
          rw [Function.iterate_succ_apply', ← hk]; rfl
        refine ⟨k + 1, hd, fun i hi => ?_⟩
        rcases Nat.lt_or_ge i (k + 1) with hlt | hge
        · exact hall i (by omega)
        · obtain rfl : i = k + 1 := by omega
          rw [← hd]
          exact ⟨f, (fitAndCheck_ok.mp hfc).imp_left hsub⟩
      · cases hs
  · rintro ⟨⟨m, n⟩, h1⟩ r' ⟨k, hk, hall⟩ hs v rfl
    simp only [lowerStep] at hs
    simp only at hk
    split at hs
    · next hle =>
      injection hs with hs
      right
      cases hsp : spline with
      | error e => rw [hsp] at hs; simp [Except.map] at hs
      | ok sp =>
        rw [hsp] at hs
        simp only [Except.map, Except.ok.injEq] at hs
        subst hs
        exact ⟨k, sp, rfl, rfl, rfl, by rw [← hk]; exact hle.1, by rw [← hk]; exact hle.2, hall⟩
    · next hle =>
      split at hs
      · injection hs with hs; cases hs
      · cases hs
      · next f hfc =>
        injection hs with hs; injection hs with hs; subst hs
        have hd : ((max (m - 1) 1, max (n - 1) 1) : Degrees) = lowered^[k + 1] d0 := by
          rw [Function.iterate_succ_apply', ← hk]; rfl
        obtain ⟨h3, h4⟩ := (fitAndCheck_ok.mp hfc).imp_left hsub
        left
        refine ⟨k, f, rfl, by rw [← hd], by rw [← hd]; exact h3, h4, hall, ?_⟩
        rw [← hk]; exact hle

/-- Outcome of the raising loop. -/
theorem raise_spec {fit : Degrees → Py F} {nonmono nonmono' : F → Py Bool} {N : ℕ}
    {d0 : Degrees} {f0 : F} {hist : Dict Degrees Bool} {fuel : ℕ} {r : SearchResult F S}
    (h0 : fit d0 = .ok f0) (h0' : nonmono f0 = .ok false) (hN : Determined d0 N)
    (h : runLoop (raiseStep fit nonmono' N) fuel (f0, d0, hist) = some (.ok r))
    (hsub : ∀ {g b}, nonmono' g = .ok b → nonmono g = .ok b) :
    ∃ k f, r.interpolant = .rational f ∧ r.degrees = some (raisedBy k d0) ∧
      fit (raisedBy k d0) = .ok f ∧ nonmono f = .ok false ∧ Determined (raisedBy k d0) N ∧
      (∀ i ≤ k, ∃ g, fit (raisedBy i d0) = .ok g ∧ nonmono g = .ok false) ∧
      (¬ Determined (raisedBy (k + 1) d0) N ∨ Flagged fit nonmono (raisedBy (k + 1) d0)) := by
  have key := runLoop_inv (step := raiseStep (S := S) fit nonmono' N)
    (fun s => ∃ k, s.2.1 = raisedBy k d0 ∧ Determined s.2.1 N ∧ fit s.2.1 = .ok s.1 ∧ nonmono s.1 = .ok false ∧
      ∀ i ≤ k, ∃ g, fit (raisedBy i d0) = .ok g ∧ nonmono g = .ok false)
    (fun r => ∀ v, r = .ok v → ∃ k f, v.interpolant = .rational f ∧ v.degrees = some (raisedBy k d0) ∧
      fit (raisedBy k d0) = .ok f ∧ nonmono f = .ok false ∧ Determined (raisedBy k d0) N ∧
      (∀ i ≤ k, ∃ g, fit (raisedBy i d0) = .ok g ∧ nonmono g = .ok false) ∧
      (¬ Determined (raisedBy (k + 1) d0) N ∨ Flagged fit nonmono (raisedBy (k + 1) d0)))
    ?_ ?_ (s := (f0, d0, hist)) ?_ h
  · exact key r rfl
  · rintro ⟨g, ⟨m, n⟩, h1⟩ ⟨g', d', h2⟩ ⟨k, hk, hdet, hfit, hmono, hall⟩ hs
    simp only [raiseStep] at hs
    simp only at hk hfit hmono
    split at hs
    · cases hs
    · next hu =>
      split at hs
      · cases hs
      · cases hs
      · next f hfc =>
        injection hs with hs; cases hs
        have hd : ((m + 1, n + 1) : Degrees) = raisedBy (k + 1) d0 := by
          simp only [raisedBy, Prod.mk.injEq] at hk ⊢
          push_cast; omega
        obtain ⟨h3, h4⟩ := (fitAndCheck_ok.mp hfc).imp_right hsub
        refine ⟨k + 1, hd, ?_, h3, h4, fun i hi => ?_⟩
        · rw [isUnderdetermined_iff] at hu
          simp only [Determined] at hu ⊢; omega
        · rcases Nat.lt_or_ge i (k + 1) with hlt | hge
          · exact hall i (by omega)
          · obtain rfl : i = k + 1 := by omega
            rw [← hd]
            exact ⟨_, h3, h4⟩
  · rintro ⟨g, ⟨m, n⟩, h1⟩ r' ⟨k, hk, hdet, hfit, hmono, hall⟩ hs v rfl
    simp only [raiseStep] at hs
    simp only at hk hfit hmono hdet
    have hd : ((m + 1, n + 1) : Degrees) = raisedBy (k + 1) d0 := by
      simp only [raisedBy, Prod.mk.injEq] at hk ⊢
      push_cast; omega
    split at hs
    · next hu =>
      injection hs with hs; injection hs with hs; subst hs
      rw [isUnderdetermined_iff, hd] at hu
      refine ⟨k, g, rfl, by rw [← hk], by rw [← hk]; exact hfit, hmono, by rw [← hk]; exact hdet, hall, Or.inl ?_⟩
      simp only [Determined]; omega
    · split at hs
      · injection hs with hs; cases hs
      · next f' hfc =>
        injection hs with hs; injection hs with hs; subst hs
        refine ⟨k, g, rfl, by rw [← hk], by rw [← hk]; exact hfit, hmono, by rw [← hk]; exact hdet, hall, Or.inr ?_⟩
        rw [← hd]
        exact ⟨_, (fitAndCheck_ok.mp hfc).imp_right hsub⟩
      · cases hs
  · refine ⟨0, by simp [raisedBy], hN, h0, h0', fun i hi => ?_⟩
    obtain rfl : i = 0 := by omega
    exact ⟨f0, by simpa [raisedBy] using h0, h0'⟩

theorem startDegrees_determined {fuel : ℕ} {req : Option Degrees} {nP nA N : ℕ} {d : Degrees}
    (hreq : ∀ q, req = some q → 0 ≤ q.1 ∧ 0 ≤ q.2)
    (h : startDegrees fuel req nP nA N = some (.ok d)) :
    Determined d N ∧ 0 ≤ d.1 ∧ 0 ≤ d.2 := by
  have hq : ∀ q : Degrees, 0 ≤ q.1 → 0 ≤ q.2 →
      (if isUnderdetermined q N then getReducedDegrees fuel q N else some (.ok q)) = some (.ok d) →
      Determined d N ∧ 0 ≤ d.1 ∧ 0 ≤ d.2 := by
    rintro ⟨m, n⟩ hm hn hh
    split at hh
    · next hu =>
      rw [isUnderdetermined_iff] at hu
      obtain ⟨h1, h2, h3, h4, h5⟩ := reduce_ok hm hn hu hh
      exact ⟨by simp only [Determined]; omega, h1, h3⟩
    · next hu =>
      rw [isUnderdetermined_iff] at hu
      injection hh with hh; injection hh with hh; subst hh
      exact ⟨by simp only [Determined] at hu ⊢; omega, hm, hn⟩
  unfold startDegrees at h
  cases req with
  | none =>
    refine hq _ ?_ ?_ h
    all_goals simp only [approximateDegree]; split_ifs <;> simp
  | some q => exact hq q (hreq q rfl).1 (hreq q rfl).2 h

/-- Lowering keeps a determined problem determined. -/
theorem lowered_determined {d : Degrees} {N : ℕ} (h1 : 0 ≤ d.1) (h2 : 0 ≤ d.2) (hd : Determined d N)
    (hn : ¬ (d.1 ≤ 1 ∧ d.2 ≤ 1)) : Determined (lowered d) N := by
  simp only [Determined, lowered] at *; omega

theorem lowered_iterate {d : Degrees} {N : ℕ} (h1 : 0 ≤ d.1) (h2 : 0 ≤ d.2) (hd : Determined d N) :
    ∀ k, (0 ≤ (lowered^[k] d).1 ∧ 0 ≤ (lowered^[k] d).2) ∧
      (¬ ((lowered^[k] d).1 ≤ 1 ∧ (lowered^[k] d).2 ≤ 1) → Determined (lowered^[k] d) N ∧
        Determined (lowered^[k + 1] d) N)
  | 0 => ⟨⟨h1, h2⟩, fun hn => ⟨hd, lowered_determined h1 h2 hd hn⟩⟩
  | k + 1 => by
    obtain ⟨⟨ha, hb⟩, hc⟩ := lowered_iterate h1 h2 hd k
    have hnn : 0 ≤ (lowered^[k + 1] d).1 ∧ 0 ≤ (lowered^[k + 1] d).2 := by
      rw [Function.iterate_succ_apply']; simp only [lowered]; omega
    refine ⟨hnn, fun hn => ?_⟩
    have hprev : ¬ ((lowered^[k] d).1 ≤ 1 ∧ (lowered^[k] d).2 ≤ 1) := by
      intro hle
      apply hn
      rw [Function.iterate_succ_apply']; simp only [lowered]; omega
    have hdet := (hc hprev).2
    refine ⟨hdet, ?_⟩
    rw [Function.iterate_succ_apply' lowered (k + 1)]
    exact lowered_determined hnn.1 hnn.2 hdet hn

/-! ## History -/

/-- Every recorded flag is the outcome of an actual fit, or was there before. -/
def HistOk (fit : Degrees → Py F) (nonmono : F → Py Bool) (hist0 hist : Dict Degrees Bool) : Prop :=
  ∀ d b, Dict.get? hist d = some b → Dict.get? hist0 d = some b ∨ ∃ f, fit d = .ok f ∧ nonmono f = .ok b

theorem HistOk.set {fit : Degrees → Py F} {nonmono : F → Py Bool} {h0 hist : Dict Degrees Bool} {d : Degrees}
    {f : F} {b : Bool} (h : HistOk fit nonmono h0 hist) (hf : fit d = .ok f) (hb : nonmono f = .ok b) :
    HistOk fit nonmono h0 (hist.set d b) := by
  intro d' b' hget
  rw [Dict.get?_set] at hget
  split at hget
  · next he => subst he; injection hget with hget; subst hget; exact Or.inr ⟨f, hf, hb⟩
  · exact h d' b' hget

theorem lower_hist {fit fit' : Degrees → Py F} {nonmono : F → Py Bool} {spline : Py S}
    {d0 : Degrees} {hist0 hist : Dict Degrees Bool} {fuel : ℕ} {r : SearchResult F S}
    (hsub : ∀ {d g}, fit' d = .ok g → fit d = .ok g) (hh : HistOk fit nonmono hist0 hist)
    (h : runLoop (lowerStep fit' nonmono spline) fuel (d0, hist) = some (.ok r)) :
    HistOk fit nonmono hist0 r.history := by
  refine runLoop_inv (step := lowerStep fit' nonmono spline)
    (fun s => HistOk fit nonmono hist0 s.2)
    (fun r => ∀ v, r = .ok v → HistOk fit nonmono hist0 v.history) ?_ ?_ (s := (d0, hist)) hh h r rfl
  · rintro ⟨⟨m, n⟩, h1⟩ ⟨d', h2⟩ hI hs
    simp only [lowerStep] at hs
    split at hs
    · cases hs
    · split at hs
      · cases hs
      · next f hfc =>
        injection hs with hs; cases hs
        obtain ⟨h3, h4⟩ := (fitAndCheck_ok.mp hfc).imp_left hsub
        exact hI.set h3 h4
      · cases hs
  · rintro ⟨⟨m, n⟩, h1⟩ r' hI hs v rfl
    simp only [lowerStep] at hs
    split at hs
    · injection hs with hs
      cases hsp : spline with
      | error e => rw [hsp] at hs; simp [Except.map] at hs
      | ok sp =>
        rw [hsp] at hs
        simp only [Except.map, Except.ok.injEq] at hs
        subst hs
        exact hI
    · split at hs
      · injection hs with hs; cases hs
      · cases hs
      · next f hfc =>
        injection hs with hs; injection hs with hs; subst hs
        obtain ⟨h3, h4⟩ := (fitAndCheck_ok.mp hfc).imp_left hsub
        exact HistOk.set hI h3 h4

theorem raise_hist {fit : Degrees → Py F} {nonmono nonmono' : F → Py Bool} {N : ℤ}
    {d0 : Degrees} {f0 : F} {hist0 hist : Dict Degrees Bool} {fuel : ℕ} {r : SearchResult F S}
    (hh : HistOk fit nonmono hist0 hist)
    (h : runLoop (raiseStep fit nonmono' N) fuel (f0, d0, hist) = some (.ok r))
    (hsub : ∀ {g b}, nonmono' g = .ok b → nonmono g = .ok b) :
    HistOk fit nonmono hist0 r.history := by
  refine runLoop_inv (step := raiseStep (S := S) fit nonmono' N)
    (fun s => HistOk fit nonmono hist0 s.2.2)
    (fun r => ∀ v, r = .ok v → HistOk fit nonmono hist0 v.history) ?_ ?_ (s := (f0, d0, hist)) hh h r rfl
  · rintro ⟨g, ⟨m, n⟩, h1⟩ ⟨g', d', h2⟩ hI hs
    simp only [raiseStep] at hs
    split at hs
    · cases hs
    · split at hs
      · cases hs
      · cases hs
      · next f hfc =>
        injection hs with hs; cases hs
        obtain ⟨h3, h4⟩ := (fitAndCheck_ok.mp hfc).imp_right hsub
        exact hI.set h3 h4
  · rintro ⟨g, ⟨m, n⟩, h1⟩ r' hI hs v rfl
    simp only [raiseStep] at hs
    split at hs
    · injection hs with hs; injection hs with hs; subst hs; exact hI
    · split at hs
      · injection hs with hs; cases hs
      · next f hfc =>
        injection hs with hs; injection hs with hs; subst hs
        obtain ⟨h3, h4⟩ := (fitAndCheck_ok.mp hfc).imp_right hsub
        exact HistOk.set hI h3 h4
      · cases hs

/-! ## The derivative check with tolerance one -/

variable {K : Type} [Field K] [LinearOrder K] [IsStrictOrderedRing K]

theorem ratioBelowOne_one {a b : K} (ha : a ≠ 0) : ratioBelowOne 1 a b = false ↔ 0 < a * b := by
  unfold ratioBelowOne
  rw [if_neg ha]
  simp only
  have hsign : 0 < b / a ↔ 0 < a * b := by
    rw [div_pos_iff, mul_pos_iff]; tauto
  rw [← hsign]
  split
  · next h =>
    rw [abs_lt] at h
    simp only [true_iff]; linarith [h.2]
  · next h =>
    rw [abs_lt, not_and_or] at h
    simp only [decide_eq_false_iff_not, not_lt]
    constructor
    · intro h1; linarith
    · intro h1
      rcases h with h | h <;> linarith

theorem anyConsecutive_sign : ∀ (a : K) (l : List K), a ≠ 0 →
    (anyConsecutive (ratioBelowOne 1) (a :: l) = false ↔
      (∀ g ∈ a :: l, 0 < g) ∨ (∀ g ∈ a :: l, g < 0))
  | a, [], ha => by
    simp only [anyConsecutive, List.mem_singleton, forall_eq, true_iff]
    exact (lt_or_gt_of_ne ha).symm
  | a, b :: l, ha => by
    simp only [anyConsecutive, Bool.or_eq_false_iff]
    rw [ratioBelowOne_one ha, mul_pos_iff]
    constructor
    · rintro ⟨h1, h2⟩
      have hb : b ≠ 0 := by rcases h1 with h | h; exacts [h.2.ne', h.2.ne]
      rcases (anyConsecutive_sign b l hb).mp h2 with h3 | h3
      · left; intro g hg
        have hb0 := h3 b (by simp)
        rcases h1 with h | h
        · rcases List.mem_cons.mp hg with rfl | hg
          · exact h.1
          · exact h3 g hg
        · linarith [h.2]
      · right; intro g hg
        have hb0 := h3 b (by simp)
        rcases h1 with h | h
        · linarith [h.2]
        · rcases List.mem_cons.mp hg with rfl | hg
          · exact h.1
          · exact h3 g hg
    · rintro (h | h)
      · have h1 := h a (by simp)
        have h2 := h b (by simp)
        exact ⟨Or.inl ⟨h1, h2⟩, (anyConsecutive_sign b l h2.ne').mpr
          (Or.inl fun g hg => h g (List.mem_cons_of_mem _ hg))⟩
      · have h1 := h a (by simp)
        have h2 := h b (by simp)
        exact ⟨Or.inr ⟨h1, h2⟩, (anyConsecutive_sign b l h2.ne).mpr
          (Or.inr fun g hg => h g (List.mem_cons_of_mem _ hg))⟩

end GwEcc
