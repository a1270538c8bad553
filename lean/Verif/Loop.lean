import Mathlib.Data.Nat.Basic

/-!
# `while` loops

`runLoop step fuel s` runs the body `step` at most `fuel` times: `none` means that the loop is still running.
A body either continues with a new state (`Sum.inl`) or leaves the loop (`Sum.inr`: `break`, end of the condition,
`return` or an exception, according to the result type).
-/

namespace GwEcc

variable {S R : Type}

/-- A Python `while` loop run for at most `fuel` passes; `none`: not finished. -/
def runLoop (step : S → S ⊕ R) : ℕ → S → Option R
  | 0, _ => none
  | fuel + 1, s =>
    match step s with
    | .inl s' => runLoop step fuel s'
    | .inr r => some r

theorem runLoop_succ (step : S → S ⊕ R) (f : ℕ) (s : S) :
    runLoop step (f + 1) s =
      match step s with
      | .inl s' => runLoop step f s'
      | .inr r => some r := rfl

theorem runLoop_inl {step : S → S ⊕ R} {s s' : S} (h : step s = .inl s') (f : ℕ) :
    runLoop step (f + 1) s = runLoop step f s' := by
  rw [runLoop_succ, h]

theorem runLoop_inr {step : S → S ⊕ R} {s : S} {r : R} (h : step s = .inr r) (f : ℕ) :
    runLoop step (f + 1) s = some r := by
  rw [runLoop_succ, h]

/-- More fuel does not change a result. -/
theorem runLoop_mono {step : S → S ⊕ R} {f g : ℕ} {s : S} {r : R}
    (h : runLoop step f s = some r) (hfg : f ≤ g) : runLoop step g s = some r := by
  induction f generalizing g s with
  | zero => simp [runLoop] at h
  | succ f ih =>
    obtain ⟨g, rfl⟩ : ∃ k, g = k + 1 := ⟨g - 1, by omega⟩
    rw [runLoop_succ] at h ⊢
    cases hs : step s with
    | inl s' => rw [hs] at h; exact ih h (by omega)
    | inr r' => rw [hs] at h; exact h

/-- The result does not depend on the fuel. -/
theorem runLoop_unique {step : S → S ⊕ R} {f g : ℕ} {s : S} {r r' : R}
    (h : runLoop step f s = some r) (h' : runLoop step g s = some r') : r = r' := by
  have h1 := runLoop_mono h (Nat.le_max_left f g)
  have h2 := runLoop_mono h' (Nat.le_max_right f g)
  rw [h1] at h2
  exact Option.some.inj h2

/-- Invariant rule. -/
theorem runLoop_inv {step : S → S ⊕ R} (I : S → Prop) (P : R → Prop)
    (hstep : ∀ s s', I s → step s = .inl s' → I s')
    (hexit : ∀ s r, I s → step s = .inr r → P r)
    {f : ℕ} {s : S} {r : R} (hs : I s) (h : runLoop step f s = some r) : P r := by
  induction f generalizing s with
  | zero => simp [runLoop] at h
  | succ f ih =>
    rw [runLoop_succ] at h
    cases hst : step s with
    | inl s' => rw [hst] at h; exact ih (hstep s s' hs hst) h
    | inr r' =>
      rw [hst] at h
      obtain rfl : r' = r := Option.some.inj h
      exact hexit s r' hs hst

/-- Termination rule: a natural number measure decreases at every pass that continues. -/
theorem runLoop_term {step : S → S ⊕ R} (I : S → Prop) (μ : S → ℕ)
    (hstep : ∀ s s', I s → step s = .inl s' → I s' ∧ μ s' < μ s)
    {f : ℕ} {s : S} (hs : I s) (hf : μ s < f) : ∃ r, runLoop step f s = some r := by
  induction f generalizing s with
  | zero => omega
  | succ f ih =>
    rw [runLoop_succ]
    cases hst : step s with
    | inl s' =>
      obtain ⟨hI, hlt⟩ := hstep s s' hs hst
      exact ih hI (by omega)
    | inr r' => exact ⟨r', rfl⟩

end GwEcc
