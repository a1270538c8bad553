import Verif.Lemmas.RationalFit
import Mathlib.Data.Fintype.Fin
import Mathlib.Order.Hom.Basic
import Mathlib.Tactic.Positivity

/-!
# Properties of the rational fit: C33, C34
-/

set_option linter.unusedSectionVars false

namespace GwEcc

open Finset

variable {K ι : Type} [Field K] [LinearOrder K] [IsStrictOrderedRing K] [Fintype ι]

/-! ## C34 Best iterate -/

/-- A fit keeps at least one and at most `max_iterations` iterates; the one used for evaluation is one of them and no
other has a smaller residual norm; the iteration stops at the first change below `tol`. -/
theorem C34_best [Nonempty ι] (nrm : (ι → K) → K) (eps tol : K) (x y : ι → K) (m n : ℕ)
    (solve : (ℕ → ι → K) → Py ((ℕ → K) × (ℕ → K))) (maxIterations : ℕ) (f : Fitted K ι)
    (h : rationalFit nrm eps tol x y m n solve maxIterations = .ok f) :
    f.best ∈ f.history ∧ (∀ it ∈ f.history, f.best.resNorm ≤ it.resNorm) ∧
      f.history.length ≤ maxIterations ∧ (∀ it ∈ f.history.dropLast, tol ≤ it.deltaFit) := by
  unfold rationalFit at h
  simp only at h
  split at h
  · cases h
  · cases h
  · next h0 l hl =>
    injection h with h; subst h
    obtain ⟨new, h1, h2, h3, h4⟩ := skLoop_spec _ _ _ _ _ (fun _ => one_ne_zero) hl
    simp only [List.nil_append] at h1
    obtain ⟨h5, h6⟩ := bestOf_spec h0 l
    exact ⟨h5, h6, by simp only; rw [h1]; exact h2, by simp only; rw [h1]; exact h4⟩

/-- If the linear algebra fails already in the first iteration there is no iterate to choose from: the failure, although
caught, surfaces as a `ValueError`. -/
theorem C34_first_failure [Nonempty ι] (nrm : (ι → K) → K) (eps tol : K) (x y : ι → K) (m n : ℕ)
    (solve : (ℕ → ι → K) → Py ((ℕ → K) × (ℕ → K))) (maxIterations : ℕ)
    (hfail : ∀ V, solve V = .error .linAlgError) :
    rationalFit nrm eps tol x y m n solve maxIterations = .error .valueError := by
  unfold rationalFit
  cases maxIterations with
  | zero => simp [skLoop]
  | succ k => simp [skLoop, skIterate, hfail]

/-! ## C33 The fit evaluates to what was fitted -/

/-- The basis re-evaluated from `H` and `v0_norm`, times the weight, is the basis built at the nodes: for every column,
every node, every weight and every degree.  Only exact equality of a norm with the breakdown threshold is excluded
(the two routines compare in opposite directions there). -/
theorem C33_basis (nrm : (ι → K) → K) (eps : K) (heps : 0 < eps) (x w : ι → K) (degree : ℕ)
    (hH : ∀ k < degree, (arnoldiBasis nrm eps x degree w).H (k + 1) k ≠ eps) (i : ι) (c : ℕ) :
    evalArnoldi eps (x i) (arnoldiBasis nrm eps x degree w).H degree (nrm w) c * w i =
      (arnoldiBasis nrm eps x degree w).V c i :=
  (eval_rel hH heps i degree le_rfl).2 c

/-- The threshold case is a real difference: with a norm exactly at the threshold the basis at the nodes stops and the
re-evaluated one does not. -/
theorem C33_threshold :
    ∃ (x w : Fin 2 → ℚ) (eps : ℚ), 0 < eps ∧
      (let nrm : (Fin 2 → ℚ) → ℚ := fun v => ∑ i, |v i|
       let B := arnoldiBasis nrm eps x 1 w
       B.V 1 1 = 0 ∧ evalArnoldi eps (x 1) B.H 1 (nrm w) 1 * w 1 ≠ 0) :=
  ⟨![-1, 1], ![1, 1], 1, one_pos, by decide +kernel⟩

/-- The residual reported for the best iterate is the residual of the evaluated fit: if the evaluation at the nodes
gives the values `ρ` (no pole at a node), then the distance from `ρ` to the data is the best residual norm, and `ρ` are
the values of that iterate. -/
theorem C33_training [Nonempty ι] (nrm : (ι → K) → K) (eps tol : K)
    (heps : 0 < eps) (x y : ι → K) (m n : ℕ)
    (solve : (ℕ → ι → K) → Py ((ℕ → K) × (ℕ → K))) (maxIterations : ℕ) (f : Fitted K ι)
    (h : rationalFit nrm eps tol x y m n solve maxIterations = .ok f)
    (hH : ∀ k < max m n, f.best.H (k + 1) k ≠ eps)
    (ρ : ι → K) (hρ : ∀ i, f.predict eps (x i) = .ok (ρ i)) :
    ρ = f.best.r ∧ f.best.resNorm = nrm (fun i => ρ i - y i) := by
  unfold rationalFit at h
  simp only at h
  split at h
  · cases h
  · cases h
  · next h0 l hl =>
    injection h with h; subst h
    obtain ⟨new, h1, h2, h3, h4⟩ := skLoop_spec _ _ _ _ _ (fun _ => one_ne_zero) hl
    simp only [List.nil_append] at h1
    obtain ⟨h5, -⟩ := bestOf_spec h0 l
    obtain ⟨q, rOld, q', hq, hit⟩ := h3 _ (h1 ▸ h5)
    simp only at hH hρ ⊢
    revert hH hρ hit
    generalize bestOf h0 l = best
    intro hH hρ hit
    unfold skIterate at hit
    simp only at hit
    split at hit
    · cases hit
    · next a b hab =>
      injection hit with hit
      injection hit with hit1 hit2
      subst hit1
      simp only at hH hρ ⊢
      have key : ∀ i, ρ i = combine (fun j => (arnoldiBasis nrm eps
            (fun i => scaleX (univ.inf' univ_nonempty x) (univ.sup' univ_nonempty x) (x i)) (max m n)
            fun i => 1 / q i).V j i) m a /
          combine (fun j => (arnoldiBasis nrm eps
            (fun i => scaleX (univ.inf' univ_nonempty x) (univ.sup' univ_nonempty x) (x i)) (max m n)
            fun i => 1 / q i).V j i) n b := by
        intro i
        have h6 := hρ i
        unfold Fitted.predict at h6
        split at h6
        · cases h6
        · injection h6 with h6
          rw [← h6]
          simp only [Fitted.numerator, Fitted.denominator, combine]
          have hb := C33_basis nrm eps heps _ _ _ hH i
          simp only [← hb]
          have hw : (1 : K) / q i ≠ 0 := one_div_ne_zero (hq i)
          have hpull : ∀ (V c : ℕ → K) (d : ℕ), ∑ j ∈ range (d + 1), V j * (1 / q i) * c j =
              (∑ j ∈ range (d + 1), V j * c j) * (1 / q i) := by
            intro V c d
            rw [Finset.sum_mul]
            exact Finset.sum_congr rfl fun j _ => by ring
          rw [hpull, hpull, mul_div_mul_right _ _ hw]
      have hr : ρ = fun i => combine (fun j => (arnoldiBasis nrm eps
            (fun i => scaleX (univ.inf' univ_nonempty x) (univ.sup' univ_nonempty x) (x i)) (max m n)
            fun i => 1 / q i).V j i) m a /
          combine (fun j => (arnoldiBasis nrm eps
            (fun i => scaleX (univ.inf' univ_nonempty x) (univ.sup' univ_nonempty x) (x i)) (max m n)
            fun i => 1 / q i).V j i) n b := funext key
      exact ⟨hr, by rw [hr]⟩

theorem scaleX_affine (c d lo hi t : K) (hc : c ≠ 0) :
    scaleX (c * lo + d) (c * hi + d) (c * t + d) = scaleX lo hi t := by
  unfold scaleX
  have h1 : c * t + d - (c * lo + d) = c * (t - lo) := by ring
  have h2 : c * hi + d - (c * lo + d) = c * (hi - lo) := by ring
  rw [h1, h2, mul_div_mul_left _ _ hc]

theorem inf'_affine [Nonempty ι] (x : ι → K) (c d : K) (hc : 0 < c) :
    univ.inf' univ_nonempty (fun i => c * x i + d) = c * univ.inf' univ_nonempty x + d := by
  apply le_antisymm
  · obtain ⟨i, hi, he⟩ := Finset.exists_mem_eq_inf' (univ_nonempty (α := ι)) x
    rw [he]
    exact Finset.inf'_le (fun i => c * x i + d) hi
  · apply Finset.le_inf'
    intro i hi
    have := mul_le_mul_of_nonneg_left (Finset.inf'_le x hi) hc.le
    linarith

theorem sup'_affine [Nonempty ι] (x : ι → K) (c d : K) (hc : 0 < c) :
    univ.sup' univ_nonempty (fun i => c * x i + d) = c * univ.sup' univ_nonempty x + d := by
  apply le_antisymm
  · apply Finset.sup'_le
    intro i hi
    have := mul_le_mul_of_nonneg_left (Finset.le_sup' x hi) hc.le
    linarith
  · obtain ⟨i, hi, he⟩ := Finset.exists_mem_eq_sup' (univ_nonempty (α := ι)) x
    rw [he]
    exact Finset.le_sup' (fun i => c * x i + d) hi

/-- The fit does not depend on the unit or origin of the abscissa: with `x` replaced by `c x + d` (`c > 0`) the fit
fails in the same way or gives the same iterates, and the evaluation at `c t + d` is the former evaluation at `t`, for
every `t`, node or not. -/
theorem C33_units [Nonempty ι] (nrm : (ι → K) → K) (eps tol : K) (x y : ι → K) (m n : ℕ)
    (solve : (ℕ → ι → K) → Py ((ℕ → K) × (ℕ → K))) (maxIterations : ℕ) (c d : K) (hc : 0 < c) :
    match rationalFit nrm eps tol x y m n solve maxIterations,
      rationalFit nrm eps tol (fun i => c * x i + d) y m n solve maxIterations with
    | .ok f, .ok g => g.history = f.history ∧ ∀ t, g.predict eps (c * t + d) = f.predict eps t
    | .error e, .error e' => e = e'
    | _, _ => False := by
  have hx : (fun i => scaleX (univ.inf' univ_nonempty fun i => c * x i + d)
      (univ.sup' univ_nonempty fun i => c * x i + d) (c * x i + d)) =
      fun i => scaleX (univ.inf' univ_nonempty x) (univ.sup' univ_nonempty x) (x i) := by
    funext i
    rw [inf'_affine x c d hc, sup'_affine x c d hc, scaleX_affine _ _ _ _ _ hc.ne']
  unfold rationalFit
  simp only [hx]
  cases skLoop nrm eps tol (fun i => scaleX (univ.inf' univ_nonempty x) (univ.sup' univ_nonempty x) (x i)) y m n solve
    maxIterations (fun _ => 1) (fun _ => 0) [] with
  | error e => rfl
  | ok hist =>
    cases hist with
    | nil => rfl
    | cons h0 l =>
      refine ⟨rfl, fun t => ?_⟩
      simp only [Fitted.predict, Fitted.numerator, Fitted.denominator, inf'_affine x c d hc, sup'_affine x c d hc,
        scaleX_affine _ _ _ _ _ hc.ne']
      rfl

/-! A concrete fit: three nodes 0, 1, 2, degrees (1,1), the coefficients always those of `(v0 + v1) / v0`; the norm is
the sum of absolute values (rational arithmetic). -/

/-- The norm used in the examples. -/
def exNorm (v : Fin 3 → ℚ) : ℚ := ∑ i, |v i|

/-- The fit used in the examples. -/
def exFit : Py (Fitted ℚ (Fin 3)) :=
  rationalFit exNorm (1 / 10 ^ 14) (1 / 10 ^ 7) ![0, 1, 2] ![1, 2, 4] 1 1
    (fun _ => .ok (fun _ => 1, fun j => if j = 0 then 1 else 0)) 3

example : ∃ f, exFit = .ok f ∧ (∀ k < 1, f.best.H (k + 1) k ≠ 1 / 10 ^ 14) ∧
    (∀ i, f.predict (1 / 10 ^ 14) ((![0, 1, 2] : Fin 3 → ℚ) i) = .ok (f.best.r i)) := by
  have h2 : (match exFit with
    | .ok f => decide (f.best.H 1 0 ≠ 1 / 10 ^ 14) &&
        decide (f.predict (1 / 10 ^ 14) 0 = .ok (f.best.r 0)) && decide (f.predict (1 / 10 ^ 14) 1 = .ok (f.best.r 1)) &&
        decide (f.predict (1 / 10 ^ 14) 2 = .ok (f.best.r 2))
    | .error _ => false) = true := by decide +kernel
  cases he : exFit with
  | error e => rw [he] at h2; cases h2
  | ok f =>
    rw [he] at h2
    simp only [Bool.and_eq_true, decide_eq_true_eq] at h2
    refine ⟨f, rfl, fun k hk => ?_, fun i => ?_⟩
    · obtain rfl : k = 0 := by omega
      exact h2.1.1.1
    · match i with
      | 0 => exact h2.1.1.2
      | 1 => exact h2.1.2
      | 2 => exact h2.2

/-- The abscissae of the data are mapped to the interval from -1 to 1, the smallest to -1 and the largest to 1. -/
theorem C33_interval [Nonempty ι] (x : ι → K)
    (hx : univ.inf' univ_nonempty x < univ.sup' univ_nonempty x) :
    (∀ i, -1 ≤ scaleX (univ.inf' univ_nonempty x) (univ.sup' univ_nonempty x) (x i) ∧
      scaleX (univ.inf' univ_nonempty x) (univ.sup' univ_nonempty x) (x i) ≤ 1) ∧
    (∃ i, scaleX (univ.inf' univ_nonempty x) (univ.sup' univ_nonempty x) (x i) = -1) ∧
    ∃ i, scaleX (univ.inf' univ_nonempty x) (univ.sup' univ_nonempty x) (x i) = 1 := by
  set a := univ.inf' univ_nonempty x with ha
  set b := univ.sup' univ_nonempty x with hb
  have hd : 0 < b - a := sub_pos.mpr hx
  refine ⟨fun i => ?_, ?_, ?_⟩
  · have h1 : a ≤ x i := Finset.inf'_le x (mem_univ i)
    have h2 : x i ≤ b := Finset.le_sup' x (mem_univ i)
    have h3 : 0 ≤ (x i - a) / (b - a) := div_nonneg (sub_nonneg.mpr h1) hd.le
    have h4 : (x i - a) / (b - a) ≤ 1 := (div_le_one hd).mpr (by linarith)
    unfold scaleX
    constructor <;> linarith
  · obtain ⟨i, _, hi⟩ := Finset.exists_mem_eq_inf' univ_nonempty x
    refine ⟨i, ?_⟩
    unfold scaleX
    rw [← hi, ← ha, sub_self]
    simp
  · obtain ⟨i, _, hi⟩ := Finset.exists_mem_eq_sup' univ_nonempty x
    refine ⟨i, ?_⟩
    unfold scaleX
    rw [← hi, ← hb, div_self hd.ne']
    norm_num

example : univ.inf' univ_nonempty (![0, 1, 2] : Fin 3 → ℚ) < univ.sup' univ_nonempty (![0, 1, 2] : Fin 3 → ℚ) := by
  decide +kernel

end GwEcc
