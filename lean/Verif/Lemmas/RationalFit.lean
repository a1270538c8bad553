import Verif.Model.RationalFit
import Verif.Lemmas.Extrema
import Mathlib.Tactic.Ring
import Mathlib.Tactic.FieldSimp
import Mathlib.Algebra.BigOperators.Ring.Finset

/-!
# Lemmas on the rational fit
-/

set_option linter.unusedSectionVars false

namespace GwEcc

open Finset

variable {K ι : Type} [Field K] [LinearOrder K] [IsStrictOrderedRing K] [Fintype ι]

theorem arnoldi_succ (nrm : (ι → K) → K) (eps : K) (x : ι → K) (k : ℕ) (w : ι → K) :
    arnoldiBasis nrm eps x (k + 1) w = arnoldiStep nrm eps x (arnoldiBasis nrm eps x k w) k := by
  unfold arnoldiBasis
  rw [List.range_succ, List.foldl_append]
  rfl

theorem arnoldiStep_V {nrm : (ι → K) → K} {eps : K} {x : ι → K} {s : Arnoldi K ι} {k c : ℕ} (hc : c ≤ k) :
    (arnoldiStep nrm eps x s k).V c = s.V c := by
  unfold arnoldiStep
  split
  · rfl
  · simp only
    split
    · simp only; rw [if_neg (by omega)]
    · rfl

theorem arnoldiStep_H {nrm : (ι → K) → K} {eps : K} {x : ι → K} {s : Arnoldi K ι} {k c : ℕ} (hc : c ≠ k) (j : ℕ) :
    (arnoldiStep nrm eps x s k).H j c = s.H j c := by
  unfold arnoldiStep
  split
  · rfl
  · simp only
    split
    · simp only; rw [if_neg hc]
    · simp only; rw [if_neg hc]

theorem arnoldi_V_later {nrm : (ι → K) → K} {eps : K} {x : ι → K} {w : ι → K} {k d c : ℕ} (hkd : k ≤ d) (hc : c ≤ k) :
    (arnoldiBasis nrm eps x d w).V c = (arnoldiBasis nrm eps x k w).V c := by
  induction d with
  | zero => obtain rfl : k = 0 := by omega
            rfl
  | succ d ih =>
    rcases Nat.lt_or_ge d k with h | h
    · obtain rfl : k = d + 1 := by omega
      rfl
    · rw [arnoldi_succ, arnoldiStep_V (by omega), ih h]

theorem arnoldi_H_later {nrm : (ι → K) → K} {eps : K} {x : ι → K} {w : ι → K} {k d c : ℕ} (hkd : k ≤ d) (hc : c < k)
    (j : ℕ) : (arnoldiBasis nrm eps x d w).H j c = (arnoldiBasis nrm eps x k w).H j c := by
  induction d with
  | zero => obtain rfl : k = 0 := by omega
            rfl
  | succ d ih =>
    rcases Nat.lt_or_ge d k with h | h
    · obtain rfl : k = d + 1 := by omega
      rfl
    · rw [arnoldi_succ, arnoldiStep_H (by omega), ih h]

theorem arnoldi_H_zero {nrm : (ι → K) → K} {eps : K} {x : ι → K} {w : ι → K} {k c : ℕ} (hc : k ≤ c) (j : ℕ) :
    (arnoldiBasis nrm eps x k w).H j c = 0 := by
  induction k with
  | zero => rfl
  | succ k ih => rw [arnoldi_succ, arnoldiStep_H (by omega), ih (by omega)]

theorem eval_succ (eps : K) (H : ℕ → ℕ → K) (x : K) (s : (ℕ → K) × Bool) (k : ℕ) :
    (List.range (k + 1)).foldl (evalStep eps H x) s =
      evalStep eps H x ((List.range k).foldl (evalStep eps H x) s) k := by
  rw [List.range_succ, List.foldl_append]
  rfl

/-- The relation between the basis at the nodes and its re-evaluation, after every number of steps. -/
theorem eval_rel {nrm : (ι → K) → K} {eps : K} {x w : ι → K} {d : ℕ}
    (hH : ∀ k < d, (arnoldiBasis nrm eps x d w).H (k + 1) k ≠ eps) (heps : 0 < eps) (i : ι) :
    ∀ k ≤ d,
      let E := (List.range k).foldl (evalStep eps (arnoldiBasis nrm eps x d w).H (x i))
        (fun c => if c = 0 then 1 / nrm w else 0, false)
      E.2 = (arnoldiBasis nrm eps x k w).stopped ∧ ∀ c, E.1 c * w i = (arnoldiBasis nrm eps x k w).V c i := by
  intro k
  induction k with
  | zero =>
    intro _
    refine ⟨rfl, fun c => ?_⟩
    simp only [List.range_zero, List.foldl_nil, arnoldiBasis, arnoldiInit]
    split
    · ring
    · ring
  | succ k ih =>
    intro hk
    have hk' : k ≤ d := by omega
    obtain ⟨ih1, ih2⟩ := ih hk'
    have hHk : ∀ j, (arnoldiBasis nrm eps x d w).H j k = (arnoldiBasis nrm eps x (k + 1) w).H j k :=
      fun j => arnoldi_H_later hk (by omega) j
    have hne := hH k (by omega)
    rw [hHk] at hne
    simp only
    rw [eval_succ]
    revert ih1 ih2
    generalize (List.range k).foldl (evalStep eps (arnoldiBasis nrm eps x d w).H (x i))
        (fun c => if c = 0 then 1 / nrm w else 0, false) = E
    intro ih1 ih2
    unfold evalStep
    simp only [hHk]
    rw [arnoldi_succ] at hne ⊢
    have hz := fun j => arnoldi_H_zero (nrm := nrm) (eps := eps) (x := x) (w := w) (le_refl k) j
    revert hne ih1 ih2 hz
    generalize arnoldiBasis nrm eps x k w = A
    intro hne ih1 ih2 hz
    unfold arnoldiStep at hne ⊢
    by_cases hs : A.stopped
    · rw [hs] at ih1
      simp only [hs, ih1, if_true]
      exact ⟨trivial, ih2⟩
    · have hs' : A.stopped = false := by simpa using hs
      rw [hs'] at ih1
      simp only [hs', ih1, Bool.false_eq_true, if_false] at hne ⊢
      -- the vector that is normalised
      have hv : ∀ h1 h2 : ℕ → K, subProj A.V k (subProj A.V k (fun i => A.V k i * x i) h1) h2 i =
          (E.1 k * x i - ∑ j ∈ range (k + 1), E.1 j * (0 + h1 j + h2 j)) * w i := by
        intro h1 h2
        simp only [subProj, sub_mul, Finset.sum_mul, zero_add, mul_add, Finset.sum_add_distrib, ← ih2]
        have e1 : ∀ h : ℕ → K, ∑ j ∈ range (k + 1), E.1 j * w i * h j = ∑ j ∈ range (k + 1), E.1 j * h j * w i :=
          fun h => Finset.sum_congr rfl fun j _ => by ring
        rw [e1, e1, add_mul, Finset.sum_mul, Finset.sum_mul]
        ring
      have hsum : ∀ h1 h2 : ℕ → K, ∀ nv : K,
          ∑ j ∈ range (k + 1), E.1 j * (if j ≤ k then A.H j k + h1 j + h2 j else if j = k + 1 then nv else A.H j k) =
          ∑ j ∈ range (k + 1), E.1 j * (0 + h1 j + h2 j) := by
        intro h1 h2 nv
        refine Finset.sum_congr rfl fun j hj => ?_
        rw [if_pos (by have := Finset.mem_range.mp hj; omega), hz]
      set h1 := proj A.V (fun i => A.V k i * x i) with hh1
      set v1 := subProj A.V k (fun i => A.V k i * x i) h1 with hv1
      set h2 := proj A.V v1 with hh2
      set v2 := subProj A.V k v1 h2 with hv2
      have hk1 : ¬ (k + 1 ≤ k) := by omega
      by_cases hgt : nrm v2 > eps
      · simp only [hgt, if_true, hk1, if_false, not_lt_of_gt hgt, true_and]
        intro c
        by_cases hc : c = k + 1
        · simp only [hc, if_true]
          rw [hsum, div_mul_eq_mul_div, ← hv h1 h2]
        · simp only [hc, if_false]
          exact ih2 c
      · have hlt : nrm v2 < eps := by
          rcases lt_trichotomy (nrm v2) eps with h | h | h
          · exact h
          · exfalso; apply hne
            simp only [hgt, if_false, if_true, hk1]
            exact h
          · exact absurd h hgt
        simp only [hgt, hk1, if_false, if_true, hlt, true_and]
        exact ih2

/-! ## The iteration -/

/-- An entry of the history is the outcome of one iteration with weights that do not vanish. -/
def IsIterate (nrm : (ι → K) → K) (eps : K) (xs y : ι → K) (m n : ℕ)
    (solve : (ℕ → ι → K) → Py ((ℕ → K) × (ℕ → K))) (it : Iterate K ι) : Prop :=
  ∃ q rOld q', (∀ i, q i ≠ 0) ∧ skIterate nrm eps xs y m n solve q rOld = .ok (it, q')

theorem skIterate_q {nrm : (ι → K) → K} {eps : K} {xs y : ι → K} {m n : ℕ}
    {solve : (ℕ → ι → K) → Py ((ℕ → K) × (ℕ → K))} {q rOld q' : ι → K} {it : Iterate K ι}
    (h : skIterate nrm eps xs y m n solve q rOld = .ok (it, q')) (i : ι) : q' i ≠ 0 := by
  unfold skIterate at h
  simp only at h
  split at h
  · cases h
  · injection h with h
    injection h with h1 h2
    subst h2
    simp only
    split
    · exact one_ne_zero
    · next h => exact h

theorem skLoop_spec {nrm : (ι → K) → K} {eps tol : K} {xs y : ι → K} {m n : ℕ}
    {solve : (ℕ → ι → K) → Py ((ℕ → K) × (ℕ → K))} :
    ∀ (left : ℕ) (q rOld : ι → K) (hist hist' : List (Iterate K ι)), (∀ i, q i ≠ 0) →
      skLoop nrm eps tol xs y m n solve left q rOld hist = .ok hist' →
      ∃ new, hist' = hist ++ new ∧ new.length ≤ left ∧ (∀ it ∈ new, IsIterate nrm eps xs y m n solve it) ∧
        (∀ it ∈ new.dropLast, tol ≤ it.deltaFit)
  | 0, q, rOld, hist, hist', _, h => by
    simp only [skLoop, Except.ok.injEq] at h
    exact ⟨[], by simp [h], by simp, by simp, by simp⟩
  | left + 1, q, rOld, hist, hist', hq, h => by
    simp only [skLoop] at h
    split at h
    · injection h with h
      exact ⟨[], by simp [h], by simp, by simp, by simp⟩
    · cases h
    · next it q' hit =>
      have hI : IsIterate nrm eps xs y m n solve it := ⟨q, rOld, q', hq, hit⟩
      split at h
      · injection h with h
        exact ⟨[it], h.symm, by simp, by simpa using hI, by simp⟩
      · next hd =>
        obtain ⟨new, h1, h2, h3, h4⟩ := skLoop_spec left q' it.r _ hist' (skIterate_q hit) h
        refine ⟨it :: new, by rw [h1]; simp, by simpa using h2, ?_, ?_⟩
        · intro z hz
          rcases List.mem_cons.mp hz with rfl | hz
          · exact hI
          · exact h3 z hz
        · intro z hz
          cases new with
          | nil => simp at hz
          | cons b l =>
            rw [List.dropLast_cons_cons] at hz
            rcases List.mem_cons.mp hz with rfl | hz
            · exact not_lt.mp hd
            · exact h4 z hz

theorem bestOf_spec : ∀ (h : Iterate K ι) (l : List (Iterate K ι)),
    bestOf h l ∈ h :: l ∧ ∀ z ∈ h :: l, (bestOf h l).resNorm ≤ z.resNorm
  | h, [] => by simp [bestOf]
  | h, h' :: l => by
    simp only [bestOf]
    split
    · next hlt =>
      obtain ⟨h1, h2⟩ := bestOf_spec h' l
      refine ⟨List.mem_cons_of_mem _ h1, fun z hz => ?_⟩
      rcases List.mem_cons.mp hz with rfl | hz
      · exact (h2 h' (by simp)).trans hlt.le
      · exact h2 z hz
    · next hlt =>
      obtain ⟨h1, h2⟩ := bestOf_spec h l
      refine ⟨?_, fun z hz => ?_⟩
      · rcases List.mem_cons.mp h1 with h1 | h1
        · rw [h1]; simp
        · exact List.mem_cons_of_mem _ (List.mem_cons_of_mem _ h1)
      · rcases List.mem_cons.mp hz with rfl | hz
        · exact h2 z (by simp)
        · rcases List.mem_cons.mp hz with rfl | hz
          · exact (h2 h (by simp)).trans (not_lt.mp hlt)
          · exact h2 z (List.mem_cons_of_mem _ hz)

end GwEcc
