import Mathlib.Analysis.Calculus.ContDiff.Operations
import Mathlib.Analysis.Calculus.ContDiff.Polynomial
import Mathlib.Analysis.Calculus.ContDiff.Deriv
import Verif.Lemmas.SplineExists

/-!
# Splines are smooth, and polynomials between knots
-/

namespace GwEcc

open Polynomial SplineU

theorem tp_hasDerivAt (d : ℕ) (v : ℝ) : HasDerivAt (tp (d + 2)) ((d + 2) * tp (d + 1) v) v := by
  have hr : HasDerivWithinAt (tp (d + 2)) ((d + 2) * tp (d + 1) v) (Set.Ici v) v := by
    have := tp_deriv (d + 1) 0 v
    simp only [sub_zero] at this
    refine this.congr_deriv ?_
    push_cast
    ring
  have hl : HasDerivWithinAt (tp (d + 2)) ((d + 2) * tp (d + 1) v) (Set.Iic v) v := by
    rcases le_or_gt v 0 with h | h
    · have e : (d + 2 : ℝ) * tp (d + 1) v = 0 := by
        rcases h.lt_or_eq with h | h
        · rw [tp, if_neg (not_le.2 h), mul_zero]
        · rw [tp, h]; simp
      rw [e]
      refine (hasDerivWithinAt_const v (Set.Iic v) (0 : ℝ)).congr (fun u hu => ?_) ?_
      · rcases (le_trans hu h).lt_or_eq with h' | h'
        · rw [tp, if_neg (not_le.2 h')]
        · rw [tp, h']; simp
      · rcases h.lt_or_eq with h' | h'
        · rw [tp, if_neg (not_le.2 h')]
        · rw [tp, h']; simp
    · have h1 : HasDerivAt (fun u : ℝ => u ^ (d + 2)) ((d + 2) * tp (d + 1) v) v := by
        have := hasDerivAt_pow (d + 2) v
        refine this.congr_deriv ?_
        rw [tp, if_pos h.le]
        push_cast
        rfl
      refine (h1.congr_of_eventuallyEq ?_).hasDerivWithinAt
      filter_upwards [lt_mem_nhds h] with u hu
      rw [tp, if_pos hu.le]
  have := hl.union hr
  rw [Set.Iic_union_Ici] at this
  exact this.hasDerivAt Filter.univ_mem

theorem tp_contDiff : ∀ d : ℕ, ContDiff ℝ d (tp (d + 1))
  | 0 => contDiff_zero.2 (tp_continuous 0)
  | d + 1 => by
    have e : ((d + 1 : ℕ) : WithTop ℕ∞) = (d : WithTop ℕ∞) + 1 := by norm_cast
    rw [e, contDiff_succ_iff_deriv]
    refine ⟨fun v => (tp_hasDerivAt d v).differentiableAt, fun h => by simp at h, ?_⟩
    have : deriv (tp (d + 1 + 1)) = fun v => ((d : ℝ) + 2) * tp (d + 1) v := funext fun v => (tp_hasDerivAt d v).deriv
    rw [this]
    exact contDiff_const.mul (tp_contDiff d)

theorem sv_contDiff (d N : ℕ) (τ : ℕ → ℝ) (P : ℝ[X]) (c : ℕ → ℝ) : ContDiff ℝ d (sv (d + 1) N τ P c) := by
  unfold sv
  have hP : ContDiff ℝ d fun u => P.eval u := by
    have := P.contDiff_aeval (𝕜 := ℝ) d
    simpa [coe_aeval_eq_eval] using this
  refine ContDiff.add hP (ContDiff.sum fun i _ => contDiff_const.mul ?_)
  exact (tp_contDiff d).comp (contDiff_id.sub contDiff_const)

theorem sv_hasDerivAt (d N : ℕ) (τ : ℕ → ℝ) (P : ℝ[X]) (c : ℕ → ℝ) (u : ℝ) :
    HasDerivAt (sv (d + 2) N τ P c) (sv (d + 1) N τ (derivative P) (fun i => ((d + 1 : ℕ) + 1) * c i) u) u := by
  have h := (P.hasDerivAt u).add (HasDerivAt.fun_sum (u := Finset.range N) (A := fun i v => c i * tp (d + 2) (v - τ i))
    (A' := fun i => c i * (((d : ℝ) + 2) * tp (d + 1) (u - τ i))) fun i _ =>
      by
        have := (tp_hasDerivAt d (u - τ i)).comp u ((hasDerivAt_id u).sub_const (τ i))
        rw [mul_one] at this
        exact this.const_mul (c i))
  refine h.congr_deriv ?_
  unfold sv
  congr 1
  refine Finset.sum_congr rfl fun i _ => ?_
  push_cast
  ring

theorem value_contDiff {d : ℕ} {knots : List ℝ} {s : SplineFn ℝ} (h : s.jumps.length = knots.length) :
    ContDiff ℝ d (s.value (d + 1) knots) := by
  have : s.value (d + 1) knots = _ := funext (value_sv h)
  rw [this]
  exact sv_contDiff _ _ _ _ _

theorem value_hasDerivAt {d : ℕ} {knots : List ℝ} {s : SplineFn ℝ} (h : s.jumps.length = knots.length) (u : ℝ) :
    HasDerivAt (s.value (d + 2) knots) ((s.deriv (d + 1)).value (d + 1) knots u) u := by
  have e : s.value (d + 2) knots = _ := funext (value_sv h)
  have h' : (s.deriv (d + 1)).jumps.length = knots.length := by simpa [SplineFn.deriv] using h
  rw [e, value_sv h']
  refine (sv_hasDerivAt d _ _ _ _ u).congr_deriv ?_
  unfold sv
  congr 1
  refine Finset.sum_congr rfl fun i hi => ?_
  congr 1
  have hi : i < s.jumps.length := by rw [h]; exact Finset.mem_range.1 hi
  simp only [SplineFn.deriv]
  rw [List.getD_eq_getElem _ _ hi, List.getD_eq_getElem _ _ (by simpa using hi), List.getElem_map]

end GwEcc
