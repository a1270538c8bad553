import Mathlib.Algebra.Polynomial.FieldDivision
import Verif.Lemmas.SplineSmooth
import Verif.Spec.Spline

/-!
# Every spline is a polynomial and truncated powers
-/

namespace GwEcc.SplineU

open Polynomial Spec

theorem iterate_deriv_eq {a b : ℝ} (hab : a < b) : ∀ (i : ℕ) (F : ℝ → ℝ) (Q : ℝ[X]), ContDiff ℝ i F →
    (∀ u ∈ Set.Icc a b, F u = Q.eval u) → ∀ u ∈ Set.Icc a b, (deriv^[i] F) u = (derivative^[i] Q).eval u
  | 0, _, _, _, h, u, hu => h u hu
  | i + 1, F, Q, hF, h, u, hu => by
    have e : ((i + 1 : ℕ) : WithTop ℕ∞) = (i : WithTop ℕ∞) + 1 := by norm_cast
    rw [e] at hF
    rw [Function.iterate_succ_apply, Function.iterate_succ_apply]
    have hd : ContDiff ℝ i (deriv F) := hF.deriv'
    refine iterate_deriv_eq hab i (deriv F) (derivative Q) hd ?_ u hu
    have hin : Set.EqOn (deriv F) (fun u => (derivative Q).eval u) (Set.Ioo a b) := by
      intro v hv
      have : F =ᶠ[nhds v] fun u => Q.eval u := by
        filter_upwards [Ioo_mem_nhds hv.1 hv.2] with w hw
        exact h w ⟨hw.1.le, hw.2.le⟩
      rw [this.deriv_eq]
      exact (Q.hasDerivAt v).deriv
    have hc : Continuous fun u => (derivative Q).eval u :=
      continuous_iff_continuousAt.2 fun u => ((derivative Q).hasDerivAt u).continuousAt
    have := hin.closure hd.continuous hc
    rw [closure_Ioo hab.ne] at this
    exact this

/-- Two polynomials that meet smoothly differ by a power. -/
theorem meet {k : ℕ} (hk : 1 ≤ k) {F : ℝ → ℝ} (hF : ContDiff ℝ ((k - 1 : ℕ) : WithTop ℕ∞) F) {a τ b : ℝ} (h1 : a < τ) (h2 : τ < b)
    {Q R : ℝ[X]} (hQd : Q.degree ≤ k) (hRd : R.degree ≤ k) (hQ : ∀ u ∈ Set.Icc a τ, F u = Q.eval u)
    (hR : ∀ u ∈ Set.Icc τ b, F u = R.eval u) : ∃ c, R = Q + C c * (X - C τ) ^ k := by
  by_cases h0 : R - Q = 0
  · exact ⟨0, by rw [sub_eq_zero] at h0; simp [h0]⟩
  have hroot : ∀ m ≤ k - 1, (derivative^[m] (R - Q)).IsRoot τ := by
    intro m hm
    have hm' : ContDiff ℝ m F := hF.of_le (by exact_mod_cast hm)
    have e1 := iterate_deriv_eq h1 m F Q hm' hQ τ ⟨h1.le, le_rfl⟩
    have e2 := iterate_deriv_eq h2 m F R hm' hR τ ⟨le_rfl, h2.le⟩
    rw [IsRoot, iterate_derivative_sub, eval_sub, ← e1, ← e2, sub_self]
  have hlt := (lt_rootMultiplicity_iff_isRoot_iterate_derivative h0).2 hroot
  obtain ⟨q, hq⟩ := (le_rootMultiplicity_iff h0).1 (show k ≤ (R - Q).rootMultiplicity τ by omega)
  have hq0 : q ≠ 0 := by rintro rfl; rw [mul_zero] at hq; exact h0 hq
  have hdeg : (R - Q).natDegree ≤ k := natDegree_le_of_degree_le ((degree_sub_le _ _).trans (max_le hRd hQd))
  rw [hq, natDegree_mul (pow_ne_zero _ (X_sub_C_ne_zero τ)) hq0, natDegree_pow, natDegree_X_sub_C, mul_one] at hdeg
  rw [eq_C_of_natDegree_eq_zero (show q.natDegree = 0 by omega)] at hq
  exact ⟨q.coeff 0, by rw [mul_comm, ← hq]; ring⟩

/-- Every spline is a polynomial and truncated powers. -/
theorem exists_sv {k N : ℕ} (hk : 1 ≤ k) {F : ℝ → ℝ} (hF : ContDiff ℝ ((k - 1 : ℕ) : WithTop ℕ∞) F) {τ : ℕ → ℝ} {A L : ℝ}
    (hτ : ∀ i j, i < j → j < N → τ i < τ j) (hA : ∀ i < N, A < τ i) (hL : ∀ i < N, τ i < L)
    (hp : ∀ a b, (∀ i < N, τ i ≤ a ∨ b ≤ τ i) → ∃ P : ℝ[X], P.degree ≤ k ∧ ∀ u, a ≤ u → u ≤ b → F u = P.eval u) :
    ∃ (P : ℝ[X]) (c : ℕ → ℝ), P.degree ≤ k ∧ ∀ u, A ≤ u → u ≤ L → F u = sv k N τ P c u := by
  have hle : ∀ i j, i ≤ j → j < N → τ i ≤ τ j := fun i j h hj => by
    rcases h.lt_or_eq with h | rfl
    · exact (hτ i j h hj).le
    · exact le_rfl
  suffices ∀ j ≤ N, ∃ (P : ℝ[X]) (c : ℕ → ℝ), P.degree ≤ k ∧
      ∀ u, A ≤ u → u ≤ (if j < N then τ j else L) → F u = sv k j τ P c u by
    obtain ⟨P, c, h1, h2⟩ := this N le_rfl
    exact ⟨P, c, h1, by simpa using h2⟩
  intro j
  induction j with
  | zero =>
    intro _
    obtain ⟨P, h1, h2⟩ := hp A (if 0 < N then τ 0 else L) fun i hi => by
      right; rw [if_pos (by omega)]; exact hle 0 i (by omega) hi
    exact ⟨P, fun _ => 0, h1, fun u hu hu' => by simpa [sv] using h2 u hu hu'⟩
  | succ j ih =>
    intro hj
    obtain ⟨P, c, hP, hS⟩ := ih (by omega)
    rw [if_pos (by omega)] at hS
    set e := if j + 1 < N then τ (j + 1) else L with he
    have hje : τ j < e := by
      rw [he]; split_ifs with h
      · exact hτ j (j + 1) (by omega) h
      · exact hL j (by omega)
    obtain ⟨R, hR1, hR2⟩ := hp (τ j) e fun i hi => by
      by_cases h : i ≤ j
      · exact .inl (hle i j h (by omega))
      · right; rw [he, if_pos (by omega)]; exact hle (j + 1) i (by omega) hi
    set a := if j = 0 then A else τ (j - 1) with ha
    have haj : a < τ j := by
      rw [ha]; split_ifs with h
      · exact hA j (by omega)
      · exact hτ (j - 1) j (by omega) (by omega)
    have hAa : A ≤ a := by
      rw [ha]; split_ifs with h
      · exact le_rfl
      · exact (hA _ (by omega)).le
    have hpast : ∀ u, a ≤ u → ∀ i < j, τ i ≤ u := fun u hu i hi => by
      refine le_trans ?_ hu
      rw [ha, if_neg (by omega)]
      exact hle i (j - 1) (by omega) (by omega)
    have hpiece : ∀ u, a ≤ u → sv k j τ P c u = (piece k τ P c j).eval u := fun u hu =>
      sv_eq_piece ⟨le_rfl, hpast u hu, fun i h1 h2 => absurd h1 (by omega)⟩ P c
    have hQd : (piece k τ P c j).degree ≤ k := by
      unfold piece
      refine (degree_add_le _ _).trans (max_le hP ?_)
      refine mem_degreeLE.1 (Submodule.sum_mem _ fun i _ => mem_degreeLE.2 ?_)
      refine degree_le_of_natDegree_le ((natDegree_C_mul_le _ _).trans ?_)
      rw [natDegree_pow, natDegree_X_sub_C, mul_one]
    obtain ⟨c', hc'⟩ := meet hk hF haj hje hQd hR1
      (fun u hu => by rw [hS u (hAa.trans hu.1) hu.2, hpiece u hu.1]) (fun u hu => hR2 u hu.1 hu.2)
    refine ⟨P, fun i => if i = j then c' else c i, hP, fun u hu hu' => ?_⟩
    have hsum : sv k (j + 1) τ P (fun i => if i = j then c' else c i) u = sv k j τ P c u + c' * tp k (u - τ j) := by
      unfold sv
      rw [Finset.sum_range_succ, ← add_assoc]
      simp only [if_true]
      congr 2
      refine Finset.sum_congr rfl fun i hi => ?_
      rw [if_neg (by have := Finset.mem_range.1 hi; omega)]
    rw [hsum]
    rcases le_or_gt u (τ j) with h | h
    · rw [hS u hu h]
      have : tp k (u - τ j) = 0 := by
        unfold tp
        split_ifs with h'
        · rw [show u - τ j = 0 by linarith, zero_pow (by omega)]
        · rfl
      rw [this, mul_zero, add_zero]
    · rw [hR2 u h.le hu', hc', hpiece u (haj.le.trans h.le), tp, if_pos (by linarith)]
      simp

end GwEcc.SplineU

namespace GwEcc

open Polynomial SplineU Spec

/-- A spline through the points is the one scipy finds, within the nodes. -/
theorem spline_is_value {k : ℕ} (hk : 1 ≤ k) {x y : List ℝ} (hx : x.Pairwise (· < ·)) (hlen : x.length = y.length)
    (hkx : k < x.length) {F : ℝ → ℝ} (hF : IsSpline k (splineKnots k x) F) (hy : PassesThrough x y F) {s : SplineFn ℝ}
    (hs : SplineFits k x y s) {u : ℝ} (hu : x.getD 0 0 ≤ u) (hu' : u ≤ x.getD (x.length - 1) 0) :
    F u = s.value k (splineKnots k x) u := by
  have hN := splineKnots_length k x
  obtain ⟨P, c, hP, hv⟩ := exists_sv (N := x.length - k - 1) (τ := fun i => (splineKnots k x).getD i 0) (A := x.getD 0 0)
    (L := x.getD (x.length - 1) 0) hk hF.smooth (fun i j h hj => splineKnots_lt hx h hj)
    (fun i hi => (getD_le hx (by omega) (by omega)).trans_lt (splineKnots_between hk hx hi).1)
    (fun i hi => (splineKnots_between hk hx hi).2.trans_le (getD_le hx (by omega) (by omega)))
    (fun a b h => hF.pieces a b fun t ht => by
      obtain ⟨i, hi, rfl⟩ := List.mem_iff_getElem.1 ht
      rw [← List.getD_eq_getElem _ 0 hi]
      exact h i (by omega))
  let s' : SplineFn ℝ := ⟨P, (List.range (x.length - k - 1)).map c⟩
  have hl' : s'.jumps.length = (splineKnots k x).length := by simp [s', hN]
  have hv' : ∀ u, s'.value k (splineKnots k x) u = sv k (x.length - k - 1) (fun i => (splineKnots k x).getD i 0) P c u := by
    intro u
    rw [value_sv hl', hN]
    unfold sv
    congr 1
    refine Finset.sum_congr rfl fun i hi => ?_
    have hi := Finset.mem_range.1 hi
    have e : s'.jumps.getD i 0 = c i := by
      rw [List.getD_eq_getElem _ _ (by simpa [s'] using hi)]
      simp [s']
    simp only [e]
  have hfit : SplineFits k x y s' := ⟨hP, hl', fun p hp => by
    obtain ⟨i, hi, rfl⟩ := zip_mem_getD hlen hp
    rw [hv', ← hv _ (getD_le hx (by omega) hi) (getD_le hx (by omega) (by omega))]
    exact hy _ (mem_zip_getD hlen hi)⟩
  rw [hv u hu hu', ← hv', fits_unique hk hx hlen hkx hs hfit]

end GwEcc
