import Mathlib.Analysis.Calculus.ContDiff.Basic
import Mathlib.RingTheory.Polynomial.DegreeLT
import Mathlib.Topology.Order.Compact
import Verif.Props.Spline

/-!
# C88 and C115 (continued): splines depend linearly on the values, and move little when these move little
-/

namespace GwEcc

open Spec Polynomial

/-- A combination of splines is a spline. -/
theorem isSpline_sum {k n : ℕ} {τ : List ℝ} {L : ℕ → ℝ → ℝ} (hL : ∀ i < n, IsSpline k τ (L i)) (c : ℕ → ℝ) :
    IsSpline k τ fun u => ∑ i ∈ Finset.range n, c i * L i u := by
  refine ⟨ContDiff.sum fun i hi => contDiff_const.mul (hL i (Finset.mem_range.1 hi)).smooth, fun a b h => ?_⟩
  have hP : ∀ i, ∃ P : ℝ[X], i < n → P.degree ≤ k ∧ ∀ u, a ≤ u → u ≤ b → L i u = P.eval u := fun i => by
    by_cases hi : i < n
    · obtain ⟨P, h1, h2⟩ := (hL i hi).pieces a b h
      exact ⟨P, fun _ => ⟨h1, h2⟩⟩
    · exact ⟨0, fun h => absurd h hi⟩
  choose P hP using hP
  refine ⟨∑ i ∈ Finset.range n, C (c i) * P i, ?_, fun u h1 h2 => ?_⟩
  · refine (degree_sum_le _ _).trans (Finset.sup_le fun i hi => ?_)
    rw [← smul_eq_C_mul]
    exact (degree_smul_le _ _).trans (hP i (Finset.mem_range.1 hi)).1
  · rw [eval_finset_sum]
    refine Finset.sum_congr rfl fun i hi => ?_
    rw [eval_mul, eval_C, (hP i (Finset.mem_range.1 hi)).2 u h1 h2]

theorem passes_iff {x y : List ℝ} (hlen : y.length = x.length) {F : ℝ → ℝ} :
    PassesThrough x y F ↔ ∀ i < x.length, F (x.getD i 0) = y.getD i 0 := by
  constructor
  · intro h i hi
    have : (x.getD i 0, y.getD i 0) ∈ x.zip y := by
      rw [List.getD_eq_getElem _ _ hi, List.getD_eq_getElem _ _ (hlen ▸ hi)]
      rw [List.mem_iff_getElem]
      exact ⟨i, by simp [hlen, hi], by simp⟩
    exact h _ this
  · rintro h ⟨a, b⟩ hp
    rw [List.mem_iff_getElem] at hp
    obtain ⟨i, hi, e⟩ := hp
    rw [List.getElem_zip] at e
    rw [List.length_zip] at hi
    have := h i (by omega)
    rw [List.getD_eq_getElem _ _ (by omega), List.getD_eq_getElem _ _ (by omega)] at this
    rw [← (Prod.mk.inj e).1, ← (Prod.mk.inj e).2]
    exact this

/-- The splines with the value one at one node and zero at the others. -/
theorem cardinal_splines {k : ℕ} {x : List ℝ} (hx : x.Pairwise (· < ·)) (hk : 1 ≤ k) (hkx : k < x.length) :
    ∃ L : ℕ → ℝ → ℝ, (∀ i < x.length, IsSpline k (Breaks k x) (L i)) ∧
      ∀ y : List ℝ, y.length = x.length →
        PassesThrough x y fun u => ∑ i ∈ Finset.range x.length, y.getD i 0 * L i u := by
  have h : ∀ i, ∃ F, IsSpline k (Breaks k x) F ∧
      PassesThrough x ((List.range x.length).map fun j => if j = i then (1 : ℝ) else 0) F := fun i =>
    C115_exists hx (by simp) hk hkx
  choose L h1 h2 using h
  refine ⟨L, fun i _ => h1 i, fun y hlen => (passes_iff hlen).2 fun j hj => ?_⟩
  have h3 : ∀ i, L i (x.getD j 0) = if j = i then 1 else 0 := fun i => by
    rw [(passes_iff (by simp)).1 (h2 i) j hj, List.getD_eq_getElem _ _ (by simpa using hj)]
    simp
  simp only [h3]
  simp [hj]

/-- The spline through a combination of values is the combination of the splines. -/
theorem C115_linear {k : ℕ} {x y y' : List ℝ} (hx : x.Pairwise (· < ·)) (hk : 1 ≤ k) (hk5 : k ≤ 5) (hkx : k < x.length)
    (hlen : y.length = x.length) (hlen' : y'.length = x.length) (c c' : ℝ) {u : ℝ} (hu : Within x u) :
    ∃ v v', scipyEval (.spline k 2) x y u = .ok v ∧ scipyEval (.spline k 2) x y' u = .ok v' ∧
      scipyEval (.spline k 2) x (List.zipWith (fun a b => c * a + c' * b) y y') u = .ok (c * v + c' * v') := by
  obtain ⟨L, hL, hp⟩ := cardinal_splines hx hk hkx
  have key : ∀ z : List ℝ, z.length = x.length →
      scipyEval (.spline k 2) x z u = .ok (∑ i ∈ Finset.range x.length, z.getD i 0 * L i u) := fun z hz =>
    scipyEval_spline hx hz hk hk5 hkx (isSpline_sum hL _) (hp z hz) (by omega) hu
  refine ⟨_, _, key y hlen, key y' hlen', ?_⟩
  rw [key _ (by simp [hlen, hlen']), Finset.mul_sum, Finset.mul_sum, ← Finset.sum_add_distrib]
  congr 1
  refine Finset.sum_congr rfl fun i hi => ?_
  have hi := Finset.mem_range.1 hi
  rw [List.getD_eq_getElem _ _ (by simp [hlen, hlen', hi]), List.getD_eq_getElem _ _ (by omega), List.getD_eq_getElem _ _ (by omega),
    List.getElem_zipWith]
  ring

/-- Splines move little when the values move little: by at most a constant, which depends on the nodes and the order only,
times the largest change of a value. -/
theorem C88_splines {k : ℕ} {x : List ℝ} (hx : x.Pairwise (· < ·)) (hk : 1 ≤ k) (hk5 : k ≤ 5) (hkx : k < x.length) :
    ∃ Λ, 0 ≤ Λ ∧ ∀ (y y' : List ℝ) (δ : ℝ), y.length = x.length → y'.length = x.length →
      List.Forall₂ (fun a b => |a - b| ≤ δ) y y' → ∀ u, Within x u →
      ∃ v v', scipyEval (.spline k 2) x y u = .ok v ∧ scipyEval (.spline k 2) x y' u = .ok v' ∧ |v - v'| ≤ Λ * δ := by
  obtain ⟨L, hL, hp⟩ := cardinal_splines hx hk hkx
  have hcont : ContinuousOn (fun u => ∑ i ∈ Finset.range x.length, |L i u|) (Set.Icc (x.getD 0 0) (x.getD (x.length - 1) 0)) :=
    (continuous_finset_sum _ fun i hi => ((hL i (Finset.mem_range.1 hi)).smooth.continuous).abs).continuousOn
  obtain ⟨Λ, hΛ⟩ := isCompact_Icc.exists_bound_of_continuousOn hcont
  refine ⟨max Λ 0, le_max_right _ _, fun y y' δ hlen hlen' hδ u hu => ?_⟩
  have key : ∀ z : List ℝ, z.length = x.length →
      scipyEval (.spline k 2) x z u = .ok (∑ i ∈ Finset.range x.length, z.getD i 0 * L i u) := fun z hz =>
    scipyEval_spline hx hz hk hk5 hkx (isSpline_sum hL _) (hp z hz) (by omega) hu
  refine ⟨_, _, key y hlen, key y' hlen', ?_⟩
  have hd : ∀ i < x.length, |y.getD i 0 - y'.getD i 0| ≤ δ := fun i hi => by
    rw [List.getD_eq_getElem _ _ (by omega), List.getD_eq_getElem _ _ (by omega)]
    exact (List.forall₂_iff_get.1 hδ).2 i (by omega) (by omega)
  have h0 : 0 ≤ δ := (abs_nonneg _).trans (hd 0 (by omega))
  rw [← Finset.sum_sub_distrib]
  refine (Finset.abs_sum_le_sum_abs _ _).trans ?_
  have hb := hΛ u (by obtain ⟨-, w1, w2⟩ := within_range hu; exact ⟨w1, w2⟩)
  calc ∑ i ∈ Finset.range x.length, |y.getD i 0 * L i u - y'.getD i 0 * L i u|
      ≤ ∑ i ∈ Finset.range x.length, δ * |L i u| := by
        refine Finset.sum_le_sum fun i hi => ?_
        rw [← sub_mul, abs_mul]
        exact mul_le_mul_of_nonneg_right (hd i (Finset.mem_range.1 hi)) (abs_nonneg _)
    _ = δ * ∑ i ∈ Finset.range x.length, |L i u| := by rw [Finset.mul_sum]
    _ ≤ δ * max Λ 0 := mul_le_mul_of_nonneg_left ((le_abs_self _).trans (hb.trans (le_max_left _ _))) h0
    _ = max Λ 0 * δ := mul_comm _ _

/-- The premises of `C115_linear` and `C88_splines`. -/
example : ([0, 1, 3, 4] : List ℝ).Pairwise (· < ·) ∧ 3 < ([0, 1, 3, 4] : List ℝ).length ∧ Within ([0, 1, 3, 4] : List ℝ) 2 ∧
    List.Forall₂ (fun a b : ℝ => |a - b| ≤ 1 / 10) [1, 2, 3, 4] [1, 2.1, 2.9, 4] := by
  refine ⟨by norm_num, by norm_num, ⟨0, 4, rfl, rfl, by norm_num, by norm_num⟩, ?_⟩
  norm_num [abs_le]

end GwEcc
