import Mathlib.RingTheory.Polynomial.DegreeLT
import Mathlib.LinearAlgebra.FiniteDimensional.Lemmas
import Verif.Lemmas.SplineUnique
import Verif.Lemmas.Spline

/-!
# The equations of spline interpolation have exactly one solution
-/

namespace GwEcc

open Polynomial SplineU

theorem value_sv {d : ℕ} {knots : List ℝ} {s : SplineFn ℝ} (h : s.jumps.length = knots.length) (u : ℝ) :
    s.value d knots u = sv d knots.length (fun i => knots.getD i 0) s.poly (fun i => s.jumps.getD i 0) u := by
  rw [SplineFn.value_eq h]
  rfl

theorem sv_sub (d N : ℕ) (τ : ℕ → ℝ) (P P' : ℝ[X]) (c c' : ℕ → ℝ) (u : ℝ) :
    sv d N τ (P - P') (fun i => c i - c' i) u = sv d N τ P c u - sv d N τ P' c' u := by
  unfold sv
  rw [eval_sub, show ∑ i ∈ Finset.range N, (c i - c' i) * tp d (u - τ i)
    = ∑ i ∈ Finset.range N, c i * tp d (u - τ i) - ∑ i ∈ Finset.range N, c' i * tp d (u - τ i) by
      rw [← Finset.sum_sub_distrib]; exact Finset.sum_congr rfl fun i _ => by ring]
  ring

theorem mem_zip_getD {x y : List ℝ} (h : x.length = y.length) {i : ℕ} (hi : i < x.length) : (x.getD i 0, y.getD i 0) ∈ x.zip y := by
  rw [List.getD_eq_getElem _ _ hi, List.getD_eq_getElem _ _ (h ▸ hi)]
  have : (x.zip y)[i]'(by simpa [← h] using hi) = (x[i], y[i]'(h ▸ hi)) := List.getElem_zip
  rw [← this]
  exact List.getElem_mem _

theorem zip_mem_getD {x y : List ℝ} (h : x.length = y.length) {p : ℝ × ℝ} (hp : p ∈ x.zip y) :
    ∃ i < x.length, p = (x.getD i 0, y.getD i 0) := by
  obtain ⟨i, hi, rfl⟩ := List.mem_iff_getElem.1 hp
  have hi' : i < x.length := by simp at hi; exact hi.1
  refine ⟨i, hi', ?_⟩
  rw [List.getD_eq_getElem _ _ hi', List.getD_eq_getElem _ _ (h ▸ hi')]
  exact List.getElem_zip

theorem knots_unique {k : ℕ} (hk : 1 ≤ k) {x : List ℝ} (hx : x.Pairwise (· < ·)) (hkx : k < x.length) {P : ℝ[X]}
    (hP : P.degree ≤ k) {c : ℕ → ℝ}
    (h0 : ∀ i < x.length, sv k (x.length - k - 1) (fun i => (splineKnots k x).getD i 0) P c (x.getD i 0) = 0) :
    P = 0 ∧ ∀ i < x.length - k - 1, c i = 0 :=
  sv_unique (N := x.length - k - 1) (x := fun i => x.getD i 0) hk (fun i j => splineKnots_lt hx)
    (fun i j h hj => getD_lt hx h (by omega)) (fun j hj => (splineKnots_between hk hx hj).1)
    (fun j hj => (splineKnots_between hk hx hj).2) hP (fun i hi => h0 i (by omega))

theorem fits_unique {k : ℕ} (hk : 1 ≤ k) {x y : List ℝ} (hx : x.Pairwise (· < ·)) (hlen : x.length = y.length)
    (hkx : k < x.length) {s s' : SplineFn ℝ} (h : SplineFits k x y s) (h' : SplineFits k x y s') : s' = s := by
  obtain ⟨a1, a2, a3⟩ := h
  obtain ⟨b1, b2, b3⟩ := h'
  have hN := splineKnots_length k x
  have key := knots_unique hk hx hkx (P := s'.poly - s.poly) (c := fun i => s'.jumps.getD i 0 - s.jumps.getD i 0)
    ((degree_sub_le _ _).trans (max_le b1 a1)) fun i hi => by
      have e1 := a3 _ (mem_zip_getD hlen hi)
      have e2 := b3 _ (mem_zip_getD hlen hi)
      rw [value_sv a2, hN] at e1
      rw [value_sv b2, hN] at e2
      rw [sv_sub, e1, e2, sub_self]
  cases s with
  | mk P c =>
    cases s' with
    | mk P' c' =>
      congr 1
      · exact sub_eq_zero.1 key.1
      · refine List.ext_getElem (by rw [b2, a2]) fun i h1 h2 => ?_
        have := key.2 i (by rw [← hN, ← a2]; exact h2)
        rw [List.getD_eq_getElem _ _ h1, List.getD_eq_getElem _ _ h2] at this
        exact sub_eq_zero.1 this

theorem degree_le_of_mem {k : ℕ} {P : ℝ[X]} (hP : P ∈ degreeLT ℝ (k + 1)) : P.degree ≤ k := by
  have h := (degree_lt_iff_coeff_zero P (k + 1)).1 (mem_degreeLT.1 hP)
  exact (degree_le_iff_coeff_zero P k).2 fun m hm => h m (by exact_mod_cast hm)

/-- The spline through the nodes exists, and there is only one. -/
theorem exists_fits {k : ℕ} (hk : 1 ≤ k) {x y : List ℝ} (hx : x.Pairwise (· < ·)) (hlen : x.length = y.length)
    (hkx : k < x.length) : ∃ s, SplineFits k x y s ∧ ∀ s', SplineFits k x y s' → s' = s := by
  classical
  suffices ∃ s, SplineFits k x y s by
    obtain ⟨s, hs⟩ := this
    exact ⟨s, hs, fun s' hs' => fits_unique hk hx hlen hkx hs hs'⟩
  let N := x.length - k - 1
  let τ := fun i => (splineKnots k x).getD i 0
  let L : (degreeLT ℝ (k + 1) × (Fin N → ℝ)) →ₗ[ℝ] (Fin x.length → ℝ) :=
    { toFun := fun p i => p.1.1.eval (x.getD i 0) + ∑ j : Fin N, p.2 j * tp k (x.getD i 0 - τ j)
      map_add' := fun p q => by
        funext i
        simp only [Prod.fst_add, Prod.snd_add, Submodule.coe_add, eval_add, Pi.add_apply, add_mul, Finset.sum_add_distrib]
        ring
      map_smul' := fun r p => by
        funext i
        simp only [Prod.smul_fst, Prod.smul_snd, Submodule.coe_smul, eval_smul, smul_eq_mul, Pi.smul_apply, RingHom.id_apply,
          mul_add, Finset.mul_sum, mul_assoc] }
  have hfin : FiniteDimensional ℝ (degreeLT ℝ (k + 1)) := Module.Finite.equiv (degreeLTEquiv ℝ (k + 1)).symm
  have hrank : Module.finrank ℝ (degreeLT ℝ (k + 1) × (Fin N → ℝ)) = Module.finrank ℝ (Fin x.length → ℝ) := by
    rw [Module.finrank_prod, (degreeLTEquiv ℝ (k + 1)).finrank_eq]
    simp only [Module.finrank_fintype_fun_eq_card, Fintype.card_fin, N]
    omega
  have hext : ∀ (c : Fin N → ℝ) (u : ℝ), ∑ j : Fin N, c j * tp k (u - τ j)
      = ∑ j ∈ Finset.range N, (if h : j < N then c ⟨j, h⟩ else 0) * tp k (u - τ j) := by
    intro c u
    rw [Finset.sum_range]
    exact Finset.sum_congr rfl fun j _ => by simp
  have hinj : Function.Injective L := by
    rw [← LinearMap.ker_eq_bot, LinearMap.ker_eq_bot']
    rintro ⟨⟨P, hP⟩, c⟩ h
    have hdeg : P.degree ≤ k := by
      exact degree_le_of_mem hP
    have key := knots_unique hk hx hkx (P := P) hdeg (c := fun j => if h : j < N then c ⟨j, h⟩ else 0) fun i hi => by
      have e := congrFun h ⟨i, hi⟩
      change P.eval (x.getD i 0) + ∑ j : Fin N, c j * tp k (x.getD i 0 - τ j) = 0 at e
      rw [hext] at e
      exact e
    refine Prod.ext (Subtype.ext key.1) (funext fun j => ?_)
    have := key.2 j j.2
    simpa using this
  have hsurj := (LinearMap.injective_iff_surjective_of_finrank_eq_finrank hrank).1 hinj
  obtain ⟨⟨⟨P, hP⟩, c⟩, h⟩ := hsurj fun i => y.getD i 0
  have hjl : (List.ofFn c).length = (splineKnots k x).length := by rw [splineKnots_length]; simp [N]
  refine ⟨⟨P, List.ofFn c⟩, ?_, hjl, fun p hp => ?_⟩
  · exact degree_le_of_mem hP
  · obtain ⟨i, hi, rfl⟩ := zip_mem_getD hlen hp
    have e := congrFun h ⟨i, hi⟩
    change P.eval (x.getD i 0) + ∑ j : Fin N, c j * tp k (x.getD i 0 - τ j) = y.getD i 0 at e
    rw [value_sv hjl, sv]
    simp only
    rw [← e, hext, splineKnots_length]
    congr 1
    refine Finset.sum_congr rfl fun j hj => ?_
    have hj := Finset.mem_range.1 hj
    rw [List.getD_eq_getElem _ _ (by simpa using hj), List.getElem_ofFn, dif_pos hj]

theorem fitSpline_exists {k ext : ℕ} {x y : List ℝ} (h1 : x.Pairwise (· < ·)) (h2 : x.length = y.length) (h3 : 1 ≤ k)
    (h4 : k ≤ 5) (h5 : ext ≤ 3) (h6 : k < x.length) : ∃ s, fitSpline k ext x y = .ok s ∧ SplineFits k x y s := by
  obtain ⟨s, hs, hu⟩ := exists_fits h3 h1 h2 h6
  exact ⟨s, fitSpline_of_unique h1 h2 h3 h4 h5 h6 hs hu, hs⟩

/-- Any spline that satisfies the equations is the one that is used. -/
theorem fitSpline_eq {k ext : ℕ} {x y : List ℝ} {s : SplineFn ℝ} (h1 : x.Pairwise (· < ·)) (h2 : x.length = y.length)
    (h3 : 1 ≤ k) (h4 : k ≤ 5) (h5 : ext ≤ 3) (h6 : k < x.length) (h : SplineFits k x y s) : fitSpline k ext x y = .ok s :=
  fitSpline_of_unique h1 h2 h3 h4 h5 h6 h fun _ h' => fits_unique h3 h1 h2 h6 h h'

end GwEcc
