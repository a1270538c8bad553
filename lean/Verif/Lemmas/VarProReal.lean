import Verif.Lemmas.VarPro
import Mathlib.Analysis.InnerProductSpace.GramSchmidtOrtho
import Mathlib.Analysis.InnerProductSpace.PiL2
import Mathlib.Topology.MetricSpace.ProperSpace.Lemmas

/-!
# The promises about factorizations can be kept over the real numbers
-/

namespace GwEcc

open Finset

variable {ι : Type} [Fintype ι]

/-- A reduced QR factorization exists, also for rank-deficient matrices. -/
theorem exists_qr (P : ℕ → ι → ℝ) (k : ℕ) (hk : k ≤ Fintype.card ι) :
    ∃ QR : (ℕ → ι → ℝ) × (ℕ → ℕ → ℝ),
      (∀ a < k, ∀ b < k, ∑ i, QR.1 a i * QR.1 b i = if a = b then 1 else 0) ∧
      (∀ j < k, ∀ i, ∑ l ∈ range k, QR.1 l i * QR.2 l j = P j i) ∧
      (∀ j < k, ∀ l < k, j < l → QR.2 l j = 0) := by
  classical
  have hfr : Module.finrank ℝ (EuclideanSpace ℝ ι) = Fintype.card (Fin (Fintype.card ι)) := by simp
  let f : Fin (Fintype.card ι) → EuclideanSpace ℝ ι := fun j => WithLp.toLp 2 (P j)
  let B := InnerProductSpace.gramSchmidtOrthonormalBasis hfr f
  have hB : ∀ i j : Fin (Fintype.card ι), i < j → inner ℝ (B j) (f i) = 0 := fun i j hij =>
    InnerProductSpace.gramSchmidtOrthonormalBasis_inv_triangular hfr f hij
  refine ⟨⟨fun l i => if h : l < Fintype.card ι then (B ⟨l, h⟩) i else 0,
    fun l j => if h : l < Fintype.card ι then inner ℝ (B ⟨l, h⟩) (WithLp.toLp 2 (P j)) else 0⟩, ?_, ?_, ?_⟩
  · intro a ha b hb
    have ha' : a < Fintype.card ι := by omega
    have hb' : b < Fintype.card ι := by omega
    simp only [ha', hb', dif_pos]
    have := orthonormal_iff_ite.mp B.orthonormal ⟨a, ha'⟩ ⟨b, hb'⟩
    rw [PiLp.inner_apply] at this
    simp only [Fin.mk.injEq] at this
    rw [← this]
    exact Finset.sum_congr rfl fun i _ => by simp [mul_comm]
  · intro j hj i
    have hj' : j < Fintype.card ι := by omega
    have h1 := congrArg (fun v : EuclideanSpace ℝ ι => v i) (B.sum_repr' (f ⟨j, hj'⟩))
    simp only [WithLp.ofLp_sum, Finset.sum_apply, PiLp.smul_apply, smul_eq_mul] at h1
    have h2 : f ⟨j, hj'⟩ i = P j i := rfl
    rw [h2] at h1
    rw [← h1, Finset.sum_fin_eq_sum_range]
    have : ∀ l ∈ range (Fintype.card ι), l ∉ range k → (if h : l < Fintype.card ι then
        inner ℝ (B ⟨l, h⟩) (f ⟨j, hj'⟩) * (B ⟨l, h⟩) i else 0) = 0 := by
      intro l hl hlk
      have hl' := mem_range.mp hl
      rw [mem_range, not_lt] at hlk
      rw [dif_pos hl', hB ⟨j, hj'⟩ ⟨l, hl'⟩ (by simp only [Fin.mk_lt_mk]; omega), zero_mul]
    rw [← Finset.sum_subset (Finset.range_mono hk) this]
    refine Finset.sum_congr rfl fun l hl => ?_
    have hl' : l < Fintype.card ι := by have := mem_range.mp hl; omega
    simp only [hl', dif_pos]
    rw [mul_comm]
  · intro j hj l hl hjl
    have hl' : l < Fintype.card ι := by omega
    have hj' : j < Fintype.card ι := by omega
    simp only [hl', dif_pos]
    exact hB ⟨j, hj'⟩ ⟨l, hl'⟩ (by simpa using hjl)

/-- A unit vector that a matrix makes smallest exists. -/
theorem exists_least (A : ℕ → ι → ℝ) (k : ℕ) (hk : 0 < k) :
    ∃ b : ℕ → ℝ, sumSqTo k b = 1 ∧ ∀ b', sumSq (applyCols A k b) * sumSqTo k b' ≤ sumSq (applyCols A k b') := by
  classical
  let ext : EuclideanSpace ℝ (Fin k) → ℕ → ℝ := fun v j => if h : j < k then v ⟨j, h⟩ else 0
  let g : EuclideanSpace ℝ (Fin k) → ℝ := fun v => sumSq (applyCols A k (ext v))
  have happ : ∀ v i, applyCols A k (ext v) i = ∑ j : Fin k, A j i * v j := by
    intro v i
    unfold applyCols
    rw [Finset.sum_range]
    exact Finset.sum_congr rfl fun j _ => by simp [ext]
  have hg : Continuous g := by
    have : g = fun v => ∑ i, (∑ j : Fin k, A j i * v j) * (∑ j : Fin k, A j i * v j) := by
      funext v
      exact Finset.sum_congr rfl fun i _ => by rw [happ]
    rw [this]
    fun_prop
  have hsq : ∀ v, sumSqTo k (ext v) = ‖v‖ ^ 2 := by
    intro v
    rw [EuclideanSpace.norm_sq_eq, sumSqTo, Finset.sum_range]
    exact Finset.sum_congr rfl fun j _ => by simp [ext, sq]
  haveI : Nonempty (Fin k) := ⟨⟨0, hk⟩⟩
  obtain ⟨v, hv, hmin⟩ := (isCompact_sphere (0 : EuclideanSpace ℝ (Fin k)) 1).exists_isMinOn
    (NormedSpace.sphere_nonempty.mpr zero_le_one) hg.continuousOn
  have hv1 : ‖v‖ = 1 := by simpa using hv
  refine ⟨ext v, by rw [hsq, hv1, one_pow], fun b' => ?_⟩
  let u : EuclideanSpace ℝ (Fin k) := WithLp.toLp 2 fun j => b' j
  have hu : sumSqTo k b' = ‖u‖ ^ 2 := by
    rw [← hsq]
    refine Finset.sum_congr rfl fun j hj => ?_
    simp [ext, mem_range.mp hj, u]
  have hgu : sumSq (applyCols A k b') = g u := by
    have : applyCols A k b' = applyCols A k (ext u) := by
      funext i
      refine Finset.sum_congr rfl fun j hj => ?_
      simp [ext, mem_range.mp hj, u]
    rw [this]
  rw [hu, hgu]
  by_cases h0 : u = 0
  · rw [h0, norm_zero]
    simp only [ne_eq, OfNat.ofNat_ne_zero, not_false_eq_true, zero_pow, mul_zero]
    exact sumSq_nonneg _
  · have hn : ‖u‖ ≠ 0 := norm_ne_zero_iff.mpr h0
    have hs : (‖u‖⁻¹ • u) ∈ Metric.sphere (0 : EuclideanSpace ℝ (Fin k)) 1 := by
      simp [norm_smul, hn]
    have h1 : g v ≤ g (‖u‖⁻¹ • u) := hmin hs
    have h2 : g (‖u‖⁻¹ • u) = (‖u‖⁻¹) ^ 2 * g u := by
      simp only [g, sumSq, happ]
      rw [Finset.mul_sum]
      refine Finset.sum_congr rfl fun i _ => ?_
      have : ∑ j : Fin k, A j i * (‖u‖⁻¹ • u) j = ‖u‖⁻¹ * ∑ j : Fin k, A j i * u j := by
        rw [Finset.mul_sum]
        exact Finset.sum_congr rfl fun j _ => by simp; ring
      rw [this]; ring
    rw [h2] at h1
    have hpos : 0 < ‖u‖ ^ 2 := by positivity
    calc sumSq (applyCols A k (ext v)) * ‖u‖ ^ 2 ≤ (‖u‖⁻¹) ^ 2 * g u * ‖u‖ ^ 2 :=
          mul_le_mul_of_nonneg_right h1 hpos.le
      _ = g u := by field_simp

/-- A triangular system with no zero on the diagonal has a solution. -/
theorem exists_tri {K : Type} [Field K] (R : ℕ → ℕ → K) (k : ℕ) (x : ℕ → K) (hu : ∀ l < k, ∀ j < l, R l j = 0)
    (hd : ∀ l < k, R l l ≠ 0) : ∃ a : ℕ → K, ∀ l < k, ∑ j ∈ range k, R l j * a j = x l := by
  classical
  let M : Matrix (Fin k) (Fin k) K := fun a b => R a b
  have hM : M.BlockTriangular id := fun a b hab => hu a a.2 b hab
  have hdet : IsUnit M.det := by
    rw [Matrix.det_of_isUpperTriangular hM, isUnit_iff_ne_zero]
    exact Finset.prod_ne_zero_iff.mpr fun l _ => hd l l.2
  let v : Fin k → K := M⁻¹.mulVec fun l => x l
  have hv : M.mulVec v = fun l : Fin k => x l := by
    simp only [v, Matrix.mulVec_mulVec, Matrix.mul_nonsing_inv M hdet, Matrix.one_mulVec]
  refine ⟨fun j => if h : j < k then v ⟨j, h⟩ else 0, fun l hl => ?_⟩
  have := congrFun hv ⟨l, hl⟩
  simp only [Matrix.mulVec, dotProduct, M] at this
  rw [Finset.sum_range, ← this]
  exact Finset.sum_congr rfl fun j _ => by simp

/-- Over the real numbers there is linear algebra with all that is promised of it. -/
theorem exists_sound : ∃ la : LinAlg ℝ ι, la.Sound ∧ la.Converges := by
  classical
  refine ⟨⟨fun P k => if h : k ≤ Fintype.card ι then (exists_qr P k h).choose else (P, fun _ _ => 0),
    fun A k => if h : 0 < k then .ok (exists_least A k h).choose else .error .linAlgError,
    fun R k x => if h : ∃ a : ℕ → ℝ, ∀ l < k, ∑ j ∈ range k, R l j * a j = x l then .ok h.choose
      else .error .linAlgError⟩, ⟨?_, ?_, ?_, ?_, ?_, ?_, ?_, ?_, ?_⟩, ?_⟩
  · intro P k hk
    simp only [hk, dif_pos]
    exact (exists_qr P k hk).choose_spec.1
  · intro P k hk
    simp only [hk, dif_pos]
    exact (exists_qr P k hk).choose_spec.2.1
  · intro P k hk
    simp only [hk, dif_pos]
    exact (exists_qr P k hk).choose_spec.2.2
  · intro A k b h
    dsimp only at h
    split at h
    · next hk =>
      rw [← Except.ok.inj h]
      exact (exists_least A k hk).choose_spec.1
    · cases h
  · intro A k b _ h
    dsimp only at h
    split at h
    · next hk =>
      rw [← Except.ok.inj h]
      exact (exists_least A k hk).choose_spec.2
    · cases h
  · intro A k e h
    dsimp only at h
    split at h
    · cases h
    · exact (Except.error.inj h).symm
  · intro R k x a h
    dsimp only at h
    split at h
    · next hk =>
      rw [← Except.ok.inj h]
      exact hk.choose_spec
    · cases h
  · intro R k x hu hd
    dsimp only
    rw [dif_pos (exists_tri R k x hu hd)]
    exact ⟨_, rfl⟩
  · intro R k x e h
    dsimp only at h
    split at h
    · cases h
    · exact (Except.error.inj h).symm
  · intro A k hk
    dsimp only
    rw [dif_pos hk]
    exact ⟨_, rfl⟩

end GwEcc
