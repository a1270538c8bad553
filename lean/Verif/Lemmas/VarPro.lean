import Verif.Spec.VarPro
import Verif.Lemmas.RationalFit
import Verif.Props.RationalFit
import Mathlib.Algebra.Polynomial.Roots
import Mathlib.Algebra.Polynomial.FieldDivision
import Mathlib.LinearAlgebra.Matrix.ToLinearEquiv
import Mathlib.LinearAlgebra.Matrix.Block

/-!
# Lemmas on variable projection
-/

set_option linter.unusedSectionVars false

namespace GwEcc

open Finset Polynomial

variable {K ι : Type} [Field K] [LinearOrder K] [IsStrictOrderedRing K] [Fintype ι]

/-! ## Least squares -/

theorem sumSq_nonneg (v : ι → K) : 0 ≤ sumSq v := Finset.sum_nonneg fun i _ => mul_self_nonneg (v i)

theorem sumSq_zero {v : ι → K} (h : sumSq v ≤ 0) (i : ι) : v i = 0 := by
  have h0 : sumSq v = 0 := le_antisymm h (sumSq_nonneg v)
  have := (Finset.sum_eq_zero_iff_of_nonneg fun i _ => mul_self_nonneg (v i)).mp h0 i (mem_univ i)
  exact mul_self_eq_zero.mp this

/-- `Q_P Q_P^T u` for a matrix with `k` columns. -/
def ontoCols (QP : ℕ → ι → K) (k : ℕ) (u : ι → K) : ι → K := fun i => ∑ l ∈ range k, QP l i * ∑ i', QP l i' * u i'

theorem apply_projected (QP : ℕ → ι → K) (k : ℕ) (y : ι → K) (Q : ℕ → ι → K) (n : ℕ) (b : ℕ → K) (i : ι) :
    applyCols (projected QP k y Q) n b i =
      y i * applyCols Q n b i - ontoCols QP k (fun i => y i * applyCols Q n b i) i := by
  unfold applyCols projected ontoCols
  simp only [sub_mul, Finset.sum_sub_distrib, Finset.mul_sum, Finset.sum_mul]
  congr 1
  · exact Finset.sum_congr rfl fun j _ => by ring
  · rw [Finset.sum_comm]
    refine Finset.sum_congr rfl fun l _ => ?_
    rw [Finset.sum_comm]
    exact Finset.sum_congr rfl fun i' _ => Finset.sum_congr rfl fun j _ => by ring

/-- Combinations of orthonormal columns are left alone by the projection. -/
theorem ontoCols_self {QP : ℕ → ι → K} {k : ℕ}
    (ho : ∀ a < k, ∀ b < k, ∑ i, QP a i * QP b i = if a = b then 1 else 0) (c : ℕ → K) :
    ontoCols QP k (applyCols QP k c) = applyCols QP k c := by
  funext i
  unfold ontoCols applyCols
  refine Finset.sum_congr rfl fun l hl => ?_
  congr 1
  simp only [Finset.mul_sum]
  rw [Finset.sum_comm]
  have : ∀ j ∈ range k, ∑ i', QP l i' * (QP j i' * c j) = if l = j then c j else 0 := by
    intro j hj
    have := ho l (mem_range.mp hl) j (mem_range.mp hj)
    rw [show ∑ i', QP l i' * (QP j i' * c j) = (∑ i', QP l i' * QP j i') * c j by
      rw [Finset.sum_mul]; exact Finset.sum_congr rfl fun _ _ => by ring, this]
    split <;> simp
  rw [Finset.sum_congr rfl this, Finset.sum_ite_eq, if_pos hl]

/-- Pythagoras: what is left after projecting is shortest. -/
theorem ontoCols_least {QP : ℕ → ι → K} {k : ℕ}
    (ho : ∀ a < k, ∀ b < k, ∑ i, QP a i * QP b i = if a = b then 1 else 0) (u : ι → K) (c : ℕ → K) :
    sumSq (fun i => u i - ontoCols QP k u i) ≤ sumSq (fun i => u i - applyCols QP k c i) := by
  -- orthogonality of the remainder to the columns
  have hperp : ∀ l ∈ range k, ∑ i, QP l i * (u i - ontoCols QP k u i) = 0 := by
    intro l hl
    have h1 : ∑ i, QP l i * ontoCols QP k u i = ∑ i, QP l i * u i := by
      unfold ontoCols
      simp only [Finset.mul_sum (range k)]
      rw [Finset.sum_comm]
      have : ∀ j ∈ range k, ∑ i', QP l i' * (QP j i' * ∑ i, QP j i * u i) =
          if l = j then ∑ i, QP j i * u i else 0 := by
        intro j hj
        have := ho l (mem_range.mp hl) j (mem_range.mp hj)
        rw [show ∑ i', QP l i' * (QP j i' * ∑ i, QP j i * u i) = (∑ i', QP l i' * QP j i') * ∑ i, QP j i * u i by
          rw [Finset.sum_mul]; exact Finset.sum_congr rfl fun _ _ => by ring, this]
        split <;> simp
      rw [Finset.sum_congr rfl this, Finset.sum_ite_eq, if_pos hl]
    simp only [mul_sub, Finset.sum_sub_distrib, h1, sub_self]
  have hcross : ∀ d : ℕ → K, ∑ i, (u i - ontoCols QP k u i) * applyCols QP k d i = 0 := by
    intro d
    unfold applyCols
    simp only [Finset.mul_sum]
    rw [Finset.sum_comm]
    refine Finset.sum_eq_zero fun l hl => ?_
    rw [show ∑ i, (u i - ontoCols QP k u i) * (QP l i * d l) = (∑ i, QP l i * (u i - ontoCols QP k u i)) * d l by
      rw [Finset.sum_mul]; exact Finset.sum_congr rfl fun _ _ => by ring, hperp l hl, zero_mul]
  have hd : ∀ i, u i - applyCols QP k c i =
      (u i - ontoCols QP k u i) + applyCols QP k (fun l => (∑ i', QP l i' * u i') - c l) i := by
    intro i
    simp only [applyCols, ontoCols, mul_sub, Finset.sum_sub_distrib]
    ring
  have : sumSq (fun i => u i - applyCols QP k c i) = sumSq (fun i => u i - ontoCols QP k u i) +
      sumSq (applyCols QP k (fun l => (∑ i', QP l i' * u i') - c l)) := by
    unfold sumSq
    rw [← Finset.sum_add_distrib]
    have h2 := hcross (fun l => (∑ i', QP l i' * u i') - c l)
    have : ∀ i, (u i - applyCols QP k c i) * (u i - applyCols QP k c i) =
        (u i - ontoCols QP k u i) * (u i - ontoCols QP k u i) +
        applyCols QP k (fun l => (∑ i', QP l i' * u i') - c l) i *
          applyCols QP k (fun l => (∑ i', QP l i' * u i') - c l) i +
        2 * ((u i - ontoCols QP k u i) * applyCols QP k (fun l => (∑ i', QP l i' * u i') - c l) i) := by
      intro i; rw [hd i]; ring
    rw [Finset.sum_congr rfl fun i _ => this i, Finset.sum_add_distrib, ← Finset.mul_sum, h2]
    ring
  rw [this]
  exact le_add_of_nonneg_right (sumSq_nonneg _)

/-- Columns of a product. -/
theorem applyCols_product {QP P : ℕ → ι → K} {R : ℕ → ℕ → K} {k : ℕ}
    (hp : ∀ j < k, ∀ i, ∑ l ∈ range k, QP l i * R l j = P j i) (a : ℕ → K) :
    applyCols P k a = applyCols QP k fun l => ∑ j ∈ range k, R l j * a j := by
  funext i
  unfold applyCols
  simp only [Finset.mul_sum]
  rw [Finset.sum_comm]
  refine Finset.sum_congr rfl fun j hj => ?_
  rw [← hp j (mem_range.mp hj) i, Finset.sum_mul]
  exact Finset.sum_congr rfl fun l _ => by ring

theorem combine_eq_applyCols (V : ℕ → ι → K) (d : ℕ) (c : ℕ → K) (i : ι) :
    combine (fun j => V j i) d c = applyCols V (d + 1) c i := rfl

/-- What `solveVarpro` returns. -/
theorem solveVarpro_ok {la : LinAlg K ι} (hla : la.Sound) {y : ι → K} {m n : ℕ} {V : ℕ → ι → K} {a b : ℕ → K}
    (h : solveVarpro la y m n V = .ok (a, b)) :
    m + 1 ≤ Fintype.card ι ∧ la.svd (projected (la.qr V (m + 1)).1 (m + 1) y V) (n + 1) = .ok b ∧
      applyCols V (m + 1) a = ontoCols (la.qr V (m + 1)).1 (m + 1) (fun i => y i * applyCols V (n + 1) b i) := by
  unfold solveVarpro at h
  obtain ⟨b', hb, h⟩ := bind_ok h
  dsimp only at h
  split at h
  · cases h
  · next hc =>
    have hc' : m + 1 ≤ Fintype.card ι := not_lt.mp hc
    obtain ⟨a', ha, h⟩ := bind_ok h
    have h := Except.ok.inj h
    injection h with h1 h2
    subst h1 h2
    rw [min_eq_left hc'] at hb
    refine ⟨hc', hb, ?_⟩
    rw [applyCols_product (hla.product V (m + 1) hc')]
    funext i
    unfold ontoCols applyCols
    refine Finset.sum_congr rfl fun l hl => ?_
    dsimp only
    rw [hla.tri_solves _ _ _ _ ha l (mem_range.mp hl)]
    rfl

/-! ## The basis functions -/

/-- The functions that the basis is evaluated with are polynomials of degree 0, 1, 2, … -/
theorem eval_poly {eps : K} (heps : 0 < eps) {H : ℕ → ℕ → K} {v0 : K} (hv : v0 ≠ 0) {al be : K} (hal : al ≠ 0) :
    ∀ d, (∀ k < d, eps < H (k + 1) k) → ∃ φ : ℕ → K[X], (∀ j ≤ d, (φ j).degree = j) ∧
      ∀ t, ((List.range d).foldl (evalStep eps H (al * t + be)) (fun c => if c = 0 then 1 / v0 else 0, false)).2 = false ∧
        ∀ j ≤ d, ((List.range d).foldl (evalStep eps H (al * t + be)) (fun c => if c = 0 then 1 / v0 else 0, false)).1 j =
          (φ j).eval t
  | 0, _ => by
    refine ⟨fun _ => C (1 / v0), fun j hj => ?_, fun t => ⟨rfl, fun j hj => ?_⟩⟩
    · obtain rfl : j = 0 := by omega
      rw [degree_C (one_div_ne_zero hv)]; rfl
    · obtain rfl : j = 0 := by omega
      simp
  | d + 1, hH => by
    obtain ⟨φ, hφ, he⟩ := eval_poly heps hv (be := be) hal d fun k hk => hH k (by omega)
    have hd := hH d (by omega)
    have hd0 : H (d + 1) d ≠ 0 := (heps.trans hd).ne'
    let ψ : K[X] := C (1 / H (d + 1) d) * (φ d * (C al * X + C be) - ∑ j ∈ range (d + 1), φ j * C (H j d))
    have hdeg1 : (φ d * (C al * X + C be)).degree = ((d + 1 : ℕ) : WithBot ℕ) := by
      rw [degree_mul, hφ d le_rfl, degree_linear hal]; rfl
    have hdeg2 : (∑ j ∈ range (d + 1), φ j * C (H j d)).degree < ((d + 1 : ℕ) : WithBot ℕ) := by
      refine lt_of_le_of_lt (degree_sum_le _ _) ?_
      rw [Finset.sup_lt_iff (by exact WithBot.bot_lt_coe _)]
      intro j hj
      have hj' := mem_range.mp hj
      refine lt_of_le_of_lt (degree_mul_le _ _) ?_
      rw [hφ j (by omega)]
      refine lt_of_le_of_lt (add_le_add_right degree_C_le _) ?_
      rw [add_zero]
      exact_mod_cast hj'
    have hψ : ψ.degree = ((d + 1 : ℕ) : WithBot ℕ) := by
      rw [degree_C_mul (one_div_ne_zero hd0), degree_sub_eq_left_of_degree_lt (by rw [hdeg1]; exact hdeg2), hdeg1]
    refine ⟨fun j => if j = d + 1 then ψ else φ j, fun j hj => ?_, fun t => ?_⟩
    · dsimp only
      split
      · next h => rw [h]; exact hψ
      · exact hφ j (by omega)
    · obtain ⟨h1, h2⟩ := he t
      rw [eval_succ]
      revert h1 h2
      generalize (List.range d).foldl (evalStep eps H (al * t + be)) (fun c => if c = 0 then 1 / v0 else 0, false) = E
      intro h1 h2
      unfold evalStep
      rw [h1]
      simp only [Bool.false_eq_true, if_false, not_lt_of_gt hd]
      refine ⟨trivial, fun j hj => ?_⟩
      split
      · simp only [ψ, eval_mul, eval_C, eval_sub, eval_add, eval_X, eval_finset_sum]
        rw [h2 d le_rfl, Finset.sum_congr rfl fun j hj => by rw [h2 j (by have := mem_range.mp hj; omega)]]
        ring
      · exact h2 j (by omega)

/-- Polynomials of degree 0, …, d generate all polynomials of degree at most d. -/
theorem exists_coeffs {φ : ℕ → K[X]} : ∀ d, (∀ j ≤ d, (φ j).degree = j) → ∀ p : K[X], p.natDegree ≤ d →
    ∃ c : ℕ → K, p = ∑ j ∈ range (d + 1), φ j * C (c j)
  | 0, hφ, p, hp => by
    have h0 : (φ 0).degree = 0 := by simpa using hφ 0 le_rfl
    obtain ⟨a, ha⟩ : ∃ a, φ 0 = C a := ⟨_, eq_C_of_degree_eq_zero h0⟩
    have ha0 : a ≠ 0 := by
      rintro rfl
      rw [ha] at h0; simp at h0
    refine ⟨fun _ => p.coeff 0 / a, ?_⟩
    rw [zero_add, Finset.sum_range_one, ha, ← C_mul, mul_div_cancel₀ _ ha0]
    exact eq_C_of_natDegree_le_zero hp
  | d + 1, hφ, p, hp => by
    have hd := hφ (d + 1) le_rfl
    have hnd : (φ (d + 1)).natDegree = d + 1 := natDegree_eq_of_degree_eq_some hd
    have hlc : (φ (d + 1)).coeff (d + 1) ≠ 0 := by
      intro h
      have h' : (φ (d + 1)).leadingCoeff = 0 := by rw [leadingCoeff, hnd, h]
      rw [leadingCoeff_eq_zero.mp h', natDegree_zero] at hnd; omega
    let a := p.coeff (d + 1) / (φ (d + 1)).coeff (d + 1)
    have hr : (p - φ (d + 1) * C a).natDegree ≤ d := by
      rw [natDegree_le_iff_coeff_eq_zero]
      intro N hN
      rw [coeff_sub, coeff_mul_C]
      rcases Nat.lt_or_ge (d + 1) N with h | h
      · rw [coeff_eq_zero_of_natDegree_lt (by omega), coeff_eq_zero_of_natDegree_lt (by omega), zero_mul, sub_zero]
      · obtain rfl : N = d + 1 := by omega
        rw [mul_div_cancel₀ _ hlc, sub_self]
    obtain ⟨c, hc⟩ := exists_coeffs d (fun j hj => hφ j (by omega)) _ hr
    refine ⟨fun j => if j = d + 1 then a else c j, ?_⟩
    dsimp only
    rw [Finset.sum_range_succ, if_pos rfl, Finset.sum_congr rfl fun j hj => by
      rw [if_neg (by have := mem_range.mp hj; omega)], ← hc]
    ring

/-- Combinations of polynomials of degree 0, …, d that vanish are trivial. -/
theorem coeffs_zero {φ : ℕ → K[X]} : ∀ d, (∀ j ≤ d, (φ j).degree = j) → ∀ c : ℕ → K,
    ∑ j ∈ range (d + 1), φ j * C (c j) = 0 → ∀ j ≤ d, c j = 0
  | 0, hφ, c, h, j, hj => by
    obtain rfl : j = 0 := by omega
    rw [zero_add, Finset.sum_range_one] at h
    rcases mul_eq_zero.mp h with h | h
    · have := hφ 0 le_rfl
      rw [h] at this; simp at this
    · exact C_eq_zero.mp h
  | d + 1, hφ, c, h, j, hj => by
    have hd := hφ (d + 1) le_rfl
    have hnd : (φ (d + 1)).natDegree = d + 1 := natDegree_eq_of_degree_eq_some hd
    have hlc : (φ (d + 1)).coeff (d + 1) ≠ 0 := by
      intro h
      have h' : (φ (d + 1)).leadingCoeff = 0 := by rw [leadingCoeff, hnd, h]
      rw [leadingCoeff_eq_zero.mp h', natDegree_zero] at hnd; omega
    have hc : c (d + 1) = 0 := by
      have := congrArg (fun p => p.coeff (d + 1)) h
      simp only [finsetSum_coeff, coeff_mul_C, coeff_zero] at this
      rw [Finset.sum_range_succ, Finset.sum_eq_zero, zero_add] at this
      · exact (mul_eq_zero.mp this).resolve_left hlc
      · intro l hl
        have hl' := mem_range.mp hl
        have : (φ l).natDegree = l := natDegree_eq_of_degree_eq_some (hφ l (by omega))
        rw [coeff_eq_zero_of_natDegree_lt (by omega), zero_mul]
    rcases Nat.lt_or_ge d j with hj' | hj'
    · obtain rfl : j = d + 1 := by omega
      exact hc
    · rw [Finset.sum_range_succ, hc, C_0, mul_zero, add_zero] at h
      exact coeffs_zero d (fun j hj => hφ j (by omega)) c h j hj'

theorem natDegree_comb {φ : ℕ → K[X]} {d : ℕ} (hφ : ∀ j ≤ d, (φ j).degree = j) (c : ℕ → K) :
    (∑ j ∈ range (d + 1), φ j * C (c j)).natDegree ≤ d := by
  refine natDegree_sum_le_of_forall_le _ _ fun j hj => ?_
  have hj' := mem_range.mp hj
  refine (natDegree_mul_C_le _ _).trans ?_
  rw [natDegree_eq_of_degree_eq_some (hφ j (by omega))]; omega

/-- A polynomial with more zeros than its degree vanishes. -/
theorem poly_zero_of_nodes {p : K[X]} {x : ι → K} (hx : Function.Injective x) (hp : p.natDegree < Fintype.card ι)
    (h : ∀ i, p.eval (x i) = 0) : p = 0 := by
  classical
  refine Polynomial.eq_zero_of_natDegree_lt_card_of_eval_eq_zero p hx h hp

/-- The fundamental lemma: a quotient that agrees with `p/q`, in lowest terms and of full degree, at more than `m + n`
points is `(c p)/(c q)`. -/
theorem rational_unique {p q p' q' : K[X]} {m n : ℕ} {x : ι → K} (hx : Function.Injective x)
    (hpm : p.natDegree ≤ m) (hqn : q.natDegree ≤ n) (hp'm : p'.natDegree ≤ m) (hq'n : q'.natDegree ≤ n)
    (hfull : p.degree = m ∨ q.degree = n) (hcop : IsCoprime p q) (hq' : q' ≠ 0) (hcard : m + n < Fintype.card ι)
    (h : ∀ i, p'.eval (x i) * q.eval (x i) = p.eval (x i) * q'.eval (x i)) :
    ∃ c : K, c ≠ 0 ∧ p' = C c * p ∧ q' = C c * q := by
  have h0 : p' * q - p * q' = 0 := by
    refine poly_zero_of_nodes hx (lt_of_le_of_lt (natDegree_sub_le _ _) ?_) fun i => by
      simp [h i]
    refine lt_of_le_of_lt (max_le ?_ ?_) hcard
    · exact natDegree_mul_le.trans (by omega)
    · exact natDegree_mul_le.trans (by omega)
  have h1 : p' * q = p * q' := sub_eq_zero.mp h0
  obtain ⟨g, hg⟩ : q ∣ q' := hcop.symm.dvd_of_dvd_mul_left ⟨p', by rw [← h1]; ring⟩
  have hq : q ≠ 0 := by rintro rfl; rw [zero_mul] at hg; exact hq' hg
  have hg0 : g ≠ 0 := by rintro rfl; rw [mul_zero] at hg; exact hq' hg
  have hp' : p' = p * g := mul_right_cancel₀ hq (by rw [h1, hg]; ring)
  have hdeg : g.natDegree = 0 := by
    rcases hfull with hf | hf
    · have hp : p ≠ 0 := by rintro rfl; simp at hf
      have := natDegree_mul hp hg0
      rw [← hp', natDegree_eq_of_degree_eq_some hf] at this
      omega
    · have := natDegree_mul hq hg0
      rw [← hg, natDegree_eq_of_degree_eq_some hf] at this
      omega
  obtain ⟨c, rfl⟩ : ∃ c, g = C c := ⟨_, eq_C_of_natDegree_eq_zero hdeg⟩
  exact ⟨c, fun hc => hg0 (by rw [hc, C_0]), by rw [hp', mul_comm], by rw [hg, mul_comm]⟩

/-- The first of the iterates with the smallest residual. -/
theorem bestOf_first : ∀ (h : Iterate K ι) (l : List (Iterate K ι)), (∀ z ∈ l, h.resNorm ≤ z.resNorm) → bestOf h l = h
  | _, [], _ => rfl
  | h, h' :: l, hl => by
    rw [bestOf, if_neg (not_lt.mpr (hl h' (by simp)))]
    exact bestOf_first h l fun z hz => hl z (List.mem_cons_of_mem _ hz)

/-- As long as the linear algebra fails with `LinAlgError` only, the iteration does not fail. -/
theorem skLoop_total {nrm : (ι → K) → K} {eps tol : K} {xs y : ι → K} {m n : ℕ}
    {solve : (ℕ → ι → K) → Py ((ℕ → K) × (ℕ → K))} (hs : ∀ V e, solve V = .error e → e = .linAlgError) :
    ∀ (left : ℕ) (q rOld : ι → K) (hist : List (Iterate K ι)),
      ∃ hist', skLoop nrm eps tol xs y m n solve left q rOld hist = .ok hist'
  | 0, _, _, hist => ⟨hist, rfl⟩
  | left + 1, q, rOld, hist => by
    rw [skLoop]
    split
    · exact ⟨_, rfl⟩
    · next e he h =>
      exfalso
      unfold skIterate at h
      dsimp only at h
      split at h
      · next e' he' =>
        have := Except.error.inj h
        subst this
        exact he (hs _ _ he')
      · cases h
    · split
      · exact ⟨_, rfl⟩
      · exact skLoop_total hs left _ _ _

theorem solveVarpro_error {la : LinAlg K ι} (hla : la.Sound) {y : ι → K} {m n : ℕ} (hc : m + 1 ≤ Fintype.card ι)
    (V : ℕ → ι → K) (e : Err) (h : solveVarpro la y m n V = .error e) : e = .linAlgError := by
  unfold solveVarpro at h
  dsimp only at h
  cases hb : la.svd (projected (la.qr V (m + 1)).1 (min (m + 1) (Fintype.card ι)) y V) (n + 1) with
  | error e' =>
    rw [hb] at h
    have := Except.error.inj h
    exact this ▸ hla.svd_error _ _ _ hb
  | ok b =>
    rw [hb, ok_bind, if_neg (not_lt.mpr hc)] at h
    cases ha : la.tri (la.qr V (m + 1)).2 (m + 1)
        (fun l => ∑ i, (la.qr V (m + 1)).1 l i * (y i * combine (fun j => V j i) n b)) with
    | error e' =>
      rw [ha] at h
      have := Except.error.inj h
      exact this ▸ hla.tri_error _ _ _ _ ha
    | ok a => rw [ha] at h; cases h

/-- A basis built without breakdown. -/
theorem arnoldi_not_stopped {nrm : (ι → K) → K} {eps : K} {x w : ι → K} :
    ∀ d, (arnoldiBasis nrm eps x d w).stopped = false → ∀ k < d, eps < (arnoldiBasis nrm eps x d w).H (k + 1) k
  | 0, _, k, hk => by omega
  | d + 1, h, k, hk => by
    have hd : (arnoldiBasis nrm eps x d w).stopped = false := by
      by_contra hne
      rw [arnoldi_succ] at h
      unfold arnoldiStep at h
      rw [if_pos (by simpa using hne)] at h
      exact hne h
    rcases Nat.lt_or_ge k d with h' | h'
    · rw [arnoldi_H_later (Nat.le_succ d) h']
      exact arnoldi_not_stopped d hd k h'
    · obtain rfl : k = d := by omega
      rw [arnoldi_succ] at h ⊢
      unfold arnoldiStep at h ⊢
      rw [hd] at h ⊢
      simp only [Bool.false_eq_true, if_false] at h ⊢
      split at h
      · next hgt =>
        rw [if_pos hgt]
        simp only [if_true]
        rw [if_neg (by omega)]
        exact hgt
      · cases h

/-- A triangular matrix with a zero on the diagonal has a kernel. -/
theorem tri_kernel {R : ℕ → ℕ → K} {k : ℕ} (hu : ∀ j < k, ∀ l < k, j < l → R l j = 0) {l : ℕ} (hl : l < k)
    (h0 : R l l = 0) : ∃ c : ℕ → K, (∃ j < k, c j ≠ 0) ∧ ∀ l < k, ∑ j ∈ range k, R l j * c j = 0 := by
  classical
  let M : Matrix (Fin k) (Fin k) K := fun a b => R a b
  have hM : M.BlockTriangular id := fun a b hab => hu b b.2 a a.2 hab
  have hdet : M.det = 0 := by
    rw [Matrix.det_of_isUpperTriangular hM]
    exact Finset.prod_eq_zero (mem_univ (⟨l, hl⟩ : Fin k)) h0
  obtain ⟨v, hv, hv0⟩ := Matrix.exists_mulVec_eq_zero_iff.mpr hdet
  refine ⟨fun j => if h : j < k then v ⟨j, h⟩ else 0, ?_, fun l hl => ?_⟩
  · obtain ⟨j, hj⟩ := Function.ne_iff.mp hv
    exact ⟨j, j.2, by simpa using hj⟩
  · have := congrFun hv0 ⟨l, hl⟩
    simp only [Matrix.mulVec, dotProduct, Pi.zero_apply, M] at this
    rw [Finset.sum_range, ← this]
    exact Finset.sum_congr rfl fun j _ => by simp

end GwEcc
