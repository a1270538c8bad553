import Verif.Lemmas.VarProReal
import Mathlib.Tactic.NormNum
import Mathlib.Tactic.FinCases
import Mathlib.Tactic.Linarith

/-!
# Properties of the rational fit with its linear algebra: C93
-/

set_option linter.unusedSectionVars false

namespace GwEcc

open Finset Polynomial

variable {K ι : Type} [Field K] [LinearOrder K] [IsStrictOrderedRing K] [Fintype ι]

/-- Variable projection solves the linearized problem: the denominator coefficients have norm 1, and among all numerators
and all denominators (relative to the norm of their coefficients) none makes `y q - p` smaller in the sense of least
squares. -/
theorem C93_optimal (la : LinAlg K ι) (hla : la.Sound) (y : ι → K) (m n : ℕ) (V : ℕ → ι → K) (a b : ℕ → K)
    (hn : n + 1 ≤ Fintype.card ι) (h : solveVarpro la y m n V = .ok (a, b)) :
    sumSqTo (n + 1) b = 1 ∧ ∀ a' b' : ℕ → K,
      sumSq (fun i => y i * applyCols V (n + 1) b i - applyCols V (m + 1) a i) * sumSqTo (n + 1) b' ≤
        sumSq (fun i => y i * applyCols V (n + 1) b' i - applyCols V (m + 1) a' i) := by
  obtain ⟨hm, hb, ha⟩ := solveVarpro_ok hla h
  refine ⟨hla.svd_unit _ _ _ hb, fun a' b' => ?_⟩
  have h1 := hla.svd_least _ _ _ hn hb b'
  have e : ∀ c, applyCols (projected (la.qr V (m + 1)).1 (m + 1) y V) (n + 1) c = fun i =>
      y i * applyCols V (n + 1) c i -
        ontoCols (la.qr V (m + 1)).1 (m + 1) (fun i => y i * applyCols V (n + 1) c i) i :=
    fun c => funext fun i => apply_projected _ _ _ _ _ _ _
  rw [e, e] at h1
  rw [ha]
  refine h1.trans ?_
  rw [applyCols_product (hla.product V (m + 1) hm) a']
  exact ontoCols_least (hla.ortho V (m + 1) hm) _ _

theorem scaleX_linear {lo hi : K} (h : lo < hi) (t : K) :
    scaleX lo hi t = 2 / (hi - lo) * t + (-(2 * lo / (hi - lo)) - 1) := by
  have : hi - lo ≠ 0 := (sub_pos.mpr h).ne'
  unfold scaleX
  field_simp
  ring

/-- The nodes, scaled as the fit scales them. -/
def scaledNodes [Nonempty ι] (x : ι → K) : ι → K :=
  fun i => scaleX (univ.inf' univ_nonempty x) (univ.sup' univ_nonempty x) (x i)

/-- A rational function is recovered from its values: if the data are the values of `p/q`, in lowest terms, of degrees at
most `(m, n)` one of which is attained, at more than `m + n` distinct points that are not poles, then the fit succeeds,
whatever the norm, the tolerance and the number of iterations, and its value at every point of the line, node or not, is
the value of `p/q`; only at the poles of `p/q` there is none.  The basis must not break down, and the singular value
decomposition must converge. -/
theorem C93_recovers [Nontrivial ι] (la : LinAlg K ι) (hla : la.Sound) (hconv : la.Converges) (nrm : (ι → K) → K)
    (hnonneg : ∀ v, 0 ≤ nrm v) (hzero : ∀ v, nrm v = 0 ↔ v = 0) (eps tol : K) (heps : 0 < eps) (x y : ι → K)
    (hx : Function.Injective x) (m n : ℕ) (hcard : m + n < Fintype.card ι) (p q : K[X]) (hp : p.natDegree ≤ m)
    (hq : q.natDegree ≤ n) (hfull : p.degree = m ∨ q.degree = n) (hcop : IsCoprime p q)
    (hpole : ∀ i, q.eval (x i) ≠ 0) (hy : ∀ i, y i = p.eval (x i) / q.eval (x i))
    (hB : (arnoldiBasis nrm eps (scaledNodes x) (max m n) fun _ => 1).stopped = false) (maxIterations : ℕ)
    (hmax : 0 < maxIterations) :
    ∃ f, rationalFitVarpro la nrm eps tol x y m n maxIterations = .ok f ∧
      ∀ t, callFit eps (some f) t =
        if q.eval t = 0 then .error .zeroDivisionError else .ok (p.eval t / q.eval t) := by
  set lo := univ.inf' univ_nonempty x with hlo
  set hi := univ.sup' univ_nonempty x with hhi
  have hlohi : lo < hi := by
    obtain ⟨i, j, hij⟩ := exists_pair_ne ι
    rcases lt_or_gt_of_ne (fun h => hij (hx h)) with h | h
    · exact (inf'_le x (mem_univ i)).trans_lt (h.trans_le (le_sup' x (mem_univ j)))
    · exact (inf'_le x (mem_univ j)).trans_lt (h.trans_le (le_sup' x (mem_univ i)))
  have hal : 2 / (hi - lo) ≠ 0 := div_ne_zero two_ne_zero (sub_pos.mpr hlohi).ne'
  have hH := arnoldi_not_stopped _ hB
  set B := arnoldiBasis nrm eps (scaledNodes x) (max m n) fun _ => 1 with hBdef
  have hv0 : nrm (fun _ : ι => (1 : K)) ≠ 0 := by
    intro h
    obtain ⟨i⟩ : Nonempty ι := inferInstance
    have := congrFun ((hzero _).mp h) i
    simp at this
  obtain ⟨φ, hφ, hev⟩ := eval_poly heps hv0 (be := -(2 * lo / (hi - lo)) - 1) hal (max m n) hH
  have hE : ∀ t, ∀ j ≤ max m n, evalArnoldi eps (scaleX lo hi t) B.H (max m n) (nrm fun _ => 1) j = (φ j).eval t := by
    intro t j hj
    rw [scaleX_linear hlohi]
    exact (hev t).2 j hj
  have hV : ∀ i, ∀ j ≤ max m n, B.V j i = (φ j).eval (x i) := by
    intro i j hj
    rw [← hE (x i) j hj, ← C33_basis nrm eps heps (scaledNodes x) (fun _ => 1) (max m n) (fun k hk => (hH k hk).ne') i j,
      mul_one]
    rfl
  have hmm : m ≤ max m n := le_max_left _ _
  have hnm : n ≤ max m n := le_max_right _ _
  have hφm : ∀ j ≤ m, (φ j).degree = j := fun j hj => hφ j (hj.trans hmm)
  have hφn : ∀ j ≤ n, (φ j).degree = j := fun j hj => hφ j (hj.trans hnm)
  have hcols : ∀ d ≤ max m n, ∀ c i, applyCols B.V (d + 1) c i =
      (∑ j ∈ range (d + 1), φ j * C (c j)).eval (x i) := by
    intro d hd c i
    rw [eval_finset_sum]
    refine Finset.sum_congr rfl fun j hj => ?_
    have := mem_range.mp hj
    rw [hV i j (by omega), eval_mul, eval_C]
  have hcomb : ∀ d ≤ max m n, ∀ c t, combine (evalArnoldi eps (scaleX lo hi t) B.H (max m n) (nrm fun _ => 1)) d c =
      (∑ j ∈ range (d + 1), φ j * C (c j)).eval t := by
    intro d hd c t
    rw [eval_finset_sum]
    refine Finset.sum_congr rfl fun j hj => ?_
    have := mem_range.mp hj
    rw [hE t j (by omega), eval_mul, eval_C]
  have hm1 : m + 1 ≤ Fintype.card ι := by omega
  have hn1 : n + 1 ≤ Fintype.card ι := by omega
  -- the linear algebra succeeds
  have hsolve : ∃ a b, solveVarpro la y m n B.V = .ok (a, b) := by
    obtain ⟨b, hb⟩ := hconv (projected (la.qr B.V (m + 1)).1 (min (m + 1) (Fintype.card ι)) y B.V) (n + 1)
      (Nat.succ_pos n)
    have hdiag : ∀ l < m + 1, (la.qr B.V (m + 1)).2 l l ≠ 0 := by
      intro l hl h0
      obtain ⟨c, ⟨j, hj, hcj⟩, hc⟩ := tri_kernel (hla.upper B.V (m + 1) hm1) hl h0
      have hz : ∀ i, applyCols B.V (m + 1) c i = 0 := by
        intro i
        rw [applyCols_product (hla.product B.V (m + 1) hm1)]
        exact Finset.sum_eq_zero fun l hl => by dsimp only; rw [hc l (mem_range.mp hl), mul_zero]
      have : ∑ j ∈ range (m + 1), φ j * C (c j) = 0 :=
        poly_zero_of_nodes hx (lt_of_le_of_lt (natDegree_comb hφm c) (by omega)) fun i => by rw [← hcols m hmm, hz]
      exact hcj (coeffs_zero m hφm c this j (by omega))
    obtain ⟨a, ha⟩ := hla.tri_succeeds (la.qr B.V (m + 1)).2 (m + 1)
      (fun l => ∑ i, (la.qr B.V (m + 1)).1 l i * (y i * combine (fun j => B.V j i) n b))
      (fun l hl j hj => hla.upper B.V (m + 1) hm1 j (by omega) l hl hj) hdiag
    refine ⟨a, b, ?_⟩
    unfold solveVarpro
    dsimp only
    rw [hb, ok_bind, if_neg (by omega), ha]
    rfl
  obtain ⟨a, b, hab⟩ := hsolve
  obtain ⟨hunit, hopt⟩ := C93_optimal la hla y m n B.V a b hn1 hab
  set p' := ∑ j ∈ range (m + 1), φ j * C (a j) with hp'
  set q' := ∑ j ∈ range (n + 1), φ j * C (b j) with hq'
  have hq'0 : q' ≠ 0 := by
    intro h
    have := coeffs_zero n hφn b h
    rw [sumSqTo, Finset.sum_eq_zero fun j hj => by
      rw [this j (by have := mem_range.mp hj; omega), mul_zero]] at hunit
    exact zero_ne_one hunit
  have hq0 : q ≠ 0 := by
    obtain ⟨i⟩ : Nonempty ι := inferInstance
    rintro rfl
    exact hpole i (by simp)
  -- the residual vanishes
  have hres : ∀ i, y i * q'.eval (x i) = p'.eval (x i) := by
    obtain ⟨a0, ha0⟩ := exists_coeffs m hφm p hp
    obtain ⟨b0, hb0⟩ := exists_coeffs n hφn q hq
    have hpos : 0 < sumSqTo (n + 1) b0 := by
      refine lt_of_le_of_ne (Finset.sum_nonneg fun j _ => mul_self_nonneg _) fun h => hq0 ?_
      have h' := (Finset.sum_eq_zero_iff_of_nonneg fun j _ => mul_self_nonneg (b0 j)).mp h.symm
      rw [hb0]
      exact Finset.sum_eq_zero fun j hj => by rw [mul_self_eq_zero.mp (h' j hj), C_0, mul_zero]
    have h2 := hopt a0 b0
    have h3 : (fun i => y i * applyCols B.V (n + 1) b0 i - applyCols B.V (m + 1) a0 i) = fun _ => 0 := by
      funext i
      rw [hcols n hnm, hcols m hmm, ← ha0, ← hb0, hy i, div_mul_cancel₀ _ (hpole i), sub_self]
    rw [h3, show sumSq (fun _ : ι => (0 : K)) = 0 by simp [sumSq]] at h2
    have h4 : sumSq (fun i => y i * applyCols B.V (n + 1) b i - applyCols B.V (m + 1) a i) ≤ 0 := by
      by_contra hne
      exact absurd (mul_pos (not_le.mp hne) hpos) (not_lt.mpr h2)
    intro i
    have := sumSq_zero h4 i
    rw [hcols n hnm, hcols m hmm] at this
    exact sub_eq_zero.mp this
  obtain ⟨c, hc, hpc, hqc⟩ := rational_unique hx hp hq (natDegree_comb hφm a) (natDegree_comb hφn b) hfull hcop hq'0 hcard
    (fun i => by
      rw [← hp', ← hq', ← hres i, hy i]
      have := hpole i
      field_simp)
  -- the first iterate
  have hq'i : ∀ i, q'.eval (x i) ≠ 0 := by
    intro i
    rw [hq', hqc, eval_mul, eval_C]
    exact mul_ne_zero hc (hpole i)
  have hw : (fun i : ι => (1 : K) / (fun _ : ι => (1 : K)) i) = fun _ => 1 := by funext i; simp
  obtain ⟨it, qn, hit, hita, hitb, hitv, hitH, hitr⟩ : ∃ it qn,
      skIterate nrm eps (scaledNodes x) y m n (solveVarpro la y m n) (fun _ => 1) (fun _ => 0) = .ok (it, qn) ∧
        it.a = a ∧ it.b = b ∧ it.v0 = nrm (fun _ => 1) ∧ it.H = B.H ∧ it.resNorm = 0 := by
    unfold skIterate
    dsimp only
    rw [show (fun _ : ι => (1 : K) / 1) = fun _ => 1 by funext i; simp, ← hBdef, hab]
    refine ⟨_, _, rfl, rfl, rfl, rfl, rfl, (hzero _).mpr ?_⟩
    funext i
    rw [combine_eq_applyCols, combine_eq_applyCols, hcols m hmm, hcols n hnm, ← hp', ← hq', ← hres i,
      mul_div_assoc, div_self (hq'i i), mul_one, sub_self]
    rfl
  have hbest : ∃ new, skLoop nrm eps tol (scaledNodes x) y m n (solveVarpro la y m n) maxIterations
      (fun _ => 1) (fun _ => 0) [] = .ok (it :: new) ∧ bestOf it new = it := by
    obtain ⟨N, rfl⟩ : ∃ N, maxIterations = N + 1 := ⟨maxIterations - 1, by omega⟩
    rw [skLoop, hit]
    dsimp only
    split
    · exact ⟨[], rfl, rfl⟩
    · obtain ⟨hist', hh⟩ := skLoop_total (nrm := nrm) (eps := eps) (tol := tol) (xs := scaledNodes x) (y := y) (m := m)
        (n := n) (solveVarpro_error hla hm1) N qn it.r ([] ++ [it])
      obtain ⟨new, h1, -, h3, -⟩ := skLoop_spec _ _ _ _ _ (skIterate_q hit) hh
      refine ⟨new, by rw [hh, h1]; rfl, bestOf_first it new fun z hz => ?_⟩
      obtain ⟨q1, r1, q2, -, hz'⟩ := h3 z hz
      rw [hitr]
      unfold skIterate at hz'
      dsimp only at hz'
      split at hz'
      · cases hz'
      · injection hz' with hz'
        injection hz' with hz1 hz2
        subst hz1
        exact hnonneg _
  obtain ⟨new, hloop, hnew⟩ := hbest
  refine ⟨⟨m, n, lo, hi, it, it :: new⟩, ?_, fun t => ?_⟩
  · unfold rationalFitVarpro rationalFit
    dsimp only
    unfold scaledNodes at hloop
    rw [hloop]
    simp only [hnew]
    rfl
  · have hnum : (⟨m, n, lo, hi, it, it :: new⟩ : Fitted K ι).numerator eps t = c * p.eval t := by
      unfold Fitted.numerator
      dsimp only
      rw [hitH, hitv, hita, hcomb m hmm, hpc, eval_mul, eval_C]
    have hden : (⟨m, n, lo, hi, it, it :: new⟩ : Fitted K ι).denominator eps t = c * q.eval t := by
      unfold Fitted.denominator
      dsimp only
      rw [hitH, hitv, hitb, hcomb n hnm, hqc, eval_mul, eval_C]
    unfold callFit Fitted.predict
    dsimp only
    rw [hnum, hden]
    by_cases ht : q.eval t = 0
    · rw [if_pos (by rw [ht, mul_zero]), if_pos ht]
    · rw [if_neg (mul_ne_zero hc ht), if_neg ht, mul_div_mul_left _ _ hc]

/-- A fit that has not been computed has no value: evaluating it raises `ValueError`. -/
theorem C93_unfitted (eps t : K) : callFit eps (none : Option (Fitted K ι)) t = .error .valueError := rfl

/-! ## A case: `1/(t + 1)` from its values at 0, 1, 2, with the Euclidean norm -/

namespace VarProDemo

/-- `np.linalg.norm` -/
noncomputable def nrm (v : Fin 3 → ℝ) : ℝ := Real.sqrt (∑ i, v i * v i)

noncomputable def x : Fin 3 → ℝ := ![0, 1, 2]

theorem nodes : scaledNodes x = ![-1, 0, 1] := by
  have h1 : univ.inf' univ_nonempty x = 0 :=
    le_antisymm (Finset.inf'_le x (mem_univ 0)) (Finset.le_inf' _ _ fun i _ => by fin_cases i <;> simp [x])
  have h2 : univ.sup' univ_nonempty x = 2 :=
    le_antisymm (Finset.sup'_le _ _ fun i _ => by fin_cases i <;> simp [x]) (Finset.le_sup' x (mem_univ 2))
  funext i
  unfold scaledNodes
  rw [h1, h2]
  fin_cases i <;> simp [x, scaleX] <;> norm_num

theorem no_breakdown : (arnoldiBasis nrm 1e-14 (scaledNodes x) (max 0 1) fun _ => 1).stopped = false := by
  have hs : nrm (fun _ => 1) = Real.sqrt 3 := by
    unfold nrm
    congr 1
    simp
  rw [nodes, show max 0 1 = 0 + 1 from rfl, arnoldi_succ]
  have h3 : Real.sqrt 3 * Real.sqrt 3 = 3 := Real.mul_self_sqrt (by norm_num)
  have h0 : Real.sqrt 3 ≠ 0 := by intro h; rw [h] at h3; norm_num at h3
  simp only [arnoldiBasis, List.range_zero, List.foldl_nil]
  unfold arnoldiStep
  simp only [arnoldiInit, Bool.false_eq_true, if_false, if_true, hs]
  have hgt : ∀ v : Fin 3 → ℝ, 1e-14 < |v 2| → nrm v > 1e-14 := by
    intro v hv
    refine lt_of_lt_of_le hv ?_
    unfold nrm
    rw [← Real.sqrt_mul_self_eq_abs]
    refine Real.sqrt_le_sqrt ?_
    rw [Fin.sum_univ_three]
    nlinarith [mul_self_nonneg (v 0), mul_self_nonneg (v 1)]
  rw [if_pos]
  refine hgt _ ?_
  have hle : Real.sqrt 3 ≤ 2 := by
    rw [show (2 : ℝ) = Real.sqrt (2 * 2) by rw [Real.sqrt_mul_self (by norm_num)]]
    exact Real.sqrt_le_sqrt (by norm_num)
  have hpos : 0 < Real.sqrt 3 := lt_of_le_of_ne (Real.sqrt_nonneg _) h0.symm
  have hhalf : (1 : ℝ) / 2 ≤ 1 / Real.sqrt 3 := one_div_le_one_div_of_le hpos hle
  simp [subProj, proj, Fin.sum_univ_three]
  rw [one_div, one_div] at hhalf
  rw [abs_of_pos hpos]
  refine lt_of_lt_of_le ?_ hhalf
  norm_num

/-- The hypotheses are met, with the factorizations of the real numbers. -/
example : ∃ la : LinAlg ℝ (Fin 3), ∃ f, rationalFitVarpro la nrm 1e-14 1e-7 x ![1, 1 / 2, 1 / 3] 0 1 100 = .ok f ∧
    callFit 1e-14 (some f) 3 = .ok (1 / 4) ∧ callFit 1e-14 (some f) (-1) = .error .zeroDivisionError := by
  obtain ⟨la, h1, h2⟩ := exists_sound (ι := Fin 3)
  obtain ⟨f, hf, hv⟩ := C93_recovers la h1 h2 nrm (fun _ => Real.sqrt_nonneg _)
    (fun v => ⟨fun h => funext fun i => sumSq_zero (v := v) (by
        have := Real.sqrt_eq_zero (Finset.sum_nonneg fun i _ => mul_self_nonneg (v i)) |>.mp h
        exact le_of_eq this) i, fun h => by subst h; simp [nrm]⟩)
    1e-14 1e-7 (by norm_num) x ![1, 1 / 2, 1 / 3]
    (by intro i j h; fin_cases i <;> fin_cases j <;> simp [x] at h ⊢) 0 1 (by simp) 1 (X + C 1) (by simp)
    (by rw [natDegree_X_add_C]) (Or.inr (by rw [degree_X_add_C]; rfl)) isCoprime_one_left
    (by intro i; fin_cases i <;> simp [x] <;> norm_num)
    (by intro i; fin_cases i <;> simp [x] <;> norm_num) no_breakdown 100 (by norm_num)
  refine ⟨la, f, hf, ?_, ?_⟩
  · rw [hv, if_neg (by simp; norm_num)]
    congr 1
    simp; norm_num
  · rw [hv, if_pos (by simp)]

end VarProDemo

end GwEcc
