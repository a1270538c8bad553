import Verif.Props.Spline
import Mathlib.Analysis.Calculus.ContDiff.Basic
import Mathlib.Analysis.Calculus.ContDiff.Operations
import Mathlib.Analysis.Calculus.Deriv.Pow
import Mathlib.Analysis.Calculus.Deriv.Mul
import Mathlib.Analysis.Calculus.Deriv.Add
import Mathlib.Topology.Order.OrderClosed

/-!
# C116: the curve of the monotonic spline has no kinks
-/

namespace GwEcc

open Spec

theorem glue_hasDeriv {f g : ℝ → ℝ} (hf : Differentiable ℝ f) (hg : Differentiable ℝ g) {a : ℝ} (h0 : f a = g a)
    (h1 : deriv f a = deriv g a) (u : ℝ) :
    HasDerivAt (fun u => if a ≤ u then g u else f u) (if a ≤ u then deriv g u else deriv f u) u := by
  rcases lt_trichotomy u a with h | h | h
  · rw [if_neg (not_le.mpr h)]
    refine (hf u).hasDerivAt.congr_of_eventuallyEq ?_
    filter_upwards [Iio_mem_nhds h] with v hv
    rw [if_neg (not_le.mpr hv)]
  · subst h
    rw [if_pos le_rfl]
    have hr : HasDerivWithinAt (fun v => if u ≤ v then g v else f v) (deriv g u) (Set.Ici u) u :=
      (hg u).hasDerivAt.hasDerivWithinAt.congr (fun v hv => if_pos hv) (if_pos le_rfl)
    have hl : HasDerivWithinAt (fun v => if u ≤ v then g v else f v) (deriv g u) (Set.Iic u) u := by
      rw [← h1]
      refine (hf u).hasDerivAt.hasDerivWithinAt.congr (fun v hv => ?_) ?_
      · rcases (Set.mem_Iic.mp hv).lt_or_eq with h | h
        · exact if_neg (not_le.mpr h)
        · subst h; exact (if_pos le_rfl).trans h0.symm
      · exact (if_pos le_rfl).trans h0.symm
    have := hl.union hr
    rwa [Set.Iic_union_Ici, hasDerivWithinAt_univ] at this
  · rw [if_pos h.le]
    refine (hg u).hasDerivAt.congr_of_eventuallyEq ?_
    filter_upwards [Ioi_mem_nhds h] with v hv
    rw [if_pos (Set.mem_Ioi.mp hv).le]

/-- Two curves with continuous derivatives that meet with the same slope give such a curve. -/
theorem glue_smooth {f g : ℝ → ℝ} (hf : ContDiff ℝ 1 f) (hg : ContDiff ℝ 1 g) {a : ℝ} (h0 : f a = g a)
    (h1 : deriv f a = deriv g a) : ContDiff ℝ 1 (fun u => if a ≤ u then g u else f u) := by
  rw [contDiff_one_iff_deriv] at hf hg ⊢
  have h := glue_hasDeriv hf.1 hg.1 h0 h1
  refine ⟨fun u => (h u).differentiableAt, ?_⟩
  have e : deriv (fun u => if a ≤ u then g u else f u) = fun u => if a ≤ u then deriv g u else deriv f u :=
    funext fun u => (h u).deriv
  rw [e]
  exact Continuous.if_le hg.2 hf.2 continuous_const continuous_id (fun u hu => by subst hu; exact h1.symm)

theorem hermite_hasDeriv (x0 x1 y0 y1 d0 d1 u : ℝ) : HasDerivAt (hermite x0 x1 y0 y1 d0 d1)
    (3 * ((d0 + d1 - 2 * ((y1 - y0) / (x1 - x0))) / (x1 - x0) / (x1 - x0)) * (u - x0) ^ 2 +
      2 * (((y1 - y0) / (x1 - x0) - d0) / (x1 - x0) - (d0 + d1 - 2 * ((y1 - y0) / (x1 - x0))) / (x1 - x0)) * (u - x0) + d0) u := by
  have hb : HasDerivAt (fun u : ℝ => u - x0) 1 u := (hasDerivAt_id u).sub_const x0
  have h := ((((hb.pow 3).const_mul ((d0 + d1 - 2 * ((y1 - y0) / (x1 - x0))) / (x1 - x0) / (x1 - x0))).add
    ((hb.pow 2).const_mul (((y1 - y0) / (x1 - x0) - d0) / (x1 - x0) - (d0 + d1 - 2 * ((y1 - y0) / (x1 - x0))) / (x1 - x0)))).add
    (hb.const_mul d0)).add_const y0
  refine HasDerivAt.congr_deriv (h.congr_of_eventuallyEq (Filter.Eventually.of_forall fun v => rfl)) ?_
  norm_num
  ring

theorem hermite_smooth (x0 x1 y0 y1 d0 d1 : ℝ) : ContDiff ℝ 1 (hermite x0 x1 y0 y1 d0 d1) := by
  unfold hermite
  fun_prop

theorem hermite_deriv_left (x0 x1 y0 y1 d0 d1 : ℝ) : deriv (hermite x0 x1 y0 y1 d0 d1) x0 = d0 := by
  rw [(hermite_hasDeriv x0 x1 y0 y1 d0 d1 x0).deriv]
  ring

theorem hermite_deriv_right {x0 x1 : ℝ} (h : x0 < x1) (y0 y1 d0 d1 : ℝ) : deriv (hermite x0 x1 y0 y1 d0 d1) x1 = d1 := by
  rw [(hermite_hasDeriv x0 x1 y0 y1 d0 d1 x1).deriv]
  have : x1 - x0 ≠ 0 := (sub_pos.mpr h).ne'
  field_simp
  ring

/-- The curve whose last piece is number `m`. -/
noncomputable def pchipUpTo (x y : List ℝ) : ℕ → ℝ → ℝ
  | 0, u => pchipPiece x y 0 u
  | m + 1, u => if x.getD (m + 1) 0 ≤ u then pchipPiece x y (m + 1) u else pchipUpTo x y m u

theorem pchipUpTo_last {x y : List ℝ} (hx : x.Pairwise (· < ·)) {m : ℕ} {u : ℝ} (h : x.getD m 0 ≤ u) :
    pchipUpTo x y m u = pchipPiece x y m u := by
  cases m with
  | zero => rfl
  | succ m => unfold pchipUpTo; rw [if_pos h]

theorem pchipUpTo_smooth {x y : List ℝ} (hx : x.Pairwise (· < ·)) : ∀ m : ℕ, m + 1 < x.length → ContDiff ℝ 1 (pchipUpTo x y m)
  | 0, _ => hermite_smooth _ _ _ _ _ _
  | m + 1, hm => by
    have ih := pchipUpTo_smooth (y := y) hx m (by omega)
    have hlt : x.getD m 0 < x.getD (m + 1) 0 := getD_lt hx (Nat.lt_succ_self m) (by omega)
    have hev : pchipUpTo x y m =ᶠ[nhds (x.getD (m + 1) 0)] pchipPiece x y m := by
      filter_upwards [Ioi_mem_nhds hlt] with v hv
      exact pchipUpTo_last hx (Set.mem_Ioi.mp hv).le
    refine glue_smooth ih (hermite_smooth _ _ _ _ _ _) ?_ ?_
    · rw [hev.eq_of_nhds]
      exact (pchipPiece_ends hx (by omega)).2.trans (pchipPiece_ends hx hm).1.symm
    · rw [hev.deriv_eq]
      exact (hermite_deriv_right hlt _ _ _ _).trans (hermite_deriv_left _ _ _ _ _ _).symm

theorem pchipUpTo_value {x y : List ℝ} (hx : x.Pairwise (· < ·)) {u : ℝ} (h0 : x.getD 0 0 ≤ u) : ∀ m : ℕ, m + 1 < x.length →
    u ≤ x.getD (m + 1) 0 → pchipUpTo x y m u = pchipValue x y u
  | 0, hm, h => (pchipValue_piece hx hm h0 h).symm
  | m + 1, hm, h => by
    by_cases hu : x.getD (m + 1) 0 ≤ u
    · rw [pchipUpTo_last hx hu, pchipValue_piece hx hm hu h]
    · unfold pchipUpTo
      rw [if_neg hu]
      exact pchipUpTo_value hx h0 m (by omega) (not_le.mp hu).le

/-- **C116, no kinks.**  The curve of the monotonic spline, which passes through the points and rises or falls with them, has a
continuous derivative. -/
theorem C116_smooth {tol : ℝ} (htol : 0 ≤ tol) {x y : List ℝ} (hx : x.Pairwise (· < ·)) (h2 : 2 ≤ x.length)
    (hlen : y.length = x.length) :
    ∃ F, ContDiff ℝ 1 F ∧ PassesThrough x y F ∧ FollowsPoints x y F ∧
      ∀ (kw : SplineKwargs) (given : Bool) (newX : List ℝ), newX ≠ [] → (∀ u ∈ newX, Within x u) →
        interpolate tol scipyEval newX x y false .monotonicSpline kw given = .ok (newX.map F) := by
  obtain ⟨n, hn⟩ : ∃ n, x.length = n + 2 := ⟨x.length - 2, by omega⟩
  obtain ⟨g1, g2, g3⟩ := pchip_follows htol hx h2 hlen
  have hval : ∀ u, x.getD 0 0 ≤ u → u ≤ x.getD (n + 1) 0 → pchipUpTo x y n u = pchipValue x y u := fun u h0 h =>
    pchipUpTo_value hx h0 n (by omega) h
  have hnode : ∀ i < x.length, x.getD 0 0 ≤ x.getD i 0 ∧ x.getD i 0 ≤ x.getD (n + 1) 0 := fun i hi =>
    ⟨getD_le hx (Nat.zero_le i) hi, getD_le hx (by omega) (by omega)⟩
  have hget : ∀ {l : List ℝ} {j : ℕ} {a : ℝ}, l[j]? = some a → l.getD j 0 = a := fun h => by
    rw [List.getD_eq_getElem?_getD, h]; rfl
  refine ⟨pchipUpTo x y n, pchipUpTo_smooth hx n (by omega), ?_, ?_, ?_⟩
  · intro p hp
    obtain ⟨i, hi, e⟩ := List.mem_iff_getElem.1 hp
    rw [List.getElem_zip] at e
    have hi' : i < x.length := by simp at hi; exact hi.1
    have hxi : x.getD i 0 = p.1 := by rw [← e]; exact List.getD_eq_getElem _ _ hi'
    rw [hval p.1 (hxi ▸ (hnode i hi').1) (hxi ▸ (hnode i hi').2)]
    exact g1 p hp
  · intro i x₀ x₁ y₀ y₁ hx₀ hx₁ hy₀ hy₁ u v hu huv hv
    obtain ⟨hi₀, _⟩ := List.getElem?_eq_some_iff.1 hx₀
    obtain ⟨hi₁, _⟩ := List.getElem?_eq_some_iff.1 hx₁
    have h0 := (hnode i hi₀).1
    have h1 := (hnode (i + 1) hi₁).2
    rw [hget hx₀] at h0
    rw [hget hx₁] at h1
    rw [hval u (h0.trans hu) ((huv.trans hv).trans h1), hval v ((h0.trans hu).trans huv) (hv.trans h1)]
    exact g2 i x₀ x₁ y₀ y₁ hx₀ hx₁ hy₀ hy₁ u v hu huv hv
  · intro kw given newX hne hin
    rw [g3 kw given newX hne hin]
    congr 1
    refine List.map_congr_left fun u hu => ?_
    obtain ⟨_, ha, hb⟩ := within_range (hin u hu)
    refine (hval u ha ?_).symm
    rwa [show n + 1 = x.length - 1 by omega]

/-- The premises for points that rise and fall. -/
example : ∃ F : ℝ → ℝ, ContDiff ℝ 1 F ∧ PassesThrough [0, 1, 2, 4] [0, 10, 1, 7] F ∧ FollowsPoints [0, 1, 2, 4] [0, 10, 1, 7] F := by
  obtain ⟨F, h1, h2, h3, _⟩ := C116_smooth (tol := 0) le_rfl (x := [0, 1, 2, 4]) (y := [0, 10, 1, 7]) (by norm_num) (by simp) rfl
  exact ⟨F, h1, h2, h3⟩

end GwEcc
