import Mathlib.Algebra.Order.Field.Basic
import Mathlib.Tactic.Linarith
import Mathlib.Tactic.Ring
import Mathlib.Tactic.FieldSimp
import Mathlib.Algebra.BigOperators.Group.Finset.Basic
import Verif.Model.Spline
import Verif.Lemmas.Extrema

/-!
# Facts about the interpolants of scipy
-/

set_option linter.unusedSectionVars false

namespace GwEcc

open Polynomial

section basic

variable {K : Type} [Field K] [LinearOrder K]

theorem sum_zipWith_range {α β : Type} (f : α → β → K) (a0 : α) (b0 : β) :
    ∀ (a : List α) (b : List β), a.length = b.length →
    (List.zipWith f a b).sum = ∑ i ∈ Finset.range b.length, f (a.getD i a0) (b.getD i b0)
  | [], [], _ => by simp
  | x :: a, y :: b, h => by
    rw [List.zipWith_cons_cons, List.sum_cons, sum_zipWith_range f a0 b0 a b (by simpa using h), List.length_cons,
      Finset.sum_range_succ', add_comm]
    rfl

theorem SplineFn.value_eq {d : ℕ} {knots : List K} {s : SplineFn K} (h : s.jumps.length = knots.length) (u : K) :
    s.value d knots u = s.poly.eval u + ∑ i ∈ Finset.range knots.length, s.jumps.getD i 0 * truncPow d (u - knots.getD i 0) := by
  rw [SplineFn.value, sum_zipWith_range (fun c τ => c * truncPow d (u - τ)) 0 0 _ _ h]

theorem splineKnots_length (k : ℕ) (x : List K) : (splineKnots k x).length = x.length - k - 1 := by simp [splineKnots]

/-- A built spline satisfies the equations, alone. -/
theorem fitSpline_ok {k ext : ℕ} {x y : List K} {s : SplineFn K} (h : fitSpline k ext x y = .ok s) :
    x.Pairwise (· < ·) ∧ x.length = y.length ∧ 1 ≤ k ∧ k ≤ 5 ∧ ext ≤ 3 ∧ k < x.length ∧ SplineFits k x y s ∧
    ∀ s', SplineFits k x y s' → s' = s := by
  unfold fitSpline at h
  split_ifs at h with h1 h2 h3 h4 h5 h6
  have e := Except.ok.inj h
  have := h6.choose_spec
  rw [e] at this
  exact ⟨by simpa using h1, by simpa using h2, h3.1, h3.2, h4, h5, this.1, this.2⟩

theorem fitSpline_of_unique {k ext : ℕ} {x y : List K} {s : SplineFn K} (h1 : x.Pairwise (· < ·)) (h2 : x.length = y.length)
    (h3 : 1 ≤ k) (h4 : k ≤ 5) (h5 : ext ≤ 3) (h6 : k < x.length) (h7 : SplineFits k x y s)
    (h8 : ∀ s', SplineFits k x y s' → s' = s) : fitSpline k ext x y = .ok s := by
  have h : ∃ s, SplineFits k x y s ∧ ∀ s', SplineFits k x y s' → s' = s := ⟨s, h7, h8⟩
  unfold fitSpline
  rw [if_neg (by simpa using h1), if_neg (by simpa using h2), if_neg (by simpa using ⟨h3, h4⟩), if_neg (by simpa using h5),
    if_neg (by simpa using h6), dif_pos h]
  exact congrArg Except.ok (h8 _ h.choose_spec.1)

end basic

section ordered

variable {K : Type} [Field K] [LinearOrder K] [IsStrictOrderedRing K]

theorem getD_lt {x : List K} (hx : x.Pairwise (· < ·)) {i j : ℕ} (h : i < j) (hj : j < x.length) : x.getD i 0 < x.getD j 0 := by
  rw [List.getD_eq_getElem _ _ (h.trans hj), List.getD_eq_getElem _ _ hj]
  exact List.pairwise_iff_getElem.1 hx i j _ _ h

theorem getD_le {x : List K} (hx : x.Pairwise (· < ·)) {i j : ℕ} (h : i ≤ j) (hj : j < x.length) : x.getD i 0 ≤ x.getD j 0 := by
  rcases h.lt_or_eq with h | rfl
  · exact (getD_lt hx h hj).le
  · exact le_rfl

theorem splineKnots_getD {k : ℕ} {x : List K} {l : ℕ} (hl : l < x.length - k - 1) :
    (splineKnots k x).getD l 0
      = if k % 2 = 1 then x.getD (l + k / 2 + 1) 0 else (x.getD (l + k / 2 + 1) 0 + x.getD (l + k / 2) 0) / 2 := by
  rw [List.getD_eq_getElem _ _ (by rw [splineKnots_length]; exact hl)]
  simp [splineKnots]

/-- The knots lie among the nodes as Schoenberg and Whitney ask. -/
theorem splineKnots_between {k : ℕ} (hk : 1 ≤ k) {x : List K} (hx : x.Pairwise (· < ·)) {l : ℕ} (hl : l < x.length - k - 1) :
    x.getD l 0 < (splineKnots k x).getD l 0 ∧ (splineKnots k x).getD l 0 < x.getD (l + k + 1) 0 := by
  rw [splineKnots_getD hl]
  split_ifs with h
  · exact ⟨getD_lt hx (by omega) (by omega), getD_lt hx (by omega) (by omega)⟩
  · have a := getD_lt hx (i := l + k / 2) (j := l + k / 2 + 1) (by omega) (by omega)
    have b := getD_lt hx (i := l) (j := l + k / 2) (by omega) (by omega)
    have c := getD_lt hx (i := l + k / 2 + 1) (j := l + k + 1) (by omega) (by omega)
    constructor <;> linarith

theorem splineKnots_lt {k : ℕ} {x : List K} (hx : x.Pairwise (· < ·)) {i j : ℕ} (h : i < j) (hj : j < x.length - k - 1) :
    (splineKnots k x).getD i 0 < (splineKnots k x).getD j 0 := by
  rw [splineKnots_getD (h.trans hj), splineKnots_getD hj]
  split_ifs with h'
  · exact getD_lt hx (by omega) (by omega)
  · have a := getD_lt hx (i := i + k / 2 + 1) (j := j + k / 2 + 1) (by omega) (by omega)
    have b := getD_lt hx (i := i + k / 2) (j := j + k / 2) (by omega) (by omega)
    linarith

/-! ### Change of units -/

/-- The spline after a change of units of both axes: nodes `α * x + β`, values `r * y + b`. -/
noncomputable def newSpline (k : ℕ) (α β r b : K) (s : SplineFn K) : SplineFn K :=
  ⟨C r * s.poly.comp (C α⁻¹ * (X - C β)) + C b, s.jumps.map (r * (α⁻¹) ^ k * ·)⟩

theorem truncPow_scale {α : K} (hα : 0 < α) (d : ℕ) (v : K) : truncPow d (α * v) = α ^ d * truncPow d v := by
  unfold truncPow
  by_cases h : 0 ≤ v
  · rw [if_pos h, if_pos (mul_nonneg hα.le h), mul_pow]
  · rw [if_neg h, if_neg (not_le.2 (mul_neg_of_pos_of_neg hα (not_le.1 h))), mul_zero]

theorem splineKnots_new (k : ℕ) (α β : K) (x : List K) :
    splineKnots k (x.map fun v => α * v + β) = (splineKnots k x).map fun v => α * v + β := by
  unfold splineKnots
  rw [List.map_map, List.length_map]
  refine List.map_congr_left fun l hl => ?_
  have hl := List.mem_range.1 hl
  have e : ∀ i, i < x.length → (x.map fun v => α * v + β).getD i 0 = α * x.getD i 0 + β := by
    intro i hi
    rw [List.getD_eq_getElem _ _ (by simpa using hi), List.getD_eq_getElem _ _ hi, List.getElem_map]
  simp only [Function.comp]
  rw [e _ (by omega), e _ (by omega)]
  split_ifs
  · rfl
  · ring

theorem newSpline_value {k : ℕ} {α : K} (hα : 0 < α) (β r b : K) (knots : List K) (s : SplineFn K) (u : K) :
    (newSpline k α β r b s).value k (knots.map fun v => α * v + β) (α * u + β) = r * s.value k knots u + b := by
  unfold SplineFn.value newSpline
  have e : (List.zipWith (fun c τ => c * truncPow k (α * u + β - τ)) (s.jumps.map (r * (α⁻¹) ^ k * ·))
      (knots.map fun v => α * v + β)).sum = r * (List.zipWith (fun c τ => c * truncPow k (u - τ)) s.jumps knots).sum := by
    have hm : ∀ l : List K, r * l.sum = (l.map (r * ·)).sum := fun l => by
      induction l with
      | nil => simp
      | cons a l ih => rw [List.map_cons, List.sum_cons, List.sum_cons, mul_add, ih]
    rw [List.zipWith_map, hm, List.map_zipWith]
    congr 1
    refine congrFun (congrFun (congrArg List.zipWith ?_) _) _
    funext c τ
    rw [show α * u + β - (α * τ + β) = α * (u - τ) by ring, truncPow_scale hα]
    have : (α⁻¹) ^ k * α ^ k = 1 := by rw [← mul_pow, inv_mul_cancel₀ hα.ne', one_pow]
    calc r * (α⁻¹) ^ k * c * (α ^ k * truncPow k (u - τ)) = ((α⁻¹) ^ k * α ^ k) * (r * (c * truncPow k (u - τ))) := by ring
      _ = _ := by rw [this, one_mul]
  simp only [eval_add, eval_mul, eval_C, eval_comp, eval_sub, eval_X]
  rw [e, show α⁻¹ * (α * u + β - β) = u by rw [add_sub_cancel_right, ← mul_assoc, inv_mul_cancel₀ hα.ne', one_mul]]
  ring

theorem newSpline_inv {k : ℕ} {α : K} (hα : α ≠ 0) (β : K) {r : K} (hr : r ≠ 0) (b : K) (s : SplineFn K) :
    newSpline k α⁻¹ (-(α⁻¹ * β)) r⁻¹ (-(r⁻¹ * b)) (newSpline k α β r b s) = s := by
  unfold newSpline
  cases s with
  | mk P c =>
    congr 1
    · have h : (C α⁻¹ * (X - C β)).comp (C (α⁻¹)⁻¹ * (X - C (-(α⁻¹ * β)))) = X := by
        simp only [mul_comp, C_comp, sub_comp, X_comp, inv_inv]
        rw [show C α⁻¹ * (C α * (X - C (-(α⁻¹ * β))) - C β) = C (α⁻¹ * α) * X + (C (α⁻¹ * α) * C (α⁻¹ * β) - C (α⁻¹ * β)) by
          simp only [map_mul, map_neg]; ring]
        rw [inv_mul_cancel₀ hα]; simp
      rw [add_comp, mul_comp, comp_assoc, h]
      simp only [C_comp, comp_X]
      rw [show C r⁻¹ * (C r * P + C b) + C (-(r⁻¹ * b)) = C (r⁻¹ * r) * P by simp only [map_mul, map_neg]; ring,
        inv_mul_cancel₀ hr]
      simp
    · rw [List.map_map]
      conv_rhs => rw [← List.map_id c]
      refine List.map_congr_left fun a _ => ?_
      simp only [Function.comp, inv_inv, id]
      calc r⁻¹ * α ^ k * (r * (α⁻¹) ^ k * a) = (r⁻¹ * r) * (α * α⁻¹) ^ k * a := by rw [mul_pow]; ring
        _ = a := by rw [inv_mul_cancel₀ hr, mul_inv_cancel₀ hα, one_pow, one_mul, one_mul]

theorem newSpline_degree {k : ℕ} (α β r b : K) {s : SplineFn K} (h : s.poly.degree ≤ k) :
    (newSpline k α β r b s).poly.degree ≤ k := by
  have hn := Polynomial.natDegree_le_of_degree_le h
  refine Polynomial.degree_le_of_natDegree_le ?_
  unfold newSpline
  refine (natDegree_add_le _ _).trans (max_le ?_ (by simp))
  refine (natDegree_C_mul_le _ _).trans (natDegree_comp_le.trans ?_)
  have : (C α⁻¹ * (X - C β)).natDegree ≤ 1 := (natDegree_C_mul_le _ _).trans (natDegree_X_sub_C_le _)
  calc s.poly.natDegree * _ ≤ s.poly.natDegree * 1 := Nat.mul_le_mul_left _ this
    _ ≤ k := by omega

theorem newSpline_fits {k : ℕ} {α : K} (hα : 0 < α) (β r b : K) {x y : List K} {s : SplineFn K} (h : SplineFits k x y s) :
    SplineFits k (x.map fun v => α * v + β) (y.map fun v => r * v + b) (newSpline k α β r b s) := by
  obtain ⟨h1, h2, h3⟩ := h
  refine ⟨newSpline_degree α β r b h1, ?_, fun p hp => ?_⟩
  · rw [splineKnots_new]; simpa [newSpline] using h2
  · rw [splineKnots_new]
    rw [List.zip_map] at hp
    obtain ⟨q, hq, rfl⟩ := List.mem_map.1 hp
    simp only [Prod.map]
    rw [newSpline_value hα, h3 q hq]

theorem pairwise_new {α : K} (hα : 0 < α) (β : K) (x : List K) :
    (x.map fun v => α * v + β).Pairwise (· < ·) ↔ x.Pairwise (· < ·) := by
  rw [List.pairwise_map]
  refine ⟨fun h => h.imp fun {a b} h => ?_, fun h => h.imp fun {a b} h => ?_⟩
  · exact lt_of_mul_lt_mul_left (by linarith) hα.le
  · have := mul_lt_mul_of_pos_left h hα
    linarith

theorem map_new_inv {α : K} (hα : α ≠ 0) (β : K) (x : List K) :
    (x.map fun v => α * v + β).map (fun v => α⁻¹ * v + -(α⁻¹ * β)) = x := by
  rw [List.map_map]
  conv_rhs => rw [← List.map_id x]
  refine List.map_congr_left fun a _ => ?_
  simp only [Function.comp, id]
  calc α⁻¹ * (α * a + β) + -(α⁻¹ * β) = (α⁻¹ * α) * a := by ring
    _ = a := by rw [inv_mul_cancel₀ hα, one_mul]

/-- The spline is the same curve in all units. -/
theorem fitSpline_new {k ext : ℕ} {α : K} (hα : 0 < α) (β : K) {r : K} (hr : r ≠ 0) (b : K) (x y : List K) :
    fitSpline k ext (x.map fun v => α * v + β) (y.map fun v => r * v + b)
      = (fitSpline k ext x y).map (newSpline k α β r b) := by
  have hmap : ∀ s', SplineFits k (x.map fun v => α * v + β) (y.map fun v => r * v + b) s' →
      ∃ s, SplineFits k x y s ∧ s' = newSpline k α β r b s := by
    intro s' h'
    have h := newSpline_fits (inv_pos.2 hα) (-(α⁻¹ * β)) r⁻¹ (-(r⁻¹ * b)) h'
    rw [map_new_inv hα.ne', map_new_inv hr] at h
    refine ⟨_, h, ?_⟩
    have e := newSpline_inv (k := k) (inv_ne_zero hα.ne') (-(α⁻¹ * β)) (inv_ne_zero hr) (-(r⁻¹ * b)) s'
    rw [inv_inv, inv_inv, show -(α * -(α⁻¹ * β)) = β by rw [mul_neg, neg_neg, ← mul_assoc, mul_inv_cancel₀ hα.ne', one_mul],
      show -(r * -(r⁻¹ * b)) = b by rw [mul_neg, neg_neg, ← mul_assoc, mul_inv_cancel₀ hr, one_mul]] at e
    exact e.symm
  cases hs : fitSpline k ext x y with
  | ok s =>
    obtain ⟨h1, h2, h3, h4, h5, h6, h7, h8⟩ := fitSpline_ok hs
    refine fitSpline_of_unique ((pairwise_new hα β x).2 h1) (by simpa using h2) h3 h4 h5 (by simpa using h6)
      (newSpline_fits hα β r b h7) fun s' h' => ?_
    obtain ⟨s0, h0, rfl⟩ := hmap s' h'
    rw [h8 s0 h0]
  | error e =>
    show _ = Except.error e
    rw [← hs]
    unfold fitSpline at hs ⊢
    simp only [pairwise_new hα β x, List.length_map]
    by_cases h1 : ¬ x.Pairwise (· < ·)
    · rw [if_pos h1, if_pos h1]
    by_cases h2 : x.length ≠ y.length
    · rw [if_neg h1, if_neg h1, if_pos h2, if_pos h2]
    by_cases h3 : ¬ (1 ≤ k ∧ k ≤ 5)
    · rw [if_neg h1, if_neg h1, if_neg h2, if_neg h2, if_pos h3, if_pos h3]
    by_cases h4 : ¬ ext ≤ 3
    · rw [if_neg h1, if_neg h1, if_neg h2, if_neg h2, if_neg h3, if_neg h3, if_pos h4, if_pos h4]
    by_cases h5 : ¬ k < x.length
    · rw [if_neg h1, if_neg h1, if_neg h2, if_neg h2, if_neg h3, if_neg h3, if_neg h4, if_neg h4, if_pos h5, if_pos h5]
    rw [if_neg h1, if_neg h1, if_neg h2, if_neg h2, if_neg h3, if_neg h3, if_neg h4, if_neg h4, if_neg h5, if_neg h5]
    rw [if_neg h1, if_neg h2, if_neg h3, if_neg h4, if_neg h5] at hs
    have hno : ¬ ∃ s, SplineFits k x y s ∧ ∀ s', SplineFits k x y s' → s' = s := by
      intro h
      rw [dif_pos h] at hs
      cases hs
    rw [dif_neg hno, dif_neg]
    rintro ⟨s', h6, h7⟩
    obtain ⟨s, h8, rfl⟩ := hmap s' h6
    refine hno ⟨s, h8, fun t ht => ?_⟩
    have := h7 _ (newSpline_fits hα β r b ht)
    have e2 := congrArg (newSpline k α⁻¹ (-(α⁻¹ * β)) r⁻¹ (-(r⁻¹ * b))) this
    rwa [newSpline_inv hα.ne' β hr b, newSpline_inv hα.ne' β hr b] at e2

theorem headD_map_ne {x : List K} (hx : x ≠ []) (f : K → K) : (x.map f).headD 0 = f (x.headD 0) := by
  cases x with
  | nil => exact absurd rfl hx
  | cons a l => rfl

theorem getLastD_map_ne {x : List K} (hx : x ≠ []) (f : K → K) : (x.map f).getLastD 0 = f (x.getLastD 0) := by
  cases x with
  | nil => exact absurd rfl hx
  | cons a l =>
    rw [List.getLastD_eq_getLast?, List.getLastD_eq_getLast?, List.getLast?_map, List.getLast?_eq_some_getLast (by simp)]
    rfl

theorem side_new {α : K} (hα : 0 < α) (β : K) {x : List K} (hx : x ≠ []) (u : K) :
    side (x.map fun v => α * v + β) (α * u + β) = side x u := by
  unfold side
  rw [headD_map_ne hx (fun v => α * v + β), getLastD_map_ne hx (fun v => α * v + β)]
  have e : ∀ a b : K, α * a + β < α * b + β ↔ a < b := fun a b => by
    rw [add_lt_add_iff_right, mul_lt_mul_iff_right₀ hα]
  simp only [e]

/-- Evaluation in new units. -/
theorem splev_new {α : K} (hα : 0 < α) (β r b : K) {x : List K} (hx : x ≠ []) {f g : K → K}
    (hfg : ∀ u, g (α * u + β) = r * f u + b) (ext : ℕ) (u : K) (h : b = 0 ∨ side x u = .inside) :
    splev ext (x.map fun v => α * v + β) g (α * u + β) = (splev ext x f u).map fun v => r * v + b := by
  unfold splev
  rw [side_new hα β hx, headD_map_ne hx (fun v => α * v + β), getLastD_map_ne hx (fun v => α * v + β)]
  rcases hs : side x u with _ | _ | _
  · have hb : b = 0 := h.resolve_right (by rw [hs]; decide)
    rcases ext with _ | _ | _ | _ <;> simp [hfg, Except.map, hb]
  · simp [hfg, Except.map]
  · have hb : b = 0 := h.resolve_right (by rw [hs]; decide)
    rcases ext with _ | _ | _ | _ <;> simp [hfg, Except.map, hb]

end ordered

end GwEcc
