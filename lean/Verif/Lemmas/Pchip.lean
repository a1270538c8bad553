import Verif.Lemmas.Spline

/-!
# Facts about the monotone interpolant
-/

set_option linter.unusedSectionVars false

namespace GwEcc

variable {K : Type} [Field K] [LinearOrder K] [IsStrictOrderedRing K]

theorem signsDiffer_scale {c : K} (hc : 0 < c) (a b : K) : signsDiffer (c * a) (c * b) = signsDiffer a b := by
  unfold signsDiffer
  have h1 : ∀ a : K, 0 < c * a ↔ 0 < a := fun a => mul_pos_iff_of_pos_left hc
  have h2 : ∀ a : K, c * a < 0 ↔ a < 0 := fun a => by rw [mul_neg_iff]; constructor <;> intro h
                                                      · rcases h with h | h
                                                        · exact h.2
                                                        · exact absurd hc (not_lt.2 h.1.le)
                                                      · exact .inl ⟨hc, h⟩
  have h3 : ∀ a : K, c * a = 0 ↔ a = 0 := fun a => by simp [hc.ne']
  simp only [h1, h2, h3]

theorem signsDiffer_neg (a b : K) : signsDiffer (-a) (-b) = signsDiffer a b := by
  unfold signsDiffer
  simp only [Left.neg_pos_iff, Left.neg_neg_iff, neg_eq_zero]
  congr 2
  exact propext (by tauto)

theorem pchipEdge_scale {α c : K} (hα : 0 < α) (hc : 0 < c) (h0 h1 m0 m1 : K) :
    pchipEdge (α * h0) (α * h1) (c * m0) (c * m1) = c * pchipEdge h0 h1 m0 m1 := by
  have e : ((2 * (α * h0) + α * h1) * (c * m0) - α * h0 * (c * m1)) / (α * h0 + α * h1)
      = c * (((2 * h0 + h1) * m0 - h0 * m1) / (h0 + h1)) := by
    rw [show (2 * (α * h0) + α * h1) * (c * m0) - α * h0 * (c * m1) = α * (c * ((2 * h0 + h1) * m0 - h0 * m1)) by ring,
      show α * h0 + α * h1 = α * (h0 + h1) by ring, mul_div_mul_left _ _ hα.ne', mul_div_assoc]
  have e2 : ∀ d : K, (3 * |c * m0| < |c * d|) ↔ (3 * |m0| < |d|) := fun d => by
    rw [abs_mul, abs_mul, abs_of_pos hc, show 3 * (c * |m0|) = c * (3 * |m0|) by ring, mul_lt_mul_iff_right₀ hc]
  unfold pchipEdge
  simp only [e, signsDiffer_scale hc, e2]
  split_ifs
  · rw [mul_zero]
  · ring
  · rfl

theorem pchipInner_scale {α c : K} (hα : 0 < α) (hc : 0 < c) (h0 h1 m0 m1 : K) :
    pchipInner (α * h0) (α * h1) (c * m0) (c * m1) = c * pchipInner h0 h1 m0 m1 := by
  unfold pchipInner
  have h3 : ∀ a : K, c * a = 0 ↔ a = 0 := fun a => by simp [hc.ne']
  simp only [signsDiffer_scale hc, h3]
  split_ifs with h
  · rw [mul_zero]
  · have e : ((2 * (α * h1) + α * h0) / (c * m0) + (α * h1 + 2 * (α * h0)) / (c * m1)) / (2 * (α * h1) + α * h0 + (α * h1 + 2 * (α * h0)))
        = c⁻¹ * (((2 * h1 + h0) / m0 + (h1 + 2 * h0) / m1) / (2 * h1 + h0 + (h1 + 2 * h0))) := by
      rw [show 2 * (α * h1) + α * h0 + (α * h1 + 2 * (α * h0)) = α * (2 * h1 + h0 + (h1 + 2 * h0)) by ring,
        show (2 * (α * h1) + α * h0) / (c * m0) + (α * h1 + 2 * (α * h0)) / (c * m1)
          = α * (c⁻¹ * ((2 * h1 + h0) / m0 + (h1 + 2 * h0) / m1)) by
            rw [div_eq_mul_inv, div_eq_mul_inv, mul_inv, mul_inv, div_eq_mul_inv, div_eq_mul_inv]; ring,
        mul_div_mul_left _ _ hα.ne', mul_div_assoc]
    rw [e, one_div, mul_inv, inv_inv, one_div]

/-- Agreement at the nodes is enough. -/
theorem pchipSlope_congr {x x' y y' : ℕ → K} {n : ℕ} (hn : 2 ≤ n) (hx : ∀ i < n, x i = x' i) (hy : ∀ i < n, y i = y' i) {i : ℕ}
    (hi : i < n) : pchipSlope x y n i = pchipSlope x' y' n i := by
  unfold pchipSlope
  simp only
  split_ifs with h1 h2 h3
  · rw [hx 0 (by omega), hx (0 + 1) (by omega), hy 0 (by omega), hy (0 + 1) (by omega)]
  · rw [hx 0 (by omega), hx (0 + 1) (by omega), hy 0 (by omega), hy (0 + 1) (by omega), hx (1 + 1) (by omega),
      hy (1 + 1) (by omega)]
  · rw [hx (n - 2) (by omega), hx (n - 2 + 1) (by omega), hy (n - 2) (by omega), hy (n - 2 + 1) (by omega), hx (n - 3) (by omega),
      hx (n - 3 + 1) (by omega), hy (n - 3) (by omega), hy (n - 3 + 1) (by omega)]
  · rw [hx i (by omega), hx (i + 1) (by omega), hy i (by omega), hy (i + 1) (by omega), hx (i - 1) (by omega),
      hx (i - 1 + 1) (by omega), hy (i - 1) (by omega), hy (i - 1 + 1) (by omega)]

theorem pchipSlope_new {α r : K} (hα : 0 < α) (hr : 0 < r) (β b : K) (x y : ℕ → K) (n i : ℕ) :
    pchipSlope (fun i => α * x i + β) (fun i => r * y i + b) n i = r / α * pchipSlope x y n i := by
  have hc : 0 < r / α := div_pos hr hα
  have eh : ∀ i, α * x (i + 1) + β - (α * x i + β) = α * (x (i + 1) - x i) := fun i => by ring
  have em : ∀ i, (r * y (i + 1) + b - (r * y i + b)) / (α * (x (i + 1) - x i)) = r / α * ((y (i + 1) - y i) / (x (i + 1) - x i)) := by
    intro i
    rw [show r * y (i + 1) + b - (r * y i + b) = r * (y (i + 1) - y i) by ring, mul_div_mul_comm]
  unfold pchipSlope
  simp only [eh, em, pchipEdge_scale hα hc, pchipInner_scale hα hc]
  split_ifs <;> rfl

theorem hermite_new {α : K} (hα : 0 < α) (β r b x0 x1 y0 y1 d0 d1 u : K) :
    hermite (α * x0 + β) (α * x1 + β) (r * y0 + b) (r * y1 + b) (r / α * d0) (r / α * d1) (α * u + β)
      = r * hermite x0 x1 y0 y1 d0 d1 u + b := by
  unfold hermite
  simp only
  rw [show α * x1 + β - (α * x0 + β) = α * (x1 - x0) by ring, show α * u + β - (α * x0 + β) = α * (u - x0) by ring,
    show r * y1 + b - (r * y0 + b) = r * (y1 - y0) by ring]
  have ha := hα.ne'
  simp only [div_eq_mul_inv, mul_inv]
  have e1 : α * α⁻¹ = 1 := mul_inv_cancel₀ ha
  generalize (x1 - x0)⁻¹ = w at *
  generalize α⁻¹ = a at *
  have e2 : α ^ 2 * a ^ 2 = 1 := by rw [← mul_pow, e1, one_pow]
  have e3 : α ^ 3 * a ^ 3 = 1 := by rw [← mul_pow, e1, one_pow]
  linear_combination (exp := 1) r * (d0 + d1 - 2 * ((y1 - y0) * w)) * w * w * (u - x0) ^ 3 * e3
    + r * (((y1 - y0) * w - d0) * w - (d0 + d1 - 2 * ((y1 - y0) * w)) * w) * (u - x0) ^ 2 * e2 + r * d0 * (u - x0) * e1

theorem pchipInterval_new {α : K} (hα : 0 < α) (β : K) (x : List K) (u : K) :
    pchipInterval (x.map fun v => α * v + β) (α * u + β) = pchipInterval x u := by
  unfold pchipInterval
  rw [List.length_map]
  congr 1
  refine List.filter_congr fun i hi => ?_
  have hi := List.mem_range.1 hi
  rw [List.getD_eq_getElem _ _ (by rw [List.length_map]; omega), List.getElem_map, List.getD_eq_getElem _ _ (by omega)]
  congr 1
  rw [add_le_add_iff_right, mul_le_mul_iff_right₀ hα]

theorem pchipInterval_lt {x : List K} (hx : 2 ≤ x.length) (u : K) : pchipInterval x u + 1 < x.length := by
  unfold pchipInterval
  rcases h : ((List.range (x.length - 1)).filter fun i => decide (x.getD i 0 ≤ u)).getLast? with _ | i
  · rw [List.getLastD_eq_getLast?, h]
    simp; omega
  · rw [List.getLastD_eq_getLast?, h]
    have := List.mem_of_getLast? h
    have := List.mem_range.1 (List.mem_of_mem_filter this)
    simp only [Option.getD_some]; omega

theorem getD_map_lt {x : List K} (f : K → K) {i : ℕ} (hi : i < x.length) : (x.map f).getD i 0 = f (x.getD i 0) := by
  rw [List.getD_eq_getElem _ _ (by simpa using hi), List.getElem_map, List.getD_eq_getElem _ _ hi]

theorem pchipValue_new {α r : K} (hα : 0 < α) (hr : 0 < r) (β b : K) {x y : List K} (hx : 2 ≤ x.length) (hl : x.length = y.length)
    (u : K) : pchipValue (x.map fun v => α * v + β) (y.map fun v => r * v + b) (α * u + β) = r * pchipValue x y u + b := by
  unfold pchipValue
  simp only [pchipInterval_new hα, List.length_map]
  have hi := pchipInterval_lt hx u
  have hs : ∀ i < x.length, pchipSlope (fun i => (x.map fun v => α * v + β).getD i 0) (fun i => (y.map fun v => r * v + b).getD i 0)
      x.length i = r / α * pchipSlope (fun i => x.getD i 0) (fun i => y.getD i 0) x.length i := fun i hi => by
    rw [← pchipSlope_new hα hr β b]
    exact pchipSlope_congr hx (fun i hi => getD_map_lt _ hi) (fun i hi => getD_map_lt _ (hl ▸ hi)) hi
  rw [hs _ (by omega), hs _ (by omega), getD_map_lt _ (by omega), getD_map_lt _ hi, getD_map_lt _ (by omega),
    getD_map_lt _ (by omega)]
  exact hermite_new hα β r b _ _ _ _ _ _ u

theorem pchipEval_new {α r : K} (hα : 0 < α) (hr : 0 < r) (β b : K) (extrapolate : Bool) (x y : List K) (u : K) :
    pchipEval extrapolate (x.map fun v => α * v + β) (y.map fun v => r * v + b) (α * u + β)
      = (pchipEval extrapolate x y u).map fun v => r * v + b := by
  unfold pchipEval
  simp only [pairwise_new hα, List.length_map]
  by_cases h : ¬ x.Pairwise (· < ·) ∨ x.length < 2 ∨ x.length ≠ y.length
  · rw [if_pos h, if_pos h]; rfl
  · rw [if_neg h, if_neg h]
    push Not at h
    have hne : x ≠ [] := by intro h0; subst h0; simp at h
    rw [side_new hα β hne]
    split_ifs
    · rw [pchipValue_new hα hr β b h.2.1 h.2.2]; rfl
    · rfl

/-! ### Monotonicity -/

/-- The slopes at the ends of an interval are between 0 and three times the slope of the data. -/
theorem pchipInner_bounds {h0 h1 m0 m1 : K} (p0 : 0 < h0) (p1 : 0 < h1) :
    (0 ≤ m0 → 0 ≤ pchipInner h0 h1 m0 m1 ∧ pchipInner h0 h1 m0 m1 ≤ 3 * m0) ∧
    (0 ≤ m1 → 0 ≤ pchipInner h0 h1 m0 m1 ∧ pchipInner h0 h1 m0 m1 ≤ 3 * m1) := by
  unfold pchipInner
  split_ifs with h
  · exact ⟨fun h => ⟨le_rfl, by linarith⟩, fun h => ⟨le_rfl, by linarith⟩⟩
  · simp only [signsDiffer, Bool.or_eq_true, Bool.not_eq_true', decide_eq_true_eq, decide_eq_false_iff_not, not_or] at h
    obtain ⟨⟨h2, h3⟩, h4⟩ := h
    have h2 : (0 < m1 ∧ 0 < m0) ∨ (m1 < 0 ∧ m0 < 0) ∨ (m1 = 0 ∧ m0 = 0) := by
      by_contra hc
      push Not at hc
      exact h2 ⟨fun h => absurd h.2 (not_lt.2 (hc.1 h.1)), fun h => absurd h.2 (not_lt.2 (hc.2.1 h.1)), fun h => hc.2.2 h.1 h.2⟩
    have key : ∀ (q0 : 0 < m0) (q1 : 0 < m1), 0 ≤ 1 / (((2 * h1 + h0) / m0 + (h1 + 2 * h0) / m1) / (2 * h1 + h0 + (h1 + 2 * h0))) ∧
        1 / (((2 * h1 + h0) / m0 + (h1 + 2 * h0) / m1) / (2 * h1 + h0 + (h1 + 2 * h0))) ≤ 3 * m0 ∧
        1 / (((2 * h1 + h0) / m0 + (h1 + 2 * h0) / m1) / (2 * h1 + h0 + (h1 + 2 * h0))) ≤ 3 * m1 := by
      intro q0 q1
      have a0 : 0 < (2 * h1 + h0) / m0 := div_pos (by linarith) q0
      have a1 : 0 < (h1 + 2 * h0) / m1 := div_pos (by linarith) q1
      rw [one_div_div]
      refine ⟨(div_pos (by linarith) (by linarith)).le, ?_, ?_⟩
      · rw [div_le_iff₀ (by linarith)]
        have e : m0 * ((2 * h1 + h0) / m0) = 2 * h1 + h0 := mul_div_cancel₀ _ q0.ne'
        have := mul_pos q0 a1
        nlinarith
      · rw [div_le_iff₀ (by linarith)]
        have e : m1 * ((h1 + 2 * h0) / m1) = h1 + 2 * h0 := mul_div_cancel₀ _ q1.ne'
        have := mul_pos q1 a0
        nlinarith
    rcases h2 with h | h | h
    · have := key h.2 h.1
      exact ⟨fun _ => ⟨this.1, this.2.1⟩, fun _ => ⟨this.1, this.2.2⟩⟩
    · exact ⟨fun h' => absurd h' (not_le.2 h.2), fun h' => absurd h' (not_le.2 h.1)⟩
    · exact absurd h.1 h3

theorem pchipEdge_bounds {h0 h1 m0 m1 : K} (p0 : 0 < h0) (p1 : 0 < h1) (hm : 0 ≤ m0) :
    0 ≤ pchipEdge h0 h1 m0 m1 ∧ pchipEdge h0 h1 m0 m1 ≤ 3 * m0 := by
  unfold pchipEdge
  simp only
  split_ifs with h h'
  · exact ⟨le_rfl, by linarith⟩
  · exact ⟨by linarith, le_rfl⟩
  · simp only [signsDiffer, Bool.not_eq_true', decide_eq_false_iff_not, not_not] at h
    have nn : 0 ≤ ((2 * h0 + h1) * m0 - h0 * m1) / (h0 + h1) := by
      rcases h with h | h | h
      · exact h.1.le
      · exact absurd hm (not_le.2 h.2)
      · exact h.1.ge
    refine ⟨nn, ?_⟩
    by_cases hs : signsDiffer m0 m1 = true
    · simp only [hs, Bool.true_and, decide_eq_true_eq, not_lt, abs_of_nonneg nn, abs_of_nonneg hm] at h'
      exact h'
    · simp only [signsDiffer, Bool.not_eq_true', decide_eq_false_iff_not, not_not] at hs
      have m1n : 0 ≤ m1 := by
        rcases hs with hs | hs | hs
        · exact hs.2.le
        · exact absurd hm (not_le.2 hs.1)
        · exact hs.2.ge
      rw [div_le_iff₀ (by linarith)]
      nlinarith [mul_nonneg p0.le m1n, mul_nonneg p0.le hm, mul_nonneg p1.le hm]

/-- A cubic with such slopes grows. -/
theorem hermite_mono {x0 x1 y0 y1 d0 d1 : K} (hx : x0 < x1) (hd0 : 0 ≤ d0) (hd0' : d0 ≤ 3 * ((y1 - y0) / (x1 - x0)))
    (hd1 : 0 ≤ d1) (hd1' : d1 ≤ 3 * ((y1 - y0) / (x1 - x0))) {u v : K} (hu : x0 ≤ u) (huv : u ≤ v) (hv : v ≤ x1) :
    hermite x0 x1 y0 y1 d0 d1 u ≤ hermite x0 x1 y0 y1 d0 d1 v := by
  have hh : 0 < x1 - x0 := sub_pos.2 hx
  obtain ⟨s, hs⟩ : ∃ s, u = x0 + (x1 - x0) * s := ⟨(u - x0) / (x1 - x0), by rw [mul_div_cancel₀ _ hh.ne']; ring⟩
  obtain ⟨t, ht⟩ : ∃ t, v = x0 + (x1 - x0) * t := ⟨(v - x0) / (x1 - x0), by rw [mul_div_cancel₀ _ hh.ne']; ring⟩
  have s0 : 0 ≤ s := by
    by_contra h
    have := mul_neg_of_pos_of_neg hh (not_le.1 h)
    linarith
  have st : s ≤ t := le_of_mul_le_mul_left (by linarith) hh
  have t1 : t ≤ 1 := le_of_mul_le_mul_left (by linarith) hh
  subst hs ht
  set m := (y1 - y0) / (x1 - x0) with hm
  have form : ∀ w : K, hermite x0 x1 y0 y1 d0 d1 (x0 + (x1 - x0) * w)
      = (x1 - x0) * (m * (3 * w ^ 2 - 2 * w ^ 3) + d0 * (w ^ 3 - 2 * w ^ 2 + w) + d1 * (w ^ 3 - w ^ 2)) + y0 := by
    intro w
    unfold hermite
    simp only [← hm]
    have := hh.ne'
    field_simp
    ring
  rw [form, form]
  have m0 : 0 ≤ m := by linarith
  refine add_le_add ?_ le_rfl
  refine mul_le_mul_of_nonneg_left ?_ hh.le
  have A : s ^ 3 ≤ t ^ 3 := pow_le_pow_left₀ s0 st 3
  have B : (1 - t) ^ 3 ≤ (1 - s) ^ 3 := pow_le_pow_left₀ (by linarith) (by linarith) 3
  have Cc : 3 * s ^ 2 - 2 * s ^ 3 ≤ 3 * t ^ 2 - 2 * t ^ 3 := by
    have h1 : 0 ≤ (t - s) * (s * (1 - s) + t * (1 - t)) := by
      refine mul_nonneg (by linarith) (add_nonneg (mul_nonneg s0 (by linarith)) (mul_nonneg (by linarith) (by linarith)))
    have h2 : 0 ≤ (t - s) * (s * (1 - t) + t * (1 - s)) := by
      refine mul_nonneg (by linarith) (add_nonneg (mul_nonneg s0 (by linarith)) (mul_nonneg (by linarith) (by linarith)))
    have h3 : 0 ≤ (t - s) ^ 3 := pow_nonneg (by linarith) 3
    nlinarith
  have D : 4 * s ^ 3 - 6 * s ^ 2 + 3 * s ≤ 4 * t ^ 3 - 6 * t ^ 2 + 3 * t := by
    have h3 : 0 ≤ (t - s) * ((2 * s - 1) ^ 2 + (2 * s - 1) * (2 * t - 1) + (2 * t - 1) ^ 2) := by
      refine mul_nonneg (by linarith) ?_
      nlinarith [sq_nonneg ((2 * s - 1) + (2 * t - 1)), sq_nonneg (2 * s - 1), sq_nonneg (2 * t - 1)]
    nlinarith
  rcases m0.lt_or_eq with hmp | hmz
  · -- a convex combination of four growing cubics
    obtain ⟨a, ha⟩ : ∃ a, d0 = 3 * m * a := ⟨d0 / (3 * m), by rw [mul_div_cancel₀]; positivity⟩
    obtain ⟨b, hb⟩ : ∃ b, d1 = 3 * m * b := ⟨d1 / (3 * m), by rw [mul_div_cancel₀]; positivity⟩
    have h3m : 0 < 3 * m := by linarith
    have a0 : 0 ≤ a := by
      by_contra h
      have := mul_neg_of_pos_of_neg h3m (not_le.1 h)
      linarith
    have b0 : 0 ≤ b := by
      by_contra h
      have := mul_neg_of_pos_of_neg h3m (not_le.1 h)
      linarith
    have a1 : a ≤ 1 := le_of_mul_le_mul_left (by linarith) h3m
    have b1 : b ≤ 1 := le_of_mul_le_mul_left (by linarith) h3m
    have form2 : ∀ w : K, m * (3 * w ^ 2 - 2 * w ^ 3) + d0 * (w ^ 3 - 2 * w ^ 2 + w) + d1 * (w ^ 3 - w ^ 2)
        = m * ((1 - a) * (1 - b) * (3 * w ^ 2 - 2 * w ^ 3) + a * (1 - b) * (1 - (1 - w) ^ 3) + (1 - a) * b * w ^ 3
          + a * b * (4 * w ^ 3 - 6 * w ^ 2 + 3 * w)) := by
      intro w; rw [ha, hb]; ring
    rw [form2, form2]
    refine mul_le_mul_of_nonneg_left ?_ m0
    have q1 := mul_le_mul_of_nonneg_left Cc (mul_nonneg (sub_nonneg.2 a1) (sub_nonneg.2 b1))
    have q2 := mul_le_mul_of_nonneg_left B (mul_nonneg a0 (sub_nonneg.2 b1))
    have q3 := mul_le_mul_of_nonneg_left A (mul_nonneg (sub_nonneg.2 a1) b0)
    have q4 := mul_le_mul_of_nonneg_left D (mul_nonneg a0 b0)
    linarith
  · have e0 : d0 = 0 := le_antisymm (by rw [← hmz] at hd0'; linarith) hd0
    have e1 : d1 = 0 := le_antisymm (by rw [← hmz] at hd1'; linarith) hd1
    rw [e0, e1, ← hmz]; simp

/-- The slopes at both ends of the interval after node `i`. -/
theorem pchipSlope_bounds {x y : ℕ → K} {n i : ℕ} (hx : ∀ j, j + 1 < n → x j < x (j + 1)) (hi : i + 1 < n) (hy : y i ≤ y (i + 1)) :
    (0 ≤ pchipSlope x y n i ∧ pchipSlope x y n i ≤ 3 * ((y (i + 1) - y i) / (x (i + 1) - x i))) ∧
    (0 ≤ pchipSlope x y n (i + 1) ∧ pchipSlope x y n (i + 1) ≤ 3 * ((y (i + 1) - y i) / (x (i + 1) - x i))) := by
  have hp : ∀ j, j + 1 < n → 0 < x (j + 1) - x j := fun j hj => sub_pos.2 (hx j hj)
  have hm : 0 ≤ (y (i + 1) - y i) / (x (i + 1) - x i) := div_nonneg (by linarith) (hp i hi).le
  constructor
  · unfold pchipSlope
    simp only
    split_ifs with h1 h2 h3
    · obtain rfl : i = 0 := by omega
      exact ⟨hm, by linarith⟩
    · subst h2
      exact pchipEdge_bounds (hp 0 (by omega)) (hp 1 (by omega)) hm
    · omega
    · have := (pchipInner_bounds (m0 := (y (i - 1 + 1) - y (i - 1)) / (x (i - 1 + 1) - x (i - 1)))
        (m1 := (y (i + 1) - y i) / (x (i + 1) - x i)) (hp (i - 1) (by omega)) (hp i hi)).2 hm
      exact this
  · unfold pchipSlope
    simp only
    split_ifs with h1 h2 h3
    · obtain rfl : i = 0 := by omega
      exact ⟨hm, by linarith⟩
    · exact h2.elim
    · have e : n - 2 = i := by omega
      rw [e]
      exact pchipEdge_bounds (hp i hi) (hp (n - 3) (by omega)) hm
    · have := (pchipInner_bounds (m0 := (y (i + 1) - y i) / (x (i + 1) - x i))
        (m1 := (y (i + 1 + 1) - y (i + 1)) / (x (i + 1 + 1) - x (i + 1))) (hp i hi) (hp (i + 1) (by omega))).1 hm
      rw [Nat.add_sub_cancel]
      exact this

/-! Falling data -/

theorem pchipEdge_neg (h0 h1 m0 m1 : K) : pchipEdge h0 h1 (-m0) (-m1) = -pchipEdge h0 h1 m0 m1 := by
  unfold pchipEdge
  have e : ((2 * h0 + h1) * -m0 - h0 * -m1) / (h0 + h1) = -(((2 * h0 + h1) * m0 - h0 * m1) / (h0 + h1)) := by
    rw [← neg_div]; congr 1; ring
  simp only [e, signsDiffer_neg, abs_neg]
  split_ifs <;> ring

theorem pchipInner_neg (h0 h1 m0 m1 : K) : pchipInner h0 h1 (-m0) (-m1) = -pchipInner h0 h1 m0 m1 := by
  unfold pchipInner
  simp only [signsDiffer_neg, neg_eq_zero]
  split_ifs
  · ring
  · rw [div_neg, div_neg, ← neg_add, neg_div, one_div_neg_eq_neg_one_div]

theorem pchipSlope_neg (x y : ℕ → K) (n i : ℕ) : pchipSlope x (fun i => -y i) n i = -pchipSlope x y n i := by
  have em : ∀ i, (-y (i + 1) - -y i) / (x (i + 1) - x i) = -((y (i + 1) - y i) / (x (i + 1) - x i)) := fun i => by
    rw [← neg_div]; congr 1; ring
  unfold pchipSlope
  simp only [em, pchipEdge_neg, pchipInner_neg]
  split_ifs <;> rfl

theorem hermite_neg (x0 x1 y0 y1 d0 d1 u : K) : hermite x0 x1 (-y0) (-y1) (-d0) (-d1) u = -hermite x0 x1 y0 y1 d0 d1 u := by
  unfold hermite
  simp only [div_eq_mul_inv]
  ring

/-- The cubic of the interval after node `i`. -/
def pchipPiece (x y : List K) (i : ℕ) (u : K) : K :=
  hermite (x.getD i 0) (x.getD (i + 1) 0) (y.getD i 0) (y.getD (i + 1) 0)
    (pchipSlope (fun i => x.getD i 0) (fun i => y.getD i 0) x.length i)
    (pchipSlope (fun i => x.getD i 0) (fun i => y.getD i 0) x.length (i + 1)) u

theorem pchipPiece_mono {x y : List K} (hx : x.Pairwise (· < ·)) {i : ℕ} (hi : i + 1 < x.length) {u v : K} (hu : x.getD i 0 ≤ u)
    (huv : u ≤ v) (hv : v ≤ x.getD (i + 1) 0) :
    (y.getD i 0 ≤ y.getD (i + 1) 0 → pchipPiece x y i u ≤ pchipPiece x y i v) ∧
    (y.getD (i + 1) 0 ≤ y.getD i 0 → pchipPiece x y i v ≤ pchipPiece x y i u) := by
  have hlt := getD_lt hx (Nat.lt_succ_self i) hi
  have hxx : ∀ j, j + 1 < x.length → x.getD j 0 < x.getD (j + 1) 0 := fun j hj => getD_lt hx (Nat.lt_succ_self j) hj
  constructor
  · intro hy
    obtain ⟨⟨a1, a2⟩, b1, b2⟩ := pchipSlope_bounds (x := fun i => x.getD i 0) (y := fun i => y.getD i 0) hxx hi hy
    exact hermite_mono hlt a1 a2 b1 b2 hu huv hv
  · intro hy
    obtain ⟨⟨a1, a2⟩, b1, b2⟩ := pchipSlope_bounds (x := fun i => x.getD i 0) (y := fun i => -y.getD i 0) hxx hi (neg_le_neg hy)
    rw [pchipSlope_neg] at a1 a2 b1 b2
    have := hermite_mono hlt a1 a2 b1 b2 hu huv hv
    rw [hermite_neg, hermite_neg] at this
    exact neg_le_neg_iff.1 this

theorem hermite_left (x0 x1 y0 y1 d0 d1 : K) : hermite x0 x1 y0 y1 d0 d1 x0 = y0 := by
  unfold hermite; simp

theorem hermite_right {x0 x1 : K} (h : x0 < x1) (y0 y1 d0 d1 : K) : hermite x0 x1 y0 y1 d0 d1 x1 = y1 := by
  have : x1 - x0 ≠ 0 := (sub_pos.2 h).ne'
  unfold hermite
  simp only
  field_simp
  ring

/-- The interval used for a point that is not before the nodes. -/
theorem pchipInterval_spec {x : List K} (hx : 2 ≤ x.length) {u : K} (hu : x.getD 0 0 ≤ u) :
    x.getD (pchipInterval x u) 0 ≤ u ∧ ∀ j, j + 1 < x.length → x.getD j 0 ≤ u → j ≤ pchipInterval x u := by
  unfold pchipInterval
  set l := (List.range (x.length - 1)).filter fun i => decide (x.getD i 0 ≤ u) with hl
  have h0 : 0 ∈ l := by
    rw [hl, List.mem_filter]
    exact ⟨List.mem_range.2 (by omega), by simpa using hu⟩
  have hne : l ≠ [] := List.ne_nil_of_mem h0
  rw [List.getLastD_eq_getLast?, List.getLast?_eq_some_getLast hne]
  simp only [Option.getD_some]
  constructor
  · have := (List.mem_filter.1 (show l.getLast hne ∈ (List.range (x.length - 1)).filter _ from List.getLast_mem hne)).2
    simpa using this
  · intro j hj hju
    have hm : j ∈ l := by
      rw [hl, List.mem_filter]
      exact ⟨List.mem_range.2 (by omega), by simpa using hju⟩
    have hs : l.Pairwise (· < ·) := List.pairwise_lt_range.filter _
    rw [← List.dropLast_append_getLast hne, List.pairwise_append] at hs
    rw [← List.dropLast_append_getLast hne, List.mem_append] at hm
    rcases hm with hm | hm
    · exact (hs.2.2 j hm _ (by simp)).le
    · simp at hm; exact hm.le

end GwEcc
