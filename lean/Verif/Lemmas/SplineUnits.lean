import Verif.Lemmas.Spline
import Verif.Lemmas.Pchip
import Verif.Spec.Rescale

/-!
# The interpolants of scipy in other units
-/

namespace GwEcc

open Polynomial

variable {K : Type} [Field K] [LinearOrder K] [IsStrictOrderedRing K]

/-- Other units of nodes and values: the interpolant is the same curve. -/
theorem scipyEval_new {α r : K} (hα : 0 < α) (hr : 0 < r) (β b : K) (call : InterpCall) (x y : List K) (u : K)
    (h : b = 0 ∨ (x.Pairwise (· < ·) → side x u = .inside)) :
    scipyEval call (x.map fun v => α * v + β) (y.map fun v => r * v + b) (α * u + β)
      = (scipyEval call x y u).map fun v => r * v + b := by
  cases call with
  | pchip e => exact pchipEval_new hα hr β b e x y u
  | spline k ext =>
    show (fitSpline k ext _ _ >>= _) = (fitSpline k ext _ _ >>= _).map _
    rw [fitSpline_new hα β hr.ne' b]
    cases hs : fitSpline k ext x y with
    | error e => rfl
    | ok s =>
      obtain ⟨h1, _, _, _, _, h6, _⟩ := fitSpline_ok hs
      have hne : x ≠ [] := by rintro rfl; simp at h6
      show splev ext _ _ _ = (splev ext _ _ _).map _
      rw [splineKnots_new]
      exact splev_new hα β r b hne (newSpline_value hα β r b _ s) ext u (h.imp_right fun h => h h1)

theorem newSpline_deriv {k : ℕ} {α : K} (hα : 0 < α) (β : K) (s : SplineFn K) :
    (newSpline (k + 1) α β 1 0 s).deriv k = newSpline k α β α⁻¹ 0 (s.deriv k) := by
  unfold newSpline SplineFn.deriv
  congr 1
  · simp only [map_one, one_mul, map_zero, add_zero]
    rw [derivative_comp]
    congr 1
    simp
  · rw [List.map_map, List.map_map]
    refine List.map_congr_left fun a _ => ?_
    simp only [Function.comp]
    rw [pow_succ]
    ring

/-- The derivative in another unit of time. -/
theorem scipyDeriv_new {α : K} (hα : 0 < α) (β : K) (call : InterpCall) (x y : List K) (u : K) :
    scipyDeriv call (x.map fun v => α * v + β) y (α * u + β) = (scipyDeriv call x y u).map fun v => α⁻¹ * v + 0 := by
  cases call with
  | pchip e => rfl
  | spline k ext =>
    show (fitSpline k ext _ _ >>= _) = (fitSpline k ext _ _ >>= _).map _
    have e := fitSpline_new (k := k) (ext := ext) hα β one_ne_zero 0 x y
    rw [show (y.map fun v => 1 * v + 0) = y by simp] at e
    rw [e]
    cases hs : fitSpline k ext x y with
    | error e => rfl
    | ok s =>
      obtain ⟨_, _, h3, _, _, h6, _⟩ := fitSpline_ok hs
      have hne : x ≠ [] := by rintro rfl; simp at h6
      obtain ⟨k, rfl⟩ : ∃ k', k = k' + 1 := ⟨k - 1, by omega⟩
      show splev _ _ _ _ = (splev _ _ _ _).map _
      rw [splineKnots_new, Nat.add_sub_cancel, newSpline_deriv hα]
      exact splev_new hα β α⁻¹ 0 hne (newSpline_value hα β α⁻¹ 0 _ _) _ u (.inl rfl)

/-- Two nodes around a point: the point is among the nodes. -/
theorem side_inside {x : List K} (hx : x.Pairwise (· < ·)) {p : K} (h1 : ∃ a ∈ x, a ≤ p) (h2 : ∃ b ∈ x, p ≤ b) :
    side x p = .inside := by
  obtain ⟨a, ha, hap⟩ := h1
  obtain ⟨b, hb, hpb⟩ := h2
  have hne : x ≠ [] := List.ne_nil_of_mem ha
  have e1 : x.headD 0 ≤ a := by
    cases x with
    | nil => exact absurd rfl hne
    | cons z l =>
      rcases List.mem_cons.1 ha with rfl | h
      · exact le_rfl
      · exact (List.rel_of_pairwise_cons hx h).le
  have e2 : b ≤ x.getLastD 0 := by
    rw [List.getLastD_eq_getLast?, List.getLast?_eq_some_getLast hne]
    simp only [Option.getD_some]
    obtain ⟨i, hi, rfl⟩ := List.mem_iff_getElem.1 hb
    rw [List.getLast_eq_getElem]
    rcases (show i ≤ x.length - 1 by omega).lt_or_eq with h | h
    · exact (List.pairwise_iff_getElem.1 hx i _ _ _ h).le
    · simp [h]
  unfold side
  rw [if_neg (by rw [not_lt]; exact e1.trans hap), if_neg (by rw [not_lt]; exact hpb.trans e2)]

open Spec

theorem scipyEval_freq {k : K} (hk : 0 < k) (c : K) (call : InterpCall) (x y : List K) (p : K) :
    scipyEval call (x.map (newTime k c)) (y.map (newFreq k)) (newTime k c p) = (scipyEval call x y p).map (newFreq k) := by
  have h := scipyEval_new hk (inv_pos.2 hk) c 0 call x y p (.inl rfl)
  have e : (fun v : K => k⁻¹ * v + 0) = newFreq k := by funext v; rw [newFreq, div_eq_inv_mul, add_zero]
  rw [e] at h
  exact h

theorem scipyEval_amp {k s : K} (hk : 0 < k) (hs : 0 < s) (c : K) (call : InterpCall) (x y : List K) (p : K) :
    scipyEval call (x.map (newTime k c)) (y.map (s * ·)) (newTime k c p) = (scipyEval call x y p).map (s * ·) := by
  have h := scipyEval_new hk hs c 0 call x y p (.inl rfl)
  simp only [add_zero] at h
  exact h

theorem scipyEval_time {k : K} (hk : 0 < k) (c : K) (call : InterpCall) (x y : List K) (p : K) (h1 : ∃ a ∈ x, a ≤ p)
    (h2 : ∃ b ∈ x, p ≤ b) :
    scipyEval call (x.map (newFreq k)) (y.map (newTime k c)) (newFreq k p) = (scipyEval call x y p).map (newTime k c) := by
  have h := scipyEval_new (inv_pos.2 hk) hk 0 c call x y p (.inr fun hx => side_inside hx h1 h2)
  have e : (fun v : K => k⁻¹ * v + 0) = newFreq k := by funext v; rw [newFreq, div_eq_inv_mul, add_zero]
  rw [e, show k⁻¹ * p + 0 = newFreq k p from congrFun e p] at h
  exact h

theorem scipyDeriv_freq {k : K} (hk : 0 < k) (c : K) (call : InterpCall) (x y : List K) (p : K) :
    scipyDeriv call (x.map (newTime k c)) y (newTime k c p) = (scipyDeriv call x y p).map (newFreq k) := by
  have h := scipyDeriv_new hk c call x y p
  have e : (fun v : K => k⁻¹ * v + 0) = newFreq k := by funext v; rw [newFreq, div_eq_inv_mul, add_zero]
  rw [e] at h
  exact h

theorem interp1dCubic_new {k : K} (hk : 0 < k) (c : K) (x y : List K) :
    (∀ f, interp1dCubic x y = .ok f → ∃ f', interp1dCubic (x.map (newTime k c)) (y.map (k * ·)) = .ok f' ∧
      ∀ p, f' (newTime k c p) = k * f p) ∧
    (∀ err, interp1dCubic x y = .error err → interp1dCubic (x.map (newTime k c)) (y.map (k * ·)) = .error err) := by
  have h := fitSpline_new (k := 3) (ext := 0) hk c hk.ne' 0 x y
  simp only [add_zero] at h
  unfold interp1dCubic
  rw [List.length_map]
  by_cases hl : x.length < 4
  · rw [if_pos hl, if_pos hl]
    exact ⟨fun f hf => absurd hf (by simp), fun _ he => he⟩
  · rw [if_neg hl, if_neg hl]
    have h' : fitSpline 3 0 (x.map (newTime k c)) (y.map (k * ·)) = (fitSpline 3 0 x y).map (newSpline 3 k c k 0) := h
    rw [h']
    cases hs : fitSpline 3 0 x y with
    | error e => exact ⟨fun f hf => absurd hf (by simp [bind, Except.bind]), fun _ he => he⟩
    | ok s =>
      refine ⟨fun f hf => ⟨_, rfl, fun p => ?_⟩, fun _ he => absurd he (by simp [bind, Except.bind, pure, Except.pure])⟩
      have hf : s.value 3 (splineKnots 3 x) = f := Except.ok.inj hf
      have := newSpline_value (k := 3) hk c k 0 (splineKnots 3 x) s p
      rw [← splineKnots_new, add_zero, hf] at this
      exact this

end GwEcc
