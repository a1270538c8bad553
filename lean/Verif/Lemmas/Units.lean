import Verif.Lemmas.PyRel
import Verif.Lemmas.Average
import Verif.Spec.Units
import Verif.Props.Extrema
import Mathlib.Order.Monotone.Basic
import Mathlib.Order.MinMax

set_option linter.unusedSectionVars false

namespace GwEcc

open Spec

variable {K : Type} [Field K] [LinearOrder K] [IsStrictOrderedRing K]

section basics

variable {k : K} (hk : 0 < k) (c : K)
include hk

theorem newTime_lt {x y : K} : newTime k c x < newTime k c y ↔ x < y := by
  unfold newTime; rw [add_lt_add_iff_right, mul_lt_mul_iff_right₀ hk]

theorem newTime_le {x y : K} : newTime k c x ≤ newTime k c y ↔ x ≤ y := by
  unfold newTime; rw [add_le_add_iff_right, mul_le_mul_iff_right₀ hk]

theorem newFreq_lt {x y : K} : newFreq k x < newFreq k y ↔ x < y := by
  unfold newFreq; exact div_lt_div_iff_of_pos_right hk

theorem newFreq_le {x y : K} : newFreq k x ≤ newFreq k y ↔ x ≤ y := by
  unfold newFreq; exact div_le_div_iff_of_pos_right hk

theorem newTime_mono : Monotone (newTime k c) := fun _ _ h => (newTime_le hk c).mpr h

theorem newFreq_mono : Monotone (newFreq k) := fun _ _ h => (newFreq_le hk).mpr h

theorem diff_newTime : ∀ l : List K, diff (l.map (newTime k c)) = (diff l).map (k * ·)
  | [] => rfl
  | [a] => rfl
  | a :: b :: l => by
    have ih := diff_newTime (b :: l)
    simp only [List.map_cons, diff] at ih ⊢
    rw [ih]
    congr 1
    unfold newTime; ring

theorem diff_newFreq : ∀ l : List K, diff (l.map (newFreq k)) = (diff l).map (· / k)
  | [] => rfl
  | [a] => rfl
  | a :: b :: l => by
    have ih := diff_newFreq (b :: l)
    simp only [List.map_cons, diff] at ih ⊢
    rw [ih]
    congr 1
    unfold newFreq; ring

end basics

theorem foldl_map_mono {s : K → K} (hs : Monotone s) : ∀ (l : List K) (a : K),
    (l.map s).foldl min (s a) = s (l.foldl min a) ∧ (l.map s).foldl max (s a) = s (l.foldl max a)
  | [], a => ⟨rfl, rfl⟩
  | b :: l, a => by
    simp only [List.map_cons, List.foldl_cons]
    rw [← hs.map_min, ← hs.map_max]
    exact ⟨(foldl_map_mono hs l (min a b)).1, (foldl_map_mono hs l (max a b)).2⟩

theorem npMin_rel {s : K → K} (hs : Monotone s) (l : List K) :
    PyRel (fun a b => b = s a ∧ npMin l = .ok a) (npMin l) (npMin (l.map s)) := by
  cases l with
  | nil => exact .error _
  | cons a l => exact .ok ⟨(foldl_map_mono hs l a).1, rfl⟩

theorem npMax_rel {s : K → K} (hs : Monotone s) (l : List K) :
    PyRel (fun a b => b = s a ∧ npMax l = .ok a) (npMax l) (npMax (l.map s)) := by
  cases l with
  | nil => exact .error _
  | cons a l => exact .ok ⟨(foldl_map_mono hs l a).2, rfl⟩

theorem filter_map_of {α β : Type} {s : α → β} {P : α → Bool} {Q : β → Bool} (h : ∀ x, Q (s x) = P x) (l : List α) :
    (l.map s).filter Q = (l.filter P).map s := by
  rw [List.filter_map]
  congr 2
  funext x
  exact h x

theorem any_map_of {α β : Type} {s : α → β} {P : α → Bool} {Q : β → Bool} (h : ∀ x, Q (s x) = P x) (l : List α) :
    (l.map s).any Q = l.any P := by
  induction l with
  | nil => rfl
  | cons a l ih => simp [h, ih]

theorem at_map {l : List K} {s : K → K} {i : ℕ} (h : i < l.length ∨ s 0 = 0) : at' (l.map s) i = s (at' l i) := by
  unfold at'
  by_cases hi : i < l.length
  · rw [List.getD_eq_getElem _ _ hi, List.getD_eq_getElem _ _ (by simpa using hi), List.getElem_map]
  · have h1 : l.getD i 0 = 0 := List.getD_eq_default _ _ (by omega)
    have h2 : (l.map s).getD i 0 = 0 := List.getD_eq_default _ _ (by simp; omega)
    rw [h1, h2, h.resolve_left hi]

theorem takeAt_map {l : List K} {s : K → K} {idx : List ℕ} (h : (∀ i ∈ idx, i < l.length) ∨ s 0 = 0) :
    takeAt (l.map s) idx = (takeAt l idx).map s := by
  unfold takeAt
  rw [List.map_map]
  apply List.map_congr_left
  intro i hi
  exact at_map (h.imp (fun h => h i hi) id)

theorem newFreq_zero (k : K) : newFreq k 0 = 0 := by unfold newFreq; simp

/-! ### The derivative test -/

theorem centralDiffs_scale (k : K) (hk : 0 < k) (dx : K) : ∀ y : List K,
    centralDiffs (k * dx) (y.map (newFreq k)) = (centralDiffs dx y).map (· / (k * k))
  | [] => rfl
  | [_] => rfl
  | [_, _] => rfl
  | a :: b :: c :: l => by
    have ih := centralDiffs_scale k hk dx (b :: c :: l)
    simp only [List.map_cons] at ih ⊢
    unfold centralDiffs
    rw [ih]
    simp only [List.map_cons]
    congr 1
    unfold newFreq
    have : k ≠ 0 := hk.ne'
    rw [← sub_div, div_div, div_div]
    congr 1
    ring

theorem npGradient_rel (k : K) (hk : 0 < k) (dx : K) (y : List K) :
    PyRel (fun a b => b = a.map (· / (k * k))) (npGradient dx y) (npGradient (k * dx) (y.map (newFreq k))) := by
  match y with
  | [] => exact .error _
  | [_] => exact .error _
  | a :: b :: l =>
    unfold npGradient
    simp only [List.map_cons]
    refine .ok ?_
    have h1 := centralDiffs_scale k hk dx (a :: b :: l)
    simp only [List.map_cons] at h1
    have e0 : ∀ u v : K, (newFreq k u - newFreq k v) / (k * dx) = (u - v) / dx / (k * k) := by
      intro u v
      unfold newFreq
      rw [← sub_div, div_div, div_div]
      congr 1
      ring
    rw [h1, List.map_append, List.map_cons, e0]
    have g1 : (newFreq k b :: List.map (newFreq k) l).getLast (by simp) = newFreq k ((b :: l).getLast (by simp)) :=
      List.getLast_map (f := newFreq k) (l := b :: l) (by simp)
    have g2 : (newFreq k a :: newFreq k b :: List.map (newFreq k) l).dropLast.getLast (by simp)
        = newFreq k ((a :: b :: l).dropLast.getLast (by simp)) := by
      have : (newFreq k a :: newFreq k b :: List.map (newFreq k) l).dropLast
          = ((a :: b :: l).dropLast).map (newFreq k) := by
        rw [List.map_dropLast]; rfl
      simp only [this]
      rw [List.getLast_map]
    rw [g1, g2, e0]
    rfl

theorem anyConsecutive_scale (k : K) (hk : 0 < k) (tol : K) : ∀ g : List K,
    anyConsecutive (ratioBelowOne tol) (g.map (· / k)) = anyConsecutive (ratioBelowOne tol) g
  | [] => rfl
  | [_] => rfl
  | a :: b :: l => by
    have ih := anyConsecutive_scale k hk tol (b :: l)
    simp only [List.map_cons] at ih ⊢
    unfold anyConsecutive
    rw [ih]
    congr 1
    unfold ratioBelowOne
    by_cases ha : a = 0
    · rw [if_pos ha, if_pos (by rw [ha, zero_div])]
      rw [decide_eq_decide]
      constructor
      · intro h; by_contra hc; exact absurd (div_nonneg (not_lt.mp hc) hk.le) (not_le.mpr h)
      · intro h; exact div_neg_of_neg_of_pos h hk
    · rw [if_neg ha, if_neg (div_ne_zero ha hk.ne')]
      rw [div_div_div_cancel_right₀ hk.ne']

theorem notStrictlyMonotonic_rel (k : K) (hk : 0 < k) (c tol : K) (x y : List K) :
    PyRel Eq (notStrictlyMonotonic x y tol)
      (notStrictlyMonotonic (x.map (newTime k c)) (y.map (newFreq k)) tol) := by
  unfold notStrictlyMonotonic
  refine PyRel.bind (PyRel.pyGet (s := newTime k c) x 1) fun x1 x1' h1 => ?_
  refine PyRel.bind (PyRel.pyGet (s := newTime k c) x 0) fun x0 x0' h0 => ?_
  have : x1' - x0' = k * (x1 - x0) := by rw [h1, h0]; unfold newTime; ring
  rw [this]
  refine PyRel.bind (npGradient_rel k hk _ y) fun g g' hg => ?_
  subst hg
  exact .ok (anyConsecutive_scale (k * k) (mul_pos hk hk) tol g).symm

/-! ### Interpolation -/

theorem pairwise_map_lt {s : K → K} (hs : ∀ x y, s x < s y ↔ x < y) (l : List K) :
    (l.map s).Pairwise (· < ·) ↔ l.Pairwise (· < ·) := by
  rw [List.pairwise_map]
  simp only [hs]

theorem getInterpolant_map {s : K → K} (hs : ∀ x y, s x < s y ↔ x < y) (l : List K) (allow : Bool)
    (ip : Interpolator) (kw : SplineKwargs) (g : Bool) :
    getInterpolant (l.map s) allow ip kw g = getInterpolant l allow ip kw g := by
  unfold getInterpolant
  simp only [diff_pos_iff, pairwise_map_lt hs, List.length_map]

/-- `interpolate` under a change of both axes, when the tolerance plays no role. -/
theorem interpolate_rel {s g : K → K} (hs : ∀ x y, s x < s y ↔ x < y)
    {tol : K} (eval : InterpCall → List K → List K → K → Py K)
    (he : ∀ call x y u, (∃ a ∈ x, a ≤ u) → (∃ b ∈ x, u ≤ b) → eval call (x.map s) (y.map g) (s u) = (eval call x y u).map g)
    (newX oldX oldY : List K)
    (htol : (tol = 0) ∨ (0 ≤ tol ∧ ∀ lo hi, npMin oldX = .ok lo → npMax oldX = .ok hi → ∀ x ∈ newX, lo ≤ x ∧ x ≤ hi))
    (ip : Interpolator) (kw : SplineKwargs) (given : Bool) :
    PyRel (fun r r' => r' = r.map g) (interpolate tol eval newX oldX oldY false ip kw given)
      (interpolate tol eval (newX.map s) (oldX.map s) (oldY.map g) false ip kw given) := by
  have hmono : Monotone s := by
    intro x y h
    by_contra hc
    exact absurd ((hs y x).mp (not_le.mp hc)) (not_lt.mpr h)
  unfold interpolate
  refine PyRel.ite (by simp) (fun _ _ => .error _) fun _ _ => ?_
  simp only [Bool.false_eq_true, if_false]
  have fin : ∀ lo hi, npMin oldX = .ok lo → npMax oldX = .ok hi → (∀ x ∈ newX, lo ≤ x ∧ x ≤ hi) →
      PyRel (fun r r' => r' = r.map g)
      (getInterpolant oldX false ip kw given >>= fun r => newX.mapM (eval r.1 oldX oldY))
      (getInterpolant (oldX.map s) false ip kw given >>= fun r =>
        (newX.map s).mapM (eval r.1 (oldX.map s) (oldY.map g))) := by
    intro lo hi hlo hhi hin
    rw [getInterpolant_map hs]
    refine PyRel.bind (PyRel.refl (R := Eq) (fun _ => rfl) _) fun r r' hr => ?_
    subst hr
    exact PyRel.mapM newX fun x hx => PyRel.of_map (he _ _ _ _ ⟨lo, (npMin_spec hlo).1, (hin x hx).1⟩
      ⟨hi, (npMax_spec hhi).1, (hin x hx).2⟩)
  refine PyRel.bind (npMin_rel hmono newX) fun mn mn' hn => ?_
  refine PyRel.bind (npMin_rel hmono oldX) fun mo mo' ho => ?_
  refine PyRel.bind (npMax_rel hmono newX) fun Mn Mn' hn' => ?_
  refine PyRel.bind (npMax_rel hmono oldX) fun Mo Mo' ho' => ?_
  obtain ⟨rfl, e1⟩ := hn
  obtain ⟨rfl, e2⟩ := ho
  obtain ⟨rfl, e3⟩ := hn'
  obtain ⟨rfl, e4⟩ := ho'
  rcases htol with rfl | ⟨h0, hin⟩
  · refine PyRel.ite ?_ (fun _ _ => .error _) fun h _ => fin _ _ e2 e4 ?_
    · simp only [sub_zero, add_zero, gt_iff_lt, hs]
    · push Not at h
      rw [sub_zero, add_zero] at h
      exact fun x hx => ⟨h.1.trans ((npMin_spec e1).2 x hx), ((npMax_spec e3).2 x hx).trans h.2⟩
  · have hb := hin mo Mo e2 e4
    have b1 := (hb mn (npMin_spec e1).1).1
    have b2 := (hb Mn (npMax_spec e3).1).2
    rw [if_neg, if_neg]
    · exact fin _ _ e2 e4 hb
    · push Not
      exact ⟨by have := hmono b1; linarith, by have := hmono b2; linarith⟩
    · push Not
      exact ⟨by linarith, by linarith⟩

/-! ### Selection of extrema -/

theorem midpoints_sorted : ∀ p : List ℕ, p.Pairwise (· < ·) → (midpointApocenters p).Pairwise (· < ·)
  | [], _ => by simp [midpointApocenters]
  | [_], _ => by simp [midpointApocenters]
  | [_, _], _ => by simp [midpointApocenters]
  | a :: b :: c :: l, h => by
    have ih := midpoints_sorted (b :: c :: l) (List.pairwise_cons.mp h).2
    have hab := (List.pairwise_cons.mp h).1 b (by simp)
    have hbc := (List.pairwise_cons.mp (List.pairwise_cons.mp h).2).1 c (by simp)
    unfold midpointApocenters at ih ⊢
    simp only [List.dropLast_cons_cons, List.drop_succ_cons, List.drop_zero, List.zipWith_cons_cons] at ih ⊢
    rw [List.pairwise_cons]
    refine ⟨?_, ih⟩
    intro z hz
    rcases List.mem_cons.mp hz with rfl | hz
    · omega
    · have := (List.pairwise_cons.mp ih).1 z hz
      omega

theorem midpoints_bound (p : List ℕ) (n : ℕ) (h : ∀ i ∈ p, i < n) : ∀ i ∈ midpointApocenters p, i < n := by
  intro i hi
  unfold midpointApocenters at hi
  obtain ⟨j, hj, rfl⟩ := List.mem_iff_getElem.mp hi
  simp only [List.getElem_zipWith]
  have h1 := h _ (List.mem_of_mem_dropLast (List.getElem_mem (l := p.dropLast) (n := j) (by simp at hj ⊢; omega)))
  have h2 := h _ (List.mem_of_mem_drop (List.getElem_mem (l := p.drop 1) (n := j) (by simp at hj ⊢; omega)))
  omega

theorem mem_interleave_sub : ∀ (n : ℕ) (xs ys : List ℕ), xs.length + ys.length = n →
    ∀ z ∈ interleave xs ys, z ∈ xs ∨ z ∈ ys := by
  intro n
  induction n with
  | zero =>
    intro xs ys h z hz
    have : xs = [] := List.length_eq_zero_iff.mp (by omega)
    subst this; rw [interleave_nil] at hz; simp at hz
  | succ n ih =>
    intro xs ys h z hz
    cases xs with
    | nil => rw [interleave_nil] at hz; simp at hz
    | cons x xs =>
      rw [interleave_cons] at hz
      rcases List.mem_cons.mp hz with rfl | hz
      · simp
      · rcases ih ys xs (by simp at h; omega) z hz with h | h
        · exact Or.inr h
        · left; simp [h]

theorem checkAlternate_rel {k : K} (hk : 0 < k) (c : K) {t t' : ℕ → K} (level : ℤ) (p a : List ℕ)
    (ht : ∀ i, i ∈ p ∨ i ∈ a → t' i = newTime k c (t i)) : checkAlternate t' level p a = checkAlternate t level p a := by
  unfold checkAlternate
  split
  · rfl
  split
  · rfl
  have key : ∀ arr : List ℕ × List ℕ, (∀ z ∈ arr.1, z ∈ p ∨ z ∈ a) → (∀ z ∈ arr.2, z ∈ p ∨ z ∈ a) →
      (diff ((interleave arr.1 arr.2).map t')).any (fun d => decide (d < 0))
        = (diff ((interleave arr.1 arr.2).map t)).any (fun d => decide (d < 0)) := by
    intro arr h1 h2
    have : (interleave arr.1 arr.2).map t' = ((interleave arr.1 arr.2).map t).map (newTime k c) := by
      rw [List.map_map]
      apply List.map_congr_left
      intro z hz
      exact ht z ((mem_interleave_sub _ _ _ rfl z hz).elim (h1 z) (h2 z))
    rw [this, diff_newTime hk]
    apply any_map_of
    intro x
    rw [decide_eq_decide]
    constructor
    · intro h; by_contra hc; exact absurd (mul_nonneg hk.le (not_lt.mp hc)) (not_le.mpr h)
    · intro h; exact mul_neg_of_pos_of_neg hk h
  by_cases hlen : p.length = a.length
  · simp only [if_pos hlen]
    cases hp : pyGet p 0 with
    | error err => rfl
    | ok p0 =>
      cases ha : pyGet a 0 with
      | error err => rfl
      | ok a0 =>
        simp only [ok_bind, pure_eq_ok]
        obtain ⟨hi, rfl⟩ := pyGet_ok hp
        obtain ⟨hj, rfl⟩ := pyGet_ok ha
        rw [ht _ (Or.inl (List.getElem_mem hi)), ht _ (Or.inr (List.getElem_mem hj))]
        simp only [newTime_lt hk c]
        rw [key _ (by split <;> intro z hz <;> simp_all) (by split <;> intro z hz <;> simp_all)]
  · simp only [if_neg hlen, pure_eq_ok, ok_bind]
    rw [key _ (by split <;> intro z hz <;> simp_all) (by split <;> intro z hz <;> simp_all)]

theorem checkSeparation_rel (pi : K) (level : ℤ) (b : Bool) (ph ts ts' : List K) :
    PyRel (fun _ _ => True) (checkSeparation pi level b ph ts) (checkSeparation pi level b ph ts') := by
  unfold checkSeparation
  refine PyRel.ite Iff.rfl (fun _ _ => .ok trivial) fun _ _ => ?_
  refine PyRel.bind (R := fun _ _ => True) ?_ fun _ _ _ => ?_
  · refine PyRel.ite Iff.rfl (fun _ _ => ?_) fun _ _ => .ok trivial
    exact PyRel.bind (PyRel.refl (R := Eq) (fun _ => rfl) _) fun _ _ _ => .ok trivial
  refine PyRel.bind (R := fun _ _ => True) ?_ fun _ _ _ => ?_
  · refine PyRel.ite Iff.rfl (fun _ _ => ?_) fun _ _ => .ok trivial
    exact PyRel.bind (PyRel.refl (R := Eq) (fun _ => rfl) _) fun _ _ _ => .ok trivial
  refine PyRel.bind (R := fun _ _ => True) ?_ fun _ _ _ => .ok trivial
  refine PyRel.ite Iff.rfl (fun _ _ => ?_) fun _ _ => .ok trivial
  exact PyRel.bind (PyRel.refl (R := Eq) (fun _ => rfl) _) fun _ _ _ => .ok trivial

/-- Selected extrema are among those found. -/
def ValidIdx (o : Obj K) (p : List ℕ) : Prop := ∀ i ∈ p, i < o.t.length

theorem settleExtrema_rel {k : K} (hk : 0 < k) (c : K) (e : Ext K) (o : Obj K) (p a : List ℕ)
    (hp : p.Pairwise (· < ·)) (ha : a.Pairwise (· < ·)) (vp : ValidIdx o p) (va : ValidIdx o a) :
    PyRel (fun r r' => r' = r ∧ ValidIdx o r.1 ∧ ValidIdx o r.2) (settleExtrema e o p a)
      (settleExtrema e (newObj k c o) p a) := by
  unfold settleExtrema
  cases hg : getGoodExtrema (at' o.phase) (3 / 2) (4 * e.pi) o.level p a with
  | error err =>
    have : getGoodExtrema (at' (newObj k c o).phase) (3 / 2) (4 * e.pi) (newObj k c o).level p a = .error err := hg
    rw [this]; exact .error _
  | ok r =>
    have : getGoodExtrema (at' (newObj k c o).phase) (3 / 2) (4 * e.pi) (newObj k c o).level p a = .ok r := hg
    rw [this]
    obtain ⟨p1, a1⟩ := r
    have hsub := C23_contiguous _ _ _ _ _ _ _ _ hp ha hg
    have vp1 : ValidIdx o p1 := fun i hi => vp i (hsub.1.subset hi)
    have va1 : ValidIdx o a1 := fun i hi => va i (hsub.2.1.subset hi)
    simp only [ok_bind]
    refine PyRel.bind (PyRel.refl (R := Eq) (fun _ => rfl) _) fun _ _ _ => ?_
    refine PyRel.bind (PyRel.refl (R := Eq) (fun _ => rfl) _) fun _ _ _ => ?_
    set q := (if (o.precessing && o.filtered) = true then (p1.drop 1, a1.drop 1) else (p1, a1)) with hq
    have hq' : (if ((newObj k c o).precessing && (newObj k c o).filtered) = true then (p1.drop 1, a1.drop 1)
        else (p1, a1)) = q := rfl
    rw [hq']
    have vq : ValidIdx o q.1 ∧ ValidIdx o q.2 := by
      rw [hq]
      split
      · exact ⟨fun i hi => vp1 i (List.mem_of_mem_drop hi), fun i hi => va1 i (List.mem_of_mem_drop hi)⟩
      · exact ⟨vp1, va1⟩
    obtain ⟨q1, q2⟩ := q
    simp only at vq ⊢
    have e1 : checkAlternate (at' (newObj k c o).t) (newObj k c o).level q1 q2
        = checkAlternate (at' o.t) o.level q1 q2 := by
      apply checkAlternate_rel hk c
      rintro i (hi | hi)
      · exact at_map (Or.inl (vq.1 i hi))
      · exact at_map (Or.inl (vq.2 i hi))
    rw [e1]
    refine PyRel.bind (PyRel.refl (R := Eq) (fun _ => rfl) _) fun _ _ _ => ?_
    refine PyRel.bind (checkSeparation_rel _ _ _ _ _ _) fun _ _ _ => ?_
    refine PyRel.bind (checkSeparation_rel _ _ _ _ _ _) fun _ _ _ => ?_
    exact .ok ⟨rfl, vq.1, vq.2⟩

end GwEcc
