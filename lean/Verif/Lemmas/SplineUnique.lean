import Mathlib.Analysis.Calculus.MeanValue
import Mathlib.Analysis.Calculus.Deriv.Polynomial
import Mathlib.Algebra.Polynomial.Roots
import Mathlib.Tactic.Linarith
import Mathlib.Tactic.Positivity
import Mathlib.Tactic.Ring

/-!
# Uniqueness of spline interpolation

A spline with knots `τ 0 < … < τ (N - 1)` that vanishes at `N + k + 1` points `x` with `x j < τ j < x (j + k + 1)` is zero
(Schoenberg and Whitney).  The proof counts sign changes: between zeros of a function its derivative takes both signs, and the
highest derivative of a spline is constant between knots.
-/

namespace GwEcc.SplineU

open Polynomial Finset

/-- `max(v, 0) ** d`, with the right limit at `v = 0` for `d = 0` -/
noncomputable def tp (d : ℕ) (v : ℝ) : ℝ := if 0 ≤ v then v ^ d else 0

/-- A spline of degree `d` with knots `τ 0, …, τ (N - 1)`. -/
noncomputable def sv (d N : ℕ) (τ : ℕ → ℝ) (P : ℝ[X]) (c : ℕ → ℝ) (u : ℝ) : ℝ :=
  P.eval u + ∑ i ∈ range N, c i * tp d (u - τ i)

/-- The polynomial that the spline is after `j` knots. -/
noncomputable def piece (d : ℕ) (τ : ℕ → ℝ) (P : ℝ[X]) (c : ℕ → ℝ) (j : ℕ) : ℝ[X] :=
  P + ∑ i ∈ range j, C (c i) * (X - C (τ i)) ^ d

/-- The number of knots up to `u` is `j`. -/
def Past (N : ℕ) (τ : ℕ → ℝ) (u : ℝ) (j : ℕ) : Prop :=
  j ≤ N ∧ (∀ i < j, τ i ≤ u) ∧ ∀ i, j ≤ i → i < N → u < τ i

theorem exists_past (N : ℕ) (τ : ℕ → ℝ) (hτ : ∀ i j, i < j → j < N → τ i < τ j) (u : ℝ) : ∃ j, Past N τ u j := by
  induction N with
  | zero => exact ⟨0, le_rfl, fun i h => absurd h (by omega), fun i _ h => absurd h (by omega)⟩
  | succ N ih =>
    obtain ⟨j, h1, h2, h3⟩ := ih fun i j h h' => hτ i j h (by omega)
    by_cases h : τ N ≤ u
    · refine ⟨N + 1, le_rfl, fun i hi => ?_, fun i h h' => absurd h' (by omega)⟩
      rcases Nat.lt_succ_iff_lt_or_eq.1 hi with hi | rfl
      · exact (hτ i N hi (by omega)).le.trans h
      · exact h
    · refine ⟨j, by omega, h2, fun i hi hi' => ?_⟩
      rcases Nat.lt_succ_iff_lt_or_eq.1 hi' with hi' | rfl
      · exact h3 i hi hi'
      · exact not_le.1 h

theorem sv_eq_piece {d N : ℕ} {τ : ℕ → ℝ} {u : ℝ} {j : ℕ} (h : Past N τ u j) (P : ℝ[X]) (c : ℕ → ℝ) :
    sv d N τ P c u = (piece d τ P c j).eval u := by
  obtain ⟨h1, h2, h3⟩ := h
  have e : ∑ i ∈ range N, c i * tp d (u - τ i) = ∑ i ∈ range j, c i * (u - τ i) ^ d := by
    rw [← Finset.sum_subset (Finset.range_subset_range.2 h1)]
    · refine Finset.sum_congr rfl fun i hi => ?_
      rw [tp, if_pos (sub_nonneg.2 (h2 i (Finset.mem_range.1 hi)))]
    · intro i hi hi'
      rw [tp, if_neg, mul_zero]
      have := h3 i (not_lt.1 fun h => hi' (Finset.mem_range.2 h)) (Finset.mem_range.1 hi)
      linarith
  rw [sv, e, piece, eval_add, eval_finsetSum]
  simp

/-- The derivative from the right. -/
theorem tp_deriv (d : ℕ) (τ u : ℝ) :
    HasDerivWithinAt (fun v => tp (d + 1) (v - τ)) ((d + 1) * tp d (u - τ)) (Set.Ici u) u := by
  by_cases h : τ ≤ u
  · have h1 : HasDerivWithinAt (fun v => (v - τ) ^ (d + 1)) ((d + 1) * tp d (u - τ)) (Set.Ici u) u := by
      have := ((hasDerivAt_id u).sub_const τ).pow (d + 1)
      rw [tp, if_pos (sub_nonneg.2 h)]
      have h2 : HasDerivWithinAt (fun v : ℝ => (v - τ) ^ (d + 1)) _ (Set.Ici u) u := this.hasDerivWithinAt
      refine h2.congr_deriv ?_
      simp
    refine h1.congr (fun v hv => ?_) ?_
    · rw [tp, if_pos (sub_nonneg.2 (h.trans hv))]
    · rw [tp, if_pos (sub_nonneg.2 h)]
  · have hu : u < τ := not_le.1 h
    have h1 : HasDerivAt (fun v => tp (d + 1) (v - τ)) 0 u := by
      refine (hasDerivAt_const u (0 : ℝ)).congr_of_eventuallyEq ?_
      filter_upwards [Iio_mem_nhds hu] with v hv
      rw [tp, if_neg]
      have : v < τ := hv
      linarith
    have e : (d + 1) * tp d (u - τ) = 0 := by
      rw [tp, if_neg (by linarith), mul_zero]
    rw [e]
    exact h1.hasDerivWithinAt

theorem sv_deriv (d N : ℕ) (τ : ℕ → ℝ) (P : ℝ[X]) (c : ℕ → ℝ) (u : ℝ) :
    HasDerivWithinAt (sv (d + 1) N τ P c) (sv d N τ (derivative P) (fun i => (d + 1) * c i) u) (Set.Ici u) u := by
  have h1 := (P.hasDerivAt u).hasDerivWithinAt (s := Set.Ici u)
  have h2 : HasDerivWithinAt (fun v => ∑ i ∈ range N, c i * tp (d + 1) (v - τ i))
      (∑ i ∈ range N, c i * ((d + 1) * tp d (u - τ i))) (Set.Ici u) u := by
    have := HasDerivWithinAt.fun_sum (u := range N) (A := fun i v => c i * tp (d + 1) (v - τ i))
      (A' := fun i => c i * ((d + 1) * tp d (u - τ i))) (x := u) (s := Set.Ici u)
      fun i _ => (tp_deriv d (τ i) u).const_mul (c i)
    exact this
  have := h1.add h2
  refine this.congr_deriv ?_
  rw [sv]
  congr 1
  exact Finset.sum_congr rfl fun i _ => by ring

theorem tp_continuous (d : ℕ) : Continuous (tp (d + 1)) := by
  have : tp (d + 1) = fun v => max v 0 ^ (d + 1) := by
    funext v
    rw [tp]
    split_ifs with h
    · rw [max_eq_left h]
    · rw [max_eq_right (not_le.1 h).le, zero_pow (Nat.succ_ne_zero d)]
  rw [this]
  fun_prop

theorem sv_continuous (d N : ℕ) (τ : ℕ → ℝ) (P : ℝ[X]) (c : ℕ → ℝ) : Continuous (sv (d + 1) N τ P c) := by
  have := tp_continuous d
  unfold sv
  have h : Continuous fun u => P.eval u := continuous_iff_continuousAt.2 fun u => (P.hasDerivAt u).continuousAt
  fun_prop

/-- If the function grows between two points (or, with `σ < 0`, falls), so its derivative from the right is positive at a point
in between. -/
theorem exists_slope {f g : ℝ → ℝ} (hf : Continuous f) (hg : ∀ u, HasDerivWithinAt f (g u) (Set.Ici u) u) {a b σ : ℝ}
    (hab : a ≤ b) (h : σ * f a < σ * f b) : ∃ v, a ≤ v ∧ v < b ∧ 0 < σ * g v := by
  by_contra hn
  push Not at hn
  have h1 := image_le_of_deriv_right_le_deriv_boundary (f := fun u => σ * f u) (f' := fun u => σ * g u) (a := a) (b := b)
    (hf.const_smul σ).continuousOn (fun x _ => (hg x).const_mul σ) (B := fun _ => σ * f a) (B' := fun _ => 0) le_rfl
    continuousOn_const (fun x _ => hasDerivWithinAt_const x _ _) (fun x hx => hn x hx.1 hx.2) (Set.right_mem_Icc.2 hab)
  linarith

/-- Points in order, from `lo` and below `hi`, at which the function has alternating signs, the sign of `σ` first. -/
def Alt (f : ℝ → ℝ) (hi : ℝ) : ℝ → ℝ → List ℝ → Prop
  | _, _, [] => True
  | lo, σ, u :: l => lo ≤ u ∧ u < hi ∧ 0 < σ * f u ∧ Alt f hi u (-σ) l

theorem Alt.from {f : ℝ → ℝ} {hi lo lo' σ : ℝ} {l : List ℝ} (h : Alt f hi lo σ l) (hl : lo' ≤ lo) : Alt f hi lo' σ l := by
  cases l with
  | nil => trivial
  | cons u l => exact ⟨hl.trans h.1, h.2⟩

/-- Sign changes of a function that starts with the other sign (or zero), and those of its derivative; one more if the
function ends with zero. -/
theorem alt_step_aux {f g : ℝ → ℝ} (hf : Continuous f) (hg : ∀ u, HasDerivWithinAt f (g u) (Set.Ici u) u) {hi : ℝ} :
    ∀ {lo σ : ℝ} {l : List ℝ}, σ * f lo ≤ 0 → lo ≤ hi → Alt f hi lo σ l →
    (∃ l', Alt g hi lo σ l' ∧ l'.length = l.length) ∧
    (f hi = 0 → (σ * f lo < 0 ∨ l ≠ []) → ∃ l', Alt g hi lo σ l' ∧ l'.length = l.length + 1)
  | lo, σ, [], h0, hle, _ => by
    refine ⟨⟨[], trivial, rfl⟩, fun hz h => ?_⟩
    have h : σ * f lo < 0 := h.elim id fun h => absurd rfl h
    obtain ⟨v, h1, h2, h3⟩ := exists_slope hf hg (σ := σ) hle (by rw [hz]; simpa using h)
    exact ⟨[v], ⟨h1, h2, h3, trivial⟩, rfl⟩
  | lo, σ, u :: l, h0, _, ha => by
    obtain ⟨h1, h2, h3, h4⟩ := ha
    obtain ⟨v, v1, v2, v3⟩ := exists_slope hf hg (σ := σ) h1 (h0.trans_lt h3)
    have hneg : -σ * f u < 0 := by linarith
    obtain ⟨i1, i2⟩ := alt_step_aux hf hg hneg.le h2.le h4
    refine ⟨?_, fun hz _ => ?_⟩
    · obtain ⟨l', l1, l2⟩ := i1
      exact ⟨v :: l', ⟨v1, v2.trans h2, v3, l1.from v2.le⟩, by simp [l2]⟩
    · obtain ⟨l', l1, l2⟩ := i2 hz (.inl hneg)
      exact ⟨v :: l', ⟨v1, v2.trans h2, v3, l1.from v2.le⟩, by simp [l2]⟩

/-- One derivative loses at most one sign change, and none that is enclosed by zeros. -/
theorem alt_step {f g : ℝ → ℝ} (hf : Continuous f) (hg : ∀ u, HasDerivWithinAt f (g u) (Set.Ici u) u) {hi lo σ : ℝ}
    {l : List ℝ} (h : Alt f hi lo σ l) (hl : l ≠ []) (eL eR : ℕ) (hL : eL = 0 ∨ eL = 1 ∧ f lo = 0)
    (hR : eR = 0 ∨ eR = 1 ∧ f hi = 0) :
    ∃ σ' l', Alt g hi lo σ' l' ∧ l.length + eL + eR ≤ l'.length + 1 := by
  cases l with
  | nil => exact absurd rfl hl
  | cons u l =>
    have ha := h
    obtain ⟨h1, h2, h3, h4⟩ := h
    rcases hL with rfl | ⟨rfl, hz⟩
    · have hneg : -σ * f u < 0 := by linarith
      obtain ⟨⟨l', l1, l2⟩, i2⟩ := alt_step_aux hf hg hneg.le h2.le h4
      rcases hR with rfl | ⟨rfl, hz⟩
      · exact ⟨-σ, l', l1.from h1, by simp [l2]⟩
      · obtain ⟨l', l1, l2⟩ := i2 hz (.inl hneg)
        exact ⟨-σ, l', l1.from h1, by simp [l2]⟩
    · obtain ⟨⟨l', l1, l2⟩, i2⟩ := alt_step_aux hf hg (lo := lo) (σ := σ) (by rw [hz, mul_zero]) (h1.trans h2.le) ha
      rcases hR with rfl | ⟨rfl, hz'⟩
      · exact ⟨σ, l', l1, by simp [l2]⟩
      · obtain ⟨l', l1, l2⟩ := i2 hz' (.inr (by simp))
        exact ⟨σ, l', l1, by simp [l2]⟩

/-- Between zeros of a function, not zero everywhere in between, the derivative takes both signs. -/
theorem alt_of_zeros_aux {f g : ℝ → ℝ} (hf : Continuous f) (hg : ∀ u, HasDerivWithinAt f (g u) (Set.Ici u) u) {hi : ℝ} :
    ∀ {z : ℝ} {zs : List ℝ} (σ : ℝ), σ ≠ 0 → (z :: zs).IsChain (· < ·) → (∀ y ∈ z :: zs, f y = 0 ∧ y ≤ hi) →
    (∀ a b, z ≤ a → a < b → b ≤ hi → ∃ u, a < u ∧ u < b ∧ f u ≠ 0) →
    ∃ l, Alt g hi z σ l ∧ l.length = zs.length
  | _, [], _, _, _, _, _ => ⟨[], trivial, rfl⟩
  | z, y :: zs, σ, hσ, hc, hz, hn => by
    have hzy : z < y := (List.isChain_cons_cons.1 hc).1
    have hyhi : y ≤ hi := (hz y (by simp)).2
    obtain ⟨l, l1, l2⟩ := alt_of_zeros_aux hf hg (-σ) (neg_ne_zero.2 hσ) (List.isChain_cons_cons.1 hc).2
      (fun w hw => hz w (List.mem_cons_of_mem _ hw)) (fun a b ha => hn a b (hzy.le.trans ha))
    obtain ⟨u, u1, u2, u3⟩ := hn z y le_rfl hzy hyhi
    have z0 : f z = 0 := (hz z (by simp)).1
    have y0 : f y = 0 := (hz y (by simp)).1
    have : ∃ v, z ≤ v ∧ v < y ∧ 0 < σ * g v := by
      rcases lt_or_gt_of_ne (mul_ne_zero hσ u3) with h | h
      · obtain ⟨v, v1, v2, v3⟩ := exists_slope hf hg (σ := σ) u2.le (by rw [y0, mul_zero]; exact h)
        exact ⟨v, u1.le.trans v1, v2, v3⟩
      · obtain ⟨v, v1, v2, v3⟩ := exists_slope hf hg (σ := σ) u1.le (by rw [z0, mul_zero]; exact h)
        exact ⟨v, v1, v2.trans u2, v3⟩
    obtain ⟨v, v1, v2, v3⟩ := this
    exact ⟨v :: l, ⟨v1, v2.trans_le hyhi, v3, l1.from v2.le⟩, by simp [l2]⟩

theorem alt_of_zeros {f g : ℝ → ℝ} (hf : Continuous f) (hg : ∀ u, HasDerivWithinAt f (g u) (Set.Ici u) u) {hi : ℝ}
    {z : ℝ} {zs : List ℝ} (hne : zs ≠ []) (hc : (z :: zs).IsChain (· < ·)) (hz : ∀ y ∈ z :: zs, f y = 0 ∧ y ≤ hi)
    (hn : ∀ a b, z ≤ a → a < b → b ≤ hi → ∃ u, a < u ∧ u < b ∧ f u ≠ 0) :
    ∃ σ l, Alt g hi z σ l ∧ l.length = zs.length + 1 := by
  cases zs with
  | nil => exact absurd rfl hne
  | cons y zs =>
    have hzy : z < y := (List.isChain_cons_cons.1 hc).1
    have hyhi : y ≤ hi := (hz y (by simp)).2
    obtain ⟨u, u1, u2, u3⟩ := hn z y le_rfl hzy hyhi
    have z0 : f z = 0 := (hz z (by simp)).1
    have y0 : f y = 0 := (hz y (by simp)).1
    have hpos : 0 < f u * f u := mul_self_pos.2 u3
    obtain ⟨v, v1, v2, v3⟩ := exists_slope hf hg (σ := f u) u1.le (by rw [z0, mul_zero]; exact hpos)
    obtain ⟨w, w1, w2, w3⟩ := exists_slope hf hg (σ := -f u) u2.le (by rw [y0, mul_zero]; linarith)
    obtain ⟨l, l1, l2⟩ := alt_of_zeros_aux hf hg (- -f u) (by simpa using u3) (List.isChain_cons_cons.1 hc).2
      (fun w hw => hz w (List.mem_cons_of_mem _ hw)) (fun a b ha => hn a b (hzy.le.trans ha))
    exact ⟨f u, v :: w :: l, ⟨v1, (v2.trans u2).trans_le hyhi, v3, (v2.trans_le w1).le, w2.trans_le hyhi, w3, l1.from w2.le⟩,
      by simp [l2]⟩

/-- A piecewise constant function has at most as many signs as pieces. -/
theorem alt_const {f : ℝ → ℝ} {N : ℕ} {τ : ℕ → ℝ} (hτ : ∀ i j, i < j → j < N → τ i < τ j) {val : ℕ → ℝ}
    (hf : ∀ u j, Past N τ u j → f u = val j) {hi : ℝ} {q : ℕ} (hq : q < N → hi ≤ τ q) :
    ∀ {lo σ : ℝ} {l : List ℝ} (p : ℕ), p ≤ q + 1 → Alt f hi lo σ l →
    (∀ u j, lo ≤ u → u < hi → 0 < σ * f u → Past N τ u j → p ≤ j) → l.length + p ≤ q + 1
  | _, _, [], p, hp, _, _ => by simpa using hp
  | lo, σ, u :: l, p, hp, h, hj => by
    obtain ⟨h1, h2, h3, h4⟩ := h
    obtain ⟨j, pj⟩ := exists_past N τ hτ u
    have hpj := hj u j h1 h2 h3 pj
    have hjq : j ≤ q := by
      by_contra hlt
      have hlt := not_le.1 hlt
      have := pj.2.1 q hlt
      exact absurd (this.trans_lt h2) (not_lt.2 (hq (hlt.trans_le pj.1)))
    have := alt_const hτ hf hq (l := l) (lo := u) (σ := -σ) (j + 1) (by omega) h4 fun w i w1 w2 w3 pi => ?_
    · simp only [List.length_cons]; omega
    · have hle : j ≤ i := by
        by_contra hlt
        have hlt := not_le.1 hlt
        exact absurd ((pj.2.1 i hlt).trans w1) (not_le.2 (pi.2.2 i le_rfl (hlt.trans_le pj.1)))
      rcases hle.lt_or_eq with h | rfl
      · exact h
      · rw [hf w _ pi] at w3
        rw [hf u _ pj] at h3
        linarith

theorem piece_derivative (d : ℕ) (τ : ℕ → ℝ) (P : ℝ[X]) (c : ℕ → ℝ) (j : ℕ) :
    piece d τ (derivative P) (fun i => (d + 1) * c i) j = derivative (piece (d + 1) τ P c j) := by
  simp only [piece, derivative_add, derivative_sum]
  congr 1
  refine Finset.sum_congr rfl fun i _ => ?_
  simp only [derivative_mul, derivative_C, zero_mul, derivative_X_sub_C_pow, zero_add, map_mul, Nat.add_sub_cancel]
  push_cast
  simp only [map_add, map_natCast, map_one]
  ring

/-- The count: sign changes of a spline of degree `d`, on the pieces `p` to `q`. -/
theorem alt_count {N : ℕ} {τ : ℕ → ℝ} (hτ : ∀ i j, i < j → j < N → τ i < τ j) {lo hi : ℝ} {p q : ℕ} (hpq : p ≤ q)
    (hlo : ∀ i < p, τ i ≤ lo) (hqN : q ≤ N) (hhi : q < N → hi ≤ τ q) (eL eR : ℕ)
    (hL : eL = 0 ∨ eL = 1 ∧ ∃ p', p = p' + 1 ∧ lo = τ p') (hR : eR = 0 ∨ eR = 1 ∧ q < N ∧ hi = τ q) :
    ∀ (d : ℕ) (P : ℝ[X]) (c : ℕ → ℝ) (σ : ℝ) (l : List ℝ), Alt (sv d N τ P c) hi lo σ l → (l ≠ [] ∨ eL + eR = 0) →
    (eL = 1 → ∀ p', p = p' + 1 → piece d τ P c p' = 0) → (eR = 1 → piece d τ P c (q + 1) = 0) → (0 < d ∨ P.degree ≤ 0) →
    P.degree ≤ d →
    l.length + d * (eL + eR) + p ≤ q + 1 + d
  | 0, P, c, σ, l, ha, _, _, _, hP, _ => by
    have hP : P.degree ≤ 0 := hP.elim (fun h => absurd h (lt_irrefl _)) id
    have := alt_const hτ (f := sv 0 N τ P c) (val := fun j => (piece 0 τ P c j).eval 0) (fun u j hj => ?_) hhi p (by omega) ha ?_
    · simpa using this
    · rw [sv_eq_piece hj]
      rw [Polynomial.eq_C_of_degree_le_zero hP]
      simp [piece, eval_finsetSum]
    · intro u j h1 h2 h3 pj
      by_contra hlt
      have hlt := not_le.1 hlt
      exact absurd ((hlo j hlt).trans h1) (not_le.2 (pj.2.2 j le_rfl (by omega)))
  | d + 1, P, c, σ, l, ha, hl, hpL, hpR, _, hdeg => by
    by_cases hn : l = []
    · subst hn
      have : eL + eR = 0 := hl.elim (fun h => absurd rfl h) id
      simp [this]; omega
    have kL : eL = 0 ∨ eL = 1 ∧ sv (d + 1) N τ P c lo = 0 := by
      rcases hL with h | ⟨h, p', e1, e2⟩
      · exact .inl h
      · refine .inr ⟨h, ?_⟩
        have past : Past N τ lo (p' + 1) := by
          refine ⟨by omega, fun i hi => hlo i (by omega), fun i h1 h2 => ?_⟩
          rw [e2]; exact hτ p' i (by omega) h2
        rw [sv_eq_piece past, piece, Finset.sum_range_succ, ← add_assoc, ← piece, hpL h p' e1, e2]
        simp
    have kR : eR = 0 ∨ eR = 1 ∧ sv (d + 1) N τ P c hi = 0 := by
      rcases hR with h | ⟨h, e1, e2⟩
      · exact .inl h
      · refine .inr ⟨h, ?_⟩
        have past : Past N τ hi (q + 1) := by
          refine ⟨by omega, fun i hi => ?_, fun i h1 h2 => ?_⟩
          · rw [e2]
            rcases Nat.lt_succ_iff_lt_or_eq.1 hi with h | rfl
            · exact (hτ i q h e1).le
            · exact le_rfl
          · rw [e2]; exact hτ q i (by omega) h2
        rw [sv_eq_piece past, hpR h, eval_zero]
    obtain ⟨σ', l', a', hlen⟩ := alt_step (sv_continuous d N τ P c) (sv_deriv d N τ P c) ha hn eL eR kL kR
    have hpos : 0 < l.length := List.length_pos_of_ne_nil hn
    have hdeg' : (derivative P).degree ≤ d := by
      have := Polynomial.natDegree_derivative_le P
      have h2 := Polynomial.natDegree_le_of_degree_le hdeg
      exact Polynomial.degree_le_of_natDegree_le (by omega)
    have := alt_count hτ hpq hlo hqN hhi eL eR hL hR d (derivative P) (fun i => (d + 1) * c i) σ' l' a' (by
        by_cases h : eL + eR = 0
        · exact .inr h
        · left
          intro h0
          subst h0
          simp at hlen
          omega) (fun h p' e => by rw [piece_derivative, hpL h p' e, derivative_zero])
        (fun h => by rw [piece_derivative, hpR h, derivative_zero]) (by
          rcases Nat.eq_zero_or_pos d with rfl | h
          · exact .inr (by simpa using hdeg')
          · exact .inl h) hdeg'
    have e : (d + 1) * (eL + eR) = d * (eL + eR) + (eL + eR) := by ring
    rw [e]
    omega

/-- **Schoenberg and Whitney**: a spline with zeros among its knots is zero. -/
theorem sv_unique {k N : ℕ} (hk : 1 ≤ k) {τ x : ℕ → ℝ} (hτ : ∀ i j, i < j → j < N → τ i < τ j)
    (hx : ∀ i j, i < j → j < N + k + 1 → x i < x j) (h1 : ∀ j < N, x j < τ j) (h2 : ∀ j < N, τ j < x (j + k + 1))
    {P : ℝ[X]} (hP : P.degree ≤ k) {c : ℕ → ℝ} (h0 : ∀ i < N + k + 1, sv k N τ P c (x i) = 0) :
    P = 0 ∧ ∀ i < N, c i = 0 := by
  classical
  by_cases hall : ∀ j ≤ N, piece k τ P c j = 0
  · refine ⟨by simpa [piece] using hall 0 (Nat.zero_le _), fun i hi => ?_⟩
    have a := hall (i + 1) hi
    rw [piece, Finset.sum_range_succ, ← add_assoc, ← piece, hall i hi.le, zero_add] at a
    have b := congrArg (Polynomial.eval (τ i + 1)) a
    simpa using b
  exfalso
  push Not at hall
  -- the first piece that is not zero
  let p := Nat.find hall
  have hp : p ≤ N ∧ piece k τ P c p ≠ 0 := Nat.find_spec hall
  have hpmin : ∀ j < p, piece k τ P c j = 0 := fun j hj => by
    by_contra h
    exact Nat.find_min hall hj ⟨(hj.trans_le hp.1).le, h⟩
  -- the end of the pieces that are not zero
  have hex : ∃ r, p < r ∧ (N < r ∨ piece k τ P c r = 0) := ⟨N + 1, by omega, .inl (by omega)⟩
  obtain ⟨r, hr, hrmin⟩ : ∃ r, (p < r ∧ (N < r ∨ piece k τ P c r = 0)) ∧
      ∀ j < r, ¬ (p < j ∧ (N < j ∨ piece k τ P c j = 0)) := ⟨Nat.find hex, Nat.find_spec hex, fun _ => Nat.find_min hex⟩
  obtain ⟨q, rfl⟩ : ∃ q, r = q + 1 := ⟨r - 1, by omega⟩
  have hpq : p ≤ q := by omega
  have hqN : q ≤ N := by
    by_contra h
    exact hrmin q (by omega) ⟨by omega, .inl (by omega)⟩
  have hnz : ∀ j, p ≤ j → j ≤ q → piece k τ P c j ≠ 0 := by
    intro j h3 h4 h5
    rcases h3.lt_or_eq with h | h
    · exact hrmin j (by omega) ⟨h, .inr h5⟩
    · exact hp.2 (h ▸ h5)
  -- ends, and zeros in between
  let eL := if 0 < p then 1 else 0
  let eR := if q < N then 1 else 0
  let iL := if 0 < p then p + k else 0
  let iR := if q < N then q else N + k
  let nodes := (List.range' iL (iR + 1 - iL)).map x
  let zs := (if 0 < p then [τ (p - 1)] else []) ++ nodes ++ (if q < N then [τ q] else [])
  have hlen : zs.length = eL + (iR + 1 - iL) + eR := by
    simp only [zs, nodes, eL, eR, List.length_append, List.length_map, List.length_range']
    split_ifs <;> simp
  have hiR : iR < N + k + 1 := by simp only [iR]; split_ifs <;> omega
  have hchain : zs.IsChain (· < ·) := by
    refine List.Pairwise.isChain ?_
    simp only [zs, nodes]
    have hnodes : (List.map x (List.range' iL (iR + 1 - iL))).Pairwise (· < ·) := by
      rw [List.pairwise_map]
      refine (List.pairwise_lt_range' (s := iL) (n := iR + 1 - iL)).imp_of_mem fun {a b} ha hb h => hx a b h ?_
      have := List.mem_range'_1.1 hb
      omega
    have hleft : 0 < p → ∀ i, iL ≤ i → i ≤ iR → τ (p - 1) < x i := by
      intro h i h3 h4
      simp only [iL, if_pos h] at h3
      have a := h2 (p - 1) (by omega)
      rw [show p - 1 + k + 1 = p + k by omega] at a
      rcases h3.lt_or_eq with h5 | rfl
      · exact a.trans (hx _ _ h5 (by omega))
      · exact a
    have hright : q < N → ∀ i, iL ≤ i → i ≤ iR → x i < τ q := by
      intro h i h3 h4
      simp only [iR, if_pos h] at h4
      rcases h4.lt_or_eq with h5 | rfl
      · exact (hx _ _ h5 (by omega)).trans (h1 q h)
      · exact h1 _ h
    have hmem : ∀ y ∈ List.map x (List.range' iL (iR + 1 - iL)), ∃ i, iL ≤ i ∧ i ≤ iR ∧ y = x i := by
      intro y hy
      obtain ⟨i, hi, rfl⟩ := List.mem_map.1 hy
      have := List.mem_range'_1.1 hi
      exact ⟨i, by omega, by omega, rfl⟩
    rw [List.append_assoc, List.pairwise_append]
    refine ⟨by split_ifs <;> simp, ?_, ?_⟩
    · rw [List.pairwise_append]
      refine ⟨hnodes, by split_ifs <;> simp, fun a ha b hb => ?_⟩
      split_ifs at hb with h
      · obtain ⟨i, i1, i2, rfl⟩ := hmem a ha
        rw [List.mem_singleton.1 hb]
        exact hright h i i1 i2
      · simp at hb
    · intro a ha b hb
      split_ifs at ha with h
      · rw [List.mem_singleton.1 ha]
        rcases List.mem_append.1 hb with hb | hb
        · obtain ⟨i, i1, i2, rfl⟩ := hmem b hb
          exact hleft h i i1 i2
        · split_ifs at hb with h'
          · rw [List.mem_singleton.1 hb]
            exact hτ _ _ (by omega) h'
          · simp at hb
      · simp at ha
  let lo := if 0 < p then τ (p - 1) else x 0
  let hi := if q < N then τ q else x (N + k)
  obtain ⟨rest, hrest⟩ : ∃ rest, zs = lo :: rest := by
    by_cases h : 0 < p
    · exact ⟨nodes ++ (if q < N then [τ q] else []), by simp only [zs, lo, if_pos h]; rfl⟩
    · refine ⟨(List.range' 1 iR).map x ++ (if q < N then [τ q] else []), ?_⟩
      simp only [zs, lo, nodes, iL, if_neg h, Nat.sub_zero, List.range'_succ, List.map_cons, List.nil_append, List.cons_append]
  have hmemz : ∀ y ∈ zs, sv k N τ P c y = 0 ∧ y ≤ hi := by
    intro y hy
    simp only [zs, List.mem_append] at hy
    rcases hy with (hy | hy) | hy
    · split_ifs at hy with h
      · rw [List.mem_singleton.1 hy]
        constructor
        · have past : Past N τ (τ (p - 1)) p := by
            refine ⟨hp.1, fun i hi => ?_, fun i h3 h4 => hτ _ _ (by omega) h4⟩
            rcases (show i ≤ p - 1 by omega).lt_or_eq with h5 | rfl
            · exact (hτ _ _ h5 (by omega)).le
            · exact le_rfl
          have e := hpmin (p - 1) (by omega)
          rw [sv_eq_piece past]
          obtain ⟨p', hp'⟩ : ∃ p', p = p' + 1 := ⟨p - 1, by omega⟩
          rw [hp', Nat.add_sub_cancel] at e ⊢
          rw [piece, Finset.sum_range_succ, ← add_assoc, ← piece, e]
          simp [show k ≠ 0 by omega]
        · simp only [hi]
          split_ifs with h'
          · exact (hτ _ _ (by omega) h').le
          · refine (h2 (p - 1) (by omega)).le.trans ?_
            rcases (show p - 1 + k + 1 ≤ N + k by omega).lt_or_eq with h5 | h5
            · exact (hx _ _ h5 (by omega)).le
            · rw [h5]
      · simp at hy
    · obtain ⟨i, hi', rfl⟩ := List.mem_map.1 hy
      have hm := List.mem_range'_1.1 hi'
      refine ⟨h0 i (by omega), ?_⟩
      have hle : i ≤ iR := by omega
      simp only [hi]
      simp only [iR] at hle
      split_ifs at hle ⊢ with h'
      · rcases hle.lt_or_eq with h5 | rfl
        · exact ((hx _ _ h5 (by omega)).trans (h1 q h')).le
        · exact (h1 _ h').le
      · rcases hle.lt_or_eq with h5 | rfl
        · exact (hx _ _ h5 (by omega)).le
        · exact le_rfl
    · split_ifs at hy with h
      · rw [List.mem_singleton.1 hy]
        refine ⟨?_, by simp only [hi, if_pos h]; exact le_rfl⟩
        have past : Past N τ (τ q) (q + 1) := by
          refine ⟨by omega, fun i hi => ?_, fun i h3 h4 => hτ _ _ (by omega) h4⟩
          rcases (show i ≤ q by omega).lt_or_eq with h5 | rfl
          · exact (hτ _ _ h5 h).le
          · exact le_rfl
        rw [sv_eq_piece past, hr.2.resolve_left (by omega), eval_zero]
      · simp at hy
  have hlo : ∀ i < p, τ i ≤ lo := by
    intro i hi
    simp only [lo, if_pos (show 0 < p by omega)]
    rcases (show i ≤ p - 1 by omega).lt_or_eq with h5 | rfl
    · exact (hτ _ _ h5 (by omega)).le
    · exact le_rfl
  have hhi : q < N → hi ≤ τ q := fun h => by simp only [hi, if_pos h]; exact le_rfl
  have hn : ∀ a b, lo ≤ a → a < b → b ≤ hi → ∃ u, a < u ∧ u < b ∧ sv k N τ P c u ≠ 0 := by
    intro a b ha hab hb
    by_contra hcon
    push Not at hcon
    obtain ⟨j, pj⟩ := exists_past N τ hτ ((a + b) / 2)
    have m1 : a < (a + b) / 2 := by linarith
    have m2 : (a + b) / 2 < b := by linarith
    have hpj : p ≤ j := by
      by_contra hlt
      have hlt := not_le.1 hlt
      exact absurd (((hlo j hlt).trans ha).trans m1.le) (not_le.2 (pj.2.2 j le_rfl (by omega)))
    have hjq : j ≤ q := by
      by_contra hlt
      have hlt := not_le.1 hlt
      have := pj.2.1 q hlt
      have h5 : q < N := by have := pj.1; omega
      exact absurd (this.trans_lt (m2.trans_le (hb.trans (hhi h5)))) (lt_irrefl _)
    let e := if j < N then min b (τ j) else b
    have he : (a + b) / 2 < e := by
      simp only [e]
      split_ifs with h
      · exact lt_min m2 (pj.2.2 j le_rfl h)
      · exact m2
    have heb : e ≤ b := by
      simp only [e]
      split_ifs with h
      · exact min_le_left _ _
      · exact le_rfl
    refine hnz j hpj hjq (Polynomial.eq_zero_of_infinite_isRoot _ ((Set.Ioo_infinite he).mono fun u hu => ?_))
    have past : Past N τ u j := by
      refine ⟨pj.1, fun i hi => (pj.2.1 i hi).trans hu.1.le, fun i h3 h4 => ?_⟩
      have h5 : j < N := by omega
      have h6 : u < τ j := by
        refine hu.2.trans_le ?_
        simp only [e, if_pos h5]
        exact min_le_right _ _
      rcases h3.lt_or_eq with h7 | rfl
      · exact h6.trans (hτ _ _ h7 h4)
      · exact h6
    show eval u _ = 0
    rw [← sv_eq_piece past]
    exact hcon u (m1.trans hu.1) (hu.2.trans_le heb)
  have hzlen : 2 ≤ zs.length := by
    rw [hlen]
    simp only [eL, eR, iL, iR]
    split_ifs <;> omega
  have hrl : zs.length = rest.length + 1 := by rw [hrest]; rfl
  have hrne : rest ≠ [] := by
    intro h
    rw [h] at hrl
    simp at hrl
    omega
  obtain ⟨d, rfl⟩ : ∃ d, k = d + 1 := ⟨k - 1, by omega⟩
  obtain ⟨σ, l, ha, hl⟩ := alt_of_zeros (sv_continuous d N τ P c) (sv_deriv d N τ P c) (z := lo) (zs := rest) (hi := hi) hrne
    (hrest ▸ hchain) (fun y hy => hmemz y (hrest ▸ hy)) hn
  have hdeg' : (derivative P).degree ≤ d := by
    have := Polynomial.natDegree_derivative_le P
    have h2 := Polynomial.natDegree_le_of_degree_le hP
    exact Polynomial.degree_le_of_natDegree_le (by omega)
  have hcount := alt_count hτ hpq hlo hqN hhi eL eR (by
      simp only [eL, lo]
      split_ifs with h
      · exact .inr ⟨rfl, p - 1, by omega, rfl⟩
      · exact .inl rfl) (by
      simp only [eR, hi]
      split_ifs with h
      · exact .inr ⟨rfl, h, rfl⟩
      · exact .inl rfl) d (derivative P) (fun i => (d + 1) * c i) σ l ha (.inl fun h => by rw [h] at hl; simp at hl)
    (fun h p' e => by rw [piece_derivative, hpmin p' (by omega), derivative_zero])
    (fun h => by
      have hqN' : q < N := by
        by_contra h'
        simp only [eR, if_neg h'] at h
        omega
      rw [piece_derivative, hr.2.resolve_left (by omega), derivative_zero])
    (by
      rcases Nat.eq_zero_or_pos d with rfl | h
      · exact .inr (by simpa using hdeg')
      · exact .inl h) hdeg'
  rw [hl, ← hrl, hlen] at hcount
  simp only [eL, eR, iL, iR] at hcount
  split_ifs at hcount <;> simp only [Nat.reduceAdd, mul_zero, mul_one] at hcount <;> omega

end GwEcc.SplineU
