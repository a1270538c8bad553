import Verif.Lemmas.FindPeaks
import Mathlib.Algebra.Order.Field.Basic
import Mathlib.Tactic.FieldSimp

/-!
# `find_peaks` and the scale of the data
-/

namespace GwEcc

open Spec

section
variable {K : Type} [Field K] [LinearOrder K]

theorem getD_scale (r : K) (x : List K) (i : ℕ) : (x.map (r * ·)).getD i 0 = r * x.getD i 0 := by
  rw [List.getD_eq_getElem?_getD, List.getD_eq_getElem?_getD, List.getElem?_map]
  cases x[i]? <;> simp

theorem pastPlateau_scale [IsStrictOrderedRing K] {r : K} (hr : 0 < r) (x : List K) (i : ℕ) :
    ∀ n j, pastPlateau (x.map (r * ·)) i n j = pastPlateau x i n j
  | 0, _ => rfl
  | n + 1, j => by
    unfold pastPlateau
    rw [getD_scale, getD_scale, List.length_map, pastPlateau_scale hr x i n (j + 1)]
    simp only [mul_right_inj' hr.ne']

theorem plateausFrom_scale [IsStrictOrderedRing K] {r : K} (hr : 0 < r) (x : List K) :
    ∀ n i, plateausFrom (x.map (r * ·)) n i = plateausFrom x n i
  | 0, _ => rfl
  | n + 1, i => by
    unfold plateausFrom
    simp only [getD_scale, List.length_map, pastPlateau_scale hr, plateausFrom_scale hr x n, mul_lt_mul_iff_right₀ hr]

theorem plateaus_scale [IsStrictOrderedRing K] {r : K} (hr : 0 < r) (x : List K) :
    plateaus (x.map (r * ·)) = plateaus x := by
  unfold plateaus
  rw [List.length_map, plateausFrom_scale hr]

theorem leftOf_scale (r : K) (x : List K) (p n : ℕ) : leftOf (x.map (r * ·)) p n = (leftOf x p n).map (r * ·) := by
  unfold leftOf
  rw [← List.map_take, ← List.map_reverse, ← List.map_take]

theorem rightOf_scale (r : K) (x : List K) (p n : ℕ) : rightOf (x.map (r * ·)) p n = (rightOf x p n).map (r * ·) := by
  unfold rightOf
  rw [← List.map_drop, ← List.map_take]

theorem base_scale [IsStrictOrderedRing K] {r : K} (hr : 0 < r) (h : K) : ∀ (l : List K) (k : ℕ) (b : K × ℕ),
    base (r * h) (l.map (r * ·)) k (r * b.1, b.2) = (r * (base h l k b).1, (base h l k b).2)
  | [], _, _ => rfl
  | y :: ys, k, b => by
    rw [List.map_cons]
    unfold base
    simp only [mul_le_mul_iff_right₀ hr, mul_lt_mul_iff_right₀ hr]
    split
    · split
      · exact base_scale hr h ys (k + 1) (y, k)
      · exact base_scale hr h ys (k + 1) b
    · rfl

theorem leftBase_scale [IsStrictOrderedRing K] {r : K} (hr : 0 < r) (x : List K) (w : Option ℕ) (p : ℕ) :
    leftBase (x.map (r * ·)) w p = (r * (leftBase x w p).1, (leftBase x w p).2) := by
  have e : reach (x.map (r * ·)) w = reach x w := by unfold reach; rw [List.length_map]
  unfold leftBase
  rw [getD_scale, leftOf_scale, e]
  exact base_scale hr _ _ 0 (x.getD p 0, 0)

theorem rightBase_scale [IsStrictOrderedRing K] {r : K} (hr : 0 < r) (x : List K) (w : Option ℕ) (p : ℕ) :
    rightBase (x.map (r * ·)) w p = (r * (rightBase x w p).1, (rightBase x w p).2) := by
  have e : reach (x.map (r * ·)) w = reach x w := by unfold reach; rw [List.length_map]
  unfold rightBase
  rw [getD_scale, rightOf_scale, e]
  exact base_scale hr _ _ 0 (x.getD p 0, 0)

theorem prominence_scale [IsStrictOrderedRing K] {r : K} (hr : 0 < r) (x : List K) (w : Option ℕ) (p : ℕ) :
    prominence (x.map (r * ·)) w p = r * prominence x w p := by
  unfold prominence
  rw [getD_scale, leftBase_scale hr, rightBase_scale hr, mul_sub, mul_max_of_nonneg _ _ hr.le]

theorem stepsAbove_scale [IsStrictOrderedRing K] {r : K} (hr : 0 < r) (h : K) (last : ℕ) : ∀ (l : List K) (k : ℕ),
    stepsAbove (r * h) last (l.map (r * ·)) k = stepsAbove h last l k
  | [], _ => rfl
  | y :: ys, k => by
    rw [List.map_cons]
    unfold stepsAbove
    simp only [mul_lt_mul_iff_right₀ hr, stepsAbove_scale hr h last ys (k + 1)]

theorem halfWidth_scale [IsStrictOrderedRing K] {r : K} (hr : 0 < r) (h : K) (last : ℕ) (l : List K) :
    halfWidth (r * h) last (l.map (r * ·)) = halfWidth h last l := by
  unfold halfWidth
  simp only [stepsAbove_scale hr, getD_scale, mul_lt_mul_iff_right₀ hr, ← mul_sub, mul_div_mul_left _ _ hr.ne']

theorem width_scale [IsStrictOrderedRing K] {r : K} (hr : 0 < r) (x : List K) (w : Option ℕ) (rel : K) (p : ℕ) :
    width (x.map (r * ·)) w rel p = width x w rel p := by
  have e : r * x.getD p 0 - r * prominence x w p * rel = r * (x.getD p 0 - prominence x w p * rel) := by ring
  unfold width
  simp only [getD_scale, prominence_scale hr, leftBase_scale hr, rightBase_scale hr, List.length_map, leftOf_scale,
    rightOf_scale, e, halfWidth_scale hr]

/-- A condition on values in the unit of the data, when that changes. -/
def Cond.scale (r : K) : Cond K → Cond K
  | .any => .any
  | .atLeast lo => .atLeast (r * lo)
  | .between lo hi => .between (r * lo) (r * hi)

theorem Cond.holds_scale [IsStrictOrderedRing K] {r : K} (hr : 0 < r) (c : Cond K) (v : K) :
    (c.scale r).holds (r * v) = c.holds v := by
  cases c <;> simp only [Cond.scale, Cond.holds, mul_le_mul_iff_right₀ hr]

theorem Cond.holdsBoth_scale [IsStrictOrderedRing K] {r : K} (hr : 0 < r) (c : Cond K) (v w : K) :
    (c.scale r).holdsBoth (r * v) (r * w) = c.holdsBoth v w := by
  cases c <;> simp only [Cond.scale, Cond.holdsBoth, ← mul_max_of_nonneg _ _ hr.le, ← mul_min_of_nonneg _ _ hr.le,
    mul_le_mul_iff_right₀ hr]

theorem Cond.given_scale (r : K) (c : Cond K) : (c.scale r).given = c.given := by
  cases c <;> rfl

/-- Options when the unit of the data changes. -/
def PeakOptions.scale (r : K) (o : PeakOptions K) : PeakOptions K :=
  { o with height := o.height.scale r, threshold := o.threshold.scale r, prominence := o.prominence.scale r }

theorem candidates_scale [IsStrictOrderedRing K] {r : K} (hr : 0 < r) (o : PeakOptions K) (x : List K) :
    candidates (o.scale r) (x.map (r * ·)) = candidates o x := by
  unfold candidates PeakOptions.scale
  simp only [plateaus_scale hr, getD_scale, ← mul_sub, Cond.holds_scale hr, Cond.holdsBoth_scale hr]

variable [FloorRing K]

theorem spaced_scale [IsStrictOrderedRing K] {r : K} {argsort : List K → List ℕ}
    (ha : ∀ l, argsort (l.map (r * ·)) = argsort l) (d : Option K) (x : List K) (l : List ℕ) :
    spaced argsort d (x.map (r * ·)) l = spaced argsort d x l := by
  unfold spaced
  split
  · rfl
  · have e : (l.map fun p => (x.map (r * ·)).getD p 0) = (l.map fun p => x.getD p 0).map (r * ·) := by
      rw [List.map_map]
      exact List.map_congr_left fun p _ => getD_scale r x p
    dsimp only
    unfold selectByDistance
    rw [e, ha]

/-- Peaks do not depend on the unit of the data if heights, thresholds and prominences are given in that unit. -/
theorem findPeaksWith_scale [IsStrictOrderedRing K] {r : K} (hr : 0 < r) {argsort : List K → List ℕ}
    (ha : ∀ l, argsort (l.map (r * ·)) = argsort l) (o : PeakOptions K) (x : List K) :
    findPeaksWith argsort (o.scale r) (x.map (r * ·)) = findPeaksWith argsort o x := by
  unfold findPeaksWith
  rw [candidates_scale hr, spaced_scale ha]
  unfold PeakOptions.scale
  simp only [Cond.given_scale, prominence_scale hr, width_scale hr, Cond.holds_scale hr]

end

end GwEcc
