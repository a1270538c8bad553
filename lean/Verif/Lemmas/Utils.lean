import Verif.Model.Utils
import Verif.Lemmas.Py
import Verif.Lemmas.Dict
import Mathlib.Tactic.Ring
import Mathlib.Tactic.FieldSimp
import Mathlib.Tactic.LinearCombination
import Mathlib.Tactic.Positivity
import Mathlib.Tactic.IntervalCases
import Mathlib.Algebra.Polynomial.Eval.Degree
import Mathlib.Algebra.Polynomial.Derivative
import Mathlib.Algebra.BigOperators.Group.List.Basic
import Mathlib.Algebra.BigOperators.Ring.List
import Mathlib.Algebra.Order.BigOperators.Group.List

set_option linter.unusedSectionVars false

namespace GwEcc

/-! ### total amplitude -/

theorem foldl_add_eq_sum {α : Type} (f : α → ℝ) : ∀ (l : List α) (a : ℝ),
    l.foldl (fun amp h => amp + f h) a = a + (l.map f).sum
  | [], a => by simp
  | x :: l, a => by simp [foldl_add_eq_sum f l, add_assoc]

theorem ampAllHlm_eq (l : List ℂ) : ampAllHlm l = Real.sqrt ((l.map (fun h => ‖h‖ ^ 2)).sum) := by
  unfold ampAllHlm; rw [foldl_add_eq_sum (fun h : ℂ => ‖h‖ ^ 2), zero_add]

theorem ampAllAmplm_eq (l : List ℝ) : ampAllAmplm l = Real.sqrt ((l.map (fun h => h ^ 2)).sum) := by
  unfold ampAllAmplm; rw [foldl_add_eq_sum (fun h : ℝ => h ^ 2), zero_add]

theorem sum_sq_nonneg (l : List ℝ) : 0 ≤ (l.map (fun h => h ^ 2)).sum := by
  apply List.sum_nonneg
  intro x hx
  obtain ⟨y, _, rfl⟩ := List.mem_map.mp hx
  positivity

/-! ### window of five samples -/

theorem window5 {α : Type} (l : List α) (i : ℕ) (h2 : 2 ≤ i) (h3 : i + 3 ≤ l.length) :
    (l.take (i + 3)).drop (i - 2) =
      [l[i - 2], l[i - 1], l[i], l[i + 1], l[i + 2]] := by
  obtain ⟨k, rfl⟩ : ∃ k, i = k + 2 := ⟨i - 2, by omega⟩
  apply List.ext_getElem
  · simp; omega
  · intro j h1 h4
    simp only [List.length_cons, List.length_nil] at h4
    simp only [List.getElem_drop, List.getElem_take]
    interval_cases j <;> simp [Nat.add_assoc]

/-! ### quadratic fit -/

section quad

variable {K : Type} [Field K] [LinearOrder K] [IsStrictOrderedRing K]

theorem quadCoefs_exact (S0 S1 S2 S3 S4 a b c : K)
    (hdet : S0 * (S2 * S4 - S3 * S3) - S1 * (S1 * S4 - S3 * S2) + S2 * (S1 * S3 - S2 * S2) ≠ 0) :
    quadCoefs S0 S1 S2 S3 S4 (a * S0 + b * S1 + c * S2) (a * S1 + b * S2 + c * S3) (a * S2 + b * S3 + c * S4)
      = .ok (a, b, c) := by
  unfold quadCoefs
  simp only [hdet, if_false]
  congr 1
  refine Prod.ext ?_ (Prod.ext ?_ ?_) <;> simp only <;> rw [div_eq_iff hdet] <;> ring

/-- Cauchy–Binet for five points. -/
theorem det5_pos (x0 x1 x2 x3 x4 : K) (h01 : x0 < x1) (h12 : x1 < x2) :
    let S := fun k : ℕ => x0 ^ k + x1 ^ k + x2 ^ k + x3 ^ k + x4 ^ k
    0 < S 0 * (S 2 * S 4 - S 3 * S 3) - S 1 * (S 1 * S 4 - S 3 * S 2) + S 2 * (S 1 * S 3 - S 2 * S 2) := by
  intro S
  have key : S 0 * (S 2 * S 4 - S 3 * S 3) - S 1 * (S 1 * S 4 - S 3 * S 2) + S 2 * (S 1 * S 3 - S 2 * S 2) =
      ((x1 - x0) * (x2 - x0) * (x2 - x1)) ^ 2 + ((x1 - x0) * (x3 - x0) * (x3 - x1)) ^ 2 +
      ((x1 - x0) * (x4 - x0) * (x4 - x1)) ^ 2 + ((x2 - x0) * (x3 - x0) * (x3 - x2)) ^ 2 +
      ((x2 - x0) * (x4 - x0) * (x4 - x2)) ^ 2 + ((x3 - x0) * (x4 - x0) * (x4 - x3)) ^ 2 +
      ((x2 - x1) * (x3 - x1) * (x3 - x2)) ^ 2 + ((x2 - x1) * (x4 - x1) * (x4 - x2)) ^ 2 +
      ((x3 - x1) * (x4 - x1) * (x4 - x3)) ^ 2 + ((x3 - x2) * (x4 - x2) * (x4 - x3)) ^ 2 := by
    simp only [S]; ring
  rw [key]
  have : 0 < ((x1 - x0) * (x2 - x0) * (x2 - x1)) ^ 2 := by
    have h1 : 0 < x1 - x0 := by linarith
    have h2 : 0 < x2 - x0 := by linarith
    have h3 : 0 < x2 - x1 := by linarith
    positivity
  positivity

theorem quadFit_exact (x0 x1 x2 x3 x4 a b c : K)
    (h01 : x0 < x1) (h12 : x1 < x2) :
    quadFit ([x0, x1, x2, x3, x4].map (fun x => (x, a + b * x + c * x ^ 2))) = .ok (a, b, c) := by
  have hdet := (det5_pos x0 x1 x2 x3 x4 h01 h12).ne'
  simp only at hdet
  have h := quadCoefs_exact (x0 ^ 0 + x1 ^ 0 + x2 ^ 0 + x3 ^ 0 + x4 ^ 0) (x0 ^ 1 + x1 ^ 1 + x2 ^ 1 + x3 ^ 1 + x4 ^ 1)
    (x0 ^ 2 + x1 ^ 2 + x2 ^ 2 + x3 ^ 2 + x4 ^ 2) (x0 ^ 3 + x1 ^ 3 + x2 ^ 3 + x3 ^ 3 + x4 ^ 3)
    (x0 ^ 4 + x1 ^ 4 + x2 ^ 4 + x3 ^ 4 + x4 ^ 4) a b c hdet
  rw [← h]
  unfold quadFit
  simp only [List.map_cons, List.map_nil, List.sum_cons, List.sum_nil]
  congr 1 <;> ring

theorem quadCoefs_scale_y (S0 S1 S2 S3 S4 y0 y1 y2 s : K) :
    quadCoefs S0 S1 S2 S3 S4 (s * y0) (s * y1) (s * y2) =
      (quadCoefs S0 S1 S2 S3 S4 y0 y1 y2).map (fun c => (s * c.1, s * c.2.1, s * c.2.2)) := by
  unfold quadCoefs
  simp only
  split
  · rfl
  · simp only [Except.map]
    congr 1
    refine Prod.ext ?_ (Prod.ext ?_ ?_) <;> simp only <;> ring

theorem quadFit_scale_y (pts : List (K × K)) (s : K) :
    quadFit (pts.map (fun p => (p.1, s * p.2))) =
      (quadFit pts).map (fun c => (s * c.1, s * c.2.1, s * c.2.2)) := by
  unfold quadFit
  simp only [List.map_map]
  rw [← quadCoefs_scale_y]
  have hy : ∀ k : ℕ, (pts.map ((fun p : K × K => p.2 * p.1 ^ k) ∘ fun p => (p.1, s * p.2))).sum =
      s * (pts.map (fun p => p.2 * p.1 ^ k)).sum := by
    intro k
    rw [← List.sum_map_mul_left]
    congr 1
    apply List.map_congr_left
    intro p _; simp only [Function.comp]; ring
  rw [hy, hy, hy]
  rfl

theorem quadCoefs_scale_x (S0 S1 S2 S3 S4 y0 y1 y2 k : K) (hk : k ≠ 0) :
    quadCoefs S0 (k * S1) (k ^ 2 * S2) (k ^ 3 * S3) (k ^ 4 * S4) y0 (k * y1) (k ^ 2 * y2) =
      (quadCoefs S0 S1 S2 S3 S4 y0 y1 y2).map (fun c => (c.1, c.2.1 / k, c.2.2 / k ^ 2)) := by
  unfold quadCoefs
  simp only
  have hd : S0 * (k ^ 2 * S2 * (k ^ 4 * S4) - k ^ 3 * S3 * (k ^ 3 * S3)) -
      k * S1 * (k * S1 * (k ^ 4 * S4) - k ^ 3 * S3 * (k ^ 2 * S2)) +
      k ^ 2 * S2 * (k * S1 * (k ^ 3 * S3) - k ^ 2 * S2 * (k ^ 2 * S2)) =
      k ^ 6 * (S0 * (S2 * S4 - S3 * S3) - S1 * (S1 * S4 - S3 * S2) + S2 * (S1 * S3 - S2 * S2)) := by ring
  rw [hd]
  by_cases h : S0 * (S2 * S4 - S3 * S3) - S1 * (S1 * S4 - S3 * S2) + S2 * (S1 * S3 - S2 * S2) = 0
  · simp [h, Except.map]
  · have h6 : k ^ 6 * (S0 * (S2 * S4 - S3 * S3) - S1 * (S1 * S4 - S3 * S2) + S2 * (S1 * S3 - S2 * S2)) ≠ 0 :=
      mul_ne_zero (pow_ne_zero _ hk) h
    rw [if_neg h6, if_neg h]
    simp only [Except.map]
    congr 1
    refine Prod.ext ?_ (Prod.ext ?_ ?_) <;> simp only
    · rw [div_eq_div_iff h6 h]; ring
    · rw [div_div, div_eq_div_iff h6 (mul_ne_zero h hk)]; ring
    · rw [div_div, div_eq_div_iff h6 (mul_ne_zero h (pow_ne_zero _ hk))]; ring

theorem quadFit_scale_x (pts : List (K × K)) (k : K) (hk : k ≠ 0) :
    quadFit (pts.map (fun p => (k * p.1, p.2))) =
      (quadFit pts).map (fun c => (c.1, c.2.1 / k, c.2.2 / k ^ 2)) := by
  unfold quadFit
  simp only [List.map_map]
  rw [← quadCoefs_scale_x _ _ _ _ _ _ _ _ k hk]
  have hy : ∀ j : ℕ, (pts.map ((fun p : K × K => p.2 * p.1 ^ j) ∘ fun p => (k * p.1, p.2))).sum =
      k ^ j * (pts.map (fun p => p.2 * p.1 ^ j)).sum := by
    intro j
    rw [← List.sum_map_mul_left]
    congr 1
    apply List.map_congr_left
    intro p _; simp only [Function.comp]; ring
  have hs : ∀ j : ℕ, (pts.map ((fun p : K × K => p.1 ^ j) ∘ fun p => (k * p.1, p.2))).sum =
      k ^ j * (pts.map (fun p => p.1 ^ j)).sum := by
    intro j
    rw [← List.sum_map_mul_left]
    congr 1
    apply List.map_congr_left
    intro p _; simp only [Function.comp]; ring
  simp only [hy, hs]
  simp only [pow_zero, one_mul, pow_one]

end quad

/-! ### argmax under increasing maps -/

theorem argmaxP_map {K L : Type} [LinearOrder K] [LinearOrder L] (f : K → L) (hf : StrictMono f) :
    ∀ (l : List K) (a : K), argmaxP (f a) (l.map f) = ((argmaxP a l).1, f (argmaxP a l).2)
  | [], a => rfl
  | b :: l, a => by
    simp only [List.map_cons, argmaxP]
    rw [argmaxP_map f hf l b]
    simp only [hf.le_iff_le]
    split <;> rfl

theorem argmax_map {K L : Type} [LinearOrder K] [LinearOrder L] (f : K → L) (hf : StrictMono f) (l : List K) :
    argmax (l.map f) = argmax l := by
  cases l with
  | nil => rfl
  | cons a l => simp only [List.map_cons, argmax, argmaxP_map f hf]

theorem argminP_map {K L : Type} [LinearOrder K] [LinearOrder L] (f : K → L) (hf : StrictMono f) :
    ∀ (l : List K) (a : K), argminP (f a) (l.map f) = ((argminP a l).1, f (argminP a l).2)
  | [], a => rfl
  | b :: l, a => by
    simp only [List.map_cons, argminP]
    rw [argminP_map f hf l b]
    simp only [hf.le_iff_le]
    split <;> rfl

theorem argmin_map {K L : Type} [LinearOrder K] [LinearOrder L] (f : K → L) (hf : StrictMono f) (l : List K) :
    argmin (l.map f) = argmin l := by
  cases l with
  | nil => rfl
  | cons a l => simp only [List.map_cons, argmin, argminP_map f hf]

/-! ### option dictionaries -/

section kw
variable {κ V : Type} [DecidableEq κ]

/-- the loop of lines 110-112 -/
theorem fill_get? (k : κ) : ∀ (defaults acc : Dict κ V),
    (defaults.foldl (fun acc p => if acc.has p.1 then acc else acc.set p.1 p.2) acc).get? k =
      (acc.get? k).or (defaults.get? k)
  | [], acc => by simp
  | p :: d, acc => by
    rw [List.foldl_cons, fill_get? k d, Dict.get?_cons]
    by_cases h : acc.has p.1
    · rw [if_pos h]
      by_cases hk : k = p.1
      · subst hk
        obtain ⟨v, hv⟩ := (Dict.has_iff_get? _ _).mp h
        simp [hv]
      · simp [hk]
    · rw [if_neg h, Dict.get?_set]
      by_cases hk : k = p.1
      · subst hk
        have : acc.get? p.1 = none := by
          unfold Dict.has at h; cases hh : acc.get? p.1 <;> simp_all
        simp [this]
      · simp [hk]

theorem fill_id : ∀ (defaults acc : Dict κ V), (∀ k ∈ Dict.keys defaults, acc.has k) →
    defaults.foldl (fun acc p => if acc.has p.1 then acc else acc.set p.1 p.2) acc = acc
  | [], acc, _ => rfl
  | p :: d, acc, h => by
    rw [List.foldl_cons, if_pos (h p.1 (by simp [Dict.keys]))]
    exact fill_id d acc (fun k hk => h k (by simp [Dict.keys] at hk ⊢; right; exact hk))

end kw

/-! ### npMin / npMax -/

section minmax
variable {K : Type} [LinearOrder K]

theorem foldl_min_le : ∀ (l : List K) (a : K), l.foldl min a ≤ a ∧ ∀ x ∈ l, l.foldl min a ≤ x
  | [], a => by simp
  | b :: l, a => by
    obtain ⟨h1, h2⟩ := foldl_min_le l (min a b)
    refine ⟨le_trans h1 (min_le_left _ _), fun x hx => ?_⟩
    rcases List.mem_cons.mp hx with rfl | hx
    · exact le_trans h1 (min_le_right _ _)
    · exact h2 x hx

theorem foldl_min_mem : ∀ (l : List K) (a : K), l.foldl min a ∈ a :: l
  | [], a => by simp
  | b :: l, a => by
    have := foldl_min_mem l (min a b)
    rw [List.foldl_cons]
    rcases List.mem_cons.mp this with h | h
    · rw [h]; rcases min_choice a b with h | h <;> rw [h] <;> simp
    · exact List.mem_cons_of_mem _ (List.mem_cons_of_mem _ h)

theorem foldl_max_le : ∀ (l : List K) (a : K), a ≤ l.foldl max a ∧ ∀ x ∈ l, x ≤ l.foldl max a
  | [], a => by simp
  | b :: l, a => by
    obtain ⟨h1, h2⟩ := foldl_max_le l (max a b)
    refine ⟨le_trans (le_max_left _ _) h1, fun x hx => ?_⟩
    rcases List.mem_cons.mp hx with rfl | hx
    · exact le_trans (le_max_right _ _) h1
    · exact h2 x hx

theorem foldl_max_mem : ∀ (l : List K) (a : K), l.foldl max a ∈ a :: l
  | [], a => by simp
  | b :: l, a => by
    have := foldl_max_mem l (max a b)
    rw [List.foldl_cons]
    rcases List.mem_cons.mp this with h | h
    · rw [h]; rcases max_choice a b with h | h <;> rw [h] <;> simp
    · exact List.mem_cons_of_mem _ (List.mem_cons_of_mem _ h)

theorem npMin_spec {l : List K} {m : K} (h : npMin l = .ok m) : m ∈ l ∧ ∀ x ∈ l, m ≤ x := by
  cases l with
  | nil => simp [npMin] at h
  | cons a l =>
    simp only [npMin, Except.ok.injEq] at h; subst h
    refine ⟨foldl_min_mem l a, fun x hx => ?_⟩
    rcases List.mem_cons.mp hx with rfl | hx
    · exact (foldl_min_le l x).1
    · exact (foldl_min_le l a).2 x hx

theorem npMax_spec {l : List K} {m : K} (h : npMax l = .ok m) : m ∈ l ∧ ∀ x ∈ l, x ≤ m := by
  cases l with
  | nil => simp [npMax] at h
  | cons a l =>
    simp only [npMax, Except.ok.injEq] at h; subst h
    refine ⟨foldl_max_mem l a, fun x hx => ?_⟩
    rcases List.mem_cons.mp hx with rfl | hx
    · exact (foldl_max_le l x).1
    · exact (foldl_max_le l a).2 x hx

theorem npMin_ok {l : List K} (h : l ≠ []) : ∃ m, npMin l = .ok m := by
  cases l with
  | nil => contradiction
  | cons a l => exact ⟨_, rfl⟩

theorem npMax_ok {l : List K} (h : l ≠ []) : ∃ m, npMax l = .ok m := by
  cases l with
  | nil => contradiction
  | cons a l => exact ⟨_, rfl⟩

end minmax

/-- `np.all(np.diff(x) > 0)` means strictly increasing. -/
theorem diff_pos_iff {K : Type} [Field K] [LinearOrder K] [IsStrictOrderedRing K] : ∀ l : List K,
    (∀ d ∈ diff l, 0 < d) ↔ l.Pairwise (· < ·)
  | [] => by simp [diff]
  | [a] => by simp [diff]
  | a :: b :: l => by
    have ih := diff_pos_iff (b :: l)
    simp only [diff, List.mem_cons, forall_eq_or_imp, sub_pos]
    rw [ih, ← List.isChain_iff_pairwise, ← List.isChain_iff_pairwise, List.isChain_cons_cons]

end GwEcc
