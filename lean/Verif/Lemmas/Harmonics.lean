import Verif.Model.Harmonics
import Verif.Lemmas.Extrema
import Mathlib.Data.Nat.Cast.Field
import Mathlib.Algebra.Polynomial.Derivative
import Mathlib.Algebra.BigOperators.NatAntidiagonal
import Mathlib.Tactic.Ring
import Mathlib.Tactic.FieldSimp
import Mathlib.Tactic.LinearCombination
import Mathlib.Tactic.Positivity

/-!
# The sum of `dlm` as a coefficient of a product of powers of two linear polynomials, and their norm
-/

namespace GwEcc.Gen

open Polynomial Finset

/-! ### The invariant form -/

/-- The invariant form on polynomials of degree at most `n`. -/
noncomputable def form (n : ℕ) (f g : ℝ[X]) : ℝ := ∑ j ∈ range (n + 1), (j.factorial * (n - j).factorial : ℝ) * (f.coeff j * g.coeff j)

theorem form_C (n : ℕ) (a : ℝ) (f g : ℝ[X]) : form n f (C a * g) = a * form n f g := by
  unfold form
  rw [mul_sum]
  refine sum_congr rfl fun j _ => ?_
  rw [coeff_C_mul]; ring

theorem form_linear (n : ℕ) (a b : ℝ) (f g : ℝ[X]) (hf : f.natDegree ≤ n) :
    form (n + 1) ((C a * X + C b) * f) g =
      form n f (C a * derivative g + C b * (C ((n : ℝ) + 1) * g - X * derivative g)) := by
  unfold form
  have h1 : ∀ j, ((C a * X + C b) * f).coeff j = a * (X * f).coeff j + b * f.coeff j := by
    intro j
    rw [add_mul, coeff_add, mul_assoc, coeff_C_mul, coeff_C_mul]
  have h2 : ∀ j, (C a * derivative g + C b * (C ((n : ℝ) + 1) * g - X * derivative g)).coeff j =
      a * (g.coeff (j + 1) * (j + 1)) + b * ((n + 1 - j) * g.coeff j) := by
    intro j
    rw [coeff_add, coeff_C_mul, coeff_C_mul, coeff_sub, coeff_C_mul, coeff_derivative]
    cases j with
    | zero => simp
    | succ j => rw [coeff_X_mul, coeff_derivative]; push_cast; ring
  have s1 : ∑ j ∈ range (n + 1 + 1), (j.factorial * (n + 1 - j).factorial : ℝ) * ((X * f).coeff j * g.coeff j) =
      ∑ j ∈ range (n + 1), (j.factorial * (n - j).factorial : ℝ) * (f.coeff j * (g.coeff (j + 1) * (j + 1))) := by
    rw [sum_range_succ']
    simp only [coeff_X_mul, mul_coeff_zero, coeff_X_zero, zero_mul, mul_zero, add_zero]
    refine sum_congr rfl fun j _ => ?_
    rw [Nat.factorial_succ, Nat.add_sub_add_right]
    push_cast; ring
  have s2 : ∑ j ∈ range (n + 1 + 1), (j.factorial * (n + 1 - j).factorial : ℝ) * (f.coeff j * g.coeff j) =
      ∑ j ∈ range (n + 1), (j.factorial * (n - j).factorial : ℝ) * (f.coeff j * ((n + 1 - j) * g.coeff j)) := by
    rw [sum_range_succ, coeff_eq_zero_of_natDegree_lt (by omega : f.natDegree < n + 1)]
    simp only [zero_mul, mul_zero, add_zero]
    refine sum_congr rfl fun j hj => ?_
    have hj' : j ≤ n := by have := mem_range.mp hj; omega
    rw [Nat.succ_sub hj', Nat.factorial_succ]
    push_cast [Nat.cast_sub hj']
    ring
  calc _ = a * ∑ j ∈ range (n + 1 + 1), (j.factorial * (n + 1 - j).factorial : ℝ) * ((X * f).coeff j * g.coeff j) +
        b * ∑ j ∈ range (n + 1 + 1), (j.factorial * (n + 1 - j).factorial : ℝ) * (f.coeff j * g.coeff j) := by
        rw [mul_sum, mul_sum, ← sum_add_distrib]
        refine sum_congr rfl fun j _ => ?_
        rw [h1]; ring
    _ = _ := by
        rw [s1, s2, mul_sum, mul_sum, ← sum_add_distrib]
        refine sum_congr rfl fun j _ => ?_
        rw [h2]; ring

/-- The product of powers. -/
noncomputable def powers (c s : ℝ) (A B : ℕ) : ℝ[X] := (C c * X + C s) ^ A * (C (-s) * X + C c) ^ B

theorem powers_degree (c s : ℝ) (A B : ℕ) : (powers c s A B).natDegree ≤ A + B := by
  unfold powers
  refine natDegree_mul_le.trans (add_le_add ?_ ?_)
  · exact natDegree_pow_le_of_le A (natDegree_linear_le (a := c) (b := s)) |>.trans (by simp)
  · exact natDegree_pow_le_of_le B (natDegree_linear_le (a := -s) (b := c)) |>.trans (by simp)

/-- The norm of the product. -/
theorem powers_norm {c s : ℝ} (h : c ^ 2 + s ^ 2 = 1) : ∀ A B : ℕ,
    form (A + B) (powers c s A B) (powers c s A B) = A.factorial * B.factorial
  | 0, 0 => by simp [form, powers]
  | A + 1, B => by
    have ih := powers_norm h A B
    have e1 : powers c s (A + 1) B = (C c * X + C s) * powers c s A B := by unfold powers; ring
    have e2 : C c * derivative (powers c s (A + 1) B) + C s * (C (((A + B : ℕ) : ℝ) + 1) * powers c s (A + 1) B
        - X * derivative (powers c s (A + 1) B)) = C ((A : ℝ) + 1) * powers c s A B := by
      unfold powers
      have hC : (C c : ℝ[X]) ^ 2 + C s ^ 2 = 1 := by rw [← C_pow, ← C_pow, ← C_add, h, C_1]
      rw [derivative_mul, derivative_pow, derivative_pow]
      simp only [derivative_add, derivative_mul, derivative_C, derivative_X, zero_mul, mul_one, zero_add, add_zero, C_neg,
        Nat.cast_add, Nat.cast_one, Nat.add_sub_cancel, C_add, C_1, derivative_neg, neg_zero]
      cases B with
      | zero =>
        simp only [Nat.cast_zero, C_0, pow_zero, zero_mul, mul_zero, add_zero, mul_one]
        linear_combination ((C (A : ℝ) + 1) * (C c * X + C s) ^ A) * hC
      | succ B =>
        simp only [Nat.cast_add, Nat.cast_one, Nat.add_sub_cancel, C_add, C_1]
        linear_combination ((C (A : ℝ) + 1) * (C c * X + C s) ^ A * (-C s * X + C c) ^ (B + 1)) * hC
    rw [show A + 1 + B = A + B + 1 by omega]
    conv_lhs => rw [e1]
    rw [form_linear _ _ _ _ _ (powers_degree c s A B), ← e1, e2, form_C, ih, Nat.factorial_succ]
    push_cast; ring
  | 0, B + 1 => by
    have ih := powers_norm h 0 B
    have e1 : powers c s 0 (B + 1) = (C (-s) * X + C c) * powers c s 0 B := by unfold powers; ring
    have e2 : C (-s) * derivative (powers c s 0 (B + 1)) + C c * (C (((0 + B : ℕ) : ℝ) + 1) * powers c s 0 (B + 1)
        - X * derivative (powers c s 0 (B + 1))) = C ((B : ℝ) + 1) * powers c s 0 B := by
      unfold powers
      have hC : (C c : ℝ[X]) ^ 2 + C s ^ 2 = 1 := by rw [← C_pow, ← C_pow, ← C_add, h, C_1]
      rw [pow_zero, one_mul, one_mul, derivative_pow]
      simp only [derivative_add, derivative_mul, derivative_C, derivative_X, zero_mul, mul_one, zero_add, add_zero, C_neg,
        Nat.cast_add, Nat.cast_one, Nat.add_sub_cancel, C_add, C_1, derivative_neg, neg_zero]
      linear_combination ((C (B : ℝ) + 1) * (-C s * X + C c) ^ B) * hC
    rw [show 0 + (B + 1) = 0 + B + 1 by omega]
    conv_lhs => rw [e1]
    rw [form_linear _ _ _ _ _ (powers_degree c s 0 B), ← e1, e2, form_C, ih, Nat.factorial_succ]
    push_cast; ring

/-! ### Coefficients -/

theorem coeff_pow_linear (a b : ℝ) (n i : ℕ) : ((C a * X + C b) ^ n).coeff i = a ^ i * b ^ (n - i) * (n.choose i : ℝ) := by
  rw [add_pow, finset_sum_coeff]
  have : ∀ k ∈ range (n + 1), ((C a * X) ^ k * C b ^ (n - k) * ((n.choose k : ℕ) : ℝ[X])).coeff i =
      if i = k then a ^ i * b ^ (n - i) * (n.choose i : ℝ) else 0 := by
    intro k _
    rw [mul_pow, ← C_pow, ← C_pow, show (C (a ^ k) * X ^ k * C (b ^ (n - k)) * ((n.choose k : ℕ) : ℝ[X])) =
      C (a ^ k * b ^ (n - k) * (n.choose k : ℝ)) * X ^ k by rw [C_mul, C_mul, map_natCast]; ring, coeff_C_mul_X_pow]
    split
    · rename_i h; rw [h]
    · rfl
  rw [sum_congr rfl this, sum_ite_eq]
  split
  · rfl
  · rename_i h
    rw [Nat.choose_eq_zero_of_lt (by rw [mem_range] at h; omega)]
    simp

theorem coeff_powers (c s : ℝ) (A B j : ℕ) : (powers c s A B).coeff j = ∑ k ∈ range (j + 1),
    (c ^ (j - k) * s ^ (A - (j - k)) * (A.choose (j - k) : ℝ)) * ((-s) ^ k * c ^ (B - k) * (B.choose k : ℝ)) := by
  unfold powers
  rw [mul_comm, coeff_mul, Nat.sum_antidiagonal_eq_sum_range_succ_mk]
  refine sum_congr rfl fun k _ => ?_
  rw [coeff_pow_linear, coeff_pow_linear, mul_comm]

/-! ### The loop -/

theorem foldlM_sum {F : ℤ → Py ℝ} {g : ℤ → ℝ} : ∀ (l : List ℤ) (a : ℝ), (∀ k ∈ l, F k = .ok (g k)) →
    l.foldlM (fun d k => do
      let x ← F k
      pure (d + x)) a = .ok (a + (l.map g).sum)
  | [], a, _ => by simp [pure, Except.pure]
  | k :: l, a, h => by
    rw [List.foldlM_cons, h k (by simp)]
    show List.foldlM _ (a + g k) l = _
    rw [foldlM_sum l _ fun x hx => h x (by simp [hx]), List.map_cons, List.sum_cons, add_assoc]

theorem sum_range_list (f : ℕ → ℝ) : ∀ n, ((List.range n).map f).sum = ∑ i ∈ range n, f i
  | 0 => rfl
  | n + 1 => by rw [List.range_succ, List.map_append, List.sum_append, sum_range_list f n, sum_range_succ]; simp

theorem mem_rangeZ {a b k : ℤ} : k ∈ rangeZ a b ↔ a ≤ k ∧ k < b := by
  unfold rangeZ
  rw [List.mem_map]
  constructor
  · rintro ⟨i, hi, rfl⟩
    rw [List.mem_range] at hi
    omega
  · rintro ⟨h1, h2⟩
    exact ⟨(k - a).toNat, by rw [List.mem_range]; omega, by omega⟩

theorem rangeZ_nat (f : ℤ → ℝ) (a b : ℕ) : ((rangeZ a b).map f).sum = ∑ k ∈ Ico a b, f (k : ℤ) := by
  unfold rangeZ
  rw [List.map_map, sum_range_list, sum_Ico_eq_sum_range, show ((b : ℤ) - (a : ℤ)).toNat = b - a by omega]
  refine sum_congr rfl fun i _ => ?_
  simp

theorem factorial_nat (n : ℕ) : factorial n = .ok (n.factorial : ℝ) := by
  unfold factorial
  rw [if_neg (by omega), Int.toNat_natCast]

theorem intPow_nat (x : ℝ) (n : ℕ) : intPow x n = .ok (x ^ n) := by
  unfold intPow
  rw [if_neg (by omega), zpow_natCast]

/-- The norm of a coefficient. -/
noncomputable def weight (n j A B : ℕ) : ℝ := Real.sqrt ((j.factorial * (n - j).factorial : ℝ) / (A.factorial * B.factorial))

/-- `dlm` for the degrees and orders with a harmonic; `j` is `ell + m`. -/
theorem dlm_coeff (l j : ℕ) (hj : j ≤ 2 * (l + 2)) (theta : ℝ) : dlm ((l : ℤ) + 2) ((j : ℤ) - (l + 2)) theta =
    .ok (weight (2 * (l + 2)) j (l + 4) l * (powers (Real.cos (theta / 2)) (Real.sin (theta / 2)) (l + 4) l).coeff j) := by
  set c := Real.cos (theta / 2)
  set s := Real.sin (theta / 2)
  let g : ℤ → ℝ := fun k => weight (2 * (l + 2)) j (l + 4) l *
    ((c ^ (j - k.toNat) * s ^ (l + 4 - (j - k.toNat)) * ((l + 4).choose (j - k.toNat) : ℝ)) *
      ((-s) ^ k.toNat * c ^ (l - k.toNat) * (l.choose k.toNat : ℝ)))
  have hlo : max 0 ((j : ℤ) - (l + 2) - 2) = ((j - (l + 4) : ℕ) : ℤ) := by omega
  have hhi : min ((l : ℤ) + 2 + (j - (l + 2))) (l + 2 - 2) + 1 = ((min j l + 1 : ℕ) : ℤ) := by omega
  have hterm : ∀ k ∈ rangeZ (max 0 ((j : ℤ) - (l + 2) - 2)) (min ((l : ℤ) + 2 + (j - (l + 2))) (l + 2 - 2) + 1),
      dlmTerm ((l : ℤ) + 2) ((j : ℤ) - (l + 2)) theta k = .ok (g k) := by
    intro k hk
    rw [hlo, hhi, mem_rangeZ] at hk
    obtain ⟨k, rfl⟩ := Int.eq_ofNat_of_zero_le (a := k) (by omega)
    obtain ⟨hk1, hk2⟩ : j - (l + 4) ≤ k ∧ k ≤ min j l := by omega
    obtain ⟨p, hp⟩ : ∃ p, j = k + p := ⟨j - k, by omega⟩
    obtain ⟨r, hr⟩ : ∃ r, l = k + r := ⟨l - k, by omega⟩
    obtain ⟨u, hu⟩ : ∃ u, l + 4 = p + u := ⟨l + 4 - p, by omega⟩
    unfold dlmTerm
    rw [show (l : ℤ) + 2 + (j - (l + 2)) = (j : ℕ) by ring, show (l : ℤ) + 2 - (j - (l + 2)) = ((2 * (l + 2) - j : ℕ) : ℤ) by omega,
      show (l : ℤ) + 2 + 2 = ((l + 4 : ℕ) : ℤ) by push_cast; ring, show (l : ℤ) + 2 - 2 = (l : ℕ) by ring,
      show (k : ℤ) - (j - (l + 2)) + 2 = (u : ℕ) by omega, show (j : ℤ) - k = (p : ℕ) by omega,
      show (l : ℤ) + 2 - k - 2 = (r : ℕ) by omega,
      show 2 * ((l : ℤ) + 2) + (j - (l + 2)) - 2 * k - 2 = ((p + r : ℕ) : ℤ) by push_cast; omega,
      show 2 * (k : ℤ) - (j - (l + 2)) + 2 = ((k + u : ℕ) : ℤ) by push_cast; omega]
    simp only [factorial_nat, intPow_nat, ok_bind]
    show Except.ok _ = _
    refine congrArg Except.ok ?_
    show _ = weight (2 * (l + 2)) j (l + 4) l * _
    simp only [Int.toNat_natCast]
    rw [show j - k = p by omega, show l + 4 - p = u by omega, show l - k = r by omega, zpow_natCast,
      show (l + 4).choose p = (l + 4).factorial / (p.factorial * u.factorial) by
        rw [Nat.choose_eq_factorial_div_factorial (by omega), show l + 4 - p = u by omega],
      show l.choose k = l.factorial / (k.factorial * r.factorial) by
        rw [Nat.choose_eq_factorial_div_factorial (by omega), show l - k = r by omega]]
    rw [Nat.cast_div (by rw [hu]; exact Nat.factorial_mul_factorial_dvd_factorial_add p u) (by positivity),
      Nat.cast_div (by conv_rhs => rw [hr]
                       exact Nat.factorial_mul_factorial_dvd_factorial_add k r) (by positivity)]
    have hw : Real.sqrt ((j.factorial : ℝ) * (2 * (l + 2) - j).factorial * (l + 4).factorial * l.factorial) =
        weight (2 * (l + 2)) j (l + 4) l * ((l + 4).factorial * l.factorial) := by
      unfold weight
      have hpos : (0 : ℝ) < (l + 4).factorial * l.factorial := by positivity
      rw [Real.sqrt_eq_iff_mul_self_eq (by positivity) (by positivity)]
      rw [mul_mul_mul_comm, Real.mul_self_sqrt (by positivity)]
      field_simp
    rw [hw]
    push_cast
    have f1 : (p.factorial : ℝ) ≠ 0 := by positivity
    have f2 : (u.factorial : ℝ) ≠ 0 := by positivity
    have f3 : (r.factorial : ℝ) ≠ 0 := by positivity
    have f4 : (k.factorial : ℝ) ≠ 0 := by positivity
    rw [neg_pow s k, pow_add, pow_add]
    field_simp
    ring
  unfold dlm
  rw [foldlM_sum (g := g) _ _ hterm, hlo, hhi, rangeZ_nat, zero_add, coeff_powers]
  refine congrArg Except.ok ?_
  rw [mul_sum]
  refine sum_subset (fun k hk => ?_) (fun k hk hk' => ?_)
  · rw [mem_Ico] at hk; rw [mem_range]; omega
  · rw [mem_range] at hk
    rw [mem_Ico] at hk'
    rcases lt_or_ge l k with h | h
    · show weight _ _ _ _ * _ = 0
      rw [Int.toNat_natCast, Nat.choose_eq_zero_of_lt h]
      simp
    · show weight _ _ _ _ * _ = 0
      rw [Int.toNat_natCast, Nat.choose_eq_zero_of_lt (show l + 4 < j - k by omega)]
      simp

/-- `dlm` where there is no harmonic. -/
theorem dlm_none {ell m : ℤ} (h : ell < 2 ∨ ell < |m|) (theta : ℝ) : dlm ell m theta = .ok 0 := by
  unfold dlm
  have : rangeZ (max 0 (m - 2)) (min (ell + m) (ell - 2) + 1) = [] := by
    refine List.eq_nil_iff_forall_not_mem.mpr fun k hk => ?_
    rw [mem_rangeZ] at hk
    rcases h with h | h
    · omega
    · rcases abs_cases m with ⟨h1, _⟩ | ⟨h1, _⟩ <;> omega
  rw [this]
  rfl

end GwEcc.Gen
