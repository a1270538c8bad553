import Verif.Py
import Mathlib.Tactic.Linarith
import Mathlib.Data.List.Chain
import Mathlib.Data.List.GetD

/-! Lemmas about the Python primitives. -/

namespace GwEcc

section

variable {α : Type} {K : Type}

theorem length_diff [Sub K] : ∀ l : List K, (diff l).length = l.length - 1
  | [] => rfl
  | [_] => rfl
  | a :: b :: l => by simp [diff, length_diff (b :: l)]

theorem getElem_diff [Sub K] : ∀ (l : List K) (i : ℕ) (h : i < (diff l).length)
    (h1 : i + 1 < l.length), (diff l)[i] = l[i + 1] - l[i]
  | a :: b :: l, 0, _, _ => rfl
  | a :: b :: l, i + 1, h, h1 => by
    simp only [diff, List.getElem_cons_succ]
    exact getElem_diff (b :: l) i (by simpa [diff] using h) (by simpa using h1)
  | [], i, h, _ => by simp [diff] at h
  | [_], i, h, _ => by simp [diff] at h

theorem mem_whereFrom (p : α → Bool) : ∀ (l : List α) (k i : ℕ),
    i ∈ whereFrom p k l ↔ ∃ j, ∃ h : j < l.length, i = k + j ∧ p l[j] = true
  | [], k, i => by simp [whereFrom]
  | a :: l, k, i => by
    have ih := mem_whereFrom p l (k + 1) i
    unfold whereFrom
    split
    · rename_i hp
      rw [List.mem_cons, ih]
      constructor
      · rintro (rfl | ⟨j, h, rfl, hj⟩)
        · exact ⟨0, by simp, rfl, hp⟩
        · exact ⟨j + 1, by simpa using h, by omega, by simpa using hj⟩
      · rintro ⟨j, h, rfl, hj⟩
        cases j with
        | zero => left; rfl
        | succ j => right; exact ⟨j, by simpa using h, by omega, by simpa using hj⟩
    · rename_i hp
      rw [ih]
      constructor
      · rintro ⟨j, h, rfl, hj⟩
        exact ⟨j + 1, by simpa using h, by omega, by simpa using hj⟩
      · rintro ⟨j, h, rfl, hj⟩
        cases j with
        | zero => simp at hj; contradiction
        | succ j => exact ⟨j, by simpa using h, by omega, by simpa using hj⟩

theorem mem_npWhere (p : α → Bool) (l : List α) (i : ℕ) :
    i ∈ npWhere p l ↔ ∃ h : i < l.length, p l[i] = true := by
  unfold npWhere
  rw [mem_whereFrom]
  constructor
  · rintro ⟨j, h, rfl, hj⟩; simp only [Nat.zero_add]; exact ⟨h, hj⟩
  · rintro ⟨h, hj⟩; exact ⟨i, h, by omega, hj⟩

theorem whereFrom_lower (p : α → Bool) (l : List α) (k i : ℕ) (h : i ∈ whereFrom p k l) : k ≤ i := by
  obtain ⟨j, _, rfl, _⟩ := (mem_whereFrom p l k i).mp h; omega

theorem whereFrom_sorted (p : α → Bool) : ∀ (l : List α) (k : ℕ), (whereFrom p k l).Pairwise (· < ·)
  | [], k => by simp [whereFrom]
  | a :: l, k => by
    unfold whereFrom
    split
    · refine List.pairwise_cons.mpr ⟨fun i hi => ?_, whereFrom_sorted p l (k + 1)⟩
      have := whereFrom_lower p l (k + 1) i hi; omega
    · exact whereFrom_sorted p l (k + 1)

theorem npWhere_sorted (p : α → Bool) (l : List α) : (npWhere p l).Pairwise (· < ·) :=
  whereFrom_sorted p l 0

/-- first element of `np.where`: the first index satisfying the mask. -/
theorem npWhere_head {p : α → Bool} {l : List α} {i : ℕ} {is : List ℕ} (h : npWhere p l = i :: is) :
    (∃ hi : i < l.length, p l[i] = true) ∧ ∀ j (hj : j < l.length), j < i → p l[j] = false := by
  have hs := npWhere_sorted p l
  have hm := mem_npWhere p l
  refine ⟨(hm i).mp (by rw [h]; simp), fun j hj hji => ?_⟩
  by_contra hc
  have : j ∈ npWhere p l := (hm j).mpr ⟨hj, by simpa using hc⟩
  rw [h] at this hs
  rcases List.mem_cons.mp this with rfl | h2
  · omega
  · have := (List.pairwise_cons.mp hs).1 j h2; omega

theorem npWhere_nil {p : α → Bool} {l : List α} (h : npWhere p l = []) :
    ∀ j (hj : j < l.length), p l[j] = false := by
  intro j hj
  by_contra hc
  have : j ∈ npWhere p l := (mem_npWhere p l j).mpr ⟨hj, by simpa using hc⟩
  rw [h] at this; simp at this

theorem npWhere_getLast {p : α → Bool} {l : List α} (hne : npWhere p l ≠ []) :
    (∃ hi : (npWhere p l).getLast hne < l.length, p l[(npWhere p l).getLast hne] = true) ∧
      ∀ j (hj : j < l.length), (npWhere p l).getLast hne < j → p l[j] = false := by
  have hm := mem_npWhere p l
  refine ⟨(hm _).mp (List.getLast_mem hne), fun j hj hji => ?_⟩
  by_contra hc
  have hjm : j ∈ npWhere p l := (hm j).mpr ⟨hj, by simpa using hc⟩
  have hs := npWhere_sorted p l
  have : j ≤ (npWhere p l).getLast hne := by
    obtain ⟨k, hk, rfl⟩ := List.getElem_of_mem hjm
    rw [List.getLast_eq_getElem]
    rcases Nat.lt_or_ge k ((npWhere p l).length - 1) with h | h
    · exact le_of_lt (List.pairwise_iff_getElem.mp hs _ _ hk (by omega) h)
    · have : k = (npWhere p l).length - 1 := by omega
      subst this; exact le_refl _
  omega

theorem argminP_spec [LinearOrder K] : ∀ (l : List K) (a : K),
    ∃ h : (argminP a l).1 < (a :: l).length, (a :: l)[(argminP a l).1] = (argminP a l).2 ∧
      (∀ x ∈ a :: l, (argminP a l).2 ≤ x) ∧
      (∀ j (hj : j < (a :: l).length), j < (argminP a l).1 → (argminP a l).2 < (a :: l)[j])
  | [], a => by simp [argminP]
  | b :: l, a => by
    obtain ⟨h1, h2, h3, h4⟩ := argminP_spec l b
    unfold argminP
    simp only
    split
    · rename_i hle
      refine ⟨by simp, by simp, ?_, ?_⟩
      · intro x hx
        rcases List.mem_cons.mp hx with rfl | hx
        · exact le_refl _
        · exact le_trans hle (h3 x hx)
      · intro j _ hj; simp at hj
    · rename_i hle
      push Not at hle
      refine ⟨by simpa using h1, by simpa using h2, ?_, ?_⟩
      · intro x hx
        rcases List.mem_cons.mp hx with rfl | hx
        · exact hle.le
        · exact h3 x hx
      · intro j hj hj2
        cases j with
        | zero => simpa using hle
        | succ j =>
          simp only [List.getElem_cons_succ]
          exact h4 j (by simpa using hj) (by omega)

/-- `np.argmin` returns the first position of a minimum. -/
theorem argmin_spec [LinearOrder K] {l : List K} {i : ℕ} (h : argmin l = .ok i) :
    ∃ hi : i < l.length, (∀ j (hj : j < l.length), l[i] ≤ l[j]) ∧
      ∀ j (hj : j < l.length), j < i → l[i] < l[j] := by
  cases l with
  | nil => simp [argmin] at h
  | cons a l =>
    simp only [argmin, Except.ok.injEq] at h
    subst h
    obtain ⟨h1, h2, h3, h4⟩ := argminP_spec l a
    refine ⟨h1, ?_, ?_⟩
    · intro j hj; rw [h2]; exact h3 _ (List.getElem_mem hj)
    · intro j hj hlt; rw [h2]; exact h4 j hj hlt

theorem argmin_ok [LinearOrder K] {l : List K} (h : l ≠ []) : ∃ i, argmin l = .ok i := by
  cases l with
  | nil => contradiction
  | cons a l => exact ⟨_, rfl⟩

theorem argmaxP_spec [LinearOrder K] : ∀ (l : List K) (a : K),
    ∃ h : (argmaxP a l).1 < (a :: l).length, (a :: l)[(argmaxP a l).1] = (argmaxP a l).2 ∧
      (∀ x ∈ a :: l, x ≤ (argmaxP a l).2) ∧
      (∀ j (hj : j < (a :: l).length), j < (argmaxP a l).1 → (a :: l)[j] < (argmaxP a l).2)
  | [], a => by simp [argmaxP]
  | b :: l, a => by
    obtain ⟨h1, h2, h3, h4⟩ := argmaxP_spec l b
    unfold argmaxP
    simp only
    split
    · rename_i hle
      refine ⟨by simp, by simp, ?_, ?_⟩
      · intro x hx
        rcases List.mem_cons.mp hx with rfl | hx
        · exact le_refl _
        · exact le_trans (h3 x hx) hle
      · intro j _ hj; simp at hj
    · rename_i hle
      push Not at hle
      refine ⟨by simpa using h1, by simpa using h2, ?_, ?_⟩
      · intro x hx
        rcases List.mem_cons.mp hx with rfl | hx
        · exact hle.le
        · exact h3 x hx
      · intro j hj hj2
        cases j with
        | zero => simpa using hle
        | succ j =>
          simp only [List.getElem_cons_succ]
          exact h4 j (by simpa using hj) (by omega)

/-- `np.argmax` returns the first position of a maximum. -/
theorem argmax_spec [LinearOrder K] {l : List K} {i : ℕ} (h : argmax l = .ok i) :
    ∃ hi : i < l.length, (∀ j (hj : j < l.length), l[j] ≤ l[i]) ∧
      ∀ j (hj : j < l.length), j < i → l[j] < l[i] := by
  cases l with
  | nil => simp [argmax] at h
  | cons a l =>
    simp only [argmax, Except.ok.injEq] at h
    subst h
    obtain ⟨h1, h2, h3, h4⟩ := argmaxP_spec l a
    refine ⟨h1, ?_, ?_⟩
    · intro j hj; rw [h2]; exact h3 _ (List.getElem_mem hj)
    · intro j hj hlt; rw [h2]; exact h4 j hj hlt

theorem argmax_ok [LinearOrder K] {l : List K} (h : l ≠ []) : ∃ i, argmax l = .ok i := by
  cases l with
  | nil => contradiction
  | cons a l => exact ⟨_, rfl⟩

/-- a first-minimum position is unique: `argmin` is determined by its specification. -/
theorem argmin_unique [LinearOrder K] {l : List K} {i : ℕ} (hi : i < l.length)
    (hmin : ∀ j (hj : j < l.length), l[i] ≤ l[j]) (hfirst : ∀ j (hj : j < l.length), j < i → l[i] < l[j]) :
    argmin l = .ok i := by
  obtain ⟨k, hk⟩ := argmin_ok (l := l) (by intro h; rw [h] at hi; simp at hi)
  obtain ⟨hk1, hk2, hk3⟩ := argmin_spec hk
  rw [hk]
  rcases lt_trichotomy i k with h | h | h
  · exact absurd (hmin k hk1) (not_le.mpr (hk3 i hi h))
  · rw [h]
  · exact absurd (hk2 i hi) (not_le.mpr (hfirst k hk1 h))

theorem argmax_unique [LinearOrder K] {l : List K} {i : ℕ} (hi : i < l.length)
    (hmax : ∀ j (hj : j < l.length), l[j] ≤ l[i]) (hfirst : ∀ j (hj : j < l.length), j < i → l[j] < l[i]) :
    argmax l = .ok i := by
  obtain ⟨k, hk⟩ := argmax_ok (l := l) (by intro h; rw [h] at hi; simp at hi)
  obtain ⟨hk1, hk2, hk3⟩ := argmax_spec hk
  rw [hk]
  rcases lt_trichotomy i k with h | h | h
  · exact absurd (hmax k hk1) (not_le.mpr (hk3 i hi h))
  · rw [h]
  · exact absurd (hk2 i hi) (not_le.mpr (hfirst k hk1 h))

theorem pyBound_le (n : ℕ) (i : ℤ) : pyBound n i ≤ n := by
  unfold pyBound; split <;> omega

end

end GwEcc
