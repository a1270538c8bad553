import Verif.Lemmas.FindPeaks
import Mathlib.Tactic.FieldSimp

/-!
# Prominence and width of a maximum
-/

namespace GwEcc

open Spec

section
variable {K : Type} [Field K] [LinearOrder K]

omit [LinearOrder K] in
theorem leftOf_getD {x : List K} {p n k : ℕ} (hp : p < x.length) (hn : p ≤ n) (hk : k ≤ p) :
    (leftOf x p n).getD k 0 = x.getD (p - k) 0 := by
  unfold leftOf
  have hl : (x.take (p + 1)).length = p + 1 := by rw [List.length_take]; omega
  rw [List.getD_eq_getElem?_getD, List.getElem?_take_of_lt (by omega), List.getElem?_reverse (by omega), hl,
    List.getElem?_take_of_lt (by omega), List.getD_eq_getElem?_getD]
  congr 2

omit [LinearOrder K] in
theorem leftOf_length {x : List K} {p n : ℕ} (hp : p < x.length) (hn : p ≤ n) : (leftOf x p n).length = p + 1 := by
  unfold leftOf
  rw [List.length_take, List.length_reverse, List.length_take]
  omega

omit [LinearOrder K] in
theorem rightOf_getD {x : List K} {p n k : ℕ} (hn : k ≤ n) : (rightOf x p n).getD k 0 = x.getD (p + k) 0 := by
  unfold rightOf
  rw [List.getD_eq_getElem?_getD, List.getElem?_take_of_lt (by omega), List.getElem?_drop, List.getD_eq_getElem?_getD]

omit [LinearOrder K] in
theorem rightOf_length {x : List K} {p n : ℕ} (hn : x.length ≤ n) : (rightOf x p n).length = x.length - p := by
  unfold rightOf
  rw [List.length_take, List.length_drop]
  omega

/-- The walk that looks for a base. -/
theorem base_spec (h : K) (y : List K) : ∀ (l : List K) (k : ℕ) (b : K × ℕ),
    (∀ j, j < l.length → l.getD j 0 = y.getD (k + j) 0) → k + l.length = y.length →
    (∀ j, j < k → y.getD j 0 ≤ h ∧ b.1 ≤ y.getD j 0) → b.2 < k → y.getD b.2 0 = b.1 →
    ∃ m, k ≤ m ∧ m ≤ y.length ∧ (∀ j, j < m → y.getD j 0 ≤ h ∧ (base h l k b).1 ≤ y.getD j 0) ∧
      (m < y.length → h < y.getD m 0) ∧ (base h l k b).2 < m ∧ y.getD (base h l k b).2 0 = (base h l k b).1
  | [], k, b, _, hlen, hb, hi, hv => by
    unfold base
    simp only [List.length_nil] at hlen
    exact ⟨k, le_rfl, by omega, hb, fun h => by omega, hi, hv⟩
  | z :: l, k, b, hl, hlen, hb, hi, hv => by
    have hz : z = y.getD k 0 := by simpa using hl 0 (by simp)
    simp only [List.length_cons] at hlen
    have hl' : ∀ j, j < l.length → l.getD j 0 = y.getD (k + 1 + j) 0 := by
      intro j hj
      have := hl (j + 1) (by simpa using hj)
      rw [List.getD_cons_succ] at this
      rw [this]
      congr 1
      omega
    unfold base
    split
    · rename_i hle
      split
      · rename_i hlt
        obtain ⟨m, h1, h2⟩ := base_spec h y l (k + 1) (z, k) hl' (by omega) (fun j hj => by
          rcases Nat.eq_or_lt_of_le (Nat.le_of_lt_succ hj) with rfl | hj
          · exact ⟨hz ▸ hle, hz.le⟩
          · exact ⟨(hb j hj).1, hlt.le.trans (hb j hj).2⟩) (by simp) hz.symm
        exact ⟨m, by omega, h2⟩
      · rename_i hlt
        obtain ⟨m, h1, h2⟩ := base_spec h y l (k + 1) b hl' (by omega) (fun j hj => by
          rcases Nat.eq_or_lt_of_le (Nat.le_of_lt_succ hj) with rfl | hj
          · exact ⟨hz ▸ hle, hz ▸ not_lt.mp hlt⟩
          · exact hb j hj) (by omega) hv
        exact ⟨m, by omega, h2⟩
    · rename_i hle
      exact ⟨k, le_rfl, by omega, hb, fun _ => hz ▸ not_le.mp hle, hi, hv⟩

/-- The same from the peak on. -/
theorem base_from (y : List K) (hy : y ≠ []) :
    let b := base (y.getD 0 0) y 0 (y.getD 0 0, 0)
    ∃ m, 1 ≤ m ∧ m ≤ y.length ∧ (∀ j, j < m → y.getD j 0 ≤ y.getD 0 0 ∧ b.1 ≤ y.getD j 0) ∧
      (m < y.length → y.getD 0 0 < y.getD m 0) ∧ b.2 < m ∧ y.getD b.2 0 = b.1 := by
  match y, hy with
  | z :: l, _ =>
    intro b
    have e : b = base z l 1 (z, 0) := by
      show base z (z :: l) 0 (z, 0) = _
      conv_lhs => unfold base
      simp
    rw [e]
    refine base_spec z (z :: l) l 1 (z, 0) (fun j _ => ?_) (by simp; omega) (fun j hj => ?_) (by simp) (by simp)
    · rw [Nat.add_comm, List.getD_cons_succ]
    · have : j = 0 := by omega
      subst this
      simp

/-- The walk down to a level. -/
theorem stepsAbove_spec (level : K) (last : ℕ) (y : List K) : ∀ (l : List K) (k : ℕ),
    (∀ j, j < l.length → l.getD j 0 = y.getD (k + j) 0) → k + l.length = y.length → k ≤ last → last < y.length →
    k ≤ stepsAbove level last l k ∧ stepsAbove level last l k ≤ last ∧
      (∀ j, k ≤ j → j < stepsAbove level last l k → level < y.getD j 0) ∧
      (stepsAbove level last l k = last ∨ y.getD (stepsAbove level last l k) 0 ≤ level)
  | [], k, _, hlen, hk, hlast => by
    simp only [List.length_nil] at hlen
    omega
  | z :: l, k, hl, hlen, hk, hlast => by
    have hz : z = y.getD k 0 := by simpa using hl 0 (by simp)
    simp only [List.length_cons] at hlen
    unfold stepsAbove
    split
    · rename_i hc
      obtain ⟨h1, h2, h3, h4⟩ := stepsAbove_spec level last y l (k + 1) (fun j hj => by
        have := hl (j + 1) (by simpa using hj)
        rw [List.getD_cons_succ] at this
        rw [this]
        congr 1
        omega) (by omega) (by omega) hlast
      refine ⟨by omega, h2, fun j hj hj' => ?_, h4⟩
      rcases Nat.eq_or_lt_of_le hj with rfl | hj
      · exact hz ▸ hc.2
      · exact h3 j hj hj'
    · rename_i hc
      refine ⟨le_rfl, hk, fun j a b => by omega, ?_⟩
      by_cases h : k < last
      · exact Or.inr (hz ▸ not_lt.mp fun h' => hc ⟨h, h'⟩)
      · exact Or.inl (by omega)

variable [IsStrictOrderedRing K]

/-- Where the straight lines through the data come down to the level. -/
theorem halfWidth_spec {level : K} {last : ℕ} {y : List K} (hlast : last < y.length) (hlow : y.getD last 0 ≤ level)
    (htop : level < y.getD 0 0) :
    ∃ k, k + 1 ≤ last ∧ (∀ j, j ≤ k → level < y.getD j 0) ∧ y.getD (k + 1) 0 ≤ level ∧
      (k : K) < halfWidth level last y ∧ halfWidth level last y ≤ k + 1 ∧
      y.getD k 0 + (halfWidth level last y - k) * (y.getD (k + 1) 0 - y.getD k 0) = level := by
  obtain ⟨-, h2, h3, h4⟩ := stepsAbove_spec level last y y 0 (fun j _ => by simp) (by simp) (by omega) hlast
  have h4 : y.getD (stepsAbove level last y 0) 0 ≤ level := h4.elim (fun h => h.symm ▸ hlow) id
  unfold halfWidth
  dsimp only
  generalize stepsAbove level last y 0 = n at h2 h3 h4 ⊢
  cases n with
  | zero => exact absurd h4 (not_le.mpr htop)
  | succ k =>
    have hk : level < y.getD k 0 := h3 k (by omega) (by omega)
    refine ⟨k, h2, fun j hj => h3 j (by omega) (by omega), h4, ?_⟩
    have hd : 0 < y.getD k 0 - y.getD (k + 1) 0 := by linarith
    simp only [Nat.add_sub_cancel]
    push_cast
    split
    · rename_i hlt
      have h0 : 0 < (level - y.getD (k + 1) 0) / (y.getD k 0 - y.getD (k + 1) 0) := div_pos (by linarith) hd
      have h1 : (level - y.getD (k + 1) 0) / (y.getD k 0 - y.getD (k + 1) 0) < 1 := (div_lt_one hd).mpr (by linarith)
      refine ⟨by linarith, by linarith, ?_⟩
      field_simp
      ring
    · rename_i hlt
      have e : y.getD (k + 1) 0 = level := le_antisymm h4 (not_lt.mp hlt)
      refine ⟨by linarith, le_rfl, ?_⟩
      rw [e]
      ring

omit [IsStrictOrderedRing K]

theorem leftBase_spec {x : List K} {p : ℕ} (hp : p < x.length) :
    IsLeftBase x p (leftBase x none p).1 ∧ (leftBase x none p).2 ≤ p ∧
      x.getD (p - (leftBase x none p).2) 0 = (leftBase x none p).1 := by
  have hlen := leftOf_length (x := x) hp (n := x.length) hp.le
  have hy : leftOf x p x.length ≠ [] := fun h => by rw [h] at hlen; simp at hlen
  have h := base_from _ hy
  have h0 : (leftOf x p x.length).getD 0 0 = x.getD p 0 := by rw [leftOf_getD hp hp.le (by omega)]; simp
  rw [h0] at h
  obtain ⟨m, h1, h2, h3, h4, h5, h6⟩ := h
  have e : leftBase x none p = base (x.getD p 0) (leftOf x p x.length) 0 (x.getD p 0, 0) := rfl
  rw [← e] at h3 h5 h6
  rw [hlen] at h2 h4
  rw [leftOf_getD hp hp.le (by omega)] at h6
  refine ⟨⟨p + 1 - m, by omega, fun j a b => ?_, fun a => ?_, ⟨p - (leftBase x none p).2, by omega, by omega, h6⟩,
    fun j a b => ?_⟩, by omega, h6⟩
  · have := (h3 (p - j) (by omega)).1
    rwa [leftOf_getD hp hp.le (by omega), show p - (p - j) = j by omega] at this
  · have := h4 (by omega)
    rwa [leftOf_getD hp hp.le (by omega), show p - m = p + 1 - m - 1 by omega] at this
  · have := (h3 (p - j) (by omega)).2
    rwa [leftOf_getD hp hp.le (by omega), show p - (p - j) = j by omega] at this

theorem rightBase_spec {x : List K} {p : ℕ} (hp : p < x.length) :
    IsRightBase x p (rightBase x none p).1 ∧ p + (rightBase x none p).2 < x.length ∧
      x.getD (p + (rightBase x none p).2) 0 = (rightBase x none p).1 := by
  have hlen := rightOf_length (x := x) (p := p) (n := x.length) le_rfl
  have hy : rightOf x p x.length ≠ [] := fun h => by rw [h] at hlen; simp at hlen; omega
  have h := base_from _ hy
  have h0 : (rightOf x p x.length).getD 0 0 = x.getD p 0 := by rw [rightOf_getD (by omega)]; simp
  rw [h0] at h
  obtain ⟨m, h1, h2, h3, h4, h5, h6⟩ := h
  have e : rightBase x none p = base (x.getD p 0) (rightOf x p x.length) 0 (x.getD p 0, 0) := rfl
  rw [← e] at h3 h5 h6
  rw [hlen] at h2 h4
  rw [rightOf_getD (by omega)] at h6
  refine ⟨⟨p + m - 1, by omega, by omega, fun j a b => ?_, fun a => ?_,
    ⟨p + (rightBase x none p).2, by omega, by omega, h6⟩, fun j a b => ?_⟩, by omega, h6⟩
  · have := (h3 (j - p) (by omega)).1
    rwa [rightOf_getD (by omega), show p + (j - p) = j by omega] at this
  · have := h4 (by omega)
    rwa [rightOf_getD (by omega), show p + m = p + m - 1 + 1 by omega] at this
  · have := (h3 (j - p) (by omega)).2
    rwa [rightOf_getD (by omega), show p + (j - p) = j by omega] at this

theorem Spec.IsLeftBase.lt {x : List K} {p : ℕ} {v : K} (h : IsLeftBase x p v) (hm : IsMaximum x p) : v < x.getD p 0 := by
  obtain ⟨l, r, ft, rfl⟩ := hm
  obtain ⟨a, ha, h1, h2, -, h4⟩ := h
  have hmid := ft.middle_mem
  have hl := ft.pos
  have e : x.getD ((l + r) / 2) 0 = x.getD l 0 := ft.flat _ hmid.1 hmid.2
  rw [e] at h2 ⊢
  have hal : a ≤ l - 1 := by
    by_contra hcon
    have h5 := h2 (by omega)
    rcases Nat.eq_or_lt_of_le (show l ≤ a by omega) with rfl | h6
    · exact lt_asymm h5 ft.before
    · rw [ft.flat (a - 1) (by omega) (by omega)] at h5
      exact lt_irrefl _ h5
  exact (h4 (l - 1) hal (by omega)).trans_lt ft.before

theorem Spec.IsRightBase.lt {x : List K} {p : ℕ} {v : K} (h : IsRightBase x p v) (hm : IsMaximum x p) :
    v < x.getD p 0 := by
  obtain ⟨l, r, ft, rfl⟩ := hm
  obtain ⟨b, hb, hlen, h1, h2, -, h4⟩ := h
  have hmid := ft.middle_mem
  have e : x.getD ((l + r) / 2) 0 = x.getD l 0 := ft.flat _ hmid.1 hmid.2
  have hr := ft.lt
  rw [e] at h2 ⊢
  have hbr : r + 1 ≤ b := by
    by_contra hcon
    have h5 := h2 (by omega)
    rcases Nat.eq_or_lt_of_le (show b ≤ r by omega) with rfl | h6
    · exact lt_asymm h5 ft.after
    · rw [ft.flat (b + 1) (by omega) (by omega)] at h5
      exact lt_irrefl _ h5
  exact (h4 (r + 1) (by omega) hbr).trans_lt ft.after

theorem Spec.IsMaximum.lt_length {x : List K} {p : ℕ} (h : IsMaximum x p) : 0 < p ∧ p + 1 < x.length := by
  obtain ⟨l, r, ft, rfl⟩ := h
  have := ft.middle_mem
  have := ft.lt
  have := ft.pos
  omega

variable [IsStrictOrderedRing K]

/-- scipy's width of a maximum is its width. -/
theorem width_hasWidth {x : List K} {p : ℕ} (hm : IsMaximum x p) : HasWidth x p (width x none (1 / 2) p) := by
  have hp := hm.lt_length
  obtain ⟨hl, hl2, hlv⟩ := leftBase_spec (x := x) (p := p) (by omega)
  obtain ⟨hr, hr2, hrv⟩ := rightBase_spec (x := x) (p := p) (by omega)
  have e : x.getD p 0 - prominence x none p * (1 / 2)
      = (x.getD p 0 + max (leftBase x none p).1 (rightBase x none p).1) / 2 := by
    unfold prominence; ring
  have h1 := hl.lt hm
  have h2 := hr.lt hm
  have h3 := le_max_left (leftBase x none p).1 (rightBase x none p).1
  have h4 := le_max_right (leftBase x none p).1 (rightBase x none p).1
  have h5 := max_lt h1 h2
  have hL := halfWidth_spec (level := x.getD p 0 - prominence x none p * (1 / 2)) (last := (leftBase x none p).2)
    (y := leftOf x p x.length) (by rw [leftOf_length (by omega) (by omega)]; omega)
    (by rw [leftOf_getD (by omega) (by omega) hl2, hlv, e]; linarith)
    (by rw [leftOf_getD (by omega) (by omega) (by omega), e, Nat.sub_zero]; linarith)
  have hR := halfWidth_spec (level := x.getD p 0 - prominence x none p * (1 / 2)) (last := (rightBase x none p).2)
    (y := rightOf x p x.length) (by rw [rightOf_length (by omega)]; omega)
    (by rw [rightOf_getD (by omega), hrv, e]; linarith)
    (by rw [rightOf_getD (by omega), e, Nat.add_zero]; linarith)
  have ew : width x none (1 / 2) p = halfWidth (x.getD p 0 - prominence x none p * (1 / 2)) (leftBase x none p).2
      (leftOf x p x.length) + halfWidth (x.getD p 0 - prominence x none p * (1 / 2)) (rightBase x none p).2
      (rightOf x p x.length) := rfl
  rw [e] at hL hR ew
  rw [ew]
  generalize halfWidth _ _ (leftOf x p x.length) = s at hL ⊢
  generalize halfWidth _ _ (rightOf x p x.length) = s' at hR ⊢
  refine ⟨_, _, p - s, p + s', hl, hr, ?_, ?_, by ring⟩
  · obtain ⟨k, a1, a2, a3, a4, a5, a6⟩ := hL
    rw [leftOf_getD (by omega) (by omega) (by omega)] at a3
    rw [leftOf_getD (by omega) (by omega) (by omega), leftOf_getD (by omega) (by omega) (by omega)] at a6
    have ek : ((p - (k + 1) : ℕ) : K) = p - (k + 1) := by push_cast [show k + 1 ≤ p by omega]; ring
    refine ⟨p - (k + 1), by omega, fun j hj hj' => ?_, a3, by rw [ek]; linarith, by rw [ek]; linarith, ?_⟩
    · have := a2 (p - j) (by omega)
      rwa [leftOf_getD (by omega) (by omega) (by omega), show p - (p - j) = j by omega] at this
    · rw [show p - (k + 1) + 1 = p - k by omega, ek]
      linear_combination a6
  · obtain ⟨k, a1, a2, a3, a4, a5, a6⟩ := hR
    rw [rightOf_getD (by omega)] at a3
    rw [rightOf_getD (by omega), rightOf_getD (by omega)] at a6
    refine ⟨p + k, by omega, by omega, fun j hj hj' => ?_, a3, by push_cast; linarith, by push_cast; linarith, ?_⟩
    · have := a2 (j - p) (by omega)
      rwa [rightOf_getD (by omega), show p + (j - p) = j by omega] at this
    · push_cast
      rw [show p + k + 1 = p + (k + 1) by omega]
      linear_combination a6

omit [IsStrictOrderedRing K]

theorem Spec.IsLeftBase.unique {x : List K} {p : ℕ} {v w : K} (h : IsLeftBase x p v) (h' : IsLeftBase x p w) : v = w := by
  obtain ⟨a, a1, a2, a3, ⟨j, a4, a5, a6⟩, a7⟩ := h
  obtain ⟨b, b1, b2, b3, ⟨i, b4, b5, b6⟩, b7⟩ := h'
  have e : a = b := by
    rcases lt_trichotomy a b with h | h | h
    · exact absurd (a2 (b - 1) (by omega) (by omega)) (not_le.mpr (b3 (by omega)))
    · exact h
    · exact absurd (b2 (a - 1) (by omega) (by omega)) (not_le.mpr (a3 (by omega)))
  subst e
  exact le_antisymm (b6 ▸ a7 i b4 b5) (a6 ▸ b7 j a4 a5)

theorem Spec.IsRightBase.unique {x : List K} {p : ℕ} {v w : K} (h : IsRightBase x p v) (h' : IsRightBase x p w) :
    v = w := by
  obtain ⟨a, a1, a0, a2, a3, ⟨j, a4, a5, a6⟩, a7⟩ := h
  obtain ⟨b, b1, b0, b2, b3, ⟨i, b4, b5, b6⟩, b7⟩ := h'
  have e : a = b := by
    rcases lt_trichotomy a b with h | h | h
    · exact absurd (b2 (a + 1) (by omega) (by omega)) (not_le.mpr (a3 (by omega)))
    · exact h
    · exact absurd (a2 (b + 1) (by omega) (by omega)) (not_le.mpr (b3 (by omega)))
  subst e
  exact le_antisymm (b6 ▸ a7 i b4 b5) (a6 ▸ b7 j a4 a5)

variable [IsStrictOrderedRing K]

theorem Spec.CrossesLeft.unique {x : List K} {p : ℕ} {level a b : K} (h : CrossesLeft x p level a)
    (h' : CrossesLeft x p level b) : a = b := by
  obtain ⟨k, a1, a2, a3, a4, a5, a6⟩ := h
  obtain ⟨n, b1, b2, b3, b4, b5, b6⟩ := h'
  have e : k = n := by
    rcases lt_trichotomy k n with h | h | h
    · exact absurd (a2 n h (by omega)) (not_lt.mpr b3)
    · exact h
    · exact absurd (b2 k h (by omega)) (not_lt.mpr a3)
  subst e
  have hd := a2 (k + 1) (by omega) (by omega)
  have : (a - b) * (x.getD (k + 1) 0 - x.getD k 0) = 0 := by linear_combination a6 - b6
  rcases mul_eq_zero.mp this with h | h
  · linarith
  · linarith

theorem Spec.CrossesRight.unique {x : List K} {p : ℕ} {level a b : K} (h : CrossesRight x p level a)
    (h' : CrossesRight x p level b) : a = b := by
  obtain ⟨k, a1, a0, a2, a3, a4, a5, a6⟩ := h
  obtain ⟨n, b1, b0, b2, b3, b4, b5, b6⟩ := h'
  have e : k = n := by
    rcases lt_trichotomy k n with h | h | h
    · exact absurd (b2 (k + 1) (by omega) (by omega)) (not_lt.mpr a3)
    · exact h
    · exact absurd (a2 (n + 1) (by omega) (by omega)) (not_lt.mpr b3)
  subst e
  have hd := a2 k a1 le_rfl
  have : (a - b) * (x.getD (k + 1) 0 - x.getD k 0) = 0 := by linear_combination a6 - b6
  rcases mul_eq_zero.mp this with h | h
  · linarith
  · linarith

theorem Spec.HasWidth.unique {x : List K} {p : ℕ} {v w : K} (h : HasWidth x p v) (h' : HasWidth x p w) : v = w := by
  obtain ⟨l, r, a, b, h1, h2, h3, h4, rfl⟩ := h
  obtain ⟨l', r', a', b', h1', h2', h3', h4', rfl⟩ := h'
  cases h1.unique h1'
  cases h2.unique h2'
  rw [h3.unique h3', h4.unique h4']

theorem Spec.HasWidth.pos {x : List K} {p : ℕ} {w : K} (h : HasWidth x p w) : 0 < w := by
  obtain ⟨l, r, a, b, -, -, ⟨k, a1, -, -, -, a5, -⟩, ⟨n, b1, -, -, -, b4, -, -⟩, rfl⟩ := h
  have : ((k : K) + 1) ≤ n := by exact_mod_cast (show k + 1 ≤ n by omega)
  linarith

end

end GwEcc
