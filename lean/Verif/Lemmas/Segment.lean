import Verif.Spec.Segment
import Verif.Lemmas.Py
import Verif.Lemmas.Process
import Mathlib.Algebra.Order.Floor.Ring
import Mathlib.Data.List.TakeWhile
import Mathlib.Tactic.Linarith
import Mathlib.Tactic.FieldSimp

/-! # Lemmas: choice of the segment -/

set_option linter.unusedSectionVars false

namespace GwEcc

open Spec

section
variable {K : Type} [Field K] [LinearOrder K] [IsStrictOrderedRing K]

theorem pyLast_ok' {α : Type} {l : List α} {a : α} (h : pyLast l = .ok a) : l ≠ [] ∧ l[l.length - 1]? = some a := by
  unfold pyLast at h
  split at h
  · rename_i b hb
    cases h
    refine ⟨by rintro rfl; simp at hb, ?_⟩
    rwa [List.getLast?_eq_getElem?] at hb
  · cases h

theorem lt_searchSorted {l : List K} {v : K} {i : ℕ} (hi : i < searchSorted l v) : ∃ x, l[i]? = some x ∧ x < v := by
  unfold searchSorted at hi
  have hp : l.takeWhile (· < v) <+: l := List.takeWhile_prefix _
  have hlt := lt_of_lt_of_le hi hp.length_le
  refine ⟨l[i], List.getElem?_eq_getElem hlt, ?_⟩
  have h1 : (l.takeWhile (· < v))[i] = l[i] := by
    obtain ⟨r, hr⟩ := hp
    have := List.getElem_append_left (bs := r) hi (h' := by simp; omega)
    rw [← this]
    simp [hr]
  have h2 := List.mem_takeWhile_imp (List.getElem_mem hi)
  rw [h1] at h2
  simpa using h2

theorem mono_getElem? {l : List K} (hl : l.Pairwise (· ≤ ·)) {i j : ℕ} {x y : K} (hx : l[i]? = some x) (hy : l[j]? = some y)
    (hij : i ≤ j) : x ≤ y := by
  obtain ⟨h1, rfl⟩ := List.getElem?_eq_some_iff.mp hx
  obtain ⟨h2, rfl⟩ := List.getElem?_eq_some_iff.mp hy
  rcases hij.lt_or_eq with h | rfl
  · exact List.pairwise_iff_getElem.mp hl i j h1 h2 h
  · exact le_refl _

theorem where_head {l : List K} {v : K} {s : ℕ} {r : List ℕ} (h : npWhere (fun x => decide (v ≤ x)) l = s :: r) :
    (∃ y, l[s]? = some y ∧ v ≤ y) ∧ ∀ (i : ℕ) (x : K), l[i]? = some x → i < s → x < v := by
  obtain ⟨⟨h1, h2⟩, h3⟩ := npWhere_head h
  refine ⟨⟨l[s], List.getElem?_eq_getElem h1, by simpa using h2⟩, fun i x hx hi => ?_⟩
  obtain ⟨h4, rfl⟩ := List.getElem?_eq_some_iff.mp hx
  simpa using h3 i h4 hi

theorem where_nil {l : List K} {v : K} (h : npWhere (fun x => decide (v ≤ x)) l = []) :
    ∀ (i : ℕ) (x : K), l[i]? = some x → x < v := by
  intro i x hx
  obtain ⟨h4, rfl⟩ := List.getElem?_eq_some_iff.mp hx
  simpa using npWhere_nil h i h4

/-- What `_get_segment_indices` guarantees. -/
theorem segmentIndices_spec [FloorRing K] {pi n : K} (hpi : 0 < pi) (hn : 0 ≤ n) {phase : List K}
    (hph : phase.Pairwise (· ≤ ·)) {il ir : ℕ} {pl pr : K} (hl : phase[il]? = some pl) (hr : phase[ir]? = some pr)
    (hle : pl ≤ pr) {s : ℕ} {e : ℤ} (h : segmentIndices pi n phase pl pr = .ok (s, e)) :
    pyBound phase.length s = s ∧ ∃ stop : ℕ, pyBound phase.length e = stop ∧ stop < phase.length ∧
      (∀ (i : ℕ) (x : K), phase[i]? = some x → pl - n / 2 * orbit pi ≤ x → s ≤ i) ∧
      (∀ (i : ℕ) (x : K), phase[i]? = some x → x < pr + n / 2 * orbit pi → i < stop ∨ i + 1 = phase.length) ∧
      ((s = 0 ∧ stop + 1 = phase.length) ∨
        ∃ a b, phase[s - 1]? = some a ∧ phase[stop]? = some b ∧ n * orbit pi ≤ b - a) := by
  have hF : fourPiK pi = orbit pi := by unfold fourPiK orbit; ring
  have hFpos : 0 < orbit pi := by unfold orbit; positivity
  have hc : n / 2 ≤ (⌈n / 2⌉ : K) := Int.le_ceil _
  have hW : n / 2 * orbit pi ≤ (⌈n / 2⌉ : K) * orbit pi := mul_le_mul_of_nonneg_right hc hFpos.le
  have hN : il < phase.length := (List.getElem?_eq_some_iff.mp hl).1
  have hNr : ir < phase.length := (List.getElem?_eq_some_iff.mp hr).1
  have hp0' : phase[0]? = some phase[0] := List.getElem?_eq_getElem (by omega)
  have hp0 : phase[0] ≤ pl := mono_getElem? hph hp0' hl (Nat.zero_le _)
  have hpN' : phase[phase.length - 1]? = some phase[phase.length - 1] := List.getElem?_eq_getElem (by omega)
  have hpN : pr ≤ phase[phase.length - 1] := mono_getElem? hph hr hpN' (by omega)
  unfold segmentIndices at h
  dsimp only at h
  rw [hF] at h
  set W := (⌈n / 2⌉ : K) * orbit pi with hWdef
  set st := searchSorted phase (pl - W) - 1 with hst
  obtain ⟨add, hadd, h⟩ := bind_ok h
  have hadd0 : 0 ≤ add ∧ (st = 0 → n * orbit pi ≤ pr + W + add * orbit pi - phase[0]) := by
    split at hadd
    · obtain ⟨p0, e0, hadd⟩ := bind_ok hadd
      obtain ⟨_, e0⟩ := pyGet_ok e0
      cases hadd
      unfold additionalOrbits
      refine ⟨le_max_right _ _, fun _ => ?_⟩
      have h1 := le_max_left (1 / 2 * n - (pl - p0) / orbit pi - (pr - pl) / orbit pi) 0
      have h2 := mul_le_mul_of_nonneg_right h1 hFpos.le
      have h3 : (1 / 2 * n - (pl - p0) / orbit pi - (pr - pl) / orbit pi) * orbit pi =
          1 / 2 * n * orbit pi - (pl - p0) - (pr - pl) := by field_simp
      rw [h3] at h2
      rw [e0]
      linarith
    · rename_i h0
      cases hadd
      exact ⟨le_refl _, fun q => absurd q h0⟩
  have hsl : st = 0 ∨ ∃ x, phase[st]? = some x ∧ x < pl - W := by
    rcases Nat.eq_zero_or_pos (searchSorted phase (pl - W)) with h0 | h0
    · left; omega
    · right; exact lt_searchSorted (by omega)
  split at h
  · rename_i stop r hw
    obtain ⟨rfl, rfl⟩ := Prod.mk.inj (Except.ok.inj h)
    obtain ⟨⟨y, hy, hy1⟩, hw2⟩ := where_head hw
    have hstop : stop < phase.length := (List.getElem?_eq_some_iff.mp hy).1
    have hsl' : st < phase.length := by
      rcases hsl with h0 | ⟨x, hx, _⟩
      · omega
      · exact (List.getElem?_eq_some_iff.mp hx).1
    refine ⟨?_, stop, ?_, hstop, ?_, ?_, ?_⟩
    · unfold pyBound; rw [if_neg (by omega)]; simp; omega
    · unfold pyBound; rw [if_neg (by omega)]; simp; omega
    · intro i x hx hxl
      rcases hsl with h0 | ⟨z, hz, hz1⟩
      · omega
      · by_contra hlt
        have := mono_getElem? hph hx hz (by omega)
        linarith
    · intro i x hx hxl
      left
      by_contra hlt
      have := mono_getElem? hph hy hx (by omega)
      have := mul_nonneg hadd0.1 hFpos.le
      linarith
    · right
      have h9 := mul_nonneg hadd0.1 hFpos.le
      rcases hsl with h0 | ⟨z, hz, hz1⟩
      · refine ⟨phase[0], y, by rw [h0]; exact hp0', hy, ?_⟩
        have := hadd0.2 h0
        linarith
      · have hle1 : phase[st - 1]? = some phase[st - 1] := List.getElem?_eq_getElem (by omega)
        refine ⟨phase[st - 1], y, hle1, hy, ?_⟩
        have := mono_getElem? hph hle1 hz (by omega)
        linarith
  · rename_i hw
    obtain ⟨pN, eN, h⟩ := bind_ok h
    obtain ⟨_, eN⟩ := pyLast_ok' eN
    have eN' : pN = phase[phase.length - 1] := by rw [hpN'] at eN; exact (Option.some.inj eN).symm
    have hnil := where_nil hw
    set add2 := additionalOrbits n ((pN - pr) / orbit pi) ((pr - pl) / orbit pi) with hadd2
    have ha0 : 0 ≤ add2 := le_max_right _ _
    have ha1 : n * orbit pi ≤ pN - (pl - W - add2 * orbit pi) := by
      have h1 : 1 / 2 * n - (pN - pr) / orbit pi - (pr - pl) / orbit pi ≤ add2 := le_max_left _ _
      have h2 := mul_le_mul_of_nonneg_right h1 hFpos.le
      have h3 : (1 / 2 * n - (pN - pr) / orbit pi - (pr - pl) / orbit pi) * orbit pi =
          1 / 2 * n * orbit pi - (pN - pr) - (pr - pl) := by field_simp
      rw [h3] at h2
      linarith
    have h9 := mul_nonneg ha0 hFpos.le
    have hb : pyBound phase.length (-1) = phase.length - 1 := by unfold pyBound; rw [if_pos (by omega)]; omega
    have hB : ∀ (i : ℕ) (x : K), phase[i]? = some x → x < pr + n / 2 * orbit pi → i < phase.length - 1 ∨ i + 1 = phase.length := by
      intro i x hx _
      have := (List.getElem?_eq_some_iff.mp hx).1
      omega
    split at h
    · rename_i s' r hw'
      cases h
      obtain ⟨⟨y, hy, hy1⟩, hw2⟩ := where_head hw'
      have hs : s < phase.length := (List.getElem?_eq_some_iff.mp hy).1
      refine ⟨?_, phase.length - 1, hb, by omega, ?_, hB, ?_⟩
      · unfold pyBound; rw [if_neg (by omega)]; simp; omega
      · intro i x hx hxl
        by_contra hlt
        have := hw2 i x hx (by omega)
        linarith
      · rcases Nat.eq_zero_or_pos s with h0 | h0
        · left; exact ⟨h0, by omega⟩
        · right
          have hle1 : phase[s - 1]? = some phase[s - 1] := List.getElem?_eq_getElem (by omega)
          refine ⟨phase[s - 1], pN, hle1, eN, ?_⟩
          have := hw2 _ _ hle1 (by omega)
          linarith
    · cases h
      refine ⟨?_, phase.length - 1, hb, by omega, fun i x _ _ => by omega, hB, ?_⟩
      · unfold pyBound; rw [if_neg (by omega)]; simp
      · left; exact ⟨rfl, by omega⟩

theorem slice_getElem? {α : Type} (l : List α) {n : ℕ} (hn : l.length = n) {a b : ℤ} {s e : ℕ} (ha : pyBound n a = s)
    (hb : pyBound n b = e) (k : ℕ) : (pySlice l a b)[k]? = if s + k < e then l[s + k]? else none := by
  unfold pySlice
  rw [hn, ha, hb, List.getElem?_drop, List.getElem?_take]

theorem phaseNear_ok {w : Wave K} {x p : K} (h : phaseNear w x = .ok p) : PhaseAt w x p := by
  unfold phaseNear at h
  obtain ⟨i, hi, h⟩ := bind_ok h
  obtain ⟨hl, e⟩ := pyGet_ok h
  exact ⟨i, argmin_abs_nearest hi, by rw [List.getElem?_eq_getElem hl, e]⟩

end

end GwEcc
