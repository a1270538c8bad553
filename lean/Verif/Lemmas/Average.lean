import Verif.Lemmas.Measure
import Mathlib.Data.List.GetD
import Mathlib.Tactic.Ring
import Mathlib.Tactic.FieldSimp
import Mathlib.Tactic.Linarith
import Mathlib.Tactic.Positivity

set_option linter.unusedSectionVars false

namespace GwEcc

open Spec

variable {K : Type} [Field K] [LinearOrder K] [IsStrictOrderedRing K]

/-- The two lists handled by the code, side by side, are the points of the specification. -/
theorem zip_orbitAveraged (o : Obj K) : ∀ ext : List ℕ,
    (midTimes (takeAt o.t ext)).zip (orbitAveraged o ext) = OrbitPoints o.phase o.t ext
  | [] => rfl
  | [i] => rfl
  | i :: j :: l => by
    have ih := zip_orbitAveraged o (j :: l)
    unfold midTimes orbitAveraged OrbitPoints takeAt at ih ⊢
    simp only [List.map_cons, List.drop_succ_cons, List.drop_zero, diff, List.dropLast_cons_cons, List.zipWith_cons_cons,
      List.zip_cons_cons, List.tail_cons] at ih ⊢
    rw [ih]
    congr 1
    simp only [at', MeanRate, Prod.mk.injEq, and_true]
    ring

theorem length_midTimes (l : List K) : (midTimes l).length = l.length - 1 := by
  simp [midTimes]

theorem length_orbitAveraged (o : Obj K) (ext : List ℕ) : (orbitAveraged o ext).length = ext.length - 1 := by
  simp [orbitAveraged, length_diff, takeAt]

theorem takeAt_zip (l r : List K) (idx : List ℕ) (hlen : l.length = r.length) (h : ∀ i ∈ idx, i < l.length) :
    (takeAt l idx).zip (takeAt r idx) = idx.map (fun i => (l.zip r).getD i (0, 0)) := by
  induction idx with
  | nil => rfl
  | cons i idx ih =>
    have hi : i < l.length := h i (by simp)
    have ih := ih (fun j hj => h j (by simp [hj]))
    unfold takeAt at ih ⊢
    simp only [List.map_cons, List.zip_cons_cons, ih]
    congr 1
    unfold at'
    rw [List.getD_eq_getElem _ _ hi, List.getD_eq_getElem _ _ (hlen ▸ hi),
      List.getD_eq_getElem _ _ (by simp [← hlen, hi]), List.getElem_zip]

theorem perm_getD {α : Type} (l : List α) (d : α) (idx : List ℕ) (h : idx.Perm (List.range l.length)) :
    (idx.map (fun i => l.getD i d)).Perm l := by
  have h2 : (List.range l.length).map (fun i => l.getD i d) = l := by
    apply List.ext_getElem
    · simp
    · intro i h1 h2
      simp only [List.getElem_map, List.getElem_range]
      exact List.getD_eq_getElem _ _ h2
  calc (idx.map (fun i => l.getD i d)).Perm ((List.range l.length).map (fun i => l.getD i d)) := h.map _
    _ = l := h2
    List.Perm _ l := List.Perm.refl _

/-- Accumulated phase over elapsed time is between the extreme rates of the single steps. -/
theorem meanRate_between (phase t : List K) (i : ℕ) (lo hi : K) : ∀ n : ℕ,
    (∀ k, i ≤ k → k < i + n + 1 → t.getD k 0 < t.getD (k + 1) 0) →
    (∀ k, i ≤ k → k < i + n + 1 → lo ≤ MeanRate phase t k (k + 1) ∧ MeanRate phase t k (k + 1) ≤ hi) →
    t.getD i 0 < t.getD (i + n + 1) 0 ∧ lo ≤ MeanRate phase t i (i + n + 1) ∧ MeanRate phase t i (i + n + 1) ≤ hi
  | 0, ht, hr => ⟨ht i (le_refl _) (by omega), hr i (le_refl _) (by omega)⟩
  | n + 1, ht, hr => by
    obtain ⟨h1, h2, h3⟩ := meanRate_between phase t i lo hi n (fun k a b => ht k a (by omega))
      (fun k a b => hr k a (by omega))
    have h4 := ht (i + n + 1) (by omega) (by omega)
    have h5 := hr (i + n + 1) (by omega) (by omega)
    have e1 : i + (n + 1) + 1 = i + n + 1 + 1 := by omega
    rw [e1]
    refine ⟨h1.trans h4, ?_⟩
    unfold MeanRate at *
    have p1 : 0 < t.getD (i + n + 1) 0 - t.getD i 0 := sub_pos.mpr h1
    have p2 : 0 < t.getD (i + n + 1 + 1) 0 - t.getD (i + n + 1) 0 := sub_pos.mpr h4
    have p3 : 0 < t.getD (i + n + 1 + 1) 0 - t.getD i 0 := sub_pos.mpr (h1.trans h4)
    rw [le_div_iff₀ p1] at h2
    rw [div_le_iff₀ p1] at h3
    rw [le_div_iff₀ p2, div_le_iff₀ p2] at h5
    rw [le_div_iff₀ p3, div_le_iff₀ p3]
    constructor <;> nlinarith [h5.1, h5.2]

theorem checkAverageIncreasing_ok_iff (w : List K) : checkAverageIncreasing w = .ok () ↔ w.Pairwise (· < ·) := by
  unfold checkAverageIncreasing
  rw [← diff_pos_iff]
  constructor
  · intro h
    split at h
    · exact absurd h (by simp)
    · rename_i hc
      simpa [List.any_eq_true] using hc
  · intro h
    rw [if_neg]
    simpa [List.any_eq_true] using h

end GwEcc
