import Verif.Model.FindPeaks
import Verif.Spec.FindPeaks
import Verif.Lemmas.Extrema
import Mathlib.Tactic.Ring
import Mathlib.Tactic.Linarith

/-!
# Lemmas on the model of `find_peaks`
-/

namespace GwEcc

open Spec
open scoped List

section
variable {K : Type} [Field K] [LinearOrder K]

/-! ### Maxima -/

theorem pastPlateau_spec (x : List K) (i : ℕ) : ∀ (n j : ℕ), j ≤ x.length - 1 → x.length ≤ n + j →
    j ≤ pastPlateau x i n j ∧ pastPlateau x i n j ≤ x.length - 1 ∧
      (∀ k, j ≤ k → k < pastPlateau x i n j → x.getD k 0 = x.getD i 0) ∧
      (pastPlateau x i n j = x.length - 1 ∨ x.getD (pastPlateau x i n j) 0 ≠ x.getD i 0)
  | 0, j, h1, h2 => by
    unfold pastPlateau
    exact ⟨le_rfl, h1, fun k a b => by omega, Or.inl (by omega)⟩
  | n + 1, j, h1, h2 => by
    unfold pastPlateau
    split
    · rename_i h
      obtain ⟨a, b, c, d⟩ := pastPlateau_spec x i n (j + 1) (by omega) (by omega)
      refine ⟨by omega, b, fun k hk hk' => ?_, d⟩
      rcases Nat.eq_or_lt_of_le hk with rfl | hk
      · exact h.2
      · exact c k hk hk'
    · rename_i h
      refine ⟨le_rfl, h1, fun k a b => by omega, ?_⟩
      by_cases hj : j < x.length - 1
      · exact Or.inr fun e => h ⟨hj, e⟩
      · exact Or.inl (by omega)

theorem plateausFrom_spec (x : List K) : ∀ (n i : ℕ), 0 < i → x.length ≤ n + i →
    (∀ p, p ∈ plateausFrom x n i ↔ FlatTop x p.1 p.2 ∧ i ≤ p.1) ∧
      (plateausFrom x n i).Pairwise fun p q => p.2 + 1 < q.1
  | 0, i, h0, h => by
    unfold plateausFrom
    refine ⟨fun p => ?_, List.Pairwise.nil⟩
    constructor
    · intro hp; cases hp
    · rintro ⟨ft, hi⟩
      have := ft.lt
      have := ft.le
      omega
  | n + 1, i, h0, h => by
    have skip : (¬ FlatTop x i i ∧ ∀ r, ¬ FlatTop x i r) →
        (∀ p, p ∈ plateausFrom x n (i + 1) ↔ FlatTop x p.1 p.2 ∧ i ≤ p.1) := by
      rintro ⟨-, hno⟩ p
      rw [(plateausFrom_spec x n (i + 1) (by omega) (by omega)).1 p]
      refine and_congr_right fun ft => ⟨fun h => by omega, fun h => ?_⟩
      rcases Nat.eq_or_lt_of_le h with e | h
      · exact absurd (e ▸ ft) (hno p.2)
      · exact h
    unfold plateausFrom
    split
    · rename_i hi
      split
      · rename_i hlt
        dsimp only
        obtain ⟨a, b, c, d⟩ := pastPlateau_spec x i x.length (i + 1) (by omega) (by omega)
        generalize pastPlateau x i x.length (i + 1) = j at a b c d ⊢
        have flat : ∀ k, i ≤ k → k < j → x.getD k 0 = x.getD i 0 := by
          intro k h1 h2
          rcases Nat.eq_or_lt_of_le h1 with rfl | h1
          · rfl
          · exact c k h1 h2
        split
        · rename_i hj
          obtain ⟨ih1, ih2⟩ := plateausFrom_spec x n (j + 1) (by omega) (by omega)
          have top : FlatTop x i (j - 1) := by
            refine ⟨h0, by omega, by omega, fun k h1 h2 => flat k h1 (by omega), hlt, ?_⟩
            rwa [show j - 1 + 1 = j by omega]
          refine ⟨fun p => ?_, List.pairwise_cons.mpr ⟨fun q hq => ?_, ih2⟩⟩
          · rw [List.mem_cons, ih1]
            constructor
            · rintro (rfl | ⟨ft, hp⟩)
              · exact ⟨top, le_rfl⟩
              · exact ⟨ft, by omega⟩
            · rintro ⟨ft, hp⟩
              by_cases h1 : j + 1 ≤ p.1
              · exact Or.inr ⟨ft, h1⟩
              left
              rcases Nat.eq_or_lt_of_le hp with e | hp
              · -- the same left edge
                have hr : p.2 = j - 1 := by
                  have f1 := ft.flat
                  have f2 := ft.after
                  have f3 := ft.le
                  rw [← e] at f1 f2 f3
                  rcases lt_trichotomy p.2 (j - 1) with h3 | h3 | h3
                  · exact absurd (flat (p.2 + 1) (by omega) (by omega)) (ne_of_lt f2)
                  · exact h3
                  · have := f1 j (by omega) (by omega)
                    exact absurd this (ne_of_lt hj)
                exact Prod.ext e.symm hr
              · exfalso
                have f1 := ft.before
                by_cases h2 : p.1 < j
                · rw [flat (p.1 - 1) (by omega) (by omega), flat p.1 (by omega) h2] at f1
                  exact lt_irrefl _ f1
                · have e : p.1 = j := by omega
                  rw [e, flat (j - 1) (by omega) (by omega)] at f1
                  exact lt_asymm f1 hj
          · have := (ih1 q).mp hq
            show j - 1 + 1 < q.1
            omega
        · rename_i hj
          have hno : ∀ r, ¬ FlatTop x i r := by
            intro r ft
            have hle := ft.le
            by_cases hr : r + 1 < j
            · exact absurd (flat (r + 1) (by omega) hr) (ne_of_lt ft.after)
            · rcases Nat.eq_or_lt_of_le (show j ≤ r + 1 by omega) with e | h2
              · exact hj (e ▸ ft.after)
              · have e := ft.flat j (by omega) (by omega)
                rcases d with d | d
                · have := ft.lt; omega
                · exact d e
          exact ⟨skip ⟨hno i, hno⟩, (plateausFrom_spec x n (i + 1) (by omega) (by omega)).2⟩
      · rename_i hlt
        have hno : ∀ r, ¬ FlatTop x i r := fun r ft => hlt ft.before
        exact ⟨skip ⟨hno i, hno⟩, (plateausFrom_spec x n (i + 1) (by omega) (by omega)).2⟩
    · rename_i hi
      refine ⟨fun p => ?_, List.Pairwise.nil⟩
      constructor
      · intro hp; cases hp
      · rintro ⟨ft, hp⟩
        have := ft.lt
        have := ft.le
        omega

theorem mem_plateaus (x : List K) (p : ℕ × ℕ) : p ∈ plateaus x ↔ FlatTop x p.1 p.2 := by
  unfold plateaus
  rw [(plateausFrom_spec x x.length 1 (by omega) (by omega)).1]
  exact ⟨fun h => h.1, fun h => ⟨h, h.pos⟩⟩

theorem plateaus_sorted (x : List K) : (plateaus x).Pairwise fun p q => p.2 + 1 < q.1 :=
  (plateausFrom_spec x x.length 1 (by omega) (by omega)).2

theorem Spec.FlatTop.middle_mem {x : List K} {l r : ℕ} (h : FlatTop x l r) : l ≤ (l + r) / 2 ∧ (l + r) / 2 ≤ r := by
  have := h.le; omega

theorem mem_middles (x : List K) (i : ℕ) : i ∈ (plateaus x).map middle ↔ IsMaximum x i := by
  rw [List.mem_map]
  constructor
  · rintro ⟨p, hp, rfl⟩
    exact ⟨p.1, p.2, (mem_plateaus x p).mp hp, rfl⟩
  · rintro ⟨l, r, h, rfl⟩
    exact ⟨(l, r), (mem_plateaus x (l, r)).mpr h, rfl⟩

theorem middles_sorted (x : List K) : ((plateaus x).map middle).Pairwise fun i j => i + 1 < j := by
  rw [List.pairwise_map]
  refine (plateaus_sorted x).imp_of_mem fun {p q} hp hq h => ?_
  have h1 := ((mem_plateaus x p).mp hp).middle_mem
  have h2 := ((mem_plateaus x q).mp hq).middle_mem
  unfold middle
  omega

/-! ### Sublists -/

theorem filterMap_range_sublist {α : Type} : ∀ (l : List α) (P : ℕ → Prop) [DecidablePred P],
    ((List.range l.length).filterMap fun j => if P j then l[j]? else none) <+ l
  | [], _, _ => by simp
  | a :: l, P, _ => by
    have ih := filterMap_range_sublist l fun j => P (j + 1)
    rw [List.length_cons, List.range_succ_eq_map, List.filterMap_cons, List.filterMap_map]
    have e : ((fun j => if P j then (a :: l)[j]? else none) ∘ Nat.succ) = fun j => if P (j + 1) then l[j]? else none := by
      funext j
      simp [Function.comp]
    rw [e]
    by_cases h : P 0
    · simp only [if_pos h, List.getElem?_cons_zero]
      exact ih.cons_cons a
    · simp only [if_neg h]
      exact ih.cons a

theorem candidates_sublist (o : PeakOptions K) (x : List K) : candidates o x <+ (plateaus x).map middle :=
  (List.filter_sublist.trans List.filter_sublist).trans (List.filter_sublist.map middle)

variable [FloorRing K]

theorem spaced_sublist (argsort : List K → List ℕ) (d : Option K) (x : List K) (l : List ℕ) :
    spaced argsort d x l <+ l := by
  unfold spaced
  split
  · exact List.Sublist.refl _
  · exact filterMap_range_sublist l _

/-- Whatever the options, the peaks are some of the maxima. -/
theorem findPeaksWith_sublist {argsort : List K → List ℕ} {o : PeakOptions K} {x : List K} {peaks : List ℕ}
    (h : findPeaksWith argsort o x = .ok peaks) : peaks <+ (plateaus x).map middle := by
  have h1 := (spaced_sublist argsort o.distance x (candidates o x)).trans (candidates_sublist o x)
  unfold findPeaksWith at h
  split at h
  · cases h
  dsimp only at h
  split at h
  · split at h
    · cases h
    split at h
    · cases h
    cases h
    exact (List.filter_sublist.trans List.filter_sublist).trans h1
  · cases h
    exact h1

theorem findPeaks_sublist {argsort : List K → List ℕ} {kw : String → Option (Leaf K)} {x : List K} {peaks : List ℕ}
    (h : findPeaks argsort kw x = .ok peaks) : peaks <+ (plateaus x).map middle := by
  obtain ⟨o, -, h⟩ := bind_ok h
  exact findPeaksWith_sublist h

end

end GwEcc
