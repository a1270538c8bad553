import Verif.Lemmas.FindPeaks

/-!
# The condition on the distance of peaks
-/

namespace GwEcc

open Spec

section
variable {K : Type} [Field K] [LinearOrder K]

theorem tooClose_symm (peaks : List ℕ) (d : ℤ) (j k : ℕ) : tooClose peaks d j k = tooClose peaks d k j := by
  unfold tooClose
  rw [abs_sub_comm]
  simp only [ne_comm]

/-- What holds after the peaks `done` have been looked at. -/
structure Sieved (peaks : List ℕ) (d : ℤ) (prio : ℕ → K) (n : ℕ) (done keep : List ℕ) : Prop where
  range : ∀ k ∈ keep, k < n
  apart : ∀ j ∈ keep, j ∈ done → ∀ k ∈ keep, tooClose peaks d j k = false
  beaten : ∀ k, k < n → k ∉ keep → ∃ j ∈ keep, j ∈ done ∧ tooClose peaks d j k = true ∧ prio k ≤ prio j

theorem distanceStep_sieved {peaks : List ℕ} {d : ℤ} {prio : ℕ → K} {n : ℕ} {done keep : List ℕ} {j : ℕ}
    (h : Sieved peaks d prio n done keep) (hj : ∀ k ∈ keep, k ∉ done → prio k ≤ prio j) :
    Sieved peaks d prio n (j :: done) (distanceStep peaks d keep j) := by
  unfold distanceStep
  split
  · rename_i hmem
    have self : tooClose peaks d j j = false := by unfold tooClose; simp
    have stay : ∀ k, k ∈ keep.filter (fun k => !tooClose peaks d j k) ↔ k ∈ keep ∧ tooClose peaks d j k = false := by
      intro k; simp [List.mem_filter]
    refine ⟨fun k hk => h.range k ((stay k).mp hk).1, fun i hi hdone k hk => ?_, fun k hk hnot => ?_⟩
    · rcases List.mem_cons.mp hdone with rfl | hdone
      · exact ((stay k).mp hk).2
      · exact h.apart i ((stay i).mp hi).1 hdone k ((stay k).mp hk).1
    · by_cases hkeep : k ∈ keep
      · have hclose : tooClose peaks d j k = true := by
          by_contra hc
          exact hnot ((stay k).mpr ⟨hkeep, by simpa using hc⟩)
        refine ⟨j, (stay j).mpr ⟨hmem, self⟩, by simp, hclose, hj k hkeep fun hdone => ?_⟩
        have := h.apart k hkeep hdone j hmem
        rw [tooClose_symm, hclose] at this
        exact absurd this (by simp)
      · obtain ⟨i, hi, hdone, hclose, hp⟩ := h.beaten k hk hkeep
        refine ⟨i, (stay i).mpr ⟨hi, ?_⟩, List.mem_cons_of_mem _ hdone, hclose, hp⟩
        rw [tooClose_symm]
        exact h.apart i hi hdone j hmem
  · rename_i hmem
    refine ⟨h.range, fun i hi hdone k hk => ?_, fun k hk hnot => ?_⟩
    · rcases List.mem_cons.mp hdone with rfl | hdone
      · exact absurd hi hmem
      · exact h.apart i hi hdone k hk
    · obtain ⟨i, hi, hdone, hclose, hp⟩ := h.beaten k hk hnot
      exact ⟨i, hi, List.mem_cons_of_mem _ hdone, hclose, hp⟩

theorem distanceStep_subset (peaks : List ℕ) (d : ℤ) (keep : List ℕ) (j k : ℕ)
    (h : k ∈ distanceStep peaks d keep j) : k ∈ keep := by
  unfold distanceStep at h
  split at h
  · exact (List.mem_filter.mp h).1
  · exact h

theorem distance_fold {peaks : List ℕ} {d : ℤ} {prio : ℕ → K} {n : ℕ} : ∀ (ord done keep : List ℕ),
    Sieved peaks d prio n done keep → (ord.Pairwise fun i j => prio j ≤ prio i) →
    (∀ k ∈ keep, k ∈ done ∨ k ∈ ord) →
    ∃ done', Sieved peaks d prio n done' (ord.foldl (distanceStep peaks d) keep) ∧
      ∀ k ∈ ord.foldl (distanceStep peaks d) keep, k ∈ done'
  | [], done, keep, h, _, hall => ⟨done, h, fun k hk => (hall k hk).resolve_right (by simp)⟩
  | j :: ord, done, keep, h, hs, hall => by
    rw [List.foldl_cons]
    rw [List.pairwise_cons] at hs
    refine distance_fold ord (j :: done) _ (distanceStep_sieved h fun k hk hd => ?_) hs.2 fun k hk => ?_
    · rcases List.mem_cons.mp ((hall k hk).resolve_left hd) with rfl | hk
      · exact le_rfl
      · exact hs.1 k hk
    · rcases hall k (distanceStep_subset _ _ _ _ _ hk) with h | h
      · exact Or.inl (List.mem_cons_of_mem _ h)
      · rcases List.mem_cons.mp h with rfl | h
        · exact Or.inl (by simp)
        · exact Or.inr h

theorem selectByDistance_sieved {argsort : List K → List ℕ} (ha : IsArgsort argsort) (peaks : List ℕ) (priority : List K)
    (hlen : priority.length = peaks.length) (d : ℤ) :
    (∀ k ∈ selectByDistance argsort peaks priority d, k < peaks.length) ∧
    (∀ j ∈ selectByDistance argsort peaks priority d, ∀ k ∈ selectByDistance argsort peaks priority d,
      tooClose peaks d j k = false) ∧
    ∀ k, k < peaks.length → k ∉ selectByDistance argsort peaks priority d →
      ∃ j ∈ selectByDistance argsort peaks priority d, tooClose peaks d j k = true ∧
        priority.getD k 0 ≤ priority.getD j 0 := by
  obtain ⟨hp, hs⟩ := ha priority
  have h0 : Sieved peaks d (fun k => priority.getD k 0) peaks.length [] (List.range peaks.length) :=
    ⟨fun k hk => List.mem_range.mp hk, fun j _ h => by simp at h, fun k hk h => absurd (List.mem_range.mpr hk) h⟩
  obtain ⟨done', h, hdone⟩ := distance_fold (argsort priority).reverse [] (List.range peaks.length) h0
    (List.pairwise_reverse.mpr hs)
    (fun k hk => Or.inr (by rw [List.mem_reverse, hp.mem_iff, hlen]; exact hk))
  refine ⟨h.range, fun j hj k hk => h.apart j hj (hdone j hj) k hk, fun k hk hnot => ?_⟩
  obtain ⟨j, hj, -, hc, hv⟩ := h.beaten k hk hnot
  exact ⟨j, hj, hc, hv⟩

variable [FloorRing K] [IsStrictOrderedRing K]

theorem mem_spaced {argsort : List K → List ℕ} {d : K} {x : List K} {l : List ℕ} {p : ℕ} :
    p ∈ spaced argsort (some d) x l ↔
      ∃ j ∈ selectByDistance argsort l (l.map fun p => x.getD p 0) ⌈d⌉, l[j]? = some p := by
  unfold spaced
  simp only [List.mem_filterMap, List.mem_range]
  constructor
  · rintro ⟨j, hj, h⟩
    split at h
    · rename_i hk
      exact ⟨j, hk, h⟩
    · cases h
  · rintro ⟨j, hk, h⟩
    refine ⟨j, (List.getElem?_eq_some_iff.mp h).1, ?_⟩
    rw [if_pos hk, h]

/-- The peaks that are left are at least the distance apart, and each of those dropped is closer than that to a peak that is
left and at least as high. -/
theorem spaced_spec {argsort : List K → List ℕ} (ha : IsArgsort argsort) (d : K) (x : List K) {l : List ℕ}
    (hl : l.Pairwise (· < ·)) :
    ((spaced argsort (some d) x l).Pairwise fun (p q : ℕ) => (p : K) + d ≤ q) ∧
      ∀ p ∈ l, p ∉ spaced argsort (some d) x l →
        ∃ q ∈ spaced argsort (some d) x l, |(p : K) - q| < d ∧ x.getD p 0 ≤ x.getD q 0 := by
  obtain ⟨hr, hap, hb⟩ := selectByDistance_sieved ha l (l.map fun p => x.getD p 0) (by simp) ⌈d⌉
  have close : ∀ {j k p q : ℕ}, l[j]? = some p → l[k]? = some q →
      (tooClose l ⌈d⌉ j k = true ↔ j ≠ k ∧ |(p : K) - q| < d) := by
    intro j k p q hp hq
    unfold tooClose
    rw [decide_eq_true_iff, List.getD_eq_getElem?_getD, List.getD_eq_getElem?_getD, hp, hq, Int.lt_ceil]
    push_cast
    rfl
  refine ⟨?_, fun p hp hnot => ?_⟩
  · refine ((hl.sublist (spaced_sublist argsort (some d) x l)).imp_of_mem fun {p q} hp hq hlt => ?_)
    obtain ⟨j, hj, hp⟩ := mem_spaced.mp hp
    obtain ⟨k, hk, hq⟩ := mem_spaced.mp hq
    have h := hap j hj k hk
    rw [← Bool.not_eq_true, close hp hq] at h
    have hne : j ≠ k := by
      rintro rfl
      rw [hp] at hq
      cases hq
      exact lt_irrefl _ hlt
    have h : d ≤ |(p : K) - q| := not_lt.mp fun h' => h ⟨hne, h'⟩
    have hlt : (p : K) < q := by exact_mod_cast hlt
    rw [abs_of_neg (by linarith)] at h
    linarith
  · obtain ⟨k, hk, rfl⟩ := List.mem_iff_getElem.mp hp
    have hk' : l[k]? = some l[k] := List.getElem?_eq_getElem hk
    obtain ⟨j, hj, hc, hv⟩ := hb k hk fun hmem => hnot (mem_spaced.mpr ⟨k, hmem, hk'⟩)
    have hj' : l[j]? = some (l[j]'(hr j hj)) := List.getElem?_eq_getElem (hr j hj)
    have hc := ((close hj' hk').mp hc).2
    rw [abs_sub_comm] at hc
    refine ⟨l[j]'(hr j hj), mem_spaced.mpr ⟨j, hj, hj'⟩, hc, ?_⟩
    rw [List.getD_eq_getElem?_getD, List.getD_eq_getElem?_getD, List.getElem?_map, List.getElem?_map, hk', hj'] at hv
    exact hv

end

end GwEcc
