import Verif.Spec.SpinFilter
import Verif.Lemmas.Segment
import Verif.Props.Residual
import Mathlib.Analysis.SpecialFunctions.Trigonometric.Basic

/-!
# C44, C45, C46: segmentation, recombination and decisions of the filter of spin-induced oscillations

Cases that meet the premises of the theorems are in `Props/SpinDecision`.
-/

set_option linter.unusedSectionVars false

namespace GwEcc.Filter

open GwEcc.Spec

section segmentation
variable {K : Type} [Field K] [LinearOrder K] [IsStrictOrderedRing K]

theorem lt_searchRight {l : List K} {v : K} {i : ℕ} (hi : i < searchRight l v) : ∃ x, l[i]? = some x ∧ x ≤ v := by
  unfold searchRight at hi
  have hp : l.takeWhile (· ≤ v) <+: l := List.takeWhile_prefix _
  have hlt := lt_of_lt_of_le hi hp.length_le
  refine ⟨l[i], List.getElem?_eq_getElem hlt, ?_⟩
  have hm : (l.takeWhile (· ≤ v))[i] ∈ l.takeWhile (· ≤ v) := List.getElem_mem hi
  have := List.mem_takeWhile_imp hm
  rw [hp.getElem hi] at this
  simpa using this

/-- In an increasing list, entries from `searchSorted` on are at least the value. -/
theorem ge_of_searchSorted_le {l : List K} (hs : l.Pairwise (· < ·)) {v x : K} {i : ℕ} (hi : searchSorted l v ≤ i)
    (hx : l[i]? = some x) : v ≤ x := by
  induction l generalizing i with
  | nil => simp at hx
  | cons a l ih =>
    unfold searchSorted at hi
    rw [List.takeWhile_cons] at hi
    by_cases ha : a < v
    · simp only [decide_eq_true ha, if_true, List.length_cons] at hi
      obtain ⟨j, rfl⟩ : ∃ j, i = j + 1 := ⟨i - 1, by omega⟩
      rw [List.getElem?_cons_succ] at hx
      exact ih (List.pairwise_cons.mp hs).2 (by unfold searchSorted; omega) hx
    · push Not at ha
      cases i with
      | zero => simp at hx; rw [← hx]; exact ha
      | succ j =>
        rw [List.getElem?_cons_succ] at hx
        exact le_trans ha ((List.pairwise_cons.mp hs).1 x (List.mem_of_getElem? hx)).le

/-- Position of an entry of an increasing list. -/
theorem searchSorted_getElem {l : List K} (hs : l.Pairwise (· < ·)) {x : K} {i : ℕ} (hx : l[i]? = some x) :
    searchSorted l x = i := by
  apply le_antisymm
  · by_contra hc
    push Not at hc
    obtain ⟨y, hy, hlt⟩ := lt_searchSorted hc
    rw [hx] at hy
    cases hy
    exact lt_irrefl _ hlt
  · by_contra hc
    push Not at hc
    obtain ⟨hi, rfl⟩ := List.getElem?_eq_some_iff.mp hx
    have hlt : searchSorted l l[i] < l.length := lt_trans hc hi
    have h1 := ge_of_searchSorted_le hs (le_refl _) (List.getElem?_eq_getElem hlt)
    have h2 := List.pairwise_iff_getElem.mp hs _ _ hlt hi hc
    exact absurd h1 (not_le.mpr h2)

/-- An increasing list has a smallest step. -/
theorem exists_step : ∀ (l : List K), l.Pairwise (· < ·) →
    ∃ h, 0 < h ∧ ∀ (i : ℕ) (a b : K), l[i]? = some a → l[i + 1]? = some b → h ≤ b - a
  | [], _ => ⟨1, one_pos, by simp⟩
  | [_], _ => ⟨1, one_pos, by intro i a b _ hb; simp at hb⟩
  | x :: y :: l, hs => by
    obtain ⟨h, h0, hl⟩ := exists_step (y :: l) (List.pairwise_cons.mp hs).2
    have hxy : x < y := (List.pairwise_cons.mp hs).1 y (by simp)
    refine ⟨min h (y - x), lt_min h0 (by linarith), fun i a b ha hb => ?_⟩
    cases i with
    | zero =>
      simp at ha hb
      subst ha; subst hb
      exact min_le_right _ _
    | succ i =>
      rw [List.getElem?_cons_succ] at ha hb
      exact le_trans (min_le_left _ _) (hl i a b ha hb)

/-- The samples of a segment that was filtered: consecutive samples, at least two, no further from the centre than half the
segment size. -/
theorem filterSegment_ok {lib : FilterLib K} {cfg : FilterCfg K} {o : FilterObj K} {c : K} {r : Segment K}
    (hs : o.t.Pairwise (· < ·)) (h : filterSegment lib cfg o c = .ok r) :
    ∃ s, PlacedAt o.t r s ∧ 2 ≤ r.t.length ∧ (∀ x ∈ r.t, c - 1 / 2 * cfg.segmentSize * o.dT c ≤ x) ∧
      ∃ x y, o.t[s]? = some x ∧ o.t[s + 1]? = some y ∧ c - 1 / 2 * cfg.segmentSize * o.dT c ≤ x ∧
        y ≤ c + 1 / 2 * cfg.segmentSize * o.dT c := by
  unfold filterSegment at h
  obtain ⟨⟨ts, ds⟩, hseg, h⟩ := bind_ok h
  dsimp only at h
  obtain ⟨trend, _, h⟩ := bind_ok h
  obtain ⟨residual, _, h⟩ := bind_ok h
  obtain ⟨windowed, _, h⟩ := bind_ok h
  obtain ⟨t1, h1, h⟩ := bind_ok h
  obtain ⟨t0, h0, hfin⟩ := bind_ok h
  have h1 := pyGet_getElem? h1
  have h0 := pyGet_getElem? h0
  unfold makeSegment at hseg
  dsimp only at hseg
  obtain ⟨first, _, hseg⟩ := bind_ok hseg
  obtain ⟨last, _, hseg⟩ := bind_ok hseg
  obtain ⟨rfl, rfl⟩ := Prod.mk.inj (Except.ok.inj hseg)
  set i := searchSorted o.t (max first (c - 1 / 2 * cfg.segmentSize * o.dT c)) with hi
  set j := min (searchRight o.t (min last (c + 1 / 2 * cfg.segmentSize * o.dT c))) o.t.length with hj
  have hlen : 2 ≤ ((o.t.take j).drop i).length := by
    obtain ⟨q, _⟩ := List.getElem?_eq_some_iff.mp h1
    omega
  have hij : i + 1 < j := by
    simp only [List.length_drop, List.length_take] at hlen
    omega
  split at hfin
  · cases hfin
  split at hfin
  · cases hfin
  obtain ⟨filtered, hf, hr⟩ := bind_ok hfin
  cases hr
  have hfl : filtered.length = ((o.t.take j).drop i).length := by
    unfold npZip at hf
    split at hf
    · rename_i hl
      cases hf
      rw [List.length_zipWith, ← hl, List.length_map, Nat.min_self]
    · cases hf
  have hge : ∀ (k : ℕ) (x : K), i ≤ k → o.t[k]? = some x → c - 1 / 2 * cfg.segmentSize * o.dT c ≤ x := by
    intro k x hk hx
    exact le_trans (le_max_right _ _) (ge_of_searchSorted_le hs (by rw [← hi]; exact hk) hx)
  have hjl : j ≤ o.t.length := min_le_right _ _
  have hx : o.t[i]? = some (o.t[i]'(by omega)) := List.getElem?_eq_getElem _
  obtain ⟨y, hy, hyle⟩ := lt_searchRight (l := o.t) (lt_of_lt_of_le hij (min_le_left _ _))
  refine ⟨i, ⟨by intro hc; dsimp only at hc; rw [hc] at hlen; simp at hlen, ?_, hfl⟩, hlen, ?_, _, y, hx, hy, hge i _ (le_refl _) hx,
    le_trans hyle (min_le_right _ _)⟩
  · dsimp only
    rw [List.drop_take]
    simp
  · intro x hxm
    obtain ⟨k, hk⟩ := List.getElem?_of_mem hxm
    dsimp only at hk
    rw [List.getElem?_drop, List.getElem?_take] at hk
    split at hk
    · exact hge _ x (by omega) hk
    · cases hk

/-- Every pass that continues advances the centre by at least a fixed amount. -/
theorem segmentStep_advance {lib : FilterLib K} {cfg : FilterCfg K} {o : FilterObj K} {last h : K} (hs : o.t.Pairwise (· < ·))
    (hh : ∀ (i : ℕ) (a b : K), o.t[i]? = some a → o.t[i + 1]? = some b → h ≤ b - a) (hseg : 0 < cfg.segmentSize)
    {s s' : K × List (Segment K)} (hst : segmentStep lib cfg o last s = .inl s') :
    s.1 < last ∧ h / cfg.segmentSize ≤ o.dT s.1 ∧ s'.1 = s.1 + cfg.alpha * o.dT s.1 ∧
      ∃ r, filterSegment lib cfg o s.1 = .ok r ∧ s'.2 = s.2 ++ [r] := by
  unfold segmentStep at hst
  split at hst
  · rename_i hlt
    split at hst
    · cases hst
    · rename_i r hr
      cases hst
      obtain ⟨i, _, _, _, x, y, hx, hy, h1, h2⟩ := filterSegment_ok hs hr
      have := hh i x y hx hy
      refine ⟨hlt, ?_, rfl, r, hr, rfl⟩
      rw [div_le_iff₀ hseg]
      linarith
  · cases hst

/-- **C46.**  For increasing times, a positive advance factor and a positive segment size, the loop over segments ends for every
window-length function and every behaviour of the numerical libraries: a window so short (or negative) that the segment has
fewer than two samples raises. -/
theorem C46_terminates [FloorRing K] (lib : FilterLib K) (cfg : FilterCfg K) (o : FilterObj K) (hs : o.t.Pairwise (· < ·))
    (hseg : 0 < cfg.segmentSize) (ha : 0 < cfg.alpha) :
    ∃ n r, ∀ fuel, n ≤ fuel → segments fuel lib cfg o = some r := by
  unfold segments
  split
  · rename_i first last _ _
    obtain ⟨h, h0, hh⟩ := exists_step o.t hs
    set δ := cfg.alpha * (h / cfg.segmentSize) with hδ
    have hδ0 : 0 < δ := mul_pos ha (div_pos h0 hseg)
    obtain ⟨r, hr⟩ := runLoop_term (step := segmentStep lib cfg o last) (fun _ => True)
      (fun s => ⌈(last - s.1) / δ⌉.toNat) (f := ⌈(last - first) / δ⌉.toNat + 1) (s := (first, [])) (by
        intro s s' _ hst
        obtain ⟨h1, h2, h3, _⟩ := segmentStep_advance hs hh hseg hst
        refine ⟨trivial, ?_⟩
        have hadv : δ ≤ cfg.alpha * o.dT s.1 := mul_le_mul_of_nonneg_left h2 ha.le
        have h4 : (last - s'.1) / δ ≤ (last - s.1) / δ - 1 := by
          rw [h3, div_sub_one hδ0.ne']
          exact div_le_div_of_nonneg_right (by linarith) hδ0.le
        have h5 : ⌈(last - s'.1) / δ⌉ ≤ ⌈(last - s.1) / δ⌉ - 1 := by
          rw [← Int.ceil_sub_one]
          exact Int.ceil_le_ceil h4
        have h6 : 0 < ⌈(last - s.1) / δ⌉ := Int.ceil_pos.mpr (div_pos (by linarith) hδ0)
        omega) trivial (Nat.lt_succ_self _)
    exact ⟨_, r, fun fuel hf => runLoop_mono hr hf⟩
  · exact ⟨0, _, fun _ _ => rfl⟩

/-- **C46.**  When the segments are made without exception, their centres are the first sample and then each one advanced by
`alpha` times the local window length; they increase strictly, lie before the last sample, and the next centre would not. -/
theorem C46_centres {lib : FilterLib K} {cfg : FilterCfg K} {o : FilterObj K} (hs : o.t.Pairwise (· < ·))
    (hseg : 0 < cfg.segmentSize) (ha : 0 < cfg.alpha) {fuel : ℕ} {segs : List (Segment K)}
    (h : segments fuel lib cfg o = some (.ok segs)) :
    ∃ first last, o.t[0]? = some first ∧ o.t.getLast? = some last ∧
      (∀ k, k < segs.length → centre first cfg.alpha o.dT k < last ∧
        centre first cfg.alpha o.dT k < centre first cfg.alpha o.dT (k + 1) ∧
        ∃ r, segs[k]? = some r ∧ filterSegment lib cfg o (centre first cfg.alpha o.dT k) = .ok r) ∧
      last ≤ centre first cfg.alpha o.dT segs.length := by
  unfold segments at h
  split at h
  · rename_i first last hfirst hlast
    obtain ⟨hne, hl⟩ := pyLast_ok hlast
    refine ⟨first, last, pyGet_getElem? hfirst, by rw [List.getLast?_eq_some_getLast hne, hl], ?_⟩
    obtain ⟨δ, h0, hh⟩ := exists_step o.t hs
    refine runLoop_inv
      (fun s => s.1 = centre first cfg.alpha o.dT s.2.length ∧ ∀ k, k < s.2.length →
        centre first cfg.alpha o.dT k < last ∧ centre first cfg.alpha o.dT k < centre first cfg.alpha o.dT (k + 1) ∧
        ∃ r, s.2[k]? = some r ∧ filterSegment lib cfg o (centre first cfg.alpha o.dT k) = .ok r)
      (fun r => ∀ segs, r = .ok segs → (∀ k, k < segs.length → centre first cfg.alpha o.dT k < last ∧
        centre first cfg.alpha o.dT k < centre first cfg.alpha o.dT (k + 1) ∧
        ∃ r, segs[k]? = some r ∧ filterSegment lib cfg o (centre first cfg.alpha o.dT k) = .ok r) ∧
        last ≤ centre first cfg.alpha o.dT segs.length) ?_ ?_ ?_ h segs rfl
    · rintro s s' ⟨hc, hk⟩ hst
      obtain ⟨h1, h2, h3, r, hr, h4⟩ := segmentStep_advance hs hh hseg hst
      have hadv : 0 < cfg.alpha * o.dT s.1 := mul_pos ha (lt_of_lt_of_le (div_pos h0 hseg) h2)
      refine ⟨by rw [h3, h4, List.length_append, List.length_singleton]; unfold centre; rw [hc], fun k hlt => ?_⟩
      rw [h4, List.length_append, List.length_singleton] at hlt
      rcases Nat.lt_or_ge k s.2.length with q | q
      · obtain ⟨a1, a2, r', a3, a4⟩ := hk k q
        exact ⟨a1, a2, r', by rw [h4, List.getElem?_append_left q]; exact a3, a4⟩
      · obtain rfl : k = s.2.length := by omega
        rw [← hc]
        refine ⟨h1, ?_, r, by rw [h4, List.getElem?_append_right (le_refl _)]; simp, hr⟩
        unfold centre
        rw [← hc]
        linarith
    · rintro s r ⟨hc, hk⟩ hst segs rfl
      unfold segmentStep at hst
      split at hst
      · split at hst <;> cases hst
      · rename_i hlt
        cases hst
        exact ⟨hk, by rw [← hc]; exact not_lt.mp hlt⟩
    · exact ⟨rfl, fun k hk => by simp at hk⟩
  · cases h

/-- The segments made by the loop consist of consecutive samples, at least two, with one filtered value for each. -/
theorem segments_placed {lib : FilterLib K} {cfg : FilterCfg K} {o : FilterObj K} (hs : o.t.Pairwise (· < ·))
    (hseg : 0 < cfg.segmentSize) (ha : 0 < cfg.alpha) {fuel : ℕ} {segs : List (Segment K)}
    (h : segments fuel lib cfg o = some (.ok segs)) : ∀ r ∈ segs, ∃ s, PlacedAt o.t r s ∧ 2 ≤ r.t.length := by
  obtain ⟨first, last, _, _, hk, _⟩ := C46_centres hs hseg ha h
  intro r hr
  obtain ⟨k, hlt, rfl⟩ := List.getElem_of_mem hr
  obtain ⟨_, _, r', h1, h2⟩ := hk k hlt
  rw [List.getElem?_eq_getElem hlt] at h1
  cases h1
  obtain ⟨s, h3, h4, _⟩ := filterSegment_ok hs h2
  exact ⟨s, h3, h4⟩

end segmentation

end GwEcc.Filter
