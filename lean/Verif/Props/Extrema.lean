import Verif.Lemmas.ExtremaEnds

/-!
# Properties of the selection of extrema: C23–C27
-/

set_option linter.unusedSectionVars false

namespace GwEcc

open Spec

variable {K : Type} [Field K] [LinearOrder K] [IsStrictOrderedRing K]

theorem takeDrop_infix {α : Type} (l : List α) (e s : ℕ) : (l.take e).drop s <:+: l :=
  (List.drop_suffix s _).isInfix.trans (List.take_prefix e l).isInfix

theorem Grows_takeDrop {ph : ℕ → K} {R : K} {l : List ℕ} {e s j : ℕ}
    (h : Grows ph R ((l.take e).drop s) j) : Grows ph R l (s + j) ∧ s + j + 2 < e := by
  obtain ⟨hl, h⟩ := h
  simp only [List.length_drop, List.length_take] at hl
  simp only [List.getElem_drop, List.getElem_take] at h
  exact ⟨⟨by omega, h⟩, by omega⟩

theorem Shrinks_takeDrop {ph : ℕ → K} {R : K} {l : List ℕ} {e s j : ℕ} :
    Shrinks ph R ((l.take e).drop s) j ↔ Shrinks ph R l (s + j) ∧ s + j + 2 < e := by
  constructor
  · rintro ⟨hl, h⟩
    simp only [List.length_drop, List.length_take] at hl
    simp only [List.getElem_drop, List.getElem_take] at h
    exact ⟨⟨by omega, h⟩, by omega⟩
  · rintro ⟨⟨hl, h⟩, he⟩
    refine ⟨by simp only [List.length_drop, List.length_take]; omega, ?_⟩
    simp only [List.getElem_drop, List.getElem_take]
    exact h

theorem Close_takeDrop {ph : ℕ → K} {m : K} {l : List ℕ} {e s j : ℕ} :
    Close ph m ((l.take e).drop s) j ↔ Close ph m l (s + j) ∧ s + j + 1 < e := by
  constructor
  · rintro ⟨hl, h⟩
    simp only [List.length_drop, List.length_take] at hl
    simp only [List.getElem_drop, List.getElem_take] at h
    exact ⟨⟨by omega, h⟩, by omega⟩
  · rintro ⟨⟨hl, h⟩, he⟩
    refine ⟨by simp only [List.length_drop, List.length_take]; omega, ?_⟩
    simp only [List.getElem_drop, List.getElem_take]
    exact h

/-! ## C23 Good extrema are a contiguous part of those found -/

/-- The extrema used are contiguous parts of those found (so nothing is invented and nothing is dropped in the middle),
none of the two lists becomes empty, and beyond the outermost extremum of one kind there is at most one of the
other kind, at both ends. -/
theorem C23_contiguous (ph : ℕ → K) (R m : K) (level : ℤ) (p a p' a' : List ℕ)
    (hp : p.Pairwise (· < ·)) (ha : a.Pairwise (· < ·))
    (h : getGoodExtrema ph R m level p a = .ok (p', a')) :
    p' <:+: p ∧ a' <:+: a ∧ p' ≠ [] ∧ a' ≠ [] ∧
    (∀ u ∈ p', ∀ v ∈ p', (∀ z ∈ a', z < u) → (∀ z ∈ a', z < v) → u = v) ∧
    (∀ u ∈ a', ∀ v ∈ a', (∀ z ∈ p', z < u) → (∀ z ∈ p', z < v) → u = v) ∧
    (∀ u ∈ p', ∀ v ∈ p', (∀ z ∈ a', u < z) → (∀ z ∈ a', v < z) → u = v) ∧
    (∀ u ∈ a', ∀ v ∈ a', (∀ z ∈ p', u < z) → (∀ z ∈ p', v < z) → u = v) := by
  unfold getGoodExtrema at h
  obtain ⟨p1, hp1, h⟩ := bind_ok h
  obtain ⟨a1, ha1, h⟩ := bind_ok h
  obtain ⟨p2, hp2, h⟩ := bind_ok h
  obtain ⟨a2, ha2, h⟩ := bind_ok h
  have ep1 := dropJumps_ok hp hp1
  have ea1 := dropJumps_ok ha ha1
  have ip1 : p1 <:+: p := by rw [ep1]; exact takeDrop_infix _ _ _
  have ia1 : a1 <:+: a := by rw [ea1]; exact takeDrop_infix _ _ _
  have sp1 := hp.sublist ip1.sublist
  have sa1 := ha.sublist ia1.sublist
  have ip2 : p2 <:+: p1 := by rw [dropTooClose_ok sp1 hp2]; exact takeDrop_infix _ _ _
  have ia2 : a2 <:+: a1 := by rw [dropTooClose_ok sa1 ha2]; exact takeDrop_infix _ _ _
  obtain ⟨h1, h2, h3⟩ := dropExtraAtEnds_ok (sp1.sublist ip2.sublist) (sa1.sublist ia2.sublist) h
  exact ⟨h1.trans (ip2.trans ip1), h2.trans (ia2.trans ia1), h3⟩

theorem dropTooClose_total (ph : ℕ → K) (m : K) {level : ℤ} (hl : level = -1 ∨ level = 0 ∨ level = 1) (ext : List ℕ) :
    ∃ out, dropTooClose ph m level ext = .ok out := by
  obtain ⟨o, ho⟩ := debugMessage_false_ok hl
  have hlr : (diff (ext.map ph)).length = ext.length - 1 := by rw [length_diff]; simp
  unfold dropTooClose
  simp only
  cases hc : npWhere (fun x => decide (x < m)) (diff (ext.map ph)) with
  | nil => exact ⟨_, rfl⟩
  | cons first rest =>
    have hw := npWhere_sorted (fun x => decide (x < m)) (diff (ext.map ph))
    rw [hc] at hw
    obtain ⟨hi, _⟩ := (mem_npWhere _ _ first).mp (by rw [hc]; simp)
    have hlast : first ≤ (first :: rest).getLast (by simp) := by
      cases rest with
      | nil => simp
      | cons b rest =>
        rw [List.getLast_cons (by simp)]
        exact ((List.pairwise_cons.mp hw).1 _ (List.getLast_mem _)).le
    simp only
    by_cases h1 : first > (diff (ext.map ph)).length / 2
    · rw [if_pos h1, pyGet_of_lt (show first < ext.length by omega), pyGet_of_lt (show first + 1 < ext.length by omega), ho]
      simp only [ok_bind, pure_eq_ok]
      rw [if_neg (by omega)]
      exact ⟨_, rfl⟩
    · rw [if_neg h1]
      simp only [pure_eq_ok, ok_bind]
      by_cases h2 : (first :: rest).getLast (by simp) < (diff (ext.map ph)).length / 2
      · rw [if_pos h2, pyGet_of_lt (show (first :: rest).getLast (by simp) < ext.length by omega), ho]
        exact ⟨_, rfl⟩
      · rw [if_neg h2]; exact ⟨_, rfl⟩

/-- With `debug_level` at most 1 and at least one extremum of each kind the selection never fails. -/
theorem C23_total (ph : ℕ → K) (R m : K) (level : ℤ) (hl : level = -1 ∨ level = 0 ∨ level = 1) (p a : List ℕ)
    (hp : p.Pairwise (· < ·)) (ha : a.Pairwise (· < ·)) (hpne : p ≠ []) (hane : a ≠ []) :
    ∃ p' a', getGoodExtrema ph R m level p a = .ok (p', a') := by
  have len : ∀ {l : List ℕ}, l ≠ [] → 0 < l.length := fun h => List.length_pos_iff.mpr h
  unfold getGoodExtrema
  obtain ⟨p1, hp1⟩ := dropJumps_total ph R hl p hp
  obtain ⟨a1, ha1⟩ := dropJumps_total ph R hl a ha
  have ep1 := dropJumps_ok hp hp1
  have ea1 := dropJumps_ok ha ha1
  have np1 : p1 ≠ [] := by
    have := jumpEnd_bounds ph R p (len hpne)
    rw [ep1]; intro hc; have := congrArg List.length hc; simp at this; omega
  have na1 : a1 ≠ [] := by
    have := jumpEnd_bounds ph R a (len hane)
    rw [ea1]; intro hc; have := congrArg List.length hc; simp at this; omega
  have sp1 : p1.Pairwise (· < ·) := by rw [ep1]; exact hp.sublist (takeDrop_infix _ _ _).sublist
  have sa1 : a1.Pairwise (· < ·) := by rw [ea1]; exact ha.sublist (takeDrop_infix _ _ _).sublist
  obtain ⟨p2, hp2⟩ := dropTooClose_total ph m hl p1
  obtain ⟨a2, ha2⟩ := dropTooClose_total ph m hl a1
  have ep2 := dropTooClose_ok sp1 hp2
  have ea2 := dropTooClose_ok sa1 ha2
  have np2 : p2 ≠ [] := by
    have := closeEnd_bounds ph m p1 (len np1)
    rw [ep2]; intro hc; have := congrArg List.length hc; simp at this; omega
  have na2 : a2 ≠ [] := by
    have := closeEnd_bounds ph m a1 (len na1)
    rw [ea2]; intro hc; have := congrArg List.length hc; simp at this; omega
  have sp2 : p2.Pairwise (· < ·) := by rw [ep2]; exact sp1.sublist (takeDrop_infix _ _ _).sublist
  have sa2 : a2.Pairwise (· < ·) := by rw [ea2]; exact sa1.sublist (takeDrop_infix _ _ _).sublist
  rw [hp1, ha1]
  simp only [ok_bind]
  rw [hp2, ha2]
  simp only [ok_bind]
  unfold dropExtraAtEnds
  rw [pyLast_of_ne na2]
  simp only [ok_bind]
  obtain ⟨p3, hp3⟩ := trimEnd_total hl p2 (a2.getLast na2)
  rw [hp3]
  simp only [ok_bind]
  obtain ⟨pre3, n3, _⟩ := trimEnd_ok sp2 hp3
  rw [pyLast_of_ne (n3 np2)]
  simp only [ok_bind]
  obtain ⟨a3, ha3⟩ := trimEnd_total hl a2 (p3.getLast (n3 np2))
  rw [ha3]
  simp only [ok_bind]
  obtain ⟨_, na3, _⟩ := trimEnd_ok sa2 ha3
  rw [pyGet_of_lt (len (na3 na2))]
  simp only [ok_bind]
  obtain ⟨p4, hp4⟩ := trimStart_total hl p3 (a3[0]'(len (na3 na2)))
  rw [hp4]
  simp only [ok_bind]
  obtain ⟨_, n4, _⟩ := trimStart_ok (sp2.sublist pre3.sublist) hp4
  rw [pyGet_of_lt (len (n4 (n3 np2)))]
  simp only [ok_bind]
  obtain ⟨a4, ha4⟩ := trimStart_total hl a3 (p4[0]'(len (n4 (n3 np2))))
  rw [ha4]
  exact ⟨p4, a4, rfl⟩

/-- Nothing is dropped without a reason: if no separation jumps, no two extrema are too close and neither end has two
extrema of one kind in a row, the extrema are used unchanged. -/
theorem C23_unchanged (ph : ℕ → K) (R m : K) (hR : 0 < R) (level : ℤ) (p a : List ℕ)
    (hp : p.Pairwise (· < ·)) (ha : a.Pairwise (· < ·)) (hpne : p ≠ []) (hane : a ≠ [])
    (ip : PhaseIncreasing ph p) (ia : PhaseIncreasing ph a)
    (h1 : ∀ j, ¬ Grows ph R p j ∧ ¬ Shrinks ph R p j ∧ ¬ Close ph m p j)
    (h2 : ∀ j, ¬ Grows ph R a j ∧ ¬ Shrinks ph R a j ∧ ¬ Close ph m a j)
    (e1 : ∀ u ∈ p, ∀ v ∈ p, (∀ z ∈ a, z < u) → (∀ z ∈ a, z < v) → u = v)
    (e2 : ∀ u ∈ a, ∀ v ∈ a, (∀ z ∈ p, z < u) → (∀ z ∈ p, z < v) → u = v)
    (e3 : ∀ u ∈ p, ∀ v ∈ p, (∀ z ∈ a, u < z) → (∀ z ∈ a, v < z) → u = v)
    (e4 : ∀ u ∈ a, ∀ v ∈ a, (∀ z ∈ p, u < z) → (∀ z ∈ p, v < z) → u = v) :
    getGoodExtrema ph R m level p a = .ok (p, a) := by
  have nilOf : ∀ l : List ℕ, (∀ i, i ∉ l) → l = [] := by
    intro l hl; cases l with
    | nil => rfl
    | cons x l => exact absurd (List.mem_cons_self) (hl x)
  have hj : ∀ l : List ℕ, PhaseIncreasing ph l → (∀ j, ¬ Grows ph R l j ∧ ¬ Shrinks ph R l j ∧ ¬ Close ph m l j) →
      dropJumps ph R level l = .ok l ∧ dropTooClose ph m level l = .ok l := by
    intro l hinc hn
    have w1 := nilOf _ (fun i hi => (hn i).1 ((mem_tooLarge hinc R i).mp hi))
    have w2 := nilOf _ (fun i hi => (hn i).2.1 ((mem_tooSmall hinc R hR i).mp hi))
    have w3 := nilOf _ (fun i hi => (hn i).2.2 ((mem_close m i).mp hi))
    constructor
    · unfold dropJumps dropJumpsEnd dropJumpsStart
      simp only [w1, w2]; rfl
    · unfold dropTooClose
      simp only [w3]; rfl
  obtain ⟨j1, c1⟩ := hj p ip h1
  obtain ⟨j2, c2⟩ := hj a ia h2
  unfold getGoodExtrema dropExtraAtEnds
  have len : ∀ {l : List ℕ}, l ≠ [] → 0 < l.length := fun h => List.length_pos_iff.mpr h
  rw [j1, j2]
  simp only [ok_bind]
  rw [c1, c2]
  simp only [ok_bind]
  rw [pyLast_of_ne hane]
  simp only [ok_bind]
  rw [trimEnd_id hp]
  · simp only [ok_bind]
    rw [pyLast_of_ne hpne]
    simp only [ok_bind]
    rw [trimEnd_id ha]
    · simp only [ok_bind]
      rw [pyGet_of_lt (len hane)]
      simp only [ok_bind]
      rw [trimStart_id hp]
      · simp only [ok_bind]
        rw [pyGet_of_lt (len hpne)]
        simp only [ok_bind]
        rw [trimStart_id ha]
        · rfl
        · intro u hu v hv hxu hxv
          exact e4 u hu v hv (fun z hz => lt_of_lt_of_le hxu (sorted_head_le hp (len hpne) z hz))
            (fun z hz => lt_of_lt_of_le hxv (sorted_head_le hp (len hpne) z hz))
      · intro u hu v hv hxu hxv
        exact e3 u hu v hv (fun z hz => lt_of_lt_of_le hxu (sorted_head_le ha (len hane) z hz))
          (fun z hz => lt_of_lt_of_le hxv (sorted_head_le ha (len hane) z hz))
    · intro u hu v hv hxu hxv
      exact e2 u hu v hv (fun z hz => lt_of_le_of_lt (sorted_getLast_ge hp hpne z hz) hxu)
        (fun z hz => lt_of_le_of_lt (sorted_getLast_ge hp hpne z hz) hxv)
  · intro u hu v hv hxu hxv
    exact e1 u hu v hv (fun z hz => lt_of_le_of_lt (sorted_getLast_ge ha hane z hz) hxu)
      (fun z hz => lt_of_le_of_lt (sorted_getLast_ge ha hane z hz) hxv)

/-- a case where extrema are dropped at both ends: the documentation's own example of lines 1499-1511 -/
example : getGoodExtrema (fun i => (i : ℚ) * 7) (3/2) (13 : ℚ) 0 [1, 3, 5, 7, 9, 13] [2, 4, 6, 8, 10, 12, 14] =
    .ok ([1, 3, 5, 7, 9], [2, 4, 6, 8, 10]) := by decide +kernel

/-! ## C24 Missed extremum handling -/

/-- If the first growth of the separation is in the second half of the list, the last extremum kept is the one preceding
the gap, and the retained list has no growth at all. -/
theorem C24_end (ph : ℕ → K) (R : K) (level : ℤ) (ext out : List ℕ) (hs : ext.Pairwise (· < ·))
    (hinc : PhaseIncreasing ph ext) (h : dropJumps ph R level ext = .ok out) (i : ℕ)
    (hi : i + 2 < ext.length) (hg : Grows ph R ext i) (hfirst : ∀ j < i, ¬ Grows ph R ext j)
    (hmid : (ext.length - 2) / 2 < i) :
    out.getLast? = some ext[i + 1] ∧ ∀ j, ¬ Grows ph R out j := by
  have hout := dropJumps_ok hs h
  have hend : jumpEnd ph R ext = i + 2 := by
    unfold jumpEnd
    have hm := (mem_tooLarge hinc R i).mpr hg
    cases hw : npWhere (fun x => decide (x > R)) (jumpRatios ph ext) with
    | nil => rw [hw] at hm; simp at hm
    | cons first rest =>
      have hf : Grows ph R ext first := (mem_tooLarge hinc R first).mp (by rw [hw]; simp)
      have hle : i ≤ first := by
        by_contra hc; exact hfirst first (by omega) hf
      have hge : first ≤ i := by
        have hsrt := npWhere_sorted (fun x => decide (x > R)) (jumpRatios ph ext)
        rw [hw] at hm hsrt
        rcases List.mem_cons.mp hm with rfl | h2
        · exact le_refl _
        · exact ((List.pairwise_cons.mp hsrt).1 i h2).le
      have : first = i := by omega
      subst this
      simp only
      rw [if_pos (by rw [length_jumpRatios]; exact hmid)]
  obtain ⟨_, hb2, _⟩ := jumpEnd_bounds ph R ext (by omega)
  rw [hend] at hout hb2
  constructor
  · rw [hout, List.getLast?_eq_getElem?, List.getElem?_drop]
    simp only [List.length_drop, List.length_take]
    rw [List.getElem?_take, if_pos (by omega)]
    rw [show jumpStart ph R ext + (min (i + 2) ext.length - jumpStart ph R ext - 1) = i + 1 by omega]
    rw [List.getElem?_eq_getElem]
  · intro j hgr
    rw [hout] at hgr
    obtain ⟨hg', hlt⟩ := Grows_takeDrop hgr
    exact hfirst _ (by omega) hg'

/-- If the separation never grows, or first grows in the first half, nothing is dropped at the end. -/
theorem C24_end_untouched (ph : ℕ → K) (R : K) (level : ℤ) (ext out : List ℕ) (hs : ext.Pairwise (· < ·))
    (hinc : PhaseIncreasing ph ext) (h : dropJumps ph R level ext = .ok out) (hne : ext ≠ [])
    (hno : (∀ j, ¬ Grows ph R ext j) ∨ ∃ i, Grows ph R ext i ∧ i ≤ (ext.length - 2) / 2) :
    out.getLast? = ext.getLast? ∧ out <:+ ext := by
  have hout := dropJumps_ok hs h
  have hend : jumpEnd ph R ext = ext.length := by
    unfold jumpEnd
    cases hw : npWhere (fun x => decide (x > R)) (jumpRatios ph ext) with
    | nil => rfl
    | cons first rest =>
      have hf : Grows ph R ext first := (mem_tooLarge hinc R first).mp (by rw [hw]; simp)
      simp only
      rw [if_neg]
      rcases hno with hno | ⟨i, hg, hi⟩
      · exact absurd hf (hno first)
      · have hm := (mem_tooLarge hinc R i).mpr hg
        have hsrt := npWhere_sorted (fun x => decide (x > R)) (jumpRatios ph ext)
        rw [hw] at hm hsrt
        have : first ≤ i := by
          rcases List.mem_cons.mp hm with rfl | h2
          · exact le_refl _
          · exact ((List.pairwise_cons.mp hsrt).1 i h2).le
        rw [length_jumpRatios]; omega
  obtain ⟨_, hb2, _⟩ := jumpEnd_bounds ph R ext (List.length_pos_iff.mpr hne)
  rw [hend, List.take_length] at hout
  rw [hend] at hb2
  refine ⟨?_, by rw [hout]; exact List.drop_suffix _ _⟩
  rw [hout, List.getLast?_drop, if_neg (by omega)]

theorem jumpStart_eq {ph : ℕ → K} {R : K} (hR : 0 < R) {ext : List ℕ} (hinc : PhaseIncreasing ph ext) {j : ℕ}
    (hg : Shrinks ph R ext j) (hlast : ∀ k, j < k → ¬ Shrinks ph R ext k) (hmid : j < (ext.length - 2) / 2) :
    jumpStart ph R ext = j := by
  unfold jumpStart
  have hm := (mem_tooSmall hinc R hR j).mpr hg
  have hne : npWhere (fun x => decide (x < 1 / R)) (jumpRatios ph ext) ≠ [] := by
    intro hc; rw [hc] at hm; simp at hm
  rw [List.getLast?_eq_some_getLast hne]
  have hlm := List.getLast_mem hne
  have hsh := (mem_tooSmall hinc R hR _).mp hlm
  have hle : (npWhere (fun x => decide (x < 1 / R)) (jumpRatios ph ext)).getLast hne ≤ j := by
    by_contra hc; exact hlast _ (by omega) hsh
  have hge := sorted_getLast_ge (npWhere_sorted _ _) hne j hm
  have : (npWhere (fun x => decide (x < 1 / R)) (jumpRatios ph ext)).getLast hne = j := by omega
  simp only [this]
  rw [if_pos (by rw [length_jumpRatios]; exact hmid)]

/-- At the start the documented rule ("we keep only extrema starting from the (i+1)-th") is **not** what happens:
whenever the start rule fires, the extremum before the gap is kept as the first one and the retained list still has the
gap at its very beginning. -/
theorem C24_start_violation (ph : ℕ → K) (R : K) (hR : 0 < R) (level : ℤ) (ext out : List ℕ) (hs : ext.Pairwise (· < ·))
    (hinc : PhaseIncreasing ph ext) (h : dropJumps ph R level ext = .ok out) (j : ℕ) (hj : j + 2 < ext.length)
    (hg : Shrinks ph R ext j) (hlast : ∀ k, j < k → ¬ Shrinks ph R ext k) (hmid : j < (ext.length - 2) / 2) :
    out.head? = some ext[j] ∧ Shrinks ph R out 0 := by
  have hout := dropJumps_ok hs h
  have hst := jumpStart_eq hR hinc hg hlast hmid
  have hb := jumpEnd_bounds ph R ext (by omega)
  have hend : (ext.length - 2) / 2 + 2 < jumpEnd ph R ext ∨ jumpEnd ph R ext = ext.length := by
    unfold jumpEnd
    split
    · right; rfl
    · split
      · left; rename_i hh; rw [length_jumpRatios] at hh; omega
      · right; rfl
  rw [hst] at hout
  constructor
  · rw [hout, List.head?_eq_getElem?, List.getElem?_drop, List.getElem?_take, if_pos (by omega),
      List.getElem?_eq_getElem (by omega)]
    simp
  · rw [hout, Shrinks_takeDrop]
    exact ⟨by simpa using hg, by omega⟩

/-- What does hold at the start (`_partial`: the documented claim would also have position 0): apart from the gap
at the very beginning no other drop of the separation remains. -/
theorem C24_start_partial (ph : ℕ → K) (R : K) (hR : 0 < R) (level : ℤ) (ext out : List ℕ) (hs : ext.Pairwise (· < ·))
    (hinc : PhaseIncreasing ph ext) (h : dropJumps ph R level ext = .ok out) (j : ℕ)
    (hg : Shrinks ph R ext j) (hlast : ∀ k, j < k → ¬ Shrinks ph R ext k) (hmid : j < (ext.length - 2) / 2) :
    ∀ k, 0 < k → ¬ Shrinks ph R out k := by
  intro k hk hc
  rw [dropJumps_ok hs h, jumpStart_eq hR hinc hg hlast hmid, Shrinks_takeDrop] at hc
  exact hlast _ (by omega) hc.1

/-- a waveform with a missed extremum near the start: phases 0, 8, 12, 16, … and R = 3/2 -/
example : dropJumps (fun i => if i = 0 then (0 : ℚ) else 4 * i + 4) (3/2) 0 [0, 1, 2, 3, 4, 5, 6] =
    .ok [0, 1, 2, 3, 4, 5, 6] := by decide +kernel
example : dropJumps (fun i => if i ≤ 1 then (4 * i : ℚ) else 4 * i + 4) (3/2) 0 [0, 1, 2, 3, 4, 5, 6, 7] =
    .ok [1, 2, 3, 4, 5, 6, 7] := by decide +kernel
/-- and one near the end -/
example : dropJumps (fun i => if i ≤ 5 then (4 * i : ℚ) else 4 * i + 4) (3/2) 0 [0, 1, 2, 3, 4, 5, 6, 7] =
    .ok [0, 1, 2, 3, 4, 5] := by decide +kernel

/-! ## C25 Spuriously close extrema -/

/-- If the first too-close pair lies in the second half, the extrema after its first member are dropped and no too-close
pair remains. -/
theorem C25_end (ph : ℕ → K) (m : K) (level : ℤ) (ext out : List ℕ) (hs : ext.Pairwise (· < ·))
    (h : dropTooClose ph m level ext = .ok out) (i : ℕ) (hi : i + 1 < ext.length)
    (hc : Close ph m ext i) (hfirst : ∀ j < i, ¬ Close ph m ext j) (hmid : (ext.length - 1) / 2 < i) :
    out.getLast? = some ext[i] ∧ out = ext.take (i + 1) ∧ ∀ j, ¬ Close ph m out j := by
  have hout := dropTooClose_ok hs h
  have hlr : (diff (ext.map ph)).length = ext.length - 1 := by rw [length_diff]; simp
  have hb := closeEnd_bounds ph m ext (by omega)
  have hend : closeEnd ph m ext = i + 1 := by
    unfold closeEnd
    have hm := (mem_close (ph := ph) (ext := ext) m i).mpr hc
    cases hw : npWhere (fun x => decide (x < m)) (diff (ext.map ph)) with
    | nil => rw [hw] at hm; simp at hm
    | cons first rest =>
      have hf : Close ph m ext first := (mem_close m first).mp (by rw [hw]; simp)
      have hle : i ≤ first := by
        by_contra hc; exact hfirst first (by omega) hf
      have hge : first ≤ i := by
        have hsrt := npWhere_sorted (fun x => decide (x < m)) (diff (ext.map ph))
        rw [hw] at hm hsrt
        rcases List.mem_cons.mp hm with rfl | h2
        · exact le_refl _
        · exact ((List.pairwise_cons.mp hsrt).1 i h2).le
      have : first = i := by omega
      subst this
      simp only
      rw [if_pos (by omega)]
  have hst : closeStart ph m ext = 0 := by omega
  rw [hend, hst, List.drop_zero] at hout
  refine ⟨?_, hout, ?_⟩
  · rw [hout, List.getLast?_eq_getElem?, List.getElem?_take, if_pos (by simp),
      show (List.take (i + 1) ext).length - 1 = i by simp; omega, List.getElem?_eq_getElem (by omega)]
  · intro j hcl
    have hcl' : Close ph m ((ext.take (i + 1)).drop 0) j := by rw [List.drop_zero, ← hout]; exact hcl
    rw [Close_takeDrop] at hcl'
    exact hfirst j (by omega) (by simpa using hcl'.1)

theorem closeStart_eq {ph : ℕ → K} {m : K} {ext : List ℕ} {j : ℕ}
    (hg : Close ph m ext j) (hlast : ∀ k, j < k → ¬ Close ph m ext k) (hmid : j < (ext.length - 1) / 2) :
    closeStart ph m ext = j ∧ closeEnd ph m ext = ext.length := by
  have hlr : (diff (ext.map ph)).length = ext.length - 1 := by rw [length_diff]; simp
  have hm := (mem_close (ph := ph) (ext := ext) m j).mpr hg
  have hne : npWhere (fun x => decide (x < m)) (diff (ext.map ph)) ≠ [] := by
    intro hc; rw [hc] at hm; simp at hm
  have hlm := List.getLast_mem hne
  have hsh := (mem_close m _).mp hlm
  have hle : (npWhere (fun x => decide (x < m)) (diff (ext.map ph))).getLast hne ≤ j := by
    by_contra hc; exact hlast _ (by omega) hsh
  have hge := sorted_getLast_ge (npWhere_sorted _ _) hne j hm
  have he : (npWhere (fun x => decide (x < m)) (diff (ext.map ph))).getLast hne = j := by omega
  constructor
  · unfold closeStart
    rw [List.getLast?_eq_some_getLast hne]
    simp only [he]
    rw [if_pos (by omega)]
  · unfold closeEnd
    cases hw : npWhere (fun x => decide (x < m)) (diff (ext.map ph)) with
    | nil => rfl
    | cons first rest =>
      have hsrt := npWhere_sorted (fun x => decide (x < m)) (diff (ext.map ph))
      rw [hw] at hm hsrt
      have : first ≤ j := by
        rcases List.mem_cons.mp hm with rfl | h2
        · exact le_refl _
        · exact ((List.pairwise_cons.mp hsrt).1 j h2).le
      simp only
      rw [if_neg (by omega)]

/-- In the first half the documented outcome (the docstring drops `{1, 3}` when `{3, 4}` is too close) is **not** what
happens: whenever the rule fires, the retained list starts with the too-close pair itself. -/
theorem C25_start_violation (ph : ℕ → K) (m : K) (level : ℤ) (ext out : List ℕ) (hs : ext.Pairwise (· < ·))
    (h : dropTooClose ph m level ext = .ok out) (j : ℕ)
    (hg : Close ph m ext j) (hlast : ∀ k, j < k → ¬ Close ph m ext k) (hmid : j < (ext.length - 1) / 2) :
    out = ext.drop j ∧ Close ph m out 0 := by
  have hout := dropTooClose_ok hs h
  obtain ⟨h1, h2⟩ := closeStart_eq hg hlast hmid
  have hh : out = (ext.take ext.length).drop j := by rw [hout, h1, h2]
  refine ⟨by rw [hh, List.take_length], ?_⟩
  rw [hh, Close_takeDrop]
  exact ⟨by simpa using hg, by omega⟩

/-- What does hold in the first half: no other too-close pair remains. -/
theorem C25_start_partial (ph : ℕ → K) (m : K) (level : ℤ) (ext out : List ℕ) (hs : ext.Pairwise (· < ·))
    (h : dropTooClose ph m level ext = .ok out) (j : ℕ)
    (hg : Close ph m ext j) (hlast : ∀ k, j < k → ¬ Close ph m ext k) (hmid : j < (ext.length - 1) / 2) :
    ∀ k, 0 < k → ¬ Close ph m out k := by
  intro k hk hc
  obtain ⟨h1, h2⟩ := closeStart_eq hg hlast hmid
  rw [dropTooClose_ok hs h, h1, h2, Close_takeDrop] at hc
  exact hlast _ (by omega) hc.1

/-- Too-close pairs in both halves, or in the middle, leave the list as it is. -/
theorem C25_otherwise (ph : ℕ → K) (m : K) (level : ℤ) (ext out : List ℕ) (hs : ext.Pairwise (· < ·))
    (h : dropTooClose ph m level ext = .ok out)
    (hno : (∀ j, ¬ Close ph m ext j) ∨
      (∃ i, Close ph m ext i ∧ i ≤ (ext.length - 1) / 2) ∧ ∃ k, Close ph m ext k ∧ (ext.length - 1) / 2 ≤ k) :
    out = ext := by
  have hout := dropTooClose_ok hs h
  have hlr : (diff (ext.map ph)).length = ext.length - 1 := by rw [length_diff]; simp
  have hE : closeEnd ph m ext = ext.length := by
    unfold closeEnd
    cases hw : npWhere (fun x => decide (x < m)) (diff (ext.map ph)) with
    | nil => rfl
    | cons first rest =>
      have hf : Close ph m ext first := (mem_close m first).mp (by rw [hw]; simp)
      simp only
      rw [if_neg]
      rcases hno with hno | ⟨⟨i, hg, hi⟩, _⟩
      · exact absurd hf (hno first)
      · have hm := (mem_close (ph := ph) (ext := ext) m i).mpr hg
        have hsrt := npWhere_sorted (fun x => decide (x < m)) (diff (ext.map ph))
        rw [hw] at hm hsrt
        have : first ≤ i := by
          rcases List.mem_cons.mp hm with rfl | h2
          · exact le_refl _
          · exact ((List.pairwise_cons.mp hsrt).1 i h2).le
        omega
  have hS : closeStart ph m ext = 0 := by
    unfold closeStart
    cases hw : (npWhere (fun x => decide (x < m)) (diff (ext.map ph))).getLast? with
    | none => rfl
    | some last =>
      have hne : npWhere (fun x => decide (x < m)) (diff (ext.map ph)) ≠ [] := by
        intro hc; rw [hc] at hw; simp at hw
      rw [List.getLast?_eq_some_getLast hne] at hw
      simp only [Option.some.injEq] at hw
      have hf : Close ph m ext last := (mem_close m last).mp (by rw [← hw]; exact List.getLast_mem hne)
      simp only
      rw [if_neg]
      rcases hno with hno | ⟨_, ⟨k, hg, hk⟩⟩
      · exact absurd hf (hno last)
      · have hm := (mem_close (ph := ph) (ext := ext) m k).mpr hg
        have := sorted_getLast_ge (npWhere_sorted _ _) hne k hm
        omega
  rw [hout, hE, hS, List.take_length, List.drop_zero]

/-- the two docstring examples (unit phase per index, threshold 2): the first agrees with the docstring,
the second keeps 3 -/
example : dropTooClose (fun i => (i : ℚ)) 2 0 [1, 3, 5, 7, 9, 11, 12, 14] = .ok [1, 3, 5, 7, 9, 11] ∧
    dropTooClose (fun i => (i : ℚ)) 2 0 [1, 3, 4, 6, 8, 10, 12] = .ok [3, 4, 6, 8, 10, 12] := by decide +kernel

/-! ### C24 and C25 for the extrema finally used, of both kinds -/

/-- The extrema used, of either kind, are a stretch of what the treatment of jumps followed by that of close pairs
leaves. -/
theorem used_of_kind {ph : ℕ → K} {R m : K} {level : ℤ} {p a p' a' l l' : List ℕ}
    (hp : p.Pairwise (· < ·)) (ha : a.Pairwise (· < ·)) (h : getGoodExtrema ph R m level p a = .ok (p', a'))
    (hl : (l = p ∧ l' = p') ∨ (l = a ∧ l' = a')) :
    ∃ l1 l2, dropJumps ph R level l = .ok l1 ∧ dropTooClose ph m level l1 = .ok l2 ∧ l' <:+: l2 ∧ l1 <:+: l ∧ l2 <:+: l1 := by
  unfold getGoodExtrema at h
  obtain ⟨p1, hp1, h⟩ := bind_ok h
  obtain ⟨a1, ha1, h⟩ := bind_ok h
  obtain ⟨p2, hp2, h⟩ := bind_ok h
  obtain ⟨a2, ha2, h⟩ := bind_ok h
  have ip1 : p1 <:+: p := by rw [dropJumps_ok hp hp1]; exact takeDrop_infix _ _ _
  have ia1 : a1 <:+: a := by rw [dropJumps_ok ha ha1]; exact takeDrop_infix _ _ _
  have sp1 := hp.sublist ip1.sublist
  have sa1 := ha.sublist ia1.sublist
  have ip2 : p2 <:+: p1 := by rw [dropTooClose_ok sp1 hp2]; exact takeDrop_infix _ _ _
  have ia2 : a2 <:+: a1 := by rw [dropTooClose_ok sa1 ha2]; exact takeDrop_infix _ _ _
  obtain ⟨h1, h2, _⟩ := dropExtraAtEnds_ok (sp1.sublist ip2.sublist) (sa1.sublist ia2.sublist) h
  rcases hl with ⟨rfl, rfl⟩ | ⟨rfl, rfl⟩
  · exact ⟨p1, p2, hp1, hp2, h1, ip1, ip2⟩
  · exact ⟨a1, a2, ha1, ha2, h2, ia1, ia2⟩

/-- Pericenters or apocenters: when the first growth of the separation is in the second half, nothing after the extremum
preceding the gap is used, and the extrema used have no growth. -/
theorem C24_used (ph : ℕ → K) (R m : K) (level : ℤ) (p a p' a' l l' : List ℕ)
    (hp : p.Pairwise (· < ·)) (ha : a.Pairwise (· < ·)) (h : getGoodExtrema ph R m level p a = .ok (p', a'))
    (hl : (l = p ∧ l' = p') ∨ (l = a ∧ l' = a')) (hinc : PhaseIncreasing ph l) (i : ℕ) (hi : i + 2 < l.length)
    (hg : Grows ph R l i) (hfirst : ∀ j < i, ¬ Grows ph R l j) (hmid : (l.length - 2) / 2 < i) :
    ∀ x ∈ l', x ≤ l[i + 1] := by
  obtain ⟨l1, l2, h1, h2, h3, h4, h5⟩ := used_of_kind hp ha h hl
  have hs : l.Pairwise (· < ·) := by rcases hl with ⟨rfl, _⟩ | ⟨rfl, _⟩ <;> assumption
  obtain ⟨hlast, _⟩ := C24_end ph R level l l1 hs hinc h1 i hi hg hfirst hmid
  have hne : l1 ≠ [] := by intro hc; rw [hc] at hlast; simp at hlast
  intro x hx
  have hx1 : x ∈ l1 := h5.subset (h3.subset hx)
  have := sorted_getLast_ge (hs.sublist h4.sublist) hne x hx1
  rw [List.getLast?_eq_some_getLast hne] at hlast
  rwa [Option.some.inj hlast] at this

/-- Pericenters or apocenters without jumps: when the first too-close pair is in the second half, its second member and
everything after it are not used. -/
theorem C25_used (ph : ℕ → K) (R m : K) (hR : 0 < R) (level : ℤ) (p a p' a' l l' : List ℕ)
    (hp : p.Pairwise (· < ·)) (ha : a.Pairwise (· < ·)) (h : getGoodExtrema ph R m level p a = .ok (p', a'))
    (hl : (l = p ∧ l' = p') ∨ (l = a ∧ l' = a')) (hinc : PhaseIncreasing ph l)
    (hj : ∀ j, ¬ Grows ph R l j ∧ ¬ Shrinks ph R l j) (i : ℕ) (hi : i + 1 < l.length)
    (hc : Close ph m l i) (hfirst : ∀ j < i, ¬ Close ph m l j) (hmid : (l.length - 1) / 2 < i) :
    (∀ x ∈ l', x ≤ l[i]) ∧ ∀ j, ¬ Close ph m l' j := by
  obtain ⟨l1, l2, h1, h2, h3, h4, h5⟩ := used_of_kind hp ha h hl
  have hs : l.Pairwise (· < ·) := by rcases hl with ⟨rfl, _⟩ | ⟨rfl, _⟩ <;> assumption
  have nilOf : ∀ l : List ℕ, (∀ i, i ∉ l) → l = [] := by
    intro l hl; cases l with
    | nil => rfl
    | cons x l => exact absurd (List.mem_cons_self) (hl x)
  have w1 := nilOf _ (fun i hi => (hj i).1 ((mem_tooLarge hinc R i).mp hi))
  have w2 := nilOf _ (fun i hi => (hj i).2 ((mem_tooSmall hinc R hR i).mp hi))
  have hd : dropJumps ph R level l = .ok l := by
    unfold dropJumps dropJumpsEnd dropJumpsStart
    simp only [w1, w2]; rfl
  have e1 : l = l1 := by rw [hd] at h1; exact Except.ok.inj h1
  subst e1
  obtain ⟨hlast, _, hno⟩ := C25_end ph m level l l2 hs h2 i hi hc hfirst hmid
  have hne : l2 ≠ [] := by intro hc; rw [hc] at hlast; simp at hlast
  constructor
  · intro x hx
    have := sorted_getLast_ge (hs.sublist h5.sublist) hne x (h3.subset hx)
    rw [List.getLast?_eq_some_getLast hne] at hlast
    rwa [Option.some.inj hlast] at this
  · rintro j ⟨hj1, hj2⟩
    obtain ⟨s, t, rfl⟩ := h3
    refine hno (s.length + j) ⟨by simp; omega, ?_⟩
    have g : ∀ k (hk : k < l'.length) (hk' : s.length + k < (s ++ l' ++ t).length),
        (s ++ l' ++ t)[s.length + k] = l'[k] := by
      intro k hk hk'
      rw [List.getElem_append_left (by simp; omega), List.getElem_append_right (by omega)]
      simp
    have e1 := g j (by omega) (by simp; omega)
    have e2 := g (j + 1) hj1 (by simp; omega)
    simp only [Nat.add_assoc] at e2 ⊢
    rw [e1, e2]
    exact hj2

/-- Close apocenters near the end, with regular pericenters. -/
example : getGoodExtrema (fun i => (i : ℚ)) (3/2) (7/2 : ℚ) 0 [2, 6, 10, 14, 18, 22, 26]
    [4, 8, 12, 16, 20, 23, 27] = .ok ([2, 6, 10, 14, 18, 22], [4, 8, 12, 16, 20]) := by decide +kernel

/-- A gap between apocenters near the end, with regular pericenters. -/
example : getGoodExtrema (fun i => (i : ℚ)) (3/2) (3 : ℚ) 0 [2, 6, 10, 14, 18, 22, 26, 30]
    [4, 8, 12, 16, 20, 28, 32] = .ok ([2, 6, 10, 14, 18, 22], [4, 8, 12, 16, 20]) := by decide +kernel

/-! ## C26 Mid-point apocenters -/

/-- One apocenter per pair of consecutive pericenters, strictly between them when they are at least two samples apart. -/
theorem C26_midpoints (p : List ℕ) :
    (midpointApocenters p).length = p.length - 1 ∧
    ∀ i (h : i + 1 < p.length) (h' : i < (midpointApocenters p).length), p[i] + 2 ≤ p[i + 1] →
      p[i] < (midpointApocenters p)[i] ∧ (midpointApocenters p)[i] < p[i + 1] := by
  constructor
  · unfold midpointApocenters; simp
  · intro i h h' hgap
    have : (midpointApocenters p)[i] = (p[i] + p[i + 1]) / 2 := by
      simp only [midpointApocenters, List.getElem_zipWith, List.getElem_dropLast, List.getElem_drop]
      congr 3; simp [Nat.add_comm]
    rw [this]; omega

example : midpointApocenters [3, 8, 12] = [5, 10] := rfl

/-! ## C27 Alternation diagnostic -/

theorem interleave_cons (x : ℕ) (xs ys : List ℕ) : interleave (x :: xs) ys = x :: interleave ys xs := by
  rw [interleave]

theorem interleave_nil (ys : List ℕ) : interleave [] ys = [] := by rw [interleave]

theorem mem_interleave : ∀ (n : ℕ) (xs ys : List ℕ), xs.length + ys.length = n →
    (ys.length ≤ xs.length ∧ xs.length ≤ ys.length + 1) → ∀ z, z ∈ interleave xs ys ↔ z ∈ xs ∨ z ∈ ys := by
  intro n
  induction n with
  | zero =>
    intro xs ys hn _ z
    have h1 : xs = [] := List.length_eq_zero_iff.mp (by omega)
    have h2 : ys = [] := List.length_eq_zero_iff.mp (by omega)
    subst h1 h2; simp [interleave_nil]
  | succ n ih =>
    intro xs ys hn hlen z
    cases xs with
    | nil => simp only [List.length_nil] at hlen hn; omega
    | cons x xs =>
      rw [interleave_cons, List.mem_cons, ih ys xs (by simp at hn; omega) (by simp at hlen; omega), List.mem_cons]
      tauto

theorem between_of_interleave : ∀ (n : ℕ) (xs ys : List ℕ), xs.length + ys.length = n →
    (ys.length ≤ xs.length ∧ xs.length ≤ ys.length + 1) → (interleave xs ys).Pairwise (· < ·) → Alternate xs ys := by
  intro n
  induction n with
  | zero =>
    intro xs ys hn _ _
    have h1 : xs = [] := List.length_eq_zero_iff.mp (by omega)
    have h2 : ys = [] := List.length_eq_zero_iff.mp (by omega)
    subst h1 h2; simp [Alternate]
  | succ n ih =>
    intro xs ys hn hlen hs
    cases xs with
    | nil => simp only [List.length_nil] at hlen hn; omega
    | cons x xs =>
      have hlen' : xs.length ≤ ys.length ∧ ys.length ≤ xs.length + 1 := by simp at hlen; omega
      rw [interleave_cons, List.pairwise_cons] at hs
      obtain ⟨hx, hs⟩ := hs
      obtain ⟨b1, b2⟩ := ih ys xs (by simp at hn; omega) hlen' hs
      have hmem := mem_interleave (ys.length + xs.length) ys xs rfl hlen'
      have hself : ∀ v ∈ xs, ∃ z ∈ ys, x < z ∧ z < v := by
        intro v hv
        cases ys with
        | nil =>
          have : xs = [] := List.length_eq_zero_iff.mp (by simp only [List.length_nil] at hlen'; omega)
          rw [this] at hv; simp at hv
        | cons y ys =>
          refine ⟨y, by simp, hx y ((hmem y).mpr (Or.inl (by simp))), ?_⟩
          rw [interleave_cons, List.pairwise_cons] at hs
          have hv' : v ∈ interleave (y :: ys) xs := (hmem v).mpr (Or.inr hv)
          rw [interleave_cons] at hv'
          rcases List.mem_cons.mp hv' with rfl | hv'
          · exfalso
            -- v = y would be in both; use that the rest of the interleaving contains xs
            have hl2 : ys.length ≤ xs.length ∧ xs.length ≤ ys.length + 1 := by simp at hlen'; omega
            have := (mem_interleave (xs.length + ys.length) xs ys rfl hl2 v).mpr (Or.inl hv)
            exact absurd (hs.1 v this) (lt_irrefl _)
          · exact hs.1 v hv'
      refine ⟨?_, ?_⟩
      · intro u hu v hv huv
        rcases List.mem_cons.mp hu with rfl | hu
        · rcases List.mem_cons.mp hv with rfl | hv
          · omega
          · exact hself v hv
        · rcases List.mem_cons.mp hv with hvx | hv
          · have : u ∈ interleave ys xs := (hmem u).mpr (Or.inr hu)
            have := hx u this; omega
          · exact b2 u hu v hv huv
      · intro u hu v hv huv
        obtain ⟨z, hz, h1⟩ := b1 u hu v hv huv
        exact ⟨z, by simp [hz], h1⟩

theorem interleave_of_between : ∀ (n : ℕ) (xs ys : List ℕ), xs.length + ys.length = n →
    xs.Pairwise (· < ·) → ys.Pairwise (· < ·) → xs ≠ [] → (∀ x ∈ xs.head?, ∀ y ∈ ys, x < y) → Alternate xs ys →
    (ys.length ≤ xs.length ∧ xs.length ≤ ys.length + 1) ∧ (interleave xs ys).Pairwise (· < ·) := by
  intro n
  induction n with
  | zero =>
    intro xs ys hn _ _ hne
    exact absurd (List.length_eq_zero_iff.mp (by omega)) hne
  | succ n ih =>
    intro xs ys hn hsx hsy hne hhead halt
    cases xs with
    | nil => exact absurd rfl hne
    | cons x xs =>
      simp only [List.head?_cons, Option.mem_def, Option.some.injEq, forall_eq'] at hhead
      obtain ⟨hxlt, hsx'⟩ := List.pairwise_cons.mp hsx
      cases ys with
      | nil =>
        cases xs with
        | nil => simp [interleave_cons, interleave_nil]
        | cons x1 xs =>
          obtain ⟨z, hz, _⟩ := halt.1 x (by simp) x1 (by simp) (hxlt x1 (by simp))
          simp at hz
      | cons y ys =>
        obtain ⟨hylt, _⟩ := List.pairwise_cons.mp hsy
        have hstart : ∀ a ∈ (y :: ys).head?, ∀ b ∈ xs, a < b := by
          simp only [List.head?_cons, Option.mem_def, Option.some.injEq, forall_eq']
          intro b hb
          obtain ⟨z, hz, h1, h2⟩ := halt.1 x (by simp) b (by simp [hb]) (hxlt b hb)
          rcases List.mem_cons.mp hz with rfl | hz
          · exact h2
          · exact lt_trans (hylt z hz) h2
        have halt' : Alternate (y :: ys) xs := by
          refine ⟨?_, ?_⟩
          · intro u hu v hv huv
            obtain ⟨z, hz, h1, h2⟩ := halt.2 u hu v hv huv
            rcases List.mem_cons.mp hz with rfl | hz
            · have := hhead u hu; omega
            · exact ⟨z, hz, h1, h2⟩
          · intro u hu v hv huv
            exact halt.1 u (by simp [hu]) v (by simp [hv]) huv
        obtain ⟨hl, hs⟩ := ih (y :: ys) xs (by simp at hn ⊢; omega) hsy hsx' (by simp) hstart halt'
        refine ⟨by simp at hl ⊢; omega, ?_⟩
        rw [interleave_cons, List.pairwise_cons]
        refine ⟨?_, hs⟩
        intro z hz
        rcases (mem_interleave _ (y :: ys) xs rfl hl z).mp hz with h | h
        · exact hhead z h
        · exact hxlt z h

theorem chain_strict : ∀ (n : ℕ) (xs ys : List ℕ), xs.length + ys.length = n → (∀ z ∈ xs, z ∉ ys) →
    (interleave xs ys).IsChain (· ≤ ·) → (interleave xs ys).IsChain (· < ·) := by
  intro n
  induction n with
  | zero =>
    intro xs ys hn _ _
    have h1 : xs = [] := List.length_eq_zero_iff.mp (by omega)
    subst h1; simp [interleave_nil]
  | succ n ih =>
    intro xs ys hn hd hc
    cases xs with
    | nil => simp [interleave_nil]
    | cons x xs =>
      rw [interleave_cons] at hc ⊢
      have hd' : ∀ z ∈ ys, z ∉ xs := fun z hz hx => hd z (by simp [hx]) hz
      cases ys with
      | nil => simp [interleave_nil]
      | cons y ys =>
        have hrec := ih (y :: ys) xs (by simp at hn ⊢; omega) hd'
        rw [interleave_cons] at hc hrec ⊢
        rw [List.isChain_cons_cons] at hc ⊢
        refine ⟨lt_of_le_of_ne hc.1 ?_, hrec hc.2⟩
        rintro rfl
        exact hd x (by simp) (by simp)

theorem tDiff_ok_iff {t : ℕ → K} (ht : StrictMono t) : ∀ l : List ℕ,
    (diff (l.map t)).any (fun d => decide (d < 0)) = false ↔ l.IsChain (· ≤ ·)
  | [] => by simp [diff]
  | [a] => by simp [diff]
  | a :: b :: l => by
    have ih := tDiff_ok_iff ht (b :: l)
    simp only [List.map_cons, diff, List.any_cons, Bool.or_eq_false_iff, decide_eq_false_iff_not, not_lt, sub_nonneg]
    rw [List.isChain_cons_cons, ht.le_iff_le]
    simp only [List.map_cons] at ih
    rw [ih]

/-- With times increasing along the samples and no sample both a pericenter and an apocenter: the check is silent iff
pericenters and apocenters strictly alternate, warns at debug level 1 otherwise and raises at level 2. -/
theorem C27_alternation (t : ℕ → K) (ht : StrictMono t) (p a : List ℕ) (hp : p.Pairwise (· < ·)) (ha : a.Pairwise (· < ·))
    (hpne : p ≠ []) (hane : a ≠ []) (hdisj : ∀ z ∈ p, z ∉ a) :
    (Alternate p a → checkAlternate t 1 p a = .ok .silent ∧ checkAlternate t 2 p a = .ok .silent) ∧
    (¬ Alternate p a → checkAlternate t 1 p a = .ok (.warn false) ∧ checkAlternate t 2 p a = .error .exception) := by
  have hsym : Alternate p a ↔ Alternate a p := ⟨fun h => ⟨h.2, h.1⟩, fun h => ⟨h.2, h.1⟩⟩
  have hdisj' : ∀ z ∈ a, z ∉ p := fun z hz hzp => hdisj z hzp hz
  -- choose the arrays
  obtain ⟨arr1, arr2, hsel, hcase⟩ : ∃ arr1 arr2,
      ((if p.length = a.length then do
        let p0 ← pyGet p 0
        let a0 ← pyGet a 0
        pure (if t p0 < t a0 then (p, a) else (a, p))
      else pure (if p.length > a.length then (p, a) else (a, p)) : Py (List ℕ × List ℕ)) = .ok (arr1, arr2)) ∧
      ((arr1 = p ∧ arr2 = a) ∨ (arr1 = a ∧ arr2 = p)) ∧ arr2.length ≤ arr1.length ∧
      (arr1.length = arr2.length → ∀ x ∈ arr1.head?, ∀ y ∈ arr2.head?, x < y) := by
    cases p with
    | nil => contradiction
    | cons p0 p =>
      cases a with
      | nil => contradiction
      | cons a0 a =>
        have hne : p0 ≠ a0 := by rintro rfl; exact hdisj p0 (by simp) (by simp)
        by_cases hl : (p0 :: p).length = (a0 :: a).length
        · rw [if_pos hl]
          simp only [pyGet, List.getElem?_cons_zero, ok_bind, pure_eq_ok]
          by_cases hlt : t p0 < t a0
          · rw [if_pos hlt]
            exact ⟨_, _, rfl, Or.inl ⟨rfl, rfl⟩, hl.ge, fun _ => by simpa using ht.lt_iff_lt.mp hlt⟩
          · rw [if_neg hlt]
            refine ⟨_, _, rfl, Or.inr ⟨rfl, rfl⟩, hl.le, fun _ => ?_⟩
            rw [ht.lt_iff_lt] at hlt
            simp; omega
        · rw [if_neg hl]
          by_cases hg : (p0 :: p).length > (a0 :: a).length
          · rw [if_pos hg]
            exact ⟨_, _, rfl, Or.inl ⟨rfl, rfl⟩, by omega, fun h => by omega⟩
          · rw [if_neg hg]
            exact ⟨_, _, rfl, Or.inr ⟨rfl, rfl⟩, by omega, fun h => by omega⟩
  obtain ⟨hwhich, hle, hfirst⟩ := hcase
  have h1 : arr1.Pairwise (· < ·) := by rcases hwhich with ⟨rfl, rfl⟩ | ⟨rfl, rfl⟩ <;> assumption
  have h2 : arr2.Pairwise (· < ·) := by rcases hwhich with ⟨rfl, rfl⟩ | ⟨rfl, rfl⟩ <;> assumption
  have n1 : arr1 ≠ [] := by rcases hwhich with ⟨rfl, rfl⟩ | ⟨rfl, rfl⟩ <;> assumption
  have n2 : arr2 ≠ [] := by rcases hwhich with ⟨rfl, rfl⟩ | ⟨rfl, rfl⟩ <;> assumption
  have hd : ∀ z ∈ arr1, z ∉ arr2 := by rcases hwhich with ⟨rfl, rfl⟩ | ⟨rfl, rfl⟩ <;> assumption
  have hA : Alternate p a ↔ Alternate arr1 arr2 := by
    rcases hwhich with ⟨rfl, rfl⟩ | ⟨rfl, rfl⟩
    · exact Iff.rfl
    · exact hsym
  have hcond : ((p.length : ℤ) - a.length ≥ 2 ∨ (a.length : ℤ) - p.length ≥ 2) ↔ ¬ (arr1.length ≤ arr2.length + 1) := by
    rcases hwhich with ⟨rfl, rfl⟩ | ⟨rfl, rfl⟩ <;> omega
  -- the characterisation
  have key : Alternate arr1 arr2 ↔ arr1.length ≤ arr2.length + 1 ∧
      (diff ((interleave arr1 arr2).map t)).any (fun d => decide (d < 0)) = false := by
    rw [tDiff_ok_iff ht]
    constructor
    · intro halt
      -- which one starts first?
      have hhd : (∀ x ∈ arr1.head?, ∀ y ∈ arr2, x < y) ∨ (∀ y ∈ arr2.head?, ∀ x ∈ arr1, y < x) := by
        cases arr1 with
        | nil => contradiction
        | cons x xs =>
          cases arr2 with
          | nil => contradiction
          | cons y ys =>
            have hxy : x ≠ y := by rintro rfl; exact hd x (by simp) (by simp)
            rcases Nat.lt_or_gt_of_ne hxy with h | h
            · left
              simp only [List.head?_cons, Option.mem_def, Option.some.injEq, forall_eq']
              intro z hz
              exact lt_of_lt_of_le h (sorted_head_le h2 (by simp) z hz)
            · right
              simp only [List.head?_cons, Option.mem_def, Option.some.injEq, forall_eq']
              intro z hz
              exact lt_of_lt_of_le h (sorted_head_le h1 (by simp) z hz)
      rcases hhd with hhd | hhd
      · obtain ⟨hl, hs⟩ := interleave_of_between _ arr1 arr2 rfl h1 h2 n1 hhd halt
        refine ⟨hl.2, ?_⟩
        exact (List.isChain_iff_pairwise.mpr hs).imp (fun _ _ h => h.le)
      · obtain ⟨hl, _⟩ := interleave_of_between _ arr2 arr1 rfl h2 h1 n2 hhd ⟨halt.2, halt.1⟩
        -- arr2 starts first, so it is at least as long: equal lengths, contradiction with the choice
        exfalso
        have heq : arr1.length = arr2.length := by omega
        cases arr1 with
        | nil => contradiction
        | cons x xs =>
          cases arr2 with
          | nil => contradiction
          | cons y ys =>
            have q1 := hfirst heq x (by simp) y (by simp)
            have q2 := hhd y (by simp) x (by simp)
            omega
    · rintro ⟨hl, hc⟩
      have hs := List.isChain_iff_pairwise.mp (chain_strict _ arr1 arr2 rfl hd hc)
      exact between_of_interleave _ arr1 arr2 rfl ⟨hle, hl⟩ hs
  rw [hA, key]
  unfold checkAlternate
  rw [hsel]
  simp only [ok_bind, pure_eq_ok]
  by_cases hc : arr1.length ≤ arr2.length + 1
  · have hc' : ¬ ((p.length : ℤ) - a.length ≥ 2 ∨ (a.length : ℤ) - p.length ≥ 2) := by rw [hcond]; simpa using hc
    simp only [hc', if_false, hc, true_and]
    cases hany : (diff ((interleave arr1 arr2).map t)).any (fun d => decide (d < 0)) with
    | false => simp
    | true => simp [debugMessage]
  · have hc' : ((p.length : ℤ) - a.length ≥ 2 ∨ (a.length : ℤ) - p.length ≥ 2) := by rw [hcond]; exact hc
    simp only [hc', if_true, hc, false_and]
    simp [debugMessage]

/-- Below debug level 1 the check says nothing at all. -/
theorem C27_quiet (t : ℕ → K) (p a : List ℕ) (level : ℤ) (h : level < 1) : checkAlternate t level p a = .ok .silent := by
  unfold checkAlternate; rw [if_pos h]; rfl

/-- The disjointness hypothesis is needed: with coinciding extrema (`t_diff < 0` instead of `<= 0`) nothing is reported
although they do not alternate strictly. -/
theorem C27_coincident : checkAlternate (fun i => (i : ℚ)) 1 [1, 3] [1, 3] = .ok .silent ∧ ¬ Alternate [1, 3] [1, 3] := by
  constructor
  · decide +kernel
  · rintro ⟨h, _⟩
    obtain ⟨z, hz, h1, h2⟩ := h 1 (by simp) 3 (by simp) (by omega)
    simp at hz; omega

/-- alternating and non-alternating lists -/
example : Alternate [1, 5] [3, 7] ∧ ¬ Alternate [1, 5, 6] [3, 7] := by
  constructor
  · constructor <;> intro x hx y hy hxy <;> simp at hx hy
    · exact ⟨3, by simp, by omega, by omega⟩
    · exact ⟨5, by simp, by omega, by omega⟩
  · rintro ⟨h, _⟩
    obtain ⟨z, hz, h1, h2⟩ := h 5 (by simp) 6 (by simp) (by omega)
    omega

end GwEcc
