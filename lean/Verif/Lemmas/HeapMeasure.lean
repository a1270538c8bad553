import Verif.Lemmas.HeapFrame
import Verif.Spec.Heap

/-!
# The whole measurement on objects
-/

set_option linter.unusedSectionVars false

namespace GwEcc

open Spec

variable {K C : Type} [Field K] [LinearOrder K]

theorem sliceOf_sim (s n : ℕ) {h : Heap K C} (w : WF h) {r : ℕ} (hr : IsArr h r) :
    ∃ c, sliceOf s n r h = (.ok h.length, h ++ [c]) ∧ WF (h ++ [c]) ∧ IsArr (h ++ [c]) h.length ∧
      readR (h ++ [c]) h.length = ((readR h r).drop s).take n := by
  rcases hr with ⟨l, hl⟩ | ⟨b, s0, m, hl⟩
  · refine ⟨.view r s n, ?_, ?_, .inr ⟨r, s, _, getElem?_snoc _ _⟩, ?_⟩
    · unfold sliceOf; rw [hl]; rfl
    · exact w.append (c := .view r s n) ⟨l, by rw [List.getElem?_append_left (lt_of_getElem? hl), hl]⟩
    · unfold readR
      rw [getElem?_snoc, hl]
      simp only
      rw [List.getElem?_append_left (lt_of_getElem? hl), hl]
  · obtain ⟨l, hb⟩ := w _ _ hl
    refine ⟨.view b (s0 + s) (min n (m - s)), ?_, ?_, .inr ⟨b, _, _, getElem?_snoc _ _⟩, ?_⟩
    · unfold sliceOf; rw [hl]; rfl
    · exact w.append (c := .view b (s0 + s) (min n (m - s))) ⟨l, by rw [List.getElem?_append_left (lt_of_getElem? hb), hb]⟩
    · unfold readR
      rw [getElem?_snoc, hl]
      simp only
      rw [List.getElem?_append_left (lt_of_getElem? hb), hb]
      simp only
      rw [List.drop_take, List.take_take, List.drop_drop]

/-- Part of an array shifted. -/
def shiftPart (x : K) (s n : ℕ) (l : List K) : List K := l.take s ++ ((l.drop s).take n).map (· + x) ++ (l.drop s).drop n

theorem shiftPart_window (x : K) (s n : ℕ) (l : List K) :
    ((shiftPart x s n l).drop s).take n = ((l.drop s).take n).map (· + x) := by
  unfold shiftPart
  by_cases hs : s ≤ l.length
  · have h1 : (l.take s).length = s := by simp [hs]
    rw [List.append_assoc, List.drop_append_of_le_length (by omega), List.drop_of_length_le (by omega), List.nil_append]
    by_cases hn : n ≤ (l.drop s).length
    · have h2 : (((l.drop s).take n).map (· + x)).length = n := by simp at hn ⊢; omega
      rw [List.take_append_of_le_length (by omega), List.take_of_length_le (by omega)]
    · have e : (l.drop s).drop n = [] := List.drop_of_length_le (by omega)
      rw [e, List.append_nil, List.take_of_length_le]
      rw [List.length_map, List.length_take]; omega
  · have : l.drop s = [] := List.drop_of_length_le (by omega)
    simp [this]

theorem shiftPart_cancel (x : K) (s n : ℕ) (l : List K) : shiftPart x s n (shiftPart (-x) s n l) = l := by
  have hw := shiftPart_window (-x) s n l
  have ht : (shiftPart (-x) s n l).take s = l.take s := by
    unfold shiftPart
    by_cases hs : s ≤ l.length
    · rw [List.append_assoc, List.take_append_of_le_length (by simp [hs]), List.take_of_length_le (by simp)]
    · have : l.drop s = [] := List.drop_of_length_le (by omega)
      simp [this]
  have hd : ((shiftPart (-x) s n l).drop s).drop n = (l.drop s).drop n := by
    unfold shiftPart
    by_cases hs : s ≤ l.length
    · have h1 : (l.take s).length = s := by simp [hs]
      rw [List.append_assoc, List.drop_append_of_le_length (by omega), List.drop_of_length_le (l := l.take s) (by omega),
        List.nil_append]
      by_cases hn : n ≤ (l.drop s).length
      · have h2 : (((l.drop s).take n).map (· + -x)).length = n := by simp at hn ⊢; omega
        rw [List.drop_append_of_le_length (by omega), List.drop_of_length_le (l := List.map _ _) (by omega), List.nil_append]
      · have e : (l.drop s).drop n = [] := List.drop_of_length_le (by omega)
        rw [e, List.append_nil, List.drop_of_length_le]
        rw [List.length_map, List.length_take]; omega
    · have : l.drop s = [] := List.drop_of_length_le (by omega)
      simp [this]
  have e : ∀ l' : List K, shiftPart x s n l' = l'.take s ++ ((l'.drop s).take n).map (· + x) ++ (l'.drop s).drop n := fun _ => rfl
  rw [e, ht, hw, hd, List.map_map]
  have : ((fun y => y + x) ∘ fun y => y + -x) = (id : K → K) := by funext y; simp
  rw [this, List.map_id, List.append_assoc, List.take_append_drop, List.take_append_drop]

/-- Shifting an array in place and shifting it back. -/
theorem shiftH_spec (x : K) {h : Heap K C} (w : WF h) {r : ℕ} (hr : IsArr h r) :
    ∃ h1, shiftH (-x) r h = (.ok (), h1) ∧ readR h1 r = (readR h r).map (· + -x) ∧ shiftH x r h1 = (.ok (), h) := by
  rcases hr with ⟨l, hl⟩ | ⟨b, s, m, hl⟩
  · have hrl := lt_of_getElem? hl
    refine ⟨h.set r (.nums (l.map (· + -x))), ?_, ?_, ?_⟩
    · unfold shiftH; rw [hl]; rfl
    · unfold readR; rw [hl, List.getElem?_set_self hrl]
    · unfold shiftH
      rw [List.getElem?_set_self hrl]
      show (Except.ok (), List.set (h.set r _) r _) = _
      rw [List.set_set, List.map_map]
      have : ((fun y => y + x) ∘ fun y => y + -x) = (id : K → K) := by funext y; simp
      rw [this, List.map_id]
      congr 1
      refine List.ext_getElem? fun i => ?_
      by_cases e : r = i
      · subst e; rw [List.getElem?_set_self hrl, hl]
      · rw [List.getElem?_set_ne e]
  · obtain ⟨l, hb⟩ := w _ _ hl
    have hbl := lt_of_getElem? hb
    have hne : b ≠ r := by rintro rfl; rw [hl] at hb; cases hb
    refine ⟨h.set b (.nums (shiftPart (-x) s m l)), ?_, ?_, ?_⟩
    · unfold shiftH; rw [hl]; simp only; rw [hb]; rfl
    · unfold readR
      rw [List.getElem?_set_ne hne, hl]
      simp only
      rw [List.getElem?_set_self hbl, hb]
      exact shiftPart_window _ _ _ _
    · unfold shiftH
      rw [List.getElem?_set_ne hne, hl]
      simp only
      rw [List.getElem?_set_self hbl]
      show (Except.ok (), List.set (h.set b _) b (.nums (shiftPart x s m (shiftPart (-x) s m l)))) = _
      rw [List.set_set, shiftPart_cancel]
      congr 1
      refine List.ext_getElem? fun i => ?_
      by_cases e : b = i
      · subst e; rw [List.getElem?_set_self hbl, hb]
      · rw [List.getElem?_set_ne e]

theorem findH_spec {α : Type} (fits : Bool) (tMerger : K) (search : List K → Py α) {h : Heap K C} (w : WF h) {r : ℕ}
    (hr : IsArr h r) :
    (∀ a, search (searchTimes fits tMerger (readR h r)) = .ok a → findH fits tMerger r search h = (.ok a, h)) ∧
    (∀ e, search (searchTimes fits tMerger (readR h r)) = .error e →
      findH fits tMerger r search h = (.error e, if fits then (shiftH (-tMerger) r h).2 else h)) := by
  unfold findH searchTimes
  cases fits with
  | false =>
    simp only [Bool.false_eq_true, if_false]
    constructor
    · intro a ha; rw [HM.read_bind, HM.lift_apply, ha]
    · intro a ha; rw [HM.read_bind, HM.lift_apply, ha]
  | true =>
    simp only [if_true]
    obtain ⟨h1, e1, r1, e2⟩ := shiftH_spec tMerger w hr
    constructor
    · intro a ha
      rw [← r1] at ha
      rw [HM.bind_ok e1, HM.read_bind, HM.lift_bind_ok ha, HM.bind_ok e2]; rfl
    · intro a ha
      rw [← r1] at ha
      rw [HM.bind_ok e1, HM.read_bind, HM.lift_bind_error ha, e1]

variable [FloorRing K]

/-- The measurement, step by step. -/
theorem measureH_spec {α β : Type} (lib : WaveLib K C) (fits : Bool) (precessing : Flag) (frame : String)
    (numOrbits : Option K) (rest : Rest K C α β) (root : ℕ) {h : Heap K C} (w : WF h) (hcell : ∃ d, h[root]? = some (.top d))
    (hown : mustTransform precessing frame = false → numOrbits ≠ none → OwnOmega h root) :
    ∃ h1, WF h1 ∧ Keep (Written precessing frame numOrbits root h) h h1 ∧
      match constructV lib precessing frame numOrbits rest (readV h root) with
      | .error e => measureH lib fits precessing frame numOrbits rest root h = (.error e, h1)
      | .ok x => ∃ (rt : ℕ) (t : List K), IsArr h1 rt ∧ getArr x.1 "t" = .ok t ∧ readR h1 rt = segTimes x.2.2 t ∧
        (mustTransform precessing frame = false → numOrbits = none → x.2.2 = none → (topDict h root).get? "t" = some rt) ∧
        (match searchV fits rest x with
        | .error e => measureH lib fits precessing frame numOrbits rest root h =
            (.error e, if fits then (shiftH (-x.2.1.tMerger) rt h1).2 else h1)
        | .ok pa => measureH lib fits precessing frame numOrbits rest root h = (rest.final x.1 x.2.1 pa.1 pa.2, h1)) := by
  obtain ⟨h0, w0, k0, hp⟩ := processDataH_sim lib precessing frame numOrbits root w hcell hown
  unfold constructV
  cases hv : processData lib precessing frame (readV h root) numOrbits with
  | error e =>
    rw [hv] at hp
    refine ⟨h0, w0, k0, ?_⟩
    show measureH lib fits precessing frame numOrbits rest root h = (.error e, h0)
    unfold measureH
    exact HM.bind_error hp
  | ok y =>
    obtain ⟨nd, an⟩ := y
    rw [hv] at hp
    obtain ⟨⟨d, an'⟩, e0, hd, han, rt, hrt, harr, htop⟩ := hp
    cases han
    rw [ok_bind]
    simp only
    cases hi : rest.init nd an with
    | error e =>
      refine ⟨h0, w0, k0, ?_⟩
      show measureH lib fits precessing frame numOrbits rest root h = (.error e, h0)
      unfold measureH
      rw [HM.bind_ok e0]
      show (HM.read _ >>= _) h0 = _
      rw [HM.read_bind]
      simp only [hd.val]
      exact HM.lift_bind_error hi _ _
    | ok seg =>
      -- the time array used
      obtain ⟨h1, rt1, w1, k1, hseg, harr1, hread, hsame⟩ : ∃ (h1 : Heap K C) (rt1 : ℕ), WF h1 ∧ Keep ∅ h0 h1 ∧
          (match seg with
            | none => (pure rt : HM K C Ref)
            | some (s, n) => sliceOf s n rt) h0 = (.ok rt1, h1) ∧ IsArr h1 rt1 ∧
          readR h1 rt1 = segTimes seg (readR h0 rt) ∧ (seg = none → rt1 = rt) := by
        cases seg with
        | none => exact ⟨h0, rt, w0, Keep.refl _ _, rfl, harr, rfl, fun _ => rfl⟩
        | some sn =>
          obtain ⟨s, n⟩ := sn
          obtain ⟨c, e, wc, ic, rc⟩ := sliceOf_sim s n w0 harr
          exact ⟨_, _, wc, Keep.append _ _, e, ic, rc, fun h => by cases h⟩
      have hgt : getArr nd "t" = .ok (readR h0 rt) := by
        apply getArr_of
        have hdv : readTop h0 d = nd := hd.val
        rw [← hdv, readTop_get?, hrt]
        unfold readEntry readR
        rcases harr with ⟨l, hl⟩ | ⟨b, s, m, hl⟩ <;> (rw [Option.map_some, hl])
      refine ⟨h1, w1, k0.trans (k1.mono (by simp)), ?_⟩
      rw [ok_bind]
      show ∃ (rt' : ℕ) (t : List K), _
      refine ⟨rt1, readR h0 rt, harr1, hgt, hread, fun hm hn hs => by rw [hsame hs]; exact htop hm hn, ?_⟩
      have hstart : measureH lib fits precessing frame numOrbits rest root h = (do
          let p ← findH fits an.tMerger rt1 (rest.search nd an .pericenters)
          let a ← (match rest.midpoints with
            | some f => pure (f p)
            | none => findH fits an.tMerger rt1 (rest.search nd an .apocenters))
          HM.lift (rest.final nd an p a) : HM K C β) h1 := by
        unfold measureH
        rw [HM.bind_ok e0]
        show (HM.read _ >>= _) h0 = _
        rw [HM.read_bind]
        simp only [hd.val]
        rw [HM.lift_bind_ok hi, HM.lift_bind_ok (getItem_of hrt)]
        exact HM.bind_ok hseg
      rw [hstart]
      obtain ⟨fo, fe⟩ := findH_spec fits an.tMerger (rest.search nd an .pericenters) w1 harr1
      obtain ⟨go, ge⟩ := findH_spec fits an.tMerger (rest.search nd an .apocenters) w1 harr1
      unfold searchV
      simp only [hgt]
      rw [ok_bind, ← hread]
      cases hsp : rest.search nd an .pericenters (searchTimes fits an.tMerger (readR h1 rt1)) with
      | error e =>
        show _ = _
        rw [HM.bind_error (fe e hsp)]
      | ok p =>
        rw [ok_bind, HM.bind_ok (fo p hsp)]
        cases hmid : rest.midpoints with
        | some f => rfl
        | none =>
          simp only
          cases hsa : rest.search nd an .apocenters (searchTimes fits an.tMerger (readR h1 rt1)) with
          | error e =>
            show _ = _
            rw [HM.bind_error (ge e hsa)]
          | ok a =>
            show _ = _
            rw [HM.bind_ok (go a hsa)]; rfl

end GwEcc
