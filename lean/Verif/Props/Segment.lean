import Verif.Lemmas.Segment
import Verif.Props.DataDict

/-!
# C36, C37: using only some orbits, residual data

C36: with `use_only_these_many_orbits` the data used are a contiguous piece of the waveform, all arrays cut identically;
for increasing phase and ordered references every reference is inside the piece or at its edge and half of the requested
orbits on each side are included when available.
C37: the residual amplitude and frequency are taken after aligning the mergers.
-/

set_option linter.unusedSectionVars false

namespace GwEcc

open Spec

section
variable {K : Type} [Field K] [LinearOrder K] [IsStrictOrderedRing K] [FloorRing K]

/-- Whatever is requested, the data used are samples `s, ..., e-1` of the given waveform, the same for times, amplitude,
phase and frequency. -/
theorem C36_contiguous (pi : K) (fit : List K → List K → Py (List K)) (orbits : Option K) (domain : Domain) (refs : List K)
    (w w' : Wave K) (hw : SameLength w) (h : selectWave pi fit orbits domain refs w = .ok w') :
    ∃ s e, IsPiece w w' s e := by
  obtain ⟨h1, h2, h3⟩ := hw
  have hall : IsPiece w w 0 w.t.length := by
    refine ⟨le_refl _, ?_, ?_, ?_, ?_⟩ <;> intro k <;> rw [Nat.zero_add] <;> split <;> first
      | rfl
      | (apply List.getElem?_eq_none; omega)
  unfold selectWave at h
  split at h
  · cases h; exact ⟨0, _, hall⟩
  split at h
  · cases h; exact ⟨0, _, hall⟩
  obtain ⟨pN, _, h⟩ := bind_ok h
  obtain ⟨p0, _, h⟩ := bind_ok h
  split at h
  · unfold useSegment at h
    obtain ⟨⟨tl, tr⟩, _, h⟩ := bind_ok h
    obtain ⟨pl, _, h⟩ := bind_ok h
    obtain ⟨pr, _, h⟩ := bind_ok h
    obtain ⟨⟨s, e⟩, _, h⟩ := bind_ok h
    cases h
    refine ⟨pyBound w.t.length s, pyBound w.t.length e, pyBound_le _ _, ?_, ?_, ?_, ?_⟩ <;> intro k
    · exact slice_getElem? _ rfl rfl rfl k
    · exact slice_getElem? _ h1 rfl rfl k
    · exact slice_getElem? _ h2 rfl rfl k
    · exact slice_getElem? _ h3 rfl rfl k
  · cases h; exact ⟨0, _, hall⟩

/-- The whole waveform is used when no number of orbits is given, when it is zero, and when the waveform is shorter. -/
theorem C36_whole (pi : K) (fit : List K → List K → Py (List K)) (orbits : Option K) (domain : Domain) (refs : List K)
    (w : Wave K) (p0 pN : K) (h0 : w.phase[0]? = some p0) (hN : w.phase[w.phase.length - 1]? = some pN)
    (h : orbits = none ∨ orbits = some 0 ∨ ∃ n, orbits = some n ∧ (pN - p0) / (4 * pi) < n) :
    selectWave pi fit orbits domain refs w = .ok w := by
  unfold selectWave
  rcases h with rfl | rfl | ⟨n, rfl, hlt⟩
  · rfl
  · simp
  · dsimp only
    split
    · rfl
    · have e1 : pyLast w.phase = .ok pN := by unfold pyLast; rw [List.getLast?_eq_getElem?, hN]
      have e2 : pyGet w.phase 0 = .ok p0 := by unfold pyGet; rw [h0]
      rw [e1, e2, ok_bind, ok_bind, if_neg (not_le.mpr hlt)]

/-- The guarantees for a piece chosen between two times. -/
def Spec.Covers (pi n : K) (w w' : Wave K) (tl tr : K) : Prop :=
  ∃ s e, IsPiece w w' s e ∧
    -- references between the two times are in the piece or are the very last sample of the waveform
    (∀ x i, tl ≤ x → x ≤ tr → NearestSample w.t x i → s ≤ i ∧ (i < e ∨ i + 1 = w.t.length)) ∧
    -- so is every sample less than half the requested orbits away from them
    (∀ pl pr, PhaseAt w tl pl → PhaseAt w tr pr → ∀ (i : ℕ) (p : K), w.phase[i]? = some p →
      pl - n / 2 * orbit pi ≤ p → p < pr + n / 2 * orbit pi → s ≤ i ∧ (i < e ∨ i + 1 = w.t.length)) ∧
    -- the requested orbits lie between the samples just outside the piece, unless all but the last sample is used
    ((s = 0 ∧ e + 1 = w.t.length) ∨
      ∃ a b, w.phase[s - 1]? = some a ∧ w.phase[e]? = some b ∧ n * orbit pi ≤ b - a)

theorem useSegment_covers {pi n : K} (hpi : 0 < pi) (hn : 0 < n) {fit : List K → List K → Py (List K)} {domain : Domain}
    {refs : List K} {w w' : Wave K} (hw : SameLength w) (ht : w.t.Pairwise (· ≤ ·)) (hph : w.phase.Pairwise (· ≤ ·))
    {tl tr : K} (hb : referenceBounds pi fit w domain refs = .ok (tl, tr)) (hle : tl ≤ tr)
    (h : useSegment pi fit n domain refs w = .ok w') : Covers pi n w w' tl tr := by
  obtain ⟨h1, h2, h3⟩ := hw
  unfold useSegment at h
  rw [hb, ok_bind] at h
  dsimp only at h
  obtain ⟨pl, el, h⟩ := bind_ok h
  obtain ⟨pr, er, h⟩ := bind_ok h
  obtain ⟨⟨s, e⟩, hse, h⟩ := bind_ok h
  cases h
  obtain ⟨il, nl, hil⟩ := phaseNear_ok el
  obtain ⟨ir, nr, hir⟩ := phaseNear_ok er
  have hlr : il ≤ ir := NearestSample.mono ht hle nl nr
  have hple : pl ≤ pr := mono_getElem? hph hil hir hlr
  obtain ⟨hs, stop, hstop, hlt, hA, hB, hC⟩ := segmentIndices_spec hpi hn.le hph hil hir hple hse
  have hF : 0 < n / 2 * orbit pi := by unfold orbit; positivity
  rw [h2] at hs hstop hlt hB hC
  refine ⟨s, stop, ⟨hlt.le, ?_, ?_, ?_, ?_⟩, ?_, ?_, hC⟩
  · exact fun k => slice_getElem? _ rfl hs hstop k
  · exact fun k => slice_getElem? _ h1 hs hstop k
  · exact fun k => slice_getElem? _ h2 hs hstop k
  · exact fun k => slice_getElem? _ h3 hs hstop k
  · intro x i hx1 hx2 hx
    have hi1 : il ≤ i := NearestSample.mono ht hx1 nl hx
    have hi2 : i ≤ ir := NearestSample.mono ht hx2 hx nr
    have hsil := hA il pl hil (by linarith)
    refine ⟨by omega, ?_⟩
    have hi : i < w.t.length := hx.1
    have := mono_getElem? hph (List.getElem?_eq_getElem (by omega)) hir hi2
    exact hB i w.phase[i] (List.getElem?_eq_getElem _) (by linarith)
  · intro pl' pr' ⟨i1, q1, q2⟩ ⟨i2, q3, q4⟩ i p hp g1 g2
    have := Spec.NearestSample.unique q1 nl
    have := Spec.NearestSample.unique q3 nr
    subst i1 i2
    rw [hil] at q2
    rw [hir] at q4
    cases q2; cases q4
    exact ⟨hA i p hp g1, hB i p hp g2⟩

/-- A piece for times `tl, ..., tr` was chosen or the whole waveform is used. -/
theorem selectWave_covers {pi n : K} (hpi : 0 < pi) (hn : 0 < n) {fit : List K → List K → Py (List K)} {domain : Domain}
    {refs : List K} {w w' : Wave K} (hw : SameLength w) (ht : w.t.Pairwise (· ≤ ·)) (hph : w.phase.Pairwise (· ≤ ·))
    (hle : ∀ tl tr, referenceBounds pi fit w domain refs = .ok (tl, tr) → tl ≤ tr)
    (h : selectWave pi fit (some n) domain refs w = .ok w') :
    w' = w ∨ ∃ tl tr, referenceBounds pi fit w domain refs = .ok (tl, tr) ∧ Covers pi n w w' tl tr := by
  unfold selectWave at h
  dsimp only at h
  rw [if_neg hn.ne'] at h
  obtain ⟨pN, _, h⟩ := bind_ok h
  obtain ⟨p0, _, h⟩ := bind_ok h
  split at h
  · right
    cases hb : referenceBounds pi fit w domain refs with
    | error e => unfold useSegment at h; rw [hb] at h; cases h
    | ok b =>
      obtain ⟨tl, tr⟩ := b
      exact ⟨tl, tr, rfl, useSegment_covers hpi hn hw ht hph hb (hle tl tr hb) h⟩
  · cases h; exact Or.inl rfl

/-- Reference times in increasing order: all of them are covered by the piece. -/
theorem C36_times_partial (pi n : K) (hpi : 0 < pi) (hn : 0 < n) (fit : List K → List K → Py (List K)) (refs : List K)
    (hrefs : refs.Pairwise (· ≤ ·)) (w w' : Wave K) (hw : SameLength w) (ht : w.t.Pairwise (· ≤ ·))
    (hph : w.phase.Pairwise (· ≤ ·)) (h : selectWave pi fit (some n) .time refs w = .ok w') :
    w' = w ∨ ∃ tl tr, (∀ x ∈ refs, tl ≤ x ∧ x ≤ tr) ∧ tl ∈ refs ∧ tr ∈ refs ∧ Covers pi n w w' tl tr := by
  have key : ∀ tl tr, referenceBounds pi fit w .time refs = .ok (tl, tr) →
      (∀ x ∈ refs, tl ≤ x ∧ x ≤ tr) ∧ tl ∈ refs ∧ tr ∈ refs := by
    intro tl tr hb
    unfold referenceBounds at hb
    obtain ⟨a, e1, hb⟩ := bind_ok hb
    obtain ⟨b, e2, hb⟩ := bind_ok hb
    obtain ⟨rfl, rfl⟩ := Prod.mk.inj (Except.ok.inj hb)
    have e1 := pyGet_getElem? e1
    obtain ⟨_, e2⟩ := pyLast_ok' e2
    refine ⟨fun x hx => ?_, List.mem_of_getElem? e1, List.mem_of_getElem? e2⟩
    obtain ⟨k, hk, rfl⟩ := List.getElem_of_mem hx
    exact ⟨mono_getElem? hrefs e1 (List.getElem?_eq_getElem hk) (Nat.zero_le _),
      mono_getElem? hrefs (List.getElem?_eq_getElem hk) e2 (by omega)⟩
  rcases selectWave_covers hpi hn hw ht hph (fun tl tr hb => ((key tl tr hb).1 tr (key tl tr hb).2.2).1) h with q | ⟨tl, tr, hb, hc⟩
  · exact Or.inl q
  · exact Or.inr ⟨tl, tr, (key tl tr hb).1, (key tl tr hb).2.1, (key tl tr hb).2.2, hc⟩

/-- The time estimated for a reference frequency is one of the samples of the waveform. -/
theorem C36_estimate (pi : K) (fit : List K → List K → Py (List K)) (w : Wave K) (fref x : K)
    (h : approxTref pi fit w fref = .ok x) : x ∈ w.t := by
  have hevery : ∀ (step : ℕ) (l : List K), ∀ y ∈ everyNth step l, y ∈ l := by
    intro step l y hy
    unfold everyNth at hy
    obtain ⟨i, _, hi⟩ := List.mem_filterMap.mp hy
    split at hi
    · exact List.mem_of_getElem? hi
    · cases hi
  have hslice : ∀ (a b : ℤ), ∀ y ∈ pySlice w.t a b, y ∈ w.t := fun a b y hy =>
    List.mem_of_mem_take (List.mem_of_mem_drop hy)
  have hget : ∀ (l : List K) (i : ℕ), pyGet l i = .ok x → x ∈ l := fun l i hl => List.mem_of_getElem? (pyGet_getElem? hl)
  unfold approxTref at h
  obtain ⟨⟨left, right⟩, _, h⟩ := bind_ok h
  obtain ⟨pl, _, h⟩ := bind_ok h
  obtain ⟨pr, _, h⟩ := bind_ok h
  dsimp only at h
  obtain ⟨trend, _, h⟩ := bind_ok h
  obtain ⟨idx, _, h⟩ := bind_ok h
  have hm := hget _ _ h
  have hif : ∀ (c : Prop) [Decidable c] (a b : List K × List K), x ∈ (if c then a else b).1 → x ∈ a.1 ∨ x ∈ b.1 := by
    intro c _ a b hx
    split at hx
    · exact Or.inl hx
    · exact Or.inr hx
  rcases hif _ _ _ hm with q | q
  · exact hslice _ _ _ (hevery _ _ _ q)
  · exact hslice _ _ _ q

/-- Reference frequencies whose estimated times are in order: the piece covers all times between the estimates. -/
theorem C36_frequencies_partial (pi n : K) (hpi : 0 < pi) (hn : 0 < n) (fit : List K → List K → Py (List K)) (refs : List K)
    (w w' : Wave K) (hw : SameLength w) (ht : w.t.Pairwise (· ≤ ·)) (hph : w.phase.Pairwise (· ≤ ·))
    (hrefs : ∀ f g a b, refs.head? = some f → refs.getLast? = some g → approxTref pi fit w f = .ok a →
      approxTref pi fit w g = .ok b → a ≤ b)
    (h : selectWave pi fit (some n) .frequency refs w = .ok w') :
    w' = w ∨ ∃ f g tl tr, refs.head? = some f ∧ refs.getLast? = some g ∧ approxTref pi fit w f = .ok tl ∧
      approxTref pi fit w g = .ok tr ∧ Covers pi n w w' tl tr := by
  have key : ∀ tl tr, referenceBounds pi fit w .frequency refs = .ok (tl, tr) →
      ∃ f g, refs.head? = some f ∧ refs.getLast? = some g ∧ approxTref pi fit w f = .ok tl ∧
        approxTref pi fit w g = .ok tr := by
    intro tl tr hb
    unfold referenceBounds at hb
    obtain ⟨a, e1, hb⟩ := bind_ok hb
    obtain ⟨t1, e2, hb⟩ := bind_ok hb
    have e1 := pyGet_getElem? e1
    rw [← List.head?_eq_getElem?] at e1
    split at hb
    · obtain ⟨b, e3, hb⟩ := bind_ok hb
      obtain ⟨t2, e4, hb⟩ := bind_ok hb
      obtain ⟨rfl, rfl⟩ := Prod.mk.inj (Except.ok.inj hb)
      obtain ⟨_, e3⟩ := pyLast_ok' e3
      exact ⟨a, b, e1, by rw [List.getLast?_eq_getElem?]; exact e3, e2, e4⟩
    · rename_i hlen
      obtain ⟨rfl, rfl⟩ := Prod.mk.inj (Except.ok.inj hb)
      refine ⟨a, a, e1, ?_, e2, e2⟩
      match refs, e1, hlen with
      | [x], e1, _ => simpa using e1
      | _ :: _ :: _, _, hlen => simp at hlen
  have hle : ∀ tl tr, referenceBounds pi fit w .frequency refs = .ok (tl, tr) → tl ≤ tr := by
    intro tl tr hb
    obtain ⟨f, g, q⟩ := key tl tr hb
    exact hrefs f g tl tr q.1 q.2.1 q.2.2.1 q.2.2.2
  rcases selectWave_covers hpi hn hw ht hph hle h with q | ⟨tl, tr, hb, hc⟩
  · exact Or.inl q
  · obtain ⟨f, g, q⟩ := key tl tr hb
    exact Or.inr ⟨f, g, tl, tr, q.1, q.2.1, q.2.2.1, q.2.2.2, hc⟩

end

/-! ### Cases -/

namespace SegmentDemo

/-- Twenty samples; with this `pi` one orbit is one unit of phase. -/
def wave : Wave ℚ :=
  ⟨(List.range 20).map (fun i : ℕ => (i : ℚ)), (List.range 20).map (fun i : ℕ => (i : ℚ) + 1),
    (List.range 20).map (fun i : ℕ => (i : ℚ)), (List.range 20).map (fun i : ℕ => (i : ℚ) / 10 + 1)⟩

/-- see `wave` -/
def pi : ℚ := 5 / 22

/-- A trend through the data. -/
def trend : List ℚ → List ℚ → Py (List ℚ) := fun _ omega => .ok omega

example : 0 < pi ∧ orbit pi = 1 ∧ SameLength wave ∧ wave.t.Pairwise (· ≤ ·) ∧ wave.phase.Pairwise (· ≤ ·) ∧
    ([9, 10] : List ℚ).Pairwise (· ≤ ·) ∧
    (selectWave pi trend (some 4) .time [9, 10] wave).map (·.t) = .ok [6, 7, 8, 9, 10, 11] := by
  refine ⟨by decide +kernel, by decide +kernel, by unfold SameLength; decide +kernel, by decide +kernel, by decide +kernel,
    by decide +kernel, by decide +kernel⟩

/-- close to the beginning: the missing orbits are added at the end -/
example : (selectWave pi trend (some 4) .time [1] wave).map (·.t) = .ok [0, 1, 2, 3] := by decide +kernel

/-- close to the end: the missing orbits are added at the beginning; the last sample is lost -/
example : (selectWave pi trend (some 4) .time [18] wave).map (·.t) = .ok [15, 16, 17, 18] := by decide +kernel

/-- more orbits than there are -/
example : selectWave pi trend (some 30) .time [18] wave = .ok wave := by decide +kernel

example : approxTref pi trend wave (2 / (2 * pi)) = .ok 10 ∧
    (selectWave pi trend (some 4) .frequency [2 / (2 * pi)] wave).map (·.t) = .ok [7, 8, 9, 10, 11] := by
  decide +kernel

end SegmentDemo

open SegmentDemo in
/-- References that are not in increasing order are not all covered, although the documentation speaks of the earliest and
the latest reference: of the reference times 10, 18, 10 the second lies outside the data used. -/
theorem C36_unsorted_violation : ∃ (w w' : Wave ℚ) (refs : List ℚ), SameLength w ∧ w.t.Pairwise (· < ·) ∧
    w.phase.Pairwise (· < ·) ∧ (∀ x ∈ refs, x ∈ w.t) ∧ selectWave SegmentDemo.pi trend (some 4) .time refs w = .ok w' ∧
    ∃ x ∈ refs, ∀ y ∈ w'.t, y < x := by
  refine ⟨wave, ⟨[7, 8, 9, 10, 11], [8, 9, 10, 11, 12], [7, 8, 9, 10, 11], [17/10, 18/10, 19/10, 2, 21/10]⟩, [10, 18, 10],
    by unfold SameLength; decide +kernel, by decide +kernel, by decide +kernel, by decide +kernel, by decide +kernel, 18, ?_⟩
  decide +kernel

open SegmentDemo in
/-- The last sample of the waveform is lost when there are too few orbits after the reference, even if it is itself the
reference. -/
theorem C36_last_sample_violation : ∃ (w w' : Wave ℚ) (x : ℚ), SameLength w ∧ w.t.Pairwise (· < ·) ∧
    w.phase.Pairwise (· < ·) ∧ x ∈ w.t ∧ selectWave SegmentDemo.pi trend (some 4) .time [x] w = .ok w' ∧ x ∉ w'.t := by
  refine ⟨wave, ⟨[15, 16, 17, 18], [16, 17, 18, 19], [15, 16, 17, 18], [25/10, 26/10, 27/10, 28/10]⟩, 19,
    by unfold SameLength; decide +kernel, by decide +kernel, by decide +kernel, by decide +kernel, by decide +kernel, ?_⟩
  decide +kernel

end GwEcc
