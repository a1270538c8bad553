import Verif.Lemmas.FindPeaksWidth

/-!
# Which maxima are peaks (C111, C113)

What `scipy.signal.find_peaks` reports. More about these claims is in `Props/FindPeaks`.

Cases that meet the premises of the theorems are in `Props/FindPeaks`.
-/

set_option linter.unusedSectionVars false

namespace GwEcc

open Spec

section
variable {K : Type} [Field K] [LinearOrder K] [IsStrictOrderedRing K] [FloorRing K]

/-! ### C111: peaks are maxima -/

/-- Whatever the options: the peaks are maxima of the data, in increasing order, and no two of them are neighbours. -/
theorem C111_maxima {argsort : List K → List ℕ} {kw : String → Option (Leaf K)} {x : List K} {peaks : List ℕ}
    (h : findPeaks argsort kw x = .ok peaks) :
    (∀ i ∈ peaks, IsMaximum x i) ∧ peaks.Pairwise fun i j => i + 1 < j :=
  ⟨fun i hi => (mem_middles x i).mp ((findPeaks_sublist h).subset hi), (middles_sorted x).sublist (findPeaks_sublist h)⟩

/-! ### C113: which maxima are reported -/

/-- Without a distance, and with scipy's default for how far down widths are taken: exactly the maxima that meet the
conditions on height, threshold (differences to the neighbouring samples), prominence and width are reported. -/
theorem C113_conditions (argsort : List K → List ℕ) (height threshold prominence width : Cond K) (x : List K) :
    ∃ peaks, findPeaksWith argsort ⟨height, threshold, none, prominence, width, none, 1 / 2, .any⟩ x = .ok peaks ∧
      ∀ i, i ∈ peaks ↔ IsMaximum x i ∧ height.holds (x.getD i 0) = true ∧
        threshold.holdsBoth (x.getD i 0 - x.getD (i - 1) 0) (x.getD i 0 - x.getD (i + 1) 0) = true ∧
        (∃ v, HasProminence x i v ∧ prominence.holds v = true) ∧ ∃ v, HasWidth x i v ∧ width.holds v = true := by
  have prom : ∀ i, IsMaximum x i → HasProminence x i (GwEcc.prominence x none i) := fun i hi =>
    ⟨_, _, (leftBase_spec (by have := hi.lt_length; omega)).1, (rightBase_spec (by have := hi.lt_length; omega)).1, rfl⟩
  have prom' : ∀ i v, IsMaximum x i → HasProminence x i v → v = GwEcc.prominence x none i := by
    rintro i v hi ⟨l, r, h1, h2, rfl⟩
    obtain ⟨l', r', h1', h2', e⟩ := prom i hi
    rw [e, h1.unique h1', h2.unique h2']
  have hcand : ∀ i, i ∈ candidates ⟨height, threshold, none, prominence, width, none, 1 / 2, .any⟩ x ↔ IsMaximum x i ∧
      height.holds (x.getD i 0) = true ∧
      threshold.holdsBoth (x.getD i 0 - x.getD (i - 1) 0) (x.getD i 0 - x.getD (i + 1) 0) = true := by
    intro i
    unfold candidates
    simp only [Cond.holds, List.filter_true, List.mem_filter, mem_middles, and_assoc]
  have hcond : ∀ i, IsMaximum x i → (((∃ v, HasProminence x i v ∧ prominence.holds v = true) ∧
      ∃ v, HasWidth x i v ∧ width.holds v = true) ↔ prominence.holds (GwEcc.prominence x none i) = true ∧
        width.holds (GwEcc.width x none (1 / 2) i) = true) := by
    intro i hi
    refine and_congr ⟨?_, fun h => ⟨_, prom i hi, h⟩⟩ ⟨?_, fun h => ⟨_, width_hasWidth hi, h⟩⟩
    · rintro ⟨v, h1, h2⟩
      rwa [← prom' i v hi h1]
    · rintro ⟨v, h1, h2⟩
      rwa [(width_hasWidth hi).unique h1]
  unfold findPeaksWith
  simp only [Option.any_none, Bool.false_eq_true, if_false, spaced, Option.map_none]
  have hneg : ¬ ((1 : K) / 2 < 0) := by
    rw [not_lt]; positivity
  split
  · rw [if_neg (fun h => hneg h.2)]
    refine ⟨_, rfl, fun i => ?_⟩
    rw [List.mem_filter, List.mem_filter, hcand]
    constructor
    · rintro ⟨⟨⟨h1, h2, h3⟩, h4⟩, h5⟩
      exact ⟨h1, h2, h3, (hcond i h1).mpr ⟨h4, h5⟩⟩
    · rintro ⟨h1, h2, h3, h4⟩
      obtain ⟨h4, h5⟩ := (hcond i h1).mp h4
      exact ⟨⟨⟨h1, h2, h3⟩, h4⟩, h5⟩
  · rename_i hnone
    have h1 : prominence = .any := by cases prominence <;> simp_all [Cond.given]
    have h2 : width = .any := by cases width <;> simp_all [Cond.given]
    subst h1 h2
    refine ⟨_, rfl, fun i => ?_⟩
    rw [hcand]
    constructor
    · rintro ⟨a, b, c⟩
      exact ⟨a, b, c, (hcond i a).mpr ⟨rfl, rfl⟩⟩
    · rintro ⟨a, b, c, _⟩
      exact ⟨a, b, c⟩

/-- Whether options are rejected does not depend on the data. -/
theorem C113_rejected {argsort : List K → List ℕ} {kw : String → Option (Leaf K)} {x : List K} {err : Err}
    (h : findPeaks argsort kw x = .error err) (y : List K) : findPeaks argsort kw y = .error err := by
  unfold findPeaks at h ⊢
  cases ho : peakOptions kw with
  | error e =>
    rw [ho] at h
    exact h
  | ok o =>
    rw [ho, ok_bind] at h
    rw [ok_bind]
    unfold findPeaksWith at h ⊢
    by_cases h1 : o.distance.any (fun d => decide (d < 1)) = true
    · rwa [if_pos h1] at h ⊢
    · rw [if_neg h1] at h ⊢
      dsimp only at h ⊢
      by_cases h2 : (o.prominence.given || o.width.given) = true
      · rw [if_pos h2] at h ⊢
        by_cases h3 : o.wlen.any (fun w => decide (w ≤ 1)) = true
        · rwa [if_pos h3] at h ⊢
        · rw [if_neg h3] at h ⊢
          by_cases h4 : o.width.given = true ∧ o.relHeight < 0
          · rwa [if_pos h4] at h ⊢
          · rw [if_neg h4] at h
            cases h
      · rw [if_neg h2] at h
        cases h

theorem findPeaks_default (argsort : List K → List ℕ) (w : ℤ) (x : List K) :
    findPeaks argsort (peaksDefaults w).get? x
      = findPeaksWith argsort ⟨.any, .any, none, .any, .atLeast w, none, 1 / 2, .any⟩ x := rfl

/-- With the default options of the code: exactly the maxima that are at least as wide as the width asked for. -/
theorem C113_default (argsort : List K → List ℕ) (w : ℤ) (x : List K) :
    ∃ peaks, findPeaks argsort (peaksDefaults w).get? x = .ok peaks ∧
      ∀ i, i ∈ peaks ↔ IsMaximum x i ∧ ∃ v, HasWidth x i v ∧ (w : K) ≤ v := by
  obtain ⟨peaks, h1, h2⟩ := C113_conditions argsort .any .any .any (.atLeast (w : K)) x
  refine ⟨peaks, (findPeaks_default argsort w x).trans h1, fun i => ?_⟩
  rw [h2]
  constructor
  · rintro ⟨a, -, -, -, v, b, c⟩
    exact ⟨a, v, b, by simpa [Cond.holds] using c⟩
  · rintro ⟨a, v, b, c⟩
    have hi := a.lt_length
    exact ⟨a, rfl, rfl, ⟨_, ⟨_, _, (leftBase_spec (by omega)).1, (rightBase_spec (by omega)).1, rfl⟩, rfl⟩, v, b,
      by simpa [Cond.holds] using c⟩

/-- A width of zero or less asks for nothing: all maxima are reported. -/
theorem C113_no_width (argsort : List K → List ℕ) {w : ℤ} (hw : w ≤ 0) (x : List K) :
    ∃ peaks, findPeaks argsort (peaksDefaults w).get? x = .ok peaks ∧ ∀ i, i ∈ peaks ↔ IsMaximum x i := by
  obtain ⟨peaks, h1, h2⟩ := C113_default argsort w x
  refine ⟨peaks, h1, fun i => ?_⟩
  rw [h2]
  refine ⟨fun h => h.1, fun h => ⟨h, _, width_hasWidth h, ?_⟩⟩
  have h1 : (w : K) ≤ 0 := by exact_mod_cast hw
  exact h1.trans (width_hasWidth h).pos.le

/-- Asking for a larger width, no further peaks are reported. -/
theorem C113_wider {argsort : List K → List ℕ} {w w' : ℤ} (hw : w ≤ w') {x : List K} {peaks peaks' : List ℕ}
    (h : findPeaks argsort (peaksDefaults w).get? x = .ok peaks)
    (h' : findPeaks argsort (peaksDefaults w').get? x = .ok peaks') : ∀ i ∈ peaks', i ∈ peaks := by
  obtain ⟨l, g1, g2⟩ := C113_default argsort w x
  obtain ⟨l', g1', g2'⟩ := C113_default argsort w' x
  cases g1.symm.trans h
  cases g1'.symm.trans h'
  intro i
  rw [g2, g2']
  rintro ⟨h, v, h1, h2⟩
  have : (w : K) ≤ w' := by exact_mod_cast hw
  exact ⟨h, v, h1, this.trans h2⟩

end

end GwEcc
