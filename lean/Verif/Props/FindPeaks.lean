import Verif.Lemmas.FindPeaksUnits
import Verif.Lemmas.FindPeaksDistance
import Verif.Props.PeakConditions
import Verif.Spec.Rescale
import Verif.Props.WholeCall
import Verif.Spec.Fits
import Verif.Lemmas.Construct

/-!
# Peaks (C111, C112, C113, C114)

What the theorems elsewhere assume of the peak finder holds of `scipy.signal.find_peaks`, and what pericenters and apocenters
are when it is used.
-/

set_option linter.unusedSectionVars false

namespace GwEcc

open Spec

section
variable {K C : Type} [Field K] [LinearOrder K] [IsStrictOrderedRing K] [FloorRing K]

/-! ### C111: peaks are maxima (see also `PeakConditions`) -/

/-- What C89 assumes of the peak finder. -/
theorem C111_finder {lib : Libs K C} {argsort : List K → List ℕ} (h : lib.peaks = findPeaks argsort) : PeakFinder lib := by
  intro options d l hl
  rw [h] at hl
  obtain ⟨h1, h2⟩ := C111_maxima hl
  exact ⟨h2.imp fun h => by omega, fun i hi => by have := (h1 i hi).lt_length; omega⟩

theorem Spec.IsMaximum.neighbours {x : List K} {i : ℕ} (h : IsMaximum x i) :
    ∃ a b c, x[i - 1]? = some a ∧ x[i]? = some b ∧ x[i + 1]? = some c ∧ 0 < i ∧ a ≤ b ∧ c ≤ b := by
  obtain ⟨h0, h1⟩ := h.lt_length
  obtain ⟨l, r, ft, rfl⟩ := h
  have hm := ft.middle_mem
  have get : ∀ j, j < x.length → x[j]? = some (x.getD j 0) := by
    intro j hj
    rw [List.getElem?_eq_getElem hj, List.getD_eq_getElem _ _ hj]
  have e := ft.flat _ hm.1 hm.2
  refine ⟨_, _, _, get _ (by omega), get _ (by omega), get _ h1, h0, ?_, ?_⟩
  · rw [e]
    rcases Nat.lt_or_ge ((l + r) / 2 - 1) l with h | h
    · rw [show (l + r) / 2 - 1 = l - 1 by omega]; exact ft.before.le
    · rw [ft.flat _ h (by omega)]
  · rw [e]
    rcases Nat.lt_or_ge r ((l + r) / 2 + 1) with h | h
    · rw [show (l + r) / 2 + 1 = r + 1 by omega]; exact ft.after.le
    · rw [ft.flat _ (by omega) h]

/-- What C39 and its companions assume of the peak finder of the methods based on fits. -/
theorem C111_fits (argsort : List K → List ℕ) : FindsPeaks (scipyFitsPeaks argsort) ∧
    Separates (scipyFitsPeaks argsort) ∧ PeaksAreMaxima (scipyFitsPeaks argsort) := by
  refine ⟨fun data d p peaks h => ?_, fun data d p peaks h => ?_, fun data d p peaks h i hi => ?_⟩
  · obtain ⟨h1, h2⟩ := C111_maxima h
    exact ⟨h2.imp fun h => by omega, fun i hi => by have := (h1 i hi).lt_length; omega⟩
  · exact (C111_maxima h).2
  · exact ((C111_maxima h).1 i hi).neighbours

/-! ### Units -/

/-- The scale of the data does not matter unless heights, thresholds or prominences are prescribed (the assumption of C57 and
its companions). -/
theorem C111_units {argsort : List K → List ℕ} {r : K} (hr : 0 < r) (ha : ∀ l, argsort (l.map (r * ·)) = argsort l)
    (kw : String → Option (Leaf K)) (hkw : NoHeights kw) (x : List K) :
    findPeaks argsort kw (x.map (r * ·)) = findPeaks argsort kw x := by
  have h1 := hkw "height" (by simp)
  have h2 := hkw "threshold" (by simp)
  have h3 := hkw "prominence" (by simp)
  have e : findPeaks argsort kw (x.map (r * ·)) = findPeaks argsort kw x := by
    unfold findPeaks
    cases ho : peakOptions kw with
    | error e => rfl
    | ok o =>
      simp only [ok_bind]
      have hs : o.scale r = o := by
        unfold peakOptions at ho
        dsimp only at ho
        rw [h1, h2, h3] at ho
        obtain ⟨_, e1, ho⟩ := bind_ok ho
        obtain ⟨_, e2, ho⟩ := bind_ok ho
        obtain ⟨_, _, ho⟩ := bind_ok ho
        obtain ⟨_, e3, ho⟩ := bind_ok ho
        obtain ⟨_, _, ho⟩ := bind_ok ho
        obtain ⟨_, _, ho⟩ := bind_ok ho
        obtain ⟨_, _, ho⟩ := bind_ok ho
        obtain ⟨_, _, ho⟩ := bind_ok ho
        cases ho
        cases e1
        cases e2
        cases e3
        rfl
      rw [← hs, findPeaksWith_scale hr ha, hs]
  exact e

/-- The same for the methods based on fits, which prescribe a prominence in the unit of the data, and for the spin filter. -/
theorem C111_units_fits {argsort : List K → List ℕ} {r : K} (hr : 0 < r) (ha : ∀ l, argsort (l.map (r * ·)) = argsort l)
    (x : List K) (distance : ℤ) (prominence : K) :
    scipyFitsPeaks argsort (x.map (r * ·)) distance (r * prominence) = scipyFitsPeaks argsort x distance prominence ∧
      scipyFilterPeaks argsort (x.map (r * ·)) distance = scipyFilterPeaks argsort x distance :=
  ⟨findPeaksWith_scale hr ha ⟨.any, .any, some distance, .atLeast prominence, .any, none, 1 / 2, .any⟩ x,
    findPeaksWith_scale hr ha ⟨.any, .any, some distance, .any, .any, none, 1 / 2, .any⟩ x⟩

/-! ### Pericenters and apocenters -/

theorem getD_window (d : List K) (s n i : ℕ) (h : i < ((d.drop s).take n).length) :
    ((d.drop s).take n).getD i 0 = d.getD (s + i) 0 := by
  rw [List.length_take, List.length_drop] at h
  rw [List.getD_eq_getElem?_getD, List.getElem?_take_of_lt (by omega), List.getElem?_drop, List.getD_eq_getElem?_getD]

/-- A maximum of a stretch of the data is one of the data. -/
theorem Spec.IsMaximum.of_window {d : List K} {s n i : ℕ} (h : IsMaximum ((d.drop s).take n) i) : IsMaximum d (s + i) := by
  obtain ⟨l, r, ft, rfl⟩ := h
  have h1 := ft.pos
  have h2 := ft.le
  have h3 := ft.lt
  have hlen : s + (r + 1) < d.length := by
    rw [List.length_take, List.length_drop] at h3
    omega
  have hb := ft.before
  have ha := ft.after
  rw [getD_window d s n _ (by omega), getD_window d s n _ (by omega)] at hb ha
  refine ⟨s + l, s + r, ⟨by omega, by omega, by omega, fun j hj hj' => ?_, ?_, ?_⟩, by omega⟩
  · have := ft.flat (j - s) (by omega) (by omega)
    rwa [getD_window d s n _ (by omega), getD_window d s n _ (by omega), show s + (j - s) = j by omega] at this
  · rwa [show s + l - 1 = s + (l - 1) by omega]
  · exact ha

theorem peaksOf_maxima {lib : Libs K C} {argsort : List K → List ℕ} (h : lib.peaks = findPeaks argsort) {a : Call K C}
    {width : ℤ} {d : List K} {idx : List ℕ} (hp : PeaksOf lib a width d idx) : ∀ i ∈ idx, IsMaximum d i := by
  obtain ⟨options, s, n, reported, found, _, hr, hf, rfl⟩ := hp
  rw [h] at hr
  intro i hi
  obtain ⟨j, hj, rfl⟩ := List.mem_map.mp hi
  exact ((C111_maxima hr).1 j (hf.sublist.subset hj)).of_window

/-- With scipy's peak finder the samples that a call uses as pericenters are maxima of the caller's amplitude or frequency,
whatever the options, and those it uses as apocenters are minima. -/
theorem C111_apsides {lib : Libs K C} {argsort : List K → List ℕ} (h : lib.peaks = findPeaks argsort) {a : Call K C}
    {width : ℤ} {t A φ w : List K} {p q : List ℕ} {fP fA : K → Py K} (hA : Apsides lib a width t A φ w p q fP fA) :
    (a.method = "Amplitude" → ∀ i ∈ p, IsMaximum A i) ∧ (a.method = "Frequency" → ∀ i ∈ p, IsMaximum w i) ∧
      ((a.extra.getD []).get? "treat_mid_points_between_pericenters_as_apocenters" = none →
        (a.method = "Amplitude" → ∀ i ∈ q, IsMinimum A i) ∧ (a.method = "Frequency" → ∀ i ∈ q, IsMinimum w i)) :=
  ⟨fun h' => peaksOf_maxima h (hA.amplitude_peaks h'), fun h' => peaksOf_maxima h (hA.frequency_peaks h'), fun hm =>
    ⟨fun h' => peaksOf_maxima h (hA.amplitude_troughs h' hm), fun h' => peaksOf_maxima h (hA.frequency_troughs h' hm)⟩⟩

/-- A whole call with scipy's peak finder and the method "Amplitude": the pericenters between which mean anomalies are counted
are maxima of the amplitude given by the caller, and the apocenters are minima (unless mid points are asked for). -/
theorem C111_call {fuel : ℕ} {lib : Libs K C} {argsort : List K → List ℕ} {a : Call K C} {ans : Answer K C} {asked : Val K}
    (hscipy : lib.peaks = findPeaks argsort) (hrun : run fuel lib a = some (.ok ans)) (hpi : 0 < lib.wave.pi)
    (hpr : a.precessing = .isFalse) (hasked : a.trefIn = some asked) (hdict : ProperDicts a.dataDict)
    (harrays : ∀ t A φ w, Dominant lib.wave a.dataDict t A φ w → ProperArrays t A φ w) (hmethod : a.method = "Amplitude")
    (hzero : (a.extra.getD []).get? "return_zero_if_small_ecc_failure" = none) :
    ∃ t A φ w p q va vr, Dominant lib.wave a.dataDict t A φ w ∧ Positions t.length p ∧ Positions t.length q ∧
      (∀ i ∈ p, IsMaximum A i) ∧
      ((a.extra.getD []).get? "treat_mid_points_between_pericenters_as_apocenters" = none → ∀ i ∈ q, IsMinimum A i) ∧
      ans.ret.get? "mean_anomaly" = some va ∧ ans.ret.get? "tref_out" = some vr ∧ vr.atleast1d ≠ [] ∧
      List.Forall₂ (fun x l => IsMeanAnomaly lib.wave.pi (valuesAt t p) x l) vr.atleast1d va.atleast1d := by
  obtain ⟨t, A, φ, w, p, q, fP, fA, ve, va, vr, hA, _, g2, g3, _, _, _, hne, _, _, hl⟩ :=
    C89_times hrun hpi hpr hasked hdict harrays (C111_finder hscipy) (by rw [hmethod]; decide) hzero
  obtain ⟨m1, _, m3⟩ := C111_apsides hscipy hA
  exact ⟨t, A, φ, w, p, q, va, vr, hA.data, hA.pericenters, hA.apocenters, m1 hmethod, fun h => (m3 h).1 hmethod, g2, g3, hne,
    hl⟩

/-! ### C112: distance -/

/-- Only a distance is prescribed (the spin filter): peaks are at least that far apart, and every maximum that is not
reported is closer than that to one that is reported and at least as high. -/
theorem C112_filter {argsort : List K → List ℕ} (ha : IsArgsort argsort) (x : List K) (distance : ℤ) :
    (distance < 1 → scipyFilterPeaks argsort x distance = .error .valueError) ∧
    (1 ≤ distance → ∃ peaks, scipyFilterPeaks argsort x distance = .ok peaks ∧ (∀ i ∈ peaks, IsMaximum x i) ∧
      (peaks.Pairwise fun (p q : ℕ) => (p : ℤ) + distance ≤ q) ∧
      ∀ i, IsMaximum x i → i ∉ peaks → ∃ q ∈ peaks, |(i : ℤ) - q| < distance ∧ x.getD i 0 ≤ x.getD q 0) := by
  have hc : candidates ⟨.any, .any, some (distance : K), .any, .any, none, 1 / 2, .any⟩ x = (plateaus x).map middle := by
    unfold candidates
    simp [Cond.holds, Cond.holdsBoth]
  have e : scipyFilterPeaks argsort x distance
      = findPeaksWith argsort ⟨.any, .any, some (distance : K), .any, .any, none, 1 / 2, .any⟩ x := rfl
  rw [e]
  unfold findPeaksWith
  rw [hc]
  refine ⟨fun h => ?_, fun h => ?_⟩
  · rw [if_pos]
    have : (distance : K) < 1 := by exact_mod_cast h
    simpa using this
  · rw [if_neg (by
      have : (1 : K) ≤ distance := by exact_mod_cast h
      simpa using this)]
    have sorted := (middles_sorted x).imp (S := (· < ·)) fun h => by omega
    obtain ⟨h1, h2⟩ := spaced_spec ha (distance : K) x sorted
    refine ⟨_, rfl, fun i hi => (mem_middles x i).mp ((spaced_sublist _ _ _ _).subset hi),
      h1.imp fun h => by exact_mod_cast h, fun i hi hn => ?_⟩
    obtain ⟨q, hq, hc, hv⟩ := h2 i ((mem_middles x i).mpr hi) hn
    exact ⟨q, hq, by exact_mod_cast hc, hv⟩

/-- A distance and a prominence are prescribed (the methods based on fits): peaks are at least that far apart and stand out at
least that much; a maximum that is not reported does not stand out enough, or is closer than that to another one at least as
high. -/
theorem C112_fits {argsort : List K → List ℕ} (ha : IsArgsort argsort) (x : List K) (distance : ℤ) (prominence : K) :
    (distance < 1 → scipyFitsPeaks argsort x distance prominence = .error .valueError) ∧
    (1 ≤ distance → ∃ peaks, scipyFitsPeaks argsort x distance prominence = .ok peaks ∧
      (∀ i ∈ peaks, IsMaximum x i ∧ ∃ v, HasProminence x i v ∧ prominence ≤ v) ∧
      (peaks.Pairwise fun (p q : ℕ) => (p : ℤ) + distance ≤ q) ∧
      ∀ i, IsMaximum x i → i ∉ peaks → (∃ v, HasProminence x i v ∧ v < prominence) ∨
        ∃ q, IsMaximum x q ∧ q ≠ i ∧ |(i : ℤ) - q| < distance ∧ x.getD i 0 ≤ x.getD q 0) := by
  have hc : candidates ⟨.any, .any, some (distance : K), .atLeast prominence, .any, none, 1 / 2, .any⟩ x
      = (plateaus x).map middle := by
    unfold candidates
    simp [Cond.holds, Cond.holdsBoth]
  have e : scipyFitsPeaks argsort x distance prominence
      = findPeaksWith argsort ⟨.any, .any, some (distance : K), .atLeast prominence, .any, none, 1 / 2, .any⟩ x := rfl
  have prom : ∀ i, IsMaximum x i → HasProminence x i (GwEcc.prominence x none i) := fun i hi =>
    ⟨_, _, (leftBase_spec (by have := hi.lt_length; omega)).1, (rightBase_spec (by have := hi.lt_length; omega)).1, rfl⟩
  rw [e]
  unfold findPeaksWith
  rw [hc]
  refine ⟨fun h => ?_, fun h => ?_⟩
  · rw [if_pos]
    have : (distance : K) < 1 := by exact_mod_cast h
    simpa using this
  · rw [if_neg (by
      have : (1 : K) ≤ distance := by exact_mod_cast h
      simpa using this)]
    have sorted := (middles_sorted x).imp (S := (· < ·)) fun h => by omega
    obtain ⟨h1, h2⟩ := spaced_spec ha (distance : K) x sorted
    have hmax : ∀ i ∈ spaced argsort (some (distance : K)) x ((plateaus x).map middle), IsMaximum x i := fun i hi =>
      (mem_middles x i).mp ((spaced_sublist _ _ _ _).subset hi)
    simp only [Cond.given, Bool.or_false, if_true, Option.any_none, Bool.false_eq_true, if_false, false_and, Option.map_none,
      Cond.holds, List.filter_true]
    refine ⟨_, rfl, fun i hi => ?_, ?_, fun i hi hn => ?_⟩
    · obtain ⟨hi, hv⟩ := List.mem_filter.mp hi
      exact ⟨hmax i hi, _, prom i (hmax i hi), by simpa using hv⟩
    · exact (h1.sublist List.filter_sublist).imp fun h => by exact_mod_cast h
    · by_cases hs : i ∈ spaced argsort (some (distance : K)) x ((plateaus x).map middle)
      · left
        refine ⟨_, prom i hi, ?_⟩
        by_contra hlt
        exact hn (List.mem_filter.mpr ⟨hs, by simpa using hlt⟩)
      · right
        obtain ⟨q, hq, hc, hv⟩ := h2 i ((mem_middles x i).mpr hi) hs
        exact ⟨q, hmax q hq, fun e => hs (e ▸ hq), by exact_mod_cast hc, hv⟩

/-! ### C113: none is skipped -/

theorem mem_of_infix {l found : List ℕ} (hs : l.Pairwise (· < ·)) (hf : found <:+: l) {i j k : ℕ} (hj : j ∈ found)
    (hk : k ∈ found) (hi : i ∈ l) (h1 : j ≤ i) (h2 : i ≤ k) : i ∈ found := by
  obtain ⟨a, b, rfl⟩ := hf
  rw [List.pairwise_append, List.pairwise_append] at hs
  obtain ⟨⟨_, _, h3⟩, _, h4⟩ := hs
  rcases List.mem_append.mp hi with hi | hi
  · rcases List.mem_append.mp hi with hi | hi
    · exact absurd (h3 i hi j hj) (by omega)
    · exact hi
  · exact absurd (h4 k (List.mem_append_right _ hk) i hi) (by omega)

/-- The samples that the finder can see: a stretch of the data.  Every maximum in it that is wide enough and between the
positions `idx` is one of them. -/
def Spec.NoneSkipped (d : List K) (width : ℤ) (idx : List ℕ) : Prop :=
  ∃ s n, (∀ i ∈ idx, s ≤ i ∧ IsMaximum ((d.drop s).take n) (i - s)) ∧
    ∀ i v, IsMaximum ((d.drop s).take n) i → HasWidth ((d.drop s).take n) i v → (width : K) ≤ v →
      (∃ j ∈ idx, j ≤ s + i) → (∃ j ∈ idx, s + i ≤ j) → s + i ∈ idx

theorem peaksOf_noneSkipped {lib : Libs K C} {argsort : List K → List ℕ} (h : lib.peaks = findPeaks argsort) {a : Call K C}
    {width : ℤ} (hno : (a.extra.getD []).get? "extrema_finding_kwargs" = none) {d : List K} {idx : List ℕ}
    (hp : PeaksOf lib a width d idx) : NoneSkipped d width idx := by
  obtain ⟨options, s, n, reported, found, ⟨u, hu, ho⟩, hr, hf, rfl⟩ := hp
  have eu : u = some [] := by
    have e : inForce extraDefaults a.extra "extrema_finding_kwargs" = some (.dict []) := by
      rw [inForce_eq, hno]
      rfl
    unfold Suboptions at hu
    rw [e] at hu
    rcases hu with ⟨hu, _⟩ | ⟨d, hd, rfl⟩
    · cases hu
    · cases hd; rfl
  have eo : options = (peaksDefaults width).get? := by
    funext key
    rw [ho, eu]
    rfl
  subst eo
  rw [h] at hr
  obtain ⟨m1, m2⟩ := C111_maxima hr
  obtain ⟨l, g1, g2⟩ := C113_default argsort width ((d.drop s).take n)
  cases g1.symm.trans hr
  refine ⟨s, n, fun i hi => ?_, fun i v h1 h2 h3 h4 h5 => ?_⟩
  · obtain ⟨j, hj, rfl⟩ := List.mem_map.mp hi
    refine ⟨by omega, ?_⟩
    rw [Nat.add_sub_cancel_left]
    exact m1 j (hf.sublist.subset hj)
  · obtain ⟨j, hj, hj'⟩ := h4
    obtain ⟨k, hk, hk'⟩ := h5
    obtain ⟨j, hjm, rfl⟩ := List.mem_map.mp hj
    obtain ⟨k, hkm, rfl⟩ := List.mem_map.mp hk
    refine List.mem_map.mpr ⟨i, ?_, rfl⟩
    exact mem_of_infix (j := j) (k := k) (m2.imp fun h => by omega) hf hjm hkm ((g2 i).mpr ⟨h1, v, h2, h3⟩)
      (by omega) (by omega)

/-- With scipy's peak finder and the default options for finding extrema, no pericenter is skipped: every maximum of the
caller's amplitude or frequency, among the samples used, that is at least as wide as the width computed from the waveform
and lies between two pericenters used is one of the pericenters.  The same for apocenters and minima. -/
theorem C113_none_skipped {lib : Libs K C} {argsort : List K → List ℕ} (h : lib.peaks = findPeaks argsort) {a : Call K C}
    {width : ℤ} {t A φ w : List K} {p q : List ℕ} {fP fA : K → Py K}
    (hno : (a.extra.getD []).get? "extrema_finding_kwargs" = none) (hA : Apsides lib a width t A φ w p q fP fA) :
    (a.method = "Amplitude" → NoneSkipped A width p) ∧ (a.method = "Frequency" → NoneSkipped w width p) ∧
      ((a.extra.getD []).get? "treat_mid_points_between_pericenters_as_apocenters" = none →
        (a.method = "Amplitude" → NoneSkipped (A.map (-·)) width q) ∧
        (a.method = "Frequency" → NoneSkipped (w.map (-·)) width q)) :=
  ⟨fun h' => peaksOf_noneSkipped h hno (hA.amplitude_peaks h'), fun h' => peaksOf_noneSkipped h hno (hA.frequency_peaks h'),
    fun hm => ⟨fun h' => peaksOf_noneSkipped h hno (hA.amplitude_troughs h' hm),
      fun h' => peaksOf_noneSkipped h hno (hA.frequency_troughs h' hm)⟩⟩

/-! ### C114: do pericenters and apocenters alternate? -/

theorem getD_neg (x : List K) (i : ℕ) : (x.map (-·)).getD i 0 = -x.getD i 0 := by
  rw [List.getD_eq_getElem?_getD, List.getD_eq_getElem?_getD, List.getElem?_map]
  cases x[i]? <;> simp

theorem flatTops_apart {x : List K} {l r l' r' : ℕ} (h : FlatTop x l r) (h' : FlatTop x l' r')
    (hlt : (l + r) / 2 < (l' + r') / 2) : r + 1 < l' := by
  have hs := plateaus_sorted x
  obtain ⟨i, hi, ei⟩ := List.mem_iff_getElem.mp ((mem_plateaus x (l, r)).mpr h)
  obtain ⟨j, hj, ej⟩ := List.mem_iff_getElem.mp ((mem_plateaus x (l', r')).mpr h')
  rcases lt_trichotomy i j with hij | rfl | hij
  · have := List.pairwise_iff_getElem.mp hs i j hi hj hij
    rwa [ei, ej] at this
  · rw [ei] at ej
    cases ej
    omega
  · have := List.pairwise_iff_getElem.mp hs j i hj hi hij
    rw [ei, ej] at this
    have h1 := h.middle_mem
    have h2 := h'.middle_mem
    dsimp only at this
    omega

/-- Between two maxima there is a minimum. -/
theorem minimum_between {x : List K} {i j : ℕ} (hi : IsMaximum x i) (hj : IsMaximum x j) (hij : i < j) :
    ∃ k, i < k ∧ k < j ∧ IsMinimum x k := by
  obtain ⟨l, r, h, rfl⟩ := hi
  obtain ⟨l', r', h', rfl⟩ := hj
  have hap := flatTops_apart h h' hij
  have hm := h.middle_mem
  have hm' := h'.middle_mem
  have hlen := h'.lt
  classical
  obtain ⟨m, hmem, hmin⟩ := Finset.exists_min_image (Finset.Icc (r + 1) (l' - 1)) (fun k => x.getD k 0)
    ⟨r + 1, Finset.mem_Icc.mpr ⟨le_rfl, by omega⟩⟩
  rw [Finset.mem_Icc] at hmem
  have hmin : ∀ k, r + 1 ≤ k → k ≤ l' - 1 → x.getD m 0 ≤ x.getD k 0 := fun k h1 h2 => hmin k (Finset.mem_Icc.mpr ⟨h1, h2⟩)
  have hr : x.getD m 0 < x.getD r 0 := by
    rw [h.flat r h.le le_rfl]
    exact (hmin (r + 1) le_rfl (by omega)).trans_lt h.after
  have hl : x.getD m 0 < x.getD l' 0 := (hmin (l' - 1) (by omega) le_rfl).trans_lt h'.before
  -- the first sample with the smallest value
  have exa : ∃ a, r + 1 ≤ a ∧ a ≤ l' - 1 ∧ x.getD a 0 = x.getD m 0 := ⟨m, hmem.1, hmem.2, rfl⟩
  obtain ⟨a1, a2, a3⟩ := Nat.find_spec exa
  have a4 : ∀ k, k < Nat.find exa → ¬ (r + 1 ≤ k ∧ k ≤ l' - 1 ∧ x.getD k 0 = x.getD m 0) := fun k hk => Nat.find_min exa hk
  generalize Nat.find exa = a at a1 a2 a3 a4
  -- the last one of those next to it
  have exb : ∃ b, a ≤ b ∧ b ≤ l' - 1 ∧ x.getD (b + 1) 0 ≠ x.getD m 0 :=
    ⟨l' - 1, a2, le_rfl, by rw [show l' - 1 + 1 = l' by omega]; exact hl.ne'⟩
  obtain ⟨b1, b2, b3⟩ := Nat.find_spec exb
  have b4 : ∀ k, k < Nat.find exb → ¬ (a ≤ k ∧ k ≤ l' - 1 ∧ x.getD (k + 1) 0 ≠ x.getD m 0) := fun k hk => Nat.find_min exb hk
  generalize Nat.find exb = b at b1 b2 b3 b4
  have flat : ∀ k, a ≤ k → k ≤ b → x.getD k 0 = x.getD m 0 := by
    intro k h1 h2
    rcases Nat.eq_or_lt_of_le h1 with rfl | h1
    · exact a3
    · by_contra hne
      exact b4 (k - 1) (by omega) ⟨by omega, by omega, by rwa [show k - 1 + 1 = k by omega]⟩
  have top : FlatTop (x.map (-·)) a b := by
    refine ⟨by omega, b1, by rw [List.length_map]; omega, fun k h1 h2 => ?_, ?_, ?_⟩
    · rw [getD_neg, getD_neg, flat k h1 h2, a3]
    · rw [getD_neg, getD_neg, neg_lt_neg_iff, a3]
      rcases Nat.eq_or_lt_of_le a1 with rfl | h1
      · rw [Nat.add_sub_cancel]; exact hr
      · exact lt_of_le_of_ne (hmin _ (by omega) (by omega)) fun e => a4 (a - 1) (by omega) ⟨by omega, by omega, e.symm⟩
    · rw [getD_neg, getD_neg, neg_lt_neg_iff, a3]
      rcases Nat.eq_or_lt_of_le b2 with rfl | h1
      · rw [show l' - 1 + 1 = l' by omega]; exact hl
      · exact lt_of_le_of_ne (hmin _ (by omega) (by omega)) (Ne.symm b3)
  exact ⟨(a + b) / 2, by omega, by omega, a, b, top, rfl⟩

/-- Between two minima there is a maximum. -/
theorem maximum_between {x : List K} {i j : ℕ} (hi : IsMinimum x i) (hj : IsMinimum x j) (hij : i < j) :
    ∃ k, i < k ∧ k < j ∧ IsMaximum x k := by
  obtain ⟨k, h1, h2, h3⟩ := minimum_between hi hj hij
  refine ⟨k, h1, h2, ?_⟩
  have e : (x.map (-·)).map (-·) = x := by
    rw [List.map_map]
    exact (List.map_congr_left fun a _ => neg_neg a).trans (List.map_id x)
  unfold IsMinimum at h3
  rwa [e] at h3

/-- If no width is asked for, pericenters (peaks of the data) and apocenters (peaks of the data upside down) alternate.
Missing: with a width asked for, which is the default, they need not (`C114_need_not_alternate`). -/
theorem C114_alternate_partial {argsort : List K → List ℕ} {w : ℤ} (hw : w ≤ 0) {x : List K} {p q : List ℕ}
    (hp : findPeaks argsort (peaksDefaults w).get? x = .ok p)
    (hq : findPeaks argsort (peaksDefaults w).get? (x.map (-·)) = .ok q) {i j : ℕ} (hij : i < j) :
    (i ∈ p → j ∈ p → ∃ k ∈ q, i < k ∧ k < j) ∧ (i ∈ q → j ∈ q → ∃ k ∈ p, i < k ∧ k < j) := by
  obtain ⟨p', g1, g2⟩ := C113_no_width argsort hw x
  obtain ⟨q', g3, g4⟩ := C113_no_width argsort hw (x.map (-·))
  cases g1.symm.trans hp
  cases g3.symm.trans hq
  simp only [g2, g4]
  refine ⟨fun hi hj => ?_, fun hi hj => ?_⟩
  · obtain ⟨k, h1, h2, h3⟩ := minimum_between hi hj hij
    exact ⟨k, h3, h1, h2⟩
  · obtain ⟨k, h1, h2, h3⟩ := maximum_between hi hj hij
    exact ⟨k, h3, h1, h2⟩

end

/-! ### The premises are met -/

namespace PeaksDemo

/-- A sort: positions by insertion. -/
def insertBy (l : List ℚ) (i : ℕ) : List ℕ → List ℕ
  | [] => [i]
  | j :: js => if l.getD i 0 ≤ l.getD j 0 then i :: j :: js else j :: insertBy l i js

def argsort (l : List ℚ) : List ℕ := (List.range l.length).foldr (insertBy l) []

theorem insertBy_perm (l : List ℚ) (i : ℕ) : ∀ js, (insertBy l i js).Perm (i :: js)
  | [] => List.Perm.refl _
  | j :: js => by
    unfold insertBy
    split
    · exact List.Perm.refl _
    · exact ((insertBy_perm l i js).cons j).trans (List.Perm.swap i j js)

theorem insertBy_sorted (l : List ℚ) (i : ℕ) : ∀ js, (js.Pairwise fun i j => l.getD i 0 ≤ l.getD j 0) →
    (insertBy l i js).Pairwise fun i j => l.getD i 0 ≤ l.getD j 0
  | [], _ => by simp [insertBy]
  | j :: js, h => by
    rw [List.pairwise_cons] at h
    unfold insertBy
    split
    · rename_i hle
      refine List.pairwise_cons.mpr ⟨fun k hk => ?_, List.pairwise_cons.mpr h⟩
      rcases List.mem_cons.mp hk with rfl | hk
      · exact hle
      · exact hle.trans (h.1 k hk)
    · rename_i hle
      refine List.pairwise_cons.mpr ⟨fun k hk => ?_, insertBy_sorted l i js h.2⟩
      rcases List.mem_cons.mp ((insertBy_perm l i js).mem_iff.mp hk) with rfl | hk
      · exact (not_le.mp hle).le
      · exact h.1 k hk

theorem argsort_isArgsort : IsArgsort argsort := by
  intro l
  have key : ∀ js : List ℕ, (js.foldr (insertBy l) []).Perm js ∧
      (js.foldr (insertBy l) []).Pairwise fun i j => l.getD i 0 ≤ l.getD j 0 := by
    intro js
    induction js with
    | nil => simp
    | cons j js ih =>
      exact ⟨(insertBy_perm l j _).trans (ih.1.cons j), insertBy_sorted l j _ ih.2⟩
  exact key _

theorem argsort_scale {r : ℚ} (hr : 0 < r) (l : List ℚ) : argsort (l.map (r * ·)) = argsort l := by
  have ins : ∀ i js, insertBy (l.map (r * ·)) i js = insertBy l i js := by
    intro i js
    induction js with
    | nil => rfl
    | cons j js ih =>
      unfold insertBy
      simp only [getD_scale, mul_le_mul_iff_right₀ hr, ih]
  unfold argsort
  rw [List.length_map]
  congr 1
  funext i js
  exact ins i js

/-- A signal with a plateau and a narrow dip. -/
def signal : List ℚ := [0, 3, 3, 1, 5, 2, 4, 0]

/-- All maxima: the plateau is reported by its middle (rounded down). -/
example : findPeaks argsort (peaksDefaults 0).get? signal = .ok [1, 4, 6] := by decide +kernel

/-- The last one is narrower than one sample. -/
example : findPeaks argsort (peaksDefaults 1).get? signal = .ok [1, 4] := by decide +kernel

example : findPeaks argsort (peaksDefaults 2).get? signal = .ok [] := by decide +kernel

/-- A distance of zero is rejected. -/
example : findPeaks argsort (fun key => if key = "distance" then some (.int 0) else none) signal = .error .valueError := by
  decide +kernel

/-- Distance: the highest peaks win. -/
example : scipyFilterPeaks argsort signal 3 = .ok [1, 4] ∧ scipyFilterPeaks argsort signal 4 = .ok [4] ∧
    scipyFilterPeaks argsort signal 0 = .error .valueError := by
  refine ⟨?_, ?_, ?_⟩ <;> decide +kernel

example : scipyFitsPeaks argsort signal 2 2 = .ok [1, 4, 6] ∧ scipyFitsPeaks argsort signal 2 3 = .ok [4] := by
  refine ⟨?_, ?_⟩ <;> decide +kernel

/-- The premises of `C111_units`: the default options, and a sort that does not look at the scale. -/
example : NoHeights (peaksDefaults (K := ℚ) 1).get? ∧ (0 : ℚ) < 2 ∧ (∀ l, argsort (l.map ((2 : ℚ) * ·)) = argsort l) ∧
    IsArgsort argsort := by
  refine ⟨?_, by norm_num, argsort_scale (by norm_num), argsort_isArgsort⟩
  intro key hkey
  simp only [List.mem_cons, List.not_mem_nil, or_false] at hkey
  rcases hkey with rfl | rfl | rfl <;> rfl

/-- A dip between two maxima that is narrower than two samples. -/
def dip : List ℚ := [0, 5, 5, 5, 4, 5, 5, 5, 0, 0, 0, 5, 5, 5, 0, 0, 0, 5, 0]

/-- When a width is asked for, pericenters and apocenters need not alternate: pericenters are reported at samples 2, 6 and
12, and apocenters at samples 9 and 15, although there is a minimum between the first two. -/
theorem C114_need_not_alternate : findPeaks argsort (peaksDefaults 2).get? dip = .ok [2, 6, 12] ∧
    findPeaks argsort (peaksDefaults 2).get? (dip.map (-·)) = .ok [9, 15] ∧ IsMinimum dip 4 := by
  refine ⟨by decide +kernel, by decide +kernel, ?_⟩
  refine (mem_middles _ _).mp ?_
  decide +kernel

example : (0 : ℤ) ≤ 0 ∧ findPeaks argsort (peaksDefaults 0).get? signal = .ok [1, 4, 6] ∧
    findPeaks argsort (peaksDefaults 0).get? (signal.map (-·)) = .ok [3, 5] := by
  refine ⟨le_rfl, ?_, ?_⟩ <;> decide +kernel

end PeaksDemo

namespace RunDemo

/-- The demonstration with scipy's peak finder. -/
def libScipy : Libs ℚ (ℚ × ℚ) := { lib with peaks := findPeaks PeaksDemo.argsort }

theorem libScipy_ok : (run 60 libScipy call).map (fun r => r.toOption.map fun ans => ans.ret.get? "eccentricity")
    = some (some (some (.array [10 / 81, 25 / 204]))) := by decide +kernel

end RunDemo

example : ∃ ans : Answer ℚ (ℚ × ℚ), RunDemo.libScipy.peaks = findPeaks PeaksDemo.argsort ∧
    run 60 RunDemo.libScipy RunDemo.call = some (.ok ans) ∧ 0 < RunDemo.libScipy.wave.pi ∧
    RunDemo.call.precessing = .isFalse ∧ RunDemo.call.trefIn = some (.array [5, 8]) ∧ ProperDicts RunDemo.call.dataDict ∧
    (∀ t A φ w, Dominant RunDemo.libScipy.wave RunDemo.call.dataDict t A φ w → ProperArrays t A φ w) ∧
    RunDemo.call.method = "Amplitude" ∧ (RunDemo.call.extra.getD []).get? "return_zero_if_small_ecc_failure" = none ∧
    (RunDemo.call.extra.getD []).get? "extrema_finding_kwargs" = none := by
  obtain ⟨r, hr, h⟩ := Option.map_eq_some_iff.mp RunDemo.libScipy_ok
  cases r with
  | error e => cases h
  | ok ans => exact ⟨ans, rfl, hr, by decide +kernel, rfl, rfl, RunDemo.data_proper, fun _ _ _ _ h => RunDemo.arrays_proper h,
      rfl, rfl, rfl⟩

end GwEcc
