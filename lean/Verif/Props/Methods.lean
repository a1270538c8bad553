import Verif.Model.Methods
import Verif.Lemmas.Extrema
import Verif.Spec.Methods

/-!
# C38 Pericenters are maxima, apocenters minima
-/

set_option linter.unusedSectionVars false

namespace GwEcc

open Spec

variable {K : Type} [Field K] [LinearOrder K] [IsStrictOrderedRing K]

/-- The pericenters are the peaks of the data, the apocenters the peaks of its negative. -/
theorem C38_sign (peaks : List K → Py (List ℕ)) (data : List K) :
    findExtremaPeaks peaks data "pericenters" = peaks data ∧
    findExtremaPeaks peaks data "apocenters" = peaks (data.map (-·)) ∧
    findExtremaPeaks peaks data "apocenters" = findExtremaPeaks peaks (data.map (-·)) "pericenters" := by
  have h1 : ∀ d : List K, findExtremaPeaks peaks d "pericenters" = peaks d := by
    intro d; simp [findExtremaPeaks, pure_eq_ok, ok_bind]
  have h2 : findExtremaPeaks peaks data "apocenters" = peaks (data.map (-·)) := by
    simp [findExtremaPeaks, pure_eq_ok, ok_bind]
  exact ⟨h1 data, h2, by rw [h1, h2]⟩

/-- Any other string raises. -/
theorem C38_unknown_raises (peaks : List K → Py (List ℕ)) (data : List K) (s : String) (h1 : s ≠ "pericenters")
    (h2 : s ≠ "apocenters") : findExtremaPeaks peaks data s = .error .exception := by
  unfold findExtremaPeaks
  rw [if_neg h1, if_neg h2, err_bind]

/-- With a peak finder that returns only local maxima of what it is given, pericenters are local maxima of the data and
apocenters local minima. -/
theorem C38_extrema (peaks : List K → Py (List ℕ)) (hpk : ∀ l r, peaks l = .ok r → ∀ i ∈ r, LocalMax l i) (data : List K)
    (p a : List ℕ) (hp : findExtremaPeaks peaks data "pericenters" = .ok p)
    (ha : findExtremaPeaks peaks data "apocenters" = .ok a) :
    (∀ i ∈ p, LocalMax data i) ∧ (∀ i ∈ a, LocalMin data i) := by
  obtain ⟨h1, h2, _⟩ := C38_sign peaks data
  rw [h1] at hp; rw [h2] at ha
  refine ⟨hpk data p hp, fun i hi => ?_⟩
  obtain ⟨x, hx, j, k, hj, hk, ⟨y, hy, hyx⟩, ⟨z, hz, hzx⟩, hflat⟩ := hpk _ _ ha i hi
  simp only [List.getElem?_map, Option.map_eq_some_iff] at hx hy hz hflat
  obtain ⟨x', hx', rfl⟩ := hx
  obtain ⟨y', hy', rfl⟩ := hy
  obtain ⟨z', hz', rfl⟩ := hz
  refine ⟨x', hx', j, k, hj, hk, ⟨y', hy', neg_lt_neg_iff.mp hyx⟩, ⟨z', hz', neg_lt_neg_iff.mp hzx⟩, ?_⟩
  intro n h1 h2
  obtain ⟨w, hw, e⟩ := hflat n h1 h2
  rw [hw, neg_injective e]

/-- Which series each method looks at. -/
theorem C38_series (s : Series K) :
    dataForExtrema .amplitude s = .ok s.amp ∧ dataForExtrema .frequency s = .ok s.omega ∧
    dataForExtrema .frequencyFits s = .ok s.omega ∧
    (∀ d, dataForExtrema .amplitudeFits s = .ok d → s.ampMerger ≠ 0 →
      d.map (· * s.ampMerger) = s.amp) := by
  refine ⟨rfl, rfl, rfl, ?_⟩
  intro d hd hm
  simp only [dataForExtrema, Except.ok.injEq] at hd
  subst hd
  rw [List.map_map]
  conv_rhs => rw [← List.map_id s.amp]
  apply List.map_congr_left
  intro x _
  simp [hm]

/-- The two residual methods work only if quasicircular times, amplitudes and frequencies are all there; they then look at
the residual of the corresponding quantity. -/
theorem C38_residual_needs_data (s : Series K) (d : List K) :
    (dataForExtrema .residualAmplitude s = .ok d ↔
      s.hasT0 = true ∧ s.hasAmp0 = true ∧ s.hasOmega0 = true ∧ s.resAmp = some d) ∧
    (dataForExtrema .residualFrequency s = .ok d ↔
      s.hasT0 = true ∧ s.hasAmp0 = true ∧ s.hasOmega0 = true ∧ s.resOmega = some d) := by
  constructor
  · unfold dataForExtrema checkZeroecc attr
    cases s.hasT0 <;> cases s.hasAmp0 <;> cases s.hasOmega0 <;> cases s.resAmp <;>
      simp [ok_bind, err_bind]
  · unfold dataForExtrema checkZeroecc attr
    cases s.hasT0 <;> cases s.hasAmp0 <;> cases s.hasOmega0 <;> cases s.resOmega <;>
      simp [ok_bind, err_bind]

/-- The missing quasicircular data is reported as an exception, before anything else is looked at. -/
theorem C38_residual_raises (s : Series K) (h : ¬ (s.hasT0 = true ∧ s.hasAmp0 = true ∧ s.hasOmega0 = true)) :
    dataForExtrema .residualAmplitude s = .error .exception ∧
    dataForExtrema .residualFrequency s = .error .exception := by
  unfold dataForExtrema checkZeroecc
  cases hT : s.hasT0 <;> cases hA : s.hasAmp0 <;> cases hO : s.hasOmega0 <;> simp_all [err_bind]

/-- Strain units: multiplying the amplitude by a constant leaves the series of five methods unchanged and multiplies that
of `Amplitude` (the residual amplitude scales because the difference does). -/
theorem C14_strain_units (s : Series K) (k : K) (hk : k ≠ 0) :
    let s' := { s with amp := s.amp.map (k * ·), ampMerger := k * s.ampMerger,
                       resAmp := s.resAmp.map (fun l => l.map (k * ·)) }
    dataForExtrema .amplitude s' = (dataForExtrema .amplitude s).map (fun l => l.map (k * ·)) ∧
    dataForExtrema .frequency s' = dataForExtrema .frequency s ∧
    dataForExtrema .residualAmplitude s' = (dataForExtrema .residualAmplitude s).map (fun l => l.map (k * ·)) ∧
    dataForExtrema .residualFrequency s' = dataForExtrema .residualFrequency s ∧
    dataForExtrema .frequencyFits s' = dataForExtrema .frequencyFits s ∧
    dataForExtrema .amplitudeFits s' = dataForExtrema .amplitudeFits s := by
  refine ⟨rfl, rfl, ?_, rfl, rfl, ?_⟩
  · unfold dataForExtrema checkZeroecc attr
    cases s.hasT0 <;> cases s.hasAmp0 <;> cases s.hasOmega0 <;> cases s.resAmp <;>
      simp [ok_bind, err_bind, Except.map]
  · simp only [dataForExtrema, List.map_map]
    congr 1
    apply List.map_congr_left
    intro x _
    simp only [Function.comp]
    exact mul_div_mul_left _ _ hk

/-- A peak finder that satisfies the hypothesis of `C38_extrema`: strict maxima of three neighbours. -/
def strictPeaks (l : List ℚ) : List ℕ :=
  (List.range l.length).filter fun i =>
    decide (1 ≤ i ∧ i + 1 < l.length ∧ l.getD (i - 1) 0 < l.getD i 0 ∧ l.getD (i + 1) 0 < l.getD i 0)

theorem strictPeaks_localMax (l : List ℚ) (i : ℕ) (h : i ∈ strictPeaks l) : LocalMax l i := by
  simp only [strictPeaks, List.mem_filter, List.mem_range, decide_eq_true_eq] at h
  obtain ⟨hi, h1, h2, h3, h4⟩ := h
  have g : ∀ j, j < l.length → l[j]? = some (l.getD j 0) := by
    intro j hj
    rw [List.getD_eq_getElem?_getD, List.getElem?_eq_getElem hj]; rfl
  refine ⟨l.getD i 0, g i hi, i - 1, i + 1, by omega, by omega, ⟨_, g _ (by omega), h3⟩, ⟨_, g _ h2, h4⟩, ?_⟩
  intro n a b
  have : n = i := by omega
  subst this; exact g n hi

example : findExtremaPeaks (fun l => .ok (strictPeaks l)) [0, 2, 1, 3, 0, 1] "pericenters" = .ok [1, 3] ∧
    findExtremaPeaks (fun l => .ok (strictPeaks l)) [0, 2, 1, 3, 0, 1] "apocenters" = .ok [2, 4] := by decide +kernel

end GwEcc
