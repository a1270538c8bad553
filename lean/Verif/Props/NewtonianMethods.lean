import Verif.Props.Newtonian
import Verif.Props.Methods
import Verif.Lemmas.KeplerMonotone
import Verif.Props.PeakConditions

/-!
# C79: the methods find the apsides of a Newtonian binary
-/

namespace GwEcc

open Spec Real

/-- The peak finder lists, in increasing order, exactly the maxima of the data. -/
def Spec.FindsAllPeaks (peaks : List ℝ → Py (List ℕ)) (d : List ℝ) : Prop :=
  ∃ l, peaks d = .ok l ∧ l.Pairwise (· < ·) ∧ ∀ i, i ∈ l ↔ IsMaximum d i

/-- This is so for scipy's peak finder with the default options of the code exactly if all maxima are wide enough. -/
theorem findsAllPeaks_iff (argsort : List ℝ → List ℕ) (w : ℤ) (d : List ℝ) :
    FindsAllPeaks (findPeaks argsort (peaksDefaults w).get?) d ↔
      ∀ i, IsMaximum d i → ∃ v, HasWidth d i v ∧ (w : ℝ) ≤ v := by
  obtain ⟨l, h1, h2⟩ := C113_default argsort w d
  constructor
  · rintro ⟨l', g1, _, g2⟩ i hi
    cases g1.symm.trans h1
    exact ((h2 i).mp ((g2 i).mpr hi)).2
  · intro h
    refine ⟨l, h1, (C111_maxima h1).2.imp fun h => by omega, fun i => ?_⟩
    rw [h2]
    exact ⟨fun h => h.1, fun hi => ⟨hi, h i hi⟩⟩

/-- If no two neighbouring samples are equal, the maxima are the samples that exceed both their neighbours. -/
theorem isMaximum_iff {d : List ℝ} (hd : ∀ i, i + 1 < d.length → d.getD i 0 ≠ d.getD (i + 1) 0) (i : ℕ) :
    IsMaximum d i ↔ 0 < i ∧ i + 1 < d.length ∧ d.getD (i - 1) 0 < d.getD i 0 ∧ d.getD (i + 1) 0 < d.getD i 0 := by
  constructor
  · rintro ⟨l, r, ft, rfl⟩
    have e : r = l := by
      by_contra hne
      have h1 := ft.le
      have h2 := ft.lt
      exact hd l (by omega) (ft.flat (l + 1) (by omega) (by omega)).symm
    subst e
    rw [show (r + r) / 2 = r by omega]
    exact ⟨ft.pos, ft.lt, ft.before, ft.after⟩
  · rintro ⟨h1, h2, h3, h4⟩
    refine ⟨i, i, ⟨h1, le_rfl, h2, fun j a b => ?_, h3, h4⟩, by omega⟩
    rw [show j = i by omega]

/-- The time series of a Newtonian binary: amplitude and frequency of the (2,2) mode, and the same reduced by constants,
which are the amplitude and the frequency of a quasicircular orbit. -/
structure Spec.NewtonianSeries (ε q : ℝ) (f : ℝ → ℝ) (times : List ℝ) (s : Series ℝ) : Prop where
  amp : s.amp = times.map fun t => ‖strain22 ε q f t‖
  omega : s.omega = times.map (frequency (strain22 ε q f))
  quasicircular : s.hasT0 = true ∧ s.hasAmp0 = true ∧ s.hasOmega0 = true
  resAmp : ∃ A, s.resAmp = some (times.map fun t => ‖strain22 ε q f t‖ - A)
  resOmega : ∃ w, s.resOmega = some (times.map fun t => frequency (strain22 ε q f) t - w)

/-- Largest eccentricity for which the amplitude, or the frequency, is known to grow all the way from apocenter to
pericenter. -/
def Spec.MonotoneUpTo : MethodClass → ℝ → Prop
  | .amplitude, ε => ε ≤ 6 / 7
  | .residualAmplitude, ε => ε ≤ 6 / 7
  | .frequency, ε => ε ≤ 9 / 10
  | .residualFrequency, ε => ε ≤ 9 / 10
  | _, _ => False

section

variable {ε q : ℝ} {f φ : ℝ → ℝ} {e : Ext ℝ} {o : Obj ℝ}

theorem cos_even {k : ℤ} (hk : Even k) {x y : ℝ} (h1 : k * π ≤ x) (h2 : x < y) (h3 : y ≤ (k + 1) * π) :
    cos y < cos x := by
  obtain ⟨m, rfl⟩ := hk
  have hx : cos x = cos (x - m * (2 * π)) := by rw [cos_sub_int_mul_two_pi]
  have hy : cos y = cos (y - m * (2 * π)) := by rw [cos_sub_int_mul_two_pi]
  push_cast at h1 h3
  rw [hx, hy]
  exact strictAntiOn_cos ⟨by linarith, by linarith⟩ ⟨by linarith, by linarith⟩ (by linarith)

theorem cos_odd {k : ℤ} (hk : Odd k) {x y : ℝ} (h1 : k * π ≤ x) (h2 : x < y) (h3 : y ≤ (k + 1) * π) :
    cos x < cos y := by
  have h := cos_even (k := k + 1) (hk.add_odd odd_one) (x := x + π) (y := y + π) (by push_cast; linarith) (by linarith)
    (by push_cast; linarith)
  rw [cos_add_pi, cos_add_pi] at h
  linarith

/-- Neighbouring samples lie in one half turn. -/
theorem half_turn (D : NewtonianData ε q f φ o) (hm : StrictMono f) (hc : Continuous f) {i : ℕ} (hi : i + 1 < o.t.length) :
    ∃ k : ℤ, k * π ≤ f (o.t.getD i 0) ∧ f (o.t.getD i 0) < f (o.t.getD (i + 1) 0) ∧
      f (o.t.getD (i + 1) 0) ≤ (k + 1) * π := by
  have hpos := pi_pos
  have hlt := hm (tt_lt D hi (Nat.lt_succ_self i))
  refine ⟨⌊f (o.t.getD i 0) / π⌋, (le_div_iff₀ hpos).mp (Int.floor_le _), hlt, ?_⟩
  by_contra hn
  have h1 : f (o.t.getD i 0) < (⌊f (o.t.getD i 0) / π⌋ + 1 : ℝ) * π := (div_lt_iff₀ hpos).mp (Int.lt_floor_add_one _)
  generalize ⌊f (o.t.getD i 0) / π⌋ = k at hn h1
  have hv : cos ((k + 1 : ℝ) * π) = 1 ∨ cos ((k + 1 : ℝ) * π) = -1 := by
    rcases Int.even_or_odd (k + 1) with ⟨m, h⟩ | ⟨m, h⟩
    · left; rw [cos_eq_one_iff]; refine ⟨m, ?_⟩
      have : (k : ℝ) + 1 = m + m := by exact_mod_cast h
      rw [this]; ring
    · right; rw [cos_eq_neg_one_iff]; refine ⟨m, ?_⟩
      have : (k : ℝ) + 1 = 2 * m + 1 := by exact_mod_cast h
      rw [this]; ring
  obtain ⟨z, hz1, hz2, _⟩ := between D hm hc hi (Nat.lt_succ_self i) hv h1 (not_le.mp hn)
  omega

/-- A sample other than the first and the last one exceeds its neighbours in `cos f` exactly at pericenter, and is smaller
exactly at apocenter. -/
theorem cos_peaks (D : NewtonianData ε q f φ o) (hm : StrictMono f) (hc : Continuous f) {i : ℕ} (h0 : 0 < i)
    (hi : i + 1 < o.t.length) :
    ((cos (f (o.t.getD (i - 1) 0)) < cos (f (o.t.getD i 0)) ∧ cos (f (o.t.getD (i + 1) 0)) < cos (f (o.t.getD i 0))) ↔
      AtPericenter f (o.t.getD i 0)) ∧
    ((cos (f (o.t.getD i 0)) < cos (f (o.t.getD (i - 1) 0)) ∧ cos (f (o.t.getD i 0)) < cos (f (o.t.getD (i + 1) 0))) ↔
      AtApocenter f (o.t.getD i 0)) := by
  have hpos := pi_pos
  obtain ⟨j, rfl⟩ : ∃ j, i = j + 1 := ⟨i - 1, by omega⟩
  rw [Nat.add_sub_cancel]
  obtain ⟨k, a1, a2, a3⟩ := half_turn D hm hc (i := j) (by omega)
  obtain ⟨n, b1, b2, b3⟩ := half_turn D hm hc hi
  unfold AtPericenter AtApocenter
  generalize f (o.t.getD j 0) = x at *
  generalize f (o.t.getD (j + 1) 0) = y at *
  generalize f (o.t.getD (j + 1 + 1) 0) = z at *
  have hk : k < n + 1 := by
    have : (k : ℝ) * π < (n + 1) * π := by linarith
    exact_mod_cast lt_of_mul_lt_mul_right this hpos.le
  have hn : n ≤ k + 1 := by
    have : (n : ℝ) * π ≤ (k + 1) * π := by linarith
    exact_mod_cast le_of_mul_le_mul_right this hpos
  rcases Int.even_or_odd k with ek | ok
  · have c1 := cos_even ek a1 a2 a3
    rcases Int.even_or_odd n with en | on
    · have c2 := cos_even en b1 b2 b3
      refine ⟨⟨fun h => absurd h.1 c1.not_gt, fun h => ?_⟩, ⟨fun h => absurd h.2 c2.not_gt, fun h => ?_⟩⟩
      · exact absurd (h ▸ c1) (cos_le_one x).not_gt
      · exact absurd (h ▸ c2) (neg_one_le_cos z).not_gt
    · have c2 := cos_odd on b1 b2 b3
      have hnk : n = k + 1 := by
        rcases hn.lt_or_eq with h | h
        · obtain ⟨u, hu⟩ := ek; obtain ⟨v, hv⟩ := on; omega
        · exact h
      subst hnk
      push_cast at b1
      have hy : y = (k + 1) * π := by linarith
      have hcy : cos y = -1 := by
        obtain ⟨m, rfl⟩ := ek
        rw [cos_eq_neg_one_iff]; exact ⟨m, by rw [hy]; push_cast; ring⟩
      refine ⟨⟨fun h => absurd h.1 c1.not_gt, fun h => ?_⟩, ⟨fun _ => hcy, fun _ => ⟨c1, c2⟩⟩⟩
      rw [h] at hcy; norm_num at hcy
  · have c1 := cos_odd ok a1 a2 a3
    rcases Int.even_or_odd n with en | on
    · have c2 := cos_even en b1 b2 b3
      have hnk : n = k + 1 := by
        rcases hn.lt_or_eq with h | h
        · obtain ⟨u, hu⟩ := ok; obtain ⟨v, hv⟩ := en; omega
        · exact h
      subst hnk
      push_cast at b1
      have hy : y = (k + 1) * π := by linarith
      have hcy : cos y = 1 := by
        obtain ⟨m, rfl⟩ := ok
        rw [cos_eq_one_iff]; exact ⟨m + 1, by rw [hy]; push_cast; ring⟩
      refine ⟨⟨fun _ => hcy, fun _ => ⟨c1, c2⟩⟩, ⟨fun h => absurd h.1 c1.not_gt, fun h => ?_⟩⟩
      rw [h] at hcy; norm_num at hcy
    · have c2 := cos_odd on b1 b2 b3
      refine ⟨⟨fun h => absurd h.2 c2.not_gt, fun h => ?_⟩, ⟨fun h => absurd h.1 c1.not_gt, fun h => ?_⟩⟩
      · exact absurd (h ▸ c2) (cos_le_one z).not_gt
      · exact absurd (h ▸ c1) (neg_one_le_cos x).not_gt

/-- Peaks and troughs of a series that grows with `cos f`. -/
theorem peaks_found (D : NewtonianData ε q f φ o) (hm : StrictMono f) (hc : Continuous f) {G : ℝ → ℝ}
    (hG : ∀ s t, cos (f s) < cos (f t) → G s < G t) (peaks : List ℝ → Py (List ℕ)) :
    (FindsAllPeaks peaks (o.t.map G) → ∃ l, peaks (o.t.map G) = .ok l ∧ FoundExactly o (AtPericenter f) l) ∧
    (FindsAllPeaks peaks ((o.t.map G).map (-·)) →
      ∃ l, peaks ((o.t.map G).map (-·)) = .ok l ∧ FoundExactly o (AtApocenter f) l) := by
  have hGe : ∀ s t, cos (f s) = cos (f t) ∨ cos (f s) < cos (f t) ∨ cos (f t) < cos (f s) := fun s t => by
    rcases lt_trichotomy (cos (f s)) (cos (f t)) with h | h | h <;> tauto
  have get : ∀ (g : ℝ → ℝ) i, i < o.t.length → (o.t.map g).getD i 0 = g (o.t.getD i 0) := by
    intro g i hi
    rw [List.getD_eq_getElem _ _ (by simpa using hi), List.getElem_map, List.getD_eq_getElem _ _ hi]
  have neq : ∀ i, i + 1 < o.t.length → cos (f (o.t.getD i 0)) ≠ cos (f (o.t.getD (i + 1) 0)) := by
    intro i hi
    obtain ⟨k, a1, a2, a3⟩ := half_turn D hm hc hi
    rcases Int.even_or_odd k with h | h
    · exact (cos_even h a1 a2 a3).ne'
    · exact (cos_odd h a1 a2 a3).ne
  have iff : ∀ s t, cos (f s) ≠ cos (f t) → (G s < G t ↔ cos (f s) < cos (f t)) := by
    intro s t hne
    refine ⟨fun h => ?_, hG s t⟩
    rcases hGe s t with h' | h' | h'
    · exact absurd h' hne
    · exact h'
    · exact absurd (hG t s h') h.not_gt
  have prev : ∀ i, 0 < i → i + 1 < o.t.length → cos (f (o.t.getD (i - 1) 0)) ≠ cos (f (o.t.getD i 0)) := by
    intro i h0 hi
    have := neq (i - 1) (by omega)
    rwa [Nat.sub_add_cancel h0] at this
  have gneq : ∀ i, i + 1 < o.t.length → G (o.t.getD i 0) ≠ G (o.t.getD (i + 1) 0) := by
    intro i hi
    rcases lt_or_gt_of_ne (neq i hi) with h | h
    · exact (hG _ _ h).ne
    · exact (hG _ _ h).ne'
  refine ⟨fun ⟨l, hl, hs, h⟩ => ⟨l, hl, hs, fun i => ?_⟩, fun ⟨l, hl, hs, h⟩ => ⟨l, hl, hs, fun i => ?_⟩⟩
  · rw [h, isMaximum_iff, List.length_map]
    · refine and_congr_right fun h0 => and_congr_right fun hi => ?_
      rw [get _ _ (by omega), get _ _ (by omega), get _ _ hi, iff _ _ (prev i h0 hi), iff _ _ (neq i hi).symm]
      exact (cos_peaks D hm hc h0 hi).1
    · intro j hj
      rw [List.length_map] at hj
      rw [get _ _ (by omega), get _ _ hj]
      exact gneq j hj
  · rw [h, isMaximum_iff, List.length_map, List.length_map]
    · refine and_congr_right fun h0 => and_congr_right fun hi => ?_
      rw [List.map_map, get _ _ (by omega), get _ _ (by omega), get _ _ hi]
      simp only [Function.comp, neg_lt_neg_iff]
      rw [iff _ _ (prev i h0 hi).symm, iff _ _ (neq i hi)]
      exact (cos_peaks D hm hc h0 hi).2
    · intro j hj
      rw [List.length_map, List.length_map] at hj
      rw [List.map_map, get _ _ (by omega), get _ _ hj]
      exact fun h => gneq j hj (neg_injective h)

theorem amplitude_grows (hε : 0 < ε) (hε1 : ε ≤ 6 / 7) (hq : 0 < q) (orbit : KeplerOrbit ε q f) (s t : ℝ)
    (h : cos (f s) < cos (f t)) : ‖strain22 ε q f s‖ < ‖strain22 ε q f t‖ := by
  have h1 : ε < 1 := by linarith
  rw [amplitude_eq hε.le h1 hq orbit, amplitude_eq hε.le h1 hq orbit]
  have hsq := Real.sqrt_pos.mpr hq
  refine mul_lt_mul_of_pos_left (Real.sqrt_lt_sqrt ?_ (ampSq_strict hε.le hε1 ?_ ?_)) (by positivity)
  · have := u_pos hε.le h1 (f s); positivity
  · nlinarith [neg_one_le_cos (f s)]
  · nlinarith

theorem frequency_grows (hε : 0 < ε) (hε1 : ε ≤ 9 / 10) (hq : 0 < q) (orbit : KeplerOrbit ε q f) (s t : ℝ)
    (h : cos (f s) < cos (f t)) : frequency (strain22 ε q f) s < frequency (strain22 ε q f) t := by
  have h1 : ε < 1 := by linarith
  rw [frequency_eq hε.le h1 hq orbit, frequency_eq hε.le h1 hq orbit]
  have hsq := Real.sqrt_pos.mpr hq
  refine mul_lt_mul_of_pos_left ?_ (by positivity)
  exact freqOf_strictMonoOn hε.le hε1 (u_pos hε.le h1 (f s)) (u_pos hε.le h1 (f t)) (by nlinarith)

/-- **C79.** The methods `Amplitude`, `ResidualAmplitude` (eccentricity up to 6/7), `Frequency` and `ResidualFrequency`
(up to 9/10), with a peak finder that reports exactly the maxima, report as pericenters exactly the
passages of a Newtonian binary through pericenter, and as apocenters exactly its passages through apocenter. -/
theorem C79_apsides_found (hε : 0 < ε) (hq : 0 < q) (orbit : KeplerOrbit ε q f) (D : NewtonianData ε q f φ o)
    (c : MethodClass) (hc : MonotoneUpTo c ε) (s : Series ℝ) (hs : NewtonianSeries ε q f o.t s) (peaks : List ℝ → Py (List ℕ))
    (hpk : ∀ d, dataForExtrema c s = .ok d → FindsAllPeaks peaks d ∧ FindsAllPeaks peaks (d.map (-·))) :
    ∃ p a, (dataForExtrema c s >>= fun d => findExtremaPeaks peaks d "pericenters") = .ok p ∧
      (dataForExtrema c s >>= fun d => findExtremaPeaks peaks d "apocenters") = .ok a ∧
      FoundExactly o (AtPericenter f) p ∧ FoundExactly o (AtApocenter f) a := by
  have h1 : ε < 1 := by
    cases c <;> simp only [MonotoneUpTo] at hc <;> linarith
  have hm := f_strictMono hε.le h1 hq orbit
  have hcont := f_continuous orbit
  have key : ∀ G : ℝ → ℝ, (∀ s t, cos (f s) < cos (f t) → G s < G t) → dataForExtrema c s = .ok (o.t.map G) →
      ∃ p a, (dataForExtrema c s >>= fun d => findExtremaPeaks peaks d "pericenters") = .ok p ∧
      (dataForExtrema c s >>= fun d => findExtremaPeaks peaks d "apocenters") = .ok a ∧
      FoundExactly o (AtPericenter f) p ∧ FoundExactly o (AtApocenter f) a := by
    intro G hG hd
    obtain ⟨k1, k2⟩ := hpk _ hd
    obtain ⟨s1, s2, _⟩ := C38_sign peaks (o.t.map G)
    obtain ⟨f1, f2⟩ := peaks_found D hm hcont hG peaks
    obtain ⟨p, g1, g2⟩ := f1 k1
    obtain ⟨a, g3, g4⟩ := f2 k2
    exact ⟨p, a, by rw [hd, ok_bind, s1, g1], by rw [hd, ok_bind, s2, g3], g2, g4⟩
  have hA := C38_residual_needs_data s
  obtain ⟨A, hA'⟩ := hs.resAmp
  obtain ⟨w, hw'⟩ := hs.resOmega
  obtain ⟨q1, q2, q3⟩ := hs.quasicircular
  cases c with
  | amplitude => exact key _ (amplitude_grows hε hc hq orbit) (by rw [← hs.amp]; rfl)
  | frequency => exact key _ (frequency_grows hε hc hq orbit) (by rw [← hs.omega]; rfl)
  | residualAmplitude =>
    exact key _ (fun s t h => sub_lt_sub_right (amplitude_grows hε hc hq orbit s t h) A) ((hA _).1.mpr ⟨q1, q2, q3, hA'⟩)
  | residualFrequency =>
    exact key _ (fun s t h => sub_lt_sub_right (frequency_grows hε hc hq orbit s t h) w) ((hA _).2.mpr ⟨q1, q2, q3, hw'⟩)
  | amplitudeFits => exact absurd hc (by simp [MonotoneUpTo])
  | frequencyFits => exact absurd hc (by simp [MonotoneUpTo])

/-- **C79**, whole measurement.  The extrema are those the method finds, nothing is assumed about where they are: with at
least two found of each kind and a reference time in their common range, every eccentricity returned is that of the
orbit, and every mean anomaly solves Kepler's equation. -/
theorem C79_measurement (hε : 0 < ε) (hq : 0 < q) (orbit : KeplerOrbit ε q f)
    (hφ : IsPhase (strain22 ε q f) φ) (hpi : e.pi = π) (hecc : e.eccOf = eccFromOmega) (hfit : KeepsConstants e o)
    (D : NewtonianData ε q f φ o) (c : MethodClass) (hc : MonotoneUpTo c ε) (s : Series ℝ)
    (hs : NewtonianSeries ε q f o.t s) (peaks : List ℝ → Py (List ℕ))
    (hpk : ∀ d, dataForExtrema c s = .ok d → FindsAllPeaks peaks d ∧ FindsAllPeaks peaks (d.map (-·)))
    (hfind : ∀ ty, e.find ty = dataForExtrema c s >>= fun d => findExtremaPeaks peaks d ty.name)
    (hd : o.domain = .time) (hl : o.level = 0) (hpf : (o.precessing && o.filtered) = false) (hmid : o.midpoints = false)
    (hm : o.interpMethod = "rational_fit" ∨ o.interpMethod = "spline") (hk1 : 1 ≤ o.extremaKw.k) (hk5 : o.extremaKw.k ≤ 5)
    (hg1 : 1 ≤ o.generalKw.k) (hg5 : o.generalKw.k ≤ 5) (cache : AvgCache ℝ)
    (href : ∀ p a, e.find .pericenters = .ok p → e.find .apocenters = .ok a →
      2 ≤ p.length ∧ 2 ≤ a.length ∧ ∃ x ∈ o.refIn.atleast1d, Covered o p a x) :
    ∃ ret m ve va vr, measureEcc e o cache = .ok (ret, some m, cache) ∧
      ret.get? "eccentricity" = some ve ∧ ret.get? "mean_anomaly" = some va ∧ ret.get? "tref_out" = some vr ∧
      vr.atleast1d ≠ [] ∧ vr.atleast1d.Sublist o.refIn.atleast1d ∧
      ve.atleast1d = vr.atleast1d.map (fun _ => ε) ∧
      List.Forall₂ (fun t l => KeplerEquation ε l (f t)) vr.atleast1d va.atleast1d := by
  have h1 : ε < 1 := by
    cases c <;> simp only [MonotoneUpTo] at hc <;> linarith
  obtain ⟨p, a, fp, fa, hp, ha⟩ := C79_apsides_found hε hq orbit D c hc s hs peaks hpk
  have fp' : e.find .pericenters = .ok p := by rw [hfind]; exact fp
  have fa' : e.find .apocenters = .ok a := by rw [hfind]; exact fa
  obtain ⟨n1, n2, hr⟩ := href p a fp' fa'
  obtain ⟨ret, m, ve, va, vr, T, r1, r2, r3, r4, r5, r6, r7, r8, r9⟩ := C78_newtonian_measurement hε.le h1 hq orbit hφ hpi
    hecc hfit D hd hl hpf hmid hm hk1 hk5 hg1 hg5 cache p a fp' fa' hp ha n1 n2 hr
  refine ⟨ret, m, ve, va, vr, r1, r3, r4, r5, ?_, r6, r8, r9.imp fun _ _ h => h.1⟩
  obtain ⟨x, hx, hcx⟩ := hr
  exact List.ne_nil_of_mem ((r7 x).mpr ⟨hx, hcx⟩)

/-- **C79, where it fails.** Above eccentricity 6/7 the amplitude of a Newtonian binary has a strict local maximum at every
apocenter: closely sampled, `Amplitude` reports apocenters as pericenters. -/
theorem C79_amplitude_violation (hε : 6 / 7 < ε) (hε1 : ε < 1) (hq : 0 < q) (orbit : KeplerOrbit ε q f) (ta : ℝ)
    (hta : AtApocenter f ta) :
    ∃ δ > 0, ∀ t, t ≠ ta → |t - ta| < δ → ‖strain22 ε q f t‖ < ‖strain22 ε q f ta‖ := by
  have h0 : 0 ≤ ε := by linarith
  have hm := f_strictMono h0 hε1 hq orbit
  have hc := f_continuous orbit
  have hpos := pi_pos
  have hsq := Real.sqrt_pos.mpr hq
  have hta' : cos (f ta) = -1 := hta
  -- near the apocenter `1 + ε cos f` is close to `1 - ε`, and larger elsewhere
  have hη : 0 < (1 - ε) * (7 * ε - 6) / 30 := by
    have : 0 < 7 * ε - 6 := by linarith
    have : 0 < 1 - ε := by linarith
    positivity
  have hcos : Filter.Tendsto (fun t => 1 + ε * cos (f t)) (nhds ta) (nhds (1 + ε * cos (f ta))) := by
    have : Continuous fun t => 1 + ε * cos (f t) := by fun_prop
    exact this.tendsto ta
  have hfl : Filter.Tendsto f (nhds ta) (nhds (f ta)) := hc.tendsto ta
  obtain ⟨δ₁, d1, hd1⟩ := Metric.tendsto_nhds_nhds.mp hcos _ hη
  obtain ⟨δ₂, d2, hd2⟩ := Metric.tendsto_nhds_nhds.mp hfl π hpos
  refine ⟨min δ₁ δ₂, lt_min d1 d2, fun t hne ht => ?_⟩
  have e1 := hd1 (x := t) (by rw [Real.dist_eq]; exact ht.trans_le (min_le_left _ _))
  have e2 := hd2 (x := t) (by rw [Real.dist_eq]; exact ht.trans_le (min_le_right _ _))
  rw [Real.dist_eq] at e1 e2
  rw [hta'] at e1
  -- the cosine is above -1
  have hgt : -1 < cos (f t) := by
    refine lt_of_le_of_ne (neg_one_le_cos _) fun h => ?_
    obtain ⟨k, hk⟩ := (apo_iff t).mp h.symm
    obtain ⟨k', hk'⟩ := (apo_iff ta).mp hta
    rw [hk, hk', abs_lt] at e2
    have a1 : (k : ℝ) - k' < 1 := by nlinarith
    have a2 : (-1 : ℝ) < k - k' := by nlinarith
    have a1' : k - k' < 1 := by exact_mod_cast a1
    have a2' : -1 < k - k' := by exact_mod_cast a2
    have : k = k' := by omega
    rw [this, ← hk'] at hk
    exact hne (hm.injective hk)
  rw [amplitude_eq h0 hε1 hq orbit, amplitude_eq h0 hε1 hq orbit, hta']
  refine mul_lt_mul_of_pos_left (Real.sqrt_lt_sqrt ?_ ?_) (by positivity)
  · have := u_pos h0 hε1 (f t); positivity
  · obtain ⟨x, hx⟩ : ∃ x, x = 1 + ε * cos (f t) := ⟨_, rfl⟩
    rw [← hx] at e1 ⊢
    have hlow : 1 - ε < x := by rw [hx]; nlinarith
    have hup : x < 1 - ε + (1 - ε) * (7 * ε - 6) / 30 := by
      have := (abs_lt.mp e1).2; linarith
    have hd : (16 * (1 + ε * -1) ^ 3 + 4 * ((1 + ε * -1) - (1 - ε ^ 2)) ^ 2) - (16 * x ^ 3 + 4 * (x - (1 - ε ^ 2)) ^ 2)
        = (x - (1 - ε)) * (-(16 * ((1 - ε) ^ 2 + (1 - ε) * x + x ^ 2) + 4 * ((1 - ε) + x - 2 * (1 - ε ^ 2)))) := by ring
    have hneg : 0 < -(16 * ((1 - ε) ^ 2 + (1 - ε) * x + x ^ 2) + 4 * ((1 - ε) + x - 2 * (1 - ε ^ 2))) := by
      obtain ⟨y, hy⟩ : ∃ y, y = x - (1 - ε) := ⟨_, rfl⟩
      have hxy : x = (1 - ε) + y := by rw [hy]; ring
      have y0 : 0 < y := by rw [hy]; linarith
      have y1 : y < (1 - ε) * (7 * ε - 6) / 30 := by rw [hy]; linarith
      have y2 : y ≤ 1 / 210 := by nlinarith
      have hexp : -(16 * ((1 - ε) ^ 2 + (1 - ε) * x + x ^ 2) + 4 * ((1 - ε) + x - 2 * (1 - ε ^ 2)))
          = 8 * ((1 - ε) * (7 * ε - 6)) - y * (48 * (1 - ε) + 16 * y + 4) := by rw [hxy]; ring
      rw [hexp]
      have : 48 * (1 - ε) + 16 * y + 4 ≤ 12 := by nlinarith
      nlinarith
    have := mul_pos (sub_pos.mpr hlow) hneg
    linarith

end

/-! ### The premises are met -/

namespace NewtonDemo

/-- A peak finder as assumed: scipy's, without a width. -/
noncomputable def peaks : List ℝ → Py (List ℕ) := findPeaks (fun _ => []) (peaksDefaults 0).get?

theorem findsAllPeaks (d : List ℝ) : FindsAllPeaks peaks d := by
  refine (findsAllPeaks_iff _ 0 d).mpr fun i hi => ⟨_, width_hasWidth hi, ?_⟩
  rw [Int.cast_zero]
  exact (width_hasWidth hi).pos.le

noncomputable def series (ε q : ℝ) (f : ℝ → ℝ) (times : List ℝ) : Series ℝ where
  amp := times.map fun t => ‖strain22 ε q f t‖
  omega := times.map (frequency (strain22 ε q f))
  resAmp := some (times.map fun t => ‖strain22 ε q f t‖ - 1)
  resOmega := some (times.map fun t => frequency (strain22 ε q f) t - 1)
  ampMerger := 1
  hasT0 := true
  hasAmp0 := true
  hasOmega0 := true

/-- `ext` with the extrema found by the method `c`. -/
noncomputable def ext79 (c : MethodClass) (s : Series ℝ) (times : List ℝ) (f : ℝ → ℝ) : Ext ℝ :=
  { ext times f with find := fun ty => dataForExtrema c s >>= fun d => findExtremaPeaks peaks d ty.name }

theorem FoundExactly_unique {o : Obj ℝ} {P : ℝ → Prop} {l l' : List ℕ} (h : FoundExactly o P l)
    (h' : FoundExactly o P l') : l = l' := by
  refine List.Perm.eq_of_pairwise (le := (· < ·)) ?_ h.1 h'.1 ?_
  · intro a b _ _ h1 h2; omega
  · rw [List.perm_ext_iff_of_nodup (h.1.imp fun h => h.ne) (h'.1.imp fun h => h.ne)]
    intro i
    rw [h.2, h'.2]

/-- Every method the theorem covers, at every eccentricity it covers, on an actual orbit: the measurement returns the
eccentricity of the orbit. -/
example {ε q : ℝ} (hε : 0 < ε) (hq : 0 < q) (c : MethodClass) (hc : MonotoneUpTo c ε) :
    ∃ f, KeplerOrbit ε q f ∧ ∃ e o ret m v, measureEcc e o none = .ok (ret, some m, none) ∧
      ret.get? "eccentricity" = some v ∧ v.atleast1d ≠ [] ∧ ∀ x ∈ v.atleast1d, x = ε := by
  have h1 : ε < 1 := by
    cases c <;> simp only [MonotoneUpTo] at hc <;> linarith
  obtain ⟨f, φ, times, p, a, g1, g2, g3, g4, g5, g6, g7, g8, g9, g10⟩ := premises hε.le h1 hq "rational_fit"
  have hs : NewtonianSeries ε q f (obj ε q f φ times "rational_fit").t (series ε q f times) :=
    ⟨rfl, rfl, ⟨rfl, rfl, rfl⟩, ⟨1, rfl⟩, ⟨1, rfl⟩⟩
  have hpk : ∀ d, dataForExtrema c (series ε q f times) = .ok d → FindsAllPeaks peaks d ∧ FindsAllPeaks peaks (d.map (-·)) :=
    fun d _ => ⟨findsAllPeaks d, findsAllPeaks _⟩
  obtain ⟨ret, m, ve, va, vr, r1, r2, r3, r4, r5, r6, r7, r8⟩ := C79_measurement (o := obj ε q f φ times "rational_fit")
    hε hq g1 g2 (e := ext79 c (series ε q f times) times f) rfl rfl
    ⟨(keeps times f (obj ε q f φ times "rational_fit")).spline, (keeps times f _).rational,
      (keeps times f (obj ε q f φ times "rational_fit")).derivative⟩
    g3 c hc (series ε q f times) hs peaks hpk (fun _ => rfl) rfl rfl rfl rfl (Or.inl rfl)
    (by simp [obj]) (by simp [obj]) (by simp [obj]) (by simp [obj]) none (by
      intro p' a' hp' ha'
      obtain ⟨p'', a'', k1, k2, k3, k4⟩ := C79_apsides_found hε hq g1 g3 c hc (series ε q f times) hs peaks hpk
      have e1 : p' = p'' := Except.ok.inj (hp'.symm.trans k1)
      have e2 : a' = a'' := Except.ok.inj (ha'.symm.trans k2)
      rw [e1, e2, FoundExactly_unique k3 g6, FoundExactly_unique k4 g7]
      exact ⟨g8, g9, g10⟩)
  refine ⟨f, g1, _, _, ret, m, ve, r1, r2, ?_, ?_⟩
  · rw [r7]; simpa using r5
  · rw [r7]; intro x hx; obtain ⟨_, _, rfl⟩ := List.mem_map.mp hx; rfl

/-- An orbit of eccentricity 9/10, to which the violation applies. -/
example : ∃ f ta, KeplerOrbit (9 / 10) 1 f ∧ AtApocenter f ta ∧
    ∃ δ > 0, ∀ t, t ≠ ta → |t - ta| < δ → ‖strain22 (9 / 10) 1 f t‖ < ‖strain22 (9 / 10) 1 f ta‖ := by
  obtain ⟨f, orbit, hs⟩ := exists_kepler (e := 9 / 10) (p := 1) (by norm_num) (by norm_num) (by norm_num)
  obtain ⟨ta, hta⟩ := hs π
  have h : AtApocenter f ta := by unfold AtApocenter; rw [hta, cos_pi]
  exact ⟨f, ta, orbit, h, C79_amplitude_violation (by norm_num) (by norm_num) (by norm_num) orbit ta h⟩

end NewtonDemo

end GwEcc
