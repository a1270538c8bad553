import Verif.Props.NewtonianComplex
import Verif.Lemmas.KeplerWidth

/-!
# C87 with all libraries modelled
-/

namespace GwEcc

open Spec Real

namespace KeplerWidth

variable {ε q : ℝ} {f : ℝ → ℝ} {T : ℝ}

theorem half_orbit_peri (hε : 0 ≤ ε) (hε1 : ε < 1) (hq : 0 < q) (orbit : KeplerOrbit ε q f) (hT : OrbitalPeriod f T) {s : ℝ}
    (hs : AtPericenter f s) : f (s + T / 2) = f s + π := by
  have hm := f_strictMono hε hε1 hq orbit
  have hpos := pi_pos
  obtain ⟨a, _, ha⟩ := intermediate_value_Icc (show s ≤ s + T by linarith [hT.1]) (f_continuous orbit).continuousOn
    (show f s + π ∈ Set.Icc (f s) (f (s + T)) by rw [hT.2]; constructor <;> linarith)
  have hs' : cos (f s) = 1 := hs
  have h1 : s < a := by rw [← hm.lt_iff_lt, ha]; linarith
  have h2 : a < s + T := by rw [← hm.lt_iff_lt, ha, hT.2]; linarith
  obtain ⟨u, hu, hc, hsn⟩ := kepler_equation hε hε1 hq orbit hT hs a
  have hcos : cos (f a) = -1 := by rw [ha, cos_add_pi, hs']
  have hd : 0 < 1 - ε * cos u := by nlinarith [cos_le_one u]
  rw [hcos, eq_div_iff hd.ne'] at hc
  have hcu : cos u = -1 := by
    have : (1 - ε) * (cos u + 1) = 0 := by linarith
    rcases mul_eq_zero.mp this with h | h <;> linarith
  have hsu : sin u = 0 := by
    have := sin_sq_add_cos_sq u
    rw [hcu] at this
    nlinarith
  rw [hsu, mul_zero, sub_zero] at hu
  obtain ⟨k, hk⟩ := cos_eq_neg_one_iff.mp hcu
  have r0 : 0 < (a - s) / T := div_pos (by linarith) hT.1
  have r1 : (a - s) / T < 1 := (div_lt_one hT.1).mpr (by linarith)
  have hr : (a - s) / T = 1 / 2 + k := by
    have : 2 * π * ((a - s) / T) = 2 * π * (1 / 2 + k) := by rw [hu, ← hk]; ring
    exact mul_left_cancel₀ (by positivity) this
  have hk0 : k = 0 := by
    rw [hr] at r0 r1
    have c1 : (-1 : ℝ) < k := by linarith
    have c2 : (k : ℝ) < 1 := by linarith
    have c1' : (-1 : ℤ) < k := by exact_mod_cast c1
    have c2' : k < (1 : ℤ) := by exact_mod_cast c2
    omega
  rw [hk0] at hr
  have : a = s + T / 2 := by
    rw [div_eq_iff hT.1.ne'] at hr
    push_cast at hr
    linarith
  rw [← this, ha]

theorem half_orbit (hε : 0 ≤ ε) (hε1 : ε < 1) (hq : 0 < q) (orbit : KeplerOrbit ε q f) (hT : OrbitalPeriod f T) {s : ℝ}
    (hs : AtPericenter f s ∨ AtApocenter f s) : f (s + T / 2) = f s + π := by
  rcases hs with hs | hs
  · exact half_orbit_peri hε hε1 hq orbit hT hs
  · have hpos := pi_pos
    have hback : f (s - T) = f s - 2 * π := by
      have := hT.2 (s - T)
      rw [sub_add_cancel] at this
      linarith
    obtain ⟨b, _, hb⟩ := intermediate_value_Icc (show s - T ≤ s by linarith [hT.1]) (f_continuous orbit).continuousOn
      (show f s - π ∈ Set.Icc (f (s - T)) (f s) by rw [hback]; constructor <;> linarith)
    have hs' : cos (f s) = -1 := hs
    have hbp : AtPericenter f b := by unfold AtPericenter; rw [hb, cos_sub_pi, hs', neg_neg]
    have h1 := half_orbit_peri hε hε1 hq orbit hT hbp
    have : b + T / 2 = s := (f_strictMono hε hε1 hq orbit).injective (by rw [h1, hb]; ring)
    have h2 := hT.2 b
    rw [show b + T = s + T / 2 by linarith, hb] at h2
    linarith

theorem half_orbit_back (hε : 0 ≤ ε) (hε1 : ε < 1) (hq : 0 < q) (orbit : KeplerOrbit ε q f) (hT : OrbitalPeriod f T) {s : ℝ}
    (hs : AtPericenter f s ∨ AtApocenter f s) : f (s - T / 2) = f s - π := by
  have h1 := half_orbit hε hε1 hq orbit hT hs
  have h2 := hT.2 (s - T / 2)
  rw [show s - T / 2 + T = s + T / 2 by ring, h1] at h2
  linarith

theorem apsis_iff (t : ℝ) : (AtPericenter f t ∨ AtApocenter f t) ↔ sin (f t) = 0 := by
  unfold AtPericenter AtApocenter
  constructor
  · rintro (h | h)
    · have := sin_sq_add_cos_sq (f t); rw [h] at this; nlinarith
    · have := sin_sq_add_cos_sq (f t); rw [h] at this; nlinarith
  · intro h
    have := sin_sq_add_cos_sq (f t)
    rw [h] at this
    have : (cos (f t) - 1) * (cos (f t) + 1) = 0 := by nlinarith
    rcases mul_eq_zero.mp this with h | h
    · left; linarith
    · right; linarith

/-- Passages are half an orbit apart, at least. -/
theorem apsides_apart (hε : 0 ≤ ε) (hε1 : ε < 1) (hq : 0 < q) (orbit : KeplerOrbit ε q f) (hT : OrbitalPeriod f T) {s r : ℝ}
    (hs : AtPericenter f s ∨ AtApocenter f s) (hr : AtPericenter f r ∨ AtApocenter f r) (h : s < r) : s + T / 2 ≤ r := by
  have hm := f_strictMono hε hε1 hq orbit
  rw [← hm.le_iff_le, half_orbit hε hε1 hq orbit hT hs]
  obtain ⟨m, h1⟩ := sin_eq_zero_iff.mp ((apsis_iff s).mp hs)
  obtain ⟨n, h2⟩ := sin_eq_zero_iff.mp ((apsis_iff r).mp hr)
  have h3 := hm h
  rw [← h1, ← h2] at h3 ⊢
  have hlt : m < n := by exact_mod_cast lt_of_mul_lt_mul_right h3 pi_pos.le
  have : (m : ℝ) + 1 ≤ n := by exact_mod_cast hlt
  nlinarith [pi_pos]

/-- The signal is an increasing function of `cos f`. -/
theorem signal_form {method : String} (hε : 0 < ε) (hε1 : ε ≤ 1 / 10) (hq : 0 < q) (orbit : KeplerOrbit ε q f)
    (hmethod : method = "Amplitude" ∨ method = "Frequency") :
    ∃ g : ℝ → ℝ, (∀ s, signal method ε q f s = g (cos (f s))) ∧ (∀ c d, -1 ≤ c → c < d → d ≤ 1 → g c < g d) ∧
      g 1 + g (-(7 / 10)) < 2 * g (3 / 10) ∧ 2 * g (-(1 / 2)) < g (-1) + g (1 / 2) := by
  have h1 : ε < 1 := by linarith
  have hsq := Real.sqrt_pos.mpr hq
  rcases hmethod with rfl | rfl
  · refine ⟨fun c => (√q / q ^ 2 * q) ^ 2 * ampOf ε (1 + ε * c), fun s => ?_, fun c d hc hcd hd => ?_, ?_, ?_⟩
    · show (if "Amplitude" = "Amplitude" then _ else _) = _
      rw [if_pos rfl, amplitude_eq hε.le h1 hq orbit]
      rfl
    · refine mul_lt_mul_of_pos_left (Real.sqrt_lt_sqrt ?_ (ampSq_strict hε.le (by linarith) ?_ ?_)) (by positivity)
      · have : 0 ≤ 1 + ε * c := by nlinarith
        positivity
      · nlinarith
      · nlinarith
    · have := ampOf_peak hε hε1
      have hK : 0 < (√q / q ^ 2 * q) ^ 2 := by positivity
      beta_reduce
      rw [show 1 + ε * 1 = 1 + ε by ring, show 1 + ε * -(7 / 10) = 1 - 7 / 10 * ε by ring,
        show 1 + ε * (3 / 10) = 1 + 3 / 10 * ε by ring]
      nlinarith
    · have := ampOf_trough hε hε1
      have hK : 0 < (√q / q ^ 2 * q) ^ 2 := by positivity
      beta_reduce
      rw [show 1 + ε * -1 = 1 - ε by ring, show 1 + ε * -(1 / 2) = 1 - 1 / 2 * ε by ring,
        show 1 + ε * (1 / 2) = 1 + 1 / 2 * ε by ring]
      nlinarith
  · refine ⟨fun c => √q / q ^ 2 * freqOf ε (1 + ε * c), fun s => ?_, fun c d hc hcd hd => ?_, ?_, ?_⟩
    · show (if "Frequency" = "Amplitude" then _ else _) = _
      rw [if_neg (by decide), frequency_eq hε.le h1 hq orbit]
      rfl
    · refine mul_lt_mul_of_pos_left ?_ (by positivity)
      refine freqOf_strictMonoOn hε.le (by linarith) ?_ ?_ (by nlinarith)
      · show 0 < 1 + ε * c; nlinarith
      · show 0 < 1 + ε * d; nlinarith
    · have := freqOf_peak hε hε1
      have hK : 0 < √q / q ^ 2 := by positivity
      beta_reduce
      rw [show 1 + ε * 1 = 1 + ε by ring, show 1 + ε * -(7 / 10) = 1 - 7 / 10 * ε by ring,
        show 1 + ε * (3 / 10) = 1 + 3 / 10 * ε by ring]
      nlinarith
    · have := freqOf_trough hε hε1
      have hK : 0 < √q / q ^ 2 := by positivity
      beta_reduce
      rw [show 1 + ε * -1 = 1 - ε by ring, show 1 + ε * -(1 / 2) = 1 - 1 / 2 * ε by ring,
        show 1 + ε * (1 / 2) = 1 + 1 / 2 * ε by ring]
      nlinarith

/-- Times of equally spaced samples. -/
theorem steps_getD {t : List ℝ} {dt : ℝ} (h : ∀ i (h : i + 1 < t.length), t[i + 1] - t[i] = dt) {i : ℕ} (hi : i < t.length) :
    t.getD i 0 = t.getD 0 0 + i * dt := by
  induction i with
  | zero => simp
  | succ i ih =>
    have h1 := h i hi
    have h2 := ih (by omega)
    rw [List.getD_eq_getElem _ _ hi]
    rw [List.getD_eq_getElem _ _ (by omega)] at h2
    push_cast
    linarith

/-- From a sample at an apsis that is neither the first nor the last one, about half an orbit both ways. -/
theorem far_samples (hε : 0 ≤ ε) (hε1 : ε < 1) (hq : 0 < q) (orbit : KeplerOrbit ε q f) (hT : OrbitalPeriod f T) {t : List ℝ}
    {dt : ℝ} (ht : WholeHalfOrbits f T dt t) {p : ℕ} (h0 : 0 < p) (hp : p + 1 < t.length)
    (ha : AtPericenter f (t.getD p 0) ∨ AtApocenter f (t.getD p 0)) :
    (∃ j, j ≤ p ∧ 3 * T / 8 ≤ t.getD p 0 - t.getD j 0 ∧ t.getD p 0 - t.getD j 0 ≤ T / 2) ∧
    ∃ j, p ≤ j ∧ j < t.length ∧ 3 * T / 8 ≤ t.getD j 0 - t.getD p 0 ∧ t.getD j 0 - t.getD p 0 ≤ T / 2 := by
  have hT0 := hT.1
  have hd := ht.positive
  have mono : ∀ i j, i < t.length → j < t.length → t.getD i 0 < t.getD j 0 → i < j := by
    intro i j hi hj h
    rw [steps_getD ht.steps hi, steps_getD ht.steps hj] at h
    have : (i : ℝ) < j := by nlinarith
    exact_mod_cast this
  have mem : ∀ i, i < t.length → t.getD i 0 ∈ t := fun i hi => by
    rw [List.getD_eq_getElem _ _ hi]; exact List.getElem_mem _
  have hpl : p < t.length := by omega
  have lt0 : t.getD 0 0 < t.getD p 0 := by
    rw [steps_getD ht.steps hpl]
    have : (0 : ℝ) < p := by exact_mod_cast h0
    nlinarith
  have ltn : t.getD p 0 < t.getD (t.length - 1) 0 := by
    rw [steps_getD ht.steps hpl, steps_getD ht.steps (by omega : t.length - 1 < t.length)]
    have : (p : ℝ) < ((t.length - 1 : ℕ) : ℝ) := by exact_mod_cast (by omega : p < t.length - 1)
    nlinarith
  have hback : AtPericenter f (t.getD p 0 - T / 2) ∨ AtApocenter f (t.getD p 0 - T / 2) := by
    rw [apsis_iff] at ha ⊢
    rw [half_orbit_back hε hε1 hq orbit hT ((apsis_iff _).mpr ha), sin_sub_pi, ha, neg_zero]
  have hforth : AtPericenter f (t.getD p 0 + T / 2) ∨ AtApocenter f (t.getD p 0 + T / 2) := by
    rw [apsis_iff] at ha ⊢
    rw [half_orbit hε hε1 hq orbit hT ((apsis_iff _).mpr ha), sin_add_pi, ha, neg_zero]
  constructor
  · by_cases hc : t.getD 0 0 ≤ t.getD p 0 - T / 2
    · have hm := ht.apsides _ (mem 0 (by omega)) _ (mem p hpl) _ hc (by linarith) hback
      obtain ⟨j, hj, he⟩ := List.getElem_of_mem hm
      rw [← List.getD_eq_getElem _ 0 hj] at he
      exact ⟨j, (mono j p hj hpl (by rw [he]; linarith)).le, by rw [he]; linarith, by rw [he]; linarith⟩
    · obtain ⟨s, hs, s1, s2⟩ := ht.start (t.getD 0 0) (by
        rw [List.head?_eq_getElem?, List.getD_eq_getElem _ _ (by omega : 0 < t.length)]; exact List.getElem?_eq_getElem _)
      have := apsides_apart hε hε1 hq orbit hT hs ha (by linarith)
      exact ⟨0, h0.le, by linarith, by linarith⟩
  · by_cases hc : t.getD p 0 + T / 2 ≤ t.getD (t.length - 1) 0
    · have hm := ht.apsides _ (mem p hpl) _ (mem (t.length - 1) (by omega)) _ (by linarith) hc hforth
      obtain ⟨j, hj, he⟩ := List.getElem_of_mem hm
      rw [← List.getD_eq_getElem _ 0 hj] at he
      exact ⟨j, (mono p j hpl hj (by rw [he]; linarith)).le, hj, by rw [he]; linarith, by rw [he]; linarith⟩
    · obtain ⟨s, hs, s1, s2⟩ := ht.stop (t.getD (t.length - 1) 0) (by
        rw [List.getLast?_eq_getElem?, List.getD_eq_getElem _ _ (by omega : t.length - 1 < t.length)]
        exact List.getElem?_eq_getElem _)
      have := apsides_apart hε hε1 hq orbit hT ha hs (by linarith)
      exact ⟨t.length - 1, by omega, by omega, by linarith, by linarith⟩

open Classical in
/-- All maxima and minima, found by looking. -/
theorem maxima_apsides (hm : StrictMono f) (hc : Continuous f) {t : List ℝ} (hinc : t.Pairwise (· < ·))
    (haps : ∀ x ∈ t, ∀ y ∈ t, ∀ s, x ≤ s → s ≤ y → AtPericenter f s ∨ AtApocenter f s → s ∈ t) {G : ℝ → ℝ}
    (hG : ∀ s t, cos (f s) < cos (f t) → G s < G t) {i : ℕ} :
    (IsMaximum (t.map G) i → 0 < i ∧ i + 1 < t.length ∧ AtPericenter f (t.getD i 0)) ∧
    (IsMaximum (t.map fun x => -G x) i → 0 < i ∧ i + 1 < t.length ∧ AtApocenter f (t.getD i 0)) := by
  have D : NewtonianData 0 1 f f (NewtonDemo.obj 0 1 f f t "") := ⟨hinc, rfl, rfl, rfl, haps⟩
  have lt_of : ∀ (d : List ℝ) i, IsMaximum d i → i < d.length := by
    rintro d i ⟨l, r, h, rfl⟩
    have := h.le
    have := h.lt
    omega
  have look : ∀ d : List ℝ, FindsAllPeaks (fun d => .ok ((List.range d.length).filter fun i => IsMaximum d i)) d := by
    intro d
    refine ⟨_, rfl, List.pairwise_lt_range.filter _, fun i => ?_⟩
    simp only [List.mem_filter, List.mem_range, decide_eq_true_eq]
    exact ⟨fun h => h.2, fun h => ⟨lt_of _ _ h, h⟩⟩
  have H := peaks_found D hm hc hG (fun d => .ok ((List.range d.length).filter fun i => IsMaximum d i))
  constructor
  · intro h
    obtain ⟨l, h1, _, h2⟩ := H.1 (look _)
    have h1 := Except.ok.inj h1
    refine (h2 i).mp ?_
    rw [← h1]
    simp only [List.mem_filter, List.mem_range, decide_eq_true_eq]
    exact ⟨lt_of _ _ h, h⟩
  · intro h
    obtain ⟨l, h1, _, h2⟩ := H.2 (look _)
    have h1 := Except.ok.inj h1
    refine (h2 i).mp ?_
    rw [← h1]
    have e : ((NewtonDemo.obj 0 1 f f t "").t.map G).map (-·) = t.map fun x => -G x := by
      rw [List.map_map]; rfl
    rw [e]
    simp only [List.mem_filter, List.mem_range, decide_eq_true_eq]
    exact ⟨lt_of _ _ h, h⟩

set_option maxHeartbeats 1000000 in
/-- Peaks and troughs of a Newtonian signal of small eccentricity are as wide as asked for. -/
theorem wide_extrema {method : String} (hε : 0 < ε) (hε1 : ε ≤ 1 / 10) (hq : 0 < q) (orbit : KeplerOrbit ε q f)
    (hT : OrbitalPeriod f T) (hmethod : method = "Amplitude" ∨ method = "Frequency") {t : List ℝ} {dt : ℝ}
    (ht : WholeHalfOrbits f T dt t) {width : ℤ} (hw : 4 * (width * dt) ≤ T) :
    (∀ i, IsMaximum (t.map fun x => signal method ε q f x) i →
      ∃ v, HasWidth (t.map fun x => signal method ε q f x) i v ∧ (width : ℝ) ≤ v) ∧
    ∀ i, IsMaximum (t.map fun x => -signal method ε q f x) i →
      ∃ v, HasWidth (t.map fun x => -signal method ε q f x) i v ∧ (width : ℝ) ≤ v := by
  obtain ⟨g, hg, hmono, hpeak, htrough⟩ := signal_form hε hε1 hq orbit hmethod
  have h1 : ε < 1 := by linarith
  have hT0 := hT.1
  have hd := ht.positive
  have hm := f_strictMono hε.le h1 hq orbit
  have hle : ∀ c d, -1 ≤ c → c ≤ d → d ≤ 1 → g c ≤ g d := fun c d hc hcd hd1 => by
    rcases hcd.lt_or_eq with h | h
    · exact (hmono c d hc h hd1).le
    · rw [h]
  have hG : ∀ s r, cos (f s) < cos (f r) → signal method ε q f s < signal method ε q f r := fun s r h => by
    rw [hg, hg]; exact hmono _ _ (neg_one_le_cos _) h (cos_le_one _)
  have hinc : t.Pairwise (· < ·) := by
    rw [List.pairwise_iff_getElem]
    intro i j hi hj hij
    rw [← List.getD_eq_getElem _ 0 hi, ← List.getD_eq_getElem _ 0 hj, steps_getD ht.steps hi, steps_getD ht.steps hj]
    have : (i : ℝ) < j := by exact_mod_cast hij
    nlinarith
  have hmax := fun i => maxima_apsides (i := i) hm (f_continuous orbit) hinc ht.apsides hG
  -- the width in samples
  obtain ⟨m, hm1, hm2⟩ : ∃ m : ℕ, m * dt ≤ T / 6 ∧ (width : ℝ) ≤ 2 * m := by
    refine ⟨⌊T / (6 * dt)⌋₊, ?_, ?_⟩
    · have := Nat.floor_le (show 0 ≤ T / (6 * dt) by positivity)
      rw [le_div_iff₀ (by positivity)] at this
      linarith
    · have h2 := Nat.lt_floor_add_one (T / (6 * dt))
      rw [div_lt_iff₀ (by positivity)] at h2
      have h3 : 1 ≤ ⌊T / (6 * dt)⌋₊ := Nat.le_floor (by
        rw [le_div_iff₀ (by positivity)]; push_cast; linarith [ht.fine])
      generalize ⌊T / (6 * dt)⌋₊ = m at h2 h3
      have h4 : 2 * (width : ℝ) < 3 * (m + 1) := by
        by_contra hcon
        push Not at hcon
        nlinarith
      have h5 : 2 * width < 3 * ((m : ℤ) + 1) := by exact_mod_cast h4
      have h6 : width ≤ 2 * (m : ℤ) := by omega
      exact_mod_cast h6
  have near : ∀ p j, p < t.length → j < t.length → j ≤ p + m → p ≤ j + m → |t.getD j 0 - t.getD p 0| ≤ T / 6 := by
    intro p j hp hj h2 h3
    rw [steps_getD ht.steps hp, steps_getD ht.steps hj]
    have a1 : (j : ℝ) ≤ p + m := by exact_mod_cast h2
    have a2 : (p : ℝ) ≤ j + m := by exact_mod_cast h3
    rw [abs_le]
    constructor <;> nlinarith
  have get : ∀ (G : ℝ → ℝ) i, i < t.length → (t.map G).getD i 0 = G (t.getD i 0) := by
    intro G i hi
    rw [List.getD_eq_getElem _ _ (by simpa using hi), List.getElem_map, List.getD_eq_getElem _ _ hi]
  have hpi := pi_pos
  have ratio : ∀ x c : ℝ, x ≤ c * T → x / T ≤ c := fun x c h => (div_le_iff₀ hT0).mpr h
  have ratio' : ∀ x c : ℝ, c * T ≤ x → c ≤ x / T := fun x c h => (le_div_iff₀ hT0).mpr h
  constructor
  · intro p hp
    obtain ⟨p0, p1, hper⟩ := (hmax p).1 hp
    have hpl : p < t.length := by omega
    have hcp : cos (f (t.getD p 0)) = 1 := hper
    obtain ⟨⟨j, j1, j2, j3⟩, ⟨k, k1, k2, k3, k4⟩⟩ := far_samples hε.le h1 hq orbit hT ht p0 p1 (.inl hper)
    have kep := fun x => kepler_equation hε.le h1 hq orbit hT hper x
    obtain ⟨v, hv, hv2⟩ := wide (d := m) (β := g (-(7 / 10))) hp (fun i hi => by
        rw [List.length_map] at hi
        rw [get _ _ hi, get _ _ hpl, hg, hg, hcp]
        exact hle _ _ (neg_one_le_cos _) (cos_le_one _) le_rfl)
      ⟨j, j1, by
        rw [get _ _ (by omega), hg]
        refine hle _ _ (neg_one_le_cos _) (cos_far hε.le hε1 (kep _) ?_ ?_) (by norm_num)
        · rw [abs_of_nonpos (by
            have := ratio (t.getD j 0 - t.getD p 0) 0 (by linarith)
            nlinarith)]
          have := ratio (t.getD j 0 - t.getD p 0) (-(3 / 8)) (by linarith)
          nlinarith
        · rw [abs_of_nonpos (by
            have := ratio (t.getD j 0 - t.getD p 0) 0 (by linarith)
            nlinarith)]
          have := ratio' (t.getD j 0 - t.getD p 0) (-(1 / 2)) (by linarith)
          nlinarith⟩
      ⟨k, k1, by rw [List.length_map]; exact k2, by
        rw [get _ _ k2, hg]
        refine hle _ _ (neg_one_le_cos _) (cos_far hε.le hε1 (kep _) ?_ ?_) (by norm_num)
        · rw [abs_of_nonneg (by
            have := ratio' (t.getD k 0 - t.getD p 0) 0 (by linarith)
            positivity)]
          have := ratio' (t.getD k 0 - t.getD p 0) (3 / 8) (by linarith)
          nlinarith
        · rw [abs_of_nonneg (by
            have := ratio' (t.getD k 0 - t.getD p 0) 0 (by linarith)
            positivity)]
          have := ratio (t.getD k 0 - t.getD p 0) (1 / 2) (by linarith)
          nlinarith⟩
      (fun i hi i1 i2 => by
        rw [List.length_map] at hi
        rw [get _ _ hi, get _ _ hpl, hg, hg, hcp]
        have hn := abs_le.mp (near p i hpl hi i1 i2)
        have : 3 / 10 ≤ cos (f (t.getD i 0)) := cos_third hε.le hε1 (kep _) (by
          have a1 := ratio' (t.getD i 0 - t.getD p 0) (-(1 / 6)) (by linarith [hn.1])
          have a2 := ratio (t.getD i 0 - t.getD p 0) (1 / 6) (by linarith [hn.2])
          rw [abs_le]
          constructor <;> nlinarith)
        have := hle _ _ (by norm_num) this (cos_le_one _)
        linarith)
    exact ⟨v, hv, hm2.trans hv2⟩
  · intro p hp
    obtain ⟨p0, p1, hapo⟩ := (hmax p).2 hp
    have hpl : p < t.length := by omega
    have hcp : cos (f (t.getD p 0)) = -1 := hapo
    obtain ⟨⟨j, j1, j2, j3⟩, ⟨k, k1, k2, k3, k4⟩⟩ := far_samples hε.le h1 hq orbit hT ht p0 p1 (.inr hapo)
    have hb : AtPericenter f (t.getD p 0 - T / 2) := by
      unfold AtPericenter
      rw [half_orbit_back hε.le h1 hq orbit hT (.inr hapo), cos_sub_pi, hcp, neg_neg]
    have hf : AtPericenter f (t.getD p 0 + T / 2) := by
      unfold AtPericenter
      rw [half_orbit hε.le h1 hq orbit hT (.inr hapo), cos_add_pi, hcp, neg_neg]
    have kepb := fun x => kepler_equation hε.le h1 hq orbit hT hb x
    have kepf := fun x => kepler_equation hε.le h1 hq orbit hT hf x
    obtain ⟨v, hv, hv2⟩ := wide (d := m) (β := -g (1 / 2)) hp (fun i hi => by
        rw [List.length_map] at hi
        rw [get _ _ hi, get _ _ hpl, hg, hg, hcp]
        exact neg_le_neg (hle _ _ le_rfl (neg_one_le_cos _) (cos_le_one _)))
      ⟨j, j1, by
        rw [get _ _ (by omega), hg]
        refine neg_le_neg (hle _ _ (by norm_num) (cos_quarter hε.le hε1 (kepb _) ?_) (cos_le_one _))
        have a1 := ratio' (t.getD j 0 - (t.getD p 0 - T / 2)) 0 (by linarith)
        have a2 := ratio (t.getD j 0 - (t.getD p 0 - T / 2)) (1 / 8) (by linarith)
        rw [abs_le]
        constructor <;> nlinarith⟩
      ⟨k, k1, by rw [List.length_map]; exact k2, by
        rw [get _ _ k2, hg]
        refine neg_le_neg (hle _ _ (by norm_num) (cos_quarter hε.le hε1 (kepf _) ?_) (cos_le_one _))
        have a1 := ratio (t.getD k 0 - (t.getD p 0 + T / 2)) 0 (by linarith)
        have a2 := ratio' (t.getD k 0 - (t.getD p 0 + T / 2)) (-(1 / 8)) (by linarith)
        rw [abs_le]
        constructor <;> nlinarith⟩
      (fun i hi i1 i2 => by
        rw [List.length_map] at hi
        rw [get _ _ hi, get _ _ hpl, hg, hg, hcp]
        have hn := abs_le.mp (near p i hpl hi i1 i2)
        have : cos (f (t.getD i 0)) ≤ -(1 / 2) := by
          by_cases hs : t.getD i 0 ≤ t.getD p 0
          · have a1 := ratio' (t.getD i 0 - (t.getD p 0 - T / 2)) (1 / 3) (by linarith [hn.1])
            have a2 := ratio (t.getD i 0 - (t.getD p 0 - T / 2)) (1 / 2) (by linarith)
            have a3 : 0 ≤ 2 * π * ((t.getD i 0 - (t.getD p 0 - T / 2)) / T) := by nlinarith
            refine cos_two_thirds hε.le hε1 (kepb _) ?_ ?_
            · rw [abs_of_nonneg a3]; nlinarith
            · rw [abs_of_nonneg a3]; nlinarith
          · have a1 := ratio (t.getD i 0 - (t.getD p 0 + T / 2)) (-(1 / 3)) (by linarith [hn.2])
            have a2 := ratio' (t.getD i 0 - (t.getD p 0 + T / 2)) (-(1 / 2)) (by linarith)
            have a3 : 2 * π * ((t.getD i 0 - (t.getD p 0 + T / 2)) / T) ≤ 0 := by nlinarith
            refine cos_two_thirds hε.le hε1 (kepf _) ?_ ?_
            · rw [abs_of_nonpos a3]; nlinarith
            · rw [abs_of_nonpos a3]; nlinarith
        have := hle _ _ (neg_one_le_cos _) this (by norm_num)
        linarith)
    exact ⟨v, hv, hm2.trans hv2⟩

end KeplerWidth

open KeplerWidth in
/-- **C87** with numpy, scipy's splines and scipy's peak finder modelled.  The complex modes of a Newtonian binary of eccentricity at most 1/10 until `tEnd`,
whatever follows, at equal time steps, at least six to an orbit; a call with the default options but for splines that keeps only samples before `tEnd`,
about a whole number of half orbits.  It returns the eccentricity of the orbit. -/
theorem C87_modelled {ε q T dt : ℝ} {f φ : ℝ → ℝ} {tEnd : ℝ} {lib : Libs ℝ ℂ} {a : Call ℝ ℂ}
    {asked : Val ℝ} {t kept : List ℝ} {nd : DataV ℝ ℂ} {an : Analysis ℝ} {rotate : List ℝ → List (List ℂ) → Py (List (List ℂ))}
    {argsort : List ℝ → List ℕ} (hε : 0 < ε) (hε1 : ε ≤ 1 / 10) (hq : 0 < q)
    (orbit : KeplerOrbit ε q f) (hT : OrbitalPeriod f T) (hφ : IsPhase (strain22 ε q f) φ)
    (hnumpy : lib.wave = Numpy.wave rotate) (hsplines : lib.eval = scipyEval) (hderiv : lib.deriv = scipyDeriv)
    (hecc : lib.eccOf = eccFromOmega) (hscipy : lib.peaks = findPeaks argsort)
    (hwave : ComplexNewtonianUntil ε q f φ tEnd a.dataDict t) (hdict : ProperDicts a.dataDict)
    (hmethod : a.method = "Amplitude" ∨ a.method = "Frequency") (hpr : a.precessing = .isFalse) (hlevel : a.level = 0)
    (hopt : DefaultsBut a.extra "spline")
    (hasked : a.trefIn = some asked) (hfref : a.frefIn = none) (hframe : a.frame = "inertial")
    (hzero : NoQuasicircular a.dataDict)
    (hprep : processData lib.wave .isFalse a.frame a.dataDict a.numOrbits = .ok (nd, an))
    (hkept : array nd "t" = some kept) (hend : ∀ x ∈ kept, x ≤ tEnd) (hhalf : WholeHalfOrbits f T dt kept)
    (hwidth : 4 * (an.width * dt) ≤ T)
    (hbetween : ∃ x ∈ asked.atleast1d, BetweenPassages f kept x) :
    ∃ ans, (∀ fuel, run fuel lib a = some (.ok ans)) ∧ ReturnsEccentricity ε f asked ans.ret :=
  C87_complex hε hq orbit hφ hnumpy (faithful_scipy hsplines hderiv (by rw [hnumpy]; rfl) hecc) hwave hdict
    (by rcases hmethod with h | h
        · exact .inl ⟨h, by linarith⟩
        · exact .inr ⟨h, by linarith⟩) hpr hlevel hopt (fun h => absurd h (by decide)) hasked hfref hframe hzero hprep hkept
    ⟨dt, hhalf.steps⟩ hend ((C87_scipy hscipy).mpr (wide_extrema hε hε1 hq orbit hT hmethod hhalf hwidth)) hbetween

/-! ### The premises are met -/

namespace NewtonFine

open KeplerWidth NewtonComplex

variable {ε q : ℝ} {f : ℝ → ℝ} {t₀ h : ℝ} {n : ℕ}

/-- `n` samples from apsis to apsis, fifteen half orbits. -/
noncomputable def times (t₀ h : ℝ) (n : ℕ) : List ℝ := (List.range (15 * n + 1)).map fun i : ℕ => t₀ + i * (h / n)

/-- What the total amplitude shall be. -/
noncomputable def total (M : ℝ) (n i : ℕ) : ℝ := M + (12 * n) ^ 2 - ((i : ℝ) - 12 * n) ^ 2

/-- The mode (4,4). -/
noncomputable def burst (ε q : ℝ) (f : ℝ → ℝ) (t₀ h M : ℝ) (n : ℕ) : List ℂ :=
  (List.range (15 * n + 1)).map fun i : ℕ => ((√(total M n i ^ 2 - ‖strain22 ε q f (t₀ + i * (h / n))‖ ^ 2) : ℝ) : ℂ)

noncomputable def modes (ε q : ℝ) (f : ℝ → ℝ) (t₀ h M : ℝ) (n : ℕ) : Dict LM (List ℂ) :=
  [((2, 2), (times t₀ h n).map (strain22 ε q f)), ((4, 4), burst ε q f t₀ h M n)]

noncomputable def data (ε q : ℝ) (f : ℝ → ℝ) (t₀ h M : ℝ) (n : ℕ) : DataV ℝ ℂ :=
  [("t", .arr (times t₀ h n)), ("hlm", .modesC (modes ε q f t₀ h M n)),
    ("omegalm", .modesR [((2, 2), (times t₀ h n).map (frequency (strain22 ε q f)))])]

theorem new (rotate : List ℝ → List (List ℂ) → Py (List (List ℂ))) (M : ℝ) :
    newData (Numpy.wave rotate) (data ε q f t₀ h M n) = .ok [("t", .arr (times t₀ h n)),
      ("amplm", .modesR [((2, 2), Numpy.abs ((times t₀ h n).map (strain22 ε q f))), ((4, 4), Numpy.abs (burst ε q f t₀ h M n))]),
      ("phaselm", .modesR [((2, 2), Numpy.phase ((times t₀ h n).map (strain22 ε q f))), ((4, 4), Numpy.phase (burst ε q f t₀ h M n))]),
      ("omegalm", .modesR [((2, 2), (times t₀ h n).map (frequency (strain22 ε q f)))])] := rfl

/-- The phase used: twice the true anomaly and a correction that vanishes at the apsides. -/
noncomputable def phase (ε : ℝ) (f : ℝ → ℝ) (t : ℝ) : ℝ := 2 * f t - Complex.arg (WW ε (f t)) - π

theorem arg_small (hε : 0 ≤ ε) (hε1 : ε ≤ 1 / 10) (y : ℝ) : |Complex.arg (WW ε y)| ≤ |y| := by
  have hc := neg_one_le_cos y
  have hc1 := cos_le_one y
  have hpi := pi_pos
  have hre : 3 ≤ (WW ε y).re := by
    show 3 ≤ 4 * (1 + ε * cos y) ^ 2 - 2 * ε * (cos y + ε)
    have h1 : -(1 / 10) ≤ ε * cos y := by nlinarith
    nlinarith
  have ha := Complex.abs_arg_lt_pi_div_two_iff.mpr (.inl (by linarith : 0 < (WW ε y).re))
  have hs : sin (Complex.arg (WW ε y)) = (WW ε y).im / ‖WW ε y‖ := Complex.sin_arg _
  have hnorm : 3 ≤ ‖WW ε y‖ := hre.trans (Complex.re_le_norm _)
  have him : |(WW ε y).im| ≤ |y| := by
    show |4 * ε * sin y * (1 + ε * cos y)| ≤ |y|
    have h2 : |sin y| ≤ |y| := abs_sin_le_abs
    have h3 : |1 + ε * cos y| ≤ 11 / 10 := by rw [abs_le]; constructor <;> nlinarith
    rw [abs_mul, abs_mul, abs_of_nonneg (by positivity : 0 ≤ 4 * ε)]
    calc 4 * ε * |sin y| * |1 + ε * cos y| ≤ (4 / 10) * |y| * (11 / 10) := by
          apply mul_le_mul _ h3 (abs_nonneg _) (by positivity)
          exact mul_le_mul (by linarith) h2 (abs_nonneg _) (by norm_num)
      _ ≤ |y| := by have := abs_nonneg y; linarith
  have hsin : |sin (Complex.arg (WW ε y))| ≤ |y| / 3 := by
    rw [hs, abs_div, abs_of_pos (by linarith : 0 < ‖WW ε y‖)]
    exact div_le_div₀ (abs_nonneg _) him (by norm_num) hnorm
  have hj := mul_abs_le_abs_sin ha.le
  have : |Complex.arg (WW ε y)| = π / 2 * (2 / π * |Complex.arg (WW ε y)|) := by field_simp
  rw [this]
  have h4 := pi_lt_four
  have := abs_nonneg y
  calc π / 2 * (2 / π * |Complex.arg (WW ε y)|) ≤ π / 2 * (|y| / 3) := by
        apply mul_le_mul_of_nonneg_left (hj.trans hsin) (by positivity)
    _ ≤ |y| := by nlinarith

/-- At pericenters no other sample has the same phase. -/
theorem phase_ne (hε : 0 ≤ ε) (hε1 : ε ≤ 1 / 10) {x y : ℝ} {k : ℤ} (hx : f x = k * (2 * π)) (hne : f y ≠ f x) :
    phase ε f y ≠ phase ε f x := by
  unfold phase
  have hp : ∀ z, WW ε (f x + z) = WW ε z := by
    intro z
    unfold WW
    rw [hx, add_comm ((k : ℝ) * (2 * π)) z, cos_add_int_mul_two_pi, sin_add_int_mul_two_pi]
  have e : f y = f x + (f y - f x) := by ring
  rw [e, hp]
  have e0 : WW ε (f x) = WW ε 0 := by simpa using hp 0
  have hz : f y - f x ≠ 0 := sub_ne_zero.mpr hne
  have h1 := arg_small hε hε1 (f y - f x)
  have h0 := arg_small hε hε1 0
  rw [abs_zero] at h0
  rw [e0, abs_nonpos_iff.mp h0]
  intro hcon
  have h2 : Complex.arg (WW ε (f y - f x)) = 2 * (f y - f x) := by linarith
  rw [h2, abs_mul, abs_two] at h1
  have := abs_pos.mpr hz
  linarith

theorem phase_peri {x : ℝ} {k : ℤ} (hε : 0 ≤ ε) (hε1 : ε ≤ 1 / 10) (hx : f x = k * (2 * π)) : phase ε f x = 2 * f x - π := by
  unfold phase
  have e : WW ε (f x) = WW ε 0 := by
    unfold WW
    rw [hx, ← zero_add ((k : ℝ) * (2 * π)), cos_add_int_mul_two_pi, sin_add_int_mul_two_pi]
  have h0 := arg_small hε hε1 0
  rw [abs_zero] at h0
  rw [e, abs_nonpos_iff.mp h0, sub_zero]

theorem prepared (hε : 0 < ε) (hε1 : ε ≤ 1 / 10) (hq : 0 < q) (orbit : KeplerOrbit ε q f)
    (hh : 0 < h) (hf : ∀ i : ℕ, f (t₀ + i * h) = i * π) (hn : 0 < n)
    (hsmall : ∀ i : ℕ, i < 15 * n → |phase ε f (t₀ + (i + 1 : ℕ) * (h / n)) - phase ε f (t₀ + i * (h / n))| < π)
    (rotate : List ℝ → List (List ℂ) → Py (List (List ℂ))) {M : ℝ} (hM : ∀ x, ‖strain22 ε q f x‖ ≤ M) :
    ∃ nd an, processData (Numpy.wave rotate) .isFalse "inertial" (data ε q f t₀ h M n) (some 1) = .ok (nd, an) ∧
      array nd "t" = some ((times t₀ h n).take (10 * n)) ∧ an.width = n / 2 := by
  have hpos := pi_pos
  have h1 : ε < 1 := by linarith
  have hφ := explicit_phase hε.le h1 hq orbit
  have hmono := f_strictMono hε.le h1 hq orbit
  have hn' : (0 : ℝ) < n := by exact_mod_cast hn
  have hd : 0 < h / n := by positivity
  have hlen : (times t₀ h n).length = 15 * n + 1 := by simp [times]
  have hget : ∀ i (hi : i < (times t₀ h n).length), (times t₀ h n)[i] = t₀ + i * (h / n) := by
    intro i hi
    simp [times]
  have hinc : (times t₀ h n).Pairwise (· < ·) := by
    unfold times
    rw [List.pairwise_map]
    refine List.pairwise_lt_range.imp fun {i j} hij => ?_
    have : (i : ℝ) < j := by exact_mod_cast hij
    nlinarith
  -- the phase numpy computes
  obtain ⟨k, hk⟩ := phase_until (tEnd := t₀ + (15 * n : ℕ) * (h / n)) (t := times t₀ h n) (H := strain22 ε q f) hε.le h1 hq orbit hφ hinc (fun _ _ _ => rfl) (by
    intro i x y hx hy _
    have hi : i + 1 < (times t₀ h n).length := (List.getElem?_eq_some_iff.mp hy).1
    rw [List.getElem?_eq_getElem (by omega), hget] at hx
    rw [List.getElem?_eq_getElem hi, hget] at hy
    rw [← Option.some.inj hx, ← Option.some.inj hy]
    exact hsmall i (by omega))
  have hP : Numpy.phase ((times t₀ h n).map (strain22 ε q f)) = (times t₀ h n).map fun x => phase ε f x + 2 * π * k := by
    refine List.ext_getElem? fun i => ?_
    by_cases hi : i < (times t₀ h n).length
    · rw [hk i _ (List.getElem?_eq_getElem hi) (by
        rw [hget]
        have : (i : ℝ) ≤ (15 * n : ℕ) := by exact_mod_cast (by omega : i ≤ 15 * n)
        nlinarith), List.getElem?_map, List.getElem?_eq_getElem hi]
      rfl
    · rw [List.getElem?_eq_none (by rw [Numpy.phase_length, List.length_map]; omega), List.getElem?_eq_none (by
        rw [List.length_map]; omega)]
  obtain ⟨P, hPdef⟩ : ∃ P, P = Numpy.phase ((times t₀ h n).map (strain22 ε q f)) := ⟨_, rfl⟩
  rw [← hPdef] at hP
  -- pericenters
  have hper : ∀ m : ℕ, f (t₀ + (2 * m * n : ℕ) * (h / n)) = (m : ℤ) * (2 * π) := by
    intro m
    have : t₀ + ((2 * m * n : ℕ) : ℝ) * (h / n) = t₀ + (2 * m : ℕ) * h := by push_cast; field_simp
    rw [this, hf]
    push_cast
    ring
  obtain ⟨c, hc⟩ : ∃ c, c = 2 * π * k - π := ⟨_, rfl⟩
  have hval : ∀ m : ℕ, phase ε f (t₀ + (2 * m * n : ℕ) * (h / n)) + 2 * π * k = 4 * π * m + c := by
    intro m
    rw [phase_peri hε.le hε1 (hper m), hper, hc]
    push_cast
    ring
  have gP : ∀ m : ℕ, 2 * m ≤ 15 → pyGet P (2 * m * n) = .ok (4 * π * m + c) := by
    intro m hm
    have hlt : 2 * m * n < (times t₀ h n).length := by rw [hlen]; nlinarith
    rw [hP, pyGet_of_lt (by simpa using hlt), List.getElem_map, hget, hval]
  have gt : ∀ i, i ≤ 15 * n → pyGet (times t₀ h n) i = .ok (t₀ + i * (h / n)) := by
    intro i hi
    rw [pyGet_of_lt (by rw [hlen]; omega), hget]
  have near : ∀ m : ℕ, 2 * m ≤ 15 → argmin (P.map fun x => |x - (4 * π * m + c)|) = .ok (2 * m * n) := by
    intro m hm
    have hlt : 2 * m * n < (times t₀ h n).length := by rw [hlen]; nlinarith
    refine NewtonCall.argmin_of (by rw [hP]; simpa using hlt) fun j hj hne => ?_
    simp only [hP, List.getElem_map, hget]
    have hjl : j < (times t₀ h n).length := by rw [hP] at hj; simpa using hj
    rw [hval m, sub_self, abs_zero, abs_pos, sub_ne_zero, ← hval m]
    intro hcon
    refine phase_ne hε.le hε1 (hper m) (fun heq => hne ?_) (add_right_cancel hcon)
    have := hmono.injective heq
    have : (j : ℝ) * (h / n) = (2 * m * n : ℕ) * (h / n) := by linarith
    exact_mod_cast mul_right_cancel₀ hd.ne' this
  -- the merger
  have htot : (Numpy.wave rotate).totalAmp [Numpy.abs ((times t₀ h n).map (strain22 ε q f)), Numpy.abs (burst ε q f t₀ h M n)] =
      .ok ((List.range (15 * n + 1)).map (total M n)) := by
    rw [show (Numpy.wave rotate).totalAmp = Numpy.totalAmp from rfl]
    unfold Numpy.totalAmp
    dsimp only
    rw [if_pos (by simp [Numpy.abs, burst, times])]
    refine congrArg Except.ok (List.ext_getElem (by simp [Numpy.abs, times]) fun i i1 i2 => ?_)
    have hi : i < 15 * n + 1 := by simpa using i2
    simp only [List.getElem_map, List.getElem_range, List.map_cons, List.map_nil]
    rw [List.getD_eq_getElem _ _ (by simp [Numpy.abs, times, hi]), List.getD_eq_getElem _ _ (by simp [Numpy.abs, burst, hi])]
    simp only [Numpy.abs, burst, times, List.getElem_map, List.getElem_range, ampAllAmplm, List.foldl_cons, List.foldl_nil]
    have hA := norm_nonneg (strain22 ε q f (t₀ + i * (h / n)))
    have hAM := hM (t₀ + i * (h / n))
    generalize ‖strain22 ε q f (t₀ + i * (h / n))‖ = A at hA hAM
    have hB : A ≤ total M n i := by
      unfold total
      have b1 : (0 : ℝ) ≤ i := Nat.cast_nonneg _
      have b2 : (i : ℝ) ≤ 15 * n := by exact_mod_cast (by omega : i ≤ 15 * n)
      nlinarith
    generalize total M n i = B at hB
    rw [Complex.norm_real, Real.norm_eq_abs, sq_abs, Real.sq_sqrt (by nlinarith), zero_add, add_sub_cancel, Real.sqrt_sq (hA.trans hB)]
  have hpeak : peakTime (times t₀ h n) ((List.range (15 * n + 1)).map (total M n)) =
      .ok (t₀ + (12 * n : ℕ) * (h / n), M + (12 * n) ^ 2) := by
    refine C17_exact _ _ (by simp [hlen]) (by rw [hlen]; omega) hinc _ _ (-1 / (h / n) ^ 2) ?_ (12 * n) ?_ ?_
    · exact div_ne_zero (by norm_num) (by positivity)
    · refine NewtonCall.argmax_of (by simp; omega) fun j hj hne => ?_
      simp only [List.getElem_map, List.getElem_range, total]
      have : ((j : ℝ) - 12 * n) ≠ 0 := by
        intro h0
        apply hne
        have : (j : ℝ) = (12 * n : ℕ) := by push_cast; linarith
        exact_mod_cast this
      have := sq_pos_of_ne_zero this
      push_cast
      linarith
    · intro j h1 h2 _ _
      simp only [hget, List.getElem_map, List.getElem_range, total]
      have : t₀ + j * (h / n) - (t₀ + (12 * n : ℕ) * (h / n)) = ((j : ℝ) - 12 * n) * (h / n) := by push_cast; ring
      rw [this]
      generalize h / n = d at hd
      field_simp
      ring
  have merger : argmin ((times t₀ h n).map fun x => |x - (t₀ + (12 * n : ℕ) * (h / n))|) = .ok (12 * n) := by
    refine NewtonCall.argmin_of (by simp [hlen]; omega) fun j hj hne => ?_
    rw [List.getElem_map, List.getElem_map, hget, hget, sub_self, abs_zero, abs_pos]
    intro h0
    have : (j : ℝ) * (h / n) = (12 * n : ℕ) * (h / n) := by linarith
    exact hne (by exact_mod_cast mul_right_cancel₀ hd.ne' this)
  have gA : ∃ x, pyGet (Numpy.abs ((times t₀ h n).map (strain22 ε q f))) (12 * n) = .ok x :=
    ⟨_, pyGet_of_lt (by simp [Numpy.abs, hlen]; omega)⟩
  have gW : pyGet ((times t₀ h n).map (frequency (strain22 ε q f))) (12 * n) =
      .ok (frequency (strain22 ε q f) (t₀ + (12 * n : ℕ) * (h / n))) := by
    rw [pyGet_of_lt (by simp [hlen]; omega), List.getElem_map, hget]
  have g12 := gP 6 (by omega)
  have g0 := gP 0 (by omega)
  norm_num only [zero_mul] at g12 g0
  have back : ∀ m : ℕ, m ≤ 6 → indexBeforeMerger π P (4 * π * 6 + c) m = .ok (2 * (6 - m) * n) := by
    intro m hm
    unfold indexBeforeMerger
    dsimp only
    rw [show P = P from rfl, g0]
    simp only [ok_bind]
    have e : 4 * π * 6 + c - 4 * π * (m : ℝ) = 4 * π * ((6 - m : ℕ) : ℝ) + c := by
      rw [Nat.cast_sub hm]
      push_cast
      ring
    rw [e, if_neg, near _ (by omega)]
    have : (0 : ℝ) ≤ ((6 - m : ℕ) : ℝ) := Nat.cast_nonneg _
    nlinarith
  have hwidth : peakWidth π (times t₀ h n) P (4 * π * 6 + c) = .ok (n / 2) := by
    unfold peakWidth
    have b2 := back 2 (by omega)
    have b1 := back 1 (by omega)
    norm_num only at b1 b2
    rw [b2, ok_bind, gt (8 * n) (by omega), ok_bind, b1, ok_bind, gt (10 * n) (by omega), ok_bind]
    rw [gt 1 (by omega), ok_bind, gt 0 (by omega), ok_bind, if_neg]
    · refine congrArg Except.ok ?_
      have e1 : t₀ + ((10 * n : ℕ) : ℝ) * (h / n) - (t₀ + ((8 * n : ℕ) : ℝ) * (h / n)) = 2 * n * (h / n) := by push_cast; ring
      have e2 : t₀ + ((1 : ℕ) : ℝ) * (h / n) - (t₀ + ((0 : ℕ) : ℝ) * (h / n)) = h / n := by push_cast; ring
      rw [e1, e2, mul_div_cancel_right₀ _ hd.ne']
      unfold pyInt
      rw [if_pos (by positivity), Int.floor_eq_iff]
      have c1 := Nat.div_mul_le_self n 2
      have c2 : n < (n / 2) * 2 + 2 := by omega
      have c1' : ((n / 2 : ℕ) : ℝ) * 2 ≤ n := by exact_mod_cast c1
      have c2' : (n : ℝ) < ((n / 2 : ℕ) : ℝ) * 2 + 2 := by exact_mod_cast c2
      have c3 : (((n : ℤ) / 2 : ℤ) : ℝ) = ((n / 2 : ℕ) : ℝ) := by norm_cast
      rw [c3]
      constructor <;> linarith
    · push_cast; ring_nf; exact hd.ne'
  obtain ⟨A, hA⟩ := gA
  have hfreq : 0 ≤ frequency (strain22 ε q f) (t₀ + (12 * n : ℕ) * (h / n)) := by
    have : t₀ + ((12 * n : ℕ) : ℝ) * (h / n) = t₀ + (12 : ℕ) * h := by push_cast; field_simp
    rw [this, frequency_apsis hε.le h1 hq orbit _ 1 (by rw [hf, cos_eq_one_iff]; exact ⟨6, by push_cast; ring⟩) (by norm_num)]
    positivity
  obtain ⟨nd, hnd⟩ : ∃ nd, newData (Numpy.wave rotate) (data ε q f t₀ h M n) = .ok nd := ⟨_, new rotate M⟩
  have hnd' := hnd
  rw [new, ← hPdef] at hnd'
  have hnd' := (Except.ok.inj hnd').symm
  have hana : analyse (Numpy.wave rotate) false nd (some 1) = .ok ⟨t₀ + (12 * n : ℕ) * (h / n), A, n / 2, some (10 * n)⟩ := by
    unfold analyse
    rw [show getArr nd "t" = .ok (times t₀ h n) by rw [hnd']; rfl, ok_bind]
    rw [show getR nd "amplm" = .ok [((2, 2), Numpy.abs ((times t₀ h n).map (strain22 ε q f))), ((4, 4), Numpy.abs (burst ε q f t₀ h M n))] by
      rw [hnd']; rfl, ok_bind]
    simp only [List.map_cons, List.map_nil]
    rw [htot, ok_bind, hpeak, ok_bind]
    dsimp only
    rw [merger, ok_bind, show gwQuantities false nd "" = .ok (Numpy.abs ((times t₀ h n).map (strain22 ε q f)), P,
      (times t₀ h n).map (frequency (strain22 ε q f))) by rw [hnd']; rfl, ok_bind]
    dsimp only
    rw [hA, ok_bind, g12, ok_bind, gW, ok_bind, g0, ok_bind]
    rw [if_neg (by nlinarith), if_neg (not_lt.mpr hfreq)]
    rw [show (Numpy.wave rotate).pi = π from rfl, hwidth, ok_bind, if_neg (by norm_num)]
    have b1 := back 1 (by omega)
    rw [Nat.cast_one] at b1
    rw [b1]
    rfl
  obtain ⟨nd', hcut, hnt⟩ : ∃ nd', cutData (10 * n) nd = .ok nd' ∧ array nd' "t" = some ((times t₀ h n).take (10 * n)) := by
    rw [hnd']; exact ⟨_, rfl, rfl⟩
  refine ⟨nd', ⟨t₀ + (12 * n : ℕ) * (h / n), A, n / 2, some (10 * n)⟩, ?_, hnt, ?_⟩
  · unfold processData
    rw [show checkShape (Dict.has (data ε q f t₀ h M n)) = .ok () from rfl, ok_bind]
    rw [show mustTransform .isFalse "inertial" = false from rfl]
    simp only [Bool.false_eq_true, if_false, pure_eq_ok, ok_bind]
    rw [hnd, ok_bind, show Flag.isFalse.truth = false from rfl, hana, ok_bind]
    dsimp only
    rw [hcut]
    rfl
  · rfl

/-- Libraries as modelled: numpy, scipy's splines and scipy's peak finder. -/
noncomputable def lib : Libs ℝ ℂ where
  wave := Numpy.wave fun _ cols => .ok cols
  filter := NewtonCall.lib.filter
  fits := NewtonCall.lib.fits
  tol := NewtonCall.lib.tol
  monoTol := NewtonCall.lib.monoTol
  eccOf := eccFromOmega
  eval := scipyEval
  deriv := scipyDeriv
  argsort := NewtonCall.lib.argsort
  solve := NewtonCall.lib.solve
  rational := NewtonCall.lib.rational
  peaks := findPeaks fun _ => []

noncomputable def call (method : String) (ε q : ℝ) (f : ℝ → ℝ) (t₀ h M : ℝ) (n : ℕ) : Call ℝ ℂ where
  method := method
  dataDict := data ε q f t₀ h M n
  trefIn := some (.scalar (t₀ + 4 * h))
  numOrbits := some 1
  extra := NewtonCall.splines

theorem proper (M : ℝ) : ProperDicts (data ε q f t₀ h M n) := by
  intro key e he
  have he : (data ε q f t₀ h M n).get? key = some e := he
  unfold data at he
  simp only [Dict.get?_cons] at he
  split at he
  · cases he; exact ⟨fun _ h => (by cases h), fun _ h => (by cases h)⟩
  split at he
  · cases he; exact ⟨fun _ h => (by cases h), fun _ h => (by cases h; simp [modes, Dict.keys])⟩
  split at he
  · cases he; exact ⟨fun _ h => (by cases h; simp [Dict.keys]), fun _ h => (by cases h)⟩
  cases he

/-- For every eccentricity up to 1/10 a whole call on such a waveform returns the eccentricity of the orbit. -/
example (hε : 0 < ε) (hε1 : ε ≤ 1 / 10) (hq : 0 < q) (method : String) (hm : method = "Amplitude" ∨ method = "Frequency") :
    ∃ f t₀ h M n, KeplerOrbit ε q f ∧ 0 < h ∧ 0 < n ∧
      ∃ ans, (∀ fuel, run fuel lib (call method ε q f t₀ h M n) = some (.ok ans)) ∧
      ReturnsEccentricity ε f (.scalar (t₀ + 4 * h)) ans.ret := by
  have h1 : ε < 1 := by linarith
  have hpos := pi_pos
  obtain ⟨f, orbit, hs⟩ := exists_kepler hε.le h1 hq
  have hφ := explicit_phase hε.le h1 hq orbit
  obtain ⟨t₀, h, hh, hf⟩ := NewtonCall.half_periods hε.le h1 hq orbit hs
  have hmono := f_strictMono hε.le h1 hq orbit
  -- the amplitude is bounded
  obtain ⟨M, hM⟩ : ∃ M, ∀ x, ‖strain22 ε q f x‖ ≤ M := by
    obtain ⟨g, hg, hgm, _⟩ := signal_form (method := "Amplitude") hε hε1 hq orbit (.inl rfl)
    refine ⟨g 1, fun x => ?_⟩
    have e : ‖strain22 ε q f x‖ = g (cos (f x)) := hg x
    rw [e]
    rcases (cos_le_one (f x)).lt_or_eq with hlt | heq
    · exact (hgm _ _ (neg_one_le_cos _) hlt le_rfl).le
    · rw [heq]
  -- fine sampling
  obtain ⟨δ, hδ, hu⟩ := Metric.uniformContinuousOn_iff.mp
    ((isCompact_Icc (a := t₀) (b := t₀ + 15 * h)).uniformContinuousOn_of_continuous hφ.continuous.continuousOn) π hpos
  obtain ⟨m, hm1⟩ := exists_nat_gt (h / δ)
  obtain ⟨n, hn⟩ : ∃ n : ℕ, n = m + 4 := ⟨_, rfl⟩
  have hn0 : (0 : ℝ) < n := by exact_mod_cast (by omega : 0 < n)
  have hn4 : (4 : ℝ) ≤ n := by exact_mod_cast (by omega : 4 ≤ n)
  have hd : 0 < h / n := by positivity
  have hnd : (n : ℝ) * (h / n) = h := by field_simp
  have hfine : h / n < δ := by
    rw [div_lt_iff₀ hn0]
    rw [div_lt_iff₀ hδ] at hm1
    have : (m : ℝ) ≤ n := by exact_mod_cast (by omega : m ≤ n)
    nlinarith
  have hsmall : ∀ i : ℕ, i < 15 * n → |phase ε f (t₀ + (i + 1 : ℕ) * (h / n)) - phase ε f (t₀ + i * (h / n))| < π := by
    intro i hi
    have hi0 : (0 : ℝ) ≤ i := Nat.cast_nonneg _
    have hi1 : (i : ℝ) + 1 ≤ 15 * n := by exact_mod_cast (by omega : i + 1 ≤ 15 * n)
    have := hu (t₀ + (i + 1 : ℕ) * (h / n)) (by push_cast; constructor <;> nlinarith) (t₀ + i * (h / n))
      (by constructor <;> nlinarith) (by
        rw [Real.dist_eq]
        have : t₀ + ((i + 1 : ℕ) : ℝ) * (h / n) - (t₀ + i * (h / n)) = h / n := by push_cast; ring
        rw [this, abs_of_pos hd]
        exact hfine)
    rwa [Real.dist_eq] at this
  obtain ⟨nd, an, hprep, hkept, hwidth⟩ := prepared hε hε1 hq orbit hh hf (by omega : 0 < n) hsmall (fun _ cols => .ok cols) hM
  have hlen : (times t₀ h n).length = 15 * n + 1 := by simp [times]
  have kept_mem : ∀ x, x ∈ (times t₀ h n).take (10 * n) ↔ ∃ i : ℕ, i < 10 * n ∧ x = t₀ + i * (h / n) := by
    intro x
    rw [List.mem_take_iff_getElem]
    constructor
    · rintro ⟨i, hi, rfl⟩
      exact ⟨i, by simp at hi; omega, by simp [times]⟩
    · rintro ⟨i, hi, rfl⟩
      exact ⟨i, by simp [times]; omega, by simp [times]⟩
  have mem : ∀ x, x ∈ times t₀ h n ↔ ∃ i : ℕ, i < 15 * n + 1 ∧ x = t₀ + i * (h / n) := by
    intro x
    unfold times
    rw [List.mem_map]
    simp only [List.mem_range]
    exact ⟨fun ⟨i, h1, h2⟩ => ⟨i, h1, h2.symm⟩, fun ⟨i, h1, h2⟩ => ⟨i, h1, h2.symm⟩⟩
  have step : ∀ k : ℕ, t₀ + (k : ℝ) * h = t₀ + ((k * n : ℕ) : ℝ) * (h / n) := by
    intro k
    push_cast
    rw [mul_assoc, hnd]
  -- an apsis between two samples is one of them
  have apsis : ∀ i j : ℕ, ∀ s, t₀ + i * (h / n) ≤ s → s ≤ t₀ + j * (h / n) → AtPericenter f s ∨ AtApocenter f s →
      ∃ k : ℕ, i ≤ k ∧ k ≤ j ∧ s = t₀ + k * (h / n) := by
    intro i j s s1 s2 hs
    obtain ⟨k, hk⟩ := sin_eq_zero_iff.mp ((apsis_iff s).mp hs)
    have h0 : f t₀ = 0 := by simpa using hf 0
    have hk0 : 0 ≤ k := by
      have : f t₀ ≤ f s := hmono.monotone (le_trans (by have : (0 : ℝ) ≤ i := Nat.cast_nonneg _; nlinarith) s1)
      rw [h0, ← hk] at this
      by_contra hneg
      have : (k : ℝ) ≤ -1 := by exact_mod_cast (by omega : k ≤ -1)
      nlinarith
    obtain ⟨l, rfl⟩ := Int.eq_ofNat_of_zero_le hk0
    have e : s = t₀ + (l : ℝ) * h := hmono.injective (by rw [hf, ← hk]; simp)
    rw [step] at e
    rw [e] at s1 s2
    refine ⟨l * n, ?_, ?_, e⟩
    · have : (i : ℝ) ≤ (l * n : ℕ) := by
        have := (add_le_add_iff_left t₀).mp s1
        exact le_of_mul_le_mul_right this hd
      exact_mod_cast this
    · have : ((l * n : ℕ) : ℝ) ≤ j := by
        have := (add_le_add_iff_left t₀).mp s2
        exact le_of_mul_le_mul_right this hd
      exact_mod_cast this
  have hT : OrbitalPeriod f (2 * h) := by
    obtain ⟨T, hT⟩ := exists_period hε.le h1 hq orbit
    have := half_orbit hε.le h1 hq orbit hT (s := t₀) ((apsis_iff _).mpr (by rw [show f t₀ = 0 by simpa using hf 0, sin_zero]))
    have e1 := hf 1
    have e0 := hf 0
    simp only [Nat.cast_zero, zero_mul, add_zero, Nat.cast_one, one_mul] at e0 e1
    have : t₀ + T / 2 = t₀ + h := hmono.injective (by rw [this, e0, e1, zero_add])
    have e : 2 * h = T := by linarith
    rw [e]
    exact hT
  refine ⟨f, t₀, h, M, n, orbit, hh, by omega, C87_modelled (T := 2 * h) (dt := h / n) (tEnd := t₀ + 9 * h + h) (t := times t₀ h n)
    (rotate := fun _ cols => .ok cols) (argsort := fun _ => []) hε hε1 hq orbit hT hφ rfl rfl rfl rfl rfl ?_ (proper M) hm rfl rfl
    NewtonCall.splines_defaults rfl rfl rfl ?_ hprep hkept ?_ ?_ ?_ ?_⟩
  · refine ⟨rfl, ?_, ⟨strain22 ε q f, frequency (strain22 ε q f), rfl, rfl, fun _ _ _ => ⟨rfl, rfl⟩⟩, ⟨rfl, rfl⟩, ?_, ?_⟩
    · unfold times
      rw [List.pairwise_map]
      refine List.pairwise_lt_range.imp fun {i j} hij => ?_
      have : (i : ℝ) < j := by exact_mod_cast hij
      nlinarith
    · intro x hx y hy _ s s1 s2 hs
      rw [mem] at hx hy ⊢
      obtain ⟨i, hi, rfl⟩ := hx
      obtain ⟨j, hj, rfl⟩ := hy
      obtain ⟨k, _, k2, k3⟩ := apsis i j s s1 s2 hs
      exact ⟨k, by omega, k3⟩
    · intro i x y hx hy _
      have hi : i + 1 < (times t₀ h n).length := (List.getElem?_eq_some_iff.mp hy).1
      rw [List.getElem?_eq_getElem (by omega)] at hx
      rw [List.getElem?_eq_getElem hi] at hy
      rw [← Option.some.inj hx, ← Option.some.inj hy]
      simp only [times, List.getElem_map, List.getElem_range]
      exact hsmall i (by omega)
  · intro key hkey
    simp only [List.mem_cons, List.not_mem_nil, or_false] at hkey
    rcases hkey with rfl | rfl | rfl | rfl | rfl <;> rfl
  · intro x hx
    rw [kept_mem] at hx
    obtain ⟨i, hi, rfl⟩ := hx
    have : (i : ℝ) ≤ 10 * n := by exact_mod_cast (by omega : i ≤ 10 * n)
    nlinarith
  · refine ⟨fun i hi => ?_, hd, ?_, fun x hx => ?_, fun x hx => ?_, ?_⟩
    · simp only [List.getElem_take, times, List.getElem_map, List.getElem_range]
      push_cast
      ring
    · nlinarith
    · have e : x = t₀ := by
        rw [List.head?_eq_getElem?, List.getElem?_take, if_pos (by omega), List.getElem?_eq_getElem (by rw [hlen]; omega)] at hx
        have := Option.some.inj hx
        rw [← this]
        simp [times]
      exact ⟨t₀, (apsis_iff _).mpr (by rw [show f t₀ = 0 by simpa using hf 0, sin_zero]), e.ge, by rw [e]; linarith⟩
    · have e : x = t₀ + ((10 * n - 1 : ℕ) : ℝ) * (h / n) := by
        rw [List.getLast?_eq_getElem?, List.length_take, hlen, min_eq_left (by omega), List.getElem?_take, if_pos (by omega),
          List.getElem?_eq_getElem (by rw [hlen]; omega)] at hx
        have := Option.some.inj hx
        rw [← this]
        simp [times]
      rw [Nat.cast_sub (by omega)] at e
      push_cast at e
      refine ⟨t₀ + (10 : ℕ) * h, (apsis_iff _).mpr (by rw [hf]; exact sin_nat_mul_pi _), ?_, ?_⟩
      · rw [e]; push_cast; nlinarith
      · rw [e]; push_cast; nlinarith
    · intro x hx y hy s s1 s2 hs
      rw [kept_mem] at hx hy ⊢
      obtain ⟨i, hi, rfl⟩ := hx
      obtain ⟨j, hj, rfl⟩ := hy
      obtain ⟨k, _, k2, k3⟩ := apsis i j s s1 s2 hs
      exact ⟨k, by omega, k3⟩
  · rw [hwidth]
    have : 2 * (((n : ℤ) / 2 : ℤ) : ℝ) ≤ n := by exact_mod_cast (by omega : 2 * ((n : ℤ) / 2) ≤ n)
    nlinarith
  · refine ⟨t₀ + 4 * h, by simp [Val.atleast1d], t₀ + (2 : ℕ) * h, t₀ + (6 : ℕ) * h, t₀ + (1 : ℕ) * h, t₀ + (5 : ℕ) * h,
      ?_, ?_, ?_, ?_, by push_cast; linarith, by push_cast; linarith, by push_cast; linarith, by push_cast; linarith,
      by push_cast; linarith, by push_cast; linarith, ?_⟩
    · unfold AtPericenter; rw [hf, cos_eq_one_iff]; exact ⟨1, by push_cast; ring⟩
    · unfold AtPericenter; rw [hf, cos_eq_one_iff]; exact ⟨3, by push_cast; ring⟩
    · unfold AtApocenter; rw [hf, cos_eq_neg_one_iff]; exact ⟨0, by push_cast; ring⟩
    · unfold AtApocenter; rw [hf, cos_eq_neg_one_iff]; exact ⟨2, by push_cast; ring⟩
    · intro s hs
      have : ∃ i : ℕ, 0 < i ∧ i < 9 ∧ s = t₀ + i * h := by
        simp only [List.mem_cons, List.not_mem_nil, or_false] at hs
        rcases hs with rfl | rfl | rfl | rfl
        · exact ⟨2, by omega, by omega, rfl⟩
        · exact ⟨6, by omega, by omega, rfl⟩
        · exact ⟨1, by omega, by omega, rfl⟩
        · exact ⟨5, by omega, by omega, rfl⟩
      obtain ⟨i, hi0, hi9, rfl⟩ := this
      have h0 : (0 : ℝ) < i := by exact_mod_cast hi0
      have h9 : (i : ℝ) < 9 := by exact_mod_cast hi9
      refine ⟨⟨t₀ + (0 : ℕ) * (h / n), (kept_mem _).mpr ⟨0, by omega, rfl⟩, by push_cast; nlinarith⟩,
        t₀ + (9 * n : ℕ) * (h / n), (kept_mem _).mpr ⟨9 * n, by omega, rfl⟩, by push_cast; nlinarith⟩

end NewtonFine

end GwEcc
