import Verif.Model.Fits
import Verif.Lemmas.Segment
import Verif.Lemmas.Utils
import Verif.Props.Residual
import Mathlib.Analysis.SpecialFunctions.Pow.Deriv

/-!
# C41: the quasicircular model used as envelope or secular trend

The model is `A (T - t)^n` with `n` and `A` computed from the value `f0` and the slope `f1` at the centre time `t0`.  The
power function is that of the real numbers.
-/

set_option linter.unusedSectionVars false

namespace GwEcc.Envelope

/-- The trend over the reals. -/
noncomputable abbrev trend (t0 : ℝ) (p : Trend ℝ) (t : ℝ) : ℝ := trendAt (fun x y => x ^ y) t0 p t

/-- **C41.**  At the centre time the model has the fitted value. -/
theorem C41_value (t0 : ℝ) (p : Trend ℝ) (hT : t0 < p.T) : trend t0 p t0 = p.f0 := by
  have h : 0 < p.T - t0 := sub_pos.mpr hT
  unfold trend trendAt
  dsimp only
  rw [mul_assoc, ← Real.rpow_add h, neg_add_cancel, Real.rpow_zero, mul_one]

/-- Derivative of the model before its singularity. -/
theorem hasDerivAt_trend (t0 : ℝ) (p : Trend ℝ) {t : ℝ} (ht : t < p.T) :
    HasDerivAt (trend t0 p) (p.f0 * (p.T - t0) ^ (-(-(p.T - t0) * p.f1 / p.f0)) *
      (-(-(p.T - t0) * p.f1 / p.f0) * (p.T - t) ^ (-(p.T - t0) * p.f1 / p.f0 - 1))) t := by
  have h1 : HasDerivAt (fun t => p.T - t) (-1) t := (hasDerivAt_id t).const_sub p.T
  have h2 := h1.rpow_const (p := -(p.T - t0) * p.f1 / p.f0) (.inl (sub_pos.mpr ht).ne')
  refine (h2.const_mul (p.f0 * (p.T - t0) ^ (-(-(p.T - t0) * p.f1 / p.f0)))).congr_deriv ?_
  ring

/-- **C41.**  At the centre time the model has the fitted slope. -/
theorem C41_slope (t0 : ℝ) (p : Trend ℝ) (hT : t0 < p.T) (hf : p.f0 ≠ 0) : HasDerivAt (trend t0 p) p.f1 t0 := by
  refine (hasDerivAt_trend t0 p hT).congr_deriv ?_
  have h : 0 < p.T - t0 := sub_pos.mpr hT
  set n := -(p.T - t0) * p.f1 / p.f0 with hn
  have e : (p.T - t0) ^ (-n) * (p.T - t0) ^ (n - 1) = (p.T - t0)⁻¹ := by
    rw [← Real.rpow_add h, show -n + (n - 1) = -1 by ring, Real.rpow_neg_one]
  calc p.f0 * (p.T - t0) ^ (-n) * (-n * (p.T - t0) ^ (n - 1))
      = -(p.f0 * n) * ((p.T - t0) ^ (-n) * (p.T - t0) ^ (n - 1)) := by ring
    _ = -(p.f0 * n) * (p.T - t0)⁻¹ := by rw [e]
    _ = p.f1 := by
      rw [hn]
      field_simp

/-- **C41.**  Before its singularity the model is positive. -/
theorem C41_positive (t0 : ℝ) (p : Trend ℝ) (hT : t0 < p.T) (hf : 0 < p.f0) {t : ℝ} (ht : t < p.T) : 0 < trend t0 p t := by
  have h : 0 < p.T - t0 := sub_pos.mpr hT
  have h' : 0 < p.T - t := sub_pos.mpr ht
  unfold trend trendAt
  dsimp only
  exact mul_pos (mul_pos hf (Real.rpow_pos_of_pos h _)) (Real.rpow_pos_of_pos h' _)

/-- **C41.**  Before its singularity the model increases strictly when the fitted slope is positive. -/
theorem C41_increasing (t0 : ℝ) (p : Trend ℝ) (hT : t0 < p.T) (hf : 0 < p.f0) (hs : 0 < p.f1) :
    StrictMonoOn (trend t0 p) (Set.Iio p.T) := by
  intro a ha b hb hab
  have h : 0 < p.T - t0 := sub_pos.mpr hT
  have hn : -(p.T - t0) * p.f1 / p.f0 < 0 := div_neg_of_neg_of_pos (by nlinarith) hf
  unfold trend trendAt
  dsimp only
  refine mul_lt_mul_of_pos_left ?_ (mul_pos hf (Real.rpow_pos_of_pos h _))
  exact Real.rpow_lt_rpow_of_neg (sub_pos.mpr hb) (by linarith) hn

/-- **C41.**  ... does not decrease when the slope is zero (the bounds of the fit admit zero) ... -/
theorem C41_nondecreasing (t0 : ℝ) (p : Trend ℝ) (hT : t0 < p.T) (hf : 0 < p.f0) (hs : 0 ≤ p.f1) :
    MonotoneOn (trend t0 p) (Set.Iio p.T) := by
  rcases hs.eq_or_lt with h | h
  · intro a _ b _ _
    have : ∀ t, trend t0 p t = p.f0 := by
      intro t
      unfold trend trendAt
      simp [← h]
    rw [this, this]
  · exact (C41_increasing t0 p hT hf h).monotoneOn

/-- **C41.**  ... and grows without bound towards its singularity. -/
theorem C41_singular (t0 : ℝ) (p : Trend ℝ) (hT : t0 < p.T) (hf : 0 < p.f0) (hs : 0 < p.f1) (M : ℝ) :
    ∃ t < p.T, ∀ u, t ≤ u → u < p.T → M < trend t0 p u := by
  have h : 0 < p.T - t0 := sub_pos.mpr hT
  set n := -(p.T - t0) * p.f1 / p.f0 with hn
  have hn0 : n < 0 := div_neg_of_neg_of_pos (by nlinarith) hf
  set A := p.f0 * (p.T - t0) ^ (-n) with hA
  have hA0 : 0 < A := mul_pos hf (Real.rpow_pos_of_pos h _)
  -- a distance at which the value exceeds `|M| + 1`
  set y := ((|M| + 1) / A) with hy
  have hy0 : 0 < y := div_pos (by positivity) hA0
  refine ⟨p.T - y ^ (1 / n), by have := Real.rpow_pos_of_pos hy0 (1 / n); linarith, fun u hu huT => ?_⟩
  have h1 : (y ^ (1 / n)) ^ n = y := by
    rw [← Real.rpow_mul hy0.le, one_div, inv_mul_cancel₀ hn0.ne, Real.rpow_one]
  have h2 : y ≤ (p.T - u) ^ n := by
    rw [← h1]
    exact Real.rpow_le_rpow_of_nonpos (sub_pos.mpr huT) (by linarith) hn0.le
  have h3 : A * y ≤ A * (p.T - u) ^ n := mul_le_mul_of_nonneg_left h2 hA0.le
  have h4 : A * y = |M| + 1 := by rw [hy]; field_simp
  have h5 : trend t0 p u = A * (p.T - u) ^ n := rfl
  rw [h5]
  have := le_abs_self M
  linarith

/-- A case with all hypotheses: the Newtonian inspiral, with value 1/10 at time -500 and merger at 0. -/
example : trend (-500) ⟨1 / 10, 3 / 8 * (1 / 10) / 500, 0⟩ (-500) = 1 / 10 ∧
    HasDerivAt (trend (-500) ⟨1 / 10, 3 / 8 * (1 / 10) / 500, 0⟩) (3 / 8 * (1 / 10) / 500) (-500) ∧
    StrictMonoOn (trend (-500) ⟨1 / 10, 3 / 8 * (1 / 10) / 500, 0⟩) (Set.Iio 0) :=
  ⟨C41_value _ _ (by norm_num), C41_slope _ _ (by norm_num) (by norm_num),
    C41_increasing _ _ (by norm_num) (by norm_num) (by norm_num)⟩

section fit
variable {K : Type} [Field K] [LinearOrder K] [IsStrictOrderedRing K]

theorem npMax_of_ne_nil {l : List K} (h : l ≠ []) : ∃ m, npMax l = .ok m := by
  cases l with
  | nil => exact absurd rfl h
  | cons a l => exact ⟨_, rfl⟩

theorem npMin_of_ne_nil {l : List K} (h : l ≠ []) : ∃ m, npMin l = .ok m := by
  cases l with
  | nil => exact absurd rfl h
  | cons a l => exact ⟨_, rfl⟩

/-- **C41.**  The envelope is evaluated exactly when no requested time is after the singularity; otherwise (or without any
time) it raises. -/
theorem C41_guard (pow : K → K → K) (t0 : K) (p : Trend K) (ts : List K) :
    (ts ≠ [] ∧ (∀ t ∈ ts, t ≤ p.T) → envelope pow t0 p ts = .ok (ts.map (trendAt pow t0 p))) ∧
    (ts = [] ∨ (∃ t ∈ ts, p.T < t) → ∃ e, envelope pow t0 p ts = .error e) := by
  unfold envelope
  constructor
  · rintro ⟨hne, hle⟩
    obtain ⟨m, hm⟩ := npMax_of_ne_nil hne
    rw [hm, ok_bind, if_neg (not_lt.mpr (hle m (npMax_spec hm).1))]
  · rintro (rfl | ⟨t, ht, hlt⟩)
    · exact ⟨_, rfl⟩
    · obtain ⟨m, hm⟩ := npMax_of_ne_nil (List.ne_nil_of_mem ht)
      rw [hm, ok_bind, if_pos (lt_of_lt_of_le hlt ((npMax_spec hm).2 t ht))]
      exact ⟨_, rfl⟩

/-- What the checks before a bounded fit amount to when the lower bounds of value and slope are zero, the start of the
singularity time is zero and the fitted value is positive. -/
theorem feasible_iff {f0 t0 b u v w : K} (hf : 0 < f0) (ht : t0 ≠ 0) (hu : 1 < u) (hv : 0 < v) (hvw : v ≤ w) :
    feasible (⟨f0, v * f0 / (-t0), 0⟩ : Trend K) ⟨0, 0, 8 / 10 * b⟩ ⟨u * f0, w * f0 / (-t0), -t0⟩ = true ↔ t0 < 0 ∧ b ≤ 0 := by
  unfold feasible
  simp only [Bool.and_eq_true, decide_eq_true_eq]
  have hw : 0 < w := lt_of_lt_of_le hv hvw
  constructor
  · rintro ⟨⟨⟨⟨⟨⟨⟨⟨h1, h2⟩, h3⟩, h4⟩, h5⟩, h6⟩, h7⟩, h8⟩, h9⟩
    refine ⟨?_, by linarith⟩
    by_contra hc
    have hpos : 0 < t0 := lt_of_le_of_ne (not_lt.mp hc) ht.symm
    have : w * f0 / (-t0) < 0 := div_neg_of_pos_of_neg (mul_pos hw hf) (by linarith)
    linarith
  · rintro ⟨h1, h2⟩
    have hd : 0 < -t0 := by linarith
    refine ⟨⟨⟨⟨⟨⟨⟨⟨?_, ?_⟩, ?_⟩, ?_⟩, ?_⟩, ?_⟩, ?_⟩, ?_⟩, ?_⟩
    · exact mul_pos (by linarith) hf
    · exact div_pos (mul_pos hw hf) hd
    · linarith
    · exact hf.le
    · nlinarith
    · exact (div_pos (mul_pos hv hf) hd).le
    · exact div_le_div_of_nonneg_right (mul_le_mul_of_nonneg_right hvw hf.le) hd.le
    · linarith
    · exact hd.le

/-- What `globalSetup` computes. -/
theorem globalSetup_ok {lib : FitsLib K} {cfg : FitsCfg K} {d : FitsData K} {ts ds : List K} {t0 : K} {p0 lo hi : Trend K}
    (h : globalSetup lib cfg d = .ok (ts, ds, t0, p0, lo, hi)) : ∃ a b f0, d.t[0]? = some a ∧ d.t.getLast? = some b ∧
      (∃ da ∈ d.data, ∃ db ∈ d.data, f0 = 1 / 2 * (da + db)) ∧ t0 = 1 / 2 * (a + b) ∧ t0 ≠ 0 ∧
      p0 = ⟨f0, -cfg.nPN * f0 / (-t0), 0⟩ ∧ lo = ⟨0, 0, 8 / 10 * b⟩ ∧
      hi = ⟨cfg.maxAmpFactor * f0, cfg.maxNPNFactor * f0 / (-t0), -t0⟩ := by
  unfold globalSetup at h
  obtain ⟨ph0, _, h⟩ := bind_ok h
  obtain ⟨e, _, h⟩ := bind_ok h
  obtain ⟨a, ha, h⟩ := bind_ok h
  obtain ⟨b, hb, h⟩ := bind_ok h
  obtain ⟨da, hda, h⟩ := bind_ok h
  obtain ⟨db, hdb, h⟩ := bind_ok h
  dsimp only at h
  have hdb' : db ∈ d.data := by
    split at hdb
    · obtain ⟨hne, hl⟩ := pyLast_ok hdb
      rw [← hl]; exact List.getLast_mem hne
    · exact List.mem_of_getElem? (pyGet_getElem? hdb)
  obtain ⟨hne, hl⟩ := pyLast_ok hb
  split at h
  · cases h
  · rename_i ht
    cases h
    exact ⟨a, b, _, pyGet_getElem? ha, by rw [List.getLast?_eq_some_getLast hne, hl],
      ⟨da, List.mem_of_getElem? (pyGet_getElem? hda), db, hdb', rfl⟩, rfl, ht, rfl, rfl, rfl⟩

/-- **C41.**  Fits methods: for increasing times before the merger (which is at time 0 there), every trend within the bounds
of the fit has its singularity after the whole waveform, so that it can be evaluated at every sample. -/
theorem C41_within_bounds {lib : FitsLib K} {cfg : FitsCfg K} {d : FitsData K} {ts ds : List K} {t0 : K} {p0 lo hi p : Trend K}
    (h : globalSetup lib cfg d = .ok (ts, ds, t0, p0, lo, hi)) (hinc : d.t.Pairwise (· < ·)) (hneg : ∀ t ∈ d.t, t < 0)
    (hp : lo.T ≤ p.T) : t0 < p.T ∧ (∀ t ∈ d.t, t < p.T) ∧ envelope lib.pow t0 p d.t = .ok (d.t.map (trendAt lib.pow t0 p)) := by
  obtain ⟨a, b, f0, ha, hb, _, rfl, _, _, rfl, _⟩ := globalSetup_ok h
  have hbm : b ∈ d.t := List.mem_of_getLast? hb
  have hb0 : b < 0 := hneg b hbm
  have hle : ∀ t ∈ d.t, t ≤ b := by
    intro t ht
    obtain ⟨i, hi, rfl⟩ := List.getElem_of_mem ht
    rw [List.getLast?_eq_getElem?] at hb
    obtain ⟨hj, rfl⟩ := List.getElem?_eq_some_iff.mp hb
    rcases Nat.lt_or_ge i (d.t.length - 1) with q | q
    · exact (List.pairwise_iff_getElem.mp hinc i _ hi hj q).le
    · have : i = d.t.length - 1 := by omega
      subst this; exact le_refl _
  have hbT : b < p.T := by dsimp only at hp; linarith
  have hall : ∀ t ∈ d.t, t < p.T := fun t ht => lt_of_le_of_lt (hle t ht) hbT
  refine ⟨?_, hall, ?_⟩
  · have := hle a (List.mem_of_getElem? ha)
    linarith
  · exact (C41_guard lib.pow _ p d.t).1 ⟨List.ne_nil_of_mem hbm, fun t ht => (hall t ht).le⟩

/-- **C41.**  Fits methods: for positive data and the exponents and factors of the default options (any with the same signs and
order), the start of the global fit is accepted by the bounded fit exactly when the centre time is negative and the last
time is not after the merger. -/
theorem C41_start {lib : FitsLib K} {cfg : FitsCfg K} {d : FitsData K} {ts ds : List K} {t0 : K} {p0 lo hi : Trend K}
    (h : globalSetup lib cfg d = .ok (ts, ds, t0, p0, lo, hi)) (hpos : ∀ x ∈ d.data, 0 < x)
    (hn : cfg.nPN < 0) (hA : 1 < cfg.maxAmpFactor) (hN : -cfg.nPN ≤ cfg.maxNPNFactor) :
    feasible p0 lo hi = true ↔ t0 < 0 ∧ ∃ b, d.t.getLast? = some b ∧ b ≤ 0 := by
  obtain ⟨a, b, f0, ha, hb, ⟨da, hda, db, hdb, hf⟩, ht0, hne, rfl, rfl, rfl⟩ := globalSetup_ok h
  have hf0 : 0 < f0 := by
    have h1 := hpos da hda
    have h2 := hpos db hdb
    rw [hf]; linarith
  rw [feasible_iff hf0 hne hA (by linarith) hN]
  constructor
  · rintro ⟨h1, h2⟩; exact ⟨h1, b, hb, h2⟩
  · rintro ⟨h1, b', hb', h2⟩
    rw [hb] at hb'; cases hb'
    exact ⟨h1, h2⟩

/-- **C41, violated assumption.**  With data after the merger (nothing excluded before it), the Fits methods always raise. -/
theorem C41_postmerger_violation [FloorRing K] (limit fuel : ℕ) (lib : FitsLib K) (cfg : FitsCfg K) (d : FitsData K) (sign : K)
    (hpos : ∀ x ∈ d.data, 0 < x) (hn : cfg.nPN < 0) (hA : 1 < cfg.maxAmpFactor) (hN : -cfg.nPN ≤ cfg.maxNPNFactor)
    {b : K} (hb : d.t.getLast? = some b) (hb0 : 0 < b) :
    ∃ e, findExtrema limit fuel lib cfg d sign = some (.error e) := by
  unfold findExtrema
  dsimp only
  cases hg : globalSetup lib cfg d with
  | error e => exact ⟨e, by rw [err_bind]⟩
  | ok x =>
    obtain ⟨ts, ds, t0, p0, lo, hi⟩ := x
    have hnf : ¬ feasible p0 lo hi = true := by
      rw [C41_start hg hpos hn hA hN]
      rintro ⟨_, b', hb', hle⟩
      rw [hb] at hb'; cases hb'
      exact absurd hb0 (not_lt.mpr hle)
    refine ⟨.valueError, ?_⟩
    rw [ok_bind]
    unfold fitTrend
    simp only [if_neg hnf]
    rw [err_bind]

/-- What `secularSetup` computes. -/
theorem secularSetup_ok {times freqs : List K} {t0 : K} {p0 lo hi : Trend K}
    (h : secularSetup times freqs = .ok (t0, p0, lo, hi)) : ∃ a b f0, times[0]? = some a ∧ times.getLast? = some b ∧
      (∃ M ∈ freqs, ∃ m ∈ freqs, f0 = 1 / 2 * (M + m)) ∧ t0 = 1 / 2 * (a + b) ∧ t0 ≠ 0 ∧
      p0 = ⟨f0, 3 / 8 * f0 / (-t0), 0⟩ ∧ lo = ⟨0, 0, 8 / 10 * b⟩ ∧ hi = ⟨10 * f0, 10 * f0 / (-t0), -t0⟩ := by
  unfold secularSetup at h
  obtain ⟨a, ha, h⟩ := bind_ok h
  obtain ⟨b, hb, h⟩ := bind_ok h
  dsimp only at h
  obtain ⟨M, hM, h⟩ := bind_ok h
  obtain ⟨m, hm, h⟩ := bind_ok h
  obtain ⟨hne, hl⟩ := pyLast_ok hb
  split at h
  · cases h
  · rename_i ht
    cases h
    exact ⟨a, b, _, pyGet_getElem? ha, by rw [List.getLast?_eq_some_getLast hne, hl],
      ⟨M, (npMax_spec hM).1, m, (npMin_spec hm).1, rfl⟩, rfl, ht, rfl, rfl, rfl⟩

/-- **C41.**  Secular trend: for positive frequencies, if a trend is fitted at all then the times have a negative centre and
end no later than time 0; the result is then the model evaluated at the given times. -/
theorem C41_secular {pow : K → K → K} {solve : List K → List K → Trend K → Py (Trend K)} {times freqs r : List K}
    (hpos : ∀ x ∈ freqs, 0 < x) (h : secularTrend pow solve times freqs = .ok r) :
    ∃ a b p, times[0]? = some a ∧ times.getLast? = some b ∧ a + b < 0 ∧ b ≤ 0 ∧
      r = times.map (trendAt pow (1 / 2 * (a + b)) p) := by
  unfold secularTrend at h
  obtain ⟨⟨t0, p0, lo, hi⟩, hs, h⟩ := bind_ok h
  dsimp only at h
  split at h
  · rename_i hfe
    obtain ⟨p, _, h⟩ := bind_ok h
    cases h
    obtain ⟨a, b, f0, ha, hb, ⟨M, hM, m, hm, hf⟩, ht0, hne, rfl, rfl, rfl⟩ := secularSetup_ok hs
    have hf0 : 0 < f0 := by
      have h1 := hpos M hM
      have h2 := hpos m hm
      rw [hf]; linarith
    rw [feasible_iff hf0 hne (by norm_num) (by norm_num) (by norm_num)] at hfe
    exact ⟨a, b, p, ha, hb, by linarith [hfe.1], hfe.2, by rw [ht0]⟩
  · cases h

/-- **C41.**  ... and for times before the merger at time 0, the solver is called from an accepted start. -/
theorem C41_secular_accepts {pow : K → K → K} {solve : List K → List K → Trend K → Py (Trend K)} {times freqs : List K}
    (hne : freqs ≠ []) (hpos : ∀ x ∈ freqs, 0 < x) {a b : K} (ha : times[0]? = some a) (hb : times.getLast? = some b)
    (ha0 : a < 0) (hb0 : b ≤ 0) :
    ∃ p0, secularTrend pow solve times freqs =
      (do let p ← solve times freqs p0; pure (times.map (trendAt pow (1 / 2 * (a + b)) p))) := by
  obtain ⟨M, hM⟩ := npMax_of_ne_nil hne
  obtain ⟨m, hm⟩ := npMin_of_ne_nil hne
  have hlast : pyLast times = .ok b := by unfold pyLast; rw [hb]
  have ht0 : 1 / 2 * (a + b) ≠ 0 := by
    intro hc; linarith
  have hf0 : 0 < 1 / 2 * (M + m) := by
    have h1 := hpos M (npMax_spec hM).1
    have h2 := hpos m (npMin_spec hm).1
    linarith
  have hfe := (feasible_iff (b := b) (u := 10) (v := 3 / 8) (w := 10) hf0 ht0 (by norm_num) (by norm_num)
    (by norm_num)).mpr ⟨by linarith, hb0⟩
  refine ⟨⟨1 / 2 * (M + m), 3 / 8 * (1 / 2 * (M + m)) / (-(1 / 2 * (a + b))), 0⟩, ?_⟩
  unfold secularTrend secularSetup
  rw [pyGet_of_getElem? ha, hlast, hM, hm]
  simp only [ok_bind, if_neg ht0, pure_bind, hfe, if_true]

/-- **C41, violated assumption.**  The fit of the secular trend depends on the origin of time: it is given the caller's times, not
times relative to the merger.  For positive frequencies and any times, adding a constant that makes the last time positive
makes the fit raise. -/
theorem C41_origin_violation (pow : K → K → K) (solve : List K → List K → Trend K → Py (Trend K)) (times freqs : List K)
    (hpos : ∀ x ∈ freqs, 0 < x) {b : K} (hb : times.getLast? = some b) {c : K} (hc : -b < c) :
    ∃ e, secularTrend pow solve (times.map (· + c)) freqs = .error e := by
  cases h : secularTrend pow solve (times.map (· + c)) freqs with
  | error e => exact ⟨e, rfl⟩
  | ok r =>
    exfalso
    obtain ⟨a, b', p, _, hb', _, hle, _⟩ := C41_secular hpos h
    rw [List.getLast?_map, hb] at hb'
    simp only [Option.map_some, Option.some.injEq] at hb'
    linarith

/-- **C36, violated.**  Choosing a segment by a reference frequency fails for every waveform whose times are positive, for
instance one that starts at time 0 with the merger later: the time of the reference frequency is estimated with the secular
trend. -/
theorem C36_origin_violation (pow : K → K → K) (solve : List K → List K → Trend K → Py (Trend K)) (pi : K) (w : Wave K)
    (fref : K) (ht : ∀ t ∈ w.t, 0 < t) (hw : ∀ x ∈ w.omega, 0 < x) :
    ∃ e, approxTref pi (secularTrend pow solve) w fref = .error e := by
  have hslice : ∀ (l : List K) (i j : ℤ), ∀ x ∈ pySlice l i j, x ∈ l := by
    intro l i j x hx
    unfold pySlice at hx
    exact List.mem_of_mem_take (List.mem_of_mem_drop hx)
  have hnth : ∀ (n : ℕ) (l : List K), ∀ x ∈ everyNth n l, x ∈ l := by
    intro n l x hx
    unfold everyNth at hx
    obtain ⟨i, _, hi⟩ := List.mem_filterMap.mp hx
    split at hi
    · exact List.mem_of_getElem? hi
    · cases hi
  cases h : approxTref pi (secularTrend pow solve) w fref with
  | error e => exact ⟨e, rfl⟩
  | ok r =>
    exfalso
    unfold approxTref at h
    dsimp only at h
    obtain ⟨⟨l, r⟩, _, h⟩ := bind_ok h
    dsimp only at h
    obtain ⟨pl, _, h⟩ := bind_ok h
    obtain ⟨pr, _, h⟩ := bind_ok h
    have key : ∀ (q : ℤ × ℤ) (times freqs trend : List K),
        (times, freqs) = (if 1000 ≤ (pySlice w.t q.1 q.2).length then
          (everyNth ((pySlice w.t q.1 q.2).length / 1000) (pySlice w.t q.1 q.2),
            everyNth ((pySlice w.t q.1 q.2).length / 1000) (pySlice w.omega q.1 q.2))
          else (pySlice w.t q.1 q.2, pySlice w.omega q.1 q.2)) →
        secularTrend pow solve times freqs = .ok trend → False := by
      intro q times freqs trend he hs
      have h12 : (∀ x ∈ times, x ∈ w.t) ∧ ∀ x ∈ freqs, x ∈ w.omega := by
        split at he
        · obtain ⟨rfl, rfl⟩ := Prod.mk.inj he
          exact ⟨fun x hx => hslice _ _ _ x (hnth _ _ x hx), fun x hx => hslice _ _ _ x (hnth _ _ x hx)⟩
        · obtain ⟨rfl, rfl⟩ := Prod.mk.inj he
          exact ⟨hslice _ _ _, hslice _ _ _⟩
      obtain ⟨a, b, p, _, hb, _, hle, _⟩ := C41_secular (fun x hx => hw x (h12.2 x hx)) hs
      exact absurd (ht b (h12.1 b (List.mem_of_getLast? hb))) (not_lt.mpr hle)
    obtain ⟨trend, htr, h⟩ := bind_ok h
    exact key _ _ _ trend rfl htr

end fit

namespace Demo

/-- Options with the defaults of FrequencyFits. -/
def cfg : FitsCfg ℚ := ⟨-3 / 8, 10, 10, 1 / 4, 3 / 4, 3, 10, false⟩

/-- Libraries that are not reached. -/
def lib : FitsLib ℚ := ⟨3, fun _ _ => 1, fun _ _ _ _ _ _ => .ok ⟨1, 1, 0⟩, fun _ _ _ => .ok [], fun _ _ => .ok (0, 0),
  fun _ _ _ => .ok 0⟩

/-- Five samples ending at time `e`. -/
def wave (e : ℚ) : FitsData ℚ := ⟨[e - 40, e - 30, e - 20, e - 10, e], [0, 1, 2, 3, 4], [1, 2, 1, 2, 3]⟩

/-- The hypotheses of `C41_within_bounds` and `C41_start` are met ... -/
example : (globalSetup lib cfg (wave (-1))).toOption.any (fun x => feasible x.2.2.2.1 x.2.2.2.2.1 x.2.2.2.2.2) = true ∧
    (wave (-1)).t.Pairwise (· < ·) ∧ (∀ t ∈ (wave (-1)).t, t < 0) ∧ (∀ x ∈ (wave (-1)).data, 0 < x) ∧ cfg.nPN < 0 ∧
    1 < cfg.maxAmpFactor ∧ -cfg.nPN ≤ cfg.maxNPNFactor :=
  ⟨by decide +kernel, by decide +kernel, by decide +kernel, by decide +kernel, by decide +kernel, by decide +kernel,
    by decide +kernel⟩

/-- ... and so are those of `C41_postmerger_violation`. -/
example : (wave 5).t.getLast? = some 5 ∧ (∀ x ∈ (wave 5).data, 0 < x) := ⟨rfl, by decide +kernel⟩

/-- The secular trend of three samples is fitted when they end at time -1, not when they end at time 5. -/
example : (secularTrend (fun _ _ => 1) (fun _ _ p => .ok p) [-21, -11, (-1 : ℚ)] [1, 2, 3]).toOption = some [2, 2, 2] ∧
    (secularTrend (fun _ _ => 1) (fun _ _ p => .ok p) [-15, -5, (5 : ℚ)] [1, 2, 3]).toOption = none := by
  constructor <;> decide +kernel

end Demo

end GwEcc.Envelope
