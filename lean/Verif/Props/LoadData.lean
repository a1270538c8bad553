import Verif.Model.LoadData
import Verif.Props.SpinFilter
import Verif.Props.Utils

/-!
# C59-C62, C69-C74: loading of waveforms
-/

set_option linter.unusedSectionVars false

namespace GwEcc.Load

section nr
variable {K C : Type} [Field K] [LinearOrder K] [IsStrictOrderedRing K]

/-! ### C59: mass ratio -/

/-- **C59.**  Parameters from SXS metadata report a mass ratio of at least 1, and spins and relaxation time as read. -/
theorem C59_mass_ratio {m1 m2 tr q tr' : K} {chi1 chi2 c1 c2 : List K}
    (h : paramsFromMetadata m1 m2 chi1 chi2 tr = .ok (q, c1, c2, tr')) : 1 ≤ q ∧ c1 = chi1 ∧ c2 = chi2 ∧ tr' = tr := by
  unfold paramsFromMetadata at h
  dsimp only at h
  split at h
  · cases h
  split at h
  · split at h
    · cases h
      exact ⟨le_refl _, rfl, rfl, rfl⟩
    · cases h
  · rename_i hd
    cases h
    exact ⟨by linarith, rfl, rfl, rfl⟩

/-- **C59.**  For positive masses: the ratio of the masses if the first is at least the second; 1 if the first is smaller by less
than the tolerance; otherwise the metadata are refused. -/
theorem C59_cases {m1 m2 tr : K} {chi1 chi2 : List K} (h2 : 0 < m2) :
    (m2 ≤ m1 → paramsFromMetadata m1 m2 chi1 chi2 tr = .ok (m1 / m2, chi1, chi2, tr)) ∧
    (m1 < m2 → 1 - 5 / 10 ^ 4 < m1 / m2 → paramsFromMetadata m1 m2 chi1 chi2 tr = .ok (1, chi1, chi2, tr)) ∧
    (m1 / m2 ≤ 1 - 5 / 10 ^ 4 → paramsFromMetadata m1 m2 chi1 chi2 tr = .error .exception) := by
  unfold paramsFromMetadata
  dsimp only
  rw [if_neg h2.ne']
  refine ⟨fun h => ?_, fun h h' => ?_, fun h => ?_⟩
  · have : 1 ≤ m1 / m2 := by rw [le_div_iff₀ h2]; linarith
    rw [if_neg (by linarith)]
  · have : m1 / m2 < 1 := by rw [div_lt_iff₀ h2]; linarith
    rw [if_pos (by linarith), if_pos (by linarith)]
  · have h0 : (0 : K) < 5 / 10 ^ 4 := by positivity
    rw [if_pos (by linarith), if_neg (by linarith)]

example : (paramsFromMetadata (4999 / 10000 : ℚ) (5 / 10) [0, 0, 0] [0, 0, 0] 100).toOption = some (1, [0, 0, 0], [0, 0, 0], 100) ∧
    (paramsFromMetadata (3 / 4 : ℚ) (1 / 4) [0, 0, 0] [0, 0, 0] 100).toOption = some (3, [0, 0, 0], [0, 0, 0], 100) ∧
    (paramsFromMetadata (1 / 4 : ℚ) (3 / 4) [0, 0, 0] [0, 0, 0] 100).toOption = none := by decide +kernel

/-! ### C60: junk radiation -/

/-- Entry nearest to a target. -/
theorem argmin_nearest {l : List K} {target : K} {i : ℕ} (h : argmin (l.map fun x => |x - target|) = .ok i) :
    ∃ x, l[i]? = some x ∧ (∀ y ∈ l, |x - target| ≤ |y - target|) ∧
      ∀ (j : ℕ) (y : K), j < i → l[j]? = some y → |x - target| < |y - target| := by
  obtain ⟨hi, hm, hf⟩ := argmin_spec h
  rw [List.length_map] at hi
  refine ⟨l[i], List.getElem?_eq_getElem hi, fun y hy => ?_, fun j y hj hy => ?_⟩
  · obtain ⟨j, hj, rfl⟩ := List.getElem_of_mem hy
    have := hm j (by simpa using hj)
    simpa using this
  · obtain ⟨hj', rfl⟩ := List.getElem?_eq_some_iff.mp hy
    have := hf j (by simpa using hj') hj
    simpa using this

/-- **C60.**  Removing junk keeps the times from one sample on, and every mode from the same sample on: the sample at which the phase
of the (2, 2) mode is nearest to its initial value plus `4 pi` for every orbit to be removed. -/
theorem C60_modes {lib : LoadLib K C} {t t' : List K} {modes modes' : Dict LM (List C)} {n : K}
    (h : removeJunk lib t modes n = .ok (t', modes')) :
    ∃ (k : ℕ) (h22 : List C) (p0 p : K), modes.getItem (2, 2) = .ok h22 ∧ t' = t.drop k ∧
      modes' = modes.map (fun m => (m.1, m.2.drop k)) ∧ (lib.phase h22)[0]? = some p0 ∧ (lib.phase h22)[k]? = some p ∧
      ∀ p' ∈ lib.phase h22, |p - (p0 + n * (4 * lib.pi))| ≤ |p' - (p0 + n * (4 * lib.pi))| := by
  unfold removeJunk at h
  obtain ⟨h22, e1, h⟩ := bind_ok h
  obtain ⟨p0, e2, h⟩ := bind_ok h
  obtain ⟨k, e3, h⟩ := bind_ok h
  cases h
  obtain ⟨p, e4, e5, _⟩ := argmin_nearest e3
  refine ⟨k, h22, p0, p, e1, rfl, rfl, pyGet_getElem? e2, e4, ?_⟩
  simpa only [mul_assoc] using e5

/-- **C60.**  The same with the duration from the horizon data: the sample nearest to that time. -/
theorem C60_horizons {t t' : List K} {modes modes' : Dict LM (List C)} {d : K}
    (h : removeJunkHorizons t modes d = .ok (t', modes')) :
    ∃ (k : ℕ) (x : K), t' = t.drop k ∧ modes' = modes.map (fun m => (m.1, m.2.drop k)) ∧ t[k]? = some x ∧
      ∀ y ∈ t, |x - d| ≤ |y - d| := by
  unfold removeJunkHorizons at h
  obtain ⟨k, e3, h⟩ := bind_ok h
  cases h
  obtain ⟨x, e4, e5, _⟩ := argmin_nearest e3
  exact ⟨k, x, rfl, rfl, e4, e5⟩

/-- What a dictionary returns is in it. -/
theorem dict_mem {κ V : Type} [DecidableEq κ] {d : Dict κ V} {k : κ} {v : V} (h : d.get? k = some v) : (k, v) ∈ d := by
  unfold Dict.get? at h
  induction d with
  | nil => cases h
  | cons p d ih =>
    obtain ⟨k', v'⟩ := p
    rw [List.lookup_cons] at h
    split at h
    · rename_i hk
      cases h
      rw [eq_of_beq hk]
      exact List.mem_cons_self
    · exact List.mem_cons_of_mem _ (ih h)

/-- **C60.**  The last sample is never lost: with a phase for every sample, the end of the times and of the modes is the same before
and after. -/
theorem C60_end {lib : LoadLib K C} {t t' : List K} {modes modes' : Dict LM (List C)} {n : K}
    (hphase : ∀ h, (lib.phase h).length = h.length) (hlen : ∀ m ∈ modes, m.2.length = t.length)
    (h : removeJunk lib t modes n = .ok (t', modes')) :
    t' ≠ [] ∧ t'.getLast? = t.getLast? ∧ modes'.length = modes.length ∧
      ∀ (i : ℕ) (m m' : LM × List C), modes[i]? = some m → modes'[i]? = some m' →
        m'.1 = m.1 ∧ m'.2.length = t'.length ∧ m'.2.getLast? = m.2.getLast? := by
  obtain ⟨k, h22, p0, p, e1, rfl, rfl, _, e4, _⟩ := C60_modes h
  have hm : ((2, 2), h22) ∈ modes := by
    have := getItem_ok e1
    exact dict_mem this
  have hk : k < t.length := by
    have := (List.getElem?_eq_some_iff.mp e4).1
    rw [hphase, hlen _ hm] at this
    exact this
  have hlast : ∀ {α : Type} (l : List α), k < l.length → (l.drop k).getLast? = l.getLast? := by
    intro α l hl
    rw [List.getLast?_drop, if_neg (by omega)]
  refine ⟨by intro hc; rw [List.drop_eq_nil_iff] at hc; omega, hlast t hk, by simp, fun i m m' hi hi' => ?_⟩
  rw [List.getElem?_map, hi] at hi'
  cases hi'
  have hl := hlen m (List.mem_of_getElem? hi)
  exact ⟨rfl, by rw [List.length_drop, List.length_drop, hl], hlast m.2 (by rw [hl]; exact hk)⟩

/-- **C60.**  The duration of a number of orbits from the horizon data ends at the sample where the orbital phase is nearest to its
initial value plus `2 pi` for every orbit. -/
theorem C60_duration {pi n d : K} {time phase : List K} (h : horizonDuration pi time phase n = .ok d) :
    ∃ (k : ℕ) (p0 p a b : K), phase[0]? = some p0 ∧ phase[k]? = some p ∧ time[0]? = some b ∧ time[k]? = some a ∧ d = a - b ∧
      ∀ p' ∈ phase, |p - (p0 + n * (2 * pi))| ≤ |p' - (p0 + n * (2 * pi))| := by
  unfold horizonDuration at h
  obtain ⟨p0, e1, h⟩ := bind_ok h
  obtain ⟨k, e2, h⟩ := bind_ok h
  obtain ⟨a, e3, h⟩ := bind_ok h
  obtain ⟨b, e4, h⟩ := bind_ok h
  cases h
  obtain ⟨p, e5, e6, _⟩ := argmin_nearest e2
  refine ⟨k, p0, p, a, b, pyGet_getElem? e1, e5, pyGet_getElem? e4, pyGet_getElem? e3, rfl, ?_⟩
  simpa only [mul_assoc] using e6

/-! ### C61, C69: quasicircular partners -/

/-- The loop that lengthens the waveform: the result is the first waveform, for the starting frequencies `m0`, `m0 factor`, ...,
that starts no later than `start`. -/
theorem lengthen_ok {gen : K → Py (List K × Dict LM (List C))} {factor start m0 : K} {w z : List K × Dict LM (List C)} {fuel : ℕ}
    (hw : gen m0 = .ok w) (h : runLoop (lengthenStep gen factor start) fuel (m0, w) = some (.ok z)) :
    ∃ (k : ℕ) (z0 : K), gen (m0 * factor ^ k) = .ok z ∧ z.1[0]? = some z0 ∧ z0 ≤ start ∧
      ∀ j, j < k → ∃ (wj : List K × Dict LM (List C)) (zj : K), gen (m0 * factor ^ j) = .ok wj ∧ wj.1[0]? = some zj ∧ start < zj := by
  refine runLoop_inv
    (fun s => ∃ k : ℕ, s.1 = m0 * factor ^ k ∧ gen s.1 = .ok s.2 ∧ ∀ j, j < k → ∃ (wj : List K × Dict LM (List C)) (zj : K),
      gen (m0 * factor ^ j) = .ok wj ∧ wj.1[0]? = some zj ∧ start < zj)
    (fun r => ∀ z, r = .ok z → ∃ (k : ℕ) (z0 : K), gen (m0 * factor ^ k) = .ok z ∧ z.1[0]? = some z0 ∧ z0 ≤ start ∧
      ∀ j, j < k → ∃ (wj : List K × Dict LM (List C)) (zj : K), gen (m0 * factor ^ j) = .ok wj ∧ wj.1[0]? = some zj ∧ start < zj)
    ?_ ?_ ⟨0, by simp, hw, by simp⟩ h z rfl
  · rintro ⟨m, v⟩ s' ⟨k, e1, e2, e3⟩ hst
    unfold lengthenStep at hst
    dsimp only at hst e1 e2
    split at hst
    · cases hst
    · rename_i z0 hz0
      split at hst
      · rename_i hlt
        split at hst
        · cases hst
        · rename_i w' hw'
          cases hst
          refine ⟨k + 1, by rw [e1, pow_succ, mul_assoc], hw', fun j hj => ?_⟩
          rcases Nat.lt_succ_iff_lt_or_eq.mp hj with q | q
          · exact e3 j q
          · subst q
            exact ⟨v, z0, by rw [← e1]; exact e2, pyGet_getElem? hz0, hlt⟩
      · cases hst
  · rintro ⟨m, v⟩ r ⟨k, e1, e2, e3⟩ hst z rfl
    unfold lengthenStep at hst
    dsimp only at hst e1 e2
    split at hst
    · cases hst
    · rename_i z0 hz0
      split at hst
      · split at hst <;> cases hst
      · rename_i hlt
        cases hst
        exact ⟨k, z0, by rw [← e1]; exact e2, pyGet_getElem? hz0, not_lt.mp hlt, e3⟩

/-- The loop ends if, for some number of reductions of the starting frequency, the generator raises or gives a waveform that starts
early enough. -/
theorem lengthen_term {gen : K → Py (List K × Dict LM (List C))} {factor start m0 : K} {w : List K × Dict LM (List C)} (N : ℕ)
    (hw : gen m0 = .ok w)
    (hN : ∀ z, gen (m0 * factor ^ N) = .ok z → ∀ z0, z.1[0]? = some z0 → z0 ≤ start) :
    ∃ r, ∀ fuel, N < fuel → runLoop (lengthenStep gen factor start) fuel (m0, w) = some r := by
  have key : ∀ (n k : ℕ) (m : K) (v : List K × Dict LM (List C)), k + n = N → m = m0 * factor ^ k → gen m = .ok v →
      ∃ r, runLoop (lengthenStep gen factor start) (n + 1) (m, v) = some r := by
    intro n
    induction n with
    | zero =>
      intro k m v hk hm hv
      subst hm
      obtain rfl : k = N := by omega
      rw [runLoop_succ]
      unfold lengthenStep
      dsimp only
      cases hz : pyGet v.1 0 with
      | error e => exact ⟨_, rfl⟩
      | ok z0 =>
        dsimp only
        rw [if_neg (not_lt.mpr (hN v hv z0 (pyGet_getElem? hz)))]
        exact ⟨_, rfl⟩
    | succ n ih =>
      intro k m v hk hm hv
      rw [runLoop_succ]
      unfold lengthenStep
      dsimp only
      cases hz : pyGet v.1 0 with
      | error e => exact ⟨_, rfl⟩
      | ok z0 =>
        dsimp only
        by_cases hlt : start < z0
        · rw [if_pos hlt]
          cases hg : gen (m * factor) with
          | error e => exact ⟨_, rfl⟩
          | ok v' => exact ih (k + 1) _ v' (by omega) (by rw [hm, pow_succ, mul_assoc]) hg
        · rw [if_neg hlt]
          exact ⟨_, rfl⟩
  obtain ⟨r, hr⟩ := key N 0 m0 w (by omega) (by simp) hw
  exact ⟨r, fun fuel hf => runLoop_mono hr (by omega)⟩

/-- The loop never ends if no reduction of the starting frequency makes the waveform start early enough. -/
theorem lengthen_diverges {gen : K → Py (List K × Dict LM (List C))} {factor start m0 : K} {w : List K × Dict LM (List C)}
    (hw : gen m0 = .ok w)
    (h : ∀ k : ℕ, ∃ (z : List K × Dict LM (List C)) (z0 : K), gen (m0 * factor ^ k) = .ok z ∧ z.1[0]? = some z0 ∧ start < z0)
    (fuel : ℕ) : runLoop (lengthenStep gen factor start) fuel (m0, w) = none := by
  have key : ∀ (fuel k : ℕ) (m : K) (v : List K × Dict LM (List C)), m = m0 * factor ^ k → gen m = .ok v →
      runLoop (lengthenStep gen factor start) fuel (m, v) = none := by
    intro fuel
    induction fuel with
    | zero => intros; rfl
    | succ fuel ih =>
      intro k m v hm hv
      rw [runLoop_succ]
      unfold lengthenStep
      dsimp only
      obtain ⟨z, z0, e1, e2, e3⟩ := h k
      rw [← hm, hv] at e1
      cases e1
      rw [pyGet_of_getElem? e2]
      dsimp only
      rw [if_pos e3]
      obtain ⟨z', _, e1', _⟩ := h (k + 1)
      rw [pow_succ, ← mul_assoc, ← hm] at e1'
      rw [e1']
      exact ih (k + 1) _ z' (by rw [hm, pow_succ, mul_assoc]) e1'
  exact key fuel 0 m0 w (by simp) hw

/-- The options with which the quasicircular partner of NR data is generated: model, mass ratio and spins of the NR data, no
eccentricity, dimensionless units, a tenth of the mass between samples, and some starting frequency. -/
def Quasicircular (p : NrParams K) (kw : LalKw K) (momega0 : K) : Prop :=
  kw.approximant = some p.approximant ∧ kw.q = some p.q ∧ kw.chi1 = some p.chi1 ∧ kw.chi2 = some p.chi2 ∧ kw.ecc = some 0 ∧
    kw.meanAno = p.meanAno ∧ kw.momega0 = some momega0 ∧ kw.deltaTOverM = 1 / 10 ∧ kw.physicalUnits = false ∧ kw.M = none ∧ kw.D = none

/-- The first starting frequency that is tried, in units of the mass: the one from which a circular binary of ten solar masses with
these mass ratio and aligned spins takes as long to the merger as the NR data. -/
def FirstTry (lib : LoadLib K C) (t : List K) (hlm : Dict LM (List C)) (p : NrParams K) (start m0 : K) : Prop :=
  ∃ amp merger s1 s2 f0, lib.amplitude hlm = .ok amp ∧ peakTime t amp = .ok merger ∧ p.chi1[2]? = some s1 ∧ p.chi2[2]? = some s2 ∧
    lib.freqOfTime ((merger.1 - start) * (10 * lib.mtsun)) (p.q * 10 / (1 + p.q) * lib.msun) (10 / (1 + p.q) * lib.msun) s1 s2 = .ok f0 ∧
    m0 = f0 * (10 * lib.mtsun) * lib.pi

/-- Where the quasicircular partner of NR data comes from: a generated waveform that starts no later than the NR data, cut ten
samples before the sample nearest to the start of the NR data. -/
theorem zeroeccForNr_ok [SMul K C] {fuel : ℕ} {lib : LoadLib K C} {t tz : List K} {hlm hz : Dict LM (List C)} {p : NrParams K}
    (h : zeroeccForNr fuel lib t hlm p = some (.ok (tz, hz))) :
    ∃ (start z0 m0 : K) (n : ℕ) (T : List K) (H : Dict LM (List C)) (kw : LalKw K) (idx : ℕ), t[0]? = some start ∧
      FirstTry lib t hlm p start m0 ∧ Quasicircular p kw (m0 * (1 / 2) ^ n) ∧
      (∀ j < n, ∃ kw' w zj, Quasicircular p kw' (m0 * (1 / 2) ^ j) ∧ loadBase lib kw' = .ok w ∧ w.1[0]? = some zj ∧ start < zj) ∧
      loadBase lib kw = .ok (T, H) ∧ T[0]? = some z0 ∧ z0 ≤ start ∧ argmin (T.map fun x => |x - start|) = .ok idx ∧
      tz = pySliceFrom T ((idx : ℤ) - 10) ∧ hz = H.map (fun q => (q.1, pySliceFrom q.2 ((idx : ℤ) - 10))) := by
  unfold zeroeccForNr at h
  dsimp only at h
  split at h
  · cases h
  · rename_i start m0 hprep
    obtain ⟨amp, hamp, hprep⟩ := bind_ok hprep
    obtain ⟨merger, hmerger, hprep⟩ := bind_ok hprep
    obtain ⟨start', hstart, hprep⟩ := bind_ok hprep
    have hst : start' = start ∧ FirstTry lib t hlm p start' m0 := by
      split at hprep
      · cases hprep
      · obtain ⟨s1, hs1, hprep⟩ := bind_ok hprep
        obtain ⟨s2, hs2, hprep⟩ := bind_ok hprep
        obtain ⟨f0, hf0, hprep⟩ := bind_ok hprep
        obtain ⟨e1, e2⟩ := Prod.mk.inj (Except.ok.inj hprep)
        exact ⟨e1, amp, merger, s1, s2, f0, hamp, hmerger, pyGet_getElem? hs1, pyGet_getElem? hs2, hf0, e2.symm⟩
    obtain ⟨hst, hfirst⟩ := hst
    subst hst
    split at h
    · cases h
    · rename_i w hw
      obtain ⟨r, hr, h⟩ := Option.map_eq_some_iff.mp h
      obtain ⟨⟨T, H⟩, rfl, h4⟩ := bind_ok h
      obtain ⟨idx, hidx, h5⟩ := bind_ok h4
      obtain ⟨rfl, rfl⟩ := Prod.mk.inj (Except.ok.inj h5)
      obtain ⟨k, z0, e1, e2, e3, e4⟩ := lengthen_ok hw hr
      refine ⟨start', z0, m0, k, T, H, _, idx, pyGet_getElem? hstart, hfirst, ⟨rfl, rfl, rfl, rfl, rfl, rfl, rfl, rfl, rfl, rfl, rfl⟩,
        fun j hj => ?_, e1, e2, e3, hidx, rfl, rfl⟩
      obtain ⟨wj, zj, g1, g2, g3⟩ := e4 j hj
      exact ⟨_, wj, zj, ⟨rfl, rfl, rfl, rfl, rfl, rfl, rfl, rfl, rfl, rfl, rfl⟩, g1, g2, g3⟩

/-- Before the nearest sample the times are earlier than the target. -/
theorem lt_of_nearest {T : List K} (hs : T.Pairwise (· < ·)) {target : K} {i : ℕ}
    (h : argmin (T.map fun x => |x - target|) = .ok i) {j : ℕ} {y : K} (hj : j < i) (hy : T[j]? = some y) : y < target := by
  obtain ⟨x, hx, _, hf⟩ := argmin_nearest h
  have hd := hf j y hj hy
  obtain ⟨hi, rfl⟩ := List.getElem?_eq_some_iff.mp hx
  obtain ⟨hj', rfl⟩ := List.getElem?_eq_some_iff.mp hy
  have hlt := List.pairwise_iff_getElem.mp hs j i hj' hi hj
  by_contra hc
  push Not at hc
  rw [abs_of_nonneg (by linarith), abs_of_nonneg (by linarith)] at hd
  linarith

/-- **C61, for a generated waveform that starts at least ten samples before the NR data.**  The quasicircular partner is generated
with the mass ratio and spins of the NR data and no eccentricity, from the frequency of a binary of this length, halved until the
waveform starts no later than the NR data and not more often.  It then starts before the NR data (ten samples before the sample nearest to their start), ends at the end of the generated waveform, and times and
modes are cut alike.  Missing: generated waveforms that start less than ten samples before the NR data, for which the property is
false (`C61_short_violation`). -/
theorem C61_covers_partial [SMul K C] {fuel : ℕ} {lib : LoadLib K C} {t tz : List K} {hlm hz : Dict LM (List C)} {p : NrParams K}
    (h : zeroeccForNr fuel lib t hlm p = some (.ok (tz, hz))) :
    ∃ (start z0 m0 : K) (n : ℕ) (T : List K) (H : Dict LM (List C)) (kw : LalKw K) (idx : ℕ), t[0]? = some start ∧
      FirstTry lib t hlm p start m0 ∧ Quasicircular p kw (m0 * (1 / 2) ^ n) ∧
      (∀ j < n, ∃ kw' w zj, Quasicircular p kw' (m0 * (1 / 2) ^ j) ∧ loadBase lib kw' = .ok w ∧ w.1[0]? = some zj ∧ start < zj) ∧
      loadBase lib kw = .ok (T, H) ∧ T[0]? = some z0 ∧ z0 ≤ start ∧
      (T.Pairwise (· < ·) → 10 ≤ idx → ∃ y, tz[0]? = some y ∧ y < start ∧ tz.getLast? = T.getLast? ∧ tz = T.drop (idx - 10) ∧
        hz = H.map (fun q => (q.1, q.2.drop (min (idx - 10) q.2.length)))) ∧
      (∃ x, T[idx]? = some x ∧ ∀ y ∈ T, |x - start| ≤ |y - start|) := by
  obtain ⟨start, z0, m0, n, T, H, kw, idx, e1, f1, f2, f3, e2, e3, e4, e5, e6, e7⟩ := zeroeccForNr_ok h
  obtain ⟨x, hx, hxm, _⟩ := argmin_nearest e5
  refine ⟨start, z0, m0, n, T, H, kw, idx, e1, f1, f2, f3, e2, e3, e4, fun hs h10 => ?_, x, hx, hxm⟩
  obtain ⟨hi, _⟩ := List.getElem?_eq_some_iff.mp hx
  have hb : ∀ n, pyBound n ((idx : ℤ) - 10) = min (idx - 10) n := by
    intro n
    unfold pyBound
    rw [if_neg (by omega)]
    congr 1
    omega
  have hT : tz = T.drop (idx - 10) := by
    rw [e6, pySliceFrom, hb, Nat.min_eq_left (by omega)]
  have hlt : idx - 10 < T.length := by omega
  refine ⟨T[idx - 10], ?_, ?_, ?_, hT, ?_⟩
  · rw [hT, List.getElem?_drop, Nat.add_zero, List.getElem?_eq_getElem hlt]
  · exact lt_of_nearest hs e5 (by omega) (List.getElem?_eq_getElem hlt)
  · rw [hT, List.getLast?_drop, if_neg (by omega)]
  · rw [e7]
    apply List.map_congr_left
    intro q _
    rw [pySliceFrom, hb]

/-- **C61 fails** for a generated waveform that starts less than ten samples before the NR data: the start of the slice is then
negative and counts from the end, so that only the last few samples (at most ten) are returned, after the start of the NR data. -/
theorem C61_short_violation {T : List K} (hs : T.Pairwise (· < ·)) {start : K} {idx : ℕ}
    (hidx : argmin (T.map fun x => |x - start|) = .ok idx) (hshort : idx < 10) (hlong : 11 ≤ T.length) :
    pySliceFrom T ((idx : ℤ) - 10) = T.drop (T.length - (10 - idx)) ∧
      (pySliceFrom T ((idx : ℤ) - 10)).length = 10 - idx ∧
      (idx + 10 < T.length → ∀ y ∈ pySliceFrom T ((idx : ℤ) - 10), start < y) := by
  obtain ⟨x, hx, hxm, _⟩ := argmin_nearest hidx
  obtain ⟨hi, rfl⟩ := List.getElem?_eq_some_iff.mp hx
  have hb : pyBound T.length ((idx : ℤ) - 10) = T.length - (10 - idx) := by
    unfold pyBound
    rw [if_pos (by omega)]
    omega
  have e : pySliceFrom T ((idx : ℤ) - 10) = T.drop (T.length - (10 - idx)) := by
    unfold pySliceFrom
    rw [hb]
  refine ⟨e, by rw [e, List.length_drop]; omega, fun hlen y hy => ?_⟩
  rw [e] at hy
  obtain ⟨j, hj⟩ := List.getElem?_of_mem hy
  rw [List.getElem?_drop] at hj
  obtain ⟨hj', rfl⟩ := List.getElem?_eq_some_iff.mp hj
  have h1 := List.pairwise_iff_getElem.mp hs idx (T.length - (10 - idx) + j) hi hj' (by omega)
  have h2 := hxm _ (List.getElem_mem hj')
  by_contra hc
  push Not at hc
  rw [abs_of_nonpos (by linarith), abs_of_nonpos (by linarith)] at h2
  linarith

/-- **C61.**  NR data whose file gives no mean anomaly (LVCNR format) have no quasicircular partner: the generator refuses the missing
value, although the eccentricity is zero. -/
theorem C61_mean_anomaly_violation [SMul K C] {fuel : ℕ} {lib : LoadLib K C} {t : List K} {hlm : Dict LM (List C)} {p : NrParams K}
    (hm : p.meanAno = none) (r : List K × Dict LM (List C)) : zeroeccForNr fuel lib t hlm p ≠ some (.ok r) := by
  intro h
  unfold zeroeccForNr at h
  dsimp only at h
  split at h
  · cases h
  · split at h
    · cases h
    · rename_i w hw
      unfold loadBase at hw
      rw [hm] at hw
      cases hw

/-- **C61.**  The generation of the partner ends if halving the starting frequency often enough gives a waveform that starts early
enough (or makes the generator raise). -/
theorem C61_terminates {gen : K → Py (List K × Dict LM (List C))} {start m0 : K} {w : List K × Dict LM (List C)} (N : ℕ)
    (hw : gen m0 = .ok w) (hN : ∀ z, gen (m0 * (1 / 2) ^ N) = .ok z → ∀ z0, z.1[0]? = some z0 → z0 ≤ start) :
    ∃ r, ∀ fuel, N < fuel → runLoop (lengthenStep gen (1 / 2) start) fuel (m0, w) = some r := lengthen_term N hw hN

end nr

section lal
variable {K C : Type} [Field K] [LinearOrder K] [IsStrictOrderedRing K] [SMul K C]

/-! ### C62: mean anomaly -/

/-- **C62 fails.**  The waveform loaded from LAL, with or without its quasicircular partner, is the same for any two values of the
initial mean anomaly. -/
theorem C62_ignored_violation (fuel : ℕ) (lib : LoadLib K C) (kw : LalKw K) (a b : K) :
    loadLAL fuel lib { kw with meanAno := some a } = loadLAL fuel lib { kw with meanAno := some b } := by
  have hb : ∀ kw' : LalKw K, loadBase lib { kw' with meanAno := some a } = loadBase lib { kw' with meanAno := some b } := by
    intro kw'
    unfold loadBase
    dsimp only
    rcases kw'.approximant with _ | x <;> rcases kw'.q with _ | q <;> rcases kw'.chi1 with _ | c1 <;>
      rcases kw'.chi2 with _ | c2 <;> rcases kw'.ecc with _ | e <;> rcases kw'.momega0 with _ | m <;> rfl
  unfold loadLAL
  rw [hb kw]
  have hg : (fun m : K => loadBase lib { ({ kw with meanAno := some a } : LalKw K) with
        ecc := some (if kw.approximant = some "EccentricTD" then 1 / 10 ^ 5 else 0), includeZeroEcc := false, momega0 := some m }) =
      (fun m : K => loadBase lib { ({ kw with meanAno := some b } : LalKw K) with
        ecc := some (if kw.approximant = some "EccentricTD" then 1 / 10 ^ 5 else 0), includeZeroEcc := false, momega0 := some m }) := by
    funext m
    exact hb { kw with
      ecc := some (if kw.approximant = some "EccentricTD" then 1 / 10 ^ 5 else 0), includeZeroEcc := false, momega0 := some m }
  have hg' : ∀ m : K, _ := fun m => congrFun hg m
  dsimp only at hg hg' ⊢
  simp only [hg']

/-- **C62, the part that holds.**  A value must be given: without one the load raises.  (That the value has an effect is false:
`C62_ignored_violation`.) -/
theorem C62_required_partial (fuel : ℕ) (lib : LoadLib K C) (kw : LalKw K) :
    loadLAL fuel lib { kw with meanAno := none } = some (.error .exception) := by
  unfold loadLAL loadBase
  dsimp only
  rcases kw.approximant with _ | x <;> rcases kw.q with _ | q <;> rcases kw.chi1 with _ | c1 <;>
      rcases kw.chi2 with _ | c2 <;> rcases kw.ecc with _ | e <;> rfl

/-- **C62, the part that holds.**  The function below does hand its mean anomaly to LAL: the value of the strain is what LAL returns
for a call with that mean anomaly, up to a constant factor; it is the loader that does not pass the option on. -/
theorem C62_generator_partial {lib : LoadLib K C} {ap : String} {q dt m0 inc ph e ma : K} {c1 c2 : List K} {pu : Bool}
    {M D : Option K} {t : List K} {h : List C} (hg : generateLAL lib ap q c1 c2 dt m0 inc ph e ma pu M D = .ok (t, h)) :
    ∃ (args : LalArgs K) (h' : List C), args.meanPerAno = ma ∧ args.eccentricity = e ∧ args.approximant = ap ∧ lib.choose args = .ok h' ∧
      t.length = h.length ∧ (h = h' ∨ ∃ k : K, h = h'.map (k • ·)) := by
  unfold generateLAL at hg
  obtain ⟨⟨a, b⟩, _, hg⟩ := bind_ok hg
  dsimp only at hg
  obtain ⟨⟨M', d⟩, _, hg⟩ := bind_ok hg
  dsimp only at hg
  split at hg
  · cases hg
  · obtain ⟨h', hc, hg⟩ := bind_ok hg
    split at hg
    · cases hg
      exact ⟨_, _, rfl, rfl, rfl, hc, by simp, Or.inl rfl⟩
    · cases hg
      exact ⟨_, h', rfl, rfl, rfl, hc, by simp, Or.inr ⟨_, rfl⟩⟩

/-! ### C69: quasicircular partner of a LAL waveform -/

/-- **C69.**  A waveform loaded from LAL together with its quasicircular partner: the partner is generated with the same options except
for eccentricity (0, or the smallest one the model supports) and starting frequency, and starts no later than the waveform. -/
theorem C69_partner {fuel : ℕ} {lib : LoadLib K C} {kw : LalKw K} {w : Wave K C} (hz : kw.includeZeroEcc = true)
    (h : loadLAL fuel lib kw = some (.ok w)) :
    ∃ (tz : List K) (hlmz : Dict LM (List C)) (t0 z0 m0 : K) (k : ℕ), w.zeroecc = some (tz, hlmz) ∧ w.t[0]? = some t0 ∧
      tz[0]? = some z0 ∧ z0 ≤ t0 ∧ kw.momega0 = some m0 ∧ loadBase lib kw = .ok (w.t, w.hlm) ∧
      loadBase lib { kw with
        ecc := some (if kw.approximant = some "EccentricTD" then 1 / 10 ^ 5 else 0), includeZeroEcc := false,
        momega0 := some (m0 * (9 / 10) ^ k) } = .ok (tz, hlmz) := by
  unfold loadLAL at h
  split at h
  · cases h
  · rename_i t hlm hbase
    rw [if_pos hz] at h
    dsimp only at h
    split at h
    · cases h
    · rename_i m0 hm0
      split at h
      · cases h
      · cases h
      · rename_i w0 start hg hstart
        obtain ⟨r, hr, h⟩ := Option.map_eq_some_iff.mp h
        obtain ⟨z, rfl, h⟩ := bind_ok h
        cases h
        obtain ⟨k, z0, e1, e2, e3, _⟩ := lengthen_ok hg hr
        exact ⟨z.1, z.2, start, z0, m0, k, rfl, pyGet_getElem? hstart, e2, e3, hm0, hbase, e1⟩

/-- **C69.**  Without the request no partner is generated. -/
theorem C69_only_on_request {fuel : ℕ} {lib : LoadLib K C} {kw : LalKw K} (hz : kw.includeZeroEcc = false) :
    loadLAL fuel lib kw = some ((loadBase lib kw).map fun w => ⟨w.1, w.2, none⟩) := by
  unfold loadLAL
  split
  · rename_i e he
    rw [he]
    rfl
  · rename_i t hlm he
    rw [he, if_neg (by simp [hz])]
    rfl

/-- **C69.**  The loop that lowers the starting frequency has no other way out: if the model's waveforms all start later than the
eccentric one, loading never returns. -/
theorem C69_diverges {lib : LoadLib K C} {kw : LalKw K} (hz : kw.includeZeroEcc = true) {t : List K} {hlm : Dict LM (List C)}
    {t0 m0 : K} (hbase : loadBase lib kw = .ok (t, hlm)) (ht : t[0]? = some t0) (hm : kw.momega0 = some m0)
    (hall : ∀ m : K, ∃ (z : List K × Dict LM (List C)) (z0 : K), loadBase lib
      { kw with
        ecc := some (if kw.approximant = some "EccentricTD" then 1 / 10 ^ 5 else 0), includeZeroEcc := false,
        momega0 := some m } = .ok z ∧ z.1[0]? = some z0 ∧ t0 < z0) (fuel : ℕ) : loadLAL fuel lib kw = none := by
  unfold loadLAL
  rw [hbase]
  dsimp only
  rw [if_pos hz, hm]
  dsimp only
  obtain ⟨w0, z0, e1, e2, e3⟩ := hall m0
  rw [e1, pyGet_of_getElem? ht]
  dsimp only
  rw [lengthen_diverges e1 fun k => hall _]
  rfl

end lal

end GwEcc.Load
