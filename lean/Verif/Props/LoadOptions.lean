import Verif.Props.LoadData
import Verif.Lemmas.Construct
import Mathlib.Algebra.Order.Floor.Semiring

/-!
# C70-C74: units, files and options of the loaders
-/

set_option linter.unusedSectionVars false

namespace GwEcc.Load

section units
variable {K C : Type} [Field K] [LinearOrder K] [IsStrictOrderedRing K] [MulAction K C]

/-- Scale invariance of the waveform model: with all masses and times (and one over the frequencies) multiplied by `l` and the distance
by `r`, the strain is multiplied by `l / r` and taken at the same samples. -/
def ScaleCovariant (choose : LalArgs K → Py (List C)) : Prop :=
  ∀ (a : LalArgs K) (l r : K), 0 < l → 0 < r →
    choose { a with m1 := l * a.m1, m2 := l * a.m2, deltaT := l * a.deltaT, fLow := a.fLow / l, fRef := a.fRef / l,
                    distance := r * a.distance } = (choose a).map (fun h => h.map ((l / r) • ·))

/-- The waveform modes in other units: times multiplied by `kt`, modes by `ka`. -/
def inUnits (kt ka : K) (w : List K × Dict LM (List C)) : List K × Dict LM (List C) :=
  (w.1.map (kt * ·), w.2.map fun p => (p.1, p.2.map (ka • ·)))

theorem py_map_bind {α β γ : Type} (x : Py α) (f : α → β) (g : β → Py γ) : (x.map f >>= g) = (x >>= fun a => g (f a)) := by
  cases x <;> rfl

theorem py_bind_map {α β γ : Type} (x : Py α) (f : α → Py β) (g : β → γ) : (x >>= f).map g = (x >>= fun a => (f a).map g) := by
  cases x <;> rfl

/-- **C70.**  The waveform in physical units is the dimensionless one with the times multiplied by the total mass in seconds and the
modes by `G M / (c^2 D)`; in particular one can be loaded if the other can. -/
theorem C70_units {lib : LoadLib K C} (hm : 0 < lib.mtsun) (hs : 0 < lib.msun) (hp : 0 < lib.pc) (hc : 0 < lib.c) (hG : 0 < lib.G)
    (hgeo : lib.mtsun * lib.c ^ 3 = lib.G * lib.msun) (hscale : ScaleCovariant lib.choose)
    (hY : ∀ (k : K) (x : C), lib.divYlm (k • x) = k • lib.divYlm x)
    (hamp : ∀ (k : K) (h : List C), 0 < k →
      lib.amplitude [((2, 2), h.map (k • ·))] = (lib.amplitude [((2, 2), h)]).map (fun a => a.map (k * ·)))
    (kw : LalKw K) {M D : K} (hM : 0 < M) (hD : 0 < D) :
    loadBase lib { kw with physicalUnits := true, M := some M, D := some D } =
      (loadBase lib { kw with physicalUnits := false }).map (inUnits (timeToMks lib M) (ampToMks lib M D)) := by
  unfold loadBase
  dsimp only
  rcases kw.approximant with _ | x <;> rcases kw.q with _ | q <;> rcases kw.chi1 with _ | c1 <;>
      rcases kw.chi2 with _ | c2 <;> rcases kw.ecc with _ | e <;> rcases kw.meanAno with _ | ma <;>
      rcases kw.momega0 with _ | m <;> try rfl
  dsimp only
  unfold loadHack generateLAL
  cases checkSpins c1 c2 with
  | error e => rfl
  | ok cc =>
    obtain ⟨c1, c2⟩ := cc
    simp only [ok_bind, if_true, if_false, Bool.false_eq_true]
    have hMT : M * lib.mtsun ≠ 0 := (mul_pos hM hm).ne'
    have h10 : (10 : K) * lib.mtsun ≠ 0 := (mul_pos (by norm_num) hm).ne'
    by_cases hz : lib.pi = 0 ∨ 1 + q = 0
    · rw [if_pos (by tauto), if_pos (by tauto)]
      rfl
    · rw [if_neg (by tauto), if_neg (by tauto)]
      have hpi : lib.pi ≠ 0 := fun h => hz (Or.inl h)
      have hq : 1 + q ≠ 0 := fun h => hz (Or.inr h)
      have hl : 0 < M / 10 := by positivity
      have key := hscale
        { m1 := 10 * lib.msun * q / (1 + q), m2 := 10 * lib.msun / (1 + q), chi1 := c1, chi2 := c2,
          distance := 10 ^ 6 * lib.pc, inclination := 0, phiRef := 0, longAscNodes := 0, eccentricity := e, meanPerAno := 0,
          deltaT := kw.deltaTOverM * (10 * lib.mtsun), fLow := m / lib.pi / (10 * lib.mtsun),
          fRef := m / lib.pi / (10 * lib.mtsun), approximant := x } (M / 10) D hl hD
      dsimp only at key
      have a1 : M / 10 * (10 * lib.msun * q / (1 + q)) = M * lib.msun * q / (1 + q) := by field_simp
      have a2 : M / 10 * (10 * lib.msun / (1 + q)) = M * lib.msun / (1 + q) := by field_simp
      have a3 : M / 10 * (kw.deltaTOverM * (10 * lib.mtsun)) = kw.deltaTOverM * (M * lib.mtsun) := by field_simp
      have a4 : m / lib.pi / (10 * lib.mtsun) / (M / 10) = m / lib.pi / (M * lib.mtsun) := by field_simp
      have a5 : D * (10 ^ 6 * lib.pc) = D * 10 ^ 6 * lib.pc := by ring
      rw [a1, a2, a3, a4, a5] at key
      rw [key]
      cases lib.choose {
          m1 := 10 * lib.msun * q / (1 + q), m2 := 10 * lib.msun / (1 + q), chi1 := c1, chi2 := c2,
          distance := 10 ^ 6 * lib.pc, inclination := 0, phiRef := 0, longAscNodes := 0, eccentricity := e, meanPerAno := 0,
          deltaT := kw.deltaTOverM * (10 * lib.mtsun), fLow := m / lib.pi / (10 * lib.mtsun),
          fRef := m / lib.pi / (10 * lib.mtsun), approximant := x } with
      | error e => rfl
      | ok h =>
        simp only [Except.map, ok_bind, pure, Except.pure]
        set k0 : K := 10 ^ 6 * lib.pc / (10 * lib.mtsun) / lib.c with hk0
        set kA : K := ampToMks lib M D with hkA
        set kT : K := timeToMks lib M with hkT
        have hApos : 0 < kA := by rw [hkA]; unfold ampToMks; positivity
        have hTpos : 0 < kT := by rw [hkT]; unfold timeToMks; positivity
        have hA : M / 10 / D = kA * k0 := by
          rw [hkA, hk0]
          unfold ampToMks
          have e3 : lib.G * M * lib.msun / (lib.c ^ 2 * D * 10 ^ 6 * lib.pc) =
              lib.mtsun * lib.c ^ 3 * M / (lib.c ^ 2 * D * 10 ^ 6 * lib.pc) := by
            rw [hgeo]; ring
          rw [e3]
          field_simp
        have hh : (h.map ((M / 10 / D) • ·)).map lib.divYlm = ((h.map (k0 • ·)).map lib.divYlm).map (kA • ·) := by
          rw [List.map_map, List.map_map, List.map_map]
          apply List.map_congr_left
          intro y _
          simp only [Function.comp]
          rw [hA, mul_smul, hY]
        have ht : (((List.range h.length).map fun (k : ℕ) => (k : K)).map (kw.deltaTOverM * (M * lib.mtsun) * ·)) =
            (((List.range h.length).map fun (k : ℕ) => (k : K)).map (kw.deltaTOverM * ·)).map (kT * ·) := by
          rw [List.map_map, List.map_map, List.map_map]
          apply List.map_congr_left
          intro y _
          simp only [Function.comp]
          rw [hkT]
          unfold timeToMks
          ring
        rw [hh, hamp _ _ hApos, List.length_map]
        rw [ht]
        cases lib.amplitude [((2, 2), (h.map (k0 • ·)).map lib.divYlm)] with
        | error e => rfl
        | ok amp =>
          simp only [Except.map, ok_bind]
          rw [C17_amplitude_scale _ _ _ hApos]
          have := C17_time_affine ((((List.range h.length).map fun (k : ℕ) => (k : K)).map (kw.deltaTOverM * ·))) amp kT 0 hTpos
          simp only [add_zero] at this
          rw [this]
          cases peakTime (((List.range h.length).map fun (k : ℕ) => (k : K)).map (kw.deltaTOverM * ·)) amp with
          | error e => rfl
          | ok pk =>
            simp only [Except.map, ok_bind, inUnits, List.map_map, List.map_cons, List.map_nil]
            congr 2
            apply List.map_congr_left
            intro y _
            simp only [Function.comp]
            ring

end units

section files

/-- **C71.**  The check of an SXS data directory accepts exactly the directories that contain every required file: the strain (and,
in the new format, its description), and the metadata if they are needed; it reports whether horizon data are there. -/
theorem C71_required {newFormat needMetadata horizons : Bool} {order : String} {dir : Option (Option (List String))} :
    checkSxsDir newFormat order needMetadata dir = .ok horizons ↔
      ∃ present, dir = some (some present) ∧ (horizons = true ↔ "Horizons.h5" ∈ present) ∧
        (newFormat = true → "Strain_N" ++ order ++ ".h5" ∈ present ∧ "Strain_N" ++ order ++ ".json" ∈ present) ∧
        (newFormat = false → "rhOverM_Asymptotic_GeometricUnits_CoM.h5" ∈ present) ∧
        (needMetadata = true → (if newFormat then "metadata.json" else "metadata.txt") ∈ present) := by
  unfold checkSxsDir
  rcases dir with _ | _ | present
  · simp
  · simp
  · dsimp only
    cases newFormat <;> cases needMetadata <;> cases horizons <;> simp <;> split <;> simp_all

/-- **C71.**  A directory that is not given or does not exist is refused. -/
theorem C71_no_directory (newFormat needMetadata : Bool) (order : String) :
    checkSxsDir newFormat order needMetadata none = .error .exception ∧
      checkSxsDir newFormat order needMetadata (some none) = .error .exception := ⟨rfl, rfl⟩

example : (checkSxsDir true "2" true (some (some ["Strain_N2.h5", "Strain_N2.json", "metadata.json"]))).toOption = some false ∧
    (checkSxsDir true "2" true (some (some ["Strain_N2.h5", "metadata.json", "Horizons.h5"]))).toOption = none ∧
    (checkSxsDir false "2" false (some (some ["rhOverM_Asymptotic_GeometricUnits_CoM.h5", "Horizons.h5"]))).toOption = some true := by
  decide +kernel

/-- **C73.**  Every documented origin has defaults; any other origin raises. -/
theorem C73_origins (origin : String) :
    (origin ∈ origins → ∃ d, defaults origin = .ok d ∧ d.keys.Nodup ∧ d ≠ []) ∧
      (origin ∉ origins → defaults origin = .error .exception) := by
  constructor
  · intro h
    have hall : ∀ o ∈ origins, (match defaults o with
        | .ok d => decide (d.keys.Nodup) && !d.isEmpty
        | .error _ => false) = true := by decide +kernel
    have := hall origin h
    split at this
    · rename_i d hd
      simp only [Bool.and_eq_true, decide_eq_true_eq, Bool.not_eq_true'] at this
      exact ⟨d, hd, this.1, by intro hc; rw [hc] at this; simp at this⟩
    · cases this
  · intro h
    simp only [origins, originDict, Dict.keys, List.map_cons, List.map_nil, List.mem_cons, List.not_mem_nil, or_false, not_or] at h
    unfold defaults
    simp [h.1, h.2]

/-- **C73.**  Each documented origin reaches its own loader with the options given, completed by the defaults of that origin; an
option that the origin does not have raises `ValueError`, and any other origin raises. -/
theorem C73_dispatch {α : Type} (body : Loader → Dict String Val → Py α) (origin : String) (kwargs : Dict String Val) :
    (∀ l : Loader, (origin, l) ∈ [("LAL", Loader.lal), ("SXSCatalog", .sxs), ("SXSCatalog_old", .sxsOld), ("LVCNR", .lvcnr),
        ("LVCNR_hack", .lvcnrHack), ("EOB", .eob), ("EMRI", .emri)] →
      ∃ d, defaults origin = .ok d ∧
        ((∃ k ∈ kwargs.keys, k ∉ d.keys) → loadWaveform body origin kwargs = .error .valueError) ∧
        ((∀ k ∈ kwargs.keys, k ∈ d.keys) → ∃ full : Dict String Val, loadWaveform body origin kwargs = body l full ∧
          ∀ k, full.get? k = match kwargs.get? k with | some v => some v | none => d.get? k)) ∧
    (origin ∉ ["LAL", "SXSCatalog", "SXSCatalog_old", "LVCNR", "LVCNR_hack", "EOB", "EMRI"] →
      loadWaveform body origin kwargs = .error .exception) := by
  constructor
  · intro l hl
    have hget : originDict.get? origin = some l ∧ l.defaultsOf = origin ∧ origin ∈ origins := by
      simp only [List.mem_cons, Prod.mk.injEq, List.not_mem_nil, or_false] at hl
      rcases hl with ⟨rfl, rfl⟩ | ⟨rfl, rfl⟩ | ⟨rfl, rfl⟩ | ⟨rfl, rfl⟩ | ⟨rfl, rfl⟩ | ⟨rfl, rfl⟩ | ⟨rfl, rfl⟩ <;> decide +kernel
    obtain ⟨d, hd, _⟩ := (C73_origins origin).1 hget.2.2
    refine ⟨d, hd, ?_, ?_⟩
    · rintro ⟨k, hk, hn⟩
      unfold loadWaveform callLoader
      rw [hget.1]
      simp only
      rw [hget.2.1, hd, ok_bind]
      unfold checkKwargs
      simp only [Option.getD_some]
      rw [if_pos]
      · rfl
      · rw [List.any_eq_true]
        refine ⟨k, hk, ?_⟩
        rw [Bool.not_eq_true', ← Bool.not_eq_true]
        exact fun h => hn ((Dict.has_iff _ _).mp h)
    · intro hk
      obtain ⟨full, h1, h2⟩ := checkKwargs_ok (u := some kwargs) (defaults := d) hk
      refine ⟨full, ?_, fun k => by rw [h2 k]; unfold Spec.inForce; simp only [Option.getD_some]; cases kwargs.get? k <;> rfl⟩
      unfold loadWaveform callLoader
      rw [hget.1]
      simp only
      rw [hget.2.1, hd, ok_bind, h1, ok_bind]
  · intro h
    unfold loadWaveform
    have : originDict.get? origin = none := by
      simp only [List.mem_cons, List.not_mem_nil, or_false, not_or] at h
      simp [originDict, Dict.get?, h]
    rw [this]

/-- An EOB file asked for by its path only; a misspelt option. -/
example : (loadWaveform (fun l kw => .ok (decide (l = .eob), kw.get? "filepath", kw.get? "include_zero_ecc")) "EOB"
      [("filepath", .str "a.h5")]).toOption = some (true, some (.str "a.h5"), some (.bool false)) ∧
    (loadWaveform (fun _ _ => .ok ()) "EOB" [("file", .str "a.h5")]).toOption = none := by decide +kernel

/-- **C73.**  A selection of defaults holds exactly the values of the full set at the names asked for; an unknown name raises. -/
theorem C73_selection {V : Type} {super d : Dict String V} {names : List String} (h : makeSubDict super names = .ok d) :
    d.keys = names ∧ ∀ k v, (k, v) ∈ d → super.get? k = some v := by
  induction names generalizing d with
  | nil => cases h; exact ⟨rfl, by intro k v hk; cases hk⟩
  | cons n names ih =>
    unfold makeSubDict at h
    obtain ⟨v, hv, h1⟩ := bind_ok h
    obtain ⟨r, hr, h2⟩ := bind_ok h1
    cases h2
    obtain ⟨e1, e2⟩ := ih hr
    refine ⟨by simpa [Dict.keys] using e1, fun k w hk => ?_⟩
    rcases List.mem_cons.mp hk with q | q
    · cases q
      split at hv
      · rename_i v' hv'
        cases hv
        exact hv'
      · cases hv
    · exact e2 k w q

end files

section grids
variable {K C : Type} [Field K] [LinearOrder K] [IsStrictOrderedRing K]

/-- **C74.**  Modes read from a file are returned on the uniform grid that starts at the first time of the file, has the step asked
for, and contains exactly the multiples of the step before the last time of the file; in particular nothing is extrapolated, and
less than one step is lost at the end.  Every mode is interpolated on that grid. -/
theorem C74_uniform [FloorRing K] {interp : List K → List C → List K → Py (List C)} {time t : List K} {d : K}
    {modes modes' : Dict LM (List C)} (hd : 0 < d) (h : resample interp time d modes = .ok (t, modes')) :
    ∃ a b, time[0]? = some a ∧ time.getLast? = some b ∧
      (∀ (k : ℕ) (x : K), t[k]? = some x ↔ x = a + k * d ∧ x < b) ∧
      modes'.length = modes.length ∧
      ∀ (i : ℕ) (m : LM × List C), modes[i]? = some m →
        ∃ h', interp time m.2 t = .ok h' ∧ modes'[i]? = some (m.1, h') := by
  unfold resample at h
  obtain ⟨a, ha, h1⟩ := bind_ok h
  obtain ⟨b, hb, h2⟩ := bind_ok h1
  obtain ⟨t', ht, h3⟩ := bind_ok h2
  obtain ⟨r, hr, h4⟩ := bind_ok h3
  cases h4
  have hlast : time.getLast? = some b := by
    split at hb
    · rename_i b' hb'
      cases hb
      exact hb'
    · cases hb
  refine ⟨a, b, pyGet_getElem? ha, hlast, ?_, mapM_py_length hr, ?_⟩
  · unfold arange at ht
    rw [if_neg hd.ne'] at ht
    cases ht
    intro k x
    rw [List.getElem?_map]
    by_cases hk : k < ⌈(b - a) / d⌉.toNat
    · rw [List.getElem?_range hk]
      have hlt : a + k * d < b := by
        have h1 : (k : ℤ) < ⌈(b - a) / d⌉ := by omega
        have h2 := Int.lt_ceil.mp h1
        rw [lt_div_iff₀ hd] at h2
        push_cast at h2
        linarith
      constructor
      · intro he
        cases he
        exact ⟨rfl, hlt⟩
      · rintro ⟨rfl, _⟩
        rfl
    · rw [List.getElem?_eq_none (by simpa using hk)]
      constructor
      · intro he
        cases he
      · rintro ⟨rfl, hx⟩
        exfalso
        apply hk
        have : (k : K) < (b - a) / d := by rw [lt_div_iff₀ hd]; linarith
        have h2 : (k : ℤ) < ⌈(b - a) / d⌉ := Int.lt_ceil.mpr (by push_cast; exact this)
        omega
  · intro i m hi
    obtain ⟨y, e, hy⟩ := (mapM_getElem? hr).2 i m hi
    obtain ⟨h', e1, e2⟩ := bind_ok e
    cases e2
    exact ⟨h', e1, hy⟩

/-- **C72, for given start and end times** (without an end time: `C72_default_violation`).  The samples, in time relative to the peak, from the one nearest
to the start time up to, but not including, the one nearest to the end time; times and mode are cut alike. -/
theorem C72_window_partial {lib : LoadLib K C} {t t' : List K} {h22 h' : List C} {s e : K} {i j : ℤ}
    (h : emriCut lib t h22 (some s) (some e) = .ok (t', h', i, j)) :
    ∃ (amp : List K) (peak : K × K) (a b : ℕ) (x y : K), lib.amplitude [((2, 2), h22)] = .ok amp ∧ peakTime t amp = .ok peak ∧
      i = a ∧ j = b ∧ t[a]? = some (x + peak.1) ∧ t[b]? = some (y + peak.1) ∧
      (∀ z ∈ t, |x - s| ≤ |z - peak.1 - s| ∧ |y - e| ≤ |z - peak.1 - e|) ∧
      t' = ((t.take b).drop a).map (· - peak.1) ∧ h' = (h22.take b).drop a := by
  unfold emriCut at h
  obtain ⟨amp, e1, h1⟩ := bind_ok h
  obtain ⟨peak, e2, h2⟩ := bind_ok h1
  obtain ⟨st, e3, h3⟩ := bind_ok h2
  obtain ⟨en, e4, h4⟩ := bind_ok h3
  cases h4
  dsimp only at e3 e4
  cases ha : argmin ((t.map (· - peak.1)).map fun x => |x - s|) with
  | error er => rw [ha] at e3; cases e3
  | ok a =>
  cases hb : argmin ((t.map (· - peak.1)).map fun x => |x - e|) with
  | error er => rw [hb] at e4; cases e4
  | ok b =>
  rw [ha] at e3
  rw [hb] at e4
  cases e3
  cases e4
  obtain ⟨x, f1, f2, _⟩ := argmin_nearest ha
  obtain ⟨y, g1, g2, _⟩ := argmin_nearest hb
  rw [List.getElem?_map] at f1 g1
  obtain ⟨x', f3, rfl⟩ := Option.map_eq_some_iff.mp f1
  obtain ⟨y', g3, rfl⟩ := Option.map_eq_some_iff.mp g1
  have hbd : ∀ {α : Type} (l : List α) (a b : ℕ), pySlice l (a : ℤ) (b : ℤ) = (l.take b).drop a := by
    intro α l a b
    unfold pySlice
    have hp : ∀ n c : ℕ, pyBound n (c : ℤ) = min c n := by
      intro n c
      unfold pyBound
      rw [if_neg (by omega)]
      rfl
    rw [hp, hp]
    apply List.ext_getElem?
    intro n
    rw [List.getElem?_drop, List.getElem?_drop, List.getElem?_take, List.getElem?_take]
    rcases le_or_gt a l.length with q' | q'
    · rw [Nat.min_eq_left q']
      by_cases hn : a + n < l.length
      · rcases le_or_gt b l.length with q | q
        · rw [Nat.min_eq_left q]
        · rw [Nat.min_eq_right (by omega), if_pos hn, if_pos (by omega)]
      · rw [List.getElem?_eq_none (by omega)]
        simp
    · rw [Nat.min_eq_right (by omega), List.getElem?_eq_none (by omega : l.length ≤ l.length + n),
        List.getElem?_eq_none (by omega : l.length ≤ a + n)]
      simp
  refine ⟨amp, peak, a, b, x' - peak.1, y' - peak.1, e1, e2, rfl, rfl, by rw [f3]; simp, by rw [g3]; simp, fun z hz => ?_, ?_, hbd _ _ _⟩
  · exact ⟨f2 _ (List.mem_map_of_mem hz), g2 _ (List.mem_map_of_mem hz)⟩
  · rw [hbd, List.map_drop, List.map_take]

/-- **C72.**  Without a start and an end time every sample but the last is returned: not, as documented, those up to the maximum of the
amplitude, and not the whole waveform either. -/
theorem C72_default_violation {lib : LoadLib K C} {t t' : List K} {h22 h' : List C} {i j : ℤ}
    (h : emriCut lib t h22 none none = .ok (t', h', i, j)) :
    ∃ (amp : List K) (peak : K × K), lib.amplitude [((2, 2), h22)] = .ok amp ∧ peakTime t amp = .ok peak ∧
      t' = (t.map (· - peak.1)).dropLast ∧ h' = h22.dropLast := by
  unfold emriCut at h
  obtain ⟨amp, e1, h1⟩ := bind_ok h
  obtain ⟨peak, e2, h2⟩ := bind_ok h1
  obtain ⟨st, e3, h3⟩ := bind_ok h2
  obtain ⟨en, e4, h4⟩ := bind_ok h3
  cases e3
  cases e4
  cases h4
  have hbd : ∀ {α : Type} (l : List α), pySlice l (0 : ℤ) (-1 : ℤ) = l.dropLast := by
    intro α l
    have h1 : pyBound l.length (-1 : ℤ) = l.length - 1 := by
      unfold pyBound
      rw [if_pos (by decide)]
      omega
    have h0 : pyBound l.length (0 : ℤ) = 0 := by
      unfold pyBound
      rw [if_neg (by decide)]
      simp
    unfold pySlice
    rw [h1, h0, List.dropLast_eq_take]
    rfl
  exact ⟨amp, peak, e1, e2, hbd _, hbd _⟩

end grids

/-! ### Concrete cases -/

namespace Demo

/-- Complex numbers are replaced by rationals.  The "model" returns a parabola whose height scales with mass over
distance; waveforms with eccentricity 0 are shorter, and lower starting frequencies give longer ones. -/
def wave (a : LalArgs ℚ) : List ℚ :=
  let n := if a.fLow * a.m1 < 1 then 16 else if a.eccentricity = 0 then 9 else 11
  (List.range n).map fun (k : ℕ) => (100 - ((k : ℚ) - (n - 3)) ^ 2) * (a.m1 / a.distance)

def lib : LoadLib ℚ ℚ where
  pi := 3
  msun := 2
  mtsun := 2
  pc := 1 / 10 ^ 6
  c := 1
  G := 1
  choose := fun a => .ok (wave a)
  divYlm := fun x => 2 * x
  amplitude := fun d => (d.getItem (2, 2)).map fun l => l.map fun x => |x|
  phase := fun l => (List.range l.length).map fun (k : ℕ) => 5 * (k : ℚ)
  freqOfTime := fun _ _ _ _ _ => .ok 3

def kw : LalKw ℚ :=
  { approximant := some "X", q := some 1, chi1 := some [0, 0, 0], chi2 := some [0, 0, 0], ecc := some (1 / 2), meanAno := some 0,
    momega0 := some 7, deltaTOverM := 1, physicalUnits := false, M := none, D := none, includeZeroEcc := true }

theorem scale : ScaleCovariant lib.choose := by
  intro a l r hl hr
  have hne := hl.ne'
  have hfm : a.fLow / l * (l * a.m1) = a.fLow * a.m1 := by field_simp
  simp only [lib, wave, hfm, Except.map, List.map_map]
  congr 1
  apply List.map_congr_left
  intro k _
  simp only [Function.comp, smul_eq_mul]
  rw [mul_div_mul_comm]
  ring

/-- C70: the hypotheses hold for this library, and the load succeeds in both units. -/
example : (loadBase lib { kw with physicalUnits := true, M := some 3, D := some 5 }).toOption =
    ((loadBase lib { kw with physicalUnits := false }).map (inUnits (timeToMks lib 3) (ampToMks lib 3 5))).toOption := by
  rw [C70_units (by decide +kernel) (by decide +kernel) (by decide +kernel) (by decide +kernel) (by decide +kernel)
    (by decide +kernel) scale (fun k x => by simp only [lib, smul_eq_mul]; ring) (fun k h hk => ?_) kw (by norm_num) (by norm_num)]
  show Except.ok _ = Except.ok _
  congr 1
  simp only [List.map_map]
  apply List.map_congr_left
  intro x _
  simp only [Function.comp, smul_eq_mul, abs_mul, abs_of_pos hk]

/-- C62, C69: the quasicircular partner is generated three times before it starts early enough. -/
example : (loadLAL 10 lib kw).map (·.toOption) = some (some
      { t := [-8, -7, -6, -5, -4, -3, -2, -1, 0, 1, 2], hlm := [((2, 2), [36, 51, 64, 75, 84, 91, 96, 99, 100, 99, 96])],
        zeroecc := some ([-13, -12, -11, -10, -9, -8, -7, -6, -5, -4, -3, -2, -1, 0, 1, 2],
          [((2, 2), [-69, -44, -21, 0, 19, 36, 51, 64, 75, 84, 91, 96, 99, 100, 99, 96])]) }) ∧
    loadLAL 2 lib kw = none := by decide +kernel

/-- Times and one mode of NR data. -/
def nrT (unit : ℚ) : List ℚ := (List.range 20).map fun (k : ℕ) => unit * ((k : ℚ) - 14)
def nrH : List ℚ := (List.range 20).map fun (k : ℕ) => 100 - ((k : ℚ) - 14) ^ 2 / 4

/-- C60. -/
example : ((removeJunk lib (nrT (1 / 2)) [((2, 2), nrH), ((2, 1), nrH)] 2).map fun r => (r.1.take 2, r.2.map fun p => (p.1, p.2.take 2))
      ).toOption = some ([-9 / 2, -4], [((2, 2), [319 / 4, 84]), ((2, 1), [319 / 4, 84])]) ∧
    (horizonDuration 3 (nrT (1 / 2)) ((nrT (1 / 2)).map (5 * ·)) 2).toOption = some (5 / 2) ∧
    ((removeJunkHorizons (nrT (1 / 2)) [((2, 2), nrH)] (-4)).map fun r => (r.1.take 2, r.2.map fun p => (p.1, p.2.take 2))
      ).toOption = some ([-4, -7 / 2], [((2, 2), [84, 351 / 4])]) := by decide +kernel

/-- C61: data short enough for the first waveform that is long enough to start more than ten samples before them. -/
example : (zeroeccForNr 10 lib (nrT (1 / 140)) [((2, 2), nrH)] ⟨"X", 1 / 100, [0, 0, 0], [0, 0, 0], some 0⟩).map (·.toOption.map (·.1.take 2))
    = some (some [-11 / 10, -1]) := by decide +kernel

/-- **C61 fails**, in a complete run: NR data starting at -7/10 and a partner, asked for because of them, that starts at -1/10. -/
theorem C61_late_violation : ∃ (t tz : List ℚ) (hz : Dict LM (List ℚ)),
    zeroeccForNr 10 lib t [((2, 2), nrH)] ⟨"X", 1, [0, 0, 0], [0, 0, 0], some 0⟩ = some (.ok (tz, hz)) ∧
      t.head? = some (-7 / 10) ∧ tz.head? = some (-1 / 10) := by
  have h : ((zeroeccForNr 10 lib (nrT (1 / 20)) [((2, 2), nrH)] ⟨"X", 1, [0, 0, 0], [0, 0, 0], some 0⟩).map (·.toOption)) =
      some (some ([-1 / 10, 0, 1 / 10, 1 / 5], [((2, 2), [99, 100, 99, 96])])) := by decide +kernel
  obtain ⟨r, hr, h2⟩ := Option.map_eq_some_iff.mp h
  cases r with
  | error e => cases h2
  | ok v =>
    cases h2
    exact ⟨nrT (1 / 20), _, _, hr, by decide +kernel, by decide +kernel⟩

/-- C72, C74. -/
example : (emriCut lib (nrT 1) nrH (some (-2)) (some 1)).toOption = some ([-2, -1, 0], [99, 399 / 4, 100], 12, 15) ∧
    ((emriCut lib (nrT 1) nrH none none).map fun r => r.1.length).toOption = some 19 ∧
    (resample (K := ℚ) (C := ℚ) (fun _ h t => .ok (t.map fun _ => (h.length : ℚ))) [0, 1 / 3, 1, 2] (2 / 3) [((2, 2), nrH)]).toOption =
      some ([0, 2 / 3, 4 / 3], [((2, 2), [20, 20, 20])]) := by decide +kernel

end Demo

end GwEcc.Load
