import Verif.Lemmas.Measure
import Verif.Lemmas.MeasureDemo
import Verif.Props.Extrema
import Verif.Props.Utils

/-!
# Properties of a measurement: C01, C02, C06–C10
-/

set_option linter.unusedSectionVars false

namespace GwEcc

open Spec

variable {K : Type} [Field K] [LinearOrder K] [IsStrictOrderedRing K]

theorem retDict_get (domain : Domain) (ve va vr : Val K) :
    (retDict domain ve va vr).get? "eccentricity" = some ve ∧
    (retDict domain ve va vr).get? "mean_anomaly" = some va ∧
    (domain = .time → (retDict domain ve va vr).get? "tref_out" = some vr ∧
      (retDict domain ve va vr).get? "fref_out" = none) ∧
    (domain = .frequency → (retDict domain ve va vr).get? "fref_out" = some vr ∧
      (retDict domain ve va vr).get? "tref_out" = none) := by
  cases domain <;> simp [retDict, Dict.get?_cons, Domain.key]

/-- On success the returned dictionary has exactly the three documented entries, all scalars or all arrays according to
the input. -/
theorem measureEcc_shape [FloorRing K] {e : Ext K} {o : Obj K} {cache cache' : AvgCache K}
    {ret : Dict String (Val K)} {mo : Option (Meas K)} (h : measureEcc e o cache = .ok (ret, mo, cache')) :
    ∃ ve va vr, ret = retDict o.domain ve va vr ∧
      ve.isScalar = o.refIn.isScalar ∧ va.isScalar = o.refIn.isScalar ∧ vr.isScalar = o.refIn.isScalar ∧
      ve.atleast1d.length = vr.atleast1d.length ∧ va.atleast1d.length = vr.atleast1d.length := by
  obtain ⟨p, a, lacking, _, h | ⟨m, p', a', _, _, _, hm, hev⟩⟩ := measureEcc_ok h
  · obtain ⟨_, _, _, hz⟩ := h
    obtain ⟨ve, va, vr, rfl, h1, h2, h3, h4, h5, h6⟩ := makeReturn_ok hz
    refine ⟨ve, va, vr, rfl, h1, h2, h3, ?_, ?_⟩ <;> rw [h6 (by simp)] <;> [rw [h4]; rw [h5]] <;> simp
  · have ho := (prepare_ok hm).1
    subst ho
    obtain ⟨trefIn, fOut, trefOut, ecc, ano, _, _, _, hlen, hecc, hano, _, hret⟩ := evaluate_ok hev
    obtain ⟨ve, va, vr, rfl, h1, h2, h3, h4, h5, h6⟩ := makeReturn_ok hret
    have l1 := computeEccentricity_length hecc
    have l2 := computeMeanAnomaly_length hano
    have l3 : (m.o.domain.pick trefOut fOut).length = trefOut.length := by
      cases hd : m.o.domain with
      | time => rfl
      | frequency => exact hlen hd
    refine ⟨ve, va, vr, rfl, h1, h2, h3, ?_, ?_⟩ <;> rw [h6 (by rw [l3, l1])] <;> [rw [h4]; rw [h5]] <;>
      rw [l3] <;> assumption

/-! ## C01 Exactly one reference point -/

/-- Whatever the constructor and the measurement do, a call succeeds only if exactly one of `tref_in` and `fref_in` was
given; the result has `tref_out` (and no `fref_out`) exactly in the first case and `fref_out` (and no `tref_out`) in the
second. -/
theorem C01_exactly_one [FloorRing K] (build : MethodClass → Domain → Val K → Py (Ext K × Obj K)) (method : String)
    (tref fref : Option (Val K)) (frame : String) (ret : Dict String (Val K)) (rest)
    (h : measureEccentricity build method tref fref frame = .ok (ret, rest)) :
    (tref.isSome ∧ fref = none ∧ (∃ v, ret.get? "tref_out" = some v) ∧ ret.get? "fref_out" = none) ∨
    (tref = none ∧ fref.isSome ∧ (∃ v, ret.get? "fref_out" = some v) ∧ ret.get? "tref_out" = none) := by
  unfold measureEccentricity at h
  split at h
  · obtain ⟨c, _, h⟩ := bind_ok h
    obtain ⟨⟨d, r⟩, hi, h⟩ := bind_ok h
    obtain ⟨⟨e, o⟩, _, h⟩ := bind_ok h
    obtain ⟨mo, cache'⟩ := rest
    obtain ⟨ve, va, vr, rfl, _⟩ := measureEcc_shape h
    have hg := retDict_get d ve va vr
    unfold initReference at hi
    obtain ⟨r', hr, hi⟩ := bind_ok hi
    split at hi
    · rw [pure_eq_ok, Except.ok.injEq] at hi; subst hi
      split at hr
      · simp only [pure_eq_ok, Except.ok.injEq, Prod.mk.injEq] at hr
        obtain ⟨rfl, rfl⟩ := hr
        left; exact ⟨rfl, rfl, ⟨vr, (hg.2.2.1 rfl).1⟩, (hg.2.2.1 rfl).2⟩
      · simp only [pure_eq_ok, Except.ok.injEq, Prod.mk.injEq] at hr
        obtain ⟨rfl, rfl⟩ := hr
        right; exact ⟨rfl, rfl, ⟨vr, (hg.2.2.2 rfl).1⟩, (hg.2.2.2 rfl).2⟩
      · exact absurd hr (by simp)
    · exact absurd hi (by simp)
  · exact absurd h (by simp)

/-- With none or both of them the call raises `KeyError` before the constructor's work starts (it does not depend on
`build`). -/
theorem C01_raises [FloorRing K] (build : MethodClass → Domain → Val K → Py (Ext K × Obj K)) (method : String)
    (tref fref : Option (Val K)) (frame : String) (hm : availableMethods.has method)
    (h : tref.isSome = fref.isSome) :
    measureEccentricity build method tref fref frame = .error .keyError := by
  unfold measureEccentricity
  rw [if_pos hm]
  obtain ⟨c, hc⟩ := (Dict.has_iff_get? _ _).mp hm
  have : availableMethods.getItem method = .ok c := by unfold Dict.getItem; rw [hc]
  rw [this, ok_bind]
  unfold initReference
  cases tref <;> cases fref <;> first | rfl | simp at h

example : availableMethods.has "Amplitude" = true ∧ ((none : Option (Val ℚ)).isSome = (none : Option (Val ℚ)).isSome) := by
  decide

/-- Full runs of the entry point in both domains. -/
example : (measureEccentricity (fun _ _ _ => .ok (Demo.ext, Demo.obj)) "Amplitude" (some (.array [3, 5, 13, 18])) none
      "inertial").map (·.1) = .ok [("eccentricity", .array [5 / 46, 25 / 238]),
      ("mean_anomaly", .array [33 / 7, 33 / 7]), ("tref_out", .array [5, 13])] := by decide +kernel

example : (measureEccentricity (fun _ _ _ => .ok (Demo.ext, Demo.obj)) "Frequency" none
      (some (.array [0, 13 / 20, 2 / 3, 1])) "inertial").map (·.1) = .ok [("eccentricity", .array [35 / 321, 21 / 197]),
      ("mean_anomaly", .array [176 / 49, 814 / 147]), ("fref_out", .array [13 / 20, 2 / 3])] := by decide +kernel

/-! ## C02 Method dispatch -/

/-- A call succeeds only for one of the six names, and then it runs the class that calls itself by that name; only that
class matters. -/
theorem C02_dispatch [FloorRing K] (build : MethodClass → Domain → Val K → Py (Ext K × Obj K)) (method : String)
    (tref fref : Option (Val K)) (frame : String) (r)
    (h : measureEccentricity build method tref fref frame = .ok r) :
    method ∈ ["Amplitude", "Frequency", "ResidualAmplitude", "ResidualFrequency", "AmplitudeFits", "FrequencyFits"] ∧
    (frame = "inertial" ∨ frame = "coprecessing") ∧
    ∃ c : MethodClass, c.label = method ∧
      ∀ build', build' c = build c → measureEccentricity build' method tref fref frame = .ok r := by
  have h0 := h
  unfold measureEccentricity at h
  split at h
  · rename_i hm
    obtain ⟨c, hc, h⟩ := bind_ok h
    obtain ⟨⟨d, ref⟩, hi, h⟩ := bind_ok h
    have hc' : availableMethods.get? method = some c := by
      unfold Dict.getItem at hc
      split at hc
      · rename_i v hv; simp only [Except.ok.injEq] at hc; rw [hv, hc]
      · exact absurd hc (by simp)
    have hcases : (method, c) ∈ availableMethods := by
      simp only [availableMethods, Dict.get?_cons, Dict.get?_nil] at hc'
      simp only [availableMethods, List.mem_cons, List.not_mem_nil, or_false, Prod.mk.injEq]
      split_ifs at hc' <;> simp_all
    have hframe : frame = "inertial" ∨ frame = "coprecessing" := by
      unfold initReference at hi
      obtain ⟨r', hr, hi⟩ := bind_ok hi
      split at hi
      · assumption
      · exact absurd hi (by simp)
    refine ⟨?_, hframe, c, ?_, ?_⟩
    · simp only [availableMethods, List.mem_cons, List.not_mem_nil, or_false, Prod.mk.injEq] at hcases
      rcases hcases with ⟨rfl, _⟩ | ⟨rfl, _⟩ | ⟨rfl, _⟩ | ⟨rfl, _⟩ | ⟨rfl, _⟩ | ⟨rfl, _⟩ <;> simp
    · simp only [availableMethods, List.mem_cons, List.not_mem_nil, or_false, Prod.mk.injEq] at hcases
      rcases hcases with ⟨rfl, rfl⟩ | ⟨rfl, rfl⟩ | ⟨rfl, rfl⟩ | ⟨rfl, rfl⟩ | ⟨rfl, rfl⟩ | ⟨rfl, rfl⟩ <;> rfl
    · intro build' hb
      rw [← h0]
      unfold measureEccentricity
      rw [if_pos hm, if_pos hm, hc]
      simp only [ok_bind]
      rw [hb]
  · exact absurd h (by simp)

/-- Any other name raises, whatever else is passed. -/
theorem C02_unknown_method [FloorRing K] (build : MethodClass → Domain → Val K → Py (Ext K × Obj K)) (method : String)
    (tref fref : Option (Val K)) (frame : String)
    (h : method ∉ ["Amplitude", "Frequency", "ResidualAmplitude", "ResidualFrequency", "AmplitudeFits",
      "FrequencyFits"]) :
    measureEccentricity build method tref fref frame = .error .exception := by
  unfold measureEccentricity
  rw [if_neg]
  rw [Dict.has_iff]
  simpa [availableMethods, Dict.keys] using h

/-- All six names and both frames get through to their class (which may do anything). -/
theorem C02_known_method [FloorRing K] (build : MethodClass → Domain → Val K → Py (Ext K × Obj K)) (method frame : String)
    (hm : method ∈ ["Amplitude", "Frequency", "ResidualAmplitude", "ResidualFrequency", "AmplitudeFits",
      "FrequencyFits"])
    (hf : frame = "inertial" ∨ frame = "coprecessing") (v : Val K) :
    ∃ c : MethodClass, c.label = method ∧
      measureEccentricity build method (some v) none frame
        = (build c .time v >>= fun r => measureEcc r.1 { r.2 with domain := .time, refIn := v } none) ∧
      measureEccentricity build method none (some v) frame
        = (build c .frequency v >>= fun r => measureEcc r.1 { r.2 with domain := .frequency, refIn := v } none) := by
  have key : ∀ c : MethodClass, availableMethods.get? method = some c → ∃ c : MethodClass,
      availableMethods.get? method = some c ∧
      measureEccentricity build method (some v) none frame
        = (build c .time v >>= fun r => measureEcc r.1 { r.2 with domain := .time, refIn := v } none) ∧
      measureEccentricity build method none (some v) frame
        = (build c .frequency v >>= fun r => measureEcc r.1 { r.2 with domain := .frequency, refIn := v } none) := by
    intro c hc
    refine ⟨c, hc, ?_, ?_⟩ <;>
    · unfold measureEccentricity initReference
      rw [if_pos ((Dict.has_iff_get? _ _).mpr ⟨c, hc⟩)]
      have : availableMethods.getItem method = .ok c := by unfold Dict.getItem; rw [hc]
      rw [this]
      simp only [ok_bind, pure_eq_ok, if_pos hf]
  simp only [List.mem_cons, List.not_mem_nil, or_false] at hm
  rcases hm with rfl | rfl | rfl | rfl | rfl | rfl
  · exact ⟨.amplitude, rfl, (by obtain ⟨c, h1, h2⟩ := key .amplitude (by decide); cases h1; exact h2)⟩
  · exact ⟨.frequency, rfl, (by obtain ⟨c, h1, h2⟩ := key .frequency (by decide); cases h1; exact h2)⟩
  · exact ⟨.residualAmplitude, rfl, (by obtain ⟨c, h1, h2⟩ := key .residualAmplitude (by decide); cases h1; exact h2)⟩
  · exact ⟨.residualFrequency, rfl, (by obtain ⟨c, h1, h2⟩ := key .residualFrequency (by decide); cases h1; exact h2)⟩
  · exact ⟨.amplitudeFits, rfl, (by obtain ⟨c, h1, h2⟩ := key .amplitudeFits (by decide); cases h1; exact h2)⟩
  · exact ⟨.frequencyFits, rfl, (by obtain ⟨c, h1, h2⟩ := key .frequencyFits (by decide); cases h1; exact h2)⟩

/-- An unknown frame raises `ValueError`. -/
theorem C02_unknown_frame [FloorRing K] (build : MethodClass → Domain → Val K → Py (Ext K × Obj K)) (method frame : String)
    (tref fref : Option (Val K)) (hm : availableMethods.has method) (h1 : tref.isSome ≠ fref.isSome)
    (hf : ¬ (frame = "inertial" ∨ frame = "coprecessing")) :
    measureEccentricity build method tref fref frame = .error .valueError := by
  unfold measureEccentricity
  rw [if_pos hm]
  obtain ⟨c, hc⟩ := (Dict.has_iff_get? _ _).mp hm
  have : availableMethods.getItem method = .ok c := by unfold Dict.getItem; rw [hc]
  rw [this, ok_bind]
  unfold initReference
  cases tref <;> cases fref <;> first | (simp at h1; done) | (simp only [pure_eq_ok, ok_bind, if_neg hf]; rfl)

/-! ## C06 Result shape -/

/-- On success the three returned quantities are all scalars or all arrays, like the input; they have the same number of
elements, at most the number requested, and at least one if anything was requested. -/
theorem C06_shape [FloorRing K] (e : Ext K) (o : Obj K) (cache cache' : AvgCache K) (ret : Dict String (Val K))
    (mo : Option (Meas K)) (h : measureEcc e o cache = .ok (ret, mo, cache')) :
    ∃ ve va vr n, ret.get? "eccentricity" = some ve ∧ ret.get? "mean_anomaly" = some va ∧
      ret.get? o.domain.key = some vr ∧
      ve.isScalar = o.refIn.isScalar ∧ va.isScalar = o.refIn.isScalar ∧ vr.isScalar = o.refIn.isScalar ∧
      ve.atleast1d.length = n ∧ va.atleast1d.length = n ∧ vr.atleast1d.length = n ∧
      n ≤ o.refIn.atleast1d.length ∧ (o.refIn.atleast1d ≠ [] → 1 ≤ n) := by
  obtain ⟨p, a, lacking, _, h | ⟨m, p', a', _, _, _, hm, hev⟩⟩ := measureEcc_ok h
  · obtain ⟨_, _, _, hz⟩ := h
    obtain ⟨ve, va, vr, rfl, h1, h2, h3, h4, h5, h6⟩ := makeReturn_ok hz
    have h6 := h6 (by simp)
    refine ⟨ve, va, vr, o.refIn.atleast1d.length, (retDict_get _ _ _ _).1, (retDict_get _ _ _ _).2.1, ?_, h1, h2, h3,
      by rw [h4]; simp, by rw [h5]; simp, by rw [h6], le_refl _, fun hne => List.length_pos_iff.mpr hne⟩
    cases o.domain <;> simp [retDict, Dict.get?_cons, Domain.key]
  · have ho := (prepare_ok hm).1
    subst ho
    obtain ⟨trefIn, fOut, trefOut, ecc, ano, hr, htr, hne, hlen, hecc, hano, _, hret⟩ := evaluate_ok hev
    obtain ⟨ve, va, vr, rfl, h1, h2, h3, h4, h5, h6⟩ := makeReturn_ok hret
    have l1 := computeEccentricity_length hecc
    have l2 := computeMeanAnomaly_length hano
    have l3 : (m.o.domain.pick trefOut fOut).length = trefOut.length := by
      cases hd : m.o.domain with
      | time => rfl
      | frequency => exact hlen hd
    have h6 := h6 (by rw [l3, l1])
    refine ⟨ve, va, vr, trefOut.length, (retDict_get _ _ _ _).1, (retDict_get _ _ _ _).2.1, ?_, h1, h2, h3,
      by rw [h4, l1], by rw [h5, l2], by rw [h6, l3], ?_, fun _ => List.length_pos_iff.mpr hne⟩
    · cases m.o.domain <;> simp [retDict, Dict.get?_cons, Domain.key]
    · cases hd : m.o.domain with
      | time =>
        rw [htr, referenceTimes_time hd hr]
        exact List.length_filter_le _ _
      | frequency =>
        rw [← hlen hd]
        obtain ⟨_, c, ts, w, hf, _⟩ := trefFromFref_ok (referenceTimes_frequency hd hr)
        obtain ⟨lo, hi, _, rfl, _⟩ := frefOut_ok hf
        exact List.length_filter_le _ _

/-! ## C07 Which reference times are answered -/

/-- For time input the times answered are exactly the requested times between the first and the last pericenter used and
between the first and the last apocenter used, in the order given and with repetitions; there is at least one. -/
theorem C07_times_answered [FloorRing K] (e : Ext K) (o : Obj K) (cache cache' : AvgCache K) (ret : Dict String (Val K))
    (m : Meas K) (hd : o.domain = .time) (h : measureEcc e o cache = .ok (ret, some m, cache'))
    (keep : K → Bool) (hk : ∀ x, keep x = true ↔ Within m.tPeri x ∧ Within m.tApo x) :
    ∃ v, ret.get? "tref_out" = some v ∧ v.atleast1d = o.refIn.atleast1d.filter keep ∧ v.atleast1d ≠ [] := by
  obtain ⟨p, a, lacking, _, ⟨h, _⟩ | ⟨m', p', a', hmo, _, _, hm, hev⟩⟩ := measureEcc_ok h
  · exact absurd h (by simp)
  · injection hmo with hmo; subst hmo
    have ho := (prepare_ok hm).1
    subst ho
    obtain ⟨trefIn, fOut, trefOut, ecc, ano, hr, htr, hne, hlen, hecc, hano, _, hret⟩ := evaluate_ok hev
    obtain ⟨ve, va, vr, rfl, _, _, _, h4, _, h6⟩ := makeReturn_ok hret
    rw [hd] at h6
    have h6 := h6 (computeEccentricity_length hecc).symm
    refine ⟨vr, ((retDict_get _ _ _ _).2.2.1 hd).1, ?_, by rw [h6]; exact hne⟩
    rw [h6]
    show trefOut = _
    rw [htr, referenceTimes_time hd hr]
    apply List.filter_congr
    intro x _
    rw [Bool.eq_iff_iff, hk, ← prepare_window hm x, decide_eq_true_eq, and_comm]

/-- The extrema used are those found, with nothing inserted and nothing removed in the middle, and the times in
`C07_times_answered` are the times of these samples. -/
theorem C07_extrema_used [FloorRing K] (e : Ext K) (o : Obj K) (cache cache' : AvgCache K) (ret : Dict String (Val K))
    (m : Meas K) (h : measureEcc e o cache = .ok (ret, some m, cache')) :
    m.tPeri = m.pericenters.map (fun i => o.t.getD i 0) ∧ m.tApo = m.apocenters.map (fun i => o.t.getD i 0) ∧
    2 ≤ m.pericenters.length ∧ 2 ≤ m.apocenters.length ∧
    ∃ p a, e.find .pericenters = .ok p ∧
      (if o.midpoints then a = midpointApocenters p else e.find .apocenters = .ok a) ∧
      (p.Pairwise (· < ·) → a.Pairwise (· < ·) → m.pericenters <:+: p ∧ m.apocenters <:+: a) := by
  obtain ⟨p, a, lacking, hf, ⟨h, _⟩ | ⟨m', p', a', hmo, _, hs, hm, hev⟩⟩ := measureEcc_ok h
  · exact absurd h (by simp)
  · injection hmo with hmo; subst hmo
    obtain ⟨ho, hp, ha, htp, hta, h2p, h2a, _⟩ := prepare_ok hm
    subst hp ha
    refine ⟨htp, hta, h2p, h2a, p, a, ?_⟩
    unfold findBoth at hf
    obtain ⟨p1, hp1, hf⟩ := bind_ok hf
    obtain ⟨ip, _, hf⟩ := bind_ok hf
    obtain ⟨a1, ha1, hf⟩ := bind_ok hf
    obtain ⟨ia, _, hf⟩ := bind_ok hf
    simp only [pure_eq_ok, Except.ok.injEq, Prod.mk.injEq] at hf
    obtain ⟨rfl, rfl, _⟩ := hf
    refine ⟨hp1, ?_, ?_⟩
    · split at ha1
      · rename_i hmid
        rw [if_pos hmid]
        simpa [pure_eq_ok] using ha1.symm
      · rename_i hmid
        rw [if_neg hmid]; exact ha1
    · intro sp sa
      unfold settleExtrema at hs
      obtain ⟨⟨p2, a2⟩, hg, hs⟩ := bind_ok hs
      simp only at hs
      obtain ⟨_, _, hs⟩ := bind_ok hs
      obtain ⟨_, _, hs⟩ := bind_ok hs
      have hsub := C23_contiguous _ _ _ _ _ _ _ _ sp sa hg
      by_cases hc : (o.precessing && o.filtered) = true
      · rw [if_pos hc] at hs
        simp only at hs
        obtain ⟨_, _, hs⟩ := bind_ok hs
        obtain ⟨_, _, hs⟩ := bind_ok hs
        obtain ⟨_, _, hs⟩ := bind_ok hs
        simp only [pure_eq_ok, Except.ok.injEq, Prod.mk.injEq] at hs
        rw [← hs.1, ← hs.2]
        exact ⟨(List.drop_suffix 1 _).isInfix.trans hsub.1, (List.drop_suffix 1 _).isInfix.trans hsub.2.1⟩
      · rw [if_neg hc] at hs
        simp only at hs
        obtain ⟨_, _, hs⟩ := bind_ok hs
        obtain ⟨_, _, hs⟩ := bind_ok hs
        obtain ⟨_, _, hs⟩ := bind_ok hs
        simp only [pure_eq_ok, Except.ok.injEq, Prod.mk.injEq] at hs
        rw [← hs.1, ← hs.2]
        exact ⟨hsub.1, hsub.2.1⟩

/-- No requested time inside: the call raises. -/
theorem C07_none_raises [FloorRing K] (e : Ext K) (o : Obj K) (cache : AvgCache K) (p a : List ℕ) (m : Meas K)
    (hd : o.domain = .time) (hm : prepare e o p a = .ok m)
    (hout : ∀ x ∈ o.refIn.atleast1d, ¬ (Within m.tPeri x ∧ Within m.tApo x)) :
    ∃ err, evaluate e m cache = .error err := by
  cases h : evaluate e m cache with
  | error err => exact ⟨err, rfl⟩
  | ok r =>
    exfalso
    obtain ⟨ret, c⟩ := r
    obtain ⟨trefIn, fOut, trefOut, ecc, ano, hr, htr, hne, _⟩ := evaluate_ok h
    have ho := (prepare_ok hm).1
    rw [← ho] at hd hout
    rw [referenceTimes_time hd hr] at htr
    apply hne
    rw [htr, List.filter_eq_nil_iff]
    intro x hx
    rw [decide_eq_true_eq, and_comm, prepare_window hm x]
    exact hout x hx

/-- Four requested times, two of them answered. -/
example : (measureEcc Demo.ext Demo.obj none).map (fun r => (r.1.get? "tref_out", r.2.1.map (·.tPeri), r.2.1.map (·.tApo)))
      = .ok (some (.array [5, 13]), some [2, 6, 10, 14], some [4, 8, 12, 16]) := by decide +kernel

example : (measureEcc Demo.ext { Demo.obj with refIn := .scalar 3 } none).map (·.1) = .error .exception := by
  decide +kernel

/-! ## C08 No extrapolation -/

/-- Eccentricity at a list of times with one outside the range of either kind of extrema: an exception. -/
theorem C08_eccentricity_outside_raises (e : Ext K) (o : Obj K) (p a : List ℕ) (m : Meas K)
    (hm : prepare e o p a = .ok m) (ts : List K) (x : K) (hx : x ∈ ts) (hout : ¬ (Within m.tPeri x ∧ Within m.tApo x)) :
    computeEccentricity e m ts = .error .exception := by
  unfold computeEccentricity
  rw [checkInputLimits_error, err_bind]
  intro h
  exact hout ((prepare_window hm x).mp (h x hx))

/-- The same for mean anomaly. -/
theorem C08_mean_anomaly_outside_raises [FloorRing K] (e : Ext K) (o : Obj K) (p a : List ℕ) (m : Meas K)
    (hm : prepare e o p a = .ok m) (ts : List K) (x : K) (hx : x ∈ ts) (hout : ¬ (Within m.tPeri x ∧ Within m.tApo x)) :
    computeMeanAnomaly e m ts = .error .exception := by
  unfold computeMeanAnomaly
  rw [checkInputLimits_error, err_bind]
  intro h
  exact hout ((prepare_window hm x).mp (h x hx))

/-- The same for the derivative of the eccentricity. -/
theorem C08_derivative_outside_raises (e : Ext K) (o : Obj K) (p a : List ℕ) (m : Meas K)
    (hm : prepare e o p a = .ok m) (ts : List K) (x : K) (hx : x ∈ ts) (hout : ¬ (Within m.tPeri x ∧ Within m.tApo x)) :
    derivativeOfEccentricity e m ts = .error .exception := by
  unfold derivativeOfEccentricity
  rw [checkInputLimits_error, err_bind]
  intro h
  exact hout ((prepare_window hm x).mp (h x hx))

/-- Everything a measurement returns depends on the two interpolants only through their values between the first and
the last pericenter and between the first and the last apocenter: replace them by any other functions that agree there
and the outcome (result or exception) is the same. -/
theorem C08_no_extrapolation [FloorRing K] (e : Ext K) (o : Obj K) (p a : List ℕ) (m : Meas K) (cache : AvgCache K)
    (hm : prepare e o p a = .ok m) (fP fA : K → Py K)
    (hP : ∀ x, Within m.tPeri x → Within m.tApo x → fP x = m.interpP x)
    (hA : ∀ x, Within m.tPeri x → Within m.tApo x → fA x = m.interpA x) :
    evaluate e { m with interpP := fP, interpA := fA } cache = evaluate e m cache := by
  set m' : Meas K := { m with interpP := fP, interpA := fA } with hm'
  have inside : ∀ x, m.tmin ≤ x ∧ x ≤ m.tmax → fP x = m.interpP x ∧ fA x = m.interpA x := by
    intro x hx
    have := (prepare_window hm x).mp hx
    exact ⟨hP x this.1 this.2, hA x this.1 this.2⟩
  have hecc : ∀ ts, computeEccentricity e m' ts = computeEccentricity e m ts := by
    intro ts
    by_cases h : ∀ x ∈ ts, m.tmin ≤ x ∧ x ≤ m.tmax
    · unfold computeEccentricity
      have e1 : ts.mapM m'.interpP = ts.mapM m.interpP := mapM_py_congr fun x hx => (inside x (h x hx)).1
      have e2 : ts.mapM m'.interpA = ts.mapM m.interpA := mapM_py_congr fun x hx => (inside x (h x hx)).2
      rw [e1, e2]
    · unfold computeEccentricity
      have e0 : checkInputLimits ts m.tmin m.tmax = .error .exception := checkInputLimits_error h
      show (checkInputLimits ts m.tmin m.tmax >>= _) = _
      rw [e0]; rfl
  have hmono : checkMonotonicity e m' = checkMonotonicity e m := by
    unfold checkMonotonicity derivativeOfEccentricity
    rw [hecc]
  have hmean : ∀ ts : List K, (∀ x ∈ ts, m.tmin ≤ x ∧ x ≤ m.tmax) →
      computeMeanOfInterpolants m' ts = computeMeanOfInterpolants m ts := by
    intro ts h
    unfold computeMeanOfInterpolants
    have e1 : ts.mapM m'.interpP = ts.mapM m.interpP := mapM_py_congr fun x hx => (inside x (h x hx)).1
    have e2 : ts.mapM m'.interpA = ts.mapM m.interpA := mapM_py_congr fun x hx => (inside x (h x hx)).2
    rw [e1, e2]
  have havg : ∀ method, omegaAverage e m' method = omegaAverage e m method := by
    intro method
    unfold omegaAverage
    have e1 : averageTimes e m' (method.getD m'.o.avgMethod) = averageTimes e m (method.getD m.o.avgMethod) := rfl
    simp only [e1]
    cases ht : averageTimes e m (method.getD m.o.avgMethod) with
    | error err => rfl
    | ok ts =>
      simp only [ok_bind]
      have : evalAverage e m' (method.getD m'.o.avgMethod) ts = evalAverage e m (method.getD m.o.avgMethod) ts := by
        show evalAverage e m' (method.getD m.o.avgMethod) ts = _
        unfold evalAverage
        by_cases hme : method.getD m.o.avgMethod = "mean_of_extrema_interpolants"
        · rw [if_pos hme, if_pos hme]
          apply hmean
          intro x hx
          unfold averageTimes at ht
          rw [hme] at ht
          simp only [ne_eq, String.reduceEq, not_false_eq_true, if_true, pure_eq_ok, ok_bind, Except.ok.injEq] at ht
          subst ht
          simpa using (List.mem_filter.mp hx).2
        · rw [if_neg hme, if_neg hme]; rfl
      rw [this]
  have hb : ∀ c method, frefBounds e m' c method = frefBounds e m c method := by
    intro c method
    unfold frefBounds
    cases c with
    | none => simp only [havg]; rfl
    | some c => rfl
  have hout : ∀ c f method, frefOut e m' c f method = frefOut e m c f method := by
    intro c f method
    unfold frefOut
    rw [hb]
  have htf : ∀ c f, trefFromFref e m' c f = trefFromFref e m c f := by
    intro c f
    unfold trefFromFref
    simp only [hout, havg]
    rfl
  have hr : referenceTimes e m' cache = referenceTimes e m cache := by
    unfold referenceTimes
    have : m'.o = m.o := rfl
    rw [this]
    cases m.o.domain with
    | time => rfl
    | frequency => simp only [htf]
  have hano : ∀ ts, computeMeanAnomaly e m' ts = computeMeanAnomaly e m ts := fun ts => rfl
  unfold evaluate
  simp only [hr, hecc, hano, hmono]
  rfl

/-- The interpolants are built from the extrema that are used, so that range is inside the nodes; the spline is asked not
to extrapolate (`ext = 2`, an error outside). -/
theorem C08_nodes (e : Ext K) (o : Obj K) (p a : List ℕ) (m : Meas K) (hm : prepare e o p a = .ok m)
    (hs : o.interpMethod = "spline") :
    m.interpP = e.eval (.spline (min o.extremaKw.k (p.length - 1)) 2) m.tPeri (p.map fun i => o.omega.getD i 0) ∧
    m.interpA = e.eval (.spline (min o.extremaKw.k (a.length - 1)) 2) m.tApo (a.map fun i => o.omega.getD i 0) ∧
    m.tPeri.Pairwise (· < ·) ∧ m.tApo.Pairwise (· < ·) := by
  obtain ⟨_, _, _, hp, ha, _, _, _, _, hP, hA⟩ := prepare_ok hm
  have key : ∀ {ty ext ts f}, extremaInterpolant e o ty p a ts = .ok f → ty.pick p a = ext →
      f = e.eval (.spline (min o.extremaKw.k (ext.length - 1)) 2) (takeAt o.t ext) (ext.map fun i => o.omega.getD i 0) ∧
      (takeAt o.t ext).Pairwise (· < ·) := by
    rintro ty ext ts f h rfl
    unfold extremaInterpolant at h
    split at h
    · rw [hs] at h
      obtain ⟨g, hg, h⟩ := bind_ok h
      simp only [String.reduceEq, if_false, if_true] at hg
      obtain ⟨⟨call, kw', w⟩, hr, hg⟩ := bind_ok hg
      obtain ⟨_, _, h⟩ := bind_ok h
      obtain ⟨_, _, h⟩ := bind_ok h
      obtain ⟨_, _, h⟩ := bind_ok h
      simp only [pure_eq_ok, Except.ok.injEq] at h hg
      subst h hg
      obtain ⟨⟨x, hc, hx⟩, _⟩ := C35_spline_call _ _ _ _ _ _ _ hr
      have hx2 := hx.mpr rfl
      subst hx2
      have hacc := (C35_accepts (takeAt o.t (ty.pick p a)) false .spline o.extremaKw true).mp ⟨_, hr⟩
      refine ⟨?_, hacc.1⟩
      rw [hc]
      simp [takeAt]
      rfl
    · exact absurd h (by simp)
  rw [hp, ha]
  exact ⟨(key hP rfl).1, (key hA rfl).1, (key hP rfl).2, (key hA rfl).2⟩

example : (prepare Demo.ext { Demo.obj with interpMethod := "spline" } [2, 6, 10, 14] [4, 8, 12, 16]).map
    (fun m => (m.tmin, m.tmax)) = .ok (4, 14) := by decide +kernel

example : (prepare Demo.ext Demo.obj [2, 6, 10, 14] [4, 8, 12, 16] >>= fun m => computeEccentricity Demo.ext m [5, 3])
    = .error .exception := by decide +kernel

/-! ## C09 Which reference frequencies are answered -/

/-- After a successful measurement for frequencies, `get_fref_bounds` (with any method) returns bounds `lo`, `hi` such that
the frequencies answered are exactly the requested ones with `lo ≤ f < hi`, in order and with repetitions. -/
theorem C09_frequencies_answered [FloorRing K] (e : Ext K) (o : Obj K) (cache' : AvgCache K)
    (ret : Dict String (Val K)) (m : Meas K) (hd : o.domain = .frequency)
    (h : measureEcc e o none = .ok (ret, some m, cache')) (method : Option String) :
    ∃ v lo hi, ret.get? "fref_out" = some v ∧ frefBounds e m cache' method = .ok ((lo, hi), cache') ∧
      v.atleast1d ≠ [] ∧
      ∀ keep : K → Bool, (∀ f, keep f = true ↔ lo ≤ f ∧ f < hi) → v.atleast1d = o.refIn.atleast1d.filter keep := by
  obtain ⟨p, a, lacking, _, ⟨h, _⟩ | ⟨m', p', a', hmo, _, _, hm, hev⟩⟩ := measureEcc_ok h
  · exact absurd h (by simp)
  · injection hmo with hmo; subst hmo
    have ho := (prepare_ok hm).1
    subst ho
    obtain ⟨trefIn, fOut, trefOut, ecc, ano, hr, htr, hne, hlen, hecc, hano, _, hret⟩ := evaluate_ok hev
    obtain ⟨ve, va, vr, rfl, _, _, _, h4, _, h6⟩ := makeReturn_ok hret
    rw [hd] at h6
    have h6 : vr.atleast1d = fOut := h6 (by rw [computeEccentricity_length hecc]; exact hlen hd)
    obtain ⟨_, c, ts, w, hf, hav, rfl, _, _⟩ := trefFromFref_ok (referenceTimes_frequency hd hr)
    obtain ⟨lo, hi, hb, rfl, hne'⟩ := frefOut_ok hf
    obtain ⟨avg, mn, mx, hc, rfl, hmn, hmx, rfl, rfl, hdm⟩ := frefBounds_ok hb
    rcases hc with hc | ⟨_, hc⟩
    · exact absurd hc (by simp)
    · rw [hav] at hc
      injection hc with hc; subst hc
      refine ⟨vr, mn / 2 / e.pi, mx / 2 / e.pi, ((retDict_get _ _ _ _).2.2.2 hd).1, ?_, by rw [h6]; exact hne', ?_⟩
      · unfold frefBounds
        simp only [pure_eq_ok, ok_bind]
        by_cases hu : m.o.useOnly = true
        · obtain ⟨out, hout⟩ := hdm hu
          simp only at hmn hmx
          rw [if_pos hu, hout, ok_bind, hmn, ok_bind, hmx, ok_bind]
        · simp only at hmn hmx
          rw [if_neg hu, ok_bind, hmn, ok_bind, hmx, ok_bind]
      · intro keep hk
        rw [h6]
        apply List.filter_congr
        intro f _
        rw [Bool.eq_iff_iff, hk, decide_eq_true_eq]

/-- No requested frequency inside the half-open range: the call raises. -/
theorem C09_none_raises [FloorRing K] (e : Ext K) (m : Meas K) (cache c : AvgCache K) (lo hi : K)
    (hd : m.o.domain = .frequency) (hb : frefBounds e m cache (some m.o.avgMethod) = .ok ((lo, hi), c))
    (hout : ∀ f ∈ m.o.refIn.atleast1d, ¬ (lo ≤ f ∧ f < hi)) :
    ∃ err, evaluate e m cache = .error err := by
  cases h : evaluate e m cache with
  | error err => exact ⟨err, rfl⟩
  | ok r =>
    exfalso
    obtain ⟨ret, c'⟩ := r
    obtain ⟨trefIn, fOut, trefOut, ecc, ano, hr, _⟩ := evaluate_ok h
    obtain ⟨_, c1, ts, w, hf, _⟩ := trefFromFref_ok (referenceTimes_frequency hd hr)
    obtain ⟨lo', hi', hb', rfl, hne⟩ := frefOut_ok hf
    rw [hb] at hb'
    simp only [Except.ok.injEq, Prod.mk.injEq] at hb'
    obtain ⟨⟨rfl, rfl⟩, rfl⟩ := hb'
    apply hne
    rw [List.filter_eq_nil_iff]
    intro f hf'
    rw [decide_eq_true_eq]
    exact hout f hf'

/-- The upper bound itself is refused, against the documentation of `fref_out` (gw_eccentricity.py 558-562: `fref_in <=
fref_max`): asking for it alone raises. -/
theorem C09_upper_bound_refused [FloorRing K] (e : Ext K) (m : Meas K) (cache c : AvgCache K) (lo hi : K)
    (hd : m.o.domain = .frequency) (hb : frefBounds e m cache (some m.o.avgMethod) = .ok ((lo, hi), c))
    (href : m.o.refIn = .scalar hi) :
    ∃ err, evaluate e m cache = .error err :=
  C09_none_raises e m cache c lo hi hd hb fun f hf => by
    rw [href] at hf
    simp only [Val.atleast1d, List.mem_singleton] at hf
    rw [hf]
    exact fun h => lt_irrefl _ h.2

example : (measureEcc Demo.ext Demo.objF none).map (fun r => r.1.get? "fref_out")
    = .ok (some (.array [13 / 20, 2 / 3])) := by decide +kernel

/-- The bounds of this measurement; the upper one is refused. -/
example : (prepare Demo.ext Demo.objF [2, 6, 10, 14] [4, 8, 12, 16] >>= fun m =>
    (frefBounds Demo.ext m none (some m.o.avgMethod)).map (·.1)) = .ok (357 / 550, 749 / 1100) := by decide +kernel

example : (measureEcc Demo.ext { Demo.objF with refIn := .scalar (749 / 1100) } none).map (·.1)
    = .error .exception := by decide +kernel

/-! ## C10 Zero-eccentricity fallback -/

theorem Val.eq_of {v w : Val K} (h1 : v.isScalar = w.isScalar) (h2 : v.atleast1d = w.atleast1d) : v = w := by
  cases v <;> cases w <;> simp_all [Val.isScalar, Val.atleast1d]

theorem checkNumExtrema_few {e : Ext K} {o : Obj K} {ext : List ℕ} {first last : K} (hlt : ext.length < 2)
    (h0 : o.phase.head? = some first) (h1 : o.phase.getLast? = some last) :
    checkNumExtrema e o ext
      = if (last - first) / (4 * e.pi) > 5 ∧ o.returnZero = true then .ok true else .error .exception := by
  have hne : o.phase ≠ [] := by intro hc; rw [hc] at h0; simp at h0
  have hl : pyLast o.phase = .ok last := by
    rw [pyLast_of_ne hne]
    rw [List.getLast?_eq_some_getLast hne] at h1
    exact congrArg _ (Option.some.inj h1)
  have hf : pyGet o.phase 0 = .ok first := by
    rw [pyGet_of_lt (List.length_pos_iff.mpr hne)]
    rw [List.head?_eq_getElem?, List.getElem?_eq_getElem (List.length_pos_iff.mpr hne)] at h0
    exact congrArg _ (Option.some.inj h0)
  unfold checkNumExtrema
  rw [if_pos hlt, hl, ok_bind, hf, ok_bind]
  simp only [Bool.and_eq_true, decide_eq_true_eq]
  by_cases hc : (last - first) / (4 * e.pi) > 5 ∧ o.returnZero = true
  · rw [if_pos hc, if_pos hc]
    simp [debugMessage, hc.1]
  · rw [if_neg hc, if_neg hc]

/-- Values were forced to zero: the option is set, one kind of extrema has fewer than two members, the waveform is longer
than five orbits, and every requested reference point is returned, with zeros. -/
theorem C10_zero_only_if [FloorRing K] (e : Ext K) (o : Obj K) (cache cache' : AvgCache K) (ret : Dict String (Val K))
    (h : measureEcc e o cache = .ok (ret, none, cache')) :
    o.returnZero = true ∧
    (∃ p a, e.find .pericenters = .ok p ∧
      (if o.midpoints then a = midpointApocenters p else e.find .apocenters = .ok a) ∧ (p.length < 2 ∨ a.length < 2)) ∧
    (∃ first last, o.phase.head? = some first ∧ o.phase.getLast? = some last ∧ 5 < (last - first) / (4 * e.pi)) ∧
    ret.get? o.domain.key = some o.refIn ∧
    (∃ ve va, ret.get? "eccentricity" = some ve ∧ ret.get? "mean_anomaly" = some va ∧
      ve.isScalar = o.refIn.isScalar ∧ va.isScalar = o.refIn.isScalar ∧
      ve.atleast1d = o.refIn.atleast1d.map (fun _ => 0) ∧ va.atleast1d = o.refIn.atleast1d.map (fun _ => 0)) := by
  obtain ⟨p, a, lacking, hf, ⟨_, _, hl, hz⟩ | ⟨m', p', a', hmo, _⟩⟩ := measureEcc_ok h
  · obtain ⟨ve, va, vr, rfl, h1, h2, h3, h4, h5, h6⟩ := makeReturn_ok hz
    have h6 := h6 (by simp)
    have hvr : vr = o.refIn := Val.eq_of h3 h6
    simp only [Bool.and_eq_true] at hl
    unfold findBoth at hf
    obtain ⟨p1, hp1, hf⟩ := bind_ok hf
    obtain ⟨ip, hip, hf⟩ := bind_ok hf
    obtain ⟨a1, ha1, hf⟩ := bind_ok hf
    obtain ⟨ia, hia, hf⟩ := bind_ok hf
    simp only [pure_eq_ok, Except.ok.injEq, Prod.mk.injEq] at hf
    obtain ⟨rfl, rfl, rfl⟩ := hf
    have hp := checkNumExtrema_ok hip
    have ha := checkNumExtrema_ok hia
    have hmid : if o.midpoints then a1 = midpointApocenters p1 else e.find .apocenters = .ok a1 := by
      split at ha1
      · rename_i hmid
        rw [if_pos hmid]
        simpa [pure_eq_ok] using ha1.symm
      · rename_i hmid
        rw [if_neg hmid]; exact ha1
    have hlong : (p1.length < 2 ∨ a1.length < 2) ∧ ∃ first last, o.phase.head? = some first ∧
        o.phase.getLast? = some last ∧ 5 < (last - first) / (4 * e.pi) := by
      rcases hp with ⟨hp, _⟩ | ⟨_, hp, _, hq⟩
      · rcases ha with ⟨ha, _⟩ | ⟨_, ha, _, hq⟩
        · rw [hp, ha] at hl; simp at hl
        · exact ⟨Or.inr ha, hq⟩
      · exact ⟨Or.inl hp, hq⟩
    refine ⟨hl.2, ⟨p1, a1, hp1, hmid, hlong.1⟩, hlong.2, ?_, ve, va, (retDict_get _ _ _ _).1,
      (retDict_get _ _ _ _).2.1, h1, h2, ?_, ?_⟩
    · rw [hvr]
      cases o.domain <;> simp [retDict, Dict.get?_cons, Domain.key]
    · rw [h4, List.map_const']
    · rw [h5, List.map_const']
  · exact absurd hmo (by simp)

/-- Values were measured: at least two pericenters and two apocenters had been found. -/
theorem C10_measured [FloorRing K] (e : Ext K) (o : Obj K) (cache cache' : AvgCache K) (ret : Dict String (Val K))
    (m : Meas K) (h : measureEcc e o cache = .ok (ret, some m, cache')) :
    ∃ p a, e.find .pericenters = .ok p ∧
      (if o.midpoints then a = midpointApocenters p else e.find .apocenters = .ok a) ∧ 2 ≤ p.length ∧ 2 ≤ a.length := by
  obtain ⟨p, a, lacking, hf, ⟨hmo, _⟩ | ⟨m', p', a', hmo, hl, _⟩⟩ := measureEcc_ok h
  · exact absurd hmo (by simp)
  · unfold findBoth at hf
    obtain ⟨p1, hp1, hf⟩ := bind_ok hf
    obtain ⟨ip, hip, hf⟩ := bind_ok hf
    obtain ⟨a1, ha1, hf⟩ := bind_ok hf
    obtain ⟨ia, hia, hf⟩ := bind_ok hf
    simp only [pure_eq_ok, Except.ok.injEq, Prod.mk.injEq] at hf
    obtain ⟨rfl, rfl, rfl⟩ := hf
    refine ⟨p1, a1, hp1, ?_, ?_, ?_⟩
    · split at ha1
      · rename_i hmid
        rw [if_pos hmid]
        simpa [pure_eq_ok] using ha1.symm
      · rename_i hmid
        rw [if_neg hmid]; exact ha1
    · rcases checkNumExtrema_ok hip with ⟨_, h2⟩ | ⟨rfl, _, hz, _⟩
      · exact h2
      · rw [hz] at hl; simp at hl
    · rcases checkNumExtrema_ok hia with ⟨_, h2⟩ | ⟨rfl, _, hz, _⟩
      · exact h2
      · rw [hz] at hl; simp at hl

/-- Fewer than two of either kind: zeros for every requested point if the option is set and the waveform is longer than
five orbits, an exception otherwise.  (The finders themselves are assumed to return.) -/
theorem C10_too_few [FloorRing K] (e : Ext K) (o : Obj K) (cache : AvgCache K) (p a : List ℕ) (first last : K)
    (hp : e.find .pericenters = .ok p)
    (ha : if o.midpoints then a = midpointApocenters p else e.find .apocenters = .ok a)
    (hfew : p.length < 2 ∨ a.length < 2)
    (h0 : o.phase.head? = some first) (h1 : o.phase.getLast? = some last) :
    if o.returnZero = true ∧ 5 < (last - first) / (4 * e.pi) then
      ∃ ret, measureEcc e o cache = .ok (ret, none, cache) ∧ ret.get? o.domain.key = some o.refIn ∧
        ∃ ve va, ret.get? "eccentricity" = some ve ∧ ret.get? "mean_anomaly" = some va ∧
          (∀ x ∈ ve.atleast1d, x = 0) ∧ (∀ x ∈ va.atleast1d, x = 0)
    else measureEcc e o cache = .error .exception := by
  have ha' : (if o.midpoints then pure (midpointApocenters p) else e.find .apocenters) = (.ok a : Py (List ℕ)) := by
    split at ha
    · rename_i hm; rw [if_pos hm, ha]; rfl
    · rename_i hm; rw [if_neg hm, ha]
  have enough : ∀ ext : List ℕ, ¬ ext.length < 2 → checkNumExtrema e o ext = .ok false := by
    intro ext hx; unfold checkNumExtrema; rw [if_neg hx]; rfl
  split
  · rename_i hc
    have hc' : (last - first) / (4 * e.pi) > 5 ∧ o.returnZero = true := ⟨hc.2, hc.1⟩
    have any : ∀ ext : List ℕ, checkNumExtrema e o ext = .ok (decide (ext.length < 2)) := by
      intro ext
      by_cases hx : ext.length < 2
      · rw [checkNumExtrema_few hx h0 h1, if_pos hc']; simp [hx]
      · rw [enough ext hx]; simp [hx]
    have hfb : findBoth e o = .ok (p, a, decide (p.length < 2) || decide (a.length < 2)) := by
      unfold findBoth
      rw [hp, ok_bind, any, ok_bind, ha', ok_bind, any, ok_bind]
      rfl
    have hz : ∃ ret, setToZero o = .ok ret := by
      unfold setToZero makeReturn
      cases o.refIn <;> exact ⟨_, rfl⟩
    obtain ⟨ret, hret⟩ := hz
    have hme : measureEcc e o cache = .ok (ret, none, cache) := by
      unfold measureEcc
      rw [hfb, ok_bind]
      simp only
      rw [if_pos, hret]
      · rfl
      · rw [hc.1]; rcases hfew with h | h <;> simp [h]
    obtain ⟨_, _, _, hk, ve, va, h1, h2, _, _, h5, h6⟩ := C10_zero_only_if e o cache cache ret hme
    refine ⟨ret, hme, hk, ve, va, h1, h2, ?_, ?_⟩
    · intro x hx; rw [h5] at hx; simp at hx; exact hx.2
    · intro x hx; rw [h6] at hx; simp at hx; exact hx.2
  · rename_i hc
    have hc' : ¬ ((last - first) / (4 * e.pi) > 5 ∧ o.returnZero = true) := fun h => hc ⟨h.2, h.1⟩
    unfold measureEcc findBoth
    by_cases hp2 : p.length < 2
    · rw [hp, ok_bind, checkNumExtrema_few hp2 h0 h1, if_neg hc', err_bind, err_bind]
    · have ha2 : a.length < 2 := hfew.resolve_left hp2
      rw [hp, ok_bind, enough p hp2, ok_bind, ha', ok_bind, checkNumExtrema_few ha2 h0 h1, if_neg hc', err_bind,
        err_bind]

example : (measureEcc Demo.extNone Demo.objZero none).map (·.1)
    = .ok [("eccentricity", .scalar 0), ("mean_anomaly", .scalar 0), ("tref_out", .scalar 3)] := by decide +kernel

example : (measureEcc Demo.extNone Demo.obj none).map (·.1) = .error .exception := by decide +kernel

end GwEcc
