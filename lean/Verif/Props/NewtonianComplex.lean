import Verif.Spec.NewtonianComplex
import Verif.Props.Numpy
import Verif.Props.SplineCall

/-!
# C87 for complex modes: all libraries modelled

Cases that meet the premises of the theorems are in `Props/NewtonianWidth`.
-/

namespace GwEcc

open Spec

namespace NewtonComplex

/-- The dictionary with amplitudes and phases as numpy gives them. -/
noncomputable def polarDict (H : Dict LM (List ℂ)) (v : DataV ℝ ℂ) : DataV ℝ ℂ :=
  ((v.del "hlm").set "amplm" (.modesR (H.map fun p => (p.1, Numpy.abs p.2)))).set "phaselm"
    (.modesR (H.map fun p => (p.1, Numpy.phase p.2)))

theorem polarDict_get? (H : Dict LM (List ℂ)) (v : DataV ℝ ℂ) (key : String) :
    (polarDict H v).get? key = if key = "phaselm" then some (.modesR (H.map fun p => (p.1, Numpy.phase p.2)))
      else if key = "amplm" then some (.modesR (H.map fun p => (p.1, Numpy.abs p.2)))
      else if key = "hlm" then none else v.get? key := by
  unfold polarDict
  rw [Dict.get?_set, Dict.get?_set, Dict.get?_del]

theorem polarDict_proper {H : Dict LM (List ℂ)} {v : DataV ℝ ℂ} (hH : H.keys.Nodup) (hv : ProperDicts v) :
    ProperDicts (polarDict H v) := by
  intro key e he
  rw [polarDict_get?] at he
  split at he
  · cases he
    exact ⟨fun d hd => by cases hd; rw [keys_map]; exact hH, fun d hd => by cases hd⟩
  split at he
  · cases he
    exact ⟨fun d hd => by cases hd; rw [keys_map]; exact hH, fun d hd => by cases hd⟩
  split at he
  · cases he
  · exact hv key e he

theorem polarDict_same {H : Dict LM (List ℂ)} {v : DataV ℝ ℂ} (hH : H.keys.Nodup) (hh : v.get? "hlm" = some (.modesC H))
    (ha : v.get? "amplm" = none) (hp : v.get? "phaselm" = none) (rotate : List ℝ → List (List ℂ) → Py (List (List ℂ))) :
    SameWaveform (Numpy.wave rotate) v (polarDict H v) := by
  refine ⟨fun key hkey => ?_, ⟨H, hH, hh, ha, hp, ?_, ?_, ?_⟩, .inr fun key hkey => ?_⟩
  · simp only [List.mem_cons, List.not_mem_nil, or_false] at hkey
    rw [polarDict_get?]
    rcases hkey with rfl | rfl | rfl | rfl <;> simp
  · rw [polarDict_get?]; simp
  · rw [polarDict_get?]; rfl
  · rw [polarDict_get?]; rfl
  · simp only [List.mem_cons, List.not_mem_nil, or_false] at hkey
    rw [polarDict_get?]
    rcases hkey with rfl | rfl | rfl <;> simp

/-- A list along increasing times is a function of time. -/
theorem as_function {t l : List ℝ} (ht : t.Pairwise (· < ·)) (hl : l.length = t.length) :
    ∃ P : ℝ → ℝ, l = t.map P := by
  refine ⟨fun x => l.getD (t.idxOf x) 0, List.ext_getElem (by simp [hl]) fun i h1 h2 => ?_⟩
  have hn : t.Nodup := ht.imp fun h => h.ne
  rw [List.getElem_map, hn.idxOf_getElem, List.getD_eq_getElem?_getD, List.getElem?_eq_getElem h1]
  rfl

/-- The samples until `tEnd` are the first ones. -/
theorem first_samples {t : List ℝ} (ht : t.Pairwise (· < ·)) (tEnd : ℝ) :
    ∃ n : ℕ, ∀ (i : ℕ) (x : ℝ), t[i]? = some x → (x ≤ tEnd ↔ i < n) := by
  induction t with
  | nil => exact ⟨0, fun i x h => by simp at h⟩
  | cons y l ih =>
    rw [List.pairwise_cons] at ht
    obtain ⟨n, hn⟩ := ih ht.2
    by_cases hy : y ≤ tEnd
    · refine ⟨n + 1, fun i x hx => ?_⟩
      cases i with
      | zero => cases hx; simp [hy]
      | succ i => rw [hn i x hx]; omega
    · refine ⟨0, fun i x hx => ?_⟩
      cases i with
      | zero => cases hx; simp [hy]
      | succ i =>
        have := ht.1 x (List.mem_of_getElem? hx)
        simp only [not_lt_zero', iff_false, not_le]
        linarith

/-- numpy's phase, up to the end of the inspiral. -/
theorem phase_until {ε q : ℝ} {f φ : ℝ → ℝ} {tEnd : ℝ} {t : List ℝ} (hε : 0 ≤ ε) (hε1 : ε < 1) (hq : 0 < q)
    (orbit : KeplerOrbit ε q f) (hφ : IsPhase (strain22 ε q f) φ) (ht : t.Pairwise (· < ·)) {H : ℝ → ℂ}
    (hH : ∀ x ∈ t, x ≤ tEnd → H x = strain22 ε q f x)
    (hsteps : ∀ (i : ℕ) (x y : ℝ), t[i]? = some x → t[i + 1]? = some y → y ≤ tEnd → |φ y - φ x| < Real.pi) :
    ∃ k : ℤ, ∀ (i : ℕ) (x : ℝ), t[i]? = some x → x ≤ tEnd → (Numpy.phase (t.map H))[i]? = some (φ x + 2 * Real.pi * k) := by
  obtain ⟨n, hn⟩ := first_samples ht tEnd
  obtain ⟨m, hm⟩ : ∃ m : List (ℝ × ℝ), m = (t.take n).map fun x => (‖strain22 ε q f x‖, φ x) := ⟨_, rfl⟩
  have get : ∀ (i : ℕ) (s : ℝ × ℝ), m[i]? = some s → ∃ x, i < n ∧ t[i]? = some x ∧ s = (‖strain22 ε q f x‖, φ x) := by
    intro i s hs
    rw [hm, List.getElem?_map] at hs
    obtain ⟨x, hx, rfl⟩ := Option.map_eq_some_iff.mp hs
    rw [List.getElem?_take] at hx
    split at hx
    · exact ⟨x, by assumption, hx, rfl⟩
    · cases hx
  have ws : WellSampled m := by
    constructor
    · intro s hs
      obtain ⟨i, hi⟩ := List.mem_iff_getElem?.mp hs
      obtain ⟨x, _, _, rfl⟩ := get i s hi
      exact norm_pos_iff.mpr (strain_ne hε hε1 hq orbit x)
    · intro i s s' hs hs'
      obtain ⟨x, _, hx, rfl⟩ := get i s hs
      obtain ⟨y, hi, hy, rfl⟩ := get (i + 1) s' hs'
      exact hsteps i x y hx hy ((hn _ _ hy).mpr hi)
  have hc : combine m = (t.map H).take n := by
    rw [hm, ← List.map_take]
    unfold combine
    rw [List.map_map]
    refine List.map_congr_left fun x hx => ?_
    obtain ⟨i, hi⟩ := List.mem_iff_getElem?.mp hx
    rw [List.getElem?_take] at hi
    split at hi
    · rw [hH x (List.mem_of_getElem? hi) ((hn _ _ hi).mpr (by assumption))]
      exact (hφ.phase x).symm
    · cases hi
  obtain ⟨k, hk⟩ := (C118_recovers m ws).2
  refine ⟨k, fun i x hx hend => ?_⟩
  have hin := (hn i x hx).mp hend
  have h1 : ((Numpy.phase (t.map H)).take n)[i]? = some (φ x + 2 * Real.pi * k) := by
    have h2 : Numpy.phase ((t.map H).take n) = (Numpy.phase (t.map H)).take n :=
      (C118_sample_by_sample fun _ l => .ok l).phase n (t.map H)
    rw [← h2, ← hc, hk, hm, List.map_map, List.getElem?_map, List.getElem?_take, if_pos hin, hx]
    rfl
  rwa [List.getElem?_take, if_pos hin] at h1

/-- The dictionary with amplitudes and phases. -/
theorem polar_newtonian {ε q : ℝ} {f φ : ℝ → ℝ} {tEnd : ℝ} {v : DataV ℝ ℂ} {t : List ℝ} (hε : 0 ≤ ε) (hε1 : ε < 1) (hq : 0 < q)
    (orbit : KeplerOrbit ε q f) (hφ : IsPhase (strain22 ε q f) φ) (hv : ProperDicts v)
    (h : ComplexNewtonianUntil ε q f φ tEnd v t) (rotate : List ℝ → List (List ℂ) → Py (List (List ℂ))) :
    ∃ (v' : DataV ℝ ℂ) (φ' : ℝ → ℝ), IsPhase (strain22 ε q f) φ' ∧ NewtonianUntil ε q f φ' tEnd v' t ∧ ProperDicts v' ∧
      SameWaveform (Numpy.wave rotate) v v' ∧ (NoQuasicircular v → NoQuasicircular v') := by
  obtain ⟨H, W, h1, h2, h3⟩ := h.given
  unfold complexMode at h1
  cases hh : v.get? "hlm" with
  | none => rw [hh] at h1; cases h1
  | some e =>
    rw [hh] at h1
    cases e with
    | arr _ => cases h1
    | modesR _ => cases h1
    | other => cases h1
    | modesC D =>
      have h1 : D.get? (2, 2) = some (t.map H) := h1
      have hD := (hv _ _ hh).2 D rfl
      obtain ⟨k, hk⟩ := phase_until hε hε1 hq orbit hφ h.increasing (fun x hx he => (h3 x hx he).1) h.steps
      obtain ⟨P, hP⟩ := as_function (l := Numpy.phase (t.map H)) h.increasing (by rw [Numpy.phase_length, List.length_map])
      refine ⟨polarDict D v, fun x => φ x + 2 * Real.pi * k, ⟨hφ.continuous.add continuous_const, fun x => ?_⟩,
        ⟨?_, h.increasing, ⟨fun x => ‖H x‖, P, W, ?_, ?_, ?_, fun x hx he => ⟨?_, ?_, (h3 x hx he).2⟩⟩, h.apsides⟩,
        polarDict_proper hD hv, polarDict_same hD hh h.notPolar.1 h.notPolar.2 rotate, fun hz key hkey => ?_⟩
      · have e : -Complex.I * ((φ x + 2 * Real.pi * k : ℝ) : ℂ) = -Complex.I * φ x + ((-k : ℤ) : ℂ) * (2 * Real.pi * Complex.I) := by
          push_cast; ring
        rw [e, Complex.exp_add, Complex.exp_int_mul_two_pi_mul_I, mul_one]
        exact hφ.phase x
      · have := h.times
        unfold array at this ⊢
        rw [polarDict_get?]
        simpa using this
      · unfold realMode
        rw [polarDict_get?]
        simp only [String.reduceEq, if_false, if_true, Option.bind_eq_bind, Option.bind_some]
        show Dict.get? _ _ = _
        rw [get?_map, h1]
        simp [Numpy.abs]
      · unfold realMode
        rw [polarDict_get?]
        simp only [if_true, Option.bind_eq_bind, Option.bind_some]
        show Dict.get? _ _ = _
        rw [get?_map, h1]
        exact congrArg some hP
      · unfold realMode at h2 ⊢
        rw [polarDict_get?]
        simpa using h2
      · show ‖H x‖ = _
        rw [(h3 x hx he).1]
      · obtain ⟨i, hi⟩ := List.mem_iff_getElem?.mp hx
        have := hk i x hi he
        rw [hP, List.getElem?_map, hi] at this
        exact Option.some.inj this
      · rw [polarDict_get?]
        have := hz key hkey
        simp only [List.mem_cons, List.not_mem_nil, or_false] at hkey
        rcases hkey with rfl | rfl | rfl | rfl | rfl <;> simpa using this

/-- Without precession nothing is iterated. -/
theorem run_fuel {lib : Libs ℝ ℂ} {a : Call ℝ ℂ} (hpr : a.precessing = .isFalse) (fuel : ℕ) : run fuel lib a = run 0 lib a := by
  have : ∀ nd an w, filterStage fuel lib a nd an w = filterStage 0 lib a nd an w := by
    intro nd an w
    unfold filterStage
    rw [hpr]
    rfl
  unfold run construct
  simp only [this]

end NewtonComplex

open NewtonComplex in
/-- **C87** for complex modes: numpy splits them, and the call returns the eccentricity of the orbit. -/
theorem C87_complex_returned {ε q : ℝ} {f φ : ℝ → ℝ} {tEnd : ℝ} {fuel : ℕ} {lib : Libs ℝ ℂ} {a : Call ℝ ℂ} {ans : Answer ℝ ℂ}
    {asked : Val ℝ} {t kept : List ℝ} {rotate : List ℝ → List (List ℂ) → Py (List (List ℂ))}
    (hε : 0 < ε) (hq : 0 < q) (orbit : KeplerOrbit ε q f)
    (hφ : IsPhase (strain22 ε q f) φ) (hnumpy : lib.wave = Numpy.wave rotate) (hlib : FaithfulLibs lib)
    (hwave : ComplexNewtonianUntil ε q f φ tEnd a.dataDict t) (hdict : ProperDicts a.dataDict)
    (hmethod : MethodUpTo a.method ε) (hpr : a.precessing = .isFalse) (hlevel : a.level = 0)
    {interpolation : String} (hopt : DefaultsBut a.extra interpolation) (hrat : interpolation = "rational_fit" → FaithfulFits lib)
    (hasked : a.trefIn = some asked) (hrun : run fuel lib a = some (.ok ans))
    (hkept : array ans.built.data "t" = some kept) (hsteps : EqualSteps kept) (hend : ∀ x ∈ kept, x ≤ tEnd)
    (hpeaks : FindsPeaksAndTroughs lib ans.built.analysis.width a.method ε q f kept) :
    ReturnsEccentricity ε f asked ans.ret := by
  have hε1 : ε < 1 := by rcases hmethod with ⟨_, h⟩ | ⟨_, h⟩ <;> linarith
  obtain ⟨v', φ', hφ', hv', hd', hs, _⟩ := polar_newtonian hε.le hε1 hq orbit hφ hdict hwave rotate
  have hr := C83_same_result fuel lib a v' (hnumpy ▸ hs) (fun h => by rw [hpr] at h; cases h.1) (.inl (.inr (.inl hlevel)))
  rw [hrun] at hr
  cases hrun' : run fuel lib { a with dataDict := v' } with
  | none => rw [hrun'] at hr; cases hr
  | some r =>
    rw [hrun'] at hr
    cases r with
    | error e => cases hr
    | ok ans' =>
      have e : quiet ans = quiet ans' := Except.ok.inj (Option.some.inj hr)
      have e1 : (quiet ans).ret = (quiet ans').ret := congrArg (fun x : Answer ℝ ℂ => x.ret) e
      have e2 : (quiet ans).built.data = (quiet ans').built.data := congrArg (fun x : Answer ℝ ℂ => x.built.data) e
      have e3 : (quiet ans).built.analysis = (quiet ans').built.analysis := congrArg (fun x : Answer ℝ ℂ => x.built.analysis) e
      have e1 : ans.ret = ans'.ret := e1
      have e2 : ans.built.data = ans'.built.data := e2
      have e3 : ans.built.analysis = ans'.built.analysis := e3
      rw [e1]
      rw [e2] at hkept
      rw [e3] at hpeaks
      exact C87_returned (a := { a with dataDict := v' }) hε hq orbit hφ' hlib hv' hd' hmethod hpr hlevel hopt hrat hasked hrun'
        hkept hsteps hend hpeaks

open NewtonComplex in
/-- **C87** for complex modes: and the call does return, under the same premises as `C87_returns`. -/
theorem C87_complex {ε q : ℝ} {f φ : ℝ → ℝ} {tEnd : ℝ} {lib : Libs ℝ ℂ} {a : Call ℝ ℂ}
    {asked : Val ℝ} {t kept : List ℝ} {nd : DataV ℝ ℂ} {an : Analysis ℝ} {rotate : List ℝ → List (List ℂ) → Py (List (List ℂ))}
    (hε : 0 < ε) (hq : 0 < q)
    (orbit : KeplerOrbit ε q f) (hφ : IsPhase (strain22 ε q f) φ) (hnumpy : lib.wave = Numpy.wave rotate) (hlib : FaithfulLibs lib)
    (hwave : ComplexNewtonianUntil ε q f φ tEnd a.dataDict t) (hdict : ProperDicts a.dataDict)
    (hmethod : MethodUpTo a.method ε) (hpr : a.precessing = .isFalse) (hlevel : a.level = 0)
    {interpolation : String} (hopt : DefaultsBut a.extra interpolation) (hrat : interpolation = "rational_fit" → FaithfulFits lib)
    (hasked : a.trefIn = some asked) (hfref : a.frefIn = none) (hframe : a.frame = "inertial")
    (hzero : NoQuasicircular a.dataDict)
    (hprep : processData lib.wave .isFalse a.frame a.dataDict a.numOrbits = .ok (nd, an))
    (hkept : array nd "t" = some kept) (hsteps : EqualSteps kept) (hend : ∀ x ∈ kept, x ≤ tEnd)
    (hpeaks : FindsPeaksAndTroughs lib an.width a.method ε q f kept)
    (hbetween : ∃ x ∈ asked.atleast1d, BetweenPassages f kept x) :
    ∃ ans, (∀ fuel, run fuel lib a = some (.ok ans)) ∧ ReturnsEccentricity ε f asked ans.ret := by
  have hε1 : ε < 1 := by rcases hmethod with ⟨_, h⟩ | ⟨_, h⟩ <;> linarith
  obtain ⟨v', φ', hφ', hv', hd', hs, hz⟩ := polar_newtonian hε.le hε1 hq orbit hφ hdict hwave rotate
  have hprep' : processData lib.wave .isFalse a.frame v' a.numOrbits = .ok (nd, an) := by
    rw [← hprep, hnumpy]
    exact (processData_both hs fun h => by cases h.1).symm
  obtain ⟨ans', hrun', hret⟩ := C87_returns (a := { a with dataDict := v' }) hε hq orbit hφ' hlib hv' hd' hmethod hpr hlevel hopt hrat
    hasked hfref hframe (hz hzero) hprep' hkept hsteps hend hpeaks hbetween
  have hr := C83_same_result 0 lib a v' (hnumpy ▸ hs) (fun h => by rw [hpr] at h; cases h.1) (.inl (.inr (.inl hlevel)))
  rw [hrun' 0] at hr
  cases hrun : run 0 lib a with
  | none => rw [hrun] at hr; cases hr
  | some r =>
    rw [hrun] at hr
    cases r with
    | error e => cases hr
    | ok ans =>
      have e : quiet ans = quiet ans' := Except.ok.inj (Option.some.inj hr)
      have e1 : (quiet ans).ret = (quiet ans').ret := congrArg (fun x : Answer ℝ ℂ => x.ret) e
      have e1 : ans.ret = ans'.ret := e1
      exact ⟨ans, fun fuel => (run_fuel hpr fuel).trans hrun, e1 ▸ hret⟩

end GwEcc
