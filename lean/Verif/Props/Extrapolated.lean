import Verif.Props.Plots
import Verif.Props.DataDict

/-!
# C110: times the quasicircular waveform does not reach

With the mergers aligned, the quasicircular waveform ends somewhere.  The code means to refuse reference times after that
(eccDefinition.py 2438-2451, `checkExtrapolated`).
-/

set_option linter.unusedSectionVars false

namespace GwEcc

open Spec

section
variable {K C : Type} [Field K] [LinearOrder K] [IsStrictOrderedRing K] [FloorRing K]

/-- The segment that is used consists of samples of the waveform. -/
theorem selectWave_times {pi : K} {fit : List K → List K → Py (List K)} {orbits : Option K} {domain : Domain} {refs : List K}
    {w w' : Wave K} (h : selectWave pi fit orbits domain refs w = .ok w') : ∀ x ∈ w'.t, x ∈ w.t := by
  unfold selectWave at h
  cases orbits with
  | none => cases h; exact fun _ hx => hx
  | some n =>
    dsimp only at h
    split at h
    · cases h; exact fun _ hx => hx
    · obtain ⟨pN, _, h⟩ := bind_ok h
      obtain ⟨p0, _, h⟩ := bind_ok h
      split at h
      · unfold useSegment at h
        obtain ⟨⟨tl, tr⟩, _, h⟩ := bind_ok h
        obtain ⟨pl, _, h⟩ := bind_ok h
        obtain ⟨pr, _, h⟩ := bind_ok h
        obtain ⟨⟨s, e⟩, _, h⟩ := bind_ok h
        cases h
        intro x hx
        unfold Wave.slice pySlice at hx
        exact List.mem_of_mem_take (List.mem_of_mem_drop hx)
      · cases h; exact fun _ hx => hx

theorem filterStage_times {fuel : ℕ} {lib : Libs K C} {a : Call K C} {nd : DataV K C} {an : Analysis K} {w w' : Wave K}
    {filtered : Bool} {extra : Option (Extra K)} (hs : filterStage fuel lib a nd an w = some (.ok (w', filtered, extra))) :
    w'.t = w.t := by
  cases h : a.precessing.truth with
  | false => rw [filterStage_off fuel lib a nd an w h] at hs; cases hs; rfl
  | true =>
    obtain ⟨kw, cfg, m, f, -, -, -, -, rfl, -⟩ := filterStage_on h hs
    rfl

/-- **C110, partial.** A quasicircular waveform that is accepted reaches, once the mergers are aligned, at least the merger: times up to
the merger are never extrapolated. -/
theorem C110_merger_partial {fuel : ℕ} {lib : Libs K C} {a : Call K C} {ans : Answer K C} (h : run fuel lib a = some (.ok ans))
    {z : Quasi K} (hz : IsQuasi lib.wave a.precessing.truth ans.built.data z) :
    ∃ tm fm zN, peakTime z.t z.total = .ok (tm, fm) ∧ z.t.getLast? = some zN ∧
      ∀ x, x ≤ ans.built.analysis.tMerger → x ≤ aligned tm ans.built.analysis.tMerger zN := by
  obtain ⟨R⟩ := run_ok h
  obtain ⟨f⟩ := finish_ok R.h_finish
  have hbd : ans.built.data = R.nd := congrArg Built.data f.eq
  have hba : ans.built.analysis = R.an := congrArg Built.analysis f.eq
  have hres := f.h_res
  unfold residualStage at hres
  obtain ⟨o, ho, -⟩ := bind_ok hres
  rw [hbd] at hz
  obtain ⟨r, fm, _, _, -, h1, -, -, -, -, z0, zN, t0, -, h2, -, -, h3, -⟩ := C37_value lib.wave lib.tol lib.eval _ a.precessing.truth
    R.nd z hz R.an.tMerger f.wave o ho
  refine ⟨r.tMergerZ, fm, zN, h1, h2, fun x hx => ?_⟩
  rw [hba] at hx ⊢
  exact hx.trans h3

/-- With strictly increasing times and phases, what is kept when orbits before merger are excluded ends before the merger. -/
theorem kept_before_merger (lib : WaveLib K C) {pr : Flag} {frame : String} {v nd : DataV K C} {r : Analysis K} {n : K} (hpi : 0 ≤ lib.pi)
    (h : processData lib pr frame v (some n) = .ok (nd, r))
    (hinc : ∀ full r t amp phase omega, processData lib pr frame v none = .ok (full, r) → Spec.array full "t" = some t →
      gwQuantities pr.truth full "" = .ok (amp, phase, omega) → t.Pairwise (· < ·) ∧ phase.Pairwise (· < ·)) :
    ∃ t, Spec.array nd "t" = some t ∧ ∀ x ∈ t, x ≤ r.tMerger := by
  obtain ⟨full, phase, pm, e1, e2⟩ := C20_cut_applies lib pr frame v nd r n h
  obtain ⟨t, mi, amp, omega, q1, q2, q3, q4⟩ := e2
  obtain ⟨ht, hp⟩ := hinc _ _ _ _ _ _ e1 q1 q3
  have hcut := C20_cut lib pr frame v full _ n phase pm e1 ⟨t, mi, amp, omega, q1, q2, q3, q4⟩
  by_cases hc : (∃ p0, phase[0]? = some p0 ∧ p0 ≤ pm - 4 * lib.pi * n) ∧ 0 ≤ n
  · obtain ⟨nd', idx, g1, g2, g3, -, -⟩ := hcut.1 hc
    rw [h] at g1
    obtain ⟨g4, g5⟩ := Prod.mk.inj (Except.ok.inj g1)
    rw [← g4] at g3
    refine ⟨_, g3 t q1, ?_⟩
    have hidx : idx ≤ mi := by
      by_contra hlt
      push Not at hlt
      obtain ⟨hi, hmin, -⟩ := g2
      have hmi : mi < phase.length := hlt.trans hi
      have e3 : phase[mi] = pm := by rw [List.getElem?_eq_getElem hmi] at q4; exact Option.some.inj q4
      have h1 := hmin mi hmi
      have h2 : phase[mi] < phase[idx] := List.pairwise_iff_getElem.mp hp mi idx hmi hi hlt
      rw [e3] at h1 h2
      have h3 : 0 ≤ 4 * lib.pi * n := mul_nonneg (mul_nonneg (by norm_num) hpi) hc.2
      rw [abs_of_nonneg (by linarith), abs_of_nonneg (by linarith)] at h1
      linarith
    intro x hx
    obtain ⟨i, hi, hxi⟩ := List.getElem_of_mem hx
    rw [List.length_take] at hi
    rw [List.getElem_take] at hxi
    by_contra hgt
    push Not at hgt
    obtain ⟨hmi, hmin, -⟩ := q2
    have hit : i < t.length := by omega
    have h2 : t[i] < t[mi] := List.pairwise_iff_getElem.mp ht i mi hit hmi (by omega)
    have h1 := hmin i hit
    rw [hxi] at h1 h2
    rw [abs_of_nonneg (by linarith), abs_of_nonneg (by linarith)] at h1
    linarith
  · obtain ⟨er, her⟩ := hcut.2 hc
    rw [her] at h; cases h

/-- **C110, partial.** With a number of orbits to exclude before merger (the default), for a waveform whose times and phases increase,
no time at which a value can be returned is later than the end of the quasicircular waveform. -/
theorem C110_excluded_partial {fuel : ℕ} {lib : Libs K C} {a : Call K C} {ans : Answer K C} (h : run fuel lib a = some (.ok ans))
    {n : K} (hn : a.numOrbits = some n) (hpi : 0 ≤ lib.wave.pi)
    (hinc : ∀ full r t amp phase omega, processData lib.wave a.precessing a.frame a.dataDict none = .ok (full, r) →
      Spec.array full "t" = some t → gwQuantities a.precessing.truth full "" = .ok (amp, phase, omega) →
      t.Pairwise (· < ·) ∧ phase.Pairwise (· < ·))
    {z : Quasi K} (hz : IsQuasi lib.wave a.precessing.truth ans.built.data z) {m : Meas K} (hm : ans.meas = some m)
    (hin : ∀ i ∈ m.pericenters, i < ans.built.wave.t.length) :
    ∃ tm fm zN, peakTime z.t z.total = .ok (tm, fm) ∧ z.t.getLast? = some zN ∧
      m.tmax ≤ aligned tm ans.built.analysis.tMerger zN ∧
      ∀ vr, ans.ret.get? "tref_out" = some vr → ∀ x ∈ vr.atleast1d, x ≤ aligned tm ans.built.analysis.tMerger zN := by
  obtain ⟨tm, fm, zN, h1, h2, h3⟩ := C110_merger_partial h hz
  obtain ⟨R⟩ := run_ok h
  obtain ⟨f⟩ := finish_ok R.h_finish
  have hba : ans.built.analysis = R.an := congrArg Built.analysis f.eq
  have hbw : ans.built.wave = f.wave := congrArg Built.wave f.eq
  have hot : ans.built.obj.t = ans.built.wave.t := by rw [f.eq]
  have hload := R.h_load
  unfold loadWave at hload
  obtain ⟨_, -, hload⟩ := bind_ok hload
  obtain ⟨⟨nd, an⟩, hproc, hload⟩ := bind_ok hload
  obtain ⟨t, ht, hload⟩ := bind_ok hload
  obtain ⟨_, -, hload⟩ := bind_ok hload
  obtain ⟨⟨amp, phase, omega⟩, -, hload⟩ := bind_ok hload
  have hl := Except.ok.inj hload
  have l1 : nd = R.nd := congrArg (fun r => r.1) hl
  have l2 : an = R.an := congrArg (fun r => r.2.1) hl
  have l3 : t = R.loaded.t := congrArg (fun r => r.2.2.t) hl
  rw [hn] at hproc
  obtain ⟨t', ht', hle⟩ := kept_before_merger lib.wave hpi hproc hinc
  have htt : t' = t := by
    unfold getArr at ht
    obtain ⟨en, hen, ht⟩ := bind_ok ht
    have := getItem_ok hen
    unfold Spec.array at ht'
    rw [this] at ht'
    cases en with
    | arr l => cases ht; exact (Option.some.inj ht').symm
    | modesR _ => cases ht'
    | modesC _ => cases ht'
    | other => cases ht'
  have hall : ∀ x ∈ ans.built.wave.t, x ≤ ans.built.analysis.tMerger := by
    intro x hx
    rw [hbw] at hx
    have := selectWave_times f.h_wave x hx
    rw [filterStage_times R.h_filter, ← l3, ← htt] at this
    rw [hba, ← l2]
    exact hle x this
  obtain ⟨_, _, _, -, hcase⟩ := measureEcc_ok R.h_measure
  rcases hcase with ⟨hn', -⟩ | ⟨m2, p', a', hm2, -, -, hprep, hev⟩
  · rw [hm] at hn'; cases hn'
  · rw [hm] at hm2
    cases hm2
    obtain ⟨mo, mp, -, mt, -, -, -, ⟨p0, p1, a0, a1, -, k2, -, -, -, k6⟩, -⟩ := prepare_ok hprep
    have hp1 : p1 ≤ ans.built.analysis.tMerger := by
      have hmem := List.mem_of_getLast? k2
      rw [mt] at hmem
      unfold takeAt at hmem
      obtain ⟨i, hi, hie⟩ := List.mem_map.mp hmem
      rw [← mp] at hi
      have hi' := hin i hi
      refine hall p1 ?_
      rw [← hie, hot]
      unfold at'
      rw [List.getD_eq_getElem _ _ hi']
      exact List.getElem_mem hi'
    have hmax : m.tmax ≤ ans.built.analysis.tMerger := by rw [k6]; exact (min_le_left _ _).trans hp1
    refine ⟨tm, fm, zN, h1, h2, h3 _ hmax, fun vr hvr x hx => h3 _ (le_trans ?_ hmax)⟩
    obtain ⟨E⟩ := evaluate_steps hev
    have hdom : m.o.domain = .time := by
      cases hd : m.o.domain with
      | time => rfl
      | frequency =>
        have hr := E.h_ret
        rw [hd] at hr
        obtain ⟨ve, va, vf, he, -⟩ := makeReturn_ok hr
        rw [he] at hvr
        cases hvr
    have hr := E.h_ret
    rw [hdom] at hr
    obtain ⟨k1, k2, -⟩ := Points.both_ok E.h_ecc E.h_ano
    obtain ⟨ve, va, vr', ⟨-, -, l3⟩, -, -, -, -, -, l6⟩ := Points.return_entries hr (by rw [k1, List.length_map]; rfl)
    have l3' : ans.ret.get? "tref_out" = some vr' := l3
    rw [hvr] at l3'
    cases l3'
    rw [l6] at hx
    have hx : x ∈ E.trefOut := hx
    rw [E.h_out] at hx
    have := (List.mem_filter.mp hx).2
    rw [decide_eq_true_eq] at this
    exact this.1

end

namespace ExtraDemo

open RunDemo

/-- The largest amplitude is at sample 14. -/
def early : List ℚ := (List.range 24).map fun i : ℕ => if i = 14 then 100 else (i : ℚ) / 10 + 1

/-- A quasicircular waveform that ends two samples after the merger, given as complex modes. -/
def dataZ (amp : List ℚ) (n : ℕ) : DataV ℚ (ℚ × ℚ) :=
  [("t", .arr times), ("amplm", .modesR [((2, 2), amp), ((2, -2), amp)]),
    ("phaselm", .modesR [((2, 2), phases), ((2, -2), phases.map (- ·))]),
    ("omegalm", .modesR [((2, 2), omegas), ((2, -2), omegas.map (- ·))]), ("t_zeroecc", .arr (times.take n)),
    ("hlm_zeroecc", .modesC [((2, 2), (amp.zip phases).take n), ((2, -2), (amp.zip (phases.map (- ·))).take n)])]

/-- No orbits are excluded before merger. -/
def late : Call ℚ (ℚ × ℚ) :=
  { call with dataDict := dataZ early 17, method := "Frequency", numOrbits := none, trefIn := some (.scalar 18) }

/-- One orbit is excluded. -/
def usual : Call ℚ (ℚ × ℚ) := { call with dataDict := dataZ amps 24, method := "Frequency" }

/-- The times returned and the end of the aligned quasicircular waveform. -/
def ends (r : Option (Py (Answer ℚ (ℚ × ℚ)))) : Option (Py (Option (Val ℚ) × Option ℚ)) :=
  r.map fun x => x.map fun ans => (ans.ret.get? "tref_out", ans.built.obj.zeroecc.bind fun z => z.1.getLast?)

end ExtraDemo

open RunDemo ExtraDemo in
/-- C110 does not hold in full: the aligned quasicircular waveform, given as `hlm_zeroecc`, ends at 16, and the eccentricity at 18 is
returned. -/
theorem C110_violation : ∃ (a : Call ℚ (ℚ × ℚ)) (ans : Answer ℚ (ℚ × ℚ)) (tz wz : List ℚ) (zN x : ℚ),
    a.dataDict.has "hlm_zeroecc" = true ∧ run 60 lib a = some (.ok ans) ∧ ans.built.obj.zeroecc = some (tz, wz) ∧
      tz.getLast? = some zN ∧ ans.ret.get? "tref_out" = some (.scalar x) ∧ zN < x := by
  have e : ends (run 60 lib late) = some (.ok (some (.scalar 18), some 16)) := by decide +kernel
  unfold ends at e
  cases hr : run 60 lib late with
  | none => rw [hr] at e; cases e
  | some y =>
    cases y with
    | error er => rw [hr] at e; cases e
    | ok ans =>
      rw [hr] at e
      simp only [Option.map_some, Except.map, Option.some.injEq, Except.ok.injEq, Prod.mk.injEq] at e
      cases hz : ans.built.obj.zeroecc with
      | none => rw [hz] at e; cases e.2
      | some z =>
        rw [hz] at e
        exact ⟨late, ans, z.1, z.2, 16, 18, by decide, hr, hz, e.2, e.1, by norm_num⟩

namespace ExtraDemo

open RunDemo

/-- The times and phases of the whole waveform increase. -/
def increasing (a : Call ℚ (ℚ × ℚ)) : Bool :=
  match processData lib.wave a.precessing a.frame a.dataDict none with
  | .error _ => true
  | .ok (full, _) =>
    match gwQuantities a.precessing.truth full "" with
    | .error _ => true
    | .ok (_, phase, _) => decide (phase.Pairwise (· < ·)) &&
        match Spec.array full "t" with
        | none => true
        | some t => decide (t.Pairwise (· < ·))

theorem increasing_of {a : Call ℚ (ℚ × ℚ)} (h : increasing a = true) :
    ∀ full r t amp phase omega, processData lib.wave a.precessing a.frame a.dataDict none = .ok (full, r) →
      Spec.array full "t" = some t → gwQuantities a.precessing.truth full "" = .ok (amp, phase, omega) →
      t.Pairwise (· < ·) ∧ phase.Pairwise (· < ·) := by
  intro full r t amp phase omega h1 h2 h3
  unfold increasing at h
  rw [h1] at h
  dsimp only at h
  rw [h3] at h
  dsimp only at h
  rw [h2] at h
  rw [Bool.and_eq_true, decide_eq_true_eq, decide_eq_true_eq] at h
  exact ⟨h.2, h.1⟩

/-- Is there a quasicircular waveform, and are the pericenters samples? -/
def quasi (r : Option (Py (Answer ℚ (ℚ × ℚ)))) : Option Bool :=
  r.map fun x => match x with
    | .error _ => false
    | .ok ans => match ans.built.data.get? "amplm_zeroecc", ans.built.data.get? "omegalm_zeroecc", ans.built.data.get? "t_zeroecc",
          gwQuantities false ans.built.data "_zeroecc", ans.meas with
        | some (.modesR a), some _, some (.arr _), .ok _, some m => (lib.wave.totalAmp (a.map Prod.snd)).isOk &&
            decide (∀ i ∈ m.pericenters, i < ans.built.wave.t.length)
        | _, _, _, _, _ => false

theorem quasi_of {a : Call ℚ (ℚ × ℚ)} (hp : a.precessing.truth = false) (h : quasi (run 60 lib a) = some true) :
    ∃ ans z m, run 60 lib a = some (.ok ans) ∧ IsQuasi lib.wave a.precessing.truth ans.built.data z ∧ ans.meas = some m ∧
      ∀ i ∈ m.pericenters, i < ans.built.wave.t.length := by
  unfold quasi at h
  cases hr : run 60 lib a with
  | none => rw [hr] at h; cases h
  | some x =>
    cases x with
    | error e => rw [hr] at h; cases h
    | ok ans =>
      rw [hr] at h
      simp only [Option.map_some, Option.some.injEq] at h
      split at h
      · rename_i amps om t q m h1 h2 h3 h4 h5
        rw [Bool.and_eq_true, decide_eq_true_eq] at h
        obtain ⟨h6, h7⟩ := h
        cases h8 : lib.wave.totalAmp (amps.map Prod.snd) with
        | error e => rw [h8] at h6; cases h6
        | ok total =>
          refine ⟨ans, ⟨t, q.1, q.2.2, total⟩, m, rfl, ⟨amps, om, q.2.1, h1, h2, h3, h8, ?_⟩, h5, h7⟩
          rw [hp]; exact h4
      · cases h

end ExtraDemo

/-- The hypotheses of `C110_merger_partial` and `C110_excluded_partial`. -/
example : ∃ ans z m, run 60 RunDemo.lib ExtraDemo.usual = some (.ok ans) ∧ ExtraDemo.usual.numOrbits = some 1 ∧ 0 ≤ RunDemo.lib.wave.pi ∧
    (∀ full r t amp phase omega, processData RunDemo.lib.wave ExtraDemo.usual.precessing ExtraDemo.usual.frame ExtraDemo.usual.dataDict none
        = .ok (full, r) → Spec.array full "t" = some t →
      gwQuantities ExtraDemo.usual.precessing.truth full "" = .ok (amp, phase, omega) → t.Pairwise (· < ·) ∧ phase.Pairwise (· < ·)) ∧
    IsQuasi RunDemo.lib.wave ExtraDemo.usual.precessing.truth ans.built.data z ∧ ans.meas = some m ∧
    ∀ i ∈ m.pericenters, i < ans.built.wave.t.length := by
  obtain ⟨ans, z, m, h1, h2, h3, h4⟩ := ExtraDemo.quasi_of (a := ExtraDemo.usual) rfl (by decide +kernel)
  exact ⟨ans, z, m, h1, rfl, by decide +kernel, ExtraDemo.increasing_of (by decide +kernel), h2, h3, h4⟩

/-- `C109_residual_violation` speaks of calls that draw a figure and have quasicircular data. -/
example : (ExtraDemo.usual.dataDict.has "hlm_zeroecc" = true ∧ residualPanels .frequency = [.residualAmp, .residualOmega]) ∧
    ∃ s fig cs, runPlots 60 RunDemo.lib (withPlots ExtraDemo.usual PlotDemo.yes) = some (.ok s) ∧ SampledWave s.answer.built.wave ∧
      s.figure = some fig ∧ curvesOf fig .eccentricity = some cs ∧ cs.length = 1 :=
  ⟨⟨by decide, rfl⟩, PlotDemo.figure_of (by decide +kernel)⟩

end GwEcc
