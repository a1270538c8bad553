import Verif.Lemmas.Plots
import Verif.Lemmas.RunDemo
import Verif.Props.Options
import Verif.Props.Reference
import Verif.Props.Residual
import Verif.Spec.Plots

/-!
# C108, C109: the diagnostic figure

Asking for the figure must not change the measurement, and the figure must show what was measured.
-/

set_option linter.unusedSectionVars false

namespace GwEcc

open Spec Points

section
variable {K C : Type} [Field K] [LinearOrder K] [IsStrictOrderedRing K] [FloorRing K]

theorem plotsOn_withPlots (a : Call K C) (v : Opt K) : plotsOn (withPlots a v) = v.truth := by
  unfold plotsOn withPlots
  dsimp only [Option.getD_some]
  rw [Dict.get?_set, if_pos rfl]

theorem sameFor_plots {c : MethodClass} {ex ex' : Extra K}
    (h : ∀ k, k ≠ "debug_plots" → ex.get? k = ex'.get? k) : SameFor c ex ex' where
  leaf := by
    intro k hk
    refine Dict.getItem_congr (h k ?_)
    rintro rfl
    simp at hk
  general := subKwargs_congr (h _ (by decide)) _
  peaks := fun _ _ => subKwargs_congr (h _ (by decide)) _
  special := fun _ _ => subKwargs_congr (h _ (by decide)) _
  fits := fun _ => ⟨Dict.getItem_congr (h _ (by decide)), subKwargs_congr (h _ (by decide)) _⟩

/-- The option is not looked at by the measurement. -/
theorem run_withPlots (fuel : ℕ) (lib : Libs K C) (a : Call K C) (v : Opt K) :
    run fuel lib (withPlots a v) = run fuel lib a := by
  have hg : ∀ k, k ≠ "debug_plots" → (a.extra.getD []).get? k = ((a.extra.getD []).set "debug_plots" v).get? k := by
    intro k hk; rw [Dict.get?_set, if_neg hk]
  have hfo : filterOptions a.extra = filterOptions (some ((a.extra.getD []).set "debug_plots" v)) := by
    unfold filterOptions
    dsimp only [Option.getD_some]
    rw [hg _ (by decide)]
  symm
  refine run_congr fuel lib a (some ((a.extra.getD []).set "debug_plots" v)) ?_ ?_ ?_
  · intro _
    rw [hfo]
    exact PyRel.refl (fun _ => SameDict.rfl') _
  · intro c' d r hd _
    refine PyRel.mono (checkKwargs_rel_except (k0 := "debug_plots") (by simp [optionNames]) ?_) fun _ _ h => sameFor_plots h
    exact hg
  · intro c' d r hd _ kw kw' h1 h2
    rw [hfo, h2] at h1
    cases h1
    refine PyRel.mono (checkKwargs_rel_except (k0 := "debug_plots") (by simp [optionNames]) ?_) fun _ _ h => sameFor_plots h
    intro k hk
    dsimp only [Option.getD_some]
    rw [Dict.get?_set, Dict.get?_set _ "filter_kwargs", hg k hk]

/-! ### C108 -/

/-- **C108.** With `debug_plots` false – the default – the call does what it does without the option, and draws nothing. -/
theorem C108_off (fuel : ℕ) (lib : Libs K C) (a : Call K C) {v : Opt K} (hv : v.truth = false) :
    (runPlots fuel lib (withPlots a v)).map (Except.map fun s => (s.answer, s.figure)) =
      (run fuel lib a).map (Except.map fun r => (r, none)) := by
  have hoff := plotsOn_withPlots a v
  rw [hv] at hoff
  rw [← run_withPlots fuel lib a v]
  generalize withPlots a v = a' at hoff
  unfold runPlots run
  cases hd : dispatch a' with
  | error er => rfl
  | ok q =>
    obtain ⟨c, domain, ref⟩ := q
    dsimp only
    cases hc : construct fuel lib c domain ref a' with
    | none => rfl
    | some r =>
      cases r with
      | error er => rfl
      | ok b =>
        simp only [Option.map_some, ok_bind, Option.some.injEq]
        rw [construct_no_hlm hc, hoff]
        simp only [Bool.false_eq_true, if_false, pure_eq_ok, ok_bind]
        rw [measureEccPlots_off]
        cases measureEcc b.ext b.obj none <;> rfl

/-- **C108, partial.** If the call with `debug_plots` returns, then so does the call without, and both return the same. -/
theorem C108_same_partial {fuel : ℕ} {lib : Libs K C} {a : Call K C} {v : Opt K} {s : Shown K C}
    (h : runPlots fuel lib (withPlots a v) = some (.ok s)) : run fuel lib a = some (.ok s.answer) := by
  rw [← run_withPlots fuel lib a v]
  exact run_of_runPlots h

/-- **C108, partial.** When a call that returns also returns with `debug_plots`: always when frequencies are given or when zero is
returned for lack of extrema, and for times if and only if the average frequency can be computed – which the call without the
figure does not need. -/
theorem C108_when_partial {fuel : ℕ} {lib : Libs K C} {a : Call K C} {ans : Answer K C} (h : run fuel lib a = some (.ok ans))
    (hw : SampledWave ans.built.wave) (hl : -1 ≤ a.level) {v : Opt K} (hv : v.truth = true) :
    (∃ s, runPlots fuel lib (withPlots a v) = some (.ok s)) ↔
      (a.trefIn = none ∨ ans.meas = none ∨ ∃ m avg, ans.meas = some m ∧ omegaAverage ans.built.ext m none = .ok avg) := by
  have hon := plotsOn_withPlots a v
  rw [hv] at hon
  have h' := h
  rw [← run_withPlots fuel lib a v] at h'
  rcases runPlots_on hon h' hw hl with ⟨h1, h2⟩ |
    ⟨m, c0, tr, fo, ecc, ano, ev, av, wp, wa, dv, data, res, h1, h2, h3, h4, -, -, -, -, -, -, -, -, -, -, -, h5⟩
  · exact ⟨fun _ => Or.inr (Or.inl h1), fun _ => ⟨_, h2⟩⟩
  · rw [h5]
    constructor
    · rintro ⟨s, hs⟩
      simp only [Option.some.injEq] at hs
      cases hd : drawnAverage ans.built.ext m c0 with
      | error er => rw [hd] at hs; cases hs
      | ok avg =>
        by_cases ht : a.trefIn = none
        · exact Or.inl ht
        · refine Or.inr (Or.inr ⟨m, avg, h1, ?_⟩)
          have hf : a.frefIn = none := by
            obtain ⟨R⟩ := run_ok h
            rcases (dispatch_cases R.h_dispatch).2 with ⟨-, t, -⟩ | ⟨t, -, -⟩
            · exact t
            · exact absurd t ht
          rw [h3 hf] at hd
          exact hd
    · rintro (ht | hn | ⟨m', avg, hm, ha⟩)
      · obtain ⟨c, e1, -⟩ := h4 ht
        rw [e1]
        exact ⟨_, rfl⟩
      · rw [hn] at h1; cases h1
      · rw [hm] at h1
        cases h1
        cases c0 with
        | some c => exact ⟨_, rfl⟩
        | none =>
          rw [show drawnAverage ans.built.ext m none = omegaAverage ans.built.ext m none from rfl, ha]
          exact ⟨_, rfl⟩

/-- **C108, partial.** What the object says afterwards about the range of frequencies (`get_fref_bounds()`, or with the name of the
averaging method that was configured) is the same with and without the figure. -/
theorem C108_bounds_partial {fuel : ℕ} {lib : Libs K C} {a : Call K C} {v v' : Opt K} {s s' : Shown K C} (hv : v.truth = true)
    (hv' : v'.truth = false)
    (h : runPlots fuel lib (withPlots a v) = some (.ok s)) (h' : runPlots fuel lib (withPlots a v') = some (.ok s'))
    (hw : SampledWave s.answer.built.wave) (hl : -1 ≤ a.level) {m : Meas K} (hm : s.answer.meas = some m) {name : Option String}
    (hn : name = none ∨ name = some m.o.avgMethod) :
    (frefBounds s.answer.built.ext m s.cache name).map Prod.fst = (frefBounds s'.answer.built.ext m s'.cache name).map Prod.fst := by
  have r := C108_same_partial h
  have r' := C108_same_partial h'
  have hans : s.answer = s'.answer := by rw [r] at r'; exact Except.ok.inj (Option.some.inj r')
  have hname : omegaAverage s'.answer.built.ext m name = omegaAverage s'.answer.built.ext m none := by
    rcases hn with rfl | rfl <;> rfl
  have hon := plotsOn_withPlots a v
  rw [hv] at hon
  have hoff := plotsOn_withPlots a v'
  rw [hv'] at hoff
  have r1 := r
  rw [← run_withPlots fuel lib a v] at r1
  have r1' := r'
  rw [← run_withPlots fuel lib a v'] at r1'
  -- what the call without the figure leaves
  obtain ⟨R⟩ := run_ok r1'
  have e' := runPlots_built R
  rw [h', hoff] at e'
  simp only [Bool.false_eq_true, if_false, pure_eq_ok, ok_bind, measureEccPlots_off] at e'
  rw [R.h_measure] at e'
  have hc' : s'.cache = R.cache := congrArg Shown.cache (Except.ok.inj (Option.some.inj e'))
  rcases runPlots_on hon r1 hw hl with ⟨h1, h2⟩ |
    ⟨m', c0, tr, fo, ecc, ano, ev, av, wp, wa, dv, data, res, h1, h2, h3, h4, -, -, -, -, -, -, -, -, -, -, -, h5⟩
  · rw [h1] at hm; cases hm
  · rw [hm] at h1
    cases h1
    rw [h] at h5
    simp only [Option.some.injEq] at h5
    have hm' : s'.answer.meas = some m := by rw [← hans]; exact hm
    rw [hans] at h5 h4 ⊢
    cases hd : drawnAverage s'.answer.built.ext m c0 with
    | error er => rw [hd] at h5; cases h5
    | ok avg =>
      rw [hd] at h5
      have hc : s.cache = some avg := congrArg Shown.cache (Except.ok.inj h5)
      have key : R.cache = none ∧ omegaAverage s'.answer.built.ext m none = .ok avg ∨ R.cache = some avg := by
        obtain ⟨-, hcs⟩ := dispatch_cases R.h_dispatch
        obtain ⟨f⟩ := finish_ok R.h_finish
        have hdom : s'.answer.built.obj.domain = R.domain := by rw [f.eq]
        obtain ⟨_, _, _, -, hcase⟩ := measureEcc_ok R.h_measure
        rcases hcase with ⟨hn', -⟩ | ⟨m2, _, _, hm2, -, -, hprep, hev⟩
        · rw [hm'] at hn'; cases hn'
        · rw [hm'] at hm2
          cases hm2
          obtain ⟨E⟩ := evaluate_steps hev
          have hr := E.h_ref
          have mo : m.o = s'.answer.built.obj := (prepare_ok hprep).1
          rcases hcs with ⟨t1, t2, t3⟩ | ⟨t1, t2, t3⟩
          · refine Or.inl ⟨?_, ?_⟩
            · unfold referenceTimes at hr
              rw [mo, hdom, t3] at hr
              exact (congrArg (fun r => r.2.2) (Except.ok.inj hr)).symm
            · rw [h3 t2] at hd
              exact hd
          · obtain ⟨c, e1, e2⟩ := h4 t1
            rw [e1] at hd
            have := referenceTimes_frequency (by rw [mo, hdom, t3]) hr
            obtain ⟨-, _, ts, w, -, hav, hca, -⟩ := trefFromFref_ok this
            refine Or.inr ?_
            rw [hca]
            have e3 : omegaAverage s'.answer.built.ext m none = .ok (ts, w) := hav
            rw [e2] at e3
            rw [← Except.ok.inj e3, ← Except.ok.inj hd]
      rw [hc, hc']
      unfold frefBounds
      rcases key with ⟨k1, k2⟩ | k1
      · rw [k1]
        dsimp only
        rw [hname, k2]
        rfl
      · rw [k1]

/-! ### C109 -/

/-- **C109, partial.** The figure always has exactly the seven panels promised for every call; a call that finds too few extrema and
returns zeros has none. -/
theorem C109_panels_partial {fuel : ℕ} {lib : Libs K C} {a : Call K C} {v : Opt K} {s : Shown K C} (hv : v.truth = true)
    (h : runPlots fuel lib (withPlots a v) = some (.ok s)) (hw : SampledWave s.answer.built.wave) (hl : -1 ≤ a.level) :
    (s.answer.meas = none ∧ s.figure = none) ∨
      (s.answer.meas.isSome ∧ s.figure.map (fun fig => fig.map Panel.name) = some alwaysPanels) := by
  have hon := plotsOn_withPlots a v
  rw [hv] at hon
  have r := run_of_runPlots h
  rcases runPlots_on hon r hw hl with ⟨h1, h2⟩ |
    ⟨m, c0, tr, fo, ecc, ano, ev, av, wp, wa, dv, data, res, h1, -, -, -, -, -, -, -, -, -, -, -, -, -, -, h5⟩
  · rw [h] at h2
    exact Or.inl ⟨h1, congrArg Shown.figure (Except.ok.inj (Option.some.inj h2))⟩
  · rw [h] at h5
    simp only [Option.some.injEq] at h5
    cases hd : drawnAverage s.answer.built.ext m c0 with
    | error er => rw [hd] at h5; cases h5
    | ok avg =>
      rw [hd] at h5
      have := congrArg Shown.figure (Except.ok.inj h5)
      rw [this]
      exact Or.inr ⟨by rw [h1]; rfl, rfl⟩

/-- C109 does not hold in full: the panels of the residuals are promised when quasicircular data are given, and are never drawn. -/
theorem C109_residual_violation {fuel : ℕ} {lib : Libs K C} {a : Call K C} {v : Opt K} {s : Shown K C} {fig : List (Panel K)}
    (h : runPlots fuel lib (withPlots a v) = some (.ok s)) (hw : SampledWave s.answer.built.wave) (hl : -1 ≤ a.level)
    (hf : s.figure = some fig) (c : MethodClass) : ∀ n ∈ residualPanels c, curvesOf fig n = none := by
  have hp : fig.map Panel.name = alwaysPanels := by
    cases hv : v.truth with
    | true =>
      rcases C109_panels_partial hv h hw hl with ⟨-, h1⟩ | ⟨-, h1⟩
      · rw [hf] at h1; cases h1
      · rw [hf] at h1; exact Option.some.inj h1
    | false =>
      have := C108_off fuel lib a hv
      rw [h, C108_same_partial h] at this
      have := congrArg Prod.snd (Except.ok.inj (Option.some.inj this))
      dsimp only at this
      rw [hf] at this; cases this
  intro n hn
  unfold curvesOf
  rw [Option.map_eq_none_iff, List.find?_eq_none]
  intro p hp'
  have h1 : p.name ∈ alwaysPanels := by rw [← hp]; exact List.mem_map_of_mem hp'
  intro h2
  rw [decide_eq_true_eq] at h2
  rw [h2] at h1
  revert hn h1
  cases c <;> cases n <;> decide

/-- **C109.** The figure shows what was measured: the dots of the extrema are samples of the waveform at the pericenters and apocenters
of the object, in the panel of the frequency and in that of the data used to find them; the curves of these panels are all samples.
The average is the one the object stores. -/
theorem C109_data {fuel : ℕ} {lib : Libs K C} {a : Call K C} {v : Opt K} {s : Shown K C} {fig : List (Panel K)} (hv : v.truth = true)
    (h : runPlots fuel lib (withPlots a v) = some (.ok s)) (hw : SampledWave s.answer.built.wave) (hl : -1 ≤ a.level)
    (hf : s.figure = some fig) :
    ∃ m c data wp wa avg, s.answer.meas = some m ∧ s.cache = some avg ∧ omegaAverage s.answer.built.ext m none = .ok avg ∧
      availableMethods.get? a.method = some c ∧ data.length = s.answer.built.wave.t.length ∧
      (c = .amplitude → data = s.answer.built.wave.amp) ∧ (c = .frequency → data = s.answer.built.wave.omega) ∧
      m.tChecks.mapM m.interpP = .ok wp ∧ m.tChecks.mapM m.interpA = .ok wa ∧
      curvesOf fig .omega = some [⟨m.tChecks, wp⟩, ⟨m.tChecks, wa⟩, ⟨s.answer.built.wave.t, s.answer.built.wave.omega⟩,
        ⟨takeAt s.answer.built.wave.t m.pericenters, takeAt s.answer.built.wave.omega m.pericenters⟩,
        ⟨takeAt s.answer.built.wave.t m.apocenters, takeAt s.answer.built.wave.omega m.apocenters⟩] ∧
      curvesOf fig .dataUsed = some [⟨s.answer.built.wave.t, data⟩,
        ⟨takeAt s.answer.built.wave.t m.pericenters, takeAt data m.pericenters⟩,
        ⟨takeAt s.answer.built.wave.t m.apocenters, takeAt data m.apocenters⟩] ∧
      curvesOf fig .average = some [⟨avg.1, avg.2⟩, ⟨s.answer.built.wave.t, s.answer.built.wave.omega⟩] := by
  have hon := plotsOn_withPlots a v
  rw [hv] at hon
  have r := run_of_runPlots h
  rcases runPlots_on hon r hw hl with ⟨h1, h2⟩ |
    ⟨m, c0, tr, fo, ecc, ano, ev, av, wp, wa, dv, data, res, h1, h2, h3, h4, -, -, -, -, k1, k2, -, -, k3, k4, -, h5⟩
  · rw [h] at h2
    rw [congrArg Shown.figure (Except.ok.inj (Option.some.inj h2))] at hf
    cases hf
  · rw [h] at h5
    simp only [Option.some.injEq] at h5
    obtain ⟨R⟩ := run_ok r
    obtain ⟨f⟩ := finish_ok R.h_finish
    have hobj : s.answer.built.obj.t = s.answer.built.wave.t ∧ s.answer.built.obj.omega = s.answer.built.wave.omega := by
      rw [f.eq]; exact ⟨rfl, rfl⟩
    have hm := (dispatch_cases R.h_dispatch).1
    have hmm : (withPlots a v).method = a.method := rfl
    rw [hmm] at hm k1
    rw [hm] at k1
    dsimp only [Option.getD_some] at k1
    cases hd : drawnAverage s.answer.built.ext m c0 with
    | error er => rw [hd] at h5; cases h5
    | ok avg =>
      rw [hd] at h5
      have e1 := congrArg Shown.figure (Except.ok.inj h5)
      have e2 := congrArg Shown.cache (Except.ok.inj h5)
      rw [hf] at e1
      have e1 := Option.some.inj e1
      refine ⟨m, R.c, data, wp, wa, avg, h1, e2, ?_, hm, ?_, ?_, ?_, k3, k4, ?_, ?_, ?_⟩
      · rcases (dispatch_cases R.h_dispatch).2 with ⟨-, t, -⟩ | ⟨t, -, -⟩
        · rw [h3 t] at hd; exact hd
        · obtain ⟨c, e3, e4⟩ := h4 t
          rw [e3] at hd
          rw [← Except.ok.inj hd]; exact e4
      · obtain ⟨data', res', g1, g2, g3, g4⟩ := plotInput_ok f hw
        have hbd : s.answer.built.data = R.nd := congrArg Built.data f.eq
        have hba : s.answer.built.analysis = R.an := congrArg Built.analysis f.eq
        rw [hbd, hba] at k1 k2
        rw [k2] at g4
        have hres : res = res' := congrArg Prod.fst (Except.ok.inj g4)
        rw [← hres, k1] at g3
        rw [Except.ok.inj g3]; exact g2
      · rintro hc
        rw [hc] at k1
        exact (Except.ok.inj k1).symm
      · rintro hc
        rw [hc] at k1
        exact (Except.ok.inj k1).symm
      · rw [e1, ← hobj.1, ← hobj.2, ← h2]; rfl
      · rw [e1, ← hobj.1, ← h2]; rfl
      · rw [e1, ← hobj.1, ← hobj.2, ← h2]; rfl

/-- **C109.** Every point of the drawn eccentricity and mean anomaly is the answer for that time: one eccentricity and one mean anomaly
for each time give what every call for times returns and what the figure shows. -/
theorem C109_curves {fuel : ℕ} {lib : Libs K C} {a : Call K C} {v : Opt K} {s : Shown K C} {fig : List (Panel K)} (hv : v.truth = true)
    (h : runPlots fuel lib (withPlots a v) = some (.ok s)) (hw : SampledWave s.answer.built.wave) (hl : -1 ≤ a.level)
    (hf : s.figure = some fig) (hseg : WholeWaveform a) :
    ∃ (ecc ano : K → K) (m : Meas K) (dotsE dotsA : List (Curve K)), s.answer.meas = some m ∧
      (∀ w ans, run fuel lib (askTimes a w) = some (.ok ans) → Tabulates ans.ret "tref_out" ecc ano) ∧
      curvesOf fig .eccentricity = some (⟨m.tChecks, m.tChecks.map ecc⟩ :: dotsE) ∧
      curvesOf fig .meanAnomaly = some (⟨m.tChecks, m.tChecks.map ano⟩ :: dotsA) ∧
      ((dotsE = [] ∧ dotsA = []) ∨ ∃ x, dotsE = [⟨[x], [ecc x]⟩] ∧ dotsA = [⟨[x], [ano x]⟩] ∧
        (a.frefIn = none → ∃ vr, s.answer.ret.get? "tref_out" = some vr ∧ vr.atleast1d = [x])) := by
  have hon := plotsOn_withPlots a v
  rw [hv] at hon
  have r := run_of_runPlots h
  have r0 := C108_same_partial h
  rcases runPlots_on hon r hw hl with ⟨h1, h2⟩ |
    ⟨m, c0, tr, fo, ecc, ano, ev, av, wp, wa, dv, data, res, h1, h2, h3, h4, g1, g2, g3, g4, k1, k2, k3, k4, -, -, -, h5⟩
  · rw [h] at h2
    rw [congrArg Shown.figure (Except.ok.inj (Option.some.inj h2))] at hf
    cases hf
  · rw [h] at h5
    simp only [Option.some.injEq] at h5
    obtain ⟨R⟩ := run_ok r0
    have hask : a = ask a R.domain R.ref := by
      rcases (dispatch_cases R.h_dispatch).2 with ⟨t1, t2, t3⟩ | ⟨t1, t2, t3⟩ <;> rw [t3]
      · show a = { a with trefIn := some R.ref, frefIn := none }
        rw [← t1, ← t2]
      · show a = { a with trefIn := none, frefIn := some R.ref }
        rw [← t1, ← t2]
    have r1 := r0
    rw [hask] at r1
    obtain ⟨⟨x, hx⟩, hrun⟩ := other_run r1 hseg R.domain R.ref
    have hst := stage hx
    rw [r1] at hrun
    obtain ⟨f⟩ := finish_ok R.h_finish
    have hdom : s.answer.built.obj.domain = R.domain := by rw [f.eq]
    cases hd : drawnAverage s.answer.built.ext m c0 with
    | error er => rw [hd] at h5; cases h5
    | ok avg =>
      rw [hd] at h5
      have e1 := congrArg Shown.figure (Except.ok.inj h5)
      rw [hf] at e1
      have e1 := Option.some.inj e1
      obtain ⟨q1, q2, -⟩ := both_ok k3 k4
      obtain ⟨p1, p2, -⟩ := both_ok g1 g2
      refine ⟨eccAt s.answer.built.ext m, anoAt s.answer.built.ext m, m, oneDot tr ecc, oneDot tr ano, h1, ?_, ?_, ?_, ?_⟩
      · intro w ans hr
        rcases hst with hz | ⟨m0, p, q, hm, hev⟩
        · rw [hz] at hrun
          cases hs : setToZero (turn s.answer.built.obj R.domain R.ref) with
          | error er => rw [hs] at hrun; cases hrun
          | ok y =>
            rw [hs] at hrun
            have := congrArg (fun z : Answer K C => z.meas) (Except.ok.inj (Option.some.inj hrun))
            dsimp only at this
            rw [h1] at this; cases this
        · rw [hev] at hrun
          have hm0 : m = turnM m0 R.domain R.ref := by
            cases hs : evaluate s.answer.built.ext (turnM m0 R.domain R.ref) none with
            | error er => rw [hs] at hrun; cases hrun
            | ok y =>
              rw [hs] at hrun
              have := congrArg (fun z : Answer K C => z.meas) (Except.ok.inj (Option.some.inj hrun))
              dsimp only at this
              rw [h1] at this
              exact Option.some.inj this
          obtain ⟨mo, c, h6⟩ := (answers r1 hseg .time w ans.ret).mp ⟨ans, hr, rfl⟩
          rw [hev] at h6
          cases hs : evaluate s.answer.built.ext (turnM m0 .time w) none with
          | error er => rw [hs] at h6; cases h6
          | ok y =>
            rw [hs] at h6
            have hy : y.1 = ans.ret := congrArg Prod.fst (Except.ok.inj h6)
            obtain ⟨y1, y2⟩ := y
            dsimp only at hy
            subst hy
            obtain ⟨ts, -, -, -, -, ve, va, vr, ⟨l1, l2, l3⟩, -, -, -, l4, l5, l6⟩ := times_full hs
            rw [hm0]
            exact ⟨ve, va, vr, l1, l2, l3, by rw [l4, l6]; rfl, by rw [l5, l6]; rfl⟩
      · rw [e1, q1]; rfl
      · rw [e1, q2]; rfl
      · unfold oneDot
        by_cases ht : tr.length = 1
        · rw [if_pos ht, if_pos ht]
          obtain ⟨x, rfl⟩ := List.length_eq_one_iff.mp ht
          refine Or.inr ⟨x, by rw [p1]; rfl, by rw [p2]; rfl, fun hfn => ?_⟩
          have hd' : m.o.domain = .time := by
            rw [h2, hdom]
            rcases (dispatch_cases R.h_dispatch).2 with ⟨-, -, t⟩ | ⟨-, t, -⟩
            · exact t
            · rw [hfn] at t; cases t
          rw [hd'] at g3
          obtain ⟨ve, va, vr, ⟨-, -, l3⟩, -, -, -, -, -, l6⟩ := return_entries g3 (by rw [p1]; rfl)
          exact ⟨vr, l3, l6⟩
        · rw [if_neg ht, if_neg ht]
          exact Or.inl ⟨rfl, rfl⟩

end

/-! ### The calls of the demonstration -/

namespace PlotDemo

open RunDemo

/-- `debug_plots=True`. -/
def yes : Opt ℚ := .leaf (.bool true)

/-- `debug_plots=False`. -/
def no : Opt ℚ := .leaf (.bool false)

/-- The call for one time. -/
def one : Call ℚ (ℚ × ℚ) := { call with trefIn := some (.scalar 6) }

/-- A call with the name of an averaging method. -/
def named (name : String) : Call ℚ (ℚ × ℚ) := { call with extra := some [("omega_gw_averaging_method", .leaf (.str name))] }

/-- The frequency decreases. -/
def falling : Call ℚ (ℚ × ℚ) :=
  { call with dataDict := [("t", .arr times), ("amplm", .modesR [((2, 2), amps), ((2, -2), amps)]),
      ("phaselm", .modesR [((2, 2), times.map fun x => 4 * x - x ^ 2 / 100), ((2, -2), times.map fun x => x ^ 2 / 100 - 4 * x)]),
      ("omegalm", .modesR [((2, 2), omegas), ((2, -2), omegas.map (- ·))])] }

/-- The exception of a call that draws. -/
def failure (r : Option (Py (Shown ℚ (ℚ × ℚ)))) : Option (Option Err) :=
  r.map fun x => match x with
    | .ok _ => none
    | .error e => some e

theorem returns_of {a : Call ℚ (ℚ × ℚ)} (h : err (run 60 lib a) = some none) : ∃ ans, run 60 lib a = some (.ok ans) := by
  unfold err at h
  cases hr : run 60 lib a with
  | none => rw [hr] at h; cases h
  | some x =>
    cases x with
    | error e => rw [hr] at h; cases h
    | ok ans => exact ⟨ans, rfl⟩

theorem drawn_of {a : Call ℚ (ℚ × ℚ)} (h : failure (runPlots 60 lib a) = some none) : ∃ s, runPlots 60 lib a = some (.ok s) := by
  unfold failure at h
  cases hr : runPlots 60 lib a with
  | none => rw [hr] at h; cases h
  | some x =>
    cases x with
    | error e => rw [hr] at h; cases h
    | ok ans => exact ⟨ans, rfl⟩

theorem fails_of {a : Call ℚ (ℚ × ℚ)} {e : Err} (h : failure (runPlots 60 lib a) = some (some e)) :
    runPlots 60 lib a = some (.error e) := by
  unfold failure at h
  cases hr : runPlots 60 lib a with
  | none => rw [hr] at h; cases h
  | some x =>
    cases x with
    | error e' => rw [hr] at h; cases h; rfl
    | ok ans => rw [hr] at h; cases h

end PlotDemo

open RunDemo PlotDemo in
/-- C108 does not hold in full: calls for times that return without the figure raise with it – if the average over orbits does not
increase, or the name of the averaging method is not one of those known, neither of which matters for times. -/
theorem C108_violation :
    (∃ (a : Call ℚ (ℚ × ℚ)) (ans : Answer ℚ (ℚ × ℚ)), run 60 lib a = some (.ok ans) ∧
      runPlots 60 lib (withPlots a yes) = some (.error .exception)) ∧
    (∃ (a : Call ℚ (ℚ × ℚ)) (ans : Answer ℚ (ℚ × ℚ)), run 60 lib a = some (.ok ans) ∧
      runPlots 60 lib (withPlots a yes) = some (.error .attributeError)) ∧
    ∃ (a : Call ℚ (ℚ × ℚ)) (ans : Answer ℚ (ℚ × ℚ)), run 60 lib a = some (.ok ans) ∧
      runPlots 60 lib (withPlots a yes) = some (.error .keyError) := by
  refine ⟨⟨falling, ?_⟩, ⟨named "omega_gw_zeroecc", ?_⟩, ⟨named "mean", ?_⟩⟩
  · obtain ⟨ans, h⟩ := returns_of (a := falling) (by decide +kernel)
    exact ⟨ans, h, fails_of (by decide +kernel)⟩
  · obtain ⟨ans, h⟩ := returns_of (a := named "omega_gw_zeroecc") (by decide +kernel)
    exact ⟨ans, h, fails_of (by decide +kernel)⟩
  · obtain ⟨ans, h⟩ := returns_of (a := named "mean") (by decide +kernel)
    exact ⟨ans, h, fails_of (by decide +kernel)⟩

namespace PlotDemo

open RunDemo

/-- The bounds the object gives for the mean of the interpolants. -/
def boundsOf (r : Option (Py (Shown ℚ (ℚ × ℚ)))) : Option (Py (Option (ℚ × ℚ))) :=
  r.map fun x => x >>= fun s => match s.answer.meas with
    | none => pure none
    | some m => (frefBounds s.answer.built.ext m s.cache (some "mean_of_extrema_interpolants")).map fun r => some r.1

end PlotDemo

open RunDemo PlotDemo in
/-- C108 does not hold in full: once the figure is drawn, `get_fref_bounds(method="mean_of_extrema_interpolants")` gives the bounds of
the configured method instead of those of the method asked for. -/
theorem C108_bounds_violation :
    ∃ (a : Call ℚ (ℚ × ℚ)) (s s' : Shown ℚ (ℚ × ℚ)) (m : Meas ℚ) (b b' : ℚ × ℚ),
      runPlots 60 lib (withPlots a yes) = some (.ok s) ∧ runPlots 60 lib (withPlots a no) = some (.ok s') ∧
      s.answer.meas = some m ∧ s'.answer.meas = some m ∧
      (frefBounds s.answer.built.ext m s.cache (some "mean_of_extrema_interpolants")).map Prod.fst = .ok b ∧
      (frefBounds s'.answer.built.ext m s'.cache (some "mean_of_extrema_interpolants")).map Prod.fst = .ok b' ∧ b ≠ b' := by
  obtain ⟨s, h⟩ := drawn_of (a := withPlots call yes) (by decide +kernel)
  obtain ⟨s', h'⟩ := drawn_of (a := withPlots call no) (by decide +kernel)
  have hans : s.answer = s'.answer := by
    have r := C108_same_partial h
    rw [C108_same_partial h'] at r
    exact (Except.ok.inj (Option.some.inj r)).symm
  have e : ∃ b b', boundsOf (runPlots 60 lib (withPlots call yes)) = some (.ok (some b)) ∧
      boundsOf (runPlots 60 lib (withPlots call no)) = some (.ok (some b')) ∧ b ≠ b' :=
    ⟨(357 / 550, 749 / 1100), (707 / 550, 1449 / 1100), by decide +kernel, by decide +kernel, by decide +kernel⟩
  obtain ⟨b, b', e1, e2, hne⟩ := e
  rw [h] at e1
  rw [h'] at e2
  unfold boundsOf at e1 e2
  simp only [Option.map_some, ok_bind, Option.some.injEq] at e1 e2
  cases hm : s.answer.meas with
  | none => rw [hm] at e1; cases e1
  | some m =>
    rw [hm] at e1
    have hm' : s'.answer.meas = some m := by rw [← hans]; exact hm
    rw [hm'] at e2
    dsimp only at e1 e2
    refine ⟨call, s, s', m, b, b', h, h', hm, hm', ?_, ?_, hne⟩
    · cases hf : frefBounds s.answer.built.ext m s.cache (some "mean_of_extrema_interpolants") with
      | error er => rw [hf] at e1; cases e1
      | ok q => rw [hf] at e1; cases e1; rfl
    · cases hf : frefBounds s'.answer.built.ext m s'.cache (some "mean_of_extrema_interpolants") with
      | error er => rw [hf] at e2; cases e2
      | ok q => rw [hf] at e2; cases e2; rfl

namespace PlotDemo

open RunDemo

/-- Does the call draw a figure from a waveform with samples, and how many curves are in the panel of the eccentricity? -/
def curves (r : Option (Py (Shown ℚ (ℚ × ℚ)))) : Option (Option ℕ) :=
  r.map fun x => match x with
    | .error _ => none
    | .ok s => if s.answer.built.wave.t ≠ [] ∧ s.answer.built.wave.amp.length = s.answer.built.wave.t.length ∧
          s.answer.built.wave.omega.length = s.answer.built.wave.t.length then
        s.figure.bind fun fig => (curvesOf fig .eccentricity).map List.length
      else none

theorem figure_of {a : Call ℚ (ℚ × ℚ)} {n : ℕ} (h : curves (runPlots 60 lib a) = some (some n)) :
    ∃ s fig cs, runPlots 60 lib a = some (.ok s) ∧ SampledWave s.answer.built.wave ∧ s.figure = some fig ∧
      curvesOf fig .eccentricity = some cs ∧ cs.length = n := by
  unfold curves at h
  cases hr : runPlots 60 lib a with
  | none => rw [hr] at h; cases h
  | some x =>
    cases x with
    | error e => rw [hr] at h; cases h
    | ok s =>
      rw [hr] at h
      simp only [Option.map_some, Option.some.injEq] at h
      split at h
      · rename_i hc
        cases hf : s.figure with
        | none => rw [hf] at h; cases h
        | some fig =>
          rw [hf] at h
          cases hcs : curvesOf fig .eccentricity with
          | none => simp only [Option.bind_some, hcs] at h; cases h
          | some cs =>
            simp only [Option.bind_some, hcs, Option.map_some, Option.some.injEq] at h
            exact ⟨s, fig, cs, rfl, ⟨hc.1, hc.2.1, hc.2.2⟩, hf, hcs, h⟩
      · cases h

theorem one_whole : WholeWaveform one := by
  intro x hx
  have : inForce extraDefaults one.extra "use_only_these_many_orbits" = some (.leaf .none) := by decide +kernel
  rw [this] at hx
  cases hx
  rfl

end PlotDemo

/-- The hypotheses of `C108_off`, `C108_same_partial`, `C108_when_partial`, `C109_panels_partial`, `C109_residual_violation`,
`C109_data` and `C109_curves`: a call for one time, whose figure has the dot of that time. -/
example : PlotDemo.yes.truth = true ∧ PlotDemo.no.truth = false ∧ WholeWaveform PlotDemo.one ∧ -1 ≤ PlotDemo.one.level ∧
    ∃ s fig cs, runPlots 60 RunDemo.lib (withPlots PlotDemo.one PlotDemo.yes) = some (.ok s) ∧
      run 60 RunDemo.lib PlotDemo.one = some (.ok s.answer) ∧ SampledWave s.answer.built.wave ∧ s.figure = some fig ∧
      curvesOf fig .eccentricity = some cs ∧ cs.length = 2 := by
  refine ⟨rfl, rfl, PlotDemo.one_whole, by decide, ?_⟩
  obtain ⟨s, fig, cs, h1, h2, h3, h4, h5⟩ := PlotDemo.figure_of (a := withPlots PlotDemo.one PlotDemo.yes) (n := 2) (by decide +kernel)
  exact ⟨s, fig, cs, h1, C108_same_partial h1, h2, h3, h4, h5⟩

/-- The hypotheses of `C108_bounds_partial`. -/
example : ∃ s s' m, runPlots 60 RunDemo.lib (withPlots RunDemo.call PlotDemo.yes) = some (.ok s) ∧
    runPlots 60 RunDemo.lib (withPlots RunDemo.call PlotDemo.no) = some (.ok s') ∧ SampledWave s.answer.built.wave ∧
    s.answer.meas = some m := by
  obtain ⟨s, fig, cs, h1, h2, h3, -⟩ := PlotDemo.figure_of (a := withPlots RunDemo.call PlotDemo.yes) (n := 1) (by decide +kernel)
  obtain ⟨s', h'⟩ := PlotDemo.drawn_of (a := withPlots RunDemo.call PlotDemo.no) (by decide +kernel)
  rcases C109_panels_partial (by rfl) h1 h2 (by decide) with ⟨-, h⟩ | ⟨h, -⟩
  · rw [h3] at h; cases h
  · obtain ⟨m, hm⟩ := Option.isSome_iff_exists.mp h
    exact ⟨s, s', m, h1, h', h2, hm⟩

end GwEcc
