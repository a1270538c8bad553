import Verif.Spec.Plots
import Verif.Lemmas.SampleCount
import Verif.Lemmas.WholeCall
import Verif.Lemmas.Reference
import Verif.Lemmas.PhaseFrame

set_option linter.unusedSectionVars false

/-! Lemmas about the call with its figure. -/

namespace GwEcc

open Spec

/-! ### The keys of the processed data -/

section
variable {K C : Type} [Field K] [LinearOrder K]

theorem ampPhaseOmega_no_hlm {lib : WaveLib K C} {v d : DataV K C} (h : ampPhaseOmega lib v = .ok d) :
    d.get? "hlm_zeroecc" = none := by
  unfold ampPhaseOmega at h
  obtain ⟨amp, h1, h⟩ := bind_ok h
  obtain ⟨ph, h2, h⟩ := bind_ok h
  obtain ⟨om, h3, h⟩ := bind_ok h
  unfold realModesDict at h1 h2
  obtain ⟨a, -, h1⟩ := bind_ok h1
  obtain ⟨z, -, h1⟩ := bind_ok h1
  obtain ⟨a', -, h2⟩ := bind_ok h2
  obtain ⟨z', -, h2⟩ := bind_ok h2
  cases h1
  cases h2
  have hd : ((Dict.update (Dict.update [] (withZeroecc "amplm" a z)) (withZeroecc "phaselm" a' z') : DataV K C).set "omegalm" om).get?
      "hlm_zeroecc" = none := by
    rw [Dict.get?_set, if_neg (by decide)]
    unfold withZeroecc Dict.update
    split <;> split <;> simp [Dict.get?_set] <;> rfl
  dsimp only at h
  split at h
  · obtain ⟨w, -, h⟩ := bind_ok h
    cases h
    rw [Dict.get?_set, if_neg (by decide)]
    exact hd
  split at h
  · obtain ⟨_, -, h⟩ := bind_ok h
    obtain ⟨_, -, h⟩ := bind_ok h
    obtain ⟨_, -, h⟩ := bind_ok h
    cases h
    rw [Dict.get?_set, if_neg (by decide)]
    exact hd
  · cases h
    exact hd

theorem newData_no_hlm {lib : WaveLib K C} {v nd : DataV K C} (h : newData lib v = .ok nd) :
    nd.get? "hlm_zeroecc" = none := by
  unfold newData at h
  split at h
  · obtain ⟨t, -, h⟩ := bind_ok h
    obtain ⟨n, h1, h⟩ := bind_ok h
    obtain ⟨apo, h2, h⟩ := bind_ok h
    cases h
    have hn : n.get? "hlm_zeroecc" = none := by
      split at h1
      · obtain ⟨t0, -, h1⟩ := bind_ok h1
        cases h1
        rw [Dict.get?_set, if_neg (by decide)]
        rfl
      · cases h1
        rfl
    rw [Turned.update_other _ (by unfold Dict.has; rw [ampPhaseOmega_no_hlm h2]; rfl)]
    exact hn
  · cases h

theorem cutData_no_hlm {idx : ℕ} {nd nd' : DataV K C} (h : cutData idx nd = .ok nd') (hn : nd.get? "hlm_zeroecc" = none) :
    nd'.get? "hlm_zeroecc" = none := by
  unfold cutData at h
  obtain ⟨_, -, h⟩ := bind_ok h
  obtain ⟨_, -, h⟩ := bind_ok h
  obtain ⟨_, -, h⟩ := bind_ok h
  obtain ⟨_, -, h⟩ := bind_ok h
  obtain ⟨_, -, h⟩ := bind_ok h
  obtain ⟨_, -, h⟩ := bind_ok h
  obtain ⟨_, -, h⟩ := bind_ok h
  cases h
  rw [Dict.get?_set, if_neg (by decide), Dict.get?_set, if_neg (by decide), Dict.get?_set, if_neg (by decide), Dict.get?_set,
    if_neg (by decide)]
  exact hn

theorem loadWave_no_hlm [FloorRing K] {lib : Libs K C} {a : Call K C} {nd : DataV K C} {an : Analysis K} {w : Wave K}
    (h : loadWave lib a = .ok (nd, an, w)) : nd.has "hlm_zeroecc" = false := by
  unfold loadWave at h
  obtain ⟨_, -, h⟩ := bind_ok h
  obtain ⟨⟨nd', an'⟩, h1, h⟩ := bind_ok h
  obtain ⟨_, -, h⟩ := bind_ok h
  obtain ⟨_, -, h⟩ := bind_ok h
  obtain ⟨_, -, h⟩ := bind_ok h
  cases h
  obtain ⟨v', full, -, -, h2, -, h3⟩ := processData_ok h1
  have hf := newData_no_hlm h2
  have : nd.get? "hlm_zeroecc" = none := by
    rcases h3 with ⟨-, rfl⟩ | ⟨idx, -, h3⟩
    · exact hf
    · exact cutData_no_hlm h3 hf
  unfold Dict.has
  rw [this]
  rfl

end

/-! ### The measurement -/

section
variable {K : Type} [Field K] [LinearOrder K]

theorem checkAverageIncreasingPlots_off (method : String) (w : List K) :
    checkAverageIncreasingPlots false method w = checkAverageIncreasing w := by
  unfold checkAverageIncreasingPlots checkAverageIncreasing
  simp

theorem checkAverageIncreasingPlots_ok (plots : Bool) (method : String) (w : List K) {u : Unit} :
    checkAverageIncreasingPlots plots method w = .ok u ↔ checkAverageIncreasing w = .ok u := by
  unfold checkAverageIncreasingPlots checkAverageIncreasing
  split
  · split <;> simp
  · rfl

theorem trefFromFrefPlots_off (e : Ext K) (m : Meas K) (cache : AvgCache K) (f : List K) :
    trefFromFrefPlots false e m cache f = trefFromFref e m cache f := by
  unfold trefFromFrefPlots trefFromFref
  simp only [checkAverageIncreasingPlots_off]

theorem trefFromFrefPlots_ok (plots : Bool) (e : Ext K) (m : Meas K) (cache : AvgCache K) (f : List K)
    {r : (List K × List K) × AvgCache K} :
    trefFromFrefPlots plots e m cache f = .ok r ↔ trefFromFref e m cache f = .ok r := by
  unfold trefFromFrefPlots trefFromFref
  split
  · constructor
    · intro h
      obtain ⟨x, h1, h⟩ := bind_ok h
      obtain ⟨y, h2, h⟩ := bind_ok h
      obtain ⟨u, h3, h⟩ := bind_ok h
      rw [h1]; simp only [ok_bind]
      rw [h2]; simp only [ok_bind]
      rw [(checkAverageIncreasingPlots_ok _ _ _).mp h3]; simp only [ok_bind]
      exact h
    · intro h
      obtain ⟨x, h1, h⟩ := bind_ok h
      obtain ⟨y, h2, h⟩ := bind_ok h
      obtain ⟨u, h3, h⟩ := bind_ok h
      rw [h1]; simp only [ok_bind]
      rw [h2]; simp only [ok_bind]
      rw [(checkAverageIncreasingPlots_ok _ _ _).mpr h3]; simp only [ok_bind]
      exact h
  · rfl

theorem referenceTimesPlots_ok (plots : Bool) (e : Ext K) (m : Meas K) (cache : AvgCache K) {r : List K × List K × AvgCache K} :
    referenceTimesPlots plots e m cache = .ok r ↔ referenceTimes e m cache = .ok r := by
  unfold referenceTimesPlots referenceTimes
  cases m.o.domain with
  | time => rfl
  | frequency =>
    dsimp only
    constructor
    · intro h
      obtain ⟨x, h1, h⟩ := bind_ok h
      rw [(trefFromFrefPlots_ok _ _ _ _ _).mp h1]
      exact h
    · intro h
      obtain ⟨x, h1, h⟩ := bind_ok h
      rw [(trefFromFrefPlots_ok _ _ _ _ _).mpr h1]
      exact h

theorem referenceTimesPlots_off (e : Ext K) (m : Meas K) (cache : AvgCache K) :
    referenceTimesPlots false e m cache = referenceTimes e m cache := by
  unfold referenceTimesPlots referenceTimes
  cases m.o.domain with
  | time => rfl
  | frequency => dsimp only; rw [trefFromFrefPlots_off]

/-- What a successful evaluation consists of. -/
structure Evaluated [FloorRing K] (e : Ext K) (m : Meas K) (cache c0 : AvgCache K) (ret : Dict String (Val K)) where
  trefIn : List K
  fOut : List K
  trefOut : List K
  ecc : List K
  ano : List K
  h_ref : referenceTimes e m cache = .ok (trefIn, fOut, c0)
  h_out : trefOut = trefIn.filter (fun x => decide (x ≤ m.tmax ∧ m.tmin ≤ x))
  h_ecc : computeEccentricity e m trefOut = .ok ecc
  h_ano : computeMeanAnomaly e m trefOut = .ok ano
  h_mono : ∃ o, checkMonotonicity e m = .ok o
  h_ret : makeReturn m.o.domain m.o.refIn.isScalar ecc ano (m.o.domain.pick trefOut fOut) = .ok ret
  h_plots : ∀ d, evaluatePlots false (some d) e m cache = (diagnosticPlots d e m c0 trefOut ecc ano).map fun r => (ret, r.2, some r.1)

theorem evaluate_steps [FloorRing K] {e : Ext K} {m : Meas K} {cache c0 : AvgCache K} {ret : Dict String (Val K)}
    (h : evaluate e m cache = .ok (ret, c0)) : Nonempty (Evaluated e m cache c0 ret) := by
  unfold evaluate at h
  obtain ⟨⟨trefIn, fOut, c⟩, hr, h⟩ := bind_ok h
  dsimp only at h
  split at h
  · cases h
  rename_i g1
  split at h
  · obtain ⟨_, _, h⟩ := bind_ok h
    cases h
  rename_i g2
  obtain ⟨t0, h0, h⟩ := bind_ok h
  obtain ⟨t1, h1, h⟩ := bind_ok h
  obtain ⟨p0, h2, h⟩ := bind_ok h
  obtain ⟨p1, h3, h⟩ := bind_ok h
  split at h
  · cases h
  rename_i g3
  obtain ⟨ecc, h4, h⟩ := bind_ok h
  obtain ⟨ano, h5, h⟩ := bind_ok h
  obtain ⟨o, h6, h⟩ := bind_ok h
  obtain ⟨o', h7, h⟩ := bind_ok h
  obtain ⟨ret', h8, h⟩ := bind_ok h
  cases h
  refine ⟨⟨trefIn, fOut, _, ecc, ano, hr, rfl, h4, h5, ⟨o, h6⟩, h8, fun d => ?_⟩⟩
  unfold evaluatePlots
  rw [(referenceTimesPlots_ok _ _ _ _).mpr hr]
  simp only [ok_bind]
  rw [if_neg g1, if_neg g2, h0]
  simp only [ok_bind]
  rw [h1]
  rw [pure_eq_ok] at h7
  simp only [ok_bind, checkExtrapolated, Bool.false_eq_true, if_false, pure_eq_ok]
  rw [h2]
  simp only [ok_bind]
  rw [h3]
  simp only [ok_bind]
  rw [if_neg g3, h4]
  simp only [ok_bind]
  rw [h5]
  simp only [ok_bind]
  rw [h6]
  simp only [ok_bind]
  rw [h7]
  simp only [ok_bind]
  cases diagnosticPlots d e m c0 (trefIn.filter (fun x => decide (x ≤ m.tmax ∧ m.tmin ≤ x))) ecc ano with
  | error er => rfl
  | ok r =>
    simp only [ok_bind]
    rw [h8]
    rfl

theorem evaluatePlots_off [FloorRing K] (e : Ext K) (m : Meas K) (cache : AvgCache K) :
    evaluatePlots false none e m cache = (evaluate e m cache).map fun r => (r.1, r.2, none) := by
  unfold evaluatePlots evaluate
  simp only [Option.isSome_none, referenceTimesPlots_off, checkExtrapolated, Bool.false_eq_true, if_false, pure_eq_ok, ok_bind]
  cases referenceTimes e m cache with
  | error er => rfl
  | ok r =>
    simp only [ok_bind]
    split
    · rfl
    split
    · cases checkInputLimits r.1 m.tmin m.tmax <;> rfl
    cases pyGet (r.1.filter fun x => decide (x ≤ m.tmax ∧ m.tmin ≤ x)) 0 with
    | error er => rfl
    | ok t0 =>
    cases pyLast (r.1.filter fun x => decide (x ≤ m.tmax ∧ m.tmin ≤ x)) with
    | error er => rfl
    | ok t1 =>
    cases pyGet m.tPeri 0 with
    | error er => rfl
    | ok p0 =>
    cases pyLast m.tPeri with
    | error er => rfl
    | ok p1 =>
    simp only [ok_bind]
    split
    · rfl
    cases computeEccentricity e m (r.1.filter fun x => decide (x ≤ m.tmax ∧ m.tmin ≤ x)) with
    | error er => rfl
    | ok ecc =>
    cases computeMeanAnomaly e m (r.1.filter fun x => decide (x ≤ m.tmax ∧ m.tmin ≤ x)) with
    | error er => rfl
    | ok ano =>
    cases checkMonotonicity e m with
    | error er => rfl
    | ok o =>
    simp only [ok_bind]
    cases (if (ecc.any fun x => decide (x < 0)) = true then debugMessage m.o.level true true else Except.ok Outcome.silent) with
    | error er => rfl
    | ok o' =>
    simp only [ok_bind]
    cases makeReturn m.o.domain m.o.refIn.isScalar ecc ano
      (m.o.domain.pick (r.1.filter fun x => decide (x ≤ m.tmax ∧ m.tmin ≤ x)) r.2.1) with
    | error er => rfl
    | ok ret => rfl

/-- An evaluation with a figure succeeds only if the one without does, with the same result. -/
theorem evaluatePlots_on_ok [FloorRing K] {e : Ext K} {m : Meas K} {cache c1 : AvgCache K} {ret : Dict String (Val K)}
    {d : PlotInput K} {fig : Option (List (Panel K))} (h : evaluatePlots false (some d) e m cache = .ok (ret, c1, fig)) :
    ∃ c0, evaluate e m cache = .ok (ret, c0) := by
  unfold evaluatePlots at h
  obtain ⟨⟨trefIn, fOut, c⟩, hr, h⟩ := bind_ok h
  have hr := (referenceTimesPlots_ok _ _ _ _).mp hr
  refine ⟨c, ?_⟩
  unfold evaluate
  rw [hr]
  simp only [ok_bind]
  dsimp only at h
  split at h
  · cases h
  rename_i g1
  rw [if_neg g1]
  split at h
  · obtain ⟨_, _, h⟩ := bind_ok h
    cases h
  rename_i g2
  rw [if_neg g2]
  obtain ⟨t0, h0, h⟩ := bind_ok h
  obtain ⟨t1, h1, h⟩ := bind_ok h
  obtain ⟨_, -, h⟩ := bind_ok h
  obtain ⟨p0, h2, h⟩ := bind_ok h
  obtain ⟨p1, h3, h⟩ := bind_ok h
  split at h
  · cases h
  rename_i g3
  obtain ⟨ecc, h4, h⟩ := bind_ok h
  obtain ⟨ano, h5, h⟩ := bind_ok h
  obtain ⟨o, h6, h⟩ := bind_ok h
  obtain ⟨o', h7, h⟩ := bind_ok h
  obtain ⟨⟨f, c'⟩, -, h⟩ := bind_ok h
  obtain ⟨ret', h8, h⟩ := bind_ok h
  cases h
  rw [h0]; simp only [ok_bind]
  rw [h1]; simp only [ok_bind]
  rw [h2]; simp only [ok_bind]
  rw [h3]; simp only [ok_bind]
  rw [if_neg g3, h4]; simp only [ok_bind]
  rw [h5]; simp only [ok_bind]
  rw [h6]; simp only [ok_bind]
  rw [h7]; simp only [ok_bind]
  rw [h8]; rfl

/-! ### The panels -/

theorem draw_ok {x y : List K} (h : x.length = y.length) : draw x y = .ok ⟨x, y⟩ := if_pos h

theorem draw_eq {x y : List K} {c : Curve K} (h : draw x y = .ok c) : c = ⟨x, y⟩ ∧ x.length = y.length := by
  unfold draw at h
  split at h
  · rename_i g; exact ⟨(Except.ok.inj h).symm, g⟩
  · cases h

theorem drawWithExtrema_ok {m : Meas K} {y : List K} (h : y.length = m.o.t.length) (hne : m.o.t ≠ []) :
    drawWithExtrema m y = .ok [⟨m.o.t, y⟩, ⟨takeAt m.o.t m.pericenters, takeAt y m.pericenters⟩,
      ⟨takeAt m.o.t m.apocenters, takeAt y m.apocenters⟩] := by
  unfold drawWithExtrema
  rw [draw_ok h.symm]; simp only [ok_bind]
  rw [draw_ok (by simp [takeAt])]; simp only [ok_bind]
  rw [draw_ok (by simp [takeAt])]; simp only [ok_bind]
  obtain ⟨mn, hmn⟩ := npMin_ok (l := y) (by intro e; rw [e] at h; exact hne (List.length_eq_zero_iff.mp h.symm))
  rw [hmn]; rfl

theorem drawReference_ok {ts vs : List K} (h : ts.length = vs.length) :
    drawReference ts vs = .ok (if ts.length = 1 then [⟨ts, vs⟩] else []) := by
  unfold drawReference
  split
  · rw [draw_ok h]; rfl
  · rfl

theorem computeEccentricity_steps {e : Ext K} {m : Meas K} {ts ecc : List K} (h : computeEccentricity e m ts = .ok ecc) :
    ∃ wp wa, checkInputLimits ts m.tmin m.tmax = .ok () ∧ ts.mapM m.interpP = .ok wp ∧ ts.mapM m.interpA = .ok wa ∧
      ecc = List.zipWith e.eccOf wp wa ∧ ecc.length = ts.length := by
  unfold computeEccentricity at h
  obtain ⟨_, h1, h⟩ := bind_ok h
  obtain ⟨wp, h2, h⟩ := bind_ok h
  obtain ⟨wa, h3, h⟩ := bind_ok h
  cases h
  exact ⟨wp, wa, h1, h2, h3, rfl, by rw [List.length_zipWith, mapM_py_length h2, mapM_py_length h3, min_self]⟩

theorem npInterp_some (x : K) : ∀ l : List (K × K), l ≠ [] → ∃ y, npInterp x l = .ok y
  | [], h => absurd rfl h
  | [q], _ => ⟨q.2, rfl⟩
  | q0 :: q1 :: l, _ => by
    unfold npInterp
    split
    · exact ⟨_, rfl⟩
    · split
      · exact ⟨_, rfl⟩
      · exact npInterp_some x (q1 :: l) (by simp)

theorem computeMeanAnomaly_total [FloorRing K] {e : Ext K} {m : Meas K} {ts : List K}
    (h : checkInputLimits ts m.tmin m.tmax = .ok ()) (hp : m.tPeri ≠ []) :
    ∃ v, computeMeanAnomaly e m ts = .ok v ∧ v.length = ts.length := by
  unfold computeMeanAnomaly
  rw [h]
  simp only [ok_bind]
  have hz : m.tPeri.zip ((List.range m.tPeri.length).map (fun i : ℕ => (i : K) * 2 * e.pi)) ≠ [] := by
    intro hc
    have := congrArg List.length hc
    simp at this
    exact hp this
  obtain ⟨v, hv⟩ := (Points.mapM_ok_iff (f := fun x => npInterp x (m.tPeri.zip ((List.range m.tPeri.length).map (fun i : ℕ => (i : K) * 2 * e.pi))))
    (l := ts)).mpr fun x _ => npInterp_some x _ hz
  rw [hv]
  exact ⟨_, rfl, by rw [List.length_map, mapM_py_length hv]⟩

theorem checkSeparation_some {pi : K} {level : ℤ} {b : Bool} {ph t : List K} {s : Option (List K × List K)}
    {w : List (SepWarning K)} (h : checkSeparation pi level b ph t = .ok (s, w)) :
    (s = none ∧ level < 1 ∧ b = false) ∨ (∃ d r, s = some (d, r) ∧ d = diff (ph.map (· / 2)) ∧
      r = 0 :: List.zipWith (· / ·) (d.drop 1) d.dropLast) := by
  unfold checkSeparation at h
  split at h
  · rename_i g
    cases h
    exact Or.inl ⟨rfl, g.1, g.2⟩
  · obtain ⟨w1, -, h⟩ := bind_ok h
    obtain ⟨w2, -, h⟩ := bind_ok h
    obtain ⟨w3, -, h⟩ := bind_ok h
    cases h
    exact Or.inr ⟨_, _, rfl, rfl, rfl⟩

theorem checkSeparation_quiet {pi : K} {level : ℤ} (h1 : -1 ≤ level) (h2 : level < 1) (ph t : List K) :
    ∃ s w, checkSeparation pi level true ph t = .ok (s, w) := by
  have hm : ∃ o, debugMessage level false = .ok o := by
    have : level = -1 ∨ level = 0 := by omega
    rcases this with rfl | rfl
    · exact ⟨_, rfl⟩
    · exact ⟨_, rfl⟩
  obtain ⟨o, hm⟩ := hm
  unfold checkSeparation
  rw [if_neg (by simp)]
  rw [hm]
  have key : ∀ (c : Prop) [Decidable c] (x y : List (SepWarning K)), (if c then (Except.ok x : Py _) else .ok y) = .ok (if c then x else y) := by
    intro c _ x y; split <;> rfl
  simp only [ok_bind, pure_eq_ok, key]
  exact ⟨_, _, rfl⟩

/-- The ratios of a list of phases, as drawn. -/
def ratioOf (e : Ext K) (m : Meas K) (loc : List ℕ) : List K :=
  let d := diff ((takeAt m.o.phase loc).map (· / 2))
  0 :: List.zipWith (· / ·) (d.drop 1) d.dropLast

theorem separationRatio_ok {e : Ext K} {m : Meas K} {loc : List ℕ} (hl : -1 ≤ m.o.level)
    (h : ∃ r, checkSeparation e.pi m.o.level false (takeAt m.o.phase loc) (takeAt m.o.t loc) = .ok r) :
    separationRatio e m loc = .ok (ratioOf e m loc) := by
  obtain ⟨⟨s, w⟩, h⟩ := h
  unfold separationRatio
  rw [h]
  simp only [ok_bind]
  rcases checkSeparation_some h with ⟨rfl, g, -⟩ | ⟨d, r, rfl, rfl, rfl⟩
  · obtain ⟨s', w', h'⟩ := checkSeparation_quiet (pi := e.pi) hl g (takeAt m.o.phase loc) (takeAt m.o.t loc)
    dsimp only
    rw [h']
    simp only [ok_bind]
    rcases checkSeparation_some h' with ⟨-, -, hc⟩ | ⟨d, r, rfl, rfl, rfl⟩
    · cases hc
    · rfl
  · rfl

theorem ratioOf_length (e : Ext K) (m : Meas K) (loc : List ℕ) :
    ((ratioOf e m loc).drop 1).length = ((takeAt m.o.t (loc.drop 1)).drop 1).length := by
  simp [ratioOf, takeAt, length_diff]
  omega

theorem interpolate_len {tol : K} {eval : InterpCall → List K → List K → K → Py K} {x ox oy r : List K} {b g : Bool}
    {it : Interpolator} {kw : SplineKwargs} (h : interpolate tol eval x ox oy b it kw g = .ok r) : r.length = x.length := by
  unfold interpolate at h
  split at h
  · cases h
  cases b with
  | true =>
    simp only [if_true, ite_true] at h
    obtain ⟨_, -, h⟩ := bind_ok h
    exact mapM_py_length h
  | false =>
    simp only [Bool.false_eq_true, if_false] at h
    obtain ⟨_, _, h⟩ := bind_ok h
    obtain ⟨_, _, h⟩ := bind_ok h
    obtain ⟨_, _, h⟩ := bind_ok h
    obtain ⟨_, _, h⟩ := bind_ok h
    split at h
    · cases h
    obtain ⟨r, hr, h⟩ := bind_ok h
    exact mapM_py_length h

theorem omegaAverage_len {e : Ext K} {m : Meas K} {method : Option String} {ts w : List K}
    (h : omegaAverage e m method = .ok (ts, w)) : ts.length = w.length := by
  unfold omegaAverage at h
  obtain ⟨ts', -, h⟩ := bind_ok h
  obtain ⟨w', h2, h⟩ := bind_ok h
  cases h
  unfold evalAverage at h2
  split at h2
  · unfold computeMeanOfInterpolants at h2
    obtain ⟨wp, a1, h2⟩ := bind_ok h2
    obtain ⟨wa, a2, h2⟩ := bind_ok h2
    cases h2
    rw [List.length_zipWith, mapM_py_length a1, mapM_py_length a2, min_self]
  split at h2
  · unfold computeOrbitAveraged at h2
    obtain ⟨_, -, h2⟩ := bind_ok h2
    obtain ⟨_, -, h2⟩ := bind_ok h2
    obtain ⟨_, -, h2⟩ := bind_ok h2
    exact (interpolate_len h2).symm
  split at h2
  · unfold computeOmegaZeroecc at h2
    split at h2
    · cases h2
    · exact (interpolate_len h2).symm
  · cases h2

/-- The average that is drawn. -/
def drawnAverage (e : Ext K) (m : Meas K) (cache : AvgCache K) : Py (List K × List K) :=
  match cache with
  | some c => pure c
  | none => omegaAverage e m none

/-- The curve `y` over all times with dots at the extrema. -/
def withDots (m : Meas K) (y : List K) : List (Curve K) :=
  [⟨m.o.t, y⟩, ⟨takeAt m.o.t m.pericenters, takeAt y m.pericenters⟩, ⟨takeAt m.o.t m.apocenters, takeAt y m.apocenters⟩]

/-- The dot at a single reference time. -/
def oneDot (ts vs : List K) : List (Curve K) := if ts.length = 1 then [⟨ts, vs⟩] else []

theorem diagnosticPlots_eq [FloorRing K] {d : PlotInput K} {e : Ext K} {m : Meas K} {c0 : AvgCache K} {trefOut ecc ano : List K}
    (hd : d.hasHlm = false) (hdata : d.data.length = m.o.t.length) (homega : m.o.omega.length = m.o.t.length) (hne : m.o.t ≠ [])
    (hlev : -1 ≤ m.o.level)
    (hP : ∃ r, checkSeparation e.pi m.o.level false (takeAt m.o.phase m.pericenters) (takeAt m.o.t m.pericenters) = .ok r)
    (hA : ∃ r, checkSeparation e.pi m.o.level false (takeAt m.o.phase m.apocenters) (takeAt m.o.t m.apocenters) = .ok r)
    (hpe : m.tPeri ≠ []) (hecc : computeEccentricity e m trefOut = .ok ecc) (hano : computeMeanAnomaly e m trefOut = .ok ano)
    (hmono : ∃ o, checkMonotonicity e m = .ok o) (hc0 : ∀ c, c0 = some c → c.1.length = c.2.length) :
    ∃ ev av wp wa dv, computeEccentricity e m m.tChecks = .ok ev ∧ computeMeanAnomaly e m m.tChecks = .ok av ∧
      m.tChecks.mapM m.interpP = .ok wp ∧ m.tChecks.mapM m.interpA = .ok wa ∧ derivativeOfEccentricity e m m.tChecks = .ok dv ∧
      diagnosticPlots d e m c0 trefOut ecc ano = (drawnAverage e m c0).map fun avg =>
        ([⟨.eccentricity, ⟨m.tChecks, ev⟩ :: oneDot trefOut ecc⟩, ⟨.meanAnomaly, ⟨m.tChecks, av⟩ :: oneDot trefOut ano⟩,
          ⟨.omega, ⟨m.tChecks, wp⟩ :: ⟨m.tChecks, wa⟩ :: withDots m m.o.omega⟩, ⟨.dataUsed, withDots m d.data⟩,
          ⟨.deccDt, [⟨m.tChecks, dv⟩]⟩,
          ⟨.phaseRatio, [⟨(takeAt m.o.t (m.pericenters.drop 1)).drop 1, (ratioOf e m m.pericenters).drop 1⟩,
            ⟨(takeAt m.o.t (m.apocenters.drop 1)).drop 1, (ratioOf e m m.apocenters).drop 1⟩]⟩,
          ⟨.average, [⟨avg.1, avg.2⟩, ⟨m.o.t, m.o.omega⟩]⟩], some avg) := by
  obtain ⟨o, hmono⟩ := hmono
  unfold checkMonotonicity at hmono
  obtain ⟨dv, hdv, -⟩ := bind_ok hmono
  have hdv' := hdv
  unfold derivativeOfEccentricity at hdv'
  obtain ⟨_, -, hdv'⟩ := bind_ok hdv'
  obtain ⟨ev, hev, hdv'⟩ := bind_ok hdv'
  obtain ⟨_, -, hdv'⟩ := bind_ok hdv'
  have ldv := mapM_py_length hdv'
  obtain ⟨wp, wa, hlim, hwp, hwa, -, lev⟩ := computeEccentricity_steps hev
  obtain ⟨av, hav, lav⟩ := computeMeanAnomaly_total (e := e) (m := m) hlim hpe
  obtain ⟨_, _, hlim', -, -, -, lecc⟩ := computeEccentricity_steps hecc
  obtain ⟨av', hav', lano⟩ := computeMeanAnomaly_total (e := e) (m := m) hlim' hpe
  rw [hano] at hav'
  cases hav'
  refine ⟨ev, av, wp, wa, dv, hev, hav, hwp, hwa, hdv, ?_⟩
  unfold diagnosticPlots
  have e1 : plotEccentricity e m trefOut ecc = .ok ⟨.eccentricity, ⟨m.tChecks, ev⟩ :: oneDot trefOut ecc⟩ := by
    unfold plotEccentricity
    rw [hev]; simp only [ok_bind]
    rw [draw_ok lev.symm]; simp only [ok_bind]
    rw [drawReference_ok lecc.symm]; rfl
  have e2 : plotMeanAnomaly e m trefOut ano = .ok ⟨.meanAnomaly, ⟨m.tChecks, av⟩ :: oneDot trefOut ano⟩ := by
    unfold plotMeanAnomaly
    rw [hav]; simp only [ok_bind]
    rw [draw_ok lav.symm]; simp only [ok_bind]
    rw [drawReference_ok lano.symm]; rfl
  have e3 : plotOmega m = .ok ⟨.omega, ⟨m.tChecks, wp⟩ :: ⟨m.tChecks, wa⟩ :: withDots m m.o.omega⟩ := by
    unfold plotOmega
    rw [hwp]; simp only [ok_bind]
    rw [draw_ok (mapM_py_length hwp).symm]; simp only [ok_bind]
    rw [hwa]; simp only [ok_bind]
    rw [draw_ok (mapM_py_length hwa).symm]; simp only [ok_bind]
    rw [drawWithExtrema_ok homega hne]; rfl
  have e4 : plotDataUsed d m = .ok ⟨.dataUsed, withDots m d.data⟩ := by
    unfold plotDataUsed
    rw [drawWithExtrema_ok hdata hne]; rfl
  have e5 : plotDeccDt e m = .ok ⟨.deccDt, [⟨m.tChecks, dv⟩]⟩ := by
    unfold plotDeccDt
    rw [hdv]; simp only [ok_bind]
    rw [draw_ok ldv.symm]; rfl
  have e6 : plotPhaseRatio e m = .ok ⟨.phaseRatio,
      [⟨(takeAt m.o.t (m.pericenters.drop 1)).drop 1, (ratioOf e m m.pericenters).drop 1⟩,
        ⟨(takeAt m.o.t (m.apocenters.drop 1)).drop 1, (ratioOf e m m.apocenters).drop 1⟩]⟩ := by
    unfold plotPhaseRatio
    rw [separationRatio_ok hlev hP]; simp only [ok_bind]
    rw [separationRatio_ok hlev hA]; simp only [ok_bind]
    rw [draw_ok (ratioOf_length e m _).symm]; simp only [ok_bind]
    rw [draw_ok (ratioOf_length e m _).symm]; rfl
  rw [e1, e2, e3, e4, e5, e6]
  simp only [ok_bind, hd, Bool.false_and, Bool.false_eq_true, if_false, pure_eq_ok, List.append_nil]
  obtain ⟨mn, hmn⟩ := npMin_ok (l := m.o.omega)
    (by intro h; rw [h] at homega; exact hne (List.length_eq_zero_iff.mp homega.symm))
  have e7 : ∀ avg : List K × List K, drawnAverage e m c0 = .ok avg → avg.1.length = avg.2.length →
      plotAverage e m c0 = .ok (⟨.average, [⟨avg.1, avg.2⟩, ⟨m.o.t, m.o.omega⟩]⟩, some avg) := by
    intro avg h1 h2
    unfold plotAverage
    unfold drawnAverage at h1
    cases c0 with
    | some c =>
      cases h1
      simp only [pure_eq_ok, ok_bind]
      rw [draw_ok h2]; simp only [ok_bind]
      rw [draw_ok homega.symm]; simp only [ok_bind]
      rw [hmn]; rfl
    | none =>
      dsimp only at h1 ⊢
      rw [h1]
      simp only [pure_eq_ok, ok_bind]
      rw [draw_ok h2]; simp only [ok_bind]
      rw [draw_ok homega.symm]; simp only [ok_bind]
      rw [hmn]; rfl
  cases hav : drawnAverage e m c0 with
  | error er =>
    have : plotAverage e m c0 = .error er := by
      unfold plotAverage
      unfold drawnAverage at hav
      cases c0 with
      | some c => cases hav
      | none => dsimp only at hav ⊢; rw [hav]; rfl
    rw [this]; rfl
  | ok avg =>
    have hl : avg.1.length = avg.2.length := by
      unfold drawnAverage at hav
      cases c0 with
      | some c => cases hav; exact hc0 _ rfl
      | none => exact omegaAverage_len hav
    rw [e7 avg hav hl]
    rfl

end

/-! ### The call -/

section
variable {K C : Type} [Field K] [LinearOrder K] [IsStrictOrderedRing K] [FloorRing K]

theorem measureEccPlots_off (e : Ext K) (o : Obj K) (cache : AvgCache K) :
    measureEccPlots false none e o cache = (measureEcc e o cache).map fun r => (r.1, r.2.1, r.2.2, none) := by
  unfold measureEccPlots measureEcc
  cases findBoth e o with
  | error er => rfl
  | ok r =>
    simp only [ok_bind]
    split
    · cases setToZero o <;> rfl
    · cases settleExtrema e o r.1 r.2.1 with
      | error er => rfl
      | ok q =>
        simp only [ok_bind]
        cases prepare e o q.1 q.2 with
        | error er => rfl
        | ok m =>
          simp only [ok_bind, evaluatePlots_off]
          cases evaluate e m cache <;> rfl

theorem measureEccPlots_on_ok {d : PlotInput K} {e : Ext K} {o : Obj K} {cache c1 : AvgCache K} {ret : Dict String (Val K)}
    {mo : Option (Meas K)} {fig : Option (List (Panel K))}
    (h : measureEccPlots false (some d) e o cache = .ok (ret, mo, c1, fig)) :
    ∃ c0, measureEcc e o cache = .ok (ret, mo, c0) := by
  unfold measureEccPlots at h
  unfold measureEcc
  obtain ⟨⟨p, a, l⟩, h1, h⟩ := bind_ok h
  rw [h1]
  simp only [ok_bind]
  dsimp only at h
  split at h
  · rename_i g
    obtain ⟨r, h2, h⟩ := bind_ok h
    cases h
    rw [if_pos g, h2]
    exact ⟨_, rfl⟩
  · rename_i g
    obtain ⟨⟨p', a'⟩, h2, h⟩ := bind_ok h
    obtain ⟨m, h3, h⟩ := bind_ok h
    obtain ⟨⟨r, c, f⟩, h4, h⟩ := bind_ok h
    cases h
    obtain ⟨c0, h5⟩ := evaluatePlots_on_ok h4
    rw [if_neg g, h2]
    simp only [ok_bind]
    rw [h3]
    simp only [ok_bind]
    rw [h5]
    exact ⟨_, rfl⟩

theorem settle_separation {e : Ext K} {o : Obj K} {p a p' a' : List ℕ} (h : settleExtrema e o p a = .ok (p', a')) :
    (∃ r, checkSeparation e.pi o.level false (takeAt o.phase p') (takeAt o.t p') = .ok r) ∧
      ∃ r, checkSeparation e.pi o.level false (takeAt o.phase a') (takeAt o.t a') = .ok r := by
  unfold settleExtrema at h
  obtain ⟨⟨q, b⟩, -, h⟩ := bind_ok h
  obtain ⟨_, -, h⟩ := bind_ok h
  obtain ⟨_, -, h⟩ := bind_ok h
  dsimp only at h
  obtain ⟨_, -, h⟩ := bind_ok h
  obtain ⟨r1, h1, h⟩ := bind_ok h
  obtain ⟨r2, h2, h⟩ := bind_ok h
  have e1 := congrArg Prod.fst (Except.ok.inj h)
  have e2 := congrArg Prod.snd (Except.ok.inj h)
  dsimp only at e1 e2
  rw [e1] at h1
  rw [e2] at h2
  exact ⟨⟨r1, h1⟩, ⟨r2, h2⟩⟩

/-- The data the figure shows. -/
theorem plotInput_ok {lib : Libs K C} {c : MethodClass} {domain : Domain} {ref : Val K} {a : Call K C} {nd : DataV K C}
    {an : Analysis K} {w : Wave K} {filtered : Bool} {extra : Option (Extra K)} {b : Built K C}
    (f : Finished lib c domain ref a nd an w filtered extra b) (hw : SampledWave b.wave) :
    ∃ data res, plotInput lib c b = .ok ⟨c, data, res, nd.has "hlm_zeroecc"⟩ ∧ data.length = b.wave.t.length ∧
      dataForExtrema c (seriesOf nd an b.wave res) = .ok data ∧
      residualStage lib b.obj.generalKw a.precessing.truth nd an.tMerger b.wave = .ok (res, b.obj.zeroecc) := by
  have hb := f.eq
  have h1 : b.wave = f.wave := congrArg Built.wave hb
  have h2 : b.obj.generalKw = f.general := congrArg (fun b => b.obj.generalKw) hb
  have h3 : b.obj.precessing = a.precessing.truth := congrArg (fun b => b.obj.precessing) hb
  have h4 : b.data = nd := congrArg Built.data hb
  have h5 : b.analysis = an := congrArg Built.analysis hb
  have h6 : b.obj.zeroecc = f.zeroecc := congrArg (fun b => b.obj.zeroecc) hb
  have hf := f.h_find
  unfold finder at hf
  obtain ⟨data, hdata, -⟩ := bind_ok hf
  have hres := f.h_res
  have hlen := residual_lengths hres
  refine ⟨data, f.res, ?_, ?_, by rw [h1]; exact hdata, by rw [h1, h2, h6]; exact hres⟩
  · unfold plotInput
    rw [h1, h2, h3, h4, h5, hres]
    simp only [ok_bind]
    have hdata' := hdata
    unfold seriesOf at hdata'
    rw [hdata']
    rfl
  · rw [h1] at hw ⊢
    unfold seriesOf dataForExtrema at hdata
    cases c with
    | amplitude => cases hdata; exact hw.amp
    | frequency => cases hdata; exact hw.omega
    | residualAmplitude =>
      obtain ⟨_, -, hdata⟩ := bind_ok hdata
      dsimp only at hdata
      cases hr : f.res with
      | none => rw [hr] at hdata; cases hdata
      | some r => rw [hr] at hdata; cases hdata; rw [(hlen r hr).1, hw.amp]
    | residualFrequency =>
      obtain ⟨_, -, hdata⟩ := bind_ok hdata
      dsimp only at hdata
      cases hr : f.res with
      | none => rw [hr] at hdata; cases hdata
      | some r => rw [hr] at hdata; cases hdata; rw [(hlen r hr).2, hw.omega]
    | amplitudeFits => cases hdata; rw [List.length_map]; exact hw.amp
    | frequencyFits => cases hdata; exact hw.omega

/-- `runPlots` once the object is built. -/
theorem runPlots_built {fuel : ℕ} {lib : Libs K C} {a : Call K C} {ans : Answer K C} (R : Ran fuel lib a ans) :
    runPlots fuel lib a = some (do
      let plots ← (if plotsOn a then do
          let d ← plotInput lib R.c ans.built
          pure (some d)
        else pure none)
      let (ret, m, cache, fig) ← measureEccPlots false plots ans.built.ext ans.built.obj none
      pure ⟨⟨ret, ans.built, m⟩, cache, fig⟩) := by
  obtain ⟨f⟩ := finish_ok R.h_finish
  have hd : ans.built.data = R.nd := congrArg Built.data f.eq
  have hno : ans.built.data.has "hlm_zeroecc" = false := by rw [hd]; exact loadWave_no_hlm R.h_load
  unfold runPlots
  rw [R.h_dispatch]
  dsimp only
  unfold construct
  rw [R.h_load]
  dsimp only
  rw [R.h_filter]
  simp only [Option.map_some, ok_bind]
  rw [R.h_finish]
  simp only [ok_bind]
  rw [hno]

theorem construct_no_hlm {fuel : ℕ} {lib : Libs K C} {c : MethodClass} {domain : Domain} {ref : Val K} {a : Call K C} {b : Built K C}
    (hc : construct fuel lib c domain ref a = some (.ok b)) : b.data.has "hlm_zeroecc" = false := by
  unfold construct at hc
  cases hl : loadWave lib a with
  | error er => rw [hl] at hc; cases hc
  | ok l =>
    obtain ⟨nd, an, w⟩ := l
    rw [hl] at hc
    dsimp only at hc
    cases hfi : filterStage fuel lib a nd an w with
    | none => rw [hfi] at hc; cases hc
    | some q =>
      rw [hfi] at hc
      simp only [Option.map_some, Option.some.injEq] at hc
      obtain ⟨q', -, hc⟩ := bind_ok hc
      obtain ⟨f⟩ := finish_ok hc
      have : b.data = nd := congrArg Built.data f.eq
      rw [this]
      exact loadWave_no_hlm hl

/-- A call with `debug_plots` that draws succeeds only if the call without does. -/
theorem run_of_runPlots {fuel : ℕ} {lib : Libs K C} {a : Call K C} {s : Shown K C} (h : runPlots fuel lib a = some (.ok s)) :
    run fuel lib a = some (.ok s.answer) := by
  unfold runPlots at h
  unfold run
  cases hd : dispatch a with
  | error er => rw [hd] at h; cases h
  | ok r =>
    obtain ⟨c, domain, ref⟩ := r
    rw [hd] at h
    dsimp only at h ⊢
    cases hc : construct fuel lib c domain ref a with
    | none => rw [hc] at h; cases h
    | some r =>
      rw [hc] at h
      simp only [Option.map_some, Option.some.injEq] at h ⊢
      obtain ⟨b, hb, h2⟩ := bind_ok h
      subst hb
      clear h
      rename' h2 => h
      have h' : ∃ pl ret m cache fig, measureEccPlots (b.data.has "hlm_zeroecc") pl b.ext b.obj none = .ok (ret, m, cache, fig) ∧
          s = ⟨⟨ret, b, m⟩, cache, fig⟩ := by
        obtain ⟨pl, hpl, h⟩ := bind_ok h
        obtain ⟨⟨ret, m, cache, fig⟩, hm, h⟩ := bind_ok h
        exact ⟨pl, ret, m, cache, fig, hm, (Except.ok.inj h).symm⟩
      obtain ⟨pl, ret, m, cache, fig, hm, rfl⟩ := h'
      have hno := construct_no_hlm hc
      rw [hno] at hm
      simp only [ok_bind]
      have : ∃ c0, measureEcc b.ext b.obj none = .ok (ret, m, c0) := by
        cases pl with
        | some d => exact measureEccPlots_on_ok hm
        | none =>
          rw [measureEccPlots_off] at hm
          cases hq : measureEcc b.ext b.obj none with
          | error er => rw [hq] at hm; cases hm
          | ok q =>
            obtain ⟨r1, r2, r3⟩ := q
            rw [hq] at hm
            cases hm
            exact ⟨_, rfl⟩
      obtain ⟨c0, h0⟩ := this
      rw [h0]
      rfl

/-- What a call that returns does when it has to draw. -/
theorem runPlots_on {fuel : ℕ} {lib : Libs K C} {a : Call K C} {ans : Answer K C} (hon : plotsOn a = true)
    (h : run fuel lib a = some (.ok ans)) (hw : SampledWave ans.built.wave) (hl : -1 ≤ a.level) :
    (ans.meas = none ∧ runPlots fuel lib a = some (.ok ⟨ans, none, none⟩)) ∨
    ∃ m c0 trefOut fOut ecc ano ev av wp wa dv data res,
      ans.meas = some m ∧ m.o = ans.built.obj ∧ (a.frefIn = none → c0 = none) ∧
      (a.trefIn = none → ∃ c, c0 = some c ∧ omegaAverage ans.built.ext m none = .ok c) ∧
      computeEccentricity ans.built.ext m trefOut = .ok ecc ∧ computeMeanAnomaly ans.built.ext m trefOut = .ok ano ∧
      makeReturn m.o.domain m.o.refIn.isScalar ecc ano (m.o.domain.pick trefOut fOut) = .ok ans.ret ∧
      (∀ x ∈ trefOut, m.tmin ≤ x ∧ x ≤ m.tmax) ∧
      dataForExtrema ((availableMethods.get? a.method).getD .amplitude) (seriesOf ans.built.data ans.built.analysis ans.built.wave res)
        = .ok data ∧
      residualStage lib ans.built.obj.generalKw a.precessing.truth ans.built.data ans.built.analysis.tMerger ans.built.wave
        = .ok (res, ans.built.obj.zeroecc) ∧
      computeEccentricity ans.built.ext m m.tChecks = .ok ev ∧ computeMeanAnomaly ans.built.ext m m.tChecks = .ok av ∧
      m.tChecks.mapM m.interpP = .ok wp ∧ m.tChecks.mapM m.interpA = .ok wa ∧
      derivativeOfEccentricity ans.built.ext m m.tChecks = .ok dv ∧
      runPlots fuel lib a = some ((drawnAverage ans.built.ext m c0).map fun avg =>
        ⟨ans, some avg, some [⟨.eccentricity, ⟨m.tChecks, ev⟩ :: oneDot trefOut ecc⟩,
          ⟨.meanAnomaly, ⟨m.tChecks, av⟩ :: oneDot trefOut ano⟩,
          ⟨.omega, ⟨m.tChecks, wp⟩ :: ⟨m.tChecks, wa⟩ :: withDots m m.o.omega⟩, ⟨.dataUsed, withDots m data⟩,
          ⟨.deccDt, [⟨m.tChecks, dv⟩]⟩,
          ⟨.phaseRatio, [⟨(takeAt m.o.t (m.pericenters.drop 1)).drop 1, (ratioOf ans.built.ext m m.pericenters).drop 1⟩,
            ⟨(takeAt m.o.t (m.apocenters.drop 1)).drop 1, (ratioOf ans.built.ext m m.apocenters).drop 1⟩]⟩,
          ⟨.average, [⟨avg.1, avg.2⟩, ⟨m.o.t, m.o.omega⟩]⟩]⟩) := by
  obtain ⟨R⟩ := run_ok h
  obtain ⟨f⟩ := finish_ok R.h_finish
  obtain ⟨data, res, hin, hdl, hde, hre⟩ := plotInput_ok f hw
  rw [loadWave_no_hlm R.h_load] at hin
  have hbd : ans.built.data = R.nd := congrArg Built.data f.eq
  have hba : ans.built.analysis = R.an := congrArg Built.analysis f.eq
  have hobj : ans.built.obj.t = ans.built.wave.t ∧ ans.built.obj.omega = ans.built.wave.omega ∧ ans.built.obj.level = a.level ∧
      ans.built.obj.domain = R.domain := by
    rw [f.eq]; exact ⟨rfl, rfl, rfl, rfl⟩
  obtain ⟨o1, o2, o3, o4⟩ := hobj
  rw [runPlots_built R, hon, if_pos rfl, hin]
  simp only [ok_bind, pure_eq_ok]
  obtain ⟨p, q, lack, hfb, hcase⟩ := measureEcc_ok R.h_measure
  rcases hcase with ⟨hm, hc, hlk, hz⟩ | ⟨m, p', q', hm, hlk, hset, hprep, hev⟩
  · refine Or.inl ⟨hm, ?_⟩
    unfold measureEccPlots
    rw [hfb]
    simp only [ok_bind]
    rw [if_pos hlk, hz]
    simp only [ok_bind, pure_eq_ok]
    rw [← hm]
  · obtain ⟨E⟩ := evaluate_steps hev
    obtain ⟨mo, mp, ma, mtp, -, -, -, ⟨p0, p1, a0, a1, hp0, -⟩, -⟩ := prepare_ok hprep
    obtain ⟨hsP, hsA⟩ := settle_separation hset
    have hpe : m.tPeri ≠ [] := by intro hc; rw [hc] at hp0; cases hp0
    have hc0 : (a.frefIn = none → R.cache = none) ∧ (a.trefIn = none → ∃ c, R.cache = some c ∧ omegaAverage ans.built.ext m none = .ok c) := by
      have hr := E.h_ref
      obtain ⟨-, hcs⟩ := dispatch_cases R.h_dispatch
      rcases hcs with ⟨t1, t2, t3⟩ | ⟨t1, t2, t3⟩
      · refine ⟨fun _ => ?_, fun hn => ?_⟩
        · unfold referenceTimes at hr
          rw [mo, o4, t3] at hr
          exact (congrArg (fun r => r.2.2) (Except.ok.inj hr)).symm
        · rw [hn] at t1; cases t1
      · refine ⟨fun hn => ?_, fun _ => ?_⟩
        · rw [hn] at t2; cases t2
        · have := referenceTimes_frequency (by rw [mo, o4, t3]) hr
          obtain ⟨-, c, ts, w, -, hav, hca, -⟩ := trefFromFref_ok this
          exact ⟨(ts, w), hca, hav⟩
    obtain ⟨ev, av, wp, wa, dv, g1, g2, g3, g4, g5, g6⟩ := diagnosticPlots_eq
      (d := ⟨R.c, data, res, false⟩) (e := ans.built.ext) (m := m) (c0 := R.cache) (trefOut := E.trefOut) (ecc := E.ecc) (ano := E.ano) rfl
      (by rw [mo, o1]; exact hdl) (by rw [mo, o1, o2]; exact hw.omega) (by rw [mo, o1]; exact hw.some) (by rw [mo, o3]; exact hl)
      (by rw [mo, mp]; exact hsP) (by rw [mo, ma]; exact hsA) hpe E.h_ecc E.h_ano E.h_mono (by
        intro c hc
        obtain ⟨-, hcs⟩ := dispatch_cases R.h_dispatch
        rcases hcs with ⟨t1, t2, t3⟩ | ⟨t1, t2, t3⟩
        · rw [hc0.1 t2] at hc; cases hc
        · obtain ⟨c', e1, e2⟩ := hc0.2 t1
          rw [e1] at hc; cases hc
          exact omegaAverage_len e2)
    have hmc : (availableMethods.get? a.method).getD .amplitude = R.c := by rw [(dispatch_cases R.h_dispatch).1]; rfl
    refine Or.inr ⟨m, R.cache, E.trefOut, E.fOut, E.ecc, E.ano, ev, av, wp, wa, dv, data, res, hm, mo, hc0.1, hc0.2, E.h_ecc, E.h_ano,
      E.h_ret, ?_, by rw [hmc, hbd, hba]; exact hde, by rw [hbd, hba]; exact hre, g1, g2, g3, g4, g5, ?_⟩
    · intro x hx
      rw [E.h_out] at hx
      have := (List.mem_filter.mp hx).2
      rw [decide_eq_true_eq] at this
      exact ⟨this.2, this.1⟩
    · unfold measureEccPlots
      rw [hfb]
      simp only [ok_bind]
      rw [if_neg (by rw [hlk]; decide), hset]
      simp only [ok_bind]
      rw [hprep]
      simp only [ok_bind]
      rw [E.h_plots, g6]
      cases drawnAverage ans.built.ext m R.cache with
      | error er => rfl
      | ok avg =>
        simp only [Except.map, ok_bind, pure_eq_ok]
        rw [← hm]

end

end GwEcc
