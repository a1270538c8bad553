import Verif.Lemmas.ExtremaFit
import Verif.Lemmas.UnitsFilter
import Verif.Lemmas.UnitsMeasure
import Verif.Lemmas.SampleCount
import Verif.Lemmas.UnitsFits
import Verif.Props.Fits

/-! A whole call under a change of units. -/

set_option linter.unusedSectionVars false

namespace GwEcc

open Spec

section
variable {K C : Type} [Field K] [LinearOrder K] [IsStrictOrderedRing K] [FloorRing K]

/-! ### Steps -/

theorem evenSteps_take {t : List K} (h : EvenSteps t) (n : ℕ) : EvenSteps (t.take n) := by
  intro x0 x1 h0 h1 i x y hx hy
  rw [List.getElem?_take] at h0 h1 hx hy
  split at h0 <;> split at h1 <;> split at hx <;> split at hy <;> try contradiction
  exact h x0 x1 h0 h1 i x y hx hy

theorem checkSteps_even {t : List K} (h : EvenSteps t) {k : K} (hk : 0 < k) (c : K) :
    checkSteps (t.map (newTime k c)) = checkSteps t := by
  unfold checkSteps
  rw [diff_newTime hk]
  cases hd : pyGet (diff t) 0 with
  | error e =>
    have : pyGet ((diff t).map (k * ·)) 0 = .error e := by
      have := PyRel.pyGet (s := (k * ·)) (diff t) 0
      rw [hd] at this
      revert this
      generalize pyGet ((diff t).map (k * ·)) 0 = z
      intro h
      cases h
      rfl
    rw [this]
    rfl
  | ok d0 =>
    have : pyGet ((diff t).map (k * ·)) 0 = .ok (k * d0) := by
      have := PyRel.pyGet (s := (k * ·)) (diff t) 0
      rw [hd] at this
      revert this
      generalize pyGet ((diff t).map (k * ·)) 0 = z
      intro h
      cases h with
      | ok h => rw [h]
    rw [this]
    simp only [ok_bind]
    have h0 : (diff t)[0]? = some d0 := by
      unfold pyGet at hd
      cases hx : (diff t)[0]? with
      | none => rw [hx] at hd; cases hd
      | some y => rw [hx] at hd; cases hd; rfl
    have hclose : ∀ a ∈ diff t, |a - d0| ≤ 1 / 10 ^ 5 * |d0| := by
      intro a ha
      obtain ⟨i, hi, rfl⟩ := List.getElem_of_mem ha
      have hl := length_diff t
      have hi' : i + 1 < t.length := by omega
      obtain ⟨hp, hp'⟩ := List.getElem?_eq_some_iff.mp h0
      have e1 := getElem_diff t i hi hi'
      have e0 := getElem_diff t 0 hp (by omega)
      have := h t[0] t[1] (List.getElem?_eq_getElem _) (List.getElem?_eq_getElem _) i t[i] t[i + 1]
        (List.getElem?_eq_getElem _) (List.getElem?_eq_getElem _)
      rw [e1, ← hp', e0]
      exact this
    have hp8 : (0 : K) ≤ 1 / 10 ^ 8 := by positivity
    have a1 : allClose (diff t) d0 = true := by
      unfold allClose
      rw [List.all_eq_true]
      intro a ha
      rw [decide_eq_true_eq]
      linarith [hclose a ha]
    have a2 : allClose ((diff t).map (k * ·)) (k * d0) = true := by
      unfold allClose
      rw [List.all_eq_true]
      intro a ha
      obtain ⟨b, hb, rfl⟩ := List.mem_map.mp ha
      rw [decide_eq_true_eq, ← mul_sub, abs_mul, abs_mul, abs_of_pos hk]
      have := mul_le_mul_of_nonneg_left (hclose b hb) hk.le
      linarith
    rw [a1, a2]

/-! ### Waveform -/

/-- The waveform in the new units. -/
def newWave (u : Units K C) (w : Wave K) : Wave K :=
  ⟨w.t.map (newTime u.k u.c), w.amp.map (u.s * ·), w.phase, w.omega.map (newFreq u.k)⟩

theorem PyRel.bind_of {α β γ δ : Type} {R : α → β → Prop} {S : γ → δ → Prop} {x : Py α} {y : Py β} {f : α → Py γ}
    {g : β → Py δ} (h : PyRel R x y) (hf : ∀ a b, x = .ok a → y = .ok b → R a b → PyRel S (f a) (g b)) :
    PyRel S (x >>= f) (y >>= g) := by
  cases h with
  | ok h => exact hf _ _ rfl rfl h
  | error e => exact .error e

theorem PyRel.same {α : Type} (x : Py α) : PyRel Eq x x := PyRel.refl (fun _ => rfl) x

theorem loadWave_new {lib : Libs K C} {u : Units K C} (hk : 0 < u.k) (hs : 0 < u.s) (hl : LibUnitFree lib u) {a : Call K C}
    (ha : UnitFreeCall lib a) :
    PyRel (fun r r' => r' = (newDict u r.1, newAnalysis u r.2.1, newWave u r.2.2)) (loadWave lib a)
      (loadWave lib (newCall u a)) := by
  unfold loadWave
  have hm : frameMessage (newCall u a).level (newCall u a).precessing (newCall u a).frame (newCall u a).dataDict =
      frameMessage a.level a.precessing a.frame a.dataDict :=
    frameMessage_congr _ _ _ (congrArg checkShape (funext fun k => newDict_has u a.dataDict k))
  rw [hm]
  refine PyRel.bind (PyRel.same _) fun _ _ _ => ?_
  refine PyRel.bind_of (processData_new hk hs hl.wave a.precessing a.frame a.dataDict a.numOrbits) fun q q' hd _ hq => ?_
  obtain ⟨nd, an⟩ := q
  subst hq
  obtain ⟨t0, idx, ht, htn, _, _⟩ := processData_short ⟨ha.samples.rotate, ha.samples.polar⟩ ha.samples hd
  dsimp only
  refine PyRel.bind_of (getArr_new u nd "t" _ (entry_t u (Or.inl rfl))) fun t t' hg _ htt => ?_
  subst htt
  have e := getArr_ok hg
  rw [htn] at e
  cases e
  have hst := evenSteps_take (ha.steps "t" (by simp) t0 (array_of ht)) idx
  have e2 : checkSteps ((t0.take idx).map (timeOf u "")) = checkSteps (t0.take idx) := checkSteps_even hst hk u.c
  rw [e2]
  refine PyRel.bind (PyRel.same _) fun _ _ _ => ?_
  refine PyRel.bind (gwQuantities_new u a.precessing.truth nd (Or.inl rfl)) fun q q' hq => ?_
  subst hq
  exact .ok rfl

/-! ### The filter -/

theorem modeOf_new (u : Units K C) (nd : DataV K C) {key : String} {f : K → K} (h : newEntry u key = onReal f) (m : LM) :
    PyRel (fun l l' => l' = l.map f) (modeOf nd key m) (modeOf (newDict u nd) key m) := by
  unfold modeOf
  refine PyRel.bind (getR_new u nd key f h) fun d d' hd => ?_
  subst hd
  exact item_new f d m

theorem coprModes_new (u : Units K C) (nd : DataV K C) (t : List K) :
    PyRel (fun m m' => m' = Filter.newCopr u m) (coprModes nd t) (coprModes (newDict u nd) (t.map (newTime u.k u.c))) := by
  have h0 : ("" : String) = "" ∨ ("" : String) = "_zeroecc" := Or.inl rfl
  have ha : newEntry u "amplm" = onReal (u.s * ·) := entry_amp u h0
  have hw : newEntry u "omegalm" = onReal (newFreq u.k) := entry_omega u h0
  have hp : newEntry u "phaselm" = onReal id := entry_phase u h0
  unfold coprModes
  refine PyRel.bind (modeOf_new u nd ha _) fun x1 y1 h1 => ?_
  refine PyRel.bind (modeOf_new u nd ha _) fun x2 y2 h2 => ?_
  refine PyRel.bind (modeOf_new u nd hw _) fun x3 y3 h3 => ?_
  refine PyRel.bind (modeOf_new u nd hw _) fun x4 y4 h4 => ?_
  refine PyRel.bind (modeOf_new u nd hp _) fun x5 y5 h5 => ?_
  refine PyRel.bind (modeOf_new u nd hp _) fun x6 y6 h6 => ?_
  rw [List.map_id] at h5 h6
  subst h1 h2 h3 h4 h5 h6
  exact .ok rfl

theorem filterStage_new (fuel : ℕ) {lib : Libs K C} {u : Units K C} (hk : 0 < u.k) (hs : 0 < u.s) (hl : LibUnitFree lib u)
    (a : Call K C) (nd : DataV K C) (an : Analysis K) (w : Wave K) :
    FuelRel (fun r r' => r' = (newWave u r.1, r.2.1, r.2.2)) (filterStage fuel lib a nd an w)
      (filterStage fuel lib (newCall u a) (newDict u nd) (newAnalysis u an) (newWave u w)) := by
  unfold filterStage
  show FuelRel _ _ (if a.precessing.truth then _ else _)
  by_cases hp : a.precessing.truth = true
  · rw [if_pos hp, if_pos hp]
    have hi : PyRel (fun q q' => q' = (q.1, q.2.1, Filter.newCopr u q.2.2)) (filterInput a nd w)
        (filterInput (newCall u a) (newDict u nd) (newWave u w)) := by
      unfold filterInput
      refine PyRel.bind (PyRel.same _) fun kw kw' hkw => ?_
      subst hkw
      refine PyRel.bind (PyRel.same _) fun cfg cfg' hcfg => ?_
      subst hcfg
      refine PyRel.bind (coprModes_new u nd w.t) fun m m' hm => ?_
      subst hm
      exact .ok rfl
    revert hi
    generalize filterInput a nd w = x
    generalize filterInput (newCall u a) (newDict u nd) (newWave u w) = y
    intro hi
    cases hi with
    | error e => exact .some (.error e)
    | ok hi =>
      subst hi
      dsimp only
      refine (Filter.checkAndFilter_new fuel hk hs hl.filter _ an.tMerger _).map fun r r' hr => ?_
      refine PyRel.bind hr fun f f' hf => ?_
      subst hf
      refine .ok ?_
      simp only [Filter.mapBest, Option.isSome_map]
      rfl
  · rw [if_neg hp, if_neg hp]
    exact .some (.ok rfl)

/-! ### The segment -/

theorem slice_new (u : Units K C) (w : Wave K) (a : ℕ) (b : ℤ) : (newWave u w).slice a b = newWave u (w.slice a b) := by
  unfold Wave.slice newWave
  simp only [Filter.pySlice_map]

theorem phaseNear_new {u : Units K C} (hk : 0 < u.k) (w : Wave K) (x : K) :
    phaseNear (newWave u w) (newTime u.k u.c x) = phaseNear w x := by
  unfold phaseNear newWave
  dsimp only
  rw [nearest_new hk]

theorem selectWave_new {u : Units K C} (hk : 0 < u.k) (pi : K) (fit : List K → List K → Py (List K)) (orbits : Option K)
    (domain : Domain) (refs refs' : List K) (w : Wave K)
    (h : (domain = .time ∧ refs' = refs.map (newTime u.k u.c)) ∨ orbits = none) :
    PyRel (fun w w' => w' = newWave u w) (selectWave pi fit orbits domain refs w)
      (selectWave pi fit orbits domain refs' (newWave u w)) := by
  rcases h with ⟨rfl, rfl⟩ | rfl
  · unfold selectWave
    cases orbits with
    | none => exact .ok rfl
    | some n =>
      dsimp only
      refine PyRel.ite Iff.rfl (fun _ _ => .ok rfl) fun _ _ => ?_
      refine PyRel.bind (PyRel.same _) fun pN _ hN => ?_
      refine PyRel.bind (PyRel.same _) fun p0 _ h0 => ?_
      subst hN h0
      refine PyRel.ite Iff.rfl (fun _ _ => ?_) fun _ _ => .ok rfl
      unfold useSegment referenceBounds
      dsimp only
      refine PyRel.bind (R := fun q q' => q' = (newTime u.k u.c q.1, newTime u.k u.c q.2)) ?_ fun q q' hq => ?_
      · refine PyRel.bind (PyRel.pyGet (s := newTime u.k u.c) refs 0) fun x x' hx => ?_
        refine PyRel.bind (PyRel.pyLast (s := newTime u.k u.c) refs) fun y y' hy => ?_
        subst hx hy
        exact .ok rfl
      subst hq
      dsimp only
      rw [phaseNear_new hk, phaseNear_new hk]
      refine PyRel.bind (PyRel.same _) fun pl _ hpl => ?_
      refine PyRel.bind (PyRel.same _) fun pr _ hpr => ?_
      subst hpl hpr
      refine PyRel.bind (PyRel.same _) fun q _ hq => ?_
      subst hq
      exact .ok (slice_new u w _ _)
  · exact .ok rfl

/-! ### Residual data -/

theorem interpolate_extra_rel {s g : K → K} (hs : ∀ x y, s x < s y ↔ x < y) (tol : K)
    (eval : InterpCall → List K → List K → K → Py K)
    (he : ∀ call x y p, eval call (x.map s) (y.map g) (s p) = (eval call x y p).map g) (newX oldX oldY : List K)
    (ip : Interpolator) (kw : SplineKwargs) (given : Bool) :
    PyRel (fun r r' => r' = r.map g) (interpolate tol eval newX oldX oldY true ip kw given)
      (interpolate tol eval (newX.map s) (oldX.map s) (oldY.map g) true ip kw given) := by
  unfold interpolate
  refine PyRel.ite (by simp) (fun _ _ => .error _) fun _ _ => ?_
  simp only [if_true]
  rw [getInterpolant_map hs]
  refine PyRel.bind (PyRel.same _) fun r r' hr => ?_
  subst hr
  exact PyRel.mapM newX fun x _ => PyRel.of_map (he _ _ _ _)

/-- The residual data in the new units. -/
def newResidual (u : Units K C) (r : Residual K) : Residual K :=
  ⟨newTime u.k u.c0 r.tMergerZ, r.resAmp.map (u.s * ·), r.resOmega.map (newFreq u.k)⟩

theorem shift_new (u : Units K C) (tm tM : K) (l : List K) :
    (l.map (newTime u.k u.c0)).map (fun x => x - newTime u.k u.c0 tm + newTime u.k u.c tM)
      = (l.map fun x => x - tm + tM).map (newTime u.k u.c) := by
  rw [List.map_map, List.map_map]
  apply List.map_congr_left
  intro x _
  simp only [Function.comp, newTime]
  ring

theorem residualCore_new {lib : Libs K C} {u : Units K C} (hk : 0 < u.k) (hs : 0 < u.s) (hl : LibUnitFree lib u)
    (kw : SplineKwargs) (tM : K) (w : Wave K) (tZ aZ oZ totZ : List K) :
    PyRel (fun r r' => r' = newResidual u r) (residualCore lib.tol lib.eval kw tM w tZ aZ oZ totZ)
      (residualCore lib.tol lib.eval kw (newTime u.k u.c tM) (newWave u w) (tZ.map (newTime u.k u.c0)) (aZ.map (u.s * ·))
        (oZ.map (newFreq u.k)) (totZ.map (u.s * ·))) := by
  unfold residualCore
  refine PyRel.bind (peakTime_new hk hs u.c0 tZ totZ) fun q q' hq => ?_
  obtain ⟨tm, x⟩ := q
  obtain ⟨tm', x'⟩ := q'
  dsimp only at hq ⊢
  subst hq
  rw [shift_new]
  refine PyRel.bind (PyRel.pyGet (s := newTime u.k u.c) _ 0) fun s0 s0' h0 => ?_
  refine PyRel.bind (PyRel.pyGet (s := newTime u.k u.c) w.t 0) fun t0 t0' h1 => ?_
  subst h0 h1
  refine PyRel.ite (newTime_lt hk u.c).symm (fun _ _ => .error _) fun _ _ => ?_
  refine PyRel.bind (PyRel.pyLast (s := newTime u.k u.c) _) fun sN sN' hN => ?_
  subst hN
  refine PyRel.ite (newTime_lt hk u.c).symm (fun _ _ => .error _) fun _ _ => ?_
  refine PyRel.bind (interpolate_extra_rel (fun x y => newTime_lt hk u.c) lib.tol lib.eval hl.evalAmp w.t _ aZ .spline kw true)
    fun a a' ha => ?_
  subst ha
  refine PyRel.bind (npZip_new _ _ (u.s * ·) (fun x y => by ring) w.amp a) fun ra ra' hra => ?_
  subst hra
  refine PyRel.bind (interpolate_extra_rel (fun x y => newTime_lt hk u.c) lib.tol lib.eval hl.evalFreq w.t _ oZ .spline kw true)
    fun o o' ho => ?_
  subst ho
  refine PyRel.bind (npZip_new _ _ (newFreq u.k) (fun x y => by unfold newFreq; ring) w.omega o) fun ro ro' hro => ?_
  subst hro
  exact .ok rfl

theorem residualData_new {lib : Libs K C} {u : Units K C} (hk : 0 < u.k) (hs : 0 < u.s) (hl : LibUnitFree lib u)
    (kw : SplineKwargs) (pr : Bool) (nd : DataV K C) (tM : K) (w : Wave K)
    (hst : ∀ l, nd.get? "t_zeroecc" = some (.arr l) → EvenSteps l) :
    PyRel (fun r r' => r' = r.map (newResidual u)) (residualData lib.wave lib.tol lib.eval kw pr nd tM w)
      (residualData lib.wave lib.tol lib.eval kw pr (newDict u nd) (newTime u.k u.c tM) (newWave u w)) := by
  have h0 : ("_zeroecc" : String) = "" ∨ ("_zeroecc" : String) = "_zeroecc" := Or.inr rfl
  unfold residualData
  rw [newDict_has, newDict_has]
  refine PyRel.ite Iff.rfl (fun _ _ => ?_) fun _ _ => .ok rfl
  refine PyRel.bind_of (getArr_new u nd "t_zeroecc" (newTime u.k u.c0) (entry_t u h0)) fun t t' hg _ htt => ?_
  subst htt
  rw [checkSteps_even (hst t (getArr_ok hg)) hk]
  refine PyRel.bind (PyRel.same _) fun _ _ _ => ?_
  refine PyRel.bind (gwQuantities_new u pr nd h0) fun q q' hq => ?_
  subst hq
  dsimp only
  refine PyRel.bind (getR_new u nd "amplm_zeroecc" _ (entry_amp u h0)) fun a a' ha => ?_
  subst ha
  have hta : PyRel (fun r r' => r' = r.map (u.s * ·)) (lib.wave.totalAmp (a.map Prod.snd))
      (lib.wave.totalAmp ((mapModes (u.s * ·) a).map Prod.snd)) := by
    apply PyRel.of_map
    rw [← hl.wave.total]
    congr 1
    simp [mapModes, Dict.mapE]
  refine PyRel.bind hta fun total total' ht => ?_
  subst ht
  refine PyRel.bind (residualCore_new hk hs hl kw tM w t _ _ total) fun r r' hr => ?_
  subst hr
  exact .ok rfl

theorem residualStage_new {lib : Libs K C} {u : Units K C} (hk : 0 < u.k) (hs : 0 < u.s) (hl : LibUnitFree lib u)
    (kw : SplineKwargs) (pr : Bool) (nd : DataV K C) (tM : K) (w : Wave K)
    (hst : ∀ l, nd.get? "t_zeroecc" = some (.arr l) → EvenSteps l) :
    PyRel (fun r r' => r' = (r.1.map (newResidual u), r.2.map fun z => (z.1.map (newTime u.k u.c), z.2.map (newFreq u.k))))
      (residualStage lib kw pr nd tM w) (residualStage lib kw pr (newDict u nd) (newTime u.k u.c tM) (newWave u w)) := by
  have h0 : ("_zeroecc" : String) = "" ∨ ("_zeroecc" : String) = "_zeroecc" := Or.inr rfl
  unfold residualStage
  refine PyRel.bind (residualData_new hk hs hl kw pr nd tM w hst) fun r r' hr => ?_
  subst hr
  cases r with
  | none => exact .ok rfl
  | some r =>
    dsimp only [Option.map_some]
    refine PyRel.bind (getArr_new u nd "t_zeroecc" (newTime u.k u.c0) (entry_t u h0)) fun t t' ht => ?_
    subst ht
    refine PyRel.bind (gwQuantities_new u pr nd h0) fun q q' hq => ?_
    subst hq
    refine .ok ?_
    dsimp only [newResidual]
    rw [shift_new]
    rfl

/-! ### Extrema -/

theorem noHeights {extra : Option (Extra K)} {ex : Extra K} {width : ℤ} {kw : Kwargs K}
    (hx : checkKwargs extra extraDefaults = .ok ex)
    (hk : subKwargs ex "extrema_finding_kwargs" (peaksDefaults width) = .ok kw)
    (h : ∀ d, (extra.getD []).get? "extrema_finding_kwargs" = some (.dict d) →
      ∀ key ∈ ["height", "threshold", "prominence"], d.get? key = none ∨ d.get? key = some .none) :
    NoHeights kw.get? := by
  intro key hkey
  unfold subKwargs at hk
  obtain ⟨v, hv, hk⟩ := bind_ok hk
  obtain ⟨o, ho, hk⟩ := bind_ok hk
  have hv := getItem_ok hv
  rw [(checkKwargs_known hx).2] at hv
  rw [(checkKwargs_known hk).2]
  have hdef : (peaksDefaults width : Kwargs K).get? key = some .none := by
    simp only [List.mem_cons, List.not_mem_nil, or_false] at hkey
    rcases hkey with rfl | rfl | rfl <;> rfl
  rw [inForce_eq, hdef]
  have hgiven : ((o.getD []).get? key : Option (Leaf K)) = none ∨ (o.getD []).get? key = some .none := by
    cases v with
    | leaf l =>
      cases l <;> simp only [Opt.kwargs] at ho <;> cases ho
      exact .inl rfl
    | dict d =>
      cases ho
      show d.get? key = none ∨ d.get? key = some .none
      unfold inForce at hv
      cases hg : (extra.getD []).get? "extrema_finding_kwargs" with
      | none =>
        rw [hg] at hv
        have : (some (Opt.dict d) : Option (Opt K)) = some (.dict []) := hv.symm
        cases this
        exact .inl rfl
      | some y =>
        rw [hg] at hv
        cases hv
        exact h d hg key hkey
  rcases hgiven with h | h <;> rw [h] <;> rfl

theorem finder_new {lib : Libs K C} {u : Units K C} (hk : 0 < u.k) (hs : 0 < u.s) (hl : LibUnitFree lib u) {c : MethodClass}
    (hc : c ≠ .frequencyFits) (ex : Extra K)
    (hrf : c = .amplitudeFits → ∀ x, ex.get? "refine_extrema" = some x → x.truth = false) {kw : Kwargs K} (hkw : NoHeights kw.get?) (nd : DataV K C) (an : Analysis K)
    (w : Wave K) (res : Option (Residual K)) (hw : w.amp.length ≤ w.t.length ∧ w.omega.length ≤ w.t.length)
    (hr : ∀ r, res = some r → r.resAmp.length = w.amp.length ∧ r.resOmega.length = w.omega.length) :
    PyRel (fun f f' => f' = f ∧ ∀ ty l, f ty = .ok l → l.Pairwise (· < ·) ∧ ∀ i ∈ l, i < w.t.length)
      (finder lib c ex kw an.tMerger (seriesOf nd an w res) w)
      (finder lib c ex kw (newAnalysis u an).tMerger
        (seriesOf (newDict u nd) (newAnalysis u an) (newWave u w) (res.map (newResidual u))) (newWave u w)) := by
  unfold finder
  have hd : PyRel (fun d d' => ∃ r : K, 0 < r ∧ d' = d.map (r * ·)) (dataForExtrema c (seriesOf nd an w res))
      (dataForExtrema c (seriesOf (newDict u nd) (newAnalysis u an) (newWave u w) (res.map (newResidual u)))) := by
    have hz : checkZeroecc (seriesOf (newDict u nd) (newAnalysis u an) (newWave u w) (res.map (newResidual u)))
        = checkZeroecc (seriesOf nd an w res) := by
      unfold checkZeroecc seriesOf
      simp only [newDict_has]
    have hf : newFreq u.k = (u.k⁻¹ * ·) := Filter.newFreq_factor u
    unfold dataForExtrema
    cases c with
    | amplitude => exact .ok ⟨u.s, hs, rfl⟩
    | frequency => exact .ok ⟨u.k⁻¹, inv_pos.mpr hk, by rw [← hf]; rfl⟩
    | residualAmplitude =>
      dsimp only
      rw [hz]
      refine PyRel.bind (PyRel.same _) fun _ _ _ => ?_
      cases res with
      | none => exact .error _
      | some r => exact .ok ⟨u.s, hs, rfl⟩
    | residualFrequency =>
      dsimp only
      rw [hz]
      refine PyRel.bind (PyRel.same _) fun _ _ _ => ?_
      cases res with
      | none => exact .error _
      | some r => exact .ok ⟨u.k⁻¹, inv_pos.mpr hk, by rw [← hf]; rfl⟩
    | amplitudeFits =>
      refine .ok ⟨1, one_pos, ?_⟩
      show (w.amp.map (u.s * ·)).map (· / (u.s * an.ampMerger)) = (w.amp.map (· / an.ampMerger)).map (1 * ·)
      rw [List.map_map, List.map_map]
      refine List.map_congr_left fun x _ => ?_
      simp only [Function.comp]
      rw [mul_div_mul_left _ _ hs.ne', one_mul]
    | frequencyFits => exact absurd rfl hc
  by_cases hfit : c = .amplitudeFits
  · subst hfit
    have hd1 : PyRel (fun d d' => d' = d) (dataForExtrema .amplitudeFits (seriesOf nd an w res))
        (dataForExtrema .amplitudeFits (seriesOf (newDict u nd) (newAnalysis u an) (newWave u w) (res.map (newResidual u)))) := by
      refine .ok ?_
      show (w.amp.map (u.s * ·)).map (· / (u.s * an.ampMerger)) = w.amp.map (· / an.ampMerger)
      rw [List.map_map]
      refine List.map_congr_left fun x _ => ?_
      simp only [Function.comp]
      rw [mul_div_mul_left _ _ hs.ne']
    refine PyRel.bind_of hd1 fun d d' hdd _ hd' => ?_
    rw [hd']
    have hlen := dataForExtrema_short hw hr hdd
    rw [if_pos (by rfl), if_pos (by rfl)]
    refine PyRel.bind (PyRel.same _) fun kwf _ h => ?_
    subst h
    refine PyRel.bind_of (PyRel.same _) fun rf _ hrfine _ h => ?_
    subst h
    refine PyRel.bind_of (PyRel.same _) fun cfg _ hcfg _ h => ?_
    subst h
    have hno : cfg.refine = false := by
      have h0 := hrf rfl rf (getItem_ok hrfine)
      rw [h0] at hcfg
      unfold fitsCfg at hcfg
      iterate 14 obtain ⟨_, _, hcfg⟩ := bind_ok hcfg
      cases hcfg
      rfl
    have ht : ((newWave u w).t.map (· - (newAnalysis u an).tMerger)) = (w.t.map (· - an.tMerger)).map (u.k * ·) := by
      show (w.t.map (newTime u.k u.c)).map (· - newTime u.k u.c an.tMerger) = _
      rw [List.map_map, List.map_map]
      refine List.map_congr_left fun x _ => ?_
      simp only [Function.comp, newTime]
      ring
    refine .ok ⟨?_, ?_⟩
    · funext ty
      rw [ht]
      show ((findExtrema passLimit fitsFuel lib.fits cfg ⟨(w.t.map (· - an.tMerger)).map (u.k * ·), w.phase, d⟩ ty.sign).getD _
        >>= _) = _
      rw [UnitsFits.findExtrema_new hk hl.fits passLimit fitsFuel cfg hno ⟨w.t.map (· - an.tMerger), w.phase, d⟩]
      cases findExtrema passLimit fitsFuel lib.fits cfg ⟨w.t.map (· - an.tMerger), w.phase, d⟩ ty.sign with
      | none => rfl
      | some x => cases x <;> rfl
    · intro ty l hf
      obtain ⟨f, hf1, hf⟩ := bind_ok hf
      cases hf
      cases he : findExtrema passLimit fitsFuel lib.fits cfg ⟨w.t.map (· - an.tMerger), w.phase, d⟩ ty.sign with
      | none => rw [he] at hf1; cases hf1
      | some x =>
        rw [he] at hf1
        have hx : x = .ok f := hf1
        rw [hx] at he
        obtain ⟨h1, h2⟩ := Fits.C39_increasing hl.fitsSamples he
        exact ⟨h1, fun i hi => lt_of_lt_of_le (h2 i hi) hlen⟩
  have hc : c.isFits = false := by
    cases c <;> first | rfl | exact absurd rfl hfit | exact absurd rfl hc
  refine PyRel.bind_of hd fun d d' hdd _ hd' => ?_
  obtain ⟨r, hr0, rfl⟩ := hd'
  have hlen := dataForExtrema_short hw hr hdd
  rw [if_neg (by simp [hc]), if_neg (by simp [hc])]
  refine .ok ⟨?_, ?_⟩
  · funext ty
    unfold findExtremaPeaks
    have e : ∀ s : K, (d.map (r * ·)).map (s * ·) = (d.map (s * ·)).map (r * ·) := by
      intro s
      rw [List.map_map, List.map_map]
      exact List.map_congr_left fun x _ => by simp only [Function.comp]; ring
    simp only [e, hl.peaks _ hkw r hr0]
  · intro ty l hf
    unfold findExtremaPeaks at hf
    obtain ⟨s, _, hf⟩ := bind_ok hf
    have := hl.peaksSamples kw.get? (d.map (s * ·)) l hf
    refine ⟨this.1, fun i hi => ?_⟩
    have := this.2 i hi
    rw [List.length_map] at this
    omega

/-! ### The object -/

/-- The object in the old and in the new units. -/
structure BuiltRel (u : Units K C) (domain : Domain) (b b' : Built K C) : Prop where
  obj : b'.obj = newObj u.k u.c b.obj
  ext : ∃ fit', b'.ext = { b.ext with ratFit := fit' } ∧ FitFree u.k u.c b.ext.ratFit fit'
  free : UnitFree0 b.ext u.k u.c
  finds : FindsSamples b.ext b.obj
  avg : b.obj.avgMethod ≠ "omega_gw_zeroecc" ∨ b.ext.tol = 0
  domain : b.obj.domain = domain

theorem orbitsOption_none {v : Opt K} {r : Option K} (h : v.truth = false) (ho : orbitsOption v = .ok r) : r = none := by
  unfold orbitsOption at ho
  rw [h] at ho
  cases ho
  rfl

theorem finish_new {lib : Libs K C} {u : Units K C} (hk : 0 < u.k) (hs : 0 < u.s) (hl : LibUnitFree lib u) {c : MethodClass}
    (hc : c ≠ .frequencyFits) (domain : Domain) (ref : Val K) (a : Call K C) (nd : DataV K C) (an : Analysis K) (w : Wave K)
    (filtered : Bool) (extra : Option (Extra K)) (hw : w.amp.length ≤ w.t.length ∧ w.omega.length ≤ w.t.length)
    (hst : ∀ l, nd.get? "t_zeroecc" = some (.arr l) → EvenSteps l)
    (hpk : ∀ d, (extra.getD []).get? "extrema_finding_kwargs" = some (.dict d) →
      ∀ key ∈ ["height", "threshold", "prominence"], d.get? key = none ∨ d.get? key = some .none)
    (hseg : domain = .time ∨ ∀ x, inForce extraDefaults extra "use_only_these_many_orbits" = some x → x.truth = false)
    (hrf : c = .amplitudeFits → ∀ x, inForce extraDefaults extra "refine_extrema" = some x → x.truth = false)
    (havg : lib.tol = 0 ∨ inForce extraDefaults extra "omega_gw_averaging_method" ≠ some (.leaf (.str "omega_gw_zeroecc"))) :
    PyRel (BuiltRel u domain) (finish lib c domain ref a nd an w filtered extra)
      (finish lib c domain (ref.map (newRef u.k u.c domain)) (newCall u a) (newDict u nd) (newAnalysis u an) (newWave u w)
        filtered extra) := by
  unfold finish
  refine PyRel.bind_of (PyRel.same _) fun ex _ hex _ h => ?_
  subst h
  refine PyRel.bind_of (PyRel.same _) fun useOnly _ huse _ h => ?_
  subst h
  refine PyRel.bind_of (PyRel.same _) fun orbits _ horb _ h => ?_
  subst h
  refine PyRel.bind (PyRel.same _) fun w1 _ h => ?_
  subst h
  have hsel := selectWave_new hk lib.wave.pi (secularTrend lib.fits.pow lib.solve) orbits domain ref.atleast1d
    (ref.map (newRef u.k u.c domain)).atleast1d w (by
      rcases hseg with rfl | hseg
      · refine .inl ⟨rfl, ?_⟩
        cases ref <;> rfl
      · refine .inr (orbitsOption_none (hseg useOnly ?_) horb)
        rw [← (checkKwargs_known hex).2]
        exact getItem_ok huse)
  refine PyRel.bind_of hsel fun wave _ hwave _ h => ?_
  subst h
  have hwl := selectWave_short hw hwave
  refine PyRel.bind_of (PyRel.same _) fun peaksKw _ hpeaks _ h => ?_
  subst h
  refine PyRel.bind (PyRel.same _) fun method _ h => ?_
  subst h
  refine PyRel.bind (PyRel.same _) fun special _ h => ?_
  subst h
  obtain ⟨extremaKw, ratKw⟩ := special
  dsimp only
  refine PyRel.bind (PyRel.same _) fun generalKw _ h => ?_
  subst h
  refine PyRel.bind (PyRel.same _) fun general _ h => ?_
  subst h
  have hkw : keyWarnings (newCall u a).level (newCall u a).dataDict.keys = keyWarnings a.level a.dataDict.keys := by
    show keyWarnings a.level (newDict u a.dataDict).keys = _
    rw [newDict_keys]
  rw [hkw]
  refine PyRel.bind (PyRel.same _) fun w2 _ h => ?_
  subst h
  refine PyRel.bind_of (residualStage_new hk hs hl general a.precessing.truth nd an.tMerger wave hst) fun rz _ hrz _ h => ?_
  subst h
  obtain ⟨res, zeroecc⟩ := rz
  have hres : ∀ r, res = some r → r.resAmp.length = wave.amp.length ∧ r.resOmega.length = wave.omega.length := by
    rintro r rfl
    unfold residualStage at hrz
    obtain ⟨r', hr', hrz⟩ := bind_ok hrz
    cases r' with
    | none => cases hrz
    | some r' =>
      dsimp only at hrz
      obtain ⟨_, _, hrz⟩ := bind_ok hrz
      obtain ⟨_, _, hrz⟩ := bind_ok hrz
      cases hrz
      exact residualData_short hr'
  dsimp only
  have hfind := finder_new hk hs hl hc ex (fun h x hx => hrf h x (by rw [← (checkKwargs_known hex).2]; exact hx)) (noHeights hex hpeaks hpk) nd an wave res hwl hres
  refine PyRel.bind (R := fun f f' => f' = f ∧ ∀ ty l, f ty = .ok l → l.Pairwise (· < ·) ∧ ∀ i ∈ l, i < wave.t.length) ?_
    fun find _ h => ?_
  · unfold seriesOf at hfind
    simp only [Option.map_map] at hfind ⊢
    exact hfind
  obtain ⟨rfl, hsam⟩ := h
  refine PyRel.bind_of (PyRel.same _) fun avg _ hav _ h => ?_
  subst h
  refine PyRel.bind (PyRel.same _) fun mid _ h => ?_
  subst h
  refine PyRel.bind (PyRel.same _) fun zero _ h => ?_
  subst h
  refine PyRel.bind (getArr_new u nd "t" _ (entry_t u (Or.inl rfl))) fun dataT _ h => ?_
  subst h
  refine .ok ⟨rfl, ⟨extremaFit (lib.rational ratKw.get?) lib.eval a.level (requestedDegrees (ratKw.get? "degrees"))
    (wave.t.map (newTime u.k u.c)), rfl, ?_⟩, ?_, hsam, ?_, rfl⟩
  · intro ty x y x' y'
    have := extremaFit_new hk u.c (rat := lib.rational ratKw.get?) (eval := lib.eval) a.level
      (requestedDegrees (ratKw.get? "degrees")) wave.t ty (fun d x y => by
        obtain ⟨r1, r2⟩ := hl.rational ratKw.get? d x y
        cases hr : lib.rational ratKw.get? d x y with
        | error e => rw [r2 e hr]; exact .error e
        | ok f =>
          obtain ⟨f', h1, h2⟩ := r1 f hr
          rw [h1]; exact .ok h2) hl.evalFreq x y x' y'
    exact this.pair
  · exact ⟨hl.pi, hl.tol, hl.eccOf, hl.evalFreq, hl.evalTime, hl.deriv, hl.argsort, hl.argsortRange⟩
  · rcases havg with h | h
    · exact .inr h
    · left
      show avg.name ≠ _
      intro hn
      apply h
      rw [← (checkKwargs_known hex).2, getItem_ok hav]
      unfold Opt.name at hn
      split at hn
      · rw [hn]
      · simp at hn

/-! ### The call -/

theorem dispatch_new (u : Units K C) (a : Call K C) :
    PyRel (fun r r' => r' = (r.1, r.2.1, r.2.2.map (newRef u.k u.c r.2.1)) ∧ r.2.1 = Call.domain a ∧
      availableMethods.getItem a.method = .ok r.1) (dispatch a) (dispatch (newCall u a)) := by
  unfold dispatch
  show PyRel _ (if availableMethods.has a.method then _ else _) (if availableMethods.has a.method then _ else _)
  refine PyRel.ite Iff.rfl (fun _ _ => ?_) fun _ _ => .error _
  refine PyRel.bind_of (PyRel.same _) fun c _ hc _ h => ?_
  subst h
  refine PyRel.bind (R := fun r r' => r' = (r.1, r.2.map (newRef u.k u.c r.1)) ∧ r.1 = Call.domain a) ?_ fun r r' hr => ?_
  · unfold initReference newCall Call.domain
    dsimp only
    cases a.trefIn with
    | none =>
      cases a.frefIn with
      | none => exact .error _
      | some f => exact PyRel.ite Iff.rfl (fun _ _ => .ok ⟨rfl, rfl⟩) fun _ _ => .error _
    | some t =>
      cases a.frefIn with
      | none => exact PyRel.ite Iff.rfl (fun _ _ => .ok ⟨rfl, rfl⟩) fun _ _ => .error _
      | some f => exact .error _
  obtain ⟨rfl, hd⟩ := hr
  exact .ok ⟨rfl, hd, hc⟩

theorem FuelRel.map_of {α β γ δ : Type} {R : α → β → Prop} {S : γ → δ → Prop} {x : Option (Py α)} {y : Option (Py β)}
    {f : Py α → Py γ} {g : Py β → Py δ} (h : FuelRel R x y) (hf : ∀ a b, x = Option.some a → PyRel R a b → PyRel S (f a) (g b)) :
    FuelRel S (x.map f) (y.map g) := by
  cases h with
  | none => exact .none
  | some h => exact .some (hf _ _ rfl h)

theorem run_new (fuel : ℕ) {lib : Libs K C} {u : Units K C} (hk : 0 < u.k) (hs : 0 < u.s) (hl : LibUnitFree lib u)
    {a : Call K C} (ha : UnitFreeCall lib a) :
    FuelRel (fun r r' => r'.ret = newResult u.k u.c (Call.domain a) r.ret) (run fuel lib a) (run fuel lib (newCall u a)) := by
  unfold run
  have hd := dispatch_new u a
  revert hd
  generalize dispatch (newCall u a) = y
  cases dispatch a with
  | error e =>
    intro hd
    cases hd
    exact .some (.error e)
  | ok r =>
    intro hd
    cases hd with
    | ok hd =>
    obtain ⟨c, domain, ref⟩ := r
    obtain ⟨rfl, hdom, hm⟩ := hd
    dsimp only at hdom hm ⊢
    subst hdom
    have hm := mem_of_get? (getItem_ok hm)
    have hc : c ≠ .frequencyFits ∧ (c = .amplitudeFits → a.method = "AmplitudeFits") := by
      have h1 := ha.method
      simp only [availableMethods, List.mem_cons, Prod.mk.injEq, List.not_mem_nil, or_false] at hm
      rcases hm with ⟨_, rfl⟩ | ⟨_, rfl⟩ | ⟨_, rfl⟩ | ⟨_, rfl⟩ | ⟨h, rfl⟩ | ⟨h, rfl⟩
      · simp
      · simp
      · simp
      · simp
      · simpa using h
      · exact absurd h h1
    unfold construct
    have hload := loadWave_new hk hs hl ha
    revert hload
    generalize loadWave lib (newCall u a) = y
    cases hld : loadWave lib a with
    | error e =>
      intro hload
      cases hload
      exact .some (.error e)
    | ok q =>
      intro hload
      cases hload with
      | ok hload =>
      obtain ⟨nd, an, w⟩ := q
      subst hload
      dsimp only
      obtain ⟨h1, h2, h3, h4⟩ := loadWave_ok hld
      obtain ⟨t0, idx, ht, htn, hshort, hz⟩ := processData_short ⟨ha.samples.rotate, ha.samples.polar⟩ ha.samples h1
      have hwt : w.t = t0.take idx := by
        have := getArr_ok h2
        rw [htn] at this
        exact (Entry.arr.inj (Option.some.inj this)).symm
      rw [← hwt] at hshort
      have hw := gwQuantities_short hshort h4
      rw [Option.map_map, Option.map_map]
      refine FuelRel.map_of (filterStage_new fuel hk hs hl a nd an w) fun r r' hfs hr => ?_
      simp only [Function.comp]
      cases hr with
      | error e => exact .error e
      | ok hr =>
      rename_i q q'
      obtain ⟨w', filtered, extra⟩ := q
      subst hr
      simp only [ok_bind]
      obtain ⟨e1, e2, e3⟩ := filterStage_short hshort hw hfs
      have hex := filterStage_extra hfs
      have hin : ∀ key, key ≠ "filter_kwargs" → inForce (extraDefaults : Extra K) extra key = inForce extraDefaults a.extra key := by
        intro key hkey
        unfold inForce
        rw [hex key hkey]
      refine PyRel.bind (finish_new hk hs hl hc.1 (Call.domain a) ref a nd an w' filtered extra (by rw [e1]; exact ⟨e2, e3⟩)
        ?_ ?_ ?_ ?_ ?_) fun b b' hb => ?_
      · intro l hl'
        rw [hz] at hl'
        exact ha.steps "t_zeroecc" (by simp) l (array_of hl')
      · rw [hex _ (by decide)]
        exact ha.peaks
      · rcases ha.segment with h | h
        · left
          unfold Call.domain
          rw [if_pos h]
        · right
          rw [hin _ (by decide)]
          exact h
      · rw [hin _ (by decide)]
        exact fun h => ha.refine (hc.2 h)
      · rw [hin _ (by decide)]
        exact ha.average
      · obtain ⟨hobj, ⟨fit', hext, hfit⟩, hfree, hfinds, havg, hdm⟩ := hb
        rw [hobj, hext]
        refine PyRel.bind (measureEcc_rel hk u.c hfree hfit b.obj hfinds havg) fun r r' hr => ?_
        rw [hdm] at hr
        exact .ok hr

end

end GwEcc
