import Verif.Lemmas.PhaseMeasure
import Verif.Lemmas.PhaseFits
import Verif.Lemmas.PhaseProcess

/-! A whole call with a rotated waveform. -/

set_option linter.unusedSectionVars false

namespace GwEcc

namespace Turned

open Spec

section
variable {K C : Type} [Field K] [LinearOrder K] [IsStrictOrderedRing K] [FloorRing K]

/-- The waveform with the phase shifted. -/
def shiftWave (c : K) (w : Wave K) : Wave K := { w with phase := shift c w.phase }

theorem same_rel {α : Type} (x : Py α) : PyRel (fun a b => b = a) x x := PyRel.refl (R := fun a b => b = a) (fun _ => rfl) x

theorem loadWave_turn {lib : Libs K C} {Clear : List C → Prop} {u u0 : Turn K C} (hl : LibTurnFree lib Clear u u0) {a : Call K C}
    (ha : TurnFreeCall lib.wave Clear a) :
    PyRel (fun r r' => DRel PN r.1 r'.1 ∧ r'.2.1 = r.2.1 ∧ (∃ c, r'.2.2 = shiftWave c r.2.2) ∧
        Long lib.wave r.2.2.t.length r.1 ∧ r.2.2.t.length ≤ r.2.2.phase.length)
      (loadWave lib a) (loadWave lib (turnCall u u0 a)) := by
  unfold loadWave
  have hm : frameMessage (turnCall u u0 a).level (turnCall u u0 a).precessing (turnCall u u0 a).frame (turnCall u u0 a).dataDict =
      frameMessage a.level a.precessing a.frame a.dataDict :=
    frameMessage_congr _ _ _ (congrArg checkShape (funext fun k => (turnDict_rel u u0 a.dataDict).has k))
  rw [hm]
  refine PyRel.bind (PyRel.same _) fun _ _ _ => ?_
  refine PyRel.bind (processData_turn hl.wave hl.wave0 ha) fun q q' hq => ?_
  obtain ⟨nd, an⟩ := q
  obtain ⟨nd', an'⟩ := q'
  dsimp only at hq ⊢
  obtain ⟨hD, rfl, hlong⟩ := hq
  refine PyRel.bind_of (getArr_eq hD (PN_name (name := "t") (suffix := "") (by simp) (Or.inl rfl))) fun t t' hg _ ht => ?_
  subst ht
  refine PyRel.bind (PyRel.same _) fun _ _ _ => ?_
  refine PyRel.bind_of (gwQuantities_same hD a.precessing.truth (Or.inl rfl)) fun q q' hg2 _ hq => ?_
  obtain ⟨amp, phase, omega⟩ := q
  obtain ⟨amp', phase', omega'⟩ := q'
  dsimp only at hq
  obtain ⟨rfl, ⟨c, rfl⟩, rfl⟩ := hq
  have hL := hlong _ (getArr_ok hg)
  exact .ok ⟨hD, rfl, ⟨c, rfl⟩, hL, gwQuantities_long hL hg2⟩

/-! ### The filter -/

theorem modeOf_eq {nd nd' : DataV K C} (h : DRel PN nd nd') {key : String} (hk : key = "amplm" ∨ key = "omegalm") (m : LM) :
    PyRel (fun a b => b = a) (modeOf nd key m) (modeOf nd' key m) := by
  unfold modeOf
  have hn : ∀ e e' : Entry K C, PN key e e' → e' = e := by
    rcases hk with rfl | rfl
    · exact PN_name (name := "amplm") (suffix := "") (by simp) (Or.inl rfl)
    · exact PN_name (name := "omegalm") (suffix := "") (by simp) (Or.inl rfl)
  refine PyRel.bind (getR_eq h hn) fun d d' hd => ?_
  subst hd
  exact same_rel _

theorem modeOf_phase {nd nd' : DataV K C} (h : DRel PN nd nd') (m : LM) :
    PyRel Shifted (modeOf nd "phaselm" m) (modeOf nd' "phaselm" m) := by
  unfold modeOf
  refine PyRel.bind (getR_phase h (PN_phase (suffix := "") (Or.inl rfl))) fun d d' hd => ?_
  exact hd.toD.getItem m

/-- The same data with other phases. -/
def CoprRel (m m' : Filter.CoprModes K) : Prop :=
  ∃ c d, m' = { m with phase22 := shift c m.phase22, phase2m2 := shift d m.phase2m2 }

theorem coprModes_turn {nd nd' : DataV K C} (h : DRel PN nd nd') (t : List K) :
    PyRel CoprRel (coprModes nd t) (coprModes nd' t) := by
  unfold coprModes
  refine PyRel.bind (modeOf_eq h (.inl rfl) _) fun x1 y1 h1 => ?_
  refine PyRel.bind (modeOf_eq h (.inl rfl) _) fun x2 y2 h2 => ?_
  refine PyRel.bind (modeOf_eq h (.inr rfl) _) fun x3 y3 h3 => ?_
  refine PyRel.bind (modeOf_eq h (.inr rfl) _) fun x4 y4 h4 => ?_
  refine PyRel.bind (modeOf_phase h _) fun x5 y5 h5 => ?_
  refine PyRel.bind (modeOf_phase h _) fun x6 y6 h6 => ?_
  obtain ⟨c, rfl⟩ := h5
  obtain ⟨d, rfl⟩ := h6
  subst h1 h2 h3 h4
  exact .ok ⟨c, d, rfl⟩

theorem filterKind_turn (fuel : ℕ) (lib : Filter.FilterLib K) (cfg : Filter.FilterCfg K) (tM : K) {m m' : Filter.CoprModes K}
    (h : CoprRel m m') (kind : Filter.Kind) :
    Filter.filterKind fuel lib cfg tM m' kind = Filter.filterKind fuel lib cfg tM m kind := by
  obtain ⟨c, d, rfl⟩ := h
  have hg : ∀ k, Filter.CoprModes.get { m with phase22 := shift c m.phase22, phase2m2 := shift d m.phase2m2 } k = m.get k := by
    intro k
    cases k <;> rfl
  unfold Filter.filterKind Filter.makeFilter Filter.original
  simp only [hg]

theorem filterPhase_turn {m m' : Filter.CoprModes K} (h : CoprRel m m') (omega : Filter.Best K) :
    PyRel (fun p p' => Shifted p.best p'.best) (Filter.filterPhase m omega) (Filter.filterPhase m' omega) := by
  obtain ⟨c, d, rfl⟩ := h
  unfold Filter.filterPhase
  refine PyRel.bind (zip_half ⟨c, rfl⟩ ⟨d, rfl⟩) fun p p' hp => ?_
  cases omega.filtered with
  | none => exact .ok hp
  | some w =>
    dsimp only
    refine PyRel.bind (PyRel.same _) fun _ _ h => ?_
    subst h
    refine PyRel.bind (PyRel.same _) fun _ _ h => ?_
    subst h
    exact .ok (Shifted.rfl' _)

theorem checkAndFilter_turn (fuel : ℕ) (lib : Filter.FilterLib K) (cfg : Filter.FilterCfg K) (tM : K)
    {m m' : Filter.CoprModes K} (h : CoprRel m m') :
    FuelRel (fun f f' => f'.amp = f.amp ∧ f'.omega = f.omega ∧ Shifted f.phase.best f'.phase.best)
      (Filter.checkAndFilter fuel lib cfg tM m) (Filter.checkAndFilter fuel lib cfg tM m') := by
  unfold Filter.checkAndFilter
  rw [filterKind_turn fuel lib cfg tM h, filterKind_turn fuel lib cfg tM h]
  cases Filter.filterKind fuel lib cfg tM m .amp with
  | none => exact .none
  | some r =>
    cases r with
    | error e => exact .some (.error e)
    | ok a =>
      dsimp only
      cases Filter.filterKind fuel lib cfg tM m .omega with
      | none => exact .none
      | some r =>
        cases r with
        | error e => exact .some (.error e)
        | ok w =>
          refine .some ?_
          refine PyRel.bind (filterPhase_turn h w) fun p p' hp => ?_
          exact .ok ⟨rfl, rfl, hp⟩

theorem filterStage_turn (fuel : ℕ) (lib : Libs K C) (u u0 : Turn K C) (a : Call K C) {nd nd' : DataV K C}
    (h : DRel PN nd nd') (an : Analysis K) (c : K) (w : Wave K) :
    FuelRel (fun r r' => (∃ d, r'.1 = shiftWave d r.1) ∧ r'.2 = r.2) (filterStage fuel lib a nd an w)
      (filterStage fuel lib (turnCall u u0 a) nd' an (shiftWave c w)) := by
  unfold filterStage
  show FuelRel _ _ (if a.precessing.truth then _ else _)
  by_cases hp : a.precessing.truth = true
  · rw [if_pos hp, if_pos hp]
    have hi : PyRel (fun q q' => q'.1 = q.1 ∧ q'.2.1 = q.2.1 ∧ CoprRel q.2.2 q'.2.2) (filterInput a nd w)
        (filterInput (turnCall u u0 a) nd' (shiftWave c w)) := by
      unfold filterInput
      refine PyRel.bind (PyRel.same _) fun kw kw' hkw => ?_
      subst hkw
      refine PyRel.bind (PyRel.same _) fun cfg cfg' hcfg => ?_
      subst hcfg
      refine PyRel.bind (coprModes_turn h w.t) fun m m' hm => ?_
      exact .ok ⟨rfl, rfl, hm⟩
    revert hi
    generalize filterInput a nd w = x
    generalize filterInput (turnCall u u0 a) nd' (shiftWave c w) = y
    intro hi
    cases hi with
    | error e => exact .some (.error e)
    | ok hi =>
      rename_i q q'
      obtain ⟨kw, cfg, m⟩ := q
      obtain ⟨kw', cfg', m'⟩ := q'
      dsimp only at hi
      obtain ⟨rfl, rfl, hm⟩ := hi
      dsimp only
      refine (checkAndFilter_turn fuel lib.filter _ an.tMerger hm).map fun r r' hr => ?_
      refine PyRel.bind hr fun f f' hf => ?_
      obtain ⟨h1, h2, d, h3⟩ := hf
      refine .ok ⟨⟨d, ?_⟩, ?_⟩
      · rw [h1, h2, h3]; rfl
      · rw [h2]; rfl
  · rw [if_neg hp, if_neg hp]
    exact .some (.ok ⟨⟨c, rfl⟩, rfl⟩)

theorem addAt_length (full : List K) (start : ℕ) (vals : List K) : (Filter.addAt full start vals).length = full.length := by
  unfold Filter.addAt
  rw [List.length_mapIdx]

theorem accumulate_length (hanning : ℕ → List K) (t : List K) : ∀ (segs : List (Filter.Segment K)) (acc r : List K × List K),
    segs.foldlM (Filter.accumulate hanning t) acc = .ok r → r.1.length = acc.1.length ∧ r.2.length = acc.2.length
  | [], acc, r, h => by cases h; exact ⟨rfl, rfl⟩
  | s :: segs, acc, r, h => by
    rw [List.foldlM_cons] at h
    obtain ⟨acc', h1, h⟩ := bind_ok h
    obtain ⟨e1, e2⟩ := accumulate_length hanning t segs acc' r h
    unfold Filter.accumulate at h1
    obtain ⟨first, _, h1⟩ := bind_ok h1
    obtain ⟨y, _, h1⟩ := bind_ok h1
    cases h1
    rw [addAt_length] at e1 e2
    exact ⟨e1, e2⟩

theorem combine_length {hanning : ℕ → List K} {t r : List K} {segs : List (Filter.Segment K)}
    (h : Filter.combine hanning t segs = .ok r) : r.length = t.length := by
  unfold Filter.combine at h
  obtain ⟨⟨y, w⟩, h1, h⟩ := bind_ok h
  obtain ⟨e1, e2⟩ := accumulate_length _ _ _ _ _ h1
  dsimp only at e1 e2
  rw [List.length_replicate] at e1 e2
  rw [mapM_len h, List.length_zip, List.length_zip, e1, e2]
  simp

theorem filterKind_filtered {fuel : ℕ} {lib : Filter.FilterLib K} {cfg : Filter.FilterCfg K} {tm : K} {m : Filter.CoprModes K}
    {kind : Filter.Kind} {b : Filter.Best K} (h : Filter.filterKind fuel lib cfg tm m kind = some (.ok b)) {f : List K}
    (hf : b.filtered = some f) : f.length = m.t.length := by
  unfold Filter.filterKind at h
  cases hm : Filter.makeFilter lib cfg tm m kind with
  | error e => rw [hm] at h; simp at h
  | ok q =>
    obtain ⟨d, o⟩ := q
    rw [hm] at h
    cases o with
    | none =>
      dsimp only at h
      cases h
      cases hf
    | some o =>
      have ho : o.t = m.t := by
        unfold Filter.makeFilter at hm
        obtain ⟨d', h1, hm⟩ := bind_ok hm
        obtain ⟨req, _, hm⟩ := bind_ok hm
        split at hm
        · cases hm
        · obtain ⟨q, _, hm⟩ := bind_ok hm
          dsimp only at hm
          split at hm
          · obtain ⟨_, _, hm⟩ := bind_ok hm
            obtain ⟨f, _, hm⟩ := bind_ok hm
            cases hm
            rfl
          · obtain ⟨f, _, hm⟩ := bind_ok hm
            cases hm
            rfl
      dsimp only at h
      split at h
      · simp only [Option.some.injEq] at h
        obtain ⟨_, _, h⟩ := bind_ok h
        cases h
        cases hf
      · cases ha : Filter.applyFilter fuel lib cfg o with
        | none => rw [ha] at h; simp at h
        | some r =>
          rw [ha] at h
          cases r with
          | error e => simp [bind, Except.bind] at h
          | ok g =>
            cases h
            cases hf
            unfold Filter.applyFilter at ha
            cases hs : Filter.segments fuel lib cfg o with
            | none => rw [hs] at ha; simp at ha
            | some s =>
              rw [hs] at ha
              simp only [Option.map_some, Option.some.injEq] at ha
              obtain ⟨segs, _, ha⟩ := bind_ok ha
              rw [combine_length ha, ho]

theorem filterStage_long {fuel : ℕ} {lib : Libs K C} {a : Call K C} {nd : DataV K C} {an : Analysis K} {w w' : Wave K}
    {b : Bool} {x : Option (Extra K)} (hs : Long lib.wave w.t.length nd) (hw : w.t.length ≤ w.phase.length)
    (h : filterStage fuel lib a nd an w = some (.ok (w', b, x))) : w'.t.length ≤ w'.phase.length := by
  cases hp : a.precessing.truth with
  | false =>
    rw [filterStage_off fuel lib a nd an w hp] at h
    cases h
    exact hw
  | true =>
    obtain ⟨kw, cfg, m, f, _, _, hm, hf, rfl, _, _⟩ := filterStage_on hp h
    dsimp only
    have hmt : m.t = w.t ∧ w.t.length ≤ m.phase22.length := by
      unfold coprModes at hm
      obtain ⟨x1, h1, hm⟩ := bind_ok hm
      obtain ⟨x2, h2, hm⟩ := bind_ok hm
      obtain ⟨x3, h3, hm⟩ := bind_ok hm
      obtain ⟨x4, h4, hm⟩ := bind_ok hm
      obtain ⟨x5, h5, hm⟩ := bind_ok hm
      obtain ⟨x6, h6, hm⟩ := bind_ok hm
      cases hm
      refine ⟨rfl, ?_⟩
      unfold modeOf at h5
      obtain ⟨d, hd, h5⟩ := bind_ok h5
      exact hs.real _ (getR_ok hd) _ (mem_of_get? (getItem_ok h5))
    unfold Filter.checkAndFilter at hf
    cases h1 : Filter.filterKind fuel lib.filter cfg an.tMerger m .amp with
    | none => rw [h1] at hf; simp at hf
    | some r =>
      rw [h1] at hf
      cases r with
      | error e => simp at hf
      | ok a =>
        dsimp only at hf
        cases h2 : Filter.filterKind fuel lib.filter cfg an.tMerger m .omega with
        | none => rw [h2] at hf; simp at hf
        | some r =>
          rw [h2] at hf
          cases r with
          | error e => simp at hf
          | ok om =>
            dsimp only at hf
            simp only [Option.some.injEq] at hf
            obtain ⟨p, hpp, hf⟩ := bind_ok hf
            cases hf
            dsimp only
            unfold Filter.filterPhase at hpp
            obtain ⟨q, hq, hpp⟩ := bind_ok hpp
            cases ho : om.filtered with
            | none =>
              rw [ho] at hpp
              cases hpp
              dsimp only
              rw [npZip_len hq]
              exact hmt.2
            | some g =>
              rw [ho] at hpp
              dsimp only at hpp
              obtain ⟨t1, _, hpp⟩ := bind_ok hpp
              obtain ⟨t0, _, hpp⟩ := bind_ok hpp
              cases hpp
              dsimp only
              unfold Filter.cumsum
              rw [List.length_map, List.length_map, List.length_range, filterKind_filtered h2 ho, hmt.1]

/-! ### The segment -/

theorem segmentWarning_shift (pi : K) (level : ℤ) (orbits : Option K) (c : K) (w : Wave K) :
    segmentWarning pi level orbits (shiftWave c w) = segmentWarning pi level orbits w := by
  refine eq_of_rel ?_
  unfold segmentWarning
  cases orbits with
  | none => exact same_rel _
  | some n =>
    dsimp only
    refine PyRel.ite Iff.rfl (fun _ _ => same_rel _) fun _ _ => ?_
    refine PyRel.bind (last_shift c w.phase) fun pN _ h => ?_
    refine PyRel.bind (get_shift' c w.phase 0) fun p0 _ h' => ?_
    subst h h'
    refine PyRel.ite (by rw [add_sub_add_right_eq_sub]) (fun _ _ => same_rel _) fun _ _ => same_rel _

theorem slice_shift (c : K) (w : Wave K) (a : ℕ) (b : ℤ) : (shiftWave c w).slice a b = shiftWave c (w.slice a b) := by
  unfold Wave.slice shiftWave shift
  simp only [Filter.pySlice_map]

theorem phaseNear_shift (c : K) (w : Wave K) (x : K) :
    PyRel (fun a b => b = a + c) (phaseNear w x) (phaseNear (shiftWave c w) x) := by
  unfold phaseNear
  refine PyRel.bind (PyRel.same _) fun i _ h => ?_
  subst h
  exact get_shift' c w.phase _

theorem where_shift (c v : K) (l : List K) :
    npWhere (fun x => decide (v + c ≤ x)) (shift c l) = npWhere (fun x => decide (v ≤ x)) l :=
  npWhere_map_of (s := (· + c)) (fun x => by simp only [add_le_add_iff_right]) l

theorem approxTref_shift (pi : K) (fit : List K → List K → Py (List K)) (c : K) (w : Wave K) (fref : K) :
    approxTref pi fit (shiftWave c w) fref = approxTref pi fit w fref := by
  refine eq_of_rel ?_
  unfold approxTref
  refine PyRel.bind (PyRel.same _) fun q _ h => ?_
  subst h
  dsimp only
  refine PyRel.bind (get_shift' c w.phase _) fun pl _ hl => ?_
  refine PyRel.bind (get_shift' c w.phase _) fun pr _ hr => ?_
  subst hl hr
  have e1 : pl + c - 5 / 2 * 4 * pi = pl - 5 / 2 * 4 * pi + c := by ring
  have e2 : pr + c + 5 / 2 * 4 * pi = pr + 5 / 2 * 4 * pi + c := by ring
  have e3 : (shiftWave c w).phase = shift c w.phase := rfl
  rw [add_sub_add_right_eq_sub, e1, e2, e3, where_shift, where_shift]
  exact same_rel _

theorem referenceBounds_shift (pi : K) (fit : List K → List K → Py (List K)) (c : K) (w : Wave K) (domain : Domain)
    (refs : List K) : referenceBounds pi fit (shiftWave c w) domain refs = referenceBounds pi fit w domain refs := by
  unfold referenceBounds
  simp only [approxTref_shift]

theorem searchSorted_shift (c v : K) (l : List K) : searchSorted (shift c l) (v + c) = searchSorted l v := by
  unfold searchSorted
  induction l with
  | nil => rfl
  | cons x l ih =>
    show (List.takeWhile _ ((x + c) :: shift c l)).length = _
    rw [List.takeWhile_cons, List.takeWhile_cons]
    simp only [add_lt_add_iff_right]
    split
    · simp only [List.length_cons]
      rw [ih]
    · rfl

theorem segmentIndices_shift (pi n c : K) (phase : List K) (pl pr : K) :
    segmentIndices pi n (shift c phase) (pl + c) (pr + c) = segmentIndices pi n phase pl pr := by
  refine eq_of_rel ?_
  unfold segmentIndices
  dsimp only
  have e1 : ∀ z, pl + c - z = pl - z + c := fun z => by ring
  have e2 : ∀ z z', pr + c + z + z' = pr + z + z' + c := fun z z' => by ring
  have e3 : ∀ z z', pl - z + c - z' = pl - z - z' + c := fun z z' => by ring
  rw [add_sub_add_right_eq_sub]
  simp only [e1, e2, e3, searchSorted_shift, where_shift]
  refine PyRel.bind (R := fun a b => b = a) ?_ fun add _ h => ?_
  · refine PyRel.ite Iff.rfl (fun _ _ => ?_) fun _ _ => same_rel _
    refine PyRel.bind (get_shift' c phase 0) fun p0 _ h => ?_
    subst h
    rw [show pl - (p0 + c) + c = pl - p0 by ring]
    exact same_rel _
  subst h
  split
  · exact same_rel _
  · refine PyRel.bind (last_shift c phase) fun pN _ h => ?_
    subst h
    rw [add_sub_add_right_eq_sub]
    exact same_rel _

theorem selectWave_shift (pi : K) (fit : List K → List K → Py (List K)) (orbits : Option K) (domain : Domain)
    (refs : List K) (c : K) (w : Wave K) :
    PyRel (fun w w' => w' = shiftWave c w) (selectWave pi fit orbits domain refs w)
      (selectWave pi fit orbits domain refs (shiftWave c w)) := by
  unfold selectWave
  cases orbits with
  | none => exact .ok rfl
  | some n =>
    dsimp only
    refine PyRel.ite Iff.rfl (fun _ _ => .ok rfl) fun _ _ => ?_
    refine PyRel.bind (last_shift c w.phase) fun pN _ h => ?_
    refine PyRel.bind (get_shift' c w.phase 0) fun p0 _ h' => ?_
    subst h h'
    refine PyRel.ite (by rw [add_sub_add_right_eq_sub]) (fun _ _ => ?_) fun _ _ => .ok rfl
    unfold useSegment
    rw [referenceBounds_shift]
    refine PyRel.bind (PyRel.same _) fun q _ h => ?_
    subst h
    dsimp only
    refine PyRel.bind (phaseNear_shift c w _) fun pl _ h => ?_
    refine PyRel.bind (phaseNear_shift c w _) fun pr _ h' => ?_
    subst h h'
    have e3 : (shiftWave c w).phase = shift c w.phase := rfl
    rw [e3, segmentIndices_shift]
    refine PyRel.bind (PyRel.same _) fun q _ h => ?_
    subst h
    exact .ok (slice_shift c w _ _)

theorem selectWave_long {pi : K} {fit : List K → List K → Py (List K)} {orbits : Option K} {domain : Domain} {refs : List K}
    {w w' : Wave K} (hw : w.t.length ≤ w.phase.length)
    (h : selectWave pi fit orbits domain refs w = .ok w') : w'.t.length ≤ w'.phase.length := by
  unfold selectWave at h
  cases orbits with
  | none => cases h; exact hw
  | some n =>
    dsimp only at h
    split at h
    · cases h; exact hw
    · obtain ⟨pN, _, h⟩ := bind_ok h
      obtain ⟨p0, _, h⟩ := bind_ok h
      split at h
      · unfold useSegment at h
        obtain ⟨⟨tl, tr⟩, _, h⟩ := bind_ok h
        obtain ⟨pl, _, h⟩ := bind_ok h
        obtain ⟨pr, _, h⟩ := bind_ok h
        obtain ⟨⟨start, stop⟩, _, h⟩ := bind_ok h
        cases h
        exact slice_len hw _ _
      · cases h; exact hw

/-! ### Residual data and extrema -/

theorem residualStage_turn (lib : Libs K C) (kw : SplineKwargs) (pr : Bool) {nd nd' : DataV K C} (h : DRel PN nd nd')
    (tM c : K) (w : Wave K) :
    residualStage lib kw pr nd' tM (shiftWave c w) = residualStage lib kw pr nd tM w := by
  have h0 : ("_zeroecc" : String) = "" ∨ ("_zeroecc" : String) = "_zeroecc" := Or.inr rfl
  have ht : ∀ e e' : Entry K C, PN "t_zeroecc" e e' → e' = e := PN_name (name := "t") (suffix := "_zeroecc") (by simp) h0
  refine eq_of_rel ?_
  unfold residualStage
  refine PyRel.bind (R := fun a b => b = a) ?_ fun r0 r hr => ?_
  · unfold residualData
    rw [h.has, h.has]
    refine PyRel.ite Iff.rfl (fun _ _ => ?_) fun _ _ => same_rel _
    refine PyRel.bind (getArr_eq h ht) fun t _ h1 => ?_
    subst h1
    refine PyRel.bind (PyRel.same _) fun _ _ _ => ?_
    refine PyRel.bind (gwQuantities_same h pr h0) fun q q' hq => ?_
    obtain ⟨amp, phase, omega⟩ := q
    obtain ⟨amp', phase', omega'⟩ := q'
    dsimp only at hq
    obtain ⟨rfl, _, rfl⟩ := hq
    dsimp only
    refine PyRel.bind (getR_eq h (PN_name (name := "amplm") (suffix := "_zeroecc") (by simp) h0)) fun a _ h1 => ?_
    subst h1
    exact same_rel _
  subst hr
  cases r with
  | none => exact same_rel _
  | some r =>
    dsimp only
    refine PyRel.bind (getArr_eq h ht) fun t _ h1 => ?_
    subst h1
    refine PyRel.bind (gwQuantities_same h pr h0) fun q q' hq => ?_
    obtain ⟨amp, phase, omega⟩ := q
    obtain ⟨amp', phase', omega'⟩ := q'
    dsimp only at hq
    obtain ⟨rfl, _, rfl⟩ := hq
    exact same_rel _

theorem seriesOf_turn {nd nd' : DataV K C} (h : DRel PN nd nd') (an : Analysis K) (c : K) (w : Wave K)
    (res : Option (Residual K)) : seriesOf nd' an (shiftWave c w) res = seriesOf nd an w res := by
  unfold seriesOf
  rw [h.has, h.has, h.has]
  rfl

theorem finder_turn {lib : Libs K C} {Clear : List C → Prop} {u u0 : Turn K C} (hl : LibTurnFree lib Clear u u0) (c : MethodClass) (ex : Extra K)
    (kw : Kwargs K) {nd nd' : DataV K C} (h : DRel PN nd nd') (an : Analysis K) (d : K) (w : Wave K)
    (res : Option (Residual K)) (hw : w.amp.length ≤ w.t.length ∧ w.omega.length ≤ w.t.length)
    (hr : ∀ r, res = some r → r.resAmp.length = w.amp.length ∧ r.resOmega.length = w.omega.length) :
    PyRel (fun f f' => f' = f ∧ ∀ ty l, f ty = .ok l → l.Pairwise (· < ·) ∧ ∀ i ∈ l, i < w.t.length)
      (finder lib c ex kw an.tMerger (seriesOf nd an w res) w)
      (finder lib c ex kw an.tMerger (seriesOf nd' an (shiftWave d w) res) (shiftWave d w)) := by
  rw [seriesOf_turn h]
  unfold finder
  refine PyRel.bind_of (PyRel.same _) fun data _ hdd _ h1 => ?_
  subst h1
  have hlen := dataForExtrema_short hw hr hdd
  by_cases hf : c.isFits = true
  · rw [if_pos hf, if_pos hf]
    refine PyRel.bind (PyRel.same _) fun kwf _ h => ?_
    subst h
    refine PyRel.bind (PyRel.same _) fun rf _ h => ?_
    subst h
    refine PyRel.bind (PyRel.same _) fun cfg _ h => ?_
    subst h
    refine .ok ⟨?_, ?_⟩
    · funext ty
      show ((findExtrema passLimit fitsFuel lib.fits _ (Fit.shiftData d ⟨w.t.map (· - an.tMerger), w.phase, _⟩) ty.sign).getD _
        >>= _) = _
      rw [Fit.findExtrema_shift hl.cubic d]
      cases findExtrema passLimit fitsFuel lib.fits cfg ⟨w.t.map (· - an.tMerger), w.phase, _⟩ ty.sign with
      | none => rfl
      | some x => cases x <;> rfl
    · intro ty l hf
      obtain ⟨f, hf1, hf⟩ := bind_ok hf
      cases hf
      cases he : findExtrema passLimit fitsFuel lib.fits cfg ⟨w.t.map (· - an.tMerger), w.phase, _⟩ ty.sign with
      | none => rw [he] at hf1; cases hf1
      | some x =>
        rw [he] at hf1
        have hx : x = .ok f := hf1
        rw [hx] at he
        obtain ⟨h1, h2⟩ := Fits.C39_increasing hl.fitsSamples he
        exact ⟨h1, fun i hi => lt_of_lt_of_le (h2 i hi) hlen⟩
  · rw [if_neg hf, if_neg hf]
    refine .ok ⟨rfl, ?_⟩
    intro ty l hf
    unfold findExtremaPeaks at hf
    obtain ⟨s, _, hf⟩ := bind_ok hf
    have := hl.peaksSamples kw.get? (data.map (s * ·)) l hf
    refine ⟨this.1, fun i hi => ?_⟩
    have := this.2 i hi
    rw [List.length_map] at this
    omega

/-! ### The object -/

/-- The object for the waveform and for the rotated waveform. -/
structure BuiltRel (b b' : Built K C) : Prop where
  obj : ∃ c, b'.obj = shiftObj c b.obj
  ext : b'.ext = b.ext
  warnings : b'.warnings = b.warnings
  finds : FindsKnown b.ext b.obj

theorem turnDict_keys (u u0 : Turn K C) (v : DataV K C) : (turnDict u u0 v).keys = v.keys := by
  unfold turnDict Dict.keys
  rw [List.map_map]
  rfl

theorem finish_turn {lib : Libs K C} {Clear : List C → Prop} {u u0 : Turn K C} (hl : LibTurnFree lib Clear u u0) (c : MethodClass) (domain : Domain)
    (ref : Val K) (a : Call K C) {nd nd' : DataV K C} (h : DRel PN nd nd') (an : Analysis K) (d : K) (w : Wave K)
    (filtered : Bool) (extra : Option (Extra K)) (hw : w.amp.length ≤ w.t.length ∧ w.omega.length ≤ w.t.length)
    (hlong : w.t.length ≤ w.phase.length) :
    PyRel BuiltRel (finish lib c domain ref a nd an w filtered extra)
      (finish lib c domain ref (turnCall u u0 a) nd' an (shiftWave d w) filtered extra) := by
  unfold finish
  refine PyRel.bind (PyRel.same _) fun ex _ h => ?_
  subst h
  refine PyRel.bind (PyRel.same _) fun useOnly _ h => ?_
  subst h
  refine PyRel.bind (PyRel.same _) fun orbits _ h => ?_
  subst h
  have e : segmentWarning lib.wave.pi (turnCall u u0 a).level = segmentWarning lib.wave.pi a.level := rfl
  rw [e, segmentWarning_shift]
  refine PyRel.bind (PyRel.same _) fun w1 _ h => ?_
  subst h
  refine PyRel.bind_of (selectWave_shift lib.wave.pi (secularTrend lib.fits.pow lib.solve) _ domain ref.atleast1d d w)
    fun wave _ hwave _ h => ?_
  subst h
  have hwl := selectWave_short hw hwave
  have hll := selectWave_long hlong hwave
  refine PyRel.bind (PyRel.same _) fun peaksKw _ h => ?_
  subst h
  refine PyRel.bind (PyRel.same _) fun method _ h => ?_
  subst h
  refine PyRel.bind (PyRel.same _) fun special _ h => ?_
  subst h
  obtain ⟨extremaKw, ratKw⟩ := special
  refine PyRel.bind (PyRel.same _) fun generalKw _ h => ?_
  subst h
  refine PyRel.bind (PyRel.same _) fun general _ h => ?_
  subst h
  have hkw : keyWarnings (turnCall u u0 a).level (turnCall u u0 a).dataDict.keys = keyWarnings a.level a.dataDict.keys := by
    show keyWarnings a.level (turnDict u u0 a.dataDict).keys = _
    rw [turnDict_keys]
  rw [hkw]
  refine PyRel.bind (PyRel.same _) fun w2 _ h => ?_
  subst h
  have e2 : (turnCall u u0 a).precessing.truth = a.precessing.truth := rfl
  rw [e2, residualStage_turn lib _ _ h]
  refine PyRel.bind_of (PyRel.same _) fun rz _ hrz _ h => ?_
  subst h
  obtain ⟨res, zeroecc⟩ := rz
  have hres : ∀ r, res = some r → r.resAmp.length = wave.amp.length ∧ r.resOmega.length = wave.omega.length := by
    rintro r rfl
    unfold residualStage at hrz
    obtain ⟨r', hr', hrz⟩ := bind_ok hrz
    cases r' with
    | none => cases hrz
    | some r' =>
      dsimp only at hrz
      obtain ⟨_, _, hrz⟩ := bind_ok hrz
      obtain ⟨_, _, hrz⟩ := bind_ok hrz
      cases hrz
      exact residualData_short hr'
  dsimp only
  refine PyRel.bind (finder_turn hl c _ _ h an d wave res hwl hres) fun find _ hf => ?_
  obtain ⟨rfl, hsam⟩ := hf
  refine PyRel.bind (PyRel.same _) fun avg _ h => ?_
  subst h
  refine PyRel.bind (PyRel.same _) fun mid _ h => ?_
  subst h
  refine PyRel.bind (PyRel.same _) fun zero _ h => ?_
  subst h
  refine PyRel.bind (getArr_eq h (PN_name (name := "t") (suffix := "") (by simp) (Or.inl rfl))) fun dataT _ h => ?_
  subst h
  refine .ok ⟨⟨d, rfl⟩, rfl, rfl, ?_⟩
  intro ty l hf
  obtain ⟨h1, h2⟩ := hsam ty l hf
  exact ⟨h1, fun i hi => lt_of_lt_of_le (h2 i hi) hll⟩

/-! ### The call -/

theorem run_turn (fuel : ℕ) {lib : Libs K C} {Clear : List C → Prop} {u u0 : Turn K C} (hl : LibTurnFree lib Clear u u0) {a : Call K C}
    (ha : TurnFreeCall lib.wave Clear a) :
    FuelRel (fun r r' => r'.ret = r.ret ∧ r'.built.warnings = r.built.warnings ∧
      ∃ c, r'.meas = r.meas.map (shiftMeas c)) (run fuel lib a) (run fuel lib (turnCall u u0 a)) := by
  unfold run
  have hd : dispatch (turnCall u u0 a) = dispatch a := rfl
  rw [hd]
  cases dispatch a with
  | error e => exact .some (.error e)
  | ok r =>
    obtain ⟨c, domain, ref⟩ := r
    dsimp only
    unfold construct
    have hload := loadWave_turn hl ha
    revert hload
    generalize loadWave lib (turnCall u u0 a) = y
    cases hld : loadWave lib a with
    | error e =>
      intro hload
      cases hload
      exact .some (.error e)
    | ok q =>
      intro hload
      cases hload with
      | ok hload =>
      rename_i q'
      obtain ⟨nd, an, w⟩ := q
      obtain ⟨nd', an', w'⟩ := q'
      dsimp only at hload
      obtain ⟨hD, rfl, ⟨d, rfl⟩, hL, hlong⟩ := hload
      dsimp only
      obtain ⟨h1, h2, h3, h4⟩ := loadWave_ok hld
      obtain ⟨t0, idx, ht, htn, hshort, hz⟩ := processData_short ⟨ha.samples.rotate, ha.samples.polar⟩ ha.samples h1
      have hwt : w.t = t0.take idx := by
        have := getArr_ok h2
        rw [htn] at this
        exact (Entry.arr.inj (Option.some.inj this)).symm
      rw [← hwt] at hshort
      have hw := gwQuantities_short hshort h4
      rw [Option.map_map, Option.map_map]
      refine FuelRel.map_of (filterStage_turn fuel lib u u0 a hD _ d w) fun r r' hfs hr => ?_
      simp only [Function.comp]
      cases hr with
      | error e => exact .error e
      | ok hr =>
      rename_i q q'
      obtain ⟨w', filtered, extra⟩ := q
      obtain ⟨w'', q2⟩ := q'
      dsimp only at hr
      obtain ⟨⟨d', rfl⟩, rfl⟩ := hr
      simp only [ok_bind]
      obtain ⟨e1, e2, e3⟩ := filterStage_short hshort hw hfs
      have hlong' := filterStage_long hL hlong hfs
      refine PyRel.bind (finish_turn hl c domain ref a hD _ d' w' filtered extra (by rw [e1]; exact ⟨e2, e3⟩) hlong')
        fun b b' hb => ?_
      obtain ⟨⟨d2, hobj⟩, hext, hwarn, hfinds⟩ := hb
      rw [hobj, hext]
      refine PyRel.bind (measureEcc_shift b.ext d2 b.obj hfinds none) fun r r' hr => ?_
      exact .ok ⟨hr.1, hwarn, d2, hr.2.1⟩

end

end Turned

end GwEcc
