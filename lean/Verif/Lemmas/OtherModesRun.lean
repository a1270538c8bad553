import Verif.Lemmas.OtherModes

/-! A whole call with other modes than those the measurement is based on. -/

set_option linter.unusedSectionVars false

namespace GwEcc

namespace Others

open Spec Turned

section
variable {K C : Type} [Field K] [LinearOrder K] [IsStrictOrderedRing K] [FloorRing K]

theorem mergerOf_congr (lib : WaveLib K C) {nd nd' : DataV K C} {suffix : String}
    (h1 : nd'.get? ("t" ++ suffix) = nd.get? ("t" ++ suffix)) (h2 : nd'.get? ("amplm" ++ suffix) = nd.get? ("amplm" ++ suffix)) :
    mergerOf lib nd' suffix = mergerOf lib nd suffix := by
  unfold mergerOf getArr getR Dict.getItem
  rw [h1, h2]

theorem mergerOf_given {lib : WaveLib K C} {v nd : DataV K C} (hp : ProperDicts v) (h : newData lib v = .ok nd) {suffix : String}
    (hs : suffix = "" ∨ suffix = "_zeroecc") {t : List K} (ht : nd.get? ("t" ++ suffix) = some (.arr t))
    (ha : nd.has ("amplm" ++ suffix) = true) : mergerTime lib v suffix = some (mergerOf lib nd suffix) := by
  have sp := newData_spec h
  obtain ⟨a, z, h1, h2, h3, h4⟩ := sp.amp
  have ht' : array v ("t" ++ suffix) = some t := by
    rcases hs with rfl | rfl
    · rw [String.append_empty] at ht ⊢
      exact array_of (sp.t.2 ▸ ht)
    · exact array_of (sp.t0 ▸ ht)
  obtain ⟨b, hb1, hb2⟩ : ∃ b, allAmplitudes lib v suffix = some (b.map Prod.snd) ∧ nd.get? ("amplm" ++ suffix) = some (.modesR b) := by
    rcases hs with rfl | rfl
    · rcases allAmps_given hp h1 with h | ⟨h, _⟩
      · rw [String.append_empty]
        exact ⟨a, h, h3⟩
      · exact absurd rfl h
    · have hz : z.isEmpty = false := by
        cases hz : z.isEmpty with
        | false => rfl
        | true =>
          unfold Dict.has at ha
          rw [show ("amplm" ++ "_zeroecc" : String) = "amplm_zeroecc" from rfl, h4, hz] at ha
          cases ha
      rcases allAmps_given hp h2 with h | ⟨_, rfl⟩
      · refine ⟨z, h, ?_⟩
        show nd.get? "amplm_zeroecc" = _
        rw [h4, hz]
        rfl
      · cases hz
  unfold mergerTime mergerOf
  rw [ht', hb1, getArr_of ht, getR_of hb2]
  show some _ = some _
  refine congrArg some ?_
  rw [ok_bind, ok_bind]
  cases lib.totalAmp (b.map Prod.snd) with
  | error e => rfl
  | ok T =>
    rw [ok_bind, ok_bind]
    cases peakTime t T <;> rfl

/-- The same time of the merger from the new dictionaries. -/
theorem mergerOf_same {S : List LM} {lib : WaveLib K C} {v v' nd nd' : DataV K C} (hp : ProperDicts v) (hp' : ProperDicts v')
    (h : newData lib v = .ok nd) (h' : newData lib v' = .ok nd') (hD : DRel (PO S) nd nd') {suffix : String}
    (hs : suffix = "" ∨ suffix = "_zeroecc") (hm : mergerTime lib v' suffix = mergerTime lib v suffix)
    (ha : nd.has ("amplm" ++ suffix) = true) : mergerOf lib nd' suffix = mergerOf lib nd suffix := by
  have ht := getArr_dom hD ("t" ++ suffix)
  cases ht1 : getArr nd ("t" ++ suffix) with
  | error e =>
    rw [ht1] at ht
    unfold mergerOf
    rw [ht1]
    generalize getArr nd' ("t" ++ suffix) = x at ht
    cases ht
    rfl
  | ok t =>
    rw [ht1] at ht
    cases ht2 : getArr nd' ("t" ++ suffix) with
    | error e => rw [ht2] at ht; cases ht
    | ok t' =>
      rw [mergerOf_given hp h hs (getArr_ok ht1) ha,
        mergerOf_given hp' h' hs (getArr_ok ht2) (by rw [hD.has]; exact ha)] at hm
      exact Option.some.inj hm

theorem mem_dominant (pr : Bool) : ((2, 2) : LM) ∈ dominantModes pr := by cases pr <;> decide

theorem gwQuantities_dom (pr : Bool) {nd nd' : DataV K C} (h : DRel (PO (dominantModes pr)) nd nd') (tag : String) :
    gwQuantities pr nd' tag = gwQuantities pr nd tag := by
  refine eq_of_rel ?_
  unfold gwQuantities
  refine PyRel.bind (getR_dom h _) fun a a' ha => ?_
  refine PyRel.bind (getR_dom h _) fun p p' hp => ?_
  refine PyRel.ite Iff.rfl (fun _ _ => ?_) fun hpr _ => ?_
  · rw [ha.getItem (mem_dominant pr), hp.getItem (mem_dominant pr)]
    refine PyRel.bind (PyRel.same _) fun x _ e => ?_
    subst e
    refine PyRel.bind (PyRel.same _) fun y _ e => ?_
    subst e
    refine PyRel.bind (getR_dom h _) fun w w' hw => ?_
    rw [hw.getItem (mem_dominant pr)]
    exact same_rel _
  have hpr : pr = true := by simpa using hpr
  have hm : ((2, -2) : LM) ∈ dominantModes pr := by rw [hpr]; decide
  rw [ha.has hm, hp.has hm]
  refine PyRel.ite Iff.rfl (fun _ _ => .error _) fun _ _ => ?_
  refine PyRel.ite Iff.rfl (fun _ _ => .error _) fun _ _ => ?_
  rw [ha.getItem (mem_dominant pr), ha.getItem hm, hp.getItem (mem_dominant pr), hp.getItem hm]
  refine PyRel.bind (PyRel.same _) fun _ _ e => ?_
  subst e
  refine PyRel.bind (PyRel.same _) fun _ _ e => ?_
  subst e
  refine PyRel.bind (PyRel.same _) fun _ _ e => ?_
  subst e
  refine PyRel.bind (PyRel.same _) fun _ _ e => ?_
  subst e
  refine PyRel.bind (PyRel.same _) fun _ _ e => ?_
  subst e
  refine PyRel.bind (PyRel.same _) fun _ _ e => ?_
  subst e
  refine PyRel.bind (getR_dom h _) fun w w' hw => ?_
  rw [hw.getItem (mem_dominant pr), hw.getItem hm]
  exact same_rel _

/-- The peak of the total amplitude in terms of the time of the merger. -/
theorem merger_rel (lib : WaveLib K C) {nd nd' : DataV K C} {suffix : String} {t : List K} {a a' : Dict LM (List K)}
    (ht : getArr nd ("t" ++ suffix) = .ok t) (ht' : getArr nd' ("t" ++ suffix) = .ok t)
    (ha : getR nd ("amplm" ++ suffix) = .ok a) (ha' : getR nd' ("amplm" ++ suffix) = .ok a')
    (hm : mergerOf lib nd' suffix = mergerOf lib nd suffix) :
    PyRel (fun q q' => q'.1 = q.1) (lib.totalAmp (a.map Prod.snd) >>= peakTime t)
      (lib.totalAmp (a'.map Prod.snd) >>= peakTime t) := by
  have e : ∀ (nd : DataV K C) a, getArr nd ("t" ++ suffix) = .ok t → getR nd ("amplm" ++ suffix) = .ok a →
      mergerOf lib nd suffix = (lib.totalAmp (a.map Prod.snd) >>= peakTime t).map Prod.fst := by
    intro nd a ht ha
    unfold mergerOf
    rw [ht, ha, ok_bind, ok_bind]
    cases lib.totalAmp (a.map Prod.snd) with
    | error e => rfl
    | ok T =>
      rw [ok_bind, ok_bind]
      cases peakTime t T <;> rfl
  rw [e nd a ht ha, e nd' a' ht' ha'] at hm
  generalize lib.totalAmp (a.map Prod.snd) >>= peakTime t = x at hm ⊢
  generalize lib.totalAmp (a'.map Prod.snd) >>= peakTime t = y at hm ⊢
  cases x <;> cases y
  · cases hm; exact .error _
  · cases hm
  · cases hm
  · exact .ok (Except.ok.inj hm)

theorem assoc_peak {α : Type} (x : Py (List K)) (t : List K) (g : K × K → Py α) :
    (x >>= fun total => peakTime t total >>= g) = (x >>= peakTime t) >>= g := (bind_assoc _ _ _).symm

theorem analyse_dom {lib : WaveLib K C} (pr : Bool) {nd nd' : DataV K C} (h : DRel (PO (dominantModes pr)) nd nd')
    (hm : nd.has "amplm" = true → mergerOf lib nd' "" = mergerOf lib nd "") (n : Option K) :
    analyse lib pr nd' n = analyse lib pr nd n := by
  refine eq_of_rel ?_
  unfold analyse
  rw [gwQuantities_dom pr h]
  refine PyRel.bind_of (getArr_dom h _) fun _ t ht ht' e => ?_
  subst e
  refine PyRel.bind_of (getR_dom h _) fun a a' ha ha' haa => ?_
  have hm := hm ((Dict.has_iff_get? _ _).mpr ⟨_, getR_ok ha⟩)
  rw [assoc_peak, assoc_peak]
  refine PyRel.bind (merger_rel lib (suffix := "") ht ht' ha ha' hm) fun q q' hq => ?_
  obtain ⟨x, y⟩ := q
  obtain ⟨x', y'⟩ := q'
  dsimp only at hq
  subst hq
  exact same_rel _

/-! ### The cut -/

theorem Dom.cut {S : List LM} {d d' : Dict LM (List K)} (h : Dom S d d') (idx : ℕ) :
    Dom S (d.map fun p => (p.1, p.2.take idx)) (d'.map fun p => (p.1, p.2.take idx)) := h.map _

theorem cutEntry_dom {S : List LM} (idx : ℕ) {e e' : Entry K C} (h : AgreeIn S e e') :
    PyRel (AgreeIn S) (cutEntry idx e) (cutEntry idx e') := by
  cases h with
  | same => exact PyRel.refl (fun a => .same a) _
  | real d d' h1 h2 =>
    have h : Dom S d d' := .inr ⟨h1, h2⟩
    exact .ok (h.map _).real
  | complex d d' h1 h2 =>
    have h : Dom S d d' := .inr ⟨h1, h2⟩
    refine .ok ?_
    rcases h.map (List.take idx) with e | ⟨g1, g2⟩
    · rw [e]; exact .same _
    · exact .complex _ _ g1 g2

theorem PO.of_agree {S : List LM} {k : String} {e e' : Entry K C} (h : AgreeIn S e e')
    (hk : k ∈ ["hlm", "amplm", "phaselm", "omegalm", "hlm_zeroecc", "amplm_zeroecc", "phaselm_zeroecc", "omegalm_zeroecc"]) :
    PO S k e e' := by
  unfold PO
  rw [if_pos hk]
  exact h

theorem cutData_dom {S : List LM} (idx : ℕ) {nd nd' : DataV K C} (h : DRel (PO S) nd nd') :
    PyRel (fun x x' => DRel (PO S) x x' ∧
      ∀ key ∈ ["t_zeroecc", "amplm_zeroecc"], x.get? key = nd.get? key ∧ x'.get? key = nd'.get? key)
      (cutData idx nd) (cutData idx nd') := by
  unfold cutData
  refine PyRel.bind (h.getItem _) fun a a' ha => ?_
  refine PyRel.bind (cutEntry_dom idx ha.sameFor) fun b b' hb => ?_
  have h1 := h.set (k := "amplm") (PO.of_agree hb (by decide))
  refine PyRel.bind (h1.getItem _) fun p p' hp => ?_
  refine PyRel.bind (cutEntry_dom idx hp.sameFor) fun q q' hq => ?_
  have h2 := h1.set (k := "phaselm") (PO.of_agree hq (by decide))
  refine PyRel.bind (h2.getItem _) fun w w' hw => ?_
  refine PyRel.bind (cutEntry_dom idx hw.sameFor) fun u u' hu => ?_
  have h3 := h2.set (k := "omegalm") (PO.of_agree hu (by decide))
  refine PyRel.bind (getArr_dom h3 _) fun t _ e => ?_
  subst e
  refine .ok ⟨h3.set (PO.rfl' _ _), ?_⟩
  intro key hk
  simp only [List.mem_cons, List.not_mem_nil, or_false] at hk
  rcases hk with rfl | rfl <;>
    simp only [Dict.get?_set, show ("t_zeroecc" : String) ≠ "t" by decide, show ("t_zeroecc" : String) ≠ "omegalm" by decide,
      show ("t_zeroecc" : String) ≠ "phaselm" by decide, show ("t_zeroecc" : String) ≠ "amplm" by decide,
      show ("amplm_zeroecc" : String) ≠ "t" by decide, show ("amplm_zeroecc" : String) ≠ "omegalm" by decide,
      show ("amplm_zeroecc" : String) ≠ "phaselm" by decide, show ("amplm_zeroecc" : String) ≠ "amplm" by decide, if_false, and_self]

/-- The prepared data of the two waveforms. -/
structure Prepared (lib : WaveLib K C) (pr : Bool) (nd nd' : DataV K C) : Prop where
  rel : DRel (PO (dominantModes pr)) nd nd'
  zeroecc : nd.has "amplm_zeroecc" = true → mergerOf lib nd' "_zeroecc" = mergerOf lib nd "_zeroecc"

/-- What is assumed of the two waveforms. -/
structure Pair (lib : WaveLib K C) (pr : Bool) (v v' : DataV K C) : Prop where
  differ : OthersDiffer (dominantModes pr) v v'
  proper : ProperDicts v
  proper' : ProperDicts v'
  typed : WellTyped lib v
  typed' : WellTyped lib v'
  merger : ∀ suffix ∈ ["", "_zeroecc"], mergerTime lib v' suffix = mergerTime lib v suffix

theorem processData_dom {lib : WaveLib K C} {v v' : DataV K C} {pr : Flag} {frame : String} (hf : mustTransform pr frame = false)
    (h : Pair lib pr.truth v v') (n : Option K) :
    PyRel (fun r r' => Prepared lib pr.truth r.1 r'.1 ∧ r'.2 = r.2) (processData lib pr frame v n) (processData lib pr frame v' n) := by
  have hD := OthersDiffer.toD h.differ
  unfold processData
  rw [show v'.has = v.has from funext fun k => hD.has k, hf]
  refine PyRel.bind (PyRel.same _) fun _ _ _ => ?_
  simp only [Bool.false_eq_true, if_false, pure_eq_ok, ok_bind]
  refine PyRel.bind_of (newData_dom (mem_dominant _) hD h.proper h.proper' h.typed h.typed') fun nd nd' hnd hnd' hF => ?_
  have hF := hF.toD
  rw [analyse_dom pr.truth hF (fun ha => mergerOf_same h.proper h.proper' hnd hnd' hF (.inl rfl) (h.merger _ (by simp)) ha)]
  have hz := mergerOf_same h.proper h.proper' hnd hnd' hF (.inr rfl) (h.merger _ (by simp))
  refine PyRel.bind (PyRel.same _) fun an _ e => ?_
  subst e
  cases an.cut with
  | none => exact .ok ⟨⟨hF, hz⟩, rfl⟩
  | some idx =>
    dsimp only
    refine PyRel.bind (cutData_dom idx hF) fun x x' hx => ?_
    obtain ⟨h1, h2⟩ := hx
    refine .ok ⟨⟨h1, fun ha => ?_⟩, rfl⟩
    obtain ⟨a1, a2⟩ := h2 "amplm_zeroecc" (by simp)
    obtain ⟨t1, t2⟩ := h2 "t_zeroecc" (by simp)
    have ha : nd.has "amplm_zeroecc" = true := by unfold Dict.has at ha ⊢; rw [← a1]; exact ha
    rw [mergerOf_congr lib (suffix := "_zeroecc") (nd := nd) t1 a1, mergerOf_congr lib (suffix := "_zeroecc") (nd := nd') t2 a2]
    exact hz ha

theorem loadWave_dom {lib : Libs K C} {a : Call K C} {v : DataV K C} (hf : mustTransform a.precessing a.frame = false)
    (h : Pair lib.wave a.precessing.truth a.dataDict v) :
    PyRel (fun r r' => Prepared lib.wave a.precessing.truth r.1 r'.1 ∧ r'.2 = r.2) (loadWave lib a)
      (loadWave lib { a with dataDict := v }) := by
  unfold loadWave
  dsimp only
  rw [frameMessage_off _ hf, frameMessage_off _ hf]
  refine PyRel.bind (PyRel.same _) fun _ _ _ => ?_
  refine PyRel.bind (processData_dom hf h _) fun q q' hq => ?_
  obtain ⟨nd, an⟩ := q
  obtain ⟨nd', an'⟩ := q'
  dsimp only at hq ⊢
  obtain ⟨hP, rfl⟩ := hq
  refine PyRel.bind (getArr_dom hP.rel _) fun t _ e => ?_
  subst e
  refine PyRel.bind (PyRel.same _) fun _ _ _ => ?_
  rw [gwQuantities_dom _ hP.rel]
  refine PyRel.bind (PyRel.same _) fun q _ e => ?_
  subst e
  exact .ok ⟨hP, rfl⟩

/-! ### The rest -/

theorem modeOf_dom {S : List LM} {nd nd' : DataV K C} (h : DRel (PO S) nd nd') (key : String) {m : LM} (hm : m ∈ S) :
    modeOf nd' key m = modeOf nd key m := by
  refine eq_of_rel ?_
  unfold modeOf
  refine PyRel.bind (getR_dom h _) fun d d' hd => ?_
  rw [hd.getItem hm]
  exact same_rel _

theorem filterStage_dom (fuel : ℕ) (lib : Libs K C) (a : Call K C) (v : DataV K C) {nd nd' : DataV K C}
    (h : Prepared lib.wave a.precessing.truth nd nd') (an : Analysis K) (w : Wave K) :
    filterStage fuel lib { a with dataDict := v } nd' an w = filterStage fuel lib a nd an w := by
  unfold filterStage
  dsimp only
  cases hp : a.precessing.truth with
  | false => rfl
  | true =>
    have h := h.rel
    rw [hp] at h
    have hc : ∀ t, coprModes nd' t = coprModes nd t := by
      intro t
      unfold coprModes
      rw [modeOf_dom h _ (by decide), modeOf_dom h _ (by decide), modeOf_dom h _ (by decide), modeOf_dom h _ (by decide),
        modeOf_dom h _ (by decide), modeOf_dom h _ (by decide)]
    unfold filterInput
    dsimp only
    rw [hc]

theorem residualData_dom (lib : WaveLib K C) (tol : K) (eval : InterpCall → List K → List K → K → Py K) (kw : SplineKwargs)
    (pr : Bool) {nd nd' : DataV K C} (h : Prepared lib pr nd nd') (tM : K) (w : Wave K) :
    residualData lib tol eval kw pr nd' tM w = residualData lib tol eval kw pr nd tM w := by
  refine eq_of_rel ?_
  unfold residualData
  rw [h.rel.has, h.rel.has, gwQuantities_dom pr h.rel]
  refine PyRel.ite Iff.rfl (fun hc _ => ?_) fun _ _ => same_rel _
  rw [Bool.and_eq_true] at hc
  refine PyRel.bind_of (getArr_dom h.rel _) fun _ t ht ht' e => ?_
  subst e
  refine PyRel.bind (PyRel.same _) fun _ _ _ => ?_
  refine PyRel.bind (PyRel.same _) fun q _ e => ?_
  subst e
  obtain ⟨ampZ, _, omegaZ⟩ := q
  dsimp only
  refine PyRel.bind_of (getR_dom h.rel _) fun a a' ha ha' haa => ?_
  unfold residualCore
  simp only [bind_assoc]
  rw [assoc_peak, assoc_peak]
  refine PyRel.bind (merger_rel lib (suffix := "_zeroecc") ht ht' ha ha' (h.zeroecc hc.1)) fun q q' hq => ?_
  obtain ⟨x, y⟩ := q
  obtain ⟨x', y'⟩ := q'
  dsimp only at hq
  subst hq
  exact same_rel _

theorem residualStage_dom (lib : Libs K C) (kw : SplineKwargs) (pr : Bool) {nd nd' : DataV K C} (h : Prepared lib.wave pr nd nd')
    (tM : K) (w : Wave K) : residualStage lib kw pr nd' tM w = residualStage lib kw pr nd tM w := by
  refine eq_of_rel ?_
  unfold residualStage
  rw [residualData_dom lib.wave lib.tol lib.eval kw pr h, gwQuantities_dom pr h.rel]
  refine PyRel.bind (PyRel.same _) fun r _ e => ?_
  subst e
  cases r with
  | none => exact same_rel _
  | some r =>
    dsimp only
    refine PyRel.bind (getArr_dom h.rel _) fun t _ e => ?_
    subst e
    exact same_rel _

theorem finish_dom (lib : Libs K C) (c : MethodClass) (domain : Domain) (ref : Val K) (a : Call K C) {v : DataV K C}
    (hk : v.keys = a.dataDict.keys) {nd nd' : DataV K C} (h : Prepared lib.wave a.precessing.truth nd nd') (an : Analysis K)
    (w : Wave K) (filtered : Bool) (extra : Option (Extra K)) :
    PyRel (fun b b' => b'.ext = b.ext ∧ b'.obj = b.obj ∧ b'.warnings = b.warnings)
      (finish lib c domain ref a nd an w filtered extra)
      (finish lib c domain ref { a with dataDict := v } nd' an w filtered extra) := by
  unfold finish
  dsimp only
  rw [hk]
  refine PyRel.bind (PyRel.same _) fun ex _ e => ?_
  subst e
  refine PyRel.bind (PyRel.same _) fun useOnly _ e => ?_
  subst e
  refine PyRel.bind (PyRel.same _) fun orbits _ e => ?_
  subst e
  refine PyRel.bind (PyRel.same _) fun w1 _ e => ?_
  subst e
  refine PyRel.bind (PyRel.same _) fun wave _ e => ?_
  subst e
  refine PyRel.bind (PyRel.same _) fun peaksKw _ e => ?_
  subst e
  refine PyRel.bind (PyRel.same _) fun method _ e => ?_
  subst e
  refine PyRel.bind (PyRel.same _) fun special _ e => ?_
  subst e
  refine PyRel.bind (PyRel.same _) fun generalKw _ e => ?_
  subst e
  refine PyRel.bind (PyRel.same _) fun general _ e => ?_
  subst e
  refine PyRel.bind (PyRel.same _) fun w2 _ e => ?_
  subst e
  rw [residualStage_dom lib _ _ h, h.rel.has, h.rel.has, h.rel.has]
  refine PyRel.bind (PyRel.same _) fun rz _ e => ?_
  subst e
  refine PyRel.bind (PyRel.same _) fun find _ e => ?_
  subst e
  refine PyRel.bind (PyRel.same _) fun avg _ e => ?_
  subst e
  refine PyRel.bind (PyRel.same _) fun mid _ e => ?_
  subst e
  refine PyRel.bind (PyRel.same _) fun zero _ e => ?_
  subst e
  refine PyRel.bind (getArr_dom h.rel _) fun dataT _ e => ?_
  subst e
  exact .ok ⟨rfl, rfl, rfl⟩

theorem run_dom (fuel : ℕ) (lib : Libs K C) (a : Call K C) (v : DataV K C) (hf : mustTransform a.precessing a.frame = false)
    (h : Pair lib.wave a.precessing.truth a.dataDict v) :
    FuelRel (fun r r' => r'.ret = r.ret ∧ r'.built.warnings = r.built.warnings ∧ r'.meas = r.meas) (run fuel lib a)
      (run fuel lib { a with dataDict := v }) := by
  unfold run
  have hd : dispatch { a with dataDict := v } = dispatch a := rfl
  rw [hd]
  cases dispatch a with
  | error e => exact .some (.error e)
  | ok r =>
    obtain ⟨c, domain, ref⟩ := r
    dsimp only
    unfold construct
    have hload := loadWave_dom hf h
    revert hload
    generalize loadWave lib { a with dataDict := v } = y
    generalize loadWave lib a = x
    intro hload
    cases hload with
    | error e => exact .some (.error e)
    | ok hload =>
      rename_i q q'
      obtain ⟨nd, an, w⟩ := q
      obtain ⟨nd', an', w'⟩ := q'
      dsimp only at hload
      obtain ⟨hP, e⟩ := hload
      cases e
      dsimp only
      rw [filterStage_dom fuel lib a v hP]
      cases filterStage fuel lib a nd an w with
      | none => exact .none
      | some r =>
        refine .some ?_
        cases r with
        | error e => exact .error e
        | ok r =>
          obtain ⟨w', filtered, extra⟩ := r
          simp only [ok_bind]
          refine PyRel.bind (finish_dom lib c domain ref a h.differ.keys hP an w' filtered extra) fun b b' hb => ?_
          obtain ⟨h1, h2, h3⟩ := hb
          rw [h1, h2]
          refine PyRel.bind (PyRel.same _) fun r _ e => ?_
          subst e
          exact .ok ⟨rfl, h3, rfl⟩

end

end Others

end GwEcc
