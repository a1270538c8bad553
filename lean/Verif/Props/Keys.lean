import Verif.Lemmas.ConstructOk
import Verif.Lemmas.RunDemo
import Verif.Props.DataDict
import Verif.Lemmas.Frame

set_option linter.unusedSectionVars false

/-!
# Properties of the keys of the waveform dictionary in a whole call (C82, C83)
-/

namespace GwEcc

open Spec

/-- The answer without the warnings given on the way. -/
def Spec.quiet {K C : Type} (ans : Answer K C) : Answer K C := { ans with built := { ans.built with warnings := [] } }

section
variable {K C : Type} [Field K] [LinearOrder K] [FloorRing K]

theorem PyRel.map_eq' {α β : Type} {f : α → β} {x y : Py α} (h : PyRel (fun a b => f a = f b) x y) : x.map f = y.map f := by
  cases h with
  | ok h => exact congrArg Except.ok h
  | error e => rfl

theorem finish_data (lib : Libs K C) (c : MethodClass) (domain : Domain) (ref : Val K) (a : Call K C) (v' : DataV K C)
    (nd : DataV K C) (an : Analysis K) (w : Wave K) (filtered : Bool) (extra : Option (Extra K))
    (hk : PyRel (fun _ _ => True) (keyWarnings a.level a.dataDict.keys) (keyWarnings a.level v'.keys)) :
    PyRel (fun b b' : Built K C => ({ b with warnings := [] } : Built K C) = { b' with warnings := [] })
      (finish lib c domain ref a nd an w filtered extra)
      (finish lib c domain ref { a with dataDict := v' } nd an w filtered extra) := by
  unfold finish
  dsimp only
  refine PyRel.bind (PyRel.refl (R := Eq) (fun _ => rfl) _) ?_
  rintro ex _ rfl
  refine PyRel.bind (PyRel.refl (R := Eq) (fun _ => rfl) _) ?_
  rintro u _ rfl
  refine PyRel.bind (PyRel.refl (R := Eq) (fun _ => rfl) _) ?_
  rintro orbits _ rfl
  refine PyRel.bind (PyRel.refl (R := Eq) (fun _ => rfl) _) ?_
  rintro w1 _ rfl
  refine PyRel.bind (PyRel.refl (R := Eq) (fun _ => rfl) _) ?_
  rintro w' _ rfl
  refine PyRel.bind (PyRel.refl (R := Eq) (fun _ => rfl) _) ?_
  rintro p _ rfl
  refine PyRel.bind (PyRel.refl (R := Eq) (fun _ => rfl) _) ?_
  rintro m _ rfl
  refine PyRel.bind (PyRel.refl (R := Eq) (fun _ => rfl) _) ?_
  rintro s _ rfl
  refine PyRel.bind (PyRel.refl (R := Eq) (fun _ => rfl) _) ?_
  rintro g _ rfl
  refine PyRel.bind (PyRel.refl (R := Eq) (fun _ => rfl) _) ?_
  rintro gs _ rfl
  refine PyRel.bind hk fun w2 w2' _ => ?_
  refine PyRel.bind (PyRel.refl (R := Eq) (fun _ => rfl) _) ?_
  rintro r _ rfl
  refine PyRel.bind (PyRel.refl (R := Eq) (fun _ => rfl) _) ?_
  rintro find _ rfl
  refine PyRel.bind (PyRel.refl (R := Eq) (fun _ => rfl) _) ?_
  rintro avg _ rfl
  refine PyRel.bind (PyRel.refl (R := Eq) (fun _ => rfl) _) ?_
  rintro mid _ rfl
  refine PyRel.bind (PyRel.refl (R := Eq) (fun _ => rfl) _) ?_
  rintro zero _ rfl
  refine PyRel.bind (PyRel.refl (R := Eq) (fun _ => rfl) _) ?_
  rintro dT _ rfl
  exact .ok rfl

theorem run_data (fuel : ℕ) (lib : Libs K C) (a : Call K C) (v' : DataV K C)
    (hl : loadWave lib a = loadWave lib { a with dataDict := v' })
    (hk : PyRel (fun _ _ => True) (keyWarnings a.level a.dataDict.keys) (keyWarnings a.level v'.keys)) :
    (run fuel lib a).map (Except.map quiet) = (run fuel lib { a with dataDict := v' }).map (Except.map quiet) := by
  unfold run
  have hd : dispatch { a with dataDict := v' } = dispatch a := rfl
  rw [hd]
  cases dispatch a with
  | error e => rfl
  | ok r =>
    obtain ⟨c, domain, ref⟩ := r
    dsimp only
    unfold construct
    rw [← hl]
    cases loadWave lib a with
    | error e => rfl
    | ok l =>
      obtain ⟨nd, an, w⟩ := l
      dsimp only
      have hf : filterStage fuel lib { a with dataDict := v' } nd an w = filterStage fuel lib a nd an w := by
        unfold filterStage filterInput; rfl
      rw [hf]
      cases filterStage fuel lib a nd an w with
      | none => simp only [Option.map_none]
      | some r =>
        cases r with
        | error e => simp only [Option.map_some, bind, Except.bind]
        | ok q =>
          obtain ⟨w', filtered, extra⟩ := q
          simp only [Option.map_some, ok_bind, Option.some.injEq]
          refine PyRel.map_eq' ?_
          refine PyRel.bind (finish_data lib c domain ref a v' nd an w' filtered extra hk) fun b b' hb => ?_
          have h1 : b.ext = b'.ext := congrArg (·.ext) hb
          have h2 : b.obj = b'.obj := congrArg (·.obj) hb
          rw [h1, h2]
          refine PyRel.bind (PyRel.refl (R := Eq) (fun _ => rfl) _) ?_
          rintro m _ rfl
          refine .ok ?_
          unfold quiet
          dsimp only
          rw [hb]

theorem loadWave_congr (lib : Libs K C) (a : Call K C) {v' : DataV K C} (h : SameData a.dataDict v') :
    loadWave lib a = loadWave lib { a with dataDict := v' } := by
  unfold loadWave
  dsimp only
  rw [frameMessage_congr _ _ _ (checkShape_congr h), processData_congr lib.wave a.precessing a.frame a.numOrbits h]

theorem debugMessage_ok {level : ℤ} (h : level = -1 ∨ level = 0 ∨ level = 1) :
    debugMessage level = .ok (if level = -1 then .silent else .warn false) := by
  rcases h with rfl | rfl | rfl <;> rfl

theorem keyWarnings_ok {level : ℤ} (h : level = -1 ∨ level = 0 ∨ level = 1) (keys : List String) :
    keyWarnings level keys = .ok (if level = -1 then [] else
      (keys.filter fun k => !recognisedKeys.contains k).map .unrecognised) := by
  unfold keyWarnings
  rw [debugMessage_ok h]
  simp only [ok_bind]
  generalize keys.filter (fun k => !recognisedKeys.contains k) = l
  have key : ∀ l : List String, (l.mapM fun k => (pure (if (if level = -1 then Outcome.silent else .warn false) = .silent then []
      else [InitWarning.unrecognised k]) : Py _)) =
      .ok (l.map fun k => if level = -1 then [] else [InitWarning.unrecognised k]) := by
    intro l
    rw [List.mapM_pure]
    refine congrArg Except.ok (List.map_congr_left fun k _ => ?_)
    by_cases e : level = -1
    · simp [e]
    · simp [e]
  rw [key]
  simp only [ok_bind]
  refine congrArg Except.ok ?_
  by_cases e : level = -1
  · simp [e]
  · simp only [e, if_false]
    induction l with
    | nil => rfl
    | cons k l ih => simp [ih]

/-- C82: keys of the waveform dictionary that are not recognised change nothing but warnings, unless warnings are made
exceptions. -/
theorem C82_ignored (fuel : ℕ) (lib : Libs K C) (a : Call K C) (v' : DataV K C) (h : SameData a.dataDict v')
    (hl : a.level = -1 ∨ a.level = 0 ∨ a.level = 1) :
    (run fuel lib a).map (Except.map quiet) = (run fuel lib { a with dataDict := v' }).map (Except.map quiet) := by
  refine run_data fuel lib a v' (loadWave_congr lib a h) ?_
  rw [keyWarnings_ok hl, keyWarnings_ok hl]
  exact .ok trivial

/-- Dictionaries whose keys are all recognised. -/
theorem keyWarnings_known {level : ℤ} {keys : List String} (h : ∀ k ∈ keys, k ∈ recognised) :
    keyWarnings level keys = .ok [] := by
  unfold keyWarnings
  have : keys.filter (fun k => !recognisedKeys.contains k) = [] := by
    rw [List.filter_eq_nil_iff]
    intro k hk
    have := h k hk
    simp only [Bool.not_eq_true', Bool.not_eq_false, List.contains_iff_mem]
    exact this
  rw [this]
  rfl

theorem debugMessage_ne {level : ℤ} {o : Outcome} (h : debugMessage level = .ok o) : level = -1 ∨ level = 0 ∨ level = 1 := by
  unfold debugMessage at h
  split at h
  · cases h
  · rename_i h1
    split at h
    · rename_i e; exact Or.inl e
    · split at h
      · cases h
      · rename_i h2 h3
        omega

/-- The keys a list of warnings is about. -/
def Spec.complaints (l : List InitWarning) : List String :=
  l.filterMap fun w => match w with
    | .unrecognised k => some k
    | .tooFewOrbits => none

theorem segmentWarning_complaints {pi : K} {level : ℤ} {orbits : Option K} {w : Wave K} {l : List InitWarning}
    (h : segmentWarning pi level orbits w = .ok l) : complaints l = [] := by
  unfold segmentWarning at h
  split at h
  · cases h; rfl
  · split at h
    · cases h; rfl
    · obtain ⟨p, -, h1⟩ := bind_ok h
      obtain ⟨q, -, h2⟩ := bind_ok h1
      split at h2
      · cases h2; rfl
      · obtain ⟨o, -, h3⟩ := bind_ok h2
        cases h3
        split <;> rfl

/-- C82: a call that returns has warned about each key that is not recognised (at the levels 0 and 1), or about none (at
level -1); at any other level a call with such a key fails. -/
theorem C82_warned {fuel : ℕ} {lib : Libs K C} {a : Call K C} {ans : Answer K C} (h : run fuel lib a = some (.ok ans)) :
    complaints ans.built.warnings =
      (if a.level = 0 ∨ a.level = 1 then a.dataDict.keys.filter (fun k => decide (k ∉ recognised)) else []) ∧
    ((∃ k ∈ a.dataDict.keys, k ∉ recognised) → a.level = -1 ∨ a.level = 0 ∨ a.level = 1) := by
  obtain ⟨R⟩ := run_ok h
  obtain ⟨f⟩ := finish_ok R.h_finish
  have hw : ans.built.warnings = f.w1 ++ f.w2 := congrArg (·.warnings) f.eq
  have h1 := segmentWarning_complaints f.h_w1
  have hfil : a.dataDict.keys.filter (fun k => !recognisedKeys.contains k) =
      a.dataDict.keys.filter (fun k => decide (k ∉ recognised)) := by
    refine List.filter_congr fun k _ => ?_
    have : recognisedKeys = recognised := rfl
    rw [this]
    by_cases hk : k ∈ recognised
    · simp [hk]
    · simp [hk]
  have h2 := f.h_w2
  have hlev : (∃ k ∈ a.dataDict.keys, k ∉ recognised) → a.level = -1 ∨ a.level = 0 ∨ a.level = 1 := by
    rintro ⟨k, hk, hn⟩
    unfold keyWarnings at h2
    rw [hfil] at h2
    obtain ⟨l, hm, -⟩ := bind_ok h2
    have hmem : k ∈ a.dataDict.keys.filter (fun k => decide (k ∉ recognised)) := by
      rw [List.mem_filter]; exact ⟨hk, by simpa using hn⟩
    cases hd : debugMessage a.level with
    | ok o => exact debugMessage_ne hd
    | error e =>
      exfalso
      rw [hd] at hm
      generalize a.dataDict.keys.filter (fun k => decide (k ∉ recognised)) = q at hm hmem
      cases q with
      | nil => cases hmem
      | cons x q => simp [bind, Except.bind] at hm
  refine ⟨?_, hlev⟩
  have happ : complaints (f.w1 ++ f.w2) = complaints f.w1 ++ complaints f.w2 := by
    unfold complaints; rw [List.filterMap_append]
  rw [hw, happ, h1, List.nil_append]
  by_cases hex : ∃ k ∈ a.dataDict.keys, k ∉ recognised
  · have hl := hlev hex
    rw [keyWarnings_ok hl] at h2
    rw [← Except.ok.inj h2]
    have hmap : ∀ l : List String, complaints (l.map .unrecognised) = l := by
      intro l
      induction l with
      | nil => rfl
      | cons k l ih =>
        show k :: complaints (l.map .unrecognised) = k :: l
        rw [ih]
    rcases hl with e | e | e
    · rw [e]; rfl
    · rw [e]
      simp only [show ¬ ((0 : ℤ) = -1) by decide, if_false, true_or, if_true]
      rw [hmap, hfil]
    · rw [e]
      simp only [show ¬ ((1 : ℤ) = -1) by decide, if_false, or_true, if_true]
      rw [hmap, hfil]
  · push Not at hex
    rw [keyWarnings_known hex] at h2
    rw [← Except.ok.inj h2]
    have : a.dataDict.keys.filter (fun k => decide (k ∉ recognised)) = [] := by
      rw [List.filter_eq_nil_iff]
      intro k hk
      simpa using hex k hk
    rw [this]
    split <;> rfl

/-! ### C83 -/

/-- The modes with a tag are given by complex numbers in `v`, and by their amplitudes and phases in `v'`. -/
def Spec.ComplexAndPolar (lib : WaveLib K C) (tag : String) (v v' : DataV K C) : Prop :=
  ∃ H : Dict LM (List C), H.keys.Nodup ∧
    v.get? ("hlm" ++ tag) = some (.modesC H) ∧ v.get? ("amplm" ++ tag) = none ∧ v.get? ("phaselm" ++ tag) = none ∧
    v'.get? ("hlm" ++ tag) = none ∧
    v'.get? ("amplm" ++ tag) = some (.modesR (H.map fun p => (p.1, lib.abs p.2))) ∧
    v'.get? ("phaselm" ++ tag) = some (.modesR (H.map fun p => (p.1, lib.phase p.2)))

/-- Two dictionaries that give the same eccentric modes, the first by complex numbers and the second by amplitudes and
phases.  The quasicircular ones are given likewise, or in the same way by both. -/
structure Spec.SameWaveform (lib : WaveLib K C) (v v' : DataV K C) : Prop where
  other : ∀ key ∈ ["t", "t_zeroecc", "omegalm", "omegalm_zeroecc"], v.get? key = v'.get? key
  ecc : ComplexAndPolar lib "" v v'
  zero : ComplexAndPolar lib "_zeroecc" v v' ∨
    ∀ key ∈ ["hlm_zeroecc", "amplm_zeroecc", "phaselm_zeroecc"], v.get? key = v'.get? key

theorem realModes_both {lib : WaveLib K C} {tag : String} {v v' : DataV K C} (h : ComplexAndPolar lib tag v v') :
    realModes lib.abs "amplm" tag v = realModes lib.abs "amplm" tag v' ∧
      realModes lib.phase "phaselm" tag v = realModes lib.phase "phaselm" tag v' := by
  obtain ⟨H, hn, h1, h2, h3, h4, h5, h6⟩ := h
  have e : ∀ (conv : List C → List K) (name : String), v.get? (name ++ tag) = none →
      v'.get? (name ++ tag) = some (.modesR (H.map fun p => (p.1, conv p.2))) →
      realModes conv name tag v = realModes conv name tag v' := by
    intro conv name g1 g2
    unfold realModes
    have b1 : v.has (name ++ tag) = false := (has_false_iff _ _).mpr g1
    have b2 : v'.has (name ++ tag) = true := (Dict.has_iff_get? _ _).mpr ⟨_, g2⟩
    have b3 : v.has ("hlm" ++ tag) = true := (Dict.has_iff_get? _ _).mpr ⟨_, h1⟩
    rw [b1, b2, b3, getC_of h1, getR_of g2]
    simp only [Bool.false_eq_true, if_false, if_true, ok_bind]
    rw [foldl_set_nodup conv H [] hn (by simp [Dict.keys]), Dict.update_nil _ (by rw [keys_map]; exact hn)]
    rfl
  exact ⟨e _ _ h2 h5, e _ _ h3 h6⟩

theorem newData_both {lib : WaveLib K C} {v v' : DataV K C} (h : SameWaveform lib v v') : newData lib v = newData lib v' := by
  have ho : ∀ key ∈ ["t", "t_zeroecc", "omegalm", "omegalm_zeroecc"], v.get? key = v'.get? key := h.other
  have a1 := ho "omegalm" (by simp)
  have a2 := ho "t" (by simp)
  have a3 := ho "omegalm_zeroecc" (by simp)
  have a4 := ho "t_zeroecc" (by simp)
  have e := realModes_both h.ecc
  have z : realModes lib.abs "amplm" "_zeroecc" v = realModes lib.abs "amplm" "_zeroecc" v' ∧
      realModes lib.phase "phaselm" "_zeroecc" v = realModes lib.phase "phaselm" "_zeroecc" v' := by
    rcases h.zero with hz | hz
    · exact realModes_both hz
    · exact ⟨realModes_congr _ _ _ (hz "amplm_zeroecc" (by simp)) (hz "hlm_zeroecc" (by simp)),
        realModes_congr _ _ _ (hz "phaselm_zeroecc" (by simp)) (hz "hlm_zeroecc" (by simp))⟩
  have apo : ampPhaseOmega lib v = ampPhaseOmega lib v' := by
    unfold ampPhaseOmega realModesDict
    rw [e.1, e.2, z.1, z.2, Dict.has_congr a1, Dict.has_congr a3, Dict.has_congr a4, Dict.getItem_congr a1,
      Dict.getItem_congr a3, getArr_congr a2, getArr_congr a4]
  unfold newData
  rw [apo, Dict.has_congr a2, Dict.has_congr a4, Dict.getItem_congr a2, Dict.getItem_congr a4]

theorem checkShape_both {lib : WaveLib K C} {v v' : DataV K C} (h : SameWaveform lib v v') :
    checkShape v.has = checkShape v'.has := by
  have key : ∀ tag, ComplexAndPolar lib tag v v' → v.has ("hlm" ++ tag) = true ∧ v.has ("amplm" ++ tag) = false ∧
      v.has ("phaselm" ++ tag) = false ∧ v'.has ("hlm" ++ tag) = false ∧ v'.has ("amplm" ++ tag) = true ∧
      v'.has ("phaselm" ++ tag) = true := by
    rintro tag ⟨H, hn, h1, h2, h3, h4, h5, h6⟩
    exact ⟨(Dict.has_iff_get? _ _).mpr ⟨_, h1⟩, (has_false_iff _ _).mpr h2, (has_false_iff _ _).mpr h3,
      (has_false_iff _ _).mpr h4, (Dict.has_iff_get? _ _).mpr ⟨_, h5⟩, (Dict.has_iff_get? _ _).mpr ⟨_, h6⟩⟩
  obtain ⟨b1, b2, b3, b4, b5, b6⟩ := key "" h.ecc
  have b1 : v.has "hlm" = true := b1
  have b2 : v.has "amplm" = false := b2
  have b3 : v.has "phaselm" = false := b3
  have b4 : v'.has "hlm" = false := b4
  have b5 : v'.has "amplm" = true := b5
  have b6 : v'.has "phaselm" = true := b6
  unfold checkShape
  rw [b1, b2, b3, b4, b5, b6]
  rcases h.zero with hz | hz
  · obtain ⟨c1, c2, c3, c4, c5, c6⟩ := key "_zeroecc" hz
    have c1 : v.has "hlm_zeroecc" = true := c1
    have c2 : v.has "amplm_zeroecc" = false := c2
    have c3 : v.has "phaselm_zeroecc" = false := c3
    have c4 : v'.has "hlm_zeroecc" = false := c4
    have c5 : v'.has "amplm_zeroecc" = true := c5
    have c6 : v'.has "phaselm_zeroecc" = true := c6
    rw [c1, c2, c3, c4, c5, c6]
    rfl
  · rw [Dict.has_congr (hz "hlm_zeroecc" (by simp)), Dict.has_congr (hz "amplm_zeroecc" (by simp)),
      Dict.has_congr (hz "phaselm_zeroecc" (by simp))]
    simp

theorem get?_of_key {κ V : Type} [DecidableEq κ] : ∀ {d : Dict κ V}, d.keys.Nodup → ∀ {p : κ × V}, p ∈ d → d.get? p.1 = some p.2
  | [], _, _, h => by cases h
  | q :: d, hn, p, h => by
    simp only [Dict.keys, List.map_cons, List.nodup_cons] at hn
    rw [Dict.get?_cons]
    rcases List.mem_cons.mp h with rfl | h
    · rw [if_pos rfl]
    · have hne : p.1 ≠ q.1 := by
        intro e
        exact hn.1 (e ▸ List.mem_map_of_mem h)
      rw [if_neg hne]
      exact get?_of_key hn.2 h

/-- Decomposing complex modes and putting them together again. -/
theorem polarModes_self {lib : WaveLib K C} (law : ∀ h, lib.polar (lib.abs h) (lib.phase h) = .ok h) {H : Dict LM (List C)}
    (hn : H.keys.Nodup) :
    polarModes lib (H.map fun p => (p.1, lib.abs p.2)) (H.map fun p => (p.1, lib.phase p.2)) = .ok H := by
  have key : ∀ (e acc : Dict LM (List C)), (∀ p ∈ e, H.get? p.1 = some p.2) → e.keys.Nodup → (∀ k ∈ e.keys, k ∉ acc.keys) →
      (e.map fun p => (p.1, lib.abs p.2)).foldlM (fun acc p => do
        let phi ← (Dict.getItem (H.map fun p => (p.1, lib.phase p.2)) p.1)
        let h ← lib.polar p.2 phi
        pure (Dict.set acc p.1 h)) acc = (.ok (acc ++ e) : Py (Dict LM (List C))) := by
    intro e
    induction e with
    | nil => intro acc _ _ _; simp; rfl
    | cons p e ih =>
      intro acc hm hn hd
      rw [List.map_cons, List.foldlM_cons]
      have g : Dict.getItem (H.map fun p => (p.1, lib.phase p.2)) p.1 = .ok (lib.phase p.2) := by
        refine getItem_of ?_
        rw [get?_map, hm p (by simp)]
        rfl
      simp only [Dict.keys, List.map_cons, List.nodup_cons, List.mem_cons, forall_eq_or_imp] at hn hd
      dsimp only
      rw [g]
      simp only [ok_bind]
      rw [law]
      simp only [ok_bind, pure, Except.pure]
      rw [Dict.set_append_new _ _ _ (by simpa [Dict.keys] using hd.1)]
      have := ih (acc ++ [(p.1, p.2)]) (fun q hq => hm q (by simp [hq])) hn.2 (by
        intro k hk
        simp only [Dict.keys, List.map_append, List.map_cons, List.map_nil, List.mem_append, List.mem_singleton, not_or]
        refine ⟨by simpa [Dict.keys] using hd.2 k hk, ?_⟩
        rintro rfl
        exact hn.1 hk)
      simp only [pure, Except.pure] at this
      rw [this]
      simp
  have := key H [] (fun p hp => get?_of_key hn hp) hn (by simp [Dict.keys])
  unfold polarModes
  rw [this]
  simp

/-- The frame transformation gives the same for both, if the quasicircular modes are complex. -/
theorem toCoprecessing_both {lib : WaveLib K C} (law : ∀ h, lib.polar (lib.abs h) (lib.phase h) = .ok h) {v v' : DataV K C}
    (h : SameWaveform lib v v') (hz : ∀ key ∈ ["amplm_zeroecc", "phaselm_zeroecc"], v.get? key = none ∧ v'.get? key = none)
    (hz' : v.get? "hlm_zeroecc" = none ∨ ∃ H0 : Dict LM (List C), H0.keys.Nodup ∧ v.get? "hlm_zeroecc" = some (.modesC H0)) :
    PyRel SameData (toCoprecessing lib v) (toCoprecessing lib v') := by
  obtain ⟨H, hn, h1, h2, h3, h4, h5, h6⟩ := h.ecc
  have h1 : v.get? "hlm" = some (.modesC H) := h1
  have h2 : v.get? "amplm" = none := h2
  have h3 : v.get? "phaselm" = none := h3
  have h4 : v'.get? "hlm" = none := h4
  have h5 : v'.get? "amplm" = some (.modesR (H.map fun p => (p.1, lib.abs p.2))) := h5
  have h6 : v'.get? "phaselm" = some (.modesR (H.map fun p => (p.1, lib.phase p.2))) := h6
  have hzs : v.get? "hlm_zeroecc" = v'.get? "hlm_zeroecc" := by
    rcases h.zero with ⟨H0, _, _, _, _, _, g, _⟩ | g
    · have := (hz "amplm_zeroecc" (by simp)).2
      rw [show v'.get? "amplm_zeroecc" = _ from g] at this
      cases this
    · exact g _ (by simp)
  have za := hz "amplm_zeroecc" (by simp)
  have zp := hz "phaselm_zeroecc" (by simp)
  -- the complex modes built for the second dictionary
  have hb : ∃ b, builtModes lib v' = .ok b ∧ ∀ key, (v'.update b).get? key = if key = "hlm" then some (.modesC H) else v'.get? key := by
    have hk : (Dict.keys (H.map fun p => (p.1, lib.abs p.2))).Nodup := by rw [keys_map]; exact hn
    have hk' : (Dict.keys (H.map fun p => (p.1, lib.phase p.2))).Nodup := by rw [keys_map]; exact hn
    have r1 : realModes lib.abs "amplm" "" v' = .ok (H.map fun p => (p.1, lib.abs p.2)) := by
      unfold realModes
      rw [show "amplm" ++ "" = "amplm" from rfl, (Dict.has_iff_get? _ _).mpr ⟨_, h5⟩, getR_of h5]
      simp only [if_true, ok_bind]
      rw [Dict.update_nil _ hk]; rfl
    have r2 : realModes lib.phase "phaselm" "" v' = .ok (H.map fun p => (p.1, lib.phase p.2)) := by
      unfold realModes
      rw [show "phaselm" ++ "" = "phaselm" from rfl, (Dict.has_iff_get? _ _).mpr ⟨_, h6⟩, getR_of h6]
      simp only [if_true, ok_bind]
      rw [Dict.update_nil _ hk']; rfl
    have zero : ∀ H0 : Dict LM (List C), H0.keys.Nodup → v'.get? "hlm_zeroecc" = some (.modesC H0) →
        realModes lib.abs "amplm" "_zeroecc" v' = .ok (H0.map fun p => (p.1, lib.abs p.2)) ∧
        realModes lib.phase "phaselm" "_zeroecc" v' = .ok (H0.map fun p => (p.1, lib.phase p.2)) := by
      intro H0 hn0 g
      have e : ∀ (conv : List C → List K) (name : String), v'.get? (name ++ "_zeroecc") = none →
          realModes conv name "_zeroecc" v' = .ok (H0.map fun p => (p.1, conv p.2)) := by
        intro conv name g1
        unfold realModes
        rw [(has_false_iff _ _).mpr g1, show "hlm" ++ "_zeroecc" = "hlm_zeroecc" from rfl,
          (Dict.has_iff_get? _ _).mpr ⟨_, g⟩, getC_of g]
        simp only [Bool.false_eq_true, if_false, if_true, ok_bind]
        rw [foldl_set_nodup conv H0 [] hn0 (by simp [Dict.keys])]
        rfl
      exact ⟨e _ "amplm" za.2, e _ "phaselm" zp.2⟩
    unfold builtModes realModesDict
    rw [r1, r2]
    simp only [ok_bind]
    have noZero : ∀ (r : DataV K C), hlmFromAmpPhase lib (withZeroecc "amplm" (H.map fun p => (p.1, lib.abs p.2)) [])
        (withZeroecc "phaselm" (H.map fun p => (p.1, lib.phase p.2)) []) = .ok [("hlm", .modesC H)] := by
      intro _
      unfold hlmFromAmpPhase
      rw [getR_of (d := H.map fun p => (p.1, lib.abs p.2)) (by rw [withZeroecc_get _ (Or.inl rfl), if_pos rfl]),
        getR_of (d := H.map fun p => (p.1, lib.phase p.2)) (by rw [withZeroecc_get _ (Or.inr rfl), if_pos rfl])]
      simp only [ok_bind]
      rw [polarModes_self law hn]
      rfl
    have up1 : ∀ key, (v'.update [("hlm", .modesC H)]).get? key = if key = "hlm" then some (.modesC H) else v'.get? key := by
      intro key
      show (v'.set "hlm" _).get? key = _
      rw [Dict.get?_set]
    rcases hz' with g | ⟨H0, hn0, g⟩
    · have g' : v'.get? "hlm_zeroecc" = none := by rw [← hzs]; exact g
      have e : ∀ (conv : List C → List K) (name : String), v'.get? (name ++ "_zeroecc") = none →
          realModes conv name "_zeroecc" v' = .ok [] := by
        intro conv name g1
        unfold realModes
        rw [(has_false_iff _ _).mpr g1, show "hlm" ++ "_zeroecc" = "hlm_zeroecc" from rfl, (has_false_iff _ _).mpr g']
        simp
      rw [e _ "amplm" za.2, e _ "phaselm" zp.2]
      exact ⟨_, noZero [], up1⟩
    · have g' : v'.get? "hlm_zeroecc" = some (.modesC H0) := by rw [← hzs]; exact g
      rw [(zero H0 hn0 g').1, (zero H0 hn0 g').2]
      simp only [ok_bind, pure, Except.pure]
      by_cases hemp : H0 = []
      · subst hemp
        exact ⟨_, noZero [], up1⟩
      · have hne : ∀ f : List C → List K, (H0.map fun p => (p.1, f p.2)).isEmpty = false := by
          intro f
          cases H0 with
          | nil => exact absurd rfl hemp
          | cons p H0 => rfl
        refine ⟨[("hlm", .modesC H), ("hlm_zeroecc", .modesC H0)], ?_, ?_⟩
        · show hlmFromAmpPhase lib _ _ = _
          unfold hlmFromAmpPhase
          rw [getR_of (d := H.map fun p => (p.1, lib.abs p.2)) (by rw [withZeroecc_get _ (Or.inl rfl), if_pos rfl]),
            getR_of (d := H.map fun p => (p.1, lib.phase p.2)) (by rw [withZeroecc_get _ (Or.inr rfl), if_pos rfl])]
          simp only [ok_bind]
          rw [polarModes_self law hn]
          have hh : (withZeroecc "amplm" (H.map fun p => (p.1, lib.abs p.2)) (H0.map fun p => (p.1, lib.abs p.2)) :
              DataV K C).get? "amplm_zeroecc" = some (.modesR (H0.map fun p => (p.1, lib.abs p.2))) := by
            rw [withZeroecc_get _ (Or.inl rfl), if_neg (by decide), if_pos (by decide), hne]; rfl
          have hh' : (withZeroecc "phaselm" (H.map fun p => (p.1, lib.phase p.2)) (H0.map fun p => (p.1, lib.phase p.2)) :
              DataV K C).get? "phaselm_zeroecc" = some (.modesR (H0.map fun p => (p.1, lib.phase p.2))) := by
            rw [withZeroecc_get _ (Or.inr rfl), if_neg (by decide), if_pos (by decide), hne]; rfl
          rw [(Dict.has_iff_get? _ _).mpr ⟨_, hh⟩, getR_of hh, getR_of hh']
          simp only [ok_bind, if_true]
          rw [polarModes_self law hn0]
          rfl
        · intro key
          show ((v'.set "hlm" _).set "hlm_zeroecc" _).get? key = _
          rw [Dict.get?_set, Dict.get?_set]
          by_cases e1 : key = "hlm_zeroecc"
          · subst e1; rw [if_pos rfl, if_neg (by decide), g']
          · rw [if_neg e1]
  obtain ⟨b, hb1, hb2⟩ := hb
  have ht : (v'.update b).get? "t" = v.get? "t" := by
    rw [hb2, if_neg (by decide), h.other "t" (by simp)]
  have hh : (v'.update b).get? "hlm" = v.get? "hlm" := by rw [hb2, if_pos rfl, h1]
  have first : PyRel SameData (transform lib v "") (transform lib v' "") := by
    unfold transform
    rw [show "hlm" ++ "" = "hlm" from rfl, (Dict.has_iff_get? _ _).mpr ⟨_, h1⟩, (has_false_iff _ _).mpr h4, hb1]
    simp only [if_true, Bool.false_eq_true, if_false, ok_bind]
    have hr : rotatedModes lib (v'.update b) "" = rotatedModes lib v "" := by
      unfold rotatedModes
      rw [getC_congr (show (v'.update b).get? ("hlm" ++ "") = v.get? ("hlm" ++ "") from hh),
        getArr_congr (show (v'.update b).get? ("t" ++ "") = v.get? ("t" ++ "") from ht)]
    rw [hr]
    refine PyRel.bind (PyRel.refl (R := Eq) (fun _ => rfl) _) ?_
    rintro r _ rfl
    refine .ok ?_
    intro key hk
    rw [show "omegalm" ++ "" = "omegalm" from rfl, show "amplm" ++ "" = "amplm" from rfl,
      show "phaselm" ++ "" = "phaselm" from rfl]
    simp only [Dict.get?_del, Dict.get?_set, hb2]
    simp only [recognised, List.mem_cons, List.not_mem_nil, or_false] at hk
    rcases hk with rfl | rfl | rfl | rfl | rfl | rfl | rfl | rfl | rfl | rfl
    · simpa using h.other "t" (by simp)
    · simp
    · simpa using h2
    · simpa using h3
    · simp
    · simpa using h.other "t_zeroecc" (by simp)
    · simpa using hzs
    · simpa using za.1.trans za.2.symm
    · simpa using zp.1.trans zp.2.symm
    · simpa using h.other "omegalm_zeroecc" (by simp)
  unfold toCoprecessing
  refine PyRel.bind first fun w w' hw => ?_
  rw [Dict.has_congr (hw "hlm_zeroecc" (by decide)), Dict.has_congr (hw "amplm_zeroecc" (by decide))]
  exact PyRel.ite Iff.rfl (fun _ _ => transform_rel lib (Or.inr rfl) hw) fun _ _ => .ok hw

/-- What is asked of precessing systems given in the inertial frame: the complex numbers are recovered from amplitudes and
phases, and quasicircular modes are given by complex numbers or not at all. -/
structure Spec.Recoverable (lib : WaveLib K C) (v v' : DataV K C) : Prop where
  law : ∀ h, lib.polar (lib.abs h) (lib.phase h) = .ok h
  notPolar : ∀ key ∈ ["amplm_zeroecc", "phaselm_zeroecc"], v.get? key = none ∧ v'.get? key = none
  zero : v.get? "hlm_zeroecc" = none ∨ ∃ H0 : Dict LM (List C), H0.keys.Nodup ∧ v.get? "hlm_zeroecc" = some (.modesC H0)

/-- The prepared data are the same. -/
theorem processData_both {lib : WaveLib K C} {pr : Flag} {frame : String} {numOrbits : Option K} {v v' : DataV K C} (h : SameWaveform lib v v')
    (hr : (pr = .isTrue ∧ frame = "inertial") → Recoverable lib v v') :
    processData lib pr frame v numOrbits = processData lib pr frame v' numOrbits := by
  have key : PyRel Eq (processData lib pr frame v numOrbits)
      (processData lib pr frame v' numOrbits) := by
    unfold processData
    rw [checkShape_both h]
    refine PyRel.bind (PyRel.refl (R := Eq) (fun _ => rfl) _) fun _ _ _ => ?_
    refine PyRel.bind (R := fun w w' => newData lib w = newData lib w') ?_ fun w w' hw => ?_
    · refine PyRel.ite Iff.rfl (fun hm _ => ?_) fun _ _ => .ok (newData_both h)
      unfold mustTransform at hm
      simp only [Bool.and_eq_true, decide_eq_true_eq] at hm
      obtain ⟨l, z, z'⟩ := hr hm
      exact PyRel.mono (toCoprecessing_both l h z z') fun _ _ hw => newData_congr _ hw
    · rw [hw]
      exact PyRel.refl (fun _ => rfl) _
  generalize processData lib pr frame v numOrbits = x at key
  generalize processData lib pr frame v' numOrbits = y at key
  cases key with
  | ok h => rw [h]
  | error e => rfl

/-- C83: giving the modes as complex numbers or as their amplitudes and phases makes no difference to the result of a
call. -/
theorem C83_same_result (fuel : ℕ) (lib : Libs K C) (a : Call K C) (v' : DataV K C) (h : SameWaveform lib.wave a.dataDict v')
    (hr : (a.precessing = .isTrue ∧ a.frame = "inertial") → Recoverable lib.wave a.dataDict v')
    (hl : (a.level = -1 ∨ a.level = 0 ∨ a.level = 1) ∨
      (∀ k ∈ a.dataDict.keys, k ∈ recognised) ∧ ∀ k ∈ v'.keys, k ∈ recognised) :
    (run fuel lib a).map (Except.map quiet) = (run fuel lib { a with dataDict := v' }).map (Except.map quiet) := by
  refine run_data fuel lib a v' ?_ ?_
  · have hp : processData lib.wave a.precessing a.frame a.dataDict a.numOrbits =
        processData lib.wave a.precessing a.frame v' a.numOrbits := processData_both h hr
    unfold loadWave
    dsimp only
    rw [hp, frameMessage_congr _ _ _ (checkShape_both h)]
  · rcases hl with hl | ⟨h1, h2⟩
    · rw [keyWarnings_ok hl, keyWarnings_ok hl]
      exact .ok trivial
    · rw [keyWarnings_known h1, keyWarnings_known h2]
      exact .ok trivial

end

namespace RunDemo

example : SameData data (("sxs_id", .arr []) :: data) := by
  intro key hk
  simp only [recognised, List.mem_cons, List.not_mem_nil, or_false] at hk
  rcases hk with rfl | rfl | rfl | rfl | rfl | rfl | rfl | rfl | rfl | rfl <;> rfl
example : ecc (run 60 lib { call with dataDict := ("sxs_id", .arr []) :: data }) =
    some (.ok (some (.array [10 / 81, 25 / 204]))) := by decide +kernel
example : (run 60 lib { call with dataDict := ("sxs_id", .arr []) :: data }).map (Except.map (·.built.warnings)) =
    some (.ok [.unrecognised "sxs_id"]) := by decide +kernel
example : err (run 60 lib { call with dataDict := ("sxs_id", .arr []) :: data, level := 2 }) = some (some .exception) := by
  decide +kernel
-- without the key, the strict level is passed here
example : err (run 60 lib { call with level := 2 }) = some none := by decide +kernel

-- C83
def complexData : DataV ℚ (ℚ × ℚ) :=
  [("t", .arr times), ("hlm", .modesC [((2, 2), amps.zip phases), ((2, -2), amps.zip (phases.map (- ·)))]),
    ("omegalm", .modesR [((2, 2), omegas), ((2, -2), omegas.map (- ·))])]
theorem complex_same : SameWaveform lib.wave complexData data where
  other := by
    intro key hk
    simp only [List.mem_cons, List.not_mem_nil, or_false] at hk
    rcases hk with rfl | rfl | rfl | rfl <;> rfl
  ecc := by
    have e1 : (amps.zip phases).map (·.1) = amps := by decide +kernel
    have e2 : (amps.zip (phases.map (- ·))).map (·.1) = amps := by decide +kernel
    have e3 : (amps.zip phases).map (·.2) = phases := by decide +kernel
    have e4 : (amps.zip (phases.map (- ·))).map (·.2) = phases.map (- ·) := by decide +kernel
    refine ⟨[((2, 2), amps.zip phases), ((2, -2), amps.zip (phases.map (- ·)))], by decide, rfl, rfl, rfl, rfl, ?_, ?_⟩
    · show some (Entry.modesR [((2, 2), amps), ((2, -2), amps)]) = some (Entry.modesR [((2, 2), (amps.zip phases).map (·.1)),
        ((2, -2), (amps.zip (phases.map (- ·))).map (·.1))])
      rw [e1, e2]
    · show some (Entry.modesR [((2, 2), phases), ((2, -2), phases.map (- ·))]) =
        some (Entry.modesR [((2, 2), (amps.zip phases).map (·.2)), ((2, -2), (amps.zip (phases.map (- ·))).map (·.2))])
      rw [e3, e4]
  zero := Or.inr (by
    intro key hk
    simp only [List.mem_cons, List.not_mem_nil, or_false] at hk
    rcases hk with rfl | rfl | rfl <;> rfl)
example : ecc (run 60 lib { call with dataDict := complexData }) = some (.ok (some (.array [10 / 81, 25 / 204]))) := by
  decide +kernel
example : Recoverable lib.wave complexData data where
  law := by
    intro h
    show Except.ok (List.zip (h.map (·.1)) (h.map (·.2))) = .ok h
    rw [List.zip_map', List.map_id'' (by simp)]
  notPolar := by
    intro key hk
    simp only [List.mem_cons, List.not_mem_nil, or_false] at hk
    rcases hk with rfl | rfl <;> exact ⟨rfl, rfl⟩
  zero := Or.inl rfl

end RunDemo

end GwEcc
