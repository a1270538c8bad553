import Verif.Spec.OtherModes
import Verif.Lemmas.RingdownRun

/-! Two waveforms that differ in modes the measurement is not based on. -/

set_option linter.unusedSectionVars false

namespace GwEcc

namespace Others

open Spec Turned

section
variable {K C : Type} [Field K] [LinearOrder K] [IsStrictOrderedRing K] [FloorRing K]

/-- Modes that agree, or agree in `S`. -/
def Dom {X : Type} (S : List LM) (d d' : Dict LM X) : Prop :=
  d' = d ∨ (d.has (2, 2) = true ∧ ∀ k ∈ S, d'.get? k = d.get? k)

theorem Dom.get {X : Type} {S : List LM} {d d' : Dict LM X} (h : Dom S d d') {k : LM} (hk : k ∈ S) : d'.get? k = d.get? k := by
  rcases h with rfl | ⟨_, h⟩
  · rfl
  · exact h k hk

theorem Dom.has {X : Type} {S : List LM} {d d' : Dict LM X} (h : Dom S d d') {k : LM} (hk : k ∈ S) : d'.has k = d.has k := by
  unfold Dict.has
  rw [h.get hk]

theorem Dom.getItem {X : Type} {S : List LM} {d d' : Dict LM X} (h : Dom S d d') {k : LM} (hk : k ∈ S) :
    d'.getItem k = d.getItem k := by
  unfold Dict.getItem
  rw [h.get hk]

theorem has_not_empty {X : Type} {d : Dict LM X} {k : LM} (h : d.has k = true) : d.isEmpty = false := by
  cases d with
  | nil => cases h
  | cons p d => rfl

theorem Dom.isEmpty {X : Type} {S : List LM} (hS : (2, 2) ∈ S) {d d' : Dict LM X} (h : Dom S d d') : d'.isEmpty = d.isEmpty := by
  rcases h with rfl | ⟨h1, h2⟩
  · rfl
  · rw [has_not_empty h1, has_not_empty (k := (2, 2)) (by unfold Dict.has at h1 ⊢; rw [h2 _ hS]; exact h1)]

theorem Dom.map {X Y : Type} {S : List LM} {d d' : Dict LM X} (h : Dom S d d') (f : X → Y) :
    Dom S (d.map fun p => (p.1, f p.2)) (d'.map fun p => (p.1, f p.2)) := by
  rcases h with rfl | ⟨h1, h2⟩
  · exact .inl rfl
  · refine .inr ⟨?_, fun k hk => ?_⟩
    · unfold Dict.has at h1 ⊢
      rw [Longer.get?_map]
      cases hd : d.get? (2, 2) with
      | none => rw [hd] at h1; cases h1
      | some x => rfl
    · rw [Longer.get?_map, Longer.get?_map, h2 k hk]

theorem AgreeIn.toReal {S : List LM} {d : Dict LM (List K)} {e' : Entry K C} (h : AgreeIn S (.modesR d) e') :
    ∃ d', e' = .modesR d' ∧ Dom S d d' := by
  cases h with
  | same => exact ⟨d, rfl, .inl rfl⟩
  | real _ d' h1 h2 => exact ⟨d', rfl, .inr ⟨h1, h2⟩⟩

theorem AgreeIn.toComplex {S : List LM} {d : Dict LM (List C)} {e' : Entry K C} (h : AgreeIn S (.modesC d) e') :
    ∃ d', e' = .modesC d' ∧ Dom S d d' := by
  cases h with
  | same => exact ⟨d, rfl, .inl rfl⟩
  | complex _ d' h1 h2 => exact ⟨d', rfl, .inr ⟨h1, h2⟩⟩

theorem Dom.real {S : List LM} {d d' : Dict LM (List K)} (h : Dom S d d') : AgreeIn S (.modesR d : Entry K C) (.modesR d') := by
  rcases h with rfl | ⟨h1, h2⟩
  · exact .same _
  · exact .real _ _ h1 h2

/-- Entries of the given or of the new dictionary. -/
def PO (S : List LM) (k : String) (e e' : Entry K C) : Prop :=
  if k ∈ ["hlm", "amplm", "phaselm", "omegalm", "hlm_zeroecc", "amplm_zeroecc", "phaselm_zeroecc", "omegalm_zeroecc"]
  then AgreeIn S e e' else e' = e

theorem PO.rfl' {S : List LM} (k : String) (e : Entry K C) : PO S k e e := by
  unfold PO
  split
  · exact .same e
  · rfl

theorem PO.sameFor {S : List LM} {k : String} {e e' : Entry K C} (h : PO S k e e') : AgreeIn S e e' := by
  unfold PO at h
  split at h
  · exact h
  · rw [h]
    exact .same e

theorem PO.of_dom {S : List LM} {k : String} {d d' : Dict LM (List K)} (h : Dom S d d')
    (hk : k ∈ ["hlm", "amplm", "phaselm", "omegalm", "hlm_zeroecc", "amplm_zeroecc", "phaselm_zeroecc", "omegalm_zeroecc"]) :
    PO S k (.modesR d : Entry K C) (.modesR d') := by
  unfold PO
  rw [if_pos hk]
  exact h.real

theorem OthersDiffer.toD {S : List LM} {v v' : DataV K C} (h : OthersDiffer S v v') : DRel (PO S) v v' := by
  intro k
  have hh : v'.has k = v.has k := by
    have := h.keys
    rw [Bool.eq_iff_iff, Dict.has_iff, Dict.has_iff, this]
  unfold Dict.has at hh
  cases h1 : v.get? k with
  | none =>
    cases h2 : v'.get? k with
    | none => exact .none
    | some e' => rw [h1, h2] at hh; cases hh
  | some e =>
    cases h2 : v'.get? k with
    | none => rw [h1, h2] at hh; cases hh
    | some e' => exact .some (h.entries k e e' h1 h2)

theorem getR_dom {S : List LM} {v v' : DataV K C} (h : DRel (PO S) v v') (key : String) :
    PyRel (Dom S) (getR v key) (getR v' key) := by
  unfold getR
  refine PyRel.bind (h.getItem key) fun e e' he => ?_
  have he := he.sameFor
  cases he with
  | same =>
    cases e <;> first | exact .error _ | exact .ok (.inl rfl)
  | real d d' h1 h2 => exact .ok (.inr ⟨h1, h2⟩)
  | complex d d' h1 h2 => exact .error _

theorem getC_dom {S : List LM} {v v' : DataV K C} (h : DRel (PO S) v v') (key : String) :
    PyRel (Dom S) (getC v key) (getC v' key) := by
  unfold getC
  refine PyRel.bind (h.getItem key) fun e e' he => ?_
  have he := he.sameFor
  cases he with
  | same =>
    cases e <;> first | exact .error _ | exact .ok (.inl rfl)
  | complex d d' h1 h2 => exact .ok (.inr ⟨h1, h2⟩)
  | real d d' h1 h2 => exact .error _

theorem getArr_dom {S : List LM} {v v' : DataV K C} (h : DRel (PO S) v v') (key : String) :
    PyRel (fun a b => b = a) (getArr v key) (getArr v' key) := by
  unfold getArr
  refine PyRel.bind (h.getItem key) fun e e' he => ?_
  have he := he.sameFor
  cases he with
  | same => exact same_rel _
  | complex d d' h1 h2 => exact .error _
  | real d d' h1 h2 => exact .error _

theorem foldl_conv {X Y : Type} (conv : X → Y) {d : Dict LM X} (hn : d.keys.Nodup) :
    d.foldl (fun acc p => Dict.set acc p.1 (conv p.2)) [] = d.map fun p => (p.1, conv p.2) := by
  rw [foldl_set_nodup conv d [] hn (by simp [Dict.keys])]; simp

theorem realModes_dom {S : List LM} {v v' : DataV K C} (h : DRel (PO S) v v') (hp : ProperDicts v) (hp' : ProperDicts v')
    (conv : List C → List K) (name suffix : String) :
    PyRel (Dom S) (realModes conv name suffix v) (realModes conv name suffix v') := by
  unfold realModes
  rw [h.has, h.has]
  refine PyRel.ite Iff.rfl (fun _ _ => ?_) fun _ _ => PyRel.ite Iff.rfl (fun _ _ => ?_) fun _ _ => ?_
  · refine PyRel.bind_of (getR_dom h _) fun d d' hd hd' hdd => ?_
    rw [Dict.update_nil _ ((hp _ _ (getR_ok hd)).1 _ rfl), Dict.update_nil _ ((hp' _ _ (getR_ok hd')).1 _ rfl)]
    exact .ok hdd
  · refine PyRel.bind_of (getC_dom h _) fun d d' hd hd' hdd => ?_
    rw [foldl_conv _ ((hp _ _ (getC_ok hd)).2 _ rfl), foldl_conv _ ((hp' _ _ (getC_ok hd')).2 _ rfl)]
    exact .ok (hdd.map conv)
  · exact PyRel.ite Iff.rfl (fun _ _ => .error _) fun _ _ => .ok (.inl rfl)

theorem realModes_five {lib : WaveLib K C} {v : DataV K C} (hp : ProperDicts v) (hw : WellTyped lib v) {suffix : String}
    (hs : suffix = "" ∨ suffix = "_zeroecc") {d : Dict LM (List K)} (h : realModes lib.phase "phaselm" suffix v = .ok d) :
    d.keys.Nodup ∧ ∀ p ∈ d, 5 ≤ p.2.length := by
  refine ⟨realModes_nodup _ _ _ _ h, ?_⟩
  rcases realModes_spec lib.phase hp h with ⟨_, h2, _⟩ | ⟨_, c, h2, _, rfl⟩ | ⟨_, _, _, rfl⟩
  · obtain ⟨d', e, h⟩ := hw.real _ (by rcases hs with rfl | rfl <;> decide) _ h2
    cases e
    exact h
  · obtain ⟨d', e, h⟩ := hw.complex _ (by rcases hs with rfl | rfl <;> decide) _ h2
    cases e
    intro p hp
    obtain ⟨q, hq, rfl⟩ := List.mem_map.mp hp
    exact h q hq
  · intro p hp
    cases hp

theorem omegaModes_dom {S : List LM} {t : List K} (ht : 2 ≤ t.length) {p p' : Dict LM (List K)} (h : Dom S p p')
    (hp : p.keys.Nodup ∧ ∀ q ∈ p, 5 ≤ q.2.length) (hp' : p'.keys.Nodup ∧ ∀ q ∈ p', 5 ≤ q.2.length) :
    PyRel (Dom S) (omegaModes t p) (omegaModes t p') := by
  obtain ⟨w, hw⟩ := omegaModes_ok ht p p hp.2
  obtain ⟨w', hw'⟩ := omegaModes_ok ht p' p' hp'.2
  have hw : omegaModes t p = .ok w := hw
  have hw' : omegaModes t p' = .ok w' := hw'
  rw [hw, hw']
  refine .ok ?_
  rcases h with rfl | ⟨h1, h2⟩
  · rw [hw] at hw'
    exact .inl (Except.ok.inj hw').symm
  · refine .inr ⟨?_, fun k hk => ?_⟩
    · unfold Dict.has at h1 ⊢
      rcases omegaModes_spec hp.1 hw (2, 2) with ⟨e, _⟩ | ⟨_, _, _, _, _, e, _⟩
      · rw [e] at h1; cases h1
      · rw [e]; rfl
    · rcases omegaModes_spec hp.1 hw k with ⟨e1, e2⟩ | ⟨x, y, t0, t1, e1, e2, e3, e4, e5⟩ <;>
        rcases omegaModes_spec hp'.1 hw' k with ⟨f1, f2⟩ | ⟨x', y', t0', t1', f1, f2, f3, f4, f5⟩
      · rw [e2, f2]
      · rw [h2 k hk, e1] at f1; cases f1
      · rw [h2 k hk, e1] at f1; cases f1
      · rw [h2 k hk, e1] at f1
        cases f1
        rw [e3] at f3
        rw [e4] at f4
        cases f3
        cases f4
        rw [e5] at f5
        cases f5
        rw [e2, f2]

theorem withZeroecc_dom {S : List LM} (hS : (2, 2) ∈ S) {name : String} (hn : name = "amplm" ∨ name = "phaselm")
    {a a' z z' : Dict LM (List K)} (ha : Dom S a a') (hz : Dom S z z') :
    FRel (PO (K := K) (C := C) S) (withZeroecc name a z) (withZeroecc name a' z') := by
  unfold withZeroecc
  rw [hz.isEmpty hS]
  refine .cons' (PO.of_dom ha (by rcases hn with rfl | rfl <;> decide)) ?_
  split
  · exact .nil'
  · exact .cons' (PO.of_dom hz (by rcases hn with rfl | rfl <;> decide)) .nil'

theorem ampPhaseOmega_dom {S : List LM} (hS : (2, 2) ∈ S) {lib : WaveLib K C} {v v' : DataV K C} (h : DRel (PO S) v v')
    (hp : ProperDicts v) (hp' : ProperDicts v') (hw : WellTyped lib v) (hw' : WellTyped lib v') :
    PyRel (FRel (PO S)) (ampPhaseOmega lib v) (ampPhaseOmega lib v') := by
  unfold ampPhaseOmega realModesDict
  simp only [bind_assoc]
  refine PyRel.bind (realModes_dom h hp hp' _ _ _) fun a a' ha => ?_
  refine PyRel.bind (realModes_dom h hp hp' _ _ _) fun z z' hz => ?_
  simp only [pure_eq_ok, ok_bind]
  refine PyRel.bind_of (realModes_dom h hp hp' _ _ _) fun p p' hpe hpe' hpp => ?_
  refine PyRel.bind_of (realModes_dom h hp hp' _ _ _) fun q q' hqe hqe' hqq => ?_
  have fp := realModes_five hp hw (.inl rfl) hpe
  have fp' := realModes_five hp' hw' (.inl rfl) hpe'
  have fq := realModes_five hp hw (.inr rfl) hqe
  have fq' := realModes_five hp' hw' (.inr rfl) hqe'
  have hD : FRel (PO (K := K) (C := C) S) (apDict a z p q) (apDict a' z' p' q') := by
    unfold apDict
    exact (withZeroecc_dom hS (.inr rfl) hpp hqq).update ((withZeroecc_dom hS (.inl rfl) ha hz).update .nil')
  have e1 : Dict.update (Dict.update [] (withZeroecc "amplm" a z)) (withZeroecc "phaselm" p q)
      = (apDict a z p q : DataV K C) := rfl
  have e2 : Dict.update (Dict.update [] (withZeroecc "amplm" a' z')) (withZeroecc "phaselm" p' q')
      = (apDict a' z' p' q' : DataV K C) := rfl
  simp only [e1, e2]
  have gp : ∀ a z p q, getR (apDict a z p q : DataV K C) "phaselm" = .ok p := by
    intro a z p q; apply getR_of; rw [apDict_get]; simp
  refine PyRel.bind (R := PO S "omegalm") ?_ fun w w' hww => ?_
  · rw [h.has]
    refine PyRel.ite Iff.rfl (fun _ _ => h.getItem _) fun _ _ => ?_
    refine PyRel.bind_of (getArr_dom h _) fun t t' hg _ ht => ?_
    subst ht
    obtain ⟨_, e, h2⟩ := hw.t "t" (by decide) _ (getArr_ok hg)
    cases e
    rw [gp, gp]
    simp only [ok_bind]
    refine PyRel.bind (omegaModes_dom h2 hpp fp fp') fun w w' hw => ?_
    exact .ok (PO.of_dom hw (by decide))
  · have hE : FRel (PO (K := K) (C := C) S) ((apDict a z p q).set "omegalm" w) ((apDict a' z' p' q').set "omegalm" w') :=
      hD.set hww
    have gq : ∀ a z p q w, ((apDict a z p q : DataV K C).set "omegalm" w).has "phaselm_zeroecc" = true →
        getR ((apDict a z p q : DataV K C).set "omegalm" w) "phaselm_zeroecc" = .ok q := by
      intro a z p q w hc
      unfold Dict.has at hc
      apply getR_of
      rw [Dict.get?_set, if_neg (by decide), apDict_get] at hc ⊢
      cases hqe : q.isEmpty <;> simp_all
    rw [h.has, h.has]
    refine PyRel.ite Iff.rfl (fun _ _ => ?_) fun _ _ => ?_
    · refine PyRel.bind (h.getItem _) fun x y hxy => ?_
      exact .ok (hE.set hxy)
    rw [hE.toD.has]
    refine PyRel.ite Iff.rfl (fun hc _ => ?_) fun _ _ => .ok hE
    refine PyRel.bind_of (getArr_dom h _) fun t t' hg _ ht => ?_
    subst ht
    obtain ⟨_, e, h2⟩ := hw.t "t_zeroecc" (by decide) _ (getArr_ok hg)
    cases e
    rw [Bool.and_eq_true] at hc
    rw [gq _ _ p q _ hc.1, gq _ _ p' q' _ (by rw [hE.toD.has]; exact hc.1)]
    simp only [ok_bind]
    refine PyRel.bind (omegaModes_dom h2 hqq fq fq') fun w w' hw => ?_
    exact .ok (hE.set (PO.of_dom hw (by decide)))

theorem newData_dom {S : List LM} (hS : (2, 2) ∈ S) {lib : WaveLib K C} {v v' : DataV K C} (h : DRel (PO S) v v')
    (hp : ProperDicts v) (hp' : ProperDicts v') (hw : WellTyped lib v) (hw' : WellTyped lib v') :
    PyRel (FRel (PO S)) (newData lib v) (newData lib v') := by
  unfold newData
  rw [h.has, h.has]
  refine PyRel.ite Iff.rfl (fun _ _ => ?_) fun _ _ => .error _
  refine PyRel.bind (h.getItem _) fun t t' ht => ?_
  refine PyRel.bind (R := FRel (PO S)) ?_ fun d d' hd => ?_
  · refine PyRel.ite Iff.rfl (fun _ _ => ?_) fun _ _ => .ok (.cons' ht .nil')
    refine PyRel.bind (h.getItem _) fun t0 t0' ht0 => ?_
    exact .ok (FRel.set (.cons' ht .nil') ht0)
  · refine PyRel.bind (ampPhaseOmega_dom hS h hp hp' hw hw') fun x y hxy => ?_
    exact .ok (hxy.update hd)

/-! ### The merger -/

theorem allAmps_given {lib : WaveLib K C} {v : DataV K C} (hp : ProperDicts v) {suffix : String} {a : Dict LM (List K)}
    (h : realModes lib.abs "amplm" suffix v = .ok a) :
    allAmplitudes lib v suffix = some (a.map Prod.snd) ∨ (suffix ≠ "" ∧ a = []) := by
  unfold allAmplitudes
  rcases realModes_spec lib.abs hp h with ⟨h1, h2, _⟩ | ⟨h1, c, h2, _, rfl⟩ | ⟨_, _, h3, rfl⟩
  · rw [h2]
    exact .inl rfl
  · rw [(has_false_iff _ _).mp h1, h2, List.map_map]
    exact .inl rfl
  · exact .inr ⟨h3, rfl⟩

/-- The time of the merger from the new dictionary. -/
def mergerOf (lib : WaveLib K C) (nd : DataV K C) (suffix : String) : Py K := do
  let t ← getArr nd ("t" ++ suffix)
  let a ← getR nd ("amplm" ++ suffix)
  let total ← lib.totalAmp (a.map Prod.snd)
  let q ← peakTime t total
  pure q.1

end

end Others

end GwEcc
