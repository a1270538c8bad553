import Verif.Spec.DataDict
import Verif.Lemmas.PyRel
import Verif.Lemmas.Modes
import Verif.Props.Utils

set_option linter.unusedSectionVars false

namespace GwEcc

open Spec

theorem Dict.get?_update {κ V : Type} [DecidableEq κ] (e : Dict κ V) : ∀ (d : Dict κ V) (k : κ),
    (Dict.update d e).get? k = ((Dict.update [] e).get? k).or (d.get? k) := by
  induction e using List.reverseRecOn with
  | nil => intro d k; simp [Dict.update]
  | append_singleton e p ih =>
    intro d k
    have h : ∀ d : Dict κ V, Dict.update d (e ++ [p]) = (Dict.update d e).set p.1 p.2 := by
      intro d; simp [Dict.update, List.foldl_append]
    rw [h, h, Dict.get?_set, Dict.get?_set, ih d k]
    split <;> simp

theorem Dict.getItem_congr {κ V : Type} [DecidableEq κ] {d d' : Dict κ V} {k : κ} (h : d.get? k = d'.get? k) :
    d.getItem k = d'.getItem k := by unfold Dict.getItem; rw [h]

theorem Dict.has_congr {κ V : Type} [DecidableEq κ] {d d' : Dict κ V} {k : κ} (h : d.get? k = d'.get? k) :
    d.has k = d'.has k := by unfold Dict.has; rw [h]

section
variable {K C : Type} [Field K] [LinearOrder K]

theorem getArr_congr {v v' : DataV K C} {k : String} (h : v.get? k = v'.get? k) : getArr v k = getArr v' k := by
  unfold getArr; rw [Dict.getItem_congr h]

theorem getR_congr {v v' : DataV K C} {k : String} (h : v.get? k = v'.get? k) : getR v k = getR v' k := by
  unfold getR; rw [Dict.getItem_congr h]

theorem getC_congr {v v' : DataV K C} {k : String} (h : v.get? k = v'.get? k) : getC v k = getC v' k := by
  unfold getC; rw [Dict.getItem_congr h]

theorem realModes_congr (conv : List C → List K) (name suffix : String) {v v' : DataV K C}
    (h1 : v.get? (name ++ suffix) = v'.get? (name ++ suffix)) (h2 : v.get? ("hlm" ++ suffix) = v'.get? ("hlm" ++ suffix)) :
    realModes conv name suffix v = realModes conv name suffix v' := by
  unfold realModes
  rw [Dict.has_congr h1, Dict.has_congr h2, getR_congr h1, getC_congr h2]

theorem realModesDict_congr (conv : List C → List K) {name : String} (hn : name = "amplm" ∨ name = "phaselm")
    {v v' : DataV K C} (h : SameData v v') : realModesDict conv name v = realModesDict conv name v' := by
  unfold realModesDict
  have e1 : realModes conv name "" v = realModes conv name "" v' := by
    apply realModes_congr
    · rcases hn with rfl | rfl <;> exact h _ (by decide)
    · exact h _ (by decide)
  have e2 : realModes conv name "_zeroecc" v = realModes conv name "_zeroecc" v' := by
    apply realModes_congr
    · rcases hn with rfl | rfl <;> exact h _ (by decide)
    · exact h _ (by decide)
  rw [e1, e2]

theorem ampPhaseOmega_congr (lib : WaveLib K C) {v v' : DataV K C} (h : SameData v v') :
    ampPhaseOmega lib v = ampPhaseOmega lib v' := by
  unfold ampPhaseOmega
  have a1 := h "omegalm" (by decide)
  have a2 := h "t" (by decide)
  have a3 := h "omegalm_zeroecc" (by decide)
  have a4 := h "t_zeroecc" (by decide)
  rw [realModesDict_congr _ (Or.inl rfl) h, realModesDict_congr _ (Or.inr rfl) h, Dict.has_congr a1, Dict.has_congr a3,
    Dict.has_congr a4, Dict.getItem_congr a1, Dict.getItem_congr a3, getArr_congr a2, getArr_congr a4]

theorem newData_congr (lib : WaveLib K C) {v v' : DataV K C} (h : SameData v v') : newData lib v = newData lib v' := by
  unfold newData
  have a2 := h "t" (by decide)
  have a4 := h "t_zeroecc" (by decide)
  rw [ampPhaseOmega_congr lib h, Dict.has_congr a2, Dict.has_congr a4, Dict.getItem_congr a2, Dict.getItem_congr a4]

theorem _root_.GwEcc.Spec.SameData.set {v v' : DataV K C} (h : SameData v v') (k : String) (x : Entry K C) :
    SameData (v.set k x) (v'.set k x) := by
  intro key hk; rw [Dict.get?_set, Dict.get?_set, h key hk]

theorem _root_.GwEcc.Spec.SameData.del {v v' : DataV K C} (h : SameData v v') (k : String) : SameData (Dict.del v k) (Dict.del v' k) := by
  intro key hk; rw [Dict.get?_del, Dict.get?_del, h key hk]

theorem _root_.GwEcc.Spec.SameData.update {v v' : DataV K C} (h : SameData v v') (e : DataV K C) : SameData (v.update e) (v'.update e) := by
  intro key hk; rw [Dict.get?_update, Dict.get?_update _ v', h key hk]

theorem rotatedModes_congr (lib : WaveLib K C) {tag : String} (ht : tag = "" ∨ tag = "_zeroecc") {v v' : DataV K C}
    (h : SameData v v') : rotatedModes lib v tag = rotatedModes lib v' tag := by
  unfold rotatedModes
  have e1 : v.get? ("hlm" ++ tag) = v'.get? ("hlm" ++ tag) := by rcases ht with rfl | rfl <;> exact h _ (by decide)
  have e2 : v.get? ("t" ++ tag) = v'.get? ("t" ++ tag) := by rcases ht with rfl | rfl <;> exact h _ (by decide)
  rw [getC_congr e1, getArr_congr e2]

theorem builtModes_congr (lib : WaveLib K C) {v v' : DataV K C} (h : SameData v v') :
    builtModes lib v = builtModes lib v' := by
  unfold builtModes
  rw [realModesDict_congr _ (Or.inl rfl) h, realModesDict_congr _ (Or.inr rfl) h]

theorem transform_rel (lib : WaveLib K C) {tag : String} (ht : tag = "" ∨ tag = "_zeroecc") {v v' : DataV K C}
    (h : SameData v v') : PyRel SameData (transform lib v tag) (transform lib v' tag) := by
  unfold transform
  have e1 : v.get? ("hlm" ++ tag) = v'.get? ("hlm" ++ tag) := by rcases ht with rfl | rfl <;> exact h _ (by decide)
  rw [Dict.has_congr e1, rotatedModes_congr lib ht h, builtModes_congr lib h]
  refine PyRel.ite Iff.rfl (fun _ _ => ?_) fun _ _ => ?_
  · exact PyRel.bind (PyRel.refl (R := Eq) (fun _ => rfl) _) fun r r' e => by
      subst e; exact .ok ((h.set _ _).del _)
  · refine PyRel.bind (PyRel.refl (R := Eq) (fun _ => rfl) _) fun b b' e => ?_
    subst e
    dsimp only
    rw [rotatedModes_congr lib ht (h.update b)]
    exact PyRel.bind (PyRel.refl (R := Eq) (fun _ => rfl) _) fun r r' e => by
      subst e; exact .ok (((((h.update b).set _ _).del _).del _).del _)

theorem toCoprecessing_rel (lib : WaveLib K C) {v v' : DataV K C} (h : SameData v v') :
    PyRel SameData (toCoprecessing lib v) (toCoprecessing lib v') := by
  unfold toCoprecessing
  refine PyRel.bind (transform_rel lib (Or.inl rfl) h) fun w w' hw => ?_
  rw [Dict.has_congr (hw "hlm_zeroecc" (by decide)), Dict.has_congr (hw "amplm_zeroecc" (by decide))]
  exact PyRel.ite Iff.rfl (fun _ _ => transform_rel lib (Or.inr rfl) hw) fun _ _ => .ok hw

theorem checkShape_congr {v v' : DataV K C} (h : SameData v v') : checkShape v.has = checkShape v'.has := by
  unfold checkShape
  rw [Dict.has_congr (h "hlm" (by decide)), Dict.has_congr (h "amplm" (by decide)),
    Dict.has_congr (h "phaselm" (by decide)), Dict.has_congr (h "hlm_zeroecc" (by decide)),
    Dict.has_congr (h "amplm_zeroecc" (by decide)), Dict.has_congr (h "phaselm_zeroecc" (by decide))]

theorem processData_congr [FloorRing K] (lib : WaveLib K C) (pr : Flag) (frame : String) (n : Option K) {v v' : DataV K C}
    (h : SameData v v') : processData lib pr frame v n = processData lib pr frame v' n := by
  have key : PyRel Eq (processData lib pr frame v n) (processData lib pr frame v' n) := by
    unfold processData
    rw [checkShape_congr h]
    refine PyRel.bind (PyRel.refl (R := Eq) (fun _ => rfl) _) fun _ _ _ => ?_
    refine PyRel.bind (R := SameData) ?_ fun w w' hw => ?_
    · exact PyRel.ite Iff.rfl (fun _ _ => toCoprecessing_rel lib h) fun _ _ => .ok h
    · rw [newData_congr lib hw]
      exact PyRel.refl (fun _ => rfl) _
  generalize processData lib pr frame v n = x at key
  generalize processData lib pr frame v' n = y at key
  cases key with
  | ok h => rw [h]
  | error e => rfl


/-! ### Contents of the new dictionary -/

theorem _root_.GwEcc.Dict.set_append_new {κ V : Type} [DecidableEq κ] : ∀ (d : Dict κ V) (k : κ) (v : V),
    k ∉ d.keys → d.set k v = d ++ [(k, v)]
  | [], _, _, _ => rfl
  | p :: d, k, v, h => by
    simp only [Dict.keys, List.map_cons, List.mem_cons, not_or] at h
    unfold Dict.set
    rw [if_neg h.1, Dict.set_append_new d k v h.2]; rfl

theorem foldl_set_nodup {κ V W : Type} [DecidableEq κ] (f : V → W) : ∀ (e : Dict κ V) (acc : Dict κ W),
    e.keys.Nodup → (∀ k ∈ e.keys, k ∉ acc.keys) →
    e.foldl (fun acc p => acc.set p.1 (f p.2)) acc = acc ++ e.map (fun p => (p.1, f p.2))
  | [], acc, _, _ => by simp
  | p :: e, acc, hn, hd => by
    simp only [Dict.keys, List.map_cons, List.nodup_cons, List.mem_cons, forall_eq_or_imp] at hn hd
    rw [List.foldl_cons, Dict.set_append_new _ _ _ (by simpa [Dict.keys] using hd.1),
      foldl_set_nodup f e _ hn.2, List.map_cons]
    · simp
    · intro k hk
      simp only [Dict.keys, List.map_append, List.map_cons, List.map_nil, List.mem_append, List.mem_singleton, not_or]
      refine ⟨by simpa [Dict.keys] using hd.2 k hk, ?_⟩
      rintro rfl
      exact hn.1 hk

/-- Copying a dictionary gives the same dictionary. -/
theorem Dict.update_nil {κ V : Type} [DecidableEq κ] (e : Dict κ V) (hn : e.keys.Nodup) : Dict.update [] e = e := by
  unfold Dict.update
  have := foldl_set_nodup (fun x : V => x) e [] hn (by simp [Dict.keys])
  simpa using this

/-- What `newData` puts under each key. -/
structure NewDataSpec (lib : WaveLib K C) (v nd : DataV K C) : Prop where
  t : v.has "t" = true ∧ nd.get? "t" = v.get? "t"
  t0 : nd.get? "t_zeroecc" = v.get? "t_zeroecc"
  amp : ∃ a z, realModes lib.abs "amplm" "" v = .ok a ∧ realModes lib.abs "amplm" "_zeroecc" v = .ok z ∧
    nd.get? "amplm" = some (.modesR a) ∧ nd.get? "amplm_zeroecc" = if z.isEmpty then none else some (.modesR z)
  omega : ∃ a z w, realModes lib.phase "phaselm" "" v = .ok a ∧ realModes lib.phase "phaselm" "_zeroecc" v = .ok z ∧
    nd.get? "phaselm" = some (.modesR a) ∧ (nd.get? "phaselm_zeroecc" = if z.isEmpty then none else some (.modesR z)) ∧
    nd.get? "omegalm" = some w ∧
    (v.get? "omegalm" = some w ∨
      v.get? "omegalm" = none ∧ ∃ t w', getArr v "t" = .ok t ∧ omegaModes t a = .ok w' ∧ w = .modesR w') ∧
    ((v.has "omegalm_zeroecc" = true ∧ nd.get? "omegalm_zeroecc" = v.get? "omegalm_zeroecc") ∨
      (v.has "omegalm_zeroecc" = false ∧ z.isEmpty = false ∧ v.has "t_zeroecc" = true ∧
        ∃ t w', getArr v "t_zeroecc" = .ok t ∧ omegaModes t z = .ok w' ∧ nd.get? "omegalm_zeroecc" = some (.modesR w')) ∨
      (v.has "omegalm_zeroecc" = false ∧ (z.isEmpty = true ∨ v.has "t_zeroecc" = false) ∧
        nd.get? "omegalm_zeroecc" = none))
  rest : ∀ key, key ∉ ["t", "t_zeroecc", "amplm", "amplm_zeroecc", "phaselm", "phaselm_zeroecc", "omegalm",
    "omegalm_zeroecc"] → nd.get? key = none


/-- The dictionary built from amplitudes and phases, key by key. -/
def apDict (a z p q : Dict LM (List K)) : DataV K C :=
  Dict.update (Dict.update [] (withZeroecc "amplm" a z)) (withZeroecc "phaselm" p q)

theorem apDict_get (a z p q : Dict LM (List K)) (key : String) :
    (apDict a z p q : DataV K C).get? key =
      if key = "amplm" then some (.modesR a) else
      if key = "amplm_zeroecc" then (if z.isEmpty then none else some (.modesR z)) else
      if key = "phaselm" then some (.modesR p) else
      if key = "phaselm_zeroecc" then (if q.isEmpty then none else some (.modesR q)) else none := by
  unfold apDict withZeroecc
  cases hz : z.isEmpty <;> cases hq : q.isEmpty <;>
    simp only [Dict.update, List.foldl_cons, List.foldl_nil, Dict.get?_set, Dict.get?_nil, Bool.false_eq_true, if_true,
      if_false, hz, hq, show "amplm" ++ "_zeroecc" = "amplm_zeroecc" from rfl,
      show "phaselm" ++ "_zeroecc" = "phaselm_zeroecc" from rfl] <;>
    (by_cases h1 : key = "amplm"; · subst h1; simp
     by_cases h2 : key = "amplm_zeroecc"; · subst h2; simp
     by_cases h3 : key = "phaselm"; · subst h3; simp
     by_cases h4 : key = "phaselm_zeroecc"; · subst h4; simp
     simp [h1, h2, h3, h4])


/-- A successful `getItem`. -/
theorem getItem_ok {κ V : Type} [DecidableEq κ] {d : Dict κ V} {k : κ} {x : V} (h : d.getItem k = .ok x) :
    d.get? k = some x := by
  unfold Dict.getItem at h
  split at h
  · rename_i y hy; cases h; exact hy
  · cases h

theorem getItem_of {κ V : Type} [DecidableEq κ] {d : Dict κ V} {k : κ} {x : V} (h : d.get? k = some x) :
    d.getItem k = .ok x := by unfold Dict.getItem; rw [h]

theorem getR_of {v : DataV K C} {k : String} {d : Dict LM (List K)} (h : v.get? k = some (.modesR d)) :
    getR v k = .ok d := by unfold getR; rw [getItem_of h]; rfl

theorem getR_ok {v : DataV K C} {k : String} {d : Dict LM (List K)} (h : getR v k = .ok d) :
    v.get? k = some (.modesR d) := by
  unfold getR at h
  obtain ⟨x, h1, h2⟩ := bind_ok h
  cases x <;> cases h2
  exact getItem_ok h1

theorem getC_of {v : DataV K C} {k : String} {d : Dict LM (List C)} (h : v.get? k = some (.modesC d)) :
    getC v k = .ok d := by unfold getC; rw [getItem_of h]; rfl

theorem getC_ok {v : DataV K C} {k : String} {d : Dict LM (List C)} (h : getC v k = .ok d) :
    v.get? k = some (.modesC d) := by
  unfold getC at h
  obtain ⟨x, h1, h2⟩ := bind_ok h
  cases x <;> cases h2
  exact getItem_ok h1

theorem getArr_of {v : DataV K C} {k : String} {l : List K} (h : v.get? k = some (.arr l)) :
    getArr v k = .ok l := by unfold getArr; rw [getItem_of h]; rfl

theorem getArr_ok {v : DataV K C} {k : String} {l : List K} (h : getArr v k = .ok l) :
    v.get? k = some (.arr l) := by
  unfold getArr at h
  obtain ⟨x, h1, h2⟩ := bind_ok h
  cases x <;> cases h2
  exact getItem_ok h1

theorem has_false_iff {κ V : Type} [DecidableEq κ] (d : Dict κ V) (k : κ) : d.has k = false ↔ d.get? k = none := by
  unfold Dict.has; cases d.get? k <;> simp

/-- The first part of `ampPhaseOmega`. -/
theorem ampPhaseOmega_ok {lib : WaveLib K C} {v d : DataV K C} (h : ampPhaseOmega lib v = .ok d) :
    ∃ a z p q w, realModes lib.abs "amplm" "" v = .ok a ∧ realModes lib.abs "amplm" "_zeroecc" v = .ok z ∧
      realModes lib.phase "phaselm" "" v = .ok p ∧ realModes lib.phase "phaselm" "_zeroecc" v = .ok q ∧
      (v.get? "omegalm" = some w ∨
        v.get? "omegalm" = none ∧ ∃ t w', getArr v "t" = .ok t ∧ omegaModes t p = .ok w' ∧ w = .modesR w') ∧
      ((v.has "omegalm_zeroecc" = true ∧ ∃ x, v.get? "omegalm_zeroecc" = some x ∧
          d = ((apDict a z p q).set "omegalm" w).set "omegalm_zeroecc" x) ∨
        (v.has "omegalm_zeroecc" = false ∧ q.isEmpty = false ∧ v.has "t_zeroecc" = true ∧
          ∃ t w', getArr v "t_zeroecc" = .ok t ∧ omegaModes t q = .ok w' ∧
            d = ((apDict a z p q).set "omegalm" w).set "omegalm_zeroecc" (.modesR w')) ∨
        (v.has "omegalm_zeroecc" = false ∧ (q.isEmpty = true ∨ v.has "t_zeroecc" = false) ∧
          d = (apDict a z p q).set "omegalm" w)) := by
  unfold ampPhaseOmega realModesDict at h
  obtain ⟨da, h1, h⟩ := bind_ok h
  obtain ⟨a, ha, h1⟩ := bind_ok h1
  obtain ⟨z, hz, h1⟩ := bind_ok h1
  cases h1
  obtain ⟨dp, h1, h⟩ := bind_ok h
  obtain ⟨p, hp, h1⟩ := bind_ok h1
  obtain ⟨q, hq, h1⟩ := bind_ok h1
  cases h1
  have hd : Dict.update (Dict.update [] (withZeroecc "amplm" a z)) (withZeroecc "phaselm" p q)
      = (apDict a z p q : DataV K C) := rfl
  simp only [hd] at h
  obtain ⟨w, hw, h⟩ := bind_ok h
  refine ⟨a, z, p, q, w, ha, hz, hp, hq, ?_, ?_⟩
  · split at hw
    · exact Or.inl (getItem_ok hw)
    · rename_i hn
      right
      refine ⟨(has_false_iff _ _).mp (by simpa using hn), ?_⟩
      obtain ⟨t, ht, hw⟩ := bind_ok hw
      obtain ⟨p', hp', hw⟩ := bind_ok hw
      obtain ⟨w', hw', hw⟩ := bind_ok hw
      cases hw
      have := getR_ok hp'
      rw [apDict_get] at this
      simp at this
      subst this
      exact ⟨t, w', ht, hw', rfl⟩
  · have hq0 : ((apDict a z p q).set "omegalm" w : DataV K C).has "phaselm_zeroecc" = !q.isEmpty := by
      unfold Dict.has
      rw [Dict.get?_set, apDict_get]
      cases hqe : q.isEmpty <;> simp
    split at h
    · rename_i h0
      obtain ⟨x, hx, h⟩ := bind_ok h
      cases h
      exact Or.inl ⟨h0, x, getItem_ok hx, rfl⟩
    · rename_i h0
      have h0 : v.has "omegalm_zeroecc" = false := by simpa using h0
      rw [hq0] at h
      split at h
      · rename_i hc
        simp only [Bool.and_eq_true, Bool.not_eq_true'] at hc
        obtain ⟨t, ht, h⟩ := bind_ok h
        obtain ⟨p', hp', h⟩ := bind_ok h
        obtain ⟨w', hw', h⟩ := bind_ok h
        cases h
        have := getR_ok hp'
        rw [Dict.get?_set, apDict_get] at this
        simp [hc.1] at this
        subst this
        exact Or.inr (Or.inl ⟨h0, hc.1, hc.2, t, w', ht, hw', rfl⟩)
      · rename_i hc
        cases h
        refine Or.inr (Or.inr ⟨h0, ?_, rfl⟩)
        cases hqe : q.isEmpty <;> cases hte : v.has "t_zeroecc" <;> simp_all

theorem newData_spec {lib : WaveLib K C} {v nd : DataV K C} (h : newData lib v = .ok nd) : NewDataSpec lib v nd := by
  unfold newData at h
  split at h
  case isFalse => cases h
  rename_i hht
  obtain ⟨t, ht, h⟩ := bind_ok h
  have ht := getItem_ok ht
  obtain ⟨n0, hn0, h⟩ := bind_ok h
  obtain ⟨d, hd, h⟩ := bind_ok h
  cases h
  have hn0g : ∀ key, n0.get? key = if key = "t" then some t else if key = "t_zeroecc" then v.get? "t_zeroecc" else none := by
    intro key
    split at hn0
    · obtain ⟨t0, ht0, hn0⟩ := bind_ok hn0
      cases hn0
      rw [Dict.get?_set, Dict.get?_cons, getItem_ok ht0]
      by_cases h1 : key = "t"
      · subst h1; simp
      · simp [h1]
    · rename_i h0
      cases hn0
      rw [Dict.get?_cons]
      have : v.get? "t_zeroecc" = none := (has_false_iff _ _).mp (by simpa using h0)
      rw [this]
      simp
  obtain ⟨a, z, p, q, w, ha, hz, hp, hq, hw, hcase⟩ := ampPhaseOmega_ok hd
  have hnd : ∀ key, (Dict.update n0 d).get? key = ((Dict.update [] d).get? key).or (n0.get? key) :=
    fun key => Dict.get?_update d n0 key
  have hnod : (apDict a z p q : DataV K C).keys.Nodup := by
    unfold apDict withZeroecc
    cases z.isEmpty <;> cases q.isEmpty <;> simp [Dict.update, Dict.set, Dict.keys]
  have hset : ∀ (e : DataV K C) k x, e.keys.Nodup → (e.set k x).keys.Nodup := by
    intro e k x he
    induction e with
    | nil => simp [Dict.set, Dict.keys]
    | cons b e ih =>
      simp only [Dict.keys, List.map_cons, List.nodup_cons] at he
      unfold Dict.set
      split
      · rename_i hk; subst hk; simpa [Dict.keys] using he
      · rename_i hk
        simp only [Dict.keys, List.map_cons, List.nodup_cons]
        refine ⟨?_, ih he.2⟩
        intro hm
        rw [← Dict.keys, ← Dict.has_iff, Dict.has, Dict.get?_set, if_neg (Ne.symm hk), ← Dict.has, Dict.has_iff] at hm
        exact he.1 hm
  have hdn : d.keys.Nodup := by
    rcases hcase with ⟨_, x, _, rfl⟩ | ⟨_, _, _, t, w', _, _, rfl⟩ | ⟨_, _, rfl⟩
    · exact hset _ _ _ (hset _ _ _ hnod)
    · exact hset _ _ _ (hset _ _ _ hnod)
    · exact hset _ _ _ hnod
  rw [Dict.update_nil d hdn] at hnd
  have hdg : ∀ key, key ≠ "omegalm_zeroecc" → d.get? key = if key = "omegalm" then some w else (apDict a z p q).get? key := by
    intro key hk
    rcases hcase with ⟨_, x, _, rfl⟩ | ⟨_, _, _, t, w', _, _, rfl⟩ | ⟨_, _, rfl⟩
    · rw [Dict.get?_set, if_neg hk, Dict.get?_set]
    · rw [Dict.get?_set, if_neg hk, Dict.get?_set]
    · rw [Dict.get?_set]
  constructor
  · refine ⟨hht, ?_⟩
    rw [hnd, hdg _ (by decide), apDict_get, hn0g, ht]; simp
  · rw [hnd, hdg _ (by decide), apDict_get, hn0g]; simp
  · refine ⟨a, z, ha, hz, ?_, ?_⟩
    · rw [hnd, hdg _ (by decide), apDict_get]; simp
    · rw [hnd, hdg _ (by decide), apDict_get, hn0g]
      cases z.isEmpty <;> simp
  · refine ⟨p, q, w, hp, hq, ?_, ?_, ?_, hw, ?_⟩
    · rw [hnd, hdg _ (by decide), apDict_get]; simp
    · rw [hnd, hdg _ (by decide), apDict_get, hn0g]
      cases q.isEmpty <;> simp
    · rw [hnd, hdg _ (by decide)]; simp
    · rcases hcase with ⟨h0, x, hx, rfl⟩ | ⟨h0, h1, h2, t, w', ht', hw', rfl⟩ | ⟨h0, h1, rfl⟩
      · left
        refine ⟨h0, ?_⟩
        rw [hnd, Dict.get?_set, hx]; simp
      · right; left
        refine ⟨h0, h1, h2, t, w', ht', hw', ?_⟩
        rw [hnd, Dict.get?_set]; simp
      · right; right
        refine ⟨h0, h1, ?_⟩
        rw [hnd, Dict.get?_set, apDict_get, hn0g]; simp
  · intro key hk
    simp only [List.mem_cons, not_or, List.not_mem_nil, not_false_eq_true, and_true] at hk
    obtain ⟨k1, k2, k3, k4, k5, k6, k7, k8⟩ := hk
    rw [hnd, hdg key k8, if_neg k7, apDict_get, hn0g]
    simp [k1, k2, k3, k4, k5, k6]

end

end GwEcc
