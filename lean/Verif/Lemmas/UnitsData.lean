import Verif.Spec.Rescale
import Verif.Lemmas.DataDict
import Verif.Lemmas.Process
import Verif.Lemmas.UnitsMeasure
import Verif.Props.DataUnits

set_option linter.unusedSectionVars false

/-! The preparation of the data in other units. -/

namespace GwEcc

open Spec

/-! ### Dictionaries changed entry by entry -/

namespace Dict

variable {κ V W : Type} [DecidableEq κ] (f : κ → V → W)

/-- Apply a function to every entry. -/
def mapE (d : Dict κ V) : Dict κ W := d.map fun p => (p.1, f p.1 p.2)

theorem get?_mapE (d : Dict κ V) (k : κ) : (mapE f d).get? k = (d.get? k).map (f k) := by
  induction d with
  | nil => rfl
  | cons p d ih =>
    unfold mapE at ih ⊢
    rw [List.map_cons, get?_cons, get?_cons, ih]
    by_cases h : k = p.1
    · simp [h]
    · simp [h]

theorem has_mapE (d : Dict κ V) (k : κ) : (mapE f d).has k = d.has k := by
  unfold has; rw [get?_mapE]; cases d.get? k <;> rfl

theorem getItem_mapE (d : Dict κ V) (k : κ) : (mapE f d).getItem k = (d.getItem k).map (f k) := by
  unfold getItem; rw [get?_mapE]; cases d.get? k <;> rfl

theorem set_mapE (d : Dict κ V) (k : κ) (v : V) : (mapE f d).set k (f k v) = mapE f (d.set k v) := by
  induction d with
  | nil => rfl
  | cons p d ih =>
    unfold mapE at ih ⊢
    obtain ⟨k', v'⟩ := p
    rw [List.map_cons]
    unfold set
    dsimp only
    split
    · rename_i h; subst h; rfl
    · rw [ih]; rfl

theorem update_mapE (e : Dict κ V) : ∀ d : Dict κ V, (mapE f d).update (mapE f e) = mapE f (d.update e) := by
  induction e with
  | nil => intro d; rfl
  | cons p e ih =>
    intro d
    have h1 : (mapE f d).update (mapE f (p :: e)) = ((mapE f d).set p.1 (f p.1 p.2)).update (mapE f e) := rfl
    have h2 : d.update (p :: e) = (d.set p.1 p.2).update e := rfl
    rw [h1, h2, set_mapE, ih]

theorem del_mapE (d : Dict κ V) (k : κ) : del (mapE f d) k = mapE f (del d k) := by
  unfold mapE del
  rw [List.filter_map]
  congr 1

theorem keys_mapE (d : Dict κ V) : (mapE f d).keys = d.keys := by
  unfold mapE keys; rw [List.map_map]; rfl

end Dict

section
variable {K C : Type} [Field K] [LinearOrder K]

theorem newDict_eq (u : Units K C) (v : DataV K C) : newDict u v = Dict.mapE (newEntry u) v := rfl

theorem newDict_has (u : Units K C) (v : DataV K C) (k : String) : (newDict u v).has k = v.has k := Dict.has_mapE _ v k

theorem newDict_getItem (u : Units K C) (v : DataV K C) (k : String) :
    (newDict u v).getItem k = (v.getItem k).map (newEntry u k) := Dict.getItem_mapE _ v k

theorem newDict_set (u : Units K C) (v : DataV K C) (k : String) (x : Entry K C) :
    (newDict u v).set k (newEntry u k x) = newDict u (v.set k x) := Dict.set_mapE _ v k x

theorem newDict_update (u : Units K C) (v w : DataV K C) : (newDict u v).update (newDict u w) = newDict u (v.update w) :=
  Dict.update_mapE _ w v

theorem newDict_del (u : Units K C) (v : DataV K C) (k : String) : Dict.del (newDict u v) k = newDict u (Dict.del v k) :=
  Dict.del_mapE _ v k

theorem newDict_keys (u : Units K C) (v : DataV K C) : (newDict u v).keys = v.keys := Dict.keys_mapE _ v

/-- The factor for a quantity. -/
def timeOf (u : Units K C) (tag : String) : K → K := newTime u.k (if tag = "" then u.c else u.c0)

theorem entry_t (u : Units K C) {tag : String} (h : tag = "" ∨ tag = "_zeroecc") :
    newEntry u ("t" ++ tag) = onArr (timeOf u tag) := by
  rcases h with rfl | rfl <;> simp [newEntry, timeOf]

theorem entry_hlm (u : Units K C) {tag : String} (h : tag = "" ∨ tag = "_zeroecc") :
    newEntry u ("hlm" ++ tag) = onComplex u.scale := by
  rcases h with rfl | rfl <;> simp [newEntry]

theorem entry_amp (u : Units K C) {tag : String} (h : tag = "" ∨ tag = "_zeroecc") :
    newEntry u ("amplm" ++ tag) = onReal (u.s * ·) := by
  rcases h with rfl | rfl <;> simp [newEntry]

theorem entry_phase (u : Units K C) {tag : String} (h : tag = "" ∨ tag = "_zeroecc") :
    newEntry u ("phaselm" ++ tag) = onReal id := by
  rcases h with rfl | rfl
  all_goals
    funext e
    cases e <;> simp [newEntry, onReal]

theorem entry_omega (u : Units K C) {tag : String} (h : tag = "" ∨ tag = "_zeroecc") :
    newEntry u ("omegalm" ++ tag) = onReal (newFreq u.k) := by
  rcases h with rfl | rfl <;> simp [newEntry]

/-- Modes with a function applied to every number. -/
def mapModes {X Y : Type} (f : X → Y) (d : Dict LM (List X)) : Dict LM (List Y) := Dict.mapE (fun _ l => l.map f) d

theorem mapModes_id {X : Type} (d : Dict LM (List X)) : mapModes id d = d := by
  unfold mapModes Dict.mapE; simp

theorem getR_new (u : Units K C) (v : DataV K C) (key : String) (f : K → K) (h : newEntry u key = onReal f) :
    PyRel (fun d d' => d' = mapModes f d) (getR v key) (getR (newDict u v) key) := by
  unfold getR
  rw [newDict_getItem, h]
  cases v.getItem key with
  | error e => exact .error _
  | ok e => cases e <;> first | exact .ok rfl | exact .error _

theorem getC_new (u : Units K C) (v : DataV K C) (key : String) (f : C → C) (h : newEntry u key = onComplex f) :
    PyRel (fun d d' => d' = mapModes f d) (getC v key) (getC (newDict u v) key) := by
  unfold getC
  rw [newDict_getItem, h]
  cases v.getItem key with
  | error e => exact .error _
  | ok e => cases e <;> first | exact .ok rfl | exact .error _

theorem getArr_new (u : Units K C) (v : DataV K C) (key : String) (f : K → K) (h : newEntry u key = onArr f) :
    PyRel (fun d d' => d' = d.map f) (getArr v key) (getArr (newDict u v) key) := by
  unfold getArr
  rw [newDict_getItem, h]
  cases v.getItem key with
  | error e => exact .error _
  | ok e => cases e <;> first | exact .ok rfl | exact .error _

theorem item_new {X Y : Type} (f : X → Y) (d : Dict LM (List X)) (m : LM) :
    PyRel (fun l l' => l' = l.map f) (d.getItem m) ((mapModes f d).getItem m) :=
  PyRel.of_map (Dict.getItem_mapE _ d m)

/-! ### The new dictionary -/

theorem foldl_conv {X Y : Type} (conv : List X → List Y) (g : X → X) (f : Y → Y)
    (hc : ∀ l, conv (l.map g) = (conv l).map f) : ∀ (d : Dict LM (List X)) (acc : Dict LM (List Y)),
    (mapModes g d).foldl (fun acc p => acc.set p.1 (conv p.2)) (mapModes f acc)
      = mapModes f (d.foldl (fun acc p => acc.set p.1 (conv p.2)) acc)
  | [], _ => rfl
  | p :: d, acc => by
    have h1 : (mapModes g (p :: d)).foldl (fun acc p => acc.set p.1 (conv p.2)) (mapModes f acc)
      = (mapModes g d).foldl (fun acc p => acc.set p.1 (conv p.2)) ((mapModes f acc).set p.1 (conv (p.2.map g))) := rfl
    rw [h1, hc]
    have h2 : (mapModes f acc).set p.1 ((conv p.2).map f) = mapModes f (acc.set p.1 (conv p.2)) :=
      Dict.set_mapE (fun (_ : LM) (l : List Y) => l.map f) acc p.1 (conv p.2)
    rw [h2, foldl_conv conv g f hc d]
    rfl

theorem realModes_new (u : Units K C) (conv : List C → List K) (name suffix : String) (f : K → K)
    (h : suffix = "" ∨ suffix = "_zeroecc") (hn : newEntry u (name ++ suffix) = onReal f)
    (hc : ∀ l, conv (l.map u.scale) = (conv l).map f) (v : DataV K C) :
    PyRel (fun d d' => d' = mapModes f d) (realModes conv name suffix v) (realModes conv name suffix (newDict u v)) := by
  unfold realModes
  rw [newDict_has, newDict_has]
  refine PyRel.ite Iff.rfl (fun _ _ => ?_) fun _ _ => ?_
  · refine PyRel.bind (getR_new u v _ f hn) fun d d' hd => ?_
    subst hd
    exact .ok (Dict.update_mapE (fun (_ : LM) (l : List K) => l.map f) d [])
  refine PyRel.ite Iff.rfl (fun _ _ => ?_) fun _ _ => ?_
  · refine PyRel.bind (getC_new u v _ _ (entry_hlm u h)) fun d d' hd => ?_
    subst hd
    exact .ok (foldl_conv conv u.scale f hc d [])
  · exact PyRel.ite Iff.rfl (fun _ _ => .error _) fun _ _ => .ok rfl

theorem withZeroecc_new (u : Units K C) (name : String) (f : K → K) (h1 : newEntry u (name ++ "") = onReal f)
    (h2 : newEntry u (name ++ "_zeroecc") = onReal f) (a z : Dict LM (List K)) :
    (withZeroecc name (mapModes f a) (mapModes f z) : DataV K C) = newDict u (withZeroecc name a z) := by
  rw [String.append_empty] at h1
  unfold withZeroecc
  cases z with
  | nil => simp only [newDict, List.map_cons, mapModes, Dict.mapE, h1]; rfl
  | cons p z =>
    simp only [newDict, List.map_cons, mapModes, Dict.mapE, h1, h2, List.isEmpty_cons, Bool.false_eq_true, if_false,
      List.map_nil]
    rfl

theorem realModesDict_new (u : Units K C) (conv : List C → List K) (name : String) (f : K → K)
    (h1 : newEntry u (name ++ "") = onReal f) (h2 : newEntry u (name ++ "_zeroecc") = onReal f)
    (hc : ∀ l, conv (l.map u.scale) = (conv l).map f) (v : DataV K C) :
    PyRel (fun d d' => d' = newDict u d) (realModesDict conv name v) (realModesDict conv name (newDict u v)) := by
  unfold realModesDict
  refine PyRel.bind (realModes_new u conv name "" f (Or.inl rfl) h1 hc v) fun a a' ha => ?_
  refine PyRel.bind (realModes_new u conv name "_zeroecc" f (Or.inr rfl) h2 hc v) fun z z' hz => ?_
  subst ha hz
  exact .ok (withZeroecc_new u name f h1 h2 a z)

theorem update_nil_nodup {X : Type} (d : Dict LM X) : (Dict.update [] d).keys.Nodup := by
  have key : ∀ (e acc : Dict LM X), acc.keys.Nodup → (acc.update e).keys.Nodup := by
    intro e
    induction e with
    | nil => intro acc h; exact h
    | cons p e ih => intro acc h; exact ih _ (Dict.nodup_set _ _ h)
  exact key d [] (by simp [Dict.keys])

theorem foldl_set_keys {X Y : Type} (conv : List X → List Y) (d : Dict LM (List X)) :
    (Dict.keys (d.foldl (fun (acc : Dict LM (List Y)) p => acc.set p.1 (conv p.2)) [])).Nodup := by
  have key : ∀ (e : Dict LM (List X)) (acc : Dict LM (List Y)), acc.keys.Nodup →
      (Dict.keys (e.foldl (fun (acc : Dict LM (List Y)) p => acc.set p.1 (conv p.2)) acc)).Nodup := by
    intro e
    induction e with
    | nil => intro acc h; exact h
    | cons p e ih => intro acc h; exact ih _ (Dict.nodup_set _ _ h)
  exact key d [] (by simp [Dict.keys])

theorem realModes_nodup (conv : List C → List K) (name suffix : String) (v : DataV K C) {d : Dict LM (List K)}
    (h : realModes conv name suffix v = .ok d) : d.keys.Nodup := by
  unfold realModes at h
  split at h
  · obtain ⟨e, _, h⟩ := bind_ok h
    cases h
    exact update_nil_nodup e
  · split at h
    · obtain ⟨e, _, h⟩ := bind_ok h
      cases h
      exact foldl_set_keys conv e
    · split at h
      · cases h
      · cases h
        simp [Dict.keys]

end

section
variable {K C : Type} [Field K] [LinearOrder K] [IsStrictOrderedRing K] [FloorRing K]

/-- Frequencies already computed are in the new units, the others not yet. -/
def HalfDone (k : K) (todo : List LM) (q q' : LM × List K) : Prop :=
  q'.1 = q.1 ∧ (q.1 ∉ todo → q'.2 = q.2.map (newFreq k))

theorem halfDone_set {k : K} {m : LM} {todo : List LM} {x x' : List K} (hx : x' = x.map (newFreq k)) (hm : m ∉ todo) :
    ∀ {acc acc' : Dict LM (List K)}, acc.keys.Nodup → List.Forall₂ (HalfDone k (m :: todo)) acc acc' →
    List.Forall₂ (HalfDone k todo) (acc.set m x) (acc'.set m x')
  | [], _, _, h => by
    cases h
    exact .cons ⟨rfl, fun _ => hx⟩ .nil
  | p :: acc, _, hn, h => by
    obtain ⟨k1, v1⟩ := p
    cases h with
    | cons h1 h2 =>
      rename_i p' acc'
      obtain ⟨k2, v2⟩ := p'
      obtain ⟨e, h1⟩ := h1
      dsimp only at e h1
      subst e
      simp only [Dict.keys, List.map_cons, List.nodup_cons] at hn
      unfold Dict.set
      by_cases hk : m = k2
      · subst hk
        simp only [if_true]
        refine .cons ⟨rfl, fun _ => hx⟩ ?_
        refine List.Forall₂.imp ?_ (List.forall₂_and_left (p := fun q : LM × List K => q ∈ acc) acc acc' |>.mpr ⟨fun _ h => h, h2⟩)
        rintro q q' ⟨hq, e, h⟩
        refine ⟨e, fun hq' => h ?_⟩
        rw [List.mem_cons, not_or]
        refine ⟨?_, hq'⟩
        intro e'
        apply hn.1
        rw [← e']
        exact List.mem_map_of_mem hq
      · rw [if_neg hk, if_neg hk]
        refine .cons ⟨rfl, fun hq => h1 ?_⟩ (halfDone_set hx hm hn.2 h2)
        rw [List.mem_cons, not_or]
        exact ⟨fun e => hk e.symm, hq⟩

theorem omegaModes_new {k : K} (hk : 0 < k) (c : K) (t : List K) {p : Dict LM (List K)} (hn : p.keys.Nodup) :
    PyRel (fun d d' => d' = mapModes (newFreq k) d) (omegaModes t p) (omegaModes (t.map (newTime k c)) p) := by
  unfold omegaModes
  have key : ∀ (e acc acc' : Dict LM (List K)), e.keys.Nodup → acc.keys.Nodup →
      List.Forall₂ (HalfDone k e.keys) acc acc' →
      PyRel (fun d d' => d' = mapModes (newFreq k) d)
        (e.foldlM (fun acc p => do
          let t1 ← pyGet t 1
          let t0 ← pyGet t 0
          let w ← timeDeriv4 p.2 (t1 - t0)
          pure (acc.set p.1 w)) acc)
        (e.foldlM (fun acc p => do
          let t1 ← pyGet (t.map (newTime k c)) 1
          let t0 ← pyGet (t.map (newTime k c)) 0
          let w ← timeDeriv4 p.2 (t1 - t0)
          pure (acc.set p.1 w)) acc') := by
    intro e
    induction e with
    | nil =>
      intro acc acc' _ _ h
      refine .ok ?_
      clear hn
      have all : ∀ (l l' : Dict LM (List K)), List.Forall₂ (HalfDone k []) l l' → l' = mapModes (newFreq k) l := by
        intro l l' h
        induction h with
        | nil => rfl
        | @cons q q' l l' h1 _ ih =>
          show q' :: l' = (q.1, q.2.map (newFreq k)) :: mapModes (newFreq k) l
          rw [← ih, ← h1.1, ← h1.2 (by simp)]
      exact all _ _ h
    | cons p e ih =>
      intro acc acc' he ha h
      rw [List.foldlM_cons, List.foldlM_cons]
      simp only [Dict.keys, List.map_cons, List.nodup_cons] at he
      refine PyRel.bind (R := fun a b => List.Forall₂ (HalfDone k (Dict.keys e)) a b ∧ (Dict.keys a).Nodup) ?_
        fun a b hab => ih a b he.2 hab.2 hab.1
      refine PyRel.bind (PyRel.pyGet (s := newTime k c) t 1) fun t1 t1' h1 => ?_
      refine PyRel.bind (PyRel.pyGet (s := newTime k c) t 0) fun t0 t0' h0 => ?_
      subst h1 h0
      have ed : newTime k c t1 - newTime k c t0 = k * (t1 - t0) := by unfold newTime; ring
      rw [ed, timeDeriv4_units _ _ _ hk]
      cases timeDeriv4 p.2 (t1 - t0) with
      | error e => exact .error _
      | ok w => exact .ok ⟨halfDone_set rfl he.1 ha h, Dict.nodup_set _ _ ha⟩
  exact key p p p hn hn (by
    rw [List.forall₂_same]
    rintro q hq
    refine ⟨rfl, fun h => absurd (List.mem_map_of_mem hq) h⟩)

theorem ampPhaseOmega_new {lib : WaveLib K C} {u : Units K C} (hk : 0 < u.k) (hl : WaveUnitFree lib u) (v : DataV K C) :
    PyRel (fun d d' => d' = newDict u d) (ampPhaseOmega lib v) (ampPhaseOmega lib (newDict u v)) := by
  have h0 : ("" : String) = "" ∨ ("" : String) = "_zeroecc" := Or.inl rfl
  have h1 : ("_zeroecc" : String) = "" ∨ ("_zeroecc" : String) = "_zeroecc" := Or.inr rfl
  have ha := realModes_new u lib.abs "amplm" "" _ h0 (entry_amp u h0) hl.abs v
  have hz := realModes_new u lib.abs "amplm" "_zeroecc" _ h1 (entry_amp u h1) hl.abs v
  have hphase : ∀ l, lib.phase (l.map u.scale) = (lib.phase l).map id := fun l => by rw [hl.phase, List.map_id]
  have hp := realModes_new u lib.phase "phaselm" "" id h0 (entry_phase u h0) hphase v
  have hq := realModes_new u lib.phase "phaselm" "_zeroecc" id h1 (entry_phase u h1) hphase v
  unfold ampPhaseOmega realModesDict
  simp only [bind_assoc]
  refine PyRel.bind ha fun a a' ha => ?_
  refine PyRel.bind hz fun z z' hz => ?_
  simp only [pure_eq_ok, ok_bind]
  cases hpe : realModes lib.phase "phaselm" "" v with
  | error e =>
    rw [hpe] at hp
    generalize realModes lib.phase "phaselm" "" (newDict u v) = x at hp ⊢
    cases hp
    exact .error _
  | ok p =>
  rw [hpe] at hp
  generalize realModes lib.phase "phaselm" "" (newDict u v) = x at hp ⊢
  cases hp with
  | ok hp =>
  rename_i p'
  cases hqe : realModes lib.phase "phaselm" "_zeroecc" v with
  | error e =>
    rw [hqe] at hq
    generalize realModes lib.phase "phaselm" "_zeroecc" (newDict u v) = x at hq ⊢
    cases hq
    exact .error _
  | ok q =>
  rw [hqe] at hq
  generalize realModes lib.phase "phaselm" "_zeroecc" (newDict u v) = x at hq ⊢
  cases hq with
  | ok hq =>
  rename_i q'
  have np := realModes_nodup _ _ _ _ hpe
  have nq := realModes_nodup _ _ _ _ hqe
  simp only [ok_bind]
  have hD : Dict.update (Dict.update [] (withZeroecc "amplm" a' z')) (withZeroecc "phaselm" p' q')
      = newDict u (apDict a z p q) := by
    subst ha hz hp hq
    rw [withZeroecc_new u "amplm" _ (entry_amp u h0) (entry_amp u h1),
      withZeroecc_new u "phaselm" _ (entry_phase u h0) (entry_phase u h1)]
    have : (Dict.update [] (newDict u (withZeroecc "amplm" a z)) : DataV K C)
      = newDict u (Dict.update [] (withZeroecc "amplm" a z)) := newDict_update u [] _
    rw [this, newDict_update]
    rfl
  rw [mapModes_id] at hp hq
  subst hp hq
  have hD' : Dict.update (Dict.update [] (withZeroecc "amplm" a z)) (withZeroecc "phaselm" p' q')
      = (apDict a z p' q' : DataV K C) := rfl
  simp only [hD, hD']
  have gp : getR (apDict a z p' q' : DataV K C) "phaselm" = .ok p' := by
    apply getR_of; rw [apDict_get]; simp
  have new : ∀ (E : DataV K C) (key : String) (x : Dict LM (List K)), newEntry u key = onReal id → getR E key = .ok x →
      getR (newDict u E) key = .ok x := by
    intro E key x hkey hx
    have := getR_new u E key id hkey
    rw [hx] at this
    generalize getR (newDict u E) key = y at this ⊢
    cases this with
    | ok h => rw [h, mapModes_id]
  refine PyRel.bind (R := fun x y => y = newEntry u "omegalm" x) ?_ fun w w' hw => ?_
  · rw [newDict_has]
    refine PyRel.ite Iff.rfl (fun _ _ => ?_) fun _ _ => ?_
    · exact PyRel.of_map (newDict_getItem u v _)
    · refine PyRel.bind (getArr_new u v "t" _ (entry_t u h0)) fun t t' ht => ?_
      subst ht
      rw [gp, new _ "phaselm" _ (entry_phase u h0) gp]
      simp only [ok_bind]
      refine PyRel.bind (omegaModes_new hk _ t np) fun w w' hw => ?_
      subst hw
      refine .ok ?_
      rw [show "omegalm" = "omegalm" ++ "" from rfl, entry_omega u h0]
      rfl
  · subst hw
    rw [newDict_set]
    generalize hE : Dict.set (apDict a z p' q' : DataV K C) "omegalm" w = E
    rw [newDict_has, newDict_has, newDict_has]
    refine PyRel.ite Iff.rfl (fun _ _ => ?_) fun _ _ => ?_
    · refine PyRel.bind (PyRel.of_map (newDict_getItem u v _)) fun x y hxy => ?_
      subst hxy
      exact .ok (newDict_set u E _ x)
    refine PyRel.ite Iff.rfl (fun hc _ => ?_) fun _ _ => .ok rfl
    refine PyRel.bind (getArr_new u v "t_zeroecc" _ (entry_t u h1)) fun t t' ht => ?_
    subst ht
    have gq : getR E "phaselm_zeroecc" = .ok q' := by
      rw [Bool.and_eq_true] at hc
      have hc := hc.1
      unfold Dict.has at hc
      apply getR_of
      rw [← hE, Dict.get?_set, if_neg (by decide), apDict_get] at hc ⊢
      cases hqe : q'.isEmpty <;> simp_all
    rw [gq, new _ "phaselm_zeroecc" _ (entry_phase u h1) gq]
    simp only [ok_bind]
    refine PyRel.bind (omegaModes_new hk _ t nq) fun w w' hw => ?_
    subst hw
    refine .ok ?_
    rw [← newDict_set, show "omegalm_zeroecc" = "omegalm" ++ "_zeroecc" from rfl, entry_omega u h1]
    rfl

theorem newData_new {lib : WaveLib K C} {u : Units K C} (hk : 0 < u.k) (hl : WaveUnitFree lib u) (v : DataV K C) :
    PyRel (fun d d' => d' = newDict u d) (newData lib v) (newData lib (newDict u v)) := by
  unfold newData
  rw [newDict_has, newDict_has]
  refine PyRel.ite Iff.rfl (fun _ _ => ?_) fun _ _ => .error _
  refine PyRel.bind (PyRel.of_map (newDict_getItem u v _)) fun t t' ht => ?_
  subst ht
  have e : ([("t", newEntry u "t" t)] : DataV K C) = newDict u [("t", t)] := rfl
  simp only [e]
  refine PyRel.bind (R := fun d d' => d' = newDict u d) ?_ fun d d' hd => ?_
  · refine PyRel.ite Iff.rfl (fun _ _ => ?_) fun _ _ => .ok rfl
    refine PyRel.bind (PyRel.of_map (newDict_getItem u v _)) fun t t' ht => ?_
    subst ht
    exact .ok (newDict_set u _ _ t)
  · subst hd
    refine PyRel.bind (ampPhaseOmega_new hk hl v) fun x y hxy => ?_
    subst hxy
    exact .ok (newDict_update u d x)

/-! ### Frame transformation -/

theorem packageModes_new {X : Type} (zero : X) (f : X → X) (h0 : f zero = zero) (d : Dict LM (List X)) (l1 l2 : ℤ) :
    PyRel (fun r r' => r' = r.map (List.map f)) (packageModes zero d l1 l2) (packageModes zero (mapModes f d) l1 l2) := by
  unfold packageModes
  refine PyRel.bind (item_new f d _) fun h h' hh => ?_
  subst hh
  refine PyRel.ite Iff.rfl (fun _ _ => .error _) fun _ _ => ?_
  refine PyRel.bind (R := fun s s' => s'.1 = s.1.map (List.map f) ∧ s'.2 = s.2) ?_ fun s s' hs => .ok hs.1
  rw [List.length_map]
  have key : ∀ (l : List LM) (s s' : List (List X) × ℕ), s'.1 = s.1.map (List.map f) ∧ s'.2 = s.2 →
      PyRel (fun s s' => s'.1 = s.1.map (List.map f) ∧ s'.2 = s.2) (l.foldlM (packStep d h.length) s)
        (l.foldlM (packStep (mapModes f d) h.length) s') := by
    intro l
    induction l with
    | nil => intro s s' hs; exact .ok hs
    | cons m l ih =>
      intro s s' hs
      rw [List.foldlM_cons, List.foldlM_cons]
      refine PyRel.bind ?_ fun a b hab => ih a b hab
      obtain ⟨s1, s2⟩ := s
      obtain ⟨s1', s2'⟩ := s'
      dsimp only at hs
      obtain ⟨rfl, rfl⟩ := hs
      unfold packStep
      unfold mapModes
      rw [Dict.get?_mapE]
      cases d.get? m with
      | none => exact .error _
      | some x =>
        simp only [Option.map_some, List.length_map]
        refine PyRel.ite Iff.rfl (fun _ _ => .error _) fun _ _ => ?_
        refine PyRel.ite Iff.rfl (fun _ _ => .error _) fun _ _ => ?_
        exact .ok ⟨by rw [List.map_set], rfl⟩
  refine key _ _ _ ⟨?_, rfl⟩
  simp only [List.map_replicate, h0]

theorem unpackModes_new {X : Type} (f : X → X) (cols : List (List X)) (l1 l2 : ℤ) :
    PyRel (fun r r' => r' = mapModes f r) (unpackModes cols l1 l2) (unpackModes (cols.map (List.map f)) l1 l2) := by
  unfold unpackModes
  have key : ∀ (l : List LM) (acc : Dict LM (List X)),
      PyRel (fun r r' => r' = mapModes f r)
        (l.foldlM (fun acc k => do
          let col ← pyGet cols (scriIndex l1 k).toNat
          pure (acc.set k col)) acc)
        (l.foldlM (fun acc k => do
          let col ← pyGet (cols.map (List.map f)) (scriIndex l1 k).toNat
          pure (acc.set k col)) (mapModes f acc)) := by
    intro l
    induction l with
    | nil => intro acc; exact .ok rfl
    | cons m l ih =>
      intro acc
      rw [List.foldlM_cons, List.foldlM_cons]
      refine PyRel.bind (R := fun a b => b = mapModes f a) ?_ fun a b hab => by subst hab; exact ih a
      refine PyRel.bind (PyRel.pyGet (s := List.map f) cols _) fun x y hxy => ?_
      subst hxy
      exact .ok (Dict.set_mapE (fun (_ : LM) (l : List X) => l.map f) acc m x)
  exact key _ []

theorem rotatedModes_new {lib : WaveLib K C} {u : Units K C} (hl : WaveUnitFree lib u) (v : DataV K C) {tag : String}
    (ht : tag = "" ∨ tag = "_zeroecc") :
    PyRel (fun d d' => d' = mapModes u.scale d) (rotatedModes lib v tag) (rotatedModes lib (newDict u v) tag) := by
  unfold rotatedModes
  refine PyRel.bind (getC_new u v _ _ (entry_hlm u ht)) fun h h' hh => ?_
  subst hh
  refine PyRel.bind (packageModes_new lib.zero u.scale hl.zero h 2 2) fun cols cols' hc => ?_
  subst hc
  refine PyRel.bind (getArr_new u v _ _ (entry_t u ht)) fun t t' htt => ?_
  subst htt
  refine PyRel.bind (PyRel.of_map (hl.rotate _ t cols)) fun r r' hr => ?_
  subst hr
  exact unpackModes_new u.scale r 2 2

theorem polarModes_new {lib : WaveLib K C} {u : Units K C} (hl : WaveUnitFree lib u) (a p : Dict LM (List K)) :
    PyRel (fun d d' => d' = mapModes u.scale d) (polarModes lib a p) (polarModes lib (mapModes (u.s * ·) a) p) := by
  unfold polarModes
  have key : ∀ (l : Dict LM (List K)) (acc : Dict LM (List C)),
      PyRel (fun r r' => r' = mapModes u.scale r)
        (l.foldlM (fun acc q => do
          let phi ← p.getItem q.1
          let h ← lib.polar q.2 phi
          pure (acc.set q.1 h)) acc)
        ((mapModes (u.s * ·) l).foldlM (fun acc q => do
          let phi ← p.getItem q.1
          let h ← lib.polar q.2 phi
          pure (acc.set q.1 h)) (mapModes u.scale acc)) := by
    intro l
    induction l with
    | nil => intro acc; exact .ok rfl
    | cons q l ih =>
      intro acc
      have e : mapModes (u.s * ·) (q :: l) = (q.1, q.2.map (u.s * ·)) :: mapModes (u.s * ·) l := rfl
      rw [e, List.foldlM_cons, List.foldlM_cons]
      refine PyRel.bind (R := fun a b => b = mapModes u.scale a) ?_ fun a b hab => by subst hab; exact ih a
      refine PyRel.bind (PyRel.refl (R := Eq) (fun _ => rfl) _) ?_
      rintro phi _ rfl
      refine PyRel.bind (PyRel.of_map (hl.polar q.2 phi)) fun x y hxy => ?_
      subst hxy
      exact .ok (Dict.set_mapE (fun (_ : LM) (l : List C) => l.map u.scale) acc q.1 x)
  exact key a []

theorem builtModes_new {lib : WaveLib K C} {u : Units K C} (hl : WaveUnitFree lib u) (v : DataV K C) :
    PyRel (fun d d' => d' = newDict u d) (builtModes lib v) (builtModes lib (newDict u v)) := by
  have h0 : ("" : String) = "" ∨ ("" : String) = "_zeroecc" := Or.inl rfl
  have h1 : ("_zeroecc" : String) = "" ∨ ("_zeroecc" : String) = "_zeroecc" := Or.inr rfl
  have hphase : ∀ l, lib.phase (l.map u.scale) = (lib.phase l).map id := fun l => by rw [hl.phase, List.map_id]
  have e0 : newEntry u "hlm" = onComplex u.scale := entry_hlm u h0
  have e1 : newEntry u "hlm_zeroecc" = onComplex u.scale := entry_hlm u h1
  unfold builtModes
  refine PyRel.bind (realModesDict_new u lib.abs "amplm" _ (entry_amp u h0) (entry_amp u h1) hl.abs v) fun A A' hA => ?_
  refine PyRel.bind (realModesDict_new u lib.phase "phaselm" id (entry_phase u h0) (entry_phase u h1) hphase v)
    fun P P' hP => ?_
  subst hA hP
  unfold hlmFromAmpPhase
  refine PyRel.bind (getR_new u A _ _ (entry_amp u h0)) fun a a' ha => ?_
  refine PyRel.bind (getR_new u P _ _ (entry_phase u h0)) fun p p' hp => ?_
  rw [mapModes_id] at hp
  subst ha hp
  refine PyRel.bind (polarModes_new hl a p') fun h h' hh => ?_
  subst hh
  rw [newDict_has]
  refine PyRel.ite Iff.rfl (fun _ _ => ?_) fun _ _ => .ok (by simp only [newDict, List.map_cons, e0]; rfl)
  refine PyRel.bind (getR_new u A _ _ (entry_amp u h1)) fun a a' ha => ?_
  refine PyRel.bind (getR_new u P _ _ (entry_phase u h1)) fun p p' hp => ?_
  rw [mapModes_id] at hp
  subst ha hp
  refine PyRel.bind (polarModes_new hl a p') fun g g' hg => ?_
  subst hg
  exact .ok (by simp only [newDict, List.map_cons, e0, e1]; rfl)

theorem transform_new {lib : WaveLib K C} {u : Units K C} (hl : WaveUnitFree lib u) (v : DataV K C) {tag : String}
    (ht : tag = "" ∨ tag = "_zeroecc") :
    PyRel (fun d d' => d' = newDict u d) (transform lib v tag) (transform lib (newDict u v) tag) := by
  have set : ∀ (x : DataV K C) (r : Dict LM (List C)),
      (newDict u x).set ("hlm" ++ tag) (.modesC (mapModes u.scale r)) = newDict u (x.set ("hlm" ++ tag) (.modesC r)) := by
    intro x r
    rw [← newDict_set, entry_hlm u ht]
    rfl
  unfold transform
  rw [newDict_has]
  refine PyRel.ite Iff.rfl (fun _ _ => ?_) fun _ _ => ?_
  · refine PyRel.bind (rotatedModes_new hl v ht) fun r r' hr => ?_
    subst hr
    refine .ok ?_
    rw [set, newDict_del]
  · refine PyRel.bind (builtModes_new hl v) fun h h' hh => ?_
    subst hh
    simp only [newDict_update]
    refine PyRel.bind (rotatedModes_new hl _ ht) fun r r' hr => ?_
    subst hr
    refine .ok ?_
    rw [set, newDict_del, newDict_del, newDict_del]

theorem toCoprecessing_new {lib : WaveLib K C} {u : Units K C} (hl : WaveUnitFree lib u) (v : DataV K C) :
    PyRel (fun d d' => d' = newDict u d) (toCoprecessing lib v) (toCoprecessing lib (newDict u v)) := by
  unfold toCoprecessing
  refine PyRel.bind (transform_new hl v (Or.inl rfl)) fun x y hxy => ?_
  subst hxy
  rw [newDict_has, newDict_has]
  exact PyRel.ite Iff.rfl (fun _ _ => transform_new hl x (Or.inr rfl)) fun _ _ => .ok rfl

/-! ### Quantities and the analysis -/

theorem npZip_new (f g : K → K → K) (s : K → K) (h : ∀ x y, g (s x) (s y) = s (f x y)) (a b : List K) :
    PyRel (fun r r' => r' = r.map s) (npZip f a b) (npZip g (a.map s) (b.map s)) := by
  unfold npZip
  rw [List.length_map, List.length_map]
  refine PyRel.ite Iff.rfl (fun _ _ => ?_) fun _ _ => .error _
  refine .ok ?_
  rw [List.zipWith_map, List.map_zipWith]
  congr 1
  funext x y
  exact h x y

theorem gwQuantities_new (u : Units K C) (pr : Bool) (v : DataV K C) {tag : String} (ht : tag = "" ∨ tag = "_zeroecc") :
    PyRel (fun r r' => r' = (r.1.map (u.s * ·), r.2.1, r.2.2.map (newFreq u.k))) (gwQuantities pr v tag)
      (gwQuantities pr (newDict u v) tag) := by
  unfold gwQuantities
  refine PyRel.bind (getR_new u v _ _ (entry_amp u ht)) fun a a' ha => ?_
  refine PyRel.bind (getR_new u v _ _ (entry_phase u ht)) fun p p' hp => ?_
  rw [mapModes_id] at hp
  subst ha hp
  refine PyRel.ite Iff.rfl (fun _ _ => ?_) fun _ _ => ?_
  · refine PyRel.bind (item_new _ a _) fun x x' hx => ?_
    refine PyRel.bind (PyRel.refl (R := Eq) (fun _ => rfl) _) ?_
    rintro y _ rfl
    refine PyRel.bind (getR_new u v _ _ (entry_omega u ht)) fun w w' hw => ?_
    subst hx hw
    refine PyRel.bind (item_new _ w _) fun z z' hz => ?_
    subst hz
    exact .ok rfl
  have hh : (mapModes (u.s * ·) a).has (2, -2) = a.has (2, -2) := Dict.has_mapE _ a _
  rw [hh]
  refine PyRel.ite Iff.rfl (fun _ _ => .error _) fun _ _ => ?_
  refine PyRel.ite Iff.rfl (fun _ _ => .error _) fun _ _ => ?_
  refine PyRel.bind (item_new _ a _) fun x x' hx => ?_
  refine PyRel.bind (item_new _ a _) fun y y' hy => ?_
  subst hx hy
  refine PyRel.bind (npZip_new _ _ (u.s * ·) (fun x y => by ring) x y) fun A A' hA => ?_
  refine PyRel.bind (PyRel.refl (R := Eq) (fun _ => rfl) _) ?_
  rintro x2 _ rfl
  refine PyRel.bind (PyRel.refl (R := Eq) (fun _ => rfl) _) ?_
  rintro y2 _ rfl
  refine PyRel.bind (PyRel.refl (R := Eq) (fun _ => rfl) _) ?_
  rintro P _ rfl
  refine PyRel.bind (getR_new u v _ _ (entry_omega u ht)) fun w w' hw => ?_
  subst hw
  refine PyRel.bind (item_new _ w _) fun x x' hx => ?_
  refine PyRel.bind (item_new _ w _) fun y y' hy => ?_
  subst hx hy
  refine PyRel.bind (npZip_new _ _ (newFreq u.k) (fun x y => by unfold newFreq; ring) x y) fun W W' hW => ?_
  subst hA hW
  exact .ok rfl

theorem argmin_scale {k : K} (hk : 0 < k) (l : List K) : argmin (l.map (k * ·)) = argmin l := by
  cases l with
  | nil => rfl
  | cons a l =>
    cases h : argmin (a :: l) with
    | error e => simp [argmin] at h
    | ok i => exact argmin_map_pos hk h

theorem nearest_new {k : K} (hk : 0 < k) (c : K) (t : List K) (x : K) :
    argmin ((t.map (newTime k c)).map fun y => |y - newTime k c x|) = argmin (t.map fun y => |y - x|) := by
  rw [← argmin_scale hk (t.map fun y => |y - x|), List.map_map, List.map_map]
  congr 1
  apply List.map_congr_left
  intro y _
  simp only [Function.comp]
  have : newTime k c y - newTime k c x = k * (y - x) := by unfold newTime; ring
  rw [this, abs_mul, abs_of_pos hk]

theorem peakTime_new {k s : K} (hk : 0 < k) (hs : 0 < s) (c : K) (t a : List K) :
    PyRel (fun r r' => r'.1 = newTime k c r.1) (peakTime t a) (peakTime (t.map (newTime k c)) (a.map (s * ·))) := by
  have e : peakTime (t.map (newTime k c)) (a.map (s * ·)) = (peakTime t a).map (fun r => (newTime k c r.1, s * r.2)) := by
    have h := C17_time_affine t (a.map (s * ·)) k c hk
    have h2 := C17_amplitude_scale t a s hs
    show peakTime (t.map (fun x => k * x + c)) (a.map (s * ·)) = _
    rw [h, h2]
    cases peakTime t a <;> rfl
  exact (PyRel.of_map e).mono fun a b h => by rw [h]

theorem peakWidth_new {k : K} (hk : 0 < k) (c pi : K) (t p : List K) (pm : K) :
    peakWidth pi (t.map (newTime k c)) p pm = peakWidth pi t p pm := by
  have : PyRel Eq (peakWidth pi t p pm) (peakWidth pi (t.map (newTime k c)) p pm) := by
    unfold peakWidth
    refine PyRel.bind (PyRel.refl (R := Eq) (fun _ => rfl) _) ?_
    rintro i _ rfl
    refine PyRel.bind (PyRel.pyGet (s := newTime k c) t _) fun t2 t2' h2 => ?_
    refine PyRel.bind (PyRel.refl (R := Eq) (fun _ => rfl) _) ?_
    rintro j _ rfl
    refine PyRel.bind (PyRel.pyGet (s := newTime k c) t _) fun t1 t1' h1 => ?_
    refine PyRel.bind (PyRel.pyGet (s := newTime k c) t _) fun s1 s1' g1 => ?_
    refine PyRel.bind (PyRel.pyGet (s := newTime k c) t _) fun s0 s0' g0 => ?_
    subst h2 h1 g1 g0
    have e : ∀ x y, newTime k c x - newTime k c y = k * (x - y) := fun x y => by unfold newTime; ring
    simp only [e]
    refine PyRel.ite (by simp [hk.ne']) (fun _ _ => .error _) fun _ _ => ?_
    rw [mul_div_mul_left _ _ hk.ne']
    exact .ok rfl
  revert this
  generalize peakWidth pi t p pm = x
  generalize peakWidth pi (t.map (newTime k c)) p pm = y
  intro h
  cases h with
  | ok h => rw [h]
  | error e => rfl

/-- The analysis in the new units. -/
def newAnalysis (u : Units K C) (an : Analysis K) : Analysis K :=
  ⟨newTime u.k u.c an.tMerger, u.s * an.ampMerger, an.width, an.cut⟩

theorem analyse_new {lib : WaveLib K C} {u : Units K C} (hk : 0 < u.k) (hs : 0 < u.s) (hl : WaveUnitFree lib u) (pr : Bool)
    (nd : DataV K C) (n : Option K) :
    PyRel (fun r r' => r' = newAnalysis u r) (analyse lib pr nd n) (analyse lib pr (newDict u nd) n) := by
  have h0 : ("" : String) = "" ∨ ("" : String) = "_zeroecc" := Or.inl rfl
  unfold analyse
  refine PyRel.bind (getArr_new u nd _ _ (entry_t u h0)) fun t t' ht => ?_
  refine PyRel.bind (getR_new u nd _ _ (entry_amp u h0)) fun a a' ha => ?_
  subst ht ha
  have hta : PyRel (fun r r' => r' = r.map (u.s * ·)) (lib.totalAmp (a.map Prod.snd))
      (lib.totalAmp ((mapModes (u.s * ·) a).map Prod.snd)) := by
    apply PyRel.of_map
    rw [← hl.total]
    congr 1
    simp [mapModes, Dict.mapE]
  refine PyRel.bind hta fun total total' ht => ?_
  subst ht
  refine PyRel.bind (peakTime_new hk hs _ t total) fun r r' hr => ?_
  obtain ⟨tM, x⟩ := r
  obtain ⟨tM', x'⟩ := r'
  dsimp only at hr ⊢
  subst hr
  have htt : timeOf u "" = newTime u.k u.c := rfl
  simp only [htt, if_true]
  rw [nearest_new hk]
  refine PyRel.bind (PyRel.refl (R := Eq) (fun _ => rfl) _) ?_
  rintro mi _ rfl
  refine PyRel.bind (gwQuantities_new u pr nd h0) fun q q' hq => ?_
  obtain ⟨amp, phase, omega⟩ := q
  subst hq
  dsimp only
  refine PyRel.bind (PyRel.pyGet (s := (u.s * ·)) amp mi) fun aM aM' haM => ?_
  refine PyRel.bind (PyRel.refl (R := Eq) (fun _ => rfl) _) ?_
  rintro pM _ rfl
  refine PyRel.bind (PyRel.pyGet (s := newFreq u.k) omega mi) fun oM oM' hoM => ?_
  refine PyRel.bind (PyRel.refl (R := Eq) (fun _ => rfl) _) ?_
  rintro p0 _ rfl
  subst haM hoM
  refine PyRel.ite Iff.rfl (fun _ _ => .error _) fun _ _ => ?_
  refine PyRel.ite (by rw [← newFreq_zero u.k, newFreq_lt hk]; rw [newFreq_zero]) (fun _ _ => .error _) fun _ _ => ?_
  rw [peakWidth_new hk]
  refine PyRel.bind (PyRel.refl (R := Eq) (fun _ => rfl) _) ?_
  rintro width _ rfl
  cases n with
  | none => exact .ok rfl
  | some n =>
    dsimp only
    refine PyRel.ite Iff.rfl (fun _ _ => .error _) fun _ _ => ?_
    refine PyRel.bind (PyRel.refl (R := Eq) (fun _ => rfl) _) ?_
    rintro idx _ rfl
    exact .ok rfl

theorem cutEntry_new (u : Units K C) (idx : ℕ) (key : String) (f : K → K) (h : newEntry u key = onReal f) (e : Entry K C) :
    PyRel (fun x y => y = newEntry u key x) (cutEntry idx e) (cutEntry idx (newEntry u key e)) := by
  rw [h]
  cases e with
  | arr l => exact .error _
  | modesR d =>
    refine .ok ?_
    simp [onReal, List.map_take]
  | modesC d => exact .ok rfl
  | other => exact .error _

theorem cutData_new (u : Units K C) (idx : ℕ) (nd : DataV K C) :
    PyRel (fun x y => y = newDict u x) (cutData idx nd) (cutData idx (newDict u nd)) := by
  have h0 : ("" : String) = "" ∨ ("" : String) = "_zeroecc" := Or.inl rfl
  unfold cutData
  refine PyRel.bind (PyRel.of_map (newDict_getItem u nd _)) fun a a' ha => ?_
  subst ha
  refine PyRel.bind (cutEntry_new u idx "amplm" _ (entry_amp u h0) a) fun a a' ha => ?_
  subst ha
  simp only [newDict_set]
  refine PyRel.bind (PyRel.of_map (newDict_getItem u _ _)) fun x x' hx => ?_
  rw [hx]
  refine PyRel.bind (cutEntry_new u idx "phaselm" _ (entry_phase u h0) x) fun p p' hp => ?_
  rw [hp]
  simp only [newDict_set]
  refine PyRel.bind (PyRel.of_map (newDict_getItem u _ _)) fun w w' hw => ?_
  subst hw
  refine PyRel.bind (cutEntry_new u idx "omegalm" _ (entry_omega u h0) w) fun w w' hw => ?_
  subst hw
  simp only [newDict_set]
  refine PyRel.bind (getArr_new u _ "t" _ (entry_t u h0)) fun t t' ht => ?_
  subst ht
  refine .ok ?_
  rw [← newDict_set u _ "t", show newEntry u "t" = onArr (timeOf u "") from entry_t u h0]
  simp [onArr, List.map_take, newDict_set]

theorem processData_new {lib : WaveLib K C} {u : Units K C} (hk : 0 < u.k) (hs : 0 < u.s) (hl : WaveUnitFree lib u)
    (pr : Flag) (frame : String) (v : DataV K C) (n : Option K) :
    PyRel (fun r r' => r' = (newDict u r.1, newAnalysis u r.2)) (processData lib pr frame v n)
      (processData lib pr frame (newDict u v) n) := by
  unfold processData
  have hsh : checkShape (newDict u v).has = checkShape v.has := by
    have : (newDict u v).has = v.has := funext fun k => newDict_has u v k
    rw [this]
  rw [hsh]
  refine PyRel.bind (PyRel.refl (R := Eq) (fun _ => rfl) _) fun _ _ _ => ?_
  refine PyRel.bind (R := fun x y => y = newDict u x) ?_ fun x y hxy => ?_
  · exact PyRel.ite Iff.rfl (fun _ _ => toCoprecessing_new hl v) fun _ _ => .ok rfl
  subst hxy
  refine PyRel.bind (newData_new hk hl x) fun nd nd' hnd => ?_
  subst hnd
  refine PyRel.bind (analyse_new hk hs hl pr.truth nd n) fun an an' han => ?_
  subst han
  show PyRel _ (match an.cut with | none => _ | some idx => _) (match an.cut with | none => _ | some idx => _)
  cases an.cut with
  | none => exact .ok rfl
  | some idx =>
    refine PyRel.bind (cutData_new u idx nd) fun x y hxy => ?_
    subst hxy
    exact .ok rfl

end

end GwEcc
