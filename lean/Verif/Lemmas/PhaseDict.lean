import Verif.Spec.PhaseOrigin
import Verif.Lemmas.PhaseMeasure
import Verif.Lemmas.UnitsData

/-! Dictionaries related entry by entry, and the new dictionary made from a rotated waveform. -/

set_option linter.unusedSectionVars false

namespace GwEcc

namespace Turned

open Spec

section
variable {κ V W : Type} [DecidableEq κ]

/-- What is found under each key is related. -/
def DRel (P : κ → V → W → Prop) (v : Dict κ V) (w : Dict κ W) : Prop := ∀ k, Option.Rel (P k) (v.get? k) (w.get? k)

/-- The same keys in the same order, with related entries. -/
def FRel (P : κ → V → W → Prop) (v : Dict κ V) (w : Dict κ W) : Prop :=
  List.Forall₂ (fun p q => q.1 = p.1 ∧ P p.1 p.2 q.2) v w

theorem FRel.cons' {P : κ → V → W → Prop} {k : κ} {x : V} {y : W} {v : Dict κ V} {w : Dict κ W} (h : P k x y)
    (hv : FRel P v w) : FRel P ((k, x) :: v) ((k, y) :: w) := List.Forall₂.cons ⟨rfl, h⟩ hv

theorem FRel.nil' {P : κ → V → W → Prop} : FRel P [] [] := List.Forall₂.nil

theorem FRel.toD {P : κ → V → W → Prop} {v : Dict κ V} {w : Dict κ W} (h : FRel P v w) : DRel P v w := by
  intro k
  induction h with
  | nil => exact .none
  | @cons p q v w h1 h2 ih =>
    rw [Dict.get?_cons, Dict.get?_cons, h1.1]
    by_cases e : k = p.1
    · rw [if_pos e, if_pos e, e]; exact .some h1.2
    · rw [if_neg e, if_neg e]; exact ih

theorem FRel.set {P : κ → V → W → Prop} {v : Dict κ V} {w : Dict κ W} (h : FRel P v w) {k : κ} {x : V} {y : W} (hx : P k x y) :
    FRel P (v.set k x) (w.set k y) := by
  induction h with
  | nil => exact .cons' hx .nil'
  | @cons p q v w h1 h2 ih =>
    obtain ⟨k1, x1⟩ := p
    obtain ⟨k2, x2⟩ := q
    obtain ⟨e, h1⟩ := h1
    dsimp only at e h1
    subst e
    unfold Dict.set
    by_cases e : k = k2
    · subst e
      rw [if_pos rfl, if_pos rfl]
      exact .cons' hx h2
    · rw [if_neg e, if_neg e]
      exact .cons' h1 ih

theorem FRel.update {P : κ → V → W → Prop} {e : Dict κ V} {e' : Dict κ W} (he : FRel P e e') :
    ∀ {v : Dict κ V} {w : Dict κ W}, FRel P v w → FRel P (v.update e) (w.update e') := by
  induction he with
  | nil => exact fun h => h
  | @cons p q e e' h1 h2 ih =>
    intro v w h
    obtain ⟨k1, x1⟩ := p
    obtain ⟨k2, x2⟩ := q
    obtain ⟨e, h1⟩ := h1
    dsimp only at e h1
    subst e
    exact ih (h.set h1)

theorem FRel.keys {P : κ → V → W → Prop} {v : Dict κ V} {w : Dict κ W} (h : FRel P v w) : w.keys = v.keys := by
  unfold Dict.keys
  induction h with
  | nil => rfl
  | cons h1 _ ih => rw [List.map_cons, List.map_cons, h1.1, ih]

theorem FRel.eq_of {P : κ → V → V → Prop} (hP : ∀ k x y, P k x y → y = x) {v w : Dict κ V} (h : FRel P v w) : w = v := by
  induction h with
  | nil => rfl
  | @cons p q v w h1 h2 ih =>
    rw [ih]
    exact congrArg (· :: v) (Prod.ext h1.1 (hP _ _ _ h1.2))

theorem FRel.same {P : κ → V → V → Prop} (hP : ∀ k x, P k x x) (v : Dict κ V) : FRel P v v :=
  List.forall₂_same.mpr fun p _ => ⟨rfl, hP _ _⟩

theorem FRel.mapE {P : κ → V → W → Prop} (f : κ → V → W) (v : Dict κ V) (h : ∀ k x, (k, x) ∈ v → P k x (f k x)) :
    FRel P v (Dict.mapE f v) := by
  unfold FRel Dict.mapE
  rw [List.forall₂_map_right_iff, List.forall₂_same]
  exact fun p hp => ⟨rfl, h p.1 p.2 hp⟩

theorem FRel.isEmpty {P : κ → V → W → Prop} {v : Dict κ V} {w : Dict κ W} (h : FRel P v w) : w.isEmpty = v.isEmpty := by
  cases h <;> rfl

variable {P Q : κ → V → W → Prop} {v : Dict κ V} {w : Dict κ W}

theorem DRel.has (h : DRel P v w) (k : κ) : w.has k = v.has k := by
  unfold Dict.has
  have := h k
  revert this
  cases v.get? k <;> cases w.get? k <;> intro h <;> first | rfl | cases h

theorem DRel.getItem (h : DRel P v w) (k : κ) : PyRel (P k) (v.getItem k) (w.getItem k) := by
  unfold Dict.getItem
  have := h k
  revert this
  generalize w.get? k = y
  generalize v.get? k = x
  intro h
  cases h with
  | none => exact .error _
  | some h => exact .ok h

theorem DRel.set' (h : DRel P v w) {k : κ} {x : V} {y : W} (hq : ∀ j, j ≠ k → ∀ a b, P j a b → Q j a b) (hx : Q k x y) :
    DRel Q (v.set k x) (w.set k y) := by
  intro j
  rw [Dict.get?_set, Dict.get?_set]
  by_cases e : j = k
  · subst e; rw [if_pos rfl, if_pos rfl]; exact .some hx
  · rw [if_neg e, if_neg e]
    have := h j
    revert this
    generalize w.get? j = y
    generalize v.get? j = x
    intro h
    cases h with
    | none => exact .none
    | some h => exact .some (hq j e _ _ h)

theorem DRel.set (h : DRel P v w) {k : κ} {x : V} {y : W} (hx : P k x y) : DRel P (v.set k x) (w.set k y) :=
  h.set' (fun _ _ _ _ h => h) hx

theorem DRel.mono (h : DRel P v w) (hq : ∀ k a b, v.get? k = some a → P k a b → Q k a b) : DRel Q v w := by
  intro k
  have := h k
  revert this
  have hk := hq k
  revert hk
  generalize w.get? k = y
  generalize v.get? k = x
  intro hk h
  cases h with
  | none => exact .none
  | some h => exact .some (hk _ _ rfl h)

theorem DRel.del (h : DRel P v w) (k : κ) : DRel P (Dict.del v k) (Dict.del w k) := by
  intro j
  rw [Dict.get?_del, Dict.get?_del]
  by_cases e : j = k
  · rw [if_pos e, if_pos e]; exact .none
  · rw [if_neg e, if_neg e]; exact h j

theorem DRel.update {e : Dict κ V} {e' : Dict κ W} (he : FRel P e e') :
    ∀ {v : Dict κ V} {w : Dict κ W}, DRel P v w → DRel P (v.update e) (w.update e') := by
  induction he with
  | nil => exact fun h => h
  | @cons p q e e' h1 h2 ih =>
    intro v w h
    obtain ⟨k1, x1⟩ := p
    obtain ⟨k2, x2⟩ := q
    obtain ⟨e, h1⟩ := h1
    dsimp only at e h1
    subst e
    exact ih (h.set h1)

theorem DRel.of_mapE (f : κ → V → W) (v : Dict κ V) : DRel (fun k x y => y = f k x) v (Dict.mapE f v) := by
  intro k
  rw [Dict.get?_mapE]
  cases v.get? k with
  | none => exact .none
  | some x => exact .some rfl

end

section
variable {K C : Type} [Field K] [LinearOrder K] [IsStrictOrderedRing K]

/-- The values differ by a constant. -/
def Shifted (l l' : List K) : Prop := ∃ c, l' = shift c l

theorem Shifted.rfl' (l : List K) : Shifted l l := ⟨0, (shift_zero l).symm⟩

theorem Shifted.length {l l' : List K} (h : Shifted l l') : l'.length = l.length := by
  obtain ⟨c, rfl⟩ := h; simp

/-- Modes that differ by constants. -/
abbrev ModesShifted (d d' : Dict LM (List K)) : Prop := FRel (fun _ => Shifted) d d'

/-- Complex modes that differ by constants in the phases. -/
abbrev ModesSame (lib : WaveLib K C) (d d' : Dict LM (List C)) : Prop := FRel (fun _ => SameUpToPhase lib) d d'

/-- Entries with phases that differ by constants. -/
def PhaseE (e e' : Entry K C) : Prop :=
  (∃ d d', e = .modesR d ∧ e' = .modesR d' ∧ ModesShifted d d') ∨ e' = e

/-- Entries with complex modes that differ by constants in the phases. -/
def CompE (lib : WaveLib K C) (e e' : Entry K C) : Prop :=
  (∃ d d', e = .modesC d ∧ e' = .modesC d' ∧ ModesSame lib d d') ∨ e' = e

/-- What is given to the preparation. -/
def PV (lib : WaveLib K C) (k : String) (e e' : Entry K C) : Prop :=
  if k = "hlm" ∨ k = "hlm_zeroecc" then CompE lib e e'
  else if k = "phaselm" ∨ k = "phaselm_zeroecc" then PhaseE e e' else e' = e

/-- What comes out. -/
def PN (k : String) (e e' : Entry K C) : Prop := if k = "phaselm" ∨ k = "phaselm_zeroecc" then PhaseE e e' else e' = e

theorem SameUpToPhase.rfl' (lib : WaveLib K C) (l : List C) : SameUpToPhase lib l l := ⟨rfl, 0, by simp⟩

theorem getR_phase {P : String → Entry K C → Entry K C → Prop} {v v' : DataV K C} (h : DRel P v v') {key : String}
    (hk : ∀ e e', P key e e' → PhaseE e e') : PyRel ModesShifted (getR v key) (getR v' key) := by
  unfold getR
  refine PyRel.bind (h.getItem key) fun e e' he => ?_
  rcases hk _ _ he with ⟨d, d', rfl, rfl, hd⟩ | rfl
  · exact .ok hd
  · cases e' <;> first | exact .error _ | exact .ok (FRel.same (fun _ l => Shifted.rfl' l) _)

theorem getR_eq {P : String → Entry K C → Entry K C → Prop} {v v' : DataV K C} (h : DRel P v v') {key : String}
    (hk : ∀ e e', P key e e' → e' = e) : PyRel (fun a b => b = a) (getR v key) (getR v' key) := by
  unfold getR
  refine PyRel.bind (h.getItem key) fun e e' he => ?_
  rw [hk _ _ he]
  exact PyRel.refl (R := fun a b => b = a) (fun _ => rfl) _

theorem getArr_eq {P : String → Entry K C → Entry K C → Prop} {v v' : DataV K C} (h : DRel P v v') {key : String}
    (hk : ∀ e e', P key e e' → e' = e) : PyRel (fun a b => b = a) (getArr v key) (getArr v' key) := by
  unfold getArr
  refine PyRel.bind (h.getItem key) fun e e' he => ?_
  rw [hk _ _ he]
  exact PyRel.refl (R := fun a b => b = a) (fun _ => rfl) _

theorem getC_same {P : String → Entry K C → Entry K C → Prop} {lib : WaveLib K C} {v v' : DataV K C} (h : DRel P v v')
    {key : String} (hk : ∀ e e', P key e e' → CompE lib e e') : PyRel (ModesSame lib) (getC v key) (getC v' key) := by
  unfold getC
  refine PyRel.bind (h.getItem key) fun e e' he => ?_
  rcases hk _ _ he with ⟨d, d', rfl, rfl, hd⟩ | rfl
  · exact .ok hd
  · cases e' <;> first | exact .error _ | exact .ok (FRel.same (fun _ l => SameUpToPhase.rfl' lib l) _)

theorem foldl_rel {X Y : Type} {S : List X → List X → Prop} {T : List Y → List Y → Prop} (conv : List X → List Y)
    (hc : ∀ l l', S l l' → T (conv l) (conv l')) {d d' : Dict LM (List X)} (hd : FRel (fun _ => S) d d') :
    ∀ {acc acc' : Dict LM (List Y)}, FRel (fun _ => T) acc acc' →
    FRel (fun _ => T) (d.foldl (fun acc p => acc.set p.1 (conv p.2)) acc) (d'.foldl (fun acc p => acc.set p.1 (conv p.2)) acc') := by
  induction hd with
  | nil => exact fun h => h
  | @cons p q d d' h1 h2 ih =>
    intro acc acc' h
    rw [List.foldl_cons, List.foldl_cons, h1.1]
    exact ih (h.set (hc _ _ h1.2))

theorem PV_name {lib : WaveLib K C} {name suffix : String} (hn : name = "amplm" ∨ name = "omegalm" ∨ name = "t")
    (hs : suffix = "" ∨ suffix = "_zeroecc") : ∀ e e', PV lib (name ++ suffix) e e' → e' = e := by
  unfold PV
  rcases hn with rfl | rfl | rfl <;> rcases hs with rfl | rfl <;> simp

theorem PV_phase {lib : WaveLib K C} {suffix : String}
    (hs : suffix = "" ∨ suffix = "_zeroecc") : ∀ e e', PV lib ("phaselm" ++ suffix) e e' → PhaseE e e' := by
  unfold PV
  rcases hs with rfl | rfl <;> simp

theorem PV_hlm {lib : WaveLib K C} {suffix : String}
    (hs : suffix = "" ∨ suffix = "_zeroecc") : ∀ e e', PV lib ("hlm" ++ suffix) e e' → CompE lib e e' := by
  unfold PV
  rcases hs with rfl | rfl <;> simp

theorem PN_name {name suffix : String} (hn : name = "amplm" ∨ name = "omegalm" ∨ name = "t")
    (hs : suffix = "" ∨ suffix = "_zeroecc") : ∀ e e' : Entry K C, PN (name ++ suffix) e e' → e' = e := by
  unfold PN
  rcases hn with rfl | rfl | rfl <;> rcases hs with rfl | rfl <;> simp

theorem PN_phase {suffix : String}
    (hs : suffix = "" ∨ suffix = "_zeroecc") : ∀ e e' : Entry K C, PN ("phaselm" ++ suffix) e e' → PhaseE e e' := by
  unfold PN
  rcases hs with rfl | rfl <;> simp

theorem ampModes_same {lib : WaveLib K C} {v v' : DataV K C} (h : DRel (PV lib) v v') {suffix : String}
    (hs : suffix = "" ∨ suffix = "_zeroecc") :
    PyRel (fun a b => b = a) (realModes lib.abs "amplm" suffix v) (realModes lib.abs "amplm" suffix v') := by
  unfold realModes
  rw [h.has, h.has]
  refine PyRel.ite Iff.rfl (fun _ _ => ?_) fun _ _ => ?_
  · refine PyRel.bind (getR_eq h (PV_name (Or.inl rfl) hs)) fun d d' hd => ?_
    subst hd
    exact .ok rfl
  refine PyRel.ite Iff.rfl (fun _ _ => ?_) fun _ _ => ?_
  · refine PyRel.bind (getC_same h (PV_hlm hs)) fun d d' hd => ?_
    exact .ok (FRel.eq_of (P := fun _ l l' => l' = l) (fun _ _ _ h => h)
      (foldl_rel (T := fun l l' => l' = l) lib.abs (fun l l' h => h.1) hd .nil'))
  · exact PyRel.refl (R := fun a b => b = a) (fun _ => rfl) _

theorem phaseModes_same {lib : WaveLib K C} {v v' : DataV K C} (h : DRel (PV lib) v v') {suffix : String}
    (hs : suffix = "" ∨ suffix = "_zeroecc") :
    PyRel ModesShifted (realModes lib.phase "phaselm" suffix v) (realModes lib.phase "phaselm" suffix v') := by
  unfold realModes
  rw [h.has, h.has]
  refine PyRel.ite Iff.rfl (fun _ _ => ?_) fun _ _ => ?_
  · refine PyRel.bind (getR_phase h (PV_phase hs)) fun d d' hd => ?_
    exact .ok (hd.update .nil')
  refine PyRel.ite Iff.rfl (fun _ _ => ?_) fun _ _ => ?_
  · refine PyRel.bind (getC_same h (PV_hlm hs)) fun d d' hd => ?_
    exact .ok (foldl_rel lib.phase (fun l l' h => h.2) hd .nil')
  · exact PyRel.refl (fun d => FRel.same (fun _ l => Shifted.rfl' l) d) _

theorem timeDeriv4_shift (c : K) (y : List K) (dt : K) : timeDeriv4 (shift c y) dt = timeDeriv4 y dt := by
  unfold timeDeriv4
  rw [shift_length]
  split
  · rfl
  rename_i hn
  dsimp only
  refine congrArg Except.ok (List.map_congr_left fun i hi => ?_)
  rw [List.mem_range] at hi
  have g : ∀ j, j < y.length → (shift c y).getD j 0 = y.getD j 0 + c := fun j hj => getD_shift hj
  congr 1
  split
  · rw [g _ (by omega), g _ (by omega), g _ (by omega), g _ (by omega), g _ (by omega)]; ring
  split
  · rw [g _ (by omega), g _ (by omega), g _ (by omega), g _ (by omega), g _ (by omega)]; ring
  split
  · rw [g _ (by omega), g _ (by omega), g _ (by omega), g _ (by omega), g _ (by omega)]; ring
  split
  · rw [g _ (by omega), g _ (by omega), g _ (by omega), g _ (by omega), g _ (by omega)]; ring
  · rw [g _ (by omega), g _ (by omega), g _ (by omega), g _ (by omega)]; ring

variable [FloorRing K]

theorem freq_one (l : List K) : l.map (newFreq (1 : K)) = l := by
  unfold newFreq; simp

theorem omegaModes_same (t : List K) {p p' : Dict LM (List K)} (hn : p.keys.Nodup) (hp : ModesShifted p p') :
    PyRel (fun a b => b = a) (omegaModes t p) (omegaModes t p') := by
  unfold omegaModes
  have key : ∀ (e e' acc acc' : Dict LM (List K)), ModesShifted e e' → e.keys.Nodup → acc.keys.Nodup →
      List.Forall₂ (HalfDone 1 e.keys) acc acc' →
      PyRel (fun a b => b = a)
        (e.foldlM (fun acc p => do
          let t1 ← pyGet t 1
          let t0 ← pyGet t 0
          let w ← timeDeriv4 p.2 (t1 - t0)
          pure (acc.set p.1 w)) acc)
        (e'.foldlM (fun acc p => do
          let t1 ← pyGet t 1
          let t0 ← pyGet t 0
          let w ← timeDeriv4 p.2 (t1 - t0)
          pure (acc.set p.1 w)) acc') := by
    intro e e' acc acc' he
    induction he generalizing acc acc' with
    | nil =>
      intro _ _ h
      refine .ok ?_
      clear hn hp
      have all : ∀ (l l' : Dict LM (List K)), List.Forall₂ (HalfDone 1 []) l l' → l' = l := by
        intro l l' h
        induction h with
        | nil => rfl
        | @cons q q' l l' h1 _ ih =>
          rw [ih]
          refine congrArg (· :: l) (Prod.ext h1.1 ?_)
          rw [h1.2 (by simp), freq_one]
      exact all _ _ h
    | @cons p q e e' h1 h2 ih =>
      intro he ha h
      rw [List.foldlM_cons, List.foldlM_cons]
      simp only [Dict.keys, List.map_cons, List.nodup_cons] at he
      refine PyRel.bind (R := fun a b => List.Forall₂ (HalfDone 1 (Dict.keys e)) a b ∧ (Dict.keys a).Nodup) ?_
        fun a b hab => ih a b he.2 hab.2 hab.1
      refine PyRel.bind (PyRel.refl (R := Eq) (fun _ => rfl) _) fun t1 _ h1' => ?_
      refine PyRel.bind (PyRel.refl (R := Eq) (fun _ => rfl) _) fun t0 _ h0 => ?_
      subst h1' h0
      obtain ⟨c, hc⟩ := h1.2
      rw [hc, timeDeriv4_shift, h1.1]
      cases timeDeriv4 p.2 (t1 - t0) with
      | error e => exact .error _
      | ok w => exact .ok ⟨halfDone_set (freq_one w).symm he.1 ha h, Dict.nodup_set _ _ ha⟩
  refine key p p' p p' hp hn hn ?_
  have fin : ∀ (l l' : Dict LM (List K)) (ks : List LM), (∀ k ∈ l.keys, k ∈ ks) → ModesShifted l l' →
      List.Forall₂ (HalfDone 1 ks) l l' := by
    intro l l' ks hk hl
    induction hl with
    | nil => exact .nil
    | @cons p q e e' h1 h2 ih =>
      refine .cons ⟨h1.1, fun h => absurd (hk p.1 (by simp [Dict.keys])) h⟩ (ih fun k hk' => hk k ?_)
      simp only [Dict.keys, List.map_cons, List.mem_cons]
      exact .inr hk'
  exact fin p p' p.keys (fun _ h => h) hp

theorem PN_real {key : String} {d d' : Dict LM (List K)} (h : ModesShifted d d')
    (hk : key = "phaselm" ∨ key = "phaselm_zeroecc") : PN key (.modesR d : Entry K C) (.modesR d') := by
  unfold PN
  rw [if_pos hk]
  exact .inl ⟨d, d', rfl, rfl, h⟩

theorem PN_rfl (key : String) (e : Entry K C) : PN key e e := by
  unfold PN
  split
  · exact .inr rfl
  · rfl

theorem withZeroecc_phase {p q p' q' : Dict LM (List K)} (hp : ModesShifted p p') (hq : ModesShifted q q') :
    FRel (PN (K := K) (C := C)) (withZeroecc "phaselm" p q) (withZeroecc "phaselm" p' q') := by
  unfold withZeroecc
  rw [hq.isEmpty]
  refine .cons' (PN_real hp (Or.inl rfl)) ?_
  split
  · exact .nil'
  · exact .cons' (PN_real hq (Or.inr rfl)) .nil'

theorem ampPhaseOmega_same {lib : WaveLib K C} {v v' : DataV K C} (h : DRel (PV lib) v v') :
    PyRel (FRel PN) (ampPhaseOmega lib v) (ampPhaseOmega lib v') := by
  have h0 : ("" : String) = "" ∨ ("" : String) = "_zeroecc" := Or.inl rfl
  have h1 : ("_zeroecc" : String) = "" ∨ ("_zeroecc" : String) = "_zeroecc" := Or.inr rfl
  unfold ampPhaseOmega realModesDict
  simp only [bind_assoc]
  refine PyRel.bind (ampModes_same h h0) fun a a' ha => ?_
  refine PyRel.bind (ampModes_same h h1) fun z z' hz => ?_
  subst ha hz
  simp only [pure_eq_ok, ok_bind]
  have hp := phaseModes_same h h0
  cases hpe : realModes lib.phase "phaselm" "" v with
  | error e =>
    rw [hpe] at hp
    generalize realModes lib.phase "phaselm" "" v' = x at hp ⊢
    cases hp
    exact .error _
  | ok p =>
  rw [hpe] at hp
  generalize realModes lib.phase "phaselm" "" v' = x at hp ⊢
  cases hp with
  | ok hp =>
  rename_i p'
  have hq := phaseModes_same h h1
  cases hqe : realModes lib.phase "phaselm" "_zeroecc" v with
  | error e =>
    rw [hqe] at hq
    generalize realModes lib.phase "phaselm" "_zeroecc" v' = x at hq ⊢
    cases hq
    exact .error _
  | ok q =>
  rw [hqe] at hq
  generalize realModes lib.phase "phaselm" "_zeroecc" v' = x at hq ⊢
  cases hq with
  | ok hq =>
  rename_i q'
  have np := realModes_nodup _ _ _ _ hpe
  have nq := realModes_nodup _ _ _ _ hqe
  simp only [ok_bind]
  have hD : FRel (PN (K := K) (C := C)) (apDict a' z' p q) (apDict a' z' p' q') := by
    unfold apDict
    exact (withZeroecc_phase hp hq).update (FRel.same PN_rfl _)
  have e1 : Dict.update (Dict.update [] (withZeroecc "amplm" a' z')) (withZeroecc "phaselm" p q)
      = (apDict a' z' p q : DataV K C) := rfl
  have e2 : Dict.update (Dict.update [] (withZeroecc "amplm" a' z')) (withZeroecc "phaselm" p' q')
      = (apDict a' z' p' q' : DataV K C) := rfl
  simp only [e1, e2]
  have gp : ∀ p q, getR (apDict a' z' p q : DataV K C) "phaselm" = .ok p := by
    intro p q; apply getR_of; rw [apDict_get]; simp
  refine PyRel.bind (R := fun x y => y = x) ?_ fun w w' hw => ?_
  · rw [h.has]
    refine PyRel.ite Iff.rfl (fun _ _ => ?_) fun _ _ => ?_
    · exact (h.getItem _).mono fun a b hab => PV_name (name := "omegalm") (suffix := "") (by simp) h0 _ _ hab
    · refine PyRel.bind (getArr_eq h (PV_name (name := "t") (suffix := "") (by simp) h0)) fun t t' ht => ?_
      subst ht
      rw [gp, gp]
      simp only [ok_bind]
      refine PyRel.bind (omegaModes_same _ np hp) fun w w' hw => ?_
      subst hw
      exact .ok rfl
  · subst hw
    have hE : FRel (PN (K := K) (C := C)) ((apDict a' z' p q).set "omegalm" w') ((apDict a' z' p' q').set "omegalm" w') :=
      hD.set (PN_rfl _ _)
    have gq : ∀ p q, ((apDict a' z' p q : DataV K C).set "omegalm" w').has "phaselm_zeroecc" = true →
        getR ((apDict a' z' p q : DataV K C).set "omegalm" w') "phaselm_zeroecc" = .ok q := by
      intro p q hc
      unfold Dict.has at hc
      apply getR_of
      rw [Dict.get?_set, if_neg (by decide), apDict_get] at hc ⊢
      cases hqe : q.isEmpty <;> simp_all
    rw [h.has, h.has]
    refine PyRel.ite Iff.rfl (fun _ _ => ?_) fun _ _ => ?_
    · refine PyRel.bind ((h.getItem _).mono fun a b hab => PV_name (name := "omegalm") (suffix := "_zeroecc") (by simp) h1 _ _ hab)
        fun x y hxy => ?_
      subst hxy
      exact .ok (hE.set (PN_rfl _ _))
    rw [hE.toD.has]
    refine PyRel.ite Iff.rfl (fun hc _ => ?_) fun _ _ => .ok hE
    refine PyRel.bind (getArr_eq h (PV_name (name := "t") (suffix := "_zeroecc") (by simp) h1)) fun t t' ht => ?_
    subst ht
    rw [Bool.and_eq_true] at hc
    rw [gq p q hc.1, gq p' q' (by rw [hE.toD.has]; exact hc.1)]
    simp only [ok_bind]
    refine PyRel.bind (omegaModes_same _ nq hq) fun w w' hw => ?_
    subst hw
    exact .ok (hE.set (PN_rfl _ _))

theorem newData_same {lib : WaveLib K C} {v v' : DataV K C} (h : DRel (PV lib) v v') :
    PyRel (FRel PN) (newData lib v) (newData lib v') := by
  have h0 : ("" : String) = "" ∨ ("" : String) = "_zeroecc" := Or.inl rfl
  have h1 : ("_zeroecc" : String) = "" ∨ ("_zeroecc" : String) = "_zeroecc" := Or.inr rfl
  unfold newData
  rw [h.has, h.has]
  refine PyRel.ite Iff.rfl (fun _ _ => ?_) fun _ _ => .error _
  refine PyRel.bind ((h.getItem _).mono fun a b hab => PV_name (name := "t") (suffix := "") (by simp) h0 _ _ hab)
    fun t t' ht => ?_
  subst ht
  refine PyRel.bind (R := fun d d' => d' = d) ?_ fun d d' hd => ?_
  · refine PyRel.ite Iff.rfl (fun _ _ => ?_) fun _ _ => .ok rfl
    refine PyRel.bind ((h.getItem _).mono fun a b hab => PV_name (name := "t") (suffix := "_zeroecc") (by simp) h1 _ _ hab)
      fun t t' ht => ?_
    subst ht
    exact .ok rfl
  · subst hd
    refine PyRel.bind (ampPhaseOmega_same h) fun x y hxy => ?_
    exact .ok (hxy.update (FRel.same PN_rfl _))

end

end Turned

end GwEcc
