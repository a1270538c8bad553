import Verif.Lemmas.PhaseDict
import Verif.Lemmas.UnitsRun

/-! The transformation of a rotated waveform to the coprecessing frame. -/

set_option linter.unusedSectionVars false

namespace GwEcc

namespace Turned

open Spec

section
variable {K C : Type} [Field K] [LinearOrder K] [IsStrictOrderedRing K]

/-- A mode after the rotation. -/
def turnModes (u : Turn K C) (d : Dict LM (List C)) : Dict LM (List C) := Dict.mapE (fun k l => l.map (u.num k)) d

/-- Phases after the rotation. -/
def turnReal (u : Turn K C) (d : Dict LM (List K)) : Dict LM (List K) := Dict.mapE (fun k l => shift (u.angle k) l) d

theorem packageModes_turn {zero : C} {u : Turn K C} (h0 : ∀ k, u.num k zero = zero) (d : Dict LM (List C)) :
    PyRel (fun r r' => r' = turnColumns u r) (packageModes zero d 2 2) (packageModes zero (turnModes u d) 2 2) := by
  unfold packageModes
  refine PyRel.bind (PyRel.of_map (Dict.getItem_mapE _ d _)) fun h h' hh => ?_
  subst hh
  refine PyRel.ite Iff.rfl (fun _ _ => .error _) fun _ _ => ?_
  refine PyRel.bind (R := fun s s' => s'.1 = turnColumns u s.1 ∧ s'.2 = s.2) ?_ fun s s' hs => .ok hs.1
  rw [List.length_map]
  have key : ∀ (l : List LM) (s s' : List (List C) × ℕ), (∀ i k, l[i]? = some k → k = (2, ((s.2 + i : ℕ) : ℤ) - 2)) →
      s'.1 = turnColumns u s.1 ∧ s'.2 = s.2 →
      PyRel (fun s s' => s'.1 = turnColumns u s.1 ∧ s'.2 = s.2) (l.foldlM (packStep d h.length) s)
        (l.foldlM (packStep (turnModes u d) h.length) s') := by
    intro l
    induction l with
    | nil => intro s s' _ hs; exact .ok hs
    | cons m l ih =>
      intro s s' hm hs
      rw [List.foldlM_cons, List.foldlM_cons]
      refine PyRel.bind (R := fun a b => (b.1 = turnColumns u a.1 ∧ b.2 = a.2) ∧ a.2 = s.2 + 1) ?_ fun a b hab =>
        ih a b (fun i k hk => ?_) hab.1
      · obtain ⟨s1, s2⟩ := s
        obtain ⟨s1', s2'⟩ := s'
        dsimp only at hs hm
        obtain ⟨rfl, rfl⟩ := hs
        have em : m = (2, (s2' : ℤ) - 2) := by simpa using hm 0 m rfl
        unfold packStep turnModes
        rw [Dict.get?_mapE]
        cases d.get? m with
        | none => exact .error _
        | some x =>
          simp only [Option.map_some, List.length_map]
          have hl : (turnColumns u s1).length = s1.length := by unfold turnColumns; simp
          rw [hl]
          refine PyRel.ite Iff.rfl (fun _ _ => .error _) fun _ _ => ?_
          refine PyRel.ite Iff.rfl (fun _ _ => .error _) fun _ _ => ?_
          refine .ok ⟨⟨?_, rfl⟩, rfl⟩
          dsimp only
          unfold turnColumns
          rw [List.mapIdx_set, em]
      · have := hm (i + 1) k (by simpa using hk)
        rw [this, hab.2]
        refine Prod.ext rfl ?_
        dsimp only
        push_cast
        ring
  refine key _ _ _ ?_ ⟨?_, rfl⟩
  · intro i k hk
    have e : modeLoop 2 2 = [(2, -2), (2, -1), (2, 0), (2, 1), (2, 2)] := by decide
    rw [e] at hk
    rcases i with _ | _ | _ | _ | _ | i <;> simp at hk <;> subst hk <;> rfl
  · unfold turnColumns
    apply List.ext_getElem
    · simp
    · intro i h1 h2
      simp [List.map_replicate, h0]

theorem pyGet_forall {α : Type} {S : α → α → Prop} {l l' : List α} (h : List.Forall₂ S l l') (i : ℕ) :
    PyRel S (pyGet l i) (pyGet l' i) := by
  unfold pyGet
  induction h generalizing i with
  | nil => exact .error _
  | cons h1 h2 ih =>
    cases i with
    | zero => exact .ok h1
    | succ i => exact ih i

theorem unpackModes_same {S : List C → List C → Prop} {cols cols' : List (List C)} (h : List.Forall₂ S cols cols') (l1 l2 : ℤ) :
    PyRel (FRel (fun _ => S)) (unpackModes cols l1 l2) (unpackModes cols' l1 l2) := by
  unfold unpackModes
  have key : ∀ (l : List LM) (acc acc' : Dict LM (List C)), FRel (fun _ => S) acc acc' →
      PyRel (FRel (fun _ => S))
        (l.foldlM (fun acc k => do
          let col ← pyGet cols (scriIndex l1 k).toNat
          pure (acc.set k col)) acc)
        (l.foldlM (fun acc k => do
          let col ← pyGet cols' (scriIndex l1 k).toNat
          pure (acc.set k col)) acc') := by
    intro l
    induction l with
    | nil => intro acc acc' ha; exact .ok ha
    | cons m l ih =>
      intro acc acc' ha
      rw [List.foldlM_cons, List.foldlM_cons]
      refine PyRel.bind (R := FRel (fun _ => S)) ?_ fun a b hab => ih a b hab
      refine PyRel.bind (pyGet_forall h _) fun x y hxy => ?_
      exact .ok (ha.set hxy)
  exact key _ [] [] .nil'

/-- Clear modes differ by constants in the phases. -/
abbrev ModesClear (lib : WaveLib K C) (Clear : List C → Prop) (d d' : Dict LM (List C)) : Prop :=
  FRel (fun _ l l' => Clear l → SameUpToPhase lib l l') d d'

/-- Entries with complex modes that differ by constants in the phases where they are clear. -/
def CompC (lib : WaveLib K C) (Clear : List C → Prop) (e e' : Entry K C) : Prop :=
  (∃ d d', e = .modesC d ∧ e' = .modesC d' ∧ ModesClear lib Clear d d') ∨ e' = e

theorem rotatedModes_turn {P : String → Entry K C → Entry K C → Prop} {lib : WaveLib K C} {Clear : List C → Prop} {u : Turn K C}
    (hl : WaveTurnFree lib Clear u) {v v' : DataV K C} (h : DRel P v v') {tag : String}
    (hh : ∀ e e', P ("hlm" ++ tag) e e' → e' = turnComplex u e) (ht : ∀ e e', P ("t" ++ tag) e e' → e' = e) :
    PyRel (ModesClear lib Clear) (rotatedModes lib v tag) (rotatedModes lib v' tag) := by
  unfold rotatedModes
  refine PyRel.bind (R := fun d d' => d' = turnModes u d) ?_ fun d d' hd => ?_
  · unfold getC
    refine PyRel.bind (h.getItem _) fun e e' he => ?_
    rw [hh _ _ he]
    cases e <;> first | exact .error _ | exact .ok rfl
  subst hd
  refine PyRel.bind (packageModes_turn hl.zero d) fun cols cols' hc => ?_
  subst hc
  refine PyRel.bind (getArr_eq h ht) fun t t' htt => ?_
  subst htt
  refine PyRel.bind (R := List.Forall₂ fun l l' => Clear l → SameUpToPhase lib l l') ?_ fun r r' hr => unpackModes_same hr 2 2
  cases hr : lib.rotate t' cols with
  | error e => rw [hl.rotateError _ _ _ hr]; exact .error _
  | ok r =>
    obtain ⟨r', h1, h2⟩ := hl.rotate _ _ _ hr
    rw [h1]
    exact .ok h2

theorem polarModes_turn {lib : WaveLib K C} {Clear : List C → Prop} {u : Turn K C} (hl : WaveTurnFree lib Clear u) (a p : Dict LM (List K)) :
    PyRel (fun d d' => d' = turnModes u d) (polarModes lib a p) (polarModes lib a (turnReal u p)) := by
  unfold polarModes
  have key : ∀ (l : Dict LM (List K)) (acc : Dict LM (List C)),
      PyRel (fun r r' => r' = turnModes u r)
        (l.foldlM (fun acc q => do
          let phi ← p.getItem q.1
          let h ← lib.polar q.2 phi
          pure (acc.set q.1 h)) acc)
        (l.foldlM (fun acc q => do
          let phi ← (turnReal u p).getItem q.1
          let h ← lib.polar q.2 phi
          pure (acc.set q.1 h)) (turnModes u acc)) := by
    intro l
    induction l with
    | nil => intro acc; exact .ok rfl
    | cons q l ih =>
      intro acc
      rw [List.foldlM_cons, List.foldlM_cons]
      refine PyRel.bind (R := fun a b => b = turnModes u a) ?_ fun a b hab => by subst hab; exact ih a
      refine PyRel.bind (PyRel.of_map (Dict.getItem_mapE _ p q.1)) fun phi phi' hphi => ?_
      subst hphi
      refine PyRel.bind (PyRel.of_map (hl.polar q.1 q.2 phi)) fun x y hxy => ?_
      subst hxy
      exact .ok (Dict.set_mapE (fun (k : LM) (l : List C) => l.map (u.num k)) acc q.1 x)
  exact key a []

/-- Related as the rotation prescribes. -/
def P0 (u u0 : Turn K C) (k : String) (e e' : Entry K C) : Prop := e' = turnEntry u u0 k e

theorem turnDict_eq (u u0 : Turn K C) (v : DataV K C) : turnDict u u0 v = Dict.mapE (turnEntry u u0) v := rfl

theorem turnDict_rel (u u0 : Turn K C) (v : DataV K C) : DRel (P0 u u0) v (turnDict u u0 v) := DRel.of_mapE _ v

theorem P0_name {u u0 : Turn K C} {name suffix : String} (hn : name = "amplm" ∨ name = "omegalm" ∨ name = "t")
    (hs : suffix = "" ∨ suffix = "_zeroecc") : ∀ e e', P0 u u0 (name ++ suffix) e e' → e' = e := by
  unfold P0 turnEntry
  rcases hn with rfl | rfl | rfl <;> rcases hs with rfl | rfl <;> simp

/-- The rotation of the waveform or of the quasicircular one. -/
def turnFor (u u0 : Turn K C) (tag : String) : Turn K C := if tag = "" then u else u0

theorem P0_hlm {u u0 : Turn K C} {suffix : String} (hs : suffix = "" ∨ suffix = "_zeroecc") :
    ∀ e e', P0 u u0 ("hlm" ++ suffix) e e' → e' = turnComplex (turnFor u u0 suffix) e := by
  unfold P0 turnEntry turnFor
  rcases hs with rfl | rfl <;> simp

theorem P0_phase {u u0 : Turn K C} {suffix : String} (hs : suffix = "" ∨ suffix = "_zeroecc") :
    ∀ e e', P0 u u0 ("phaselm" ++ suffix) e e' → e' = turnPhase (turnFor u u0 suffix) e := by
  unfold P0 turnEntry turnFor
  rcases hs with rfl | rfl <;> simp

theorem ampModes_turn {lib : WaveLib K C} {u u0 : Turn K C} {v v' : DataV K C} (h : DRel (P0 u u0) v v') {suffix : String}
    (hs : suffix = "" ∨ suffix = "_zeroecc") (hh : v.has ("hlm" ++ suffix) = false) :
    PyRel (fun a b => b = a) (realModes lib.abs "amplm" suffix v) (realModes lib.abs "amplm" suffix v') := by
  unfold realModes
  rw [h.has, h.has, hh]
  refine PyRel.ite Iff.rfl (fun _ _ => ?_) fun _ _ => ?_
  · refine PyRel.bind (getR_eq h (P0_name (Or.inl rfl) hs)) fun d d' hd => ?_
    subst hd
    exact .ok rfl
  · exact PyRel.refl (R := fun a b => b = a) (fun _ => rfl) _

theorem phaseModes_turn {lib : WaveLib K C} {u u0 : Turn K C} {v v' : DataV K C} (h : DRel (P0 u u0) v v') {suffix : String}
    (hs : suffix = "" ∨ suffix = "_zeroecc") (hh : v.has ("hlm" ++ suffix) = false) :
    PyRel (fun a b => b = turnReal (turnFor u u0 suffix) a) (realModes lib.phase "phaselm" suffix v)
      (realModes lib.phase "phaselm" suffix v') := by
  unfold realModes
  rw [h.has, h.has, hh]
  refine PyRel.ite Iff.rfl (fun _ _ => ?_) fun _ _ => ?_
  · refine PyRel.bind (R := fun a b => b = turnReal (turnFor u u0 suffix) a) ?_ fun d d' hd => ?_
    · unfold getR
      refine PyRel.bind (h.getItem _) fun e e' he => ?_
      rw [P0_phase hs _ _ he]
      cases e <;> first | exact .error _ | exact .ok rfl
    subst hd
    exact .ok (Dict.update_mapE (fun (k : LM) (l : List K) => shift ((turnFor u u0 suffix).angle k) l) d [])
  · simp only [Bool.false_eq_true, if_false]
    split
    · exact .error _
    · exact .ok rfl

theorem update_ne_nil {κ V : Type} [DecidableEq κ] (d : Dict κ V) (h : d ≠ []) : (Dict.update [] d).isEmpty = false := by
  have key : ∀ (e acc : Dict κ V), acc ≠ [] → acc.update e ≠ [] := by
    intro e
    induction e with
    | nil => exact fun _ h => h
    | cons p e ih =>
      intro acc ha
      refine ih _ ?_
      intro hc
      have hc : acc.set p.1 p.2 = [] := hc
      have := Dict.get?_set acc p.1 p.1 p.2
      rw [hc] at this
      simp at this
  cases d with
  | nil => exact absurd rfl h
  | cons p d =>
    have := key d ([(p.1, p.2)] : Dict κ V) (by simp)
    cases hx : Dict.update ([] : Dict κ V) (p :: d) with
    | nil => exact absurd hx this
    | cons _ _ => rfl

theorem builtModes_turn {lib : WaveLib K C} {Clear : List C → Prop} {u u0 : Turn K C} (hl : WaveTurnFree lib Clear u) (hl0 : WaveTurnFree lib Clear u0)
    {v v' : DataV K C} (h : DRel (P0 u u0) v v') (h1 : v.has "hlm" = false) (h2 : v.has "hlm_zeroecc" = false)
    (hz : ∀ d, v.get? "amplm_zeroecc" = some (.modesR d) → d ≠ []) :
    PyRel (fun x x' => FRel (P0 u u0) x x' ∧ (v.has "amplm_zeroecc" = true → x.has "hlm_zeroecc" = true) ∧
        x.has "t" = false ∧ x.has "amplm_zeroecc" = false)
      (builtModes lib v) (builtModes lib v') := by
  have i0 : ("" : String) = "" ∨ ("" : String) = "_zeroecc" := Or.inl rfl
  have i1 : ("_zeroecc" : String) = "" ∨ ("_zeroecc" : String) = "_zeroecc" := Or.inr rfl
  unfold builtModes realModesDict
  simp only [bind_assoc]
  refine PyRel.bind (ampModes_turn h i0 h1) fun a a' ha => ?_
  refine PyRel.bind_of (ampModes_turn h i1 h2) fun z z' hze _ hzz => ?_
  subst ha hzz
  simp only [pure_eq_ok, ok_bind]
  refine PyRel.bind (phaseModes_turn h i0 h1) fun p p' hp => ?_
  refine PyRel.bind (phaseModes_turn h i1 h2) fun q q' hq => ?_
  subst hp hq
  unfold hlmFromAmpPhase
  have ga : getR (withZeroecc "amplm" a' z' : DataV K C) "amplm" = .ok a' := getR_of rfl
  have gp : ∀ p q, getR (withZeroecc "phaselm" p q : DataV K C) "phaselm" = .ok p := fun p q => getR_of rfl
  rw [ga, gp, gp]
  simp only [ok_bind]
  refine PyRel.bind (polarModes_turn hl a' p) fun m m' hm => ?_
  subst hm
  have e0 : P0 u u0 "hlm" (.modesC m : Entry K C) (.modesC (turnModes u m)) := by
    unfold P0 turnEntry; rw [if_pos rfl]; rfl
  have hne : v.has "amplm_zeroecc" = true → z'.isEmpty = false := by
    intro hv
    unfold realModes at hze
    rw [if_pos (by exact hv)] at hze
    obtain ⟨d, hd, hze⟩ := bind_ok hze
    cases hze
    exact update_ne_nil d (hz d (getR_ok hd))
  refine PyRel.ite Iff.rfl (fun hc _ => ?_) fun hc _ => ?_
  · refine PyRel.bind (PyRel.refl (R := Eq) (fun _ => rfl) _) fun a0 _ h => ?_
    subst h
    refine PyRel.bind (R := fun x y => y = turnReal u0 x) ?_ fun p0 p0' hp0 => ?_
    · cases q with
      | nil => exact .error _
      | cons r q => exact .ok rfl
    subst hp0
    refine PyRel.bind (polarModes_turn hl0 a0 p0) fun m0 m0' hm0 => ?_
    subst hm0
    have e1 : P0 u u0 "hlm_zeroecc" (.modesC m0 : Entry K C) (.modesC (turnModes u0 m0)) := by
      unfold P0 turnEntry; rw [if_neg (by decide), if_pos rfl]; rfl
    exact .ok ⟨.cons' e0 (.cons' e1 .nil'), fun _ => rfl, rfl, rfl⟩
  · refine .ok ⟨.cons' e0 .nil', fun hv => absurd ?_ hc, rfl, rfl⟩
    unfold withZeroecc
    rw [hne hv]
    rfl

/-- At least `n` samples of each phase. -/
structure Long (lib : WaveLib K C) (n : ℕ) (v : DataV K C) : Prop where
  real : ∀ d, v.get? "phaselm" = some (.modesR d) → ∀ p ∈ d, n ≤ p.2.length
  complex : ∀ d, v.get? "hlm" = some (.modesC d) → ∀ p ∈ d, n ≤ (lib.phase p.2).length

theorem rotatedModes_long {lib : WaveLib K C} {n : ℕ} {v : DataV K C}
    (hl : ∀ t cols cols', lib.rotate t cols = .ok cols' → ∀ l ∈ cols', (lib.phase l).length = t.length)
    (hv : ∀ l, v.get? "t" = some (.arr l) → l.length = n) {r : Dict LM (List C)} (h : rotatedModes lib v "" = .ok r) :
    ∀ q ∈ r, n ≤ (lib.phase q.2).length := by
  unfold rotatedModes at h
  obtain ⟨x, _, h⟩ := bind_ok h
  obtain ⟨cols, _, h⟩ := bind_ok h
  obtain ⟨t, ht, h⟩ := bind_ok h
  obtain ⟨cols', hr, h⟩ := bind_ok h
  intro q hq
  rw [hl _ _ _ hr _ (unpackModes_mem h q hq), hv t (getArr_ok ht)]

/-- After the first transformation. -/
def P1 (lib : WaveLib K C) (Clear : List C → Prop) (u u0 : Turn K C) (k : String) (e e' : Entry K C) : Prop :=
  if k = "hlm" then CompC lib Clear e e' else P0 u u0 k e e'

theorem P1_of {lib : WaveLib K C} {Clear : List C → Prop} {u u0 : Turn K C} {k : String} (hk : k ≠ "hlm") {e e' : Entry K C} :
    P1 lib Clear u u0 k e e' ↔ P0 u u0 k e e' := by
  unfold P1; rw [if_neg hk]

theorem P1_hlm {lib : WaveLib K C} {Clear : List C → Prop} {u u0 : Turn K C} {r r' : Dict LM (List C)} (h : ModesClear lib Clear r r') :
    P1 lib Clear u u0 "hlm" (.modesC r : Entry K C) (.modesC r') := by
  unfold P1; rw [if_pos rfl]; exact .inl ⟨r, r', rfl, rfl, h⟩

theorem has_del {κ V : Type} [DecidableEq κ] (d : Dict κ V) {k j : κ} (h : j ≠ k) : (Dict.del d k).has j = d.has j := by
  unfold Dict.has; rw [Dict.get?_del, if_neg h]

theorem has_set {κ V : Type} [DecidableEq κ] (d : Dict κ V) {k j : κ} (x : V) (h : j ≠ k) : (d.set k x).has j = d.has j := by
  unfold Dict.has; rw [Dict.get?_set, if_neg h]

theorem update_other {κ V : Type} [DecidableEq κ] (e : Dict κ V) {j : κ} (h : e.has j = false) :
    ∀ d : Dict κ V, (d.update e).get? j = d.get? j := by
  induction e with
  | nil => exact fun _ => rfl
  | cons p e ih =>
    intro d
    unfold Dict.has at h
    rw [Dict.get?_cons] at h
    by_cases hk : j = p.1
    · rw [if_pos hk] at h; simp at h
    · rw [if_neg hk] at h
      have := ih h (d.set p.1 p.2)
      rw [Dict.get?_set, if_neg hk] at this
      exact this

theorem update_has {κ V : Type} [DecidableEq κ] (e : Dict κ V) {j : κ} :
    ∀ d : Dict κ V, (e.has j = true ∨ d.has j = true) → (d.update e).has j = true := by
  induction e with
  | nil => intro d h; rcases h with h | h; · simp [Dict.has] at h
           · exact h
  | cons p e ih =>
    intro d h
    refine ih (d.set p.1 p.2) ?_
    unfold Dict.has at h ⊢
    rw [Dict.get?_cons] at h
    rw [Dict.get?_set]
    by_cases hk : j = p.1
    · right; rw [if_pos hk]; rfl
    · rw [if_neg hk] at h ⊢; exact h

theorem transform_turn {lib : WaveLib K C} {Clear : List C → Prop} {u u0 : Turn K C} (hl : WaveTurnFree lib Clear u) (hl0 : WaveTurnFree lib Clear u0)
    {v v' : DataV K C} (h : DRel (P0 u u0) v v') {n : ℕ}
    (hrot : ∀ t cols cols', lib.rotate t cols = .ok cols' → ∀ l ∈ cols', (lib.phase l).length = t.length)
    (hv : ∀ l, v.get? "t" = some (.arr l) → l.length = n) (hlong : Long lib n v)
    (f1 : v.has "hlm" = true → v.has "amplm_zeroecc" = false)
    (f2 : v.has "hlm" = false → v.has "hlm_zeroecc" = false ∧ ∀ d, v.get? "amplm_zeroecc" = some (.modesR d) → d ≠ []) :
    PyRel (fun x x' => DRel (P1 lib Clear u u0) x x' ∧ (x.has "amplm_zeroecc" = true → x.has "hlm_zeroecc" = true) ∧ Long lib n x)
      (transform lib v "") (transform lib v' "") := by
  have i0 : ("" : String) = "" ∨ ("" : String) = "_zeroecc" := Or.inl rfl
  unfold transform
  rw [h.has]
  refine PyRel.ite Iff.rfl (fun hh _ => ?_) fun hh _ => ?_
  · refine PyRel.bind_of (rotatedModes_turn (tag := "") hl h (P0_hlm i0) (P0_name (name := "t") (by simp) i0)) fun r r' hr _ hrr => ?_
    refine .ok ⟨?_, ?_, ?_⟩
    · refine DRel.del ?_ _
      exact h.set' (fun j hj a b hab => (P1_of hj).mpr hab) (P1_hlm hrr)
    · rw [has_del _ (by decide), has_set _ _ (by decide), f1 hh]
      simp
    · constructor
      · intro d hd
        rw [Dict.get?_del, if_neg (by decide), Dict.get?_set, if_neg (by decide)] at hd
        exact hlong.real d hd
      · intro d hd
        rw [Dict.get?_del, if_neg (by decide), Dict.get?_set, if_pos (by rfl)] at hd
        cases hd
        exact rotatedModes_long hrot hv hr
  · have hh : v.has "hlm" = false := by simpa using hh
    obtain ⟨g1, g2⟩ := f2 hh
    refine PyRel.bind (builtModes_turn hl hl0 h hh g1 g2) fun x x' hx => ?_
    obtain ⟨hx, hz, ht, ha⟩ := hx
    have hu : DRel (P0 u u0) (v.update x) (v'.update x') := DRel.update hx h
    refine PyRel.bind_of (rotatedModes_turn (tag := "") hl hu (P0_hlm i0) (P0_name (name := "t") (by simp) i0))
      fun r r' hr _ hrr => ?_
    refine .ok ⟨?_, ?_, ?_⟩
    · refine DRel.del (DRel.del (DRel.del ?_ _) _) _
      exact hu.set' (fun j hj a b hab => (P1_of hj).mpr hab) (P1_hlm hrr)
    · rw [has_del _ (by decide), has_del _ (by decide), has_del _ (by decide), has_set _ _ (by decide),
        has_del _ (by decide), has_del _ (by decide), has_del _ (by decide), has_set _ _ (by decide)]
      intro hc
      refine update_has x v (.inl (hz ?_))
      unfold Dict.has at hc
      rw [update_other x ha] at hc
      exact hc
    · constructor
      · intro d hd
        rw [Dict.get?_del, if_neg (by decide), Dict.get?_del, if_pos (by rfl)] at hd
        cases hd
      · intro d hd
        rw [Dict.get?_del, if_neg (by decide), Dict.get?_del, if_neg (by decide), Dict.get?_del, if_neg (by decide),
          Dict.get?_set, if_pos (by rfl)] at hd
        cases hd
        refine rotatedModes_long hrot (fun l hl => hv l ?_) hr
        rwa [update_other x ht] at hl

/-- After both transformations. -/
def P2 (lib : WaveLib K C) (Clear : List C → Prop) (u u0 : Turn K C) (k : String) (e e' : Entry K C) : Prop :=
  if k = "hlm" ∨ k = "hlm_zeroecc" then CompC lib Clear e e' else P0 u u0 k e e'

theorem turnPhase_rel (u : Turn K C) (e : Entry K C) : PhaseE e (turnPhase u e) := by
  cases e with
  | modesR d => exact .inl ⟨d, turnReal u d, rfl, rfl, FRel.mapE _ d fun k l _ => ⟨_, rfl⟩⟩
  | arr l => exact .inr rfl
  | modesC d => exact .inr rfl
  | other => exact .inr rfl

theorem FRel.clear {lib : WaveLib K C} {Clear : List C → Prop} {d d' : Dict LM (List C)} (h : ModesClear lib Clear d d')
    (hc : ∀ p ∈ d, Clear p.2) : ModesSame lib d d' := by
  induction h with
  | nil => exact .nil'
  | cons h1 _ ih =>
    exact .cons ⟨h1.1, h1.2 (hc _ (List.mem_cons_self ..))⟩ (ih fun p hp => hc p (List.mem_cons_of_mem _ hp))

theorem P2_PV {lib : WaveLib K C} {Clear : List C → Prop} {u u0 : Turn K C} {k : String} {e e' : Entry K C} (h : P2 lib Clear u u0 k e e')
    (hc : k = "hlm" ∨ k = "hlm_zeroecc" → ∀ d, e = .modesC d → ∀ p ∈ d, Clear p.2) : PV lib k e e' := by
  unfold P2 at h
  unfold PV
  split at h
  · rename_i hk
    rw [if_pos hk]
    rcases h with ⟨d, d', rfl, rfl, h⟩ | rfl
    · exact .inl ⟨d, d', rfl, rfl, FRel.clear h (hc hk d rfl)⟩
    · exact .inr rfl
  · rename_i hk
    rw [if_neg hk]
    rw [not_or] at hk
    unfold P0 turnEntry at h
    rw [if_neg hk.1, if_neg hk.2] at h
    subst h
    by_cases h1 : k = "phaselm"
    · rw [if_pos (.inl h1), if_pos h1]; exact turnPhase_rel _ _
    · rw [if_neg h1]
      by_cases h2 : k = "phaselm_zeroecc"
      · rw [if_pos (.inr h2), if_pos h2]; exact turnPhase_rel _ _
      · rw [if_neg (by tauto), if_neg h2]; rfl

theorem transform0_turn {lib : WaveLib K C} {Clear : List C → Prop} {u u0 : Turn K C} (hl0 : WaveTurnFree lib Clear u0)
    {v v' : DataV K C} (h : DRel (P1 lib Clear u u0) v v') {n : ℕ} (hlong : Long lib n v) (f : v.has "hlm_zeroecc" = true) :
    PyRel (fun x x' => DRel (P2 lib Clear u u0) x x' ∧ Long lib n x) (transform lib v "_zeroecc") (transform lib v' "_zeroecc") := by
  have i1 : ("_zeroecc" : String) = "" ∨ ("_zeroecc" : String) = "_zeroecc" := Or.inr rfl
  have f : v.has ("hlm" ++ "_zeroecc") = true := f
  unfold transform
  rw [h.has, if_pos f, if_pos f]
  refine PyRel.bind (rotatedModes_turn (tag := "_zeroecc") hl0 h
    (fun e e' he => P0_hlm (u := u) (u0 := u0) i1 e e' ((P1_of (by decide)).mp he))
    (fun e e' he => P0_name (u := u) (u0 := u0) (name := "t") (by simp) i1 e e' ((P1_of (by decide)).mp he))) fun r r' hrr => ?_
  refine .ok ⟨?_, ?_⟩
  · refine DRel.del ?_ _
    refine h.set' (fun j hj a b hab => ?_) ?_
    · unfold P1 at hab
      unfold P2
      split at hab
      · rename_i e; rw [if_pos (.inl e)]; exact hab
      · rename_i e
        rw [if_neg]
        · exact hab
        · rintro (e' | e')
          · exact e e'
          · exact hj e'
    · unfold P2
      rw [if_pos (.inr rfl)]
      exact .inl ⟨r, r', rfl, rfl, hrr⟩
  · constructor
    · intro d hd
      rw [Dict.get?_del, if_neg (by decide), Dict.get?_set, if_neg (by decide)] at hd
      exact hlong.real d hd
    · intro d hd
      rw [Dict.get?_del, if_neg (by decide), Dict.get?_set, if_neg (by decide)] at hd
      exact hlong.complex d hd

theorem toCoprecessing_turn {lib : WaveLib K C} {Clear : List C → Prop} {u u0 : Turn K C} (hl : WaveTurnFree lib Clear u) (hl0 : WaveTurnFree lib Clear u0)
    {v v' : DataV K C} (h : DRel (P0 u u0) v v') {n : ℕ}
    (hrot : ∀ t cols cols', lib.rotate t cols = .ok cols' → ∀ l ∈ cols', (lib.phase l).length = t.length)
    (hv : ∀ l, v.get? "t" = some (.arr l) → l.length = n) (hlong : Long lib n v)
    (f1 : v.has "hlm" = true → v.has "amplm_zeroecc" = false)
    (f2 : v.has "hlm" = false → v.has "hlm_zeroecc" = false ∧ ∀ d, v.get? "amplm_zeroecc" = some (.modesR d) → d ≠ []) :
    PyRel (fun x x' => DRel (P2 lib Clear u u0) x x' ∧ Long lib n x) (toCoprecessing lib v) (toCoprecessing lib v') := by
  unfold toCoprecessing
  refine PyRel.bind (transform_turn hl hl0 h hrot hv hlong f1 f2) fun x x' hx => ?_
  obtain ⟨h1, h2, h3⟩ := hx
  rw [h1.has, h1.has]
  refine PyRel.ite Iff.rfl (fun hc _ => ?_) fun hc _ => ?_
  · refine transform0_turn hl0 h1 h3 ?_
    rw [Bool.or_eq_true] at hc
    exact hc.elim id h2
  · refine .ok ⟨?_, h3⟩
    refine h1.mono fun k a b hk hab => ?_
    unfold P1 at hab
    unfold P2
    split at hab
    · rename_i e; rw [if_pos (.inl e)]; exact hab
    · rename_i e
      rw [if_neg]
      · exact hab
      · rintro (e' | e')
        · exact e e'
        · subst e'
          rw [Bool.or_eq_true, not_or] at hc
          apply hc.1
          unfold Dict.has
          rw [hk]
          rfl

end

end Turned

end GwEcc
