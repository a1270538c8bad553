import Verif.Lemmas.ConstructOk
import Verif.Lemmas.ExtremaFit
import Verif.Lemmas.RunDemo
import Verif.Props.Levels
import Verif.Props.PhaseOrigin
import Verif.Spec.WholeLevels

/-!
# C107 The debug level of a call
-/

set_option linter.unusedSectionVars false

namespace GwEcc

open Spec

variable {K C : Type} [Field K] [LinearOrder K] [IsStrictOrderedRing K] [FloorRing K]

/-- What the constructor leaves at level `L` against level 0. -/
structure SameBuilt (L : ℤ) (b b0 : Built K C) : Prop where
  ext : SameExt L b.ext b0.ext
  obj : b.obj = b0.obj.atLevel L ∧ b0.obj = b0.obj.atLevel 0
  data : b.data = b0.data
  analysis : b.analysis = b0.analysis
  wave : b.wave = b0.wave

theorem segmentWarning_lvl (pi : K) (L : ℤ) (orbits : Option K) (w : Wave K) :
    Lvl (Quiet L) (fun _ _ => True) (segmentWarning pi L orbits w) (segmentWarning pi 0 orbits w) := by
  unfold segmentWarning
  cases orbits with
  | none => exact .ok trivial
  | some n =>
    refine Lvl.ite (fun _ => .ok trivial) fun _ => ?_
    refine Lvl.bind (Lvl.rfl' _) ?_
    rintro pN _ rfl
    refine Lvl.bind (Lvl.rfl' _) ?_
    rintro p0 _ rfl
    refine Lvl.ite (fun _ => .ok trivial) fun _ => ?_
    exact message_bind fun _ _ => .ok trivial

theorem Lvl.mapM_any {q : Prop} {α β γ : Type} {f : α → Py β} {g : α → Py γ} : ∀ l : List α,
    (∀ x ∈ l, Lvl q (fun _ _ => True) (f x) (g x)) → Lvl q (fun _ _ => True) (l.mapM f) (l.mapM g)
  | [], _ => .ok trivial
  | a :: l, h => by
    rw [List.mapM_cons, List.mapM_cons]
    refine Lvl.bind (h a (by simp)) fun _ _ _ => ?_
    refine Lvl.bind (mapM_any l fun x hx => h x (by simp [hx])) fun _ _ _ => ?_
    exact .ok trivial

theorem keyWarnings_lvl (L : ℤ) (keys : List String) :
    Lvl (Quiet L) (fun _ _ => True) (keyWarnings L keys) (keyWarnings 0 keys) := by
  unfold keyWarnings
  refine Lvl.bind (Lvl.mapM_any _ fun _ _ => message_bind fun _ _ => .ok trivial) fun _ _ _ => .ok trivial

/-- The options of the interpolation agree except for `verbose`. -/
theorem extremaOptions_lvl (ex : Extra K) (L : ℤ) (method : String) :
    Lvl (Quiet L) (fun r r0 => r.1 = r0.1 ∧ ∀ k, k ≠ "verbose" → r.2.get? k = r0.2.get? k)
      (extremaOptions ex L method) (extremaOptions ex 0 method) := by
  unfold extremaOptions
  refine Lvl.ite (fun _ => .error _) fun _ => Lvl.ite (fun _ => ?_) fun _ => ?_
  · exact Lvl.refl (fun _ => ⟨rfl, fun _ _ => rfl⟩) _
  · refine Lvl.bind (Lvl.rfl' _) ?_
    rintro kw _ rfl
    refine .ok ⟨rfl, fun k hk => ?_⟩
    rw [Dict.get?_set, Dict.get?_set, if_neg hk, if_neg hk]

theorem loadWave_lvl (lib : Libs K C) (a : Call K C) (L : ℤ) :
    Lvl (Quiet L) Eq (loadWave lib (withLevel a L)) (loadWave lib (withLevel a 0)) := by
  unfold loadWave frameMessage withLevel
  refine Lvl.bind (R := fun _ _ => True) ?_ fun _ _ _ => Lvl.rfl' _
  refine Lvl.ite (fun _ => ?_) fun _ => .ok trivial
  refine Lvl.bind (Lvl.rfl' _) fun _ _ _ => ?_
  exact message_bind fun _ _ => .ok trivial

theorem finish_lvl {lib : Libs K C} (hv : FitsIgnoreVerbose lib) (c : MethodClass) (domain : Domain) (ref : Val K) (a : Call K C)
    (nd : DataV K C) (an : Analysis K) (w : Wave K) (filtered : Bool) (extra : Option (Extra K)) (L : ℤ) :
    Lvl (Quiet L) (SameBuilt L) (finish lib c domain ref (withLevel a L) nd an w filtered extra)
      (finish lib c domain ref (withLevel a 0) nd an w filtered extra) := by
  unfold finish
  refine Lvl.bind (Lvl.rfl' _) ?_
  rintro ex _ rfl
  refine Lvl.bind (Lvl.rfl' _) ?_
  rintro o _ rfl
  refine Lvl.bind (Lvl.rfl' _) ?_
  rintro orbits _ rfl
  refine Lvl.bind (segmentWarning_lvl _ _ _ _) fun w1 w10 _ => ?_
  refine Lvl.bind (Lvl.rfl' _) ?_
  rintro w' _ rfl
  refine Lvl.bind (Lvl.rfl' _) ?_
  rintro peaksKw _ rfl
  refine Lvl.bind (Lvl.rfl' _) ?_
  rintro method _ rfl
  refine Lvl.bind (extremaOptions_lvl _ _ _) ?_
  rintro ⟨ekw, rkw⟩ ⟨_, rkw0⟩ ⟨rfl, hr⟩
  refine Lvl.bind (Lvl.rfl' _) ?_
  rintro gkw _ rfl
  refine Lvl.bind (Lvl.rfl' _) ?_
  rintro general _ rfl
  refine Lvl.bind (keyWarnings_lvl _ _) fun w2 w20 _ => ?_
  refine Lvl.bind (Lvl.rfl' _) ?_
  rintro ⟨res, zeroecc⟩ _ rfl
  refine Lvl.bind (Lvl.rfl' _) ?_
  rintro find _ rfl
  refine Lvl.bind (Lvl.rfl' _) ?_
  rintro avg _ rfl
  refine Lvl.bind (Lvl.rfl' _) ?_
  rintro mid _ rfl
  refine Lvl.bind (Lvl.rfl' _) ?_
  rintro zero _ rfl
  refine Lvl.bind (Lvl.rfl' _) ?_
  rintro dataT _ rfl
  refine .ok ⟨⟨rfl, fun ty xP yP xA yA => ?_, fun _ => Lvl.rfl' _⟩, ⟨rfl, rfl⟩, rfl, rfl, rfl⟩
  have e1 : lib.rational rkw.get? = lib.rational rkw0.get? := by
    funext d x y
    exact hv _ _ hr d x y
  show Lvl _ _ (extremaFit (lib.rational rkw.get?) lib.eval L (requestedDegrees (rkw.get? "degrees")) w'.t ty xP yP xA yA)
    (extremaFit (lib.rational rkw0.get?) lib.eval 0 (requestedDegrees (rkw0.get? "degrees")) w'.t ty xP yP xA yA)
  rw [e1, hr "degrees" (by decide)]
  exact extremaFit_level L _ _ _ _ _ _ _ _ _

/-- The answers of two calls. -/
def SameAnswer (r r0 : Answer K C) : Prop :=
  r.ret = r0.ret ∧ r.built.data = r0.built.data ∧ r.meas.map (·.pericenters) = r0.meas.map (·.pericenters) ∧
    r.meas.map (·.apocenters) = r0.meas.map (·.apocenters)

/-- The two calls side by side. -/
inductive LvlRun (L : ℤ) : Option (Py (Answer K C)) → Option (Py (Answer K C)) → Prop
  | unfinished : LvlRun L none none
  | strict (h : ¬ Quiet L) (e : Err) (y : Option (Py (Answer K C))) : LvlRun L (some (.error e)) y
  | both {x y : Py (Answer K C)} (h : Lvl (Quiet L) SameAnswer x y) : LvlRun L (some x) (some y)

theorem run_lvl (fuel : ℕ) {lib : Libs K C} (hv : FitsIgnoreVerbose lib) (a : Call K C) (L : ℤ) :
    LvlRun L (run fuel lib (withLevel a L)) (run fuel lib (withLevel a 0)) := by
  unfold run
  have hd : dispatch (withLevel a L) = dispatch (withLevel a 0) := rfl
  rw [hd]
  cases dispatch (withLevel a 0) with
  | error e => exact .both (.error e)
  | ok q =>
    obtain ⟨c, domain, ref⟩ := q
    dsimp only
    unfold construct
    have hl := loadWave_lvl lib a L
    revert hl
    generalize loadWave lib (withLevel a L) = x
    generalize loadWave lib (withLevel a 0) = y
    intro hl
    cases hl with
    | error e => exact .both (.error e)
    | strict h e y => exact .strict h e _
    | ok h =>
      subst h
      rename_i q
      obtain ⟨nd, an, w⟩ := q
      dsimp only
      have hs : filterStage fuel lib (withLevel a L) nd an w = filterStage fuel lib (withLevel a 0) nd an w := rfl
      rw [hs]
      cases filterStage fuel lib (withLevel a 0) nd an w with
      | none => exact .unfinished
      | some r =>
        refine .both ?_
        refine Lvl.bind (R := SameBuilt L) (Lvl.bind (Lvl.rfl' r) ?_) ?_
        · rintro ⟨w', filtered, extra⟩ _ rfl
          exact finish_lvl hv c domain ref a nd an w' filtered extra L
        · intro b b0 h
          rw [h.obj.1, h.obj.2]
          refine Lvl.bind (measureEcc_lvl (o := b0.obj) h.ext none) ?_
          rintro ⟨ret, m, x⟩ ⟨ret0, m0, x0⟩ ⟨h1, h2, h3⟩
          dsimp only at h1 h2
          subst h1 h2
          refine .ok ⟨rfl, h.data, ?_, ?_⟩
          · cases m <;> rfl
          · cases m <;> rfl

/-- **C107.** At the levels -1, 0 and 1 a call returns the same dictionary and uses the same data, or raises the same exception. -/
theorem C107_quiet (fuel : ℕ) {lib : Libs K C} (hv : FitsIgnoreVerbose lib) (a : Call K C) {L : ℤ} (hL : L = -1 ∨ L = 0 ∨ L = 1) :
    (run fuel lib (withLevel a L)).map (Except.map fun r => (r.ret, r.built.data)) =
      (run fuel lib (withLevel a 0)).map (Except.map fun r => (r.ret, r.built.data)) := by
  have h := run_lvl fuel hv a L
  revert h
  generalize run fuel lib (withLevel a L) = x
  generalize run fuel lib (withLevel a 0) = y
  intro h
  cases h with
  | unfinished => rfl
  | strict h => exact absurd hL h
  | both h =>
    cases h with
    | ok h => simp only [Option.map_some, Except.map, h.1, h.2.1]
    | error e => rfl
    | strict h => exact absurd hL h

/-- **C107.** At any level, in particular the strict level 2, a call that returns gives what it gives at level 0, from the same
pericenters and apocenters. -/
theorem C107_strict {fuel : ℕ} {lib : Libs K C} (hv : FitsIgnoreVerbose lib) {a : Call K C} {L : ℤ} {ans : Answer K C}
    (h : run fuel lib (withLevel a L) = some (.ok ans)) :
    ∃ ans0, run fuel lib (withLevel a 0) = some (.ok ans0) ∧ ans0.ret = ans.ret ∧ ans0.built.data = ans.built.data ∧
      ans0.meas.map (·.pericenters) = ans.meas.map (·.pericenters) ∧
      ans0.meas.map (·.apocenters) = ans.meas.map (·.apocenters) := by
  have hl := run_lvl fuel hv a L
  rw [h] at hl
  revert hl
  generalize run fuel lib (withLevel a 0) = y
  intro hl
  cases hl with
  | both hl =>
    cases hl with
    | ok hl => exact ⟨_, rfl, hl.1.symm, hl.2.1.symm, hl.2.2.1.symm, hl.2.2.2.symm⟩

/-- **C107.** The strict level refuses every precessing system given in the inertial frame, whatever the data, because the announcement of
the change of frame is an exception. -/
theorem C107_strict_inertial (fuel : ℕ) (lib : Libs K C) {a : Call K C} (h2 : a.level = 2) (hp : a.precessing = .isTrue)
    (hf : a.frame = "inertial") : ∃ e, run fuel lib a = some (.error e) := by
  unfold run
  cases hd : dispatch a with
  | error e => exact ⟨e, rfl⟩
  | ok q =>
    obtain ⟨c, domain, ref⟩ := q
    dsimp only
    have hl : ∃ e, loadWave lib a = .error e := by
      unfold loadWave frameMessage
      rw [hp, hf, h2, if_pos (by rfl)]
      cases checkShape (Dict.has a.dataDict) with
      | error e => exact ⟨e, rfl⟩
      | ok u => exact ⟨.exception, rfl⟩
    obtain ⟨e, he⟩ := hl
    unfold construct
    rw [he]
    exact ⟨e, rfl⟩

/-- The call of the example returns at every level, with the same eccentricities; one with complex modes of a precessing system in
the frame of the source returns at level 1 and raises at level 2. -/
example : FitsIgnoreVerbose RunDemo.lib ∧
    RunDemo.ecc (run 60 RunDemo.lib (withLevel RunDemo.call 1)) = some (.ok (some (.array [10 / 81, 25 / 204]))) ∧
    RunDemo.ecc (run 60 RunDemo.lib (withLevel RunDemo.call 2)) = some (.ok (some (.array [10 / 81, 25 / 204]))) :=
  ⟨fun _ _ _ _ _ _ => rfl, by decide +kernel, by decide +kernel⟩

example : RunDemo.ecc (run 60 TurnDemo.lib (withLevel TurnDemo.callH 1)) = some (.ok (some (.array [202 / 2427, 202 / 2445]))) ∧
    RunDemo.err (run 60 TurnDemo.lib (withLevel TurnDemo.callH 2)) = some (some .exception) :=
  ⟨by decide +kernel, by decide +kernel⟩

end GwEcc
