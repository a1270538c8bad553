import Verif.Lemmas.PhaseRun
import Verif.Props.Rescale

/-!
# C102: a rotation of the source about its axis
-/

set_option linter.unusedSectionVars false

namespace GwEcc

open Spec

section
variable {K C : Type} [Field K] [LinearOrder K] [IsStrictOrderedRing K] [FloorRing K]

/-- A whole call with the source (and, by another angle, the quasicircular source) rotated about its axis returns the same
reference points, eccentricities and mean anomalies, or the same failure. -/
theorem C102_rotation (fuel : ℕ) (lib : Libs K C) (Clear : List C → Prop) (u u0 : Turn K C) (a : Call K C) (hl : LibTurnFree lib Clear u u0)
    (ha : TurnFreeCall lib.wave Clear a) :
    (run fuel lib (turnCall u u0 a)).map (·.map (·.ret)) = (run fuel lib a).map (·.map (·.ret)) := by
  have h := Turned.run_turn fuel hl ha
  revert h
  generalize run fuel lib a = x
  generalize run fuel lib (turnCall u u0 a) = y
  intro h
  cases h with
  | none => rfl
  | some h =>
    cases h with
    | ok h => exact congrArg (fun z => some (Except.ok z)) h.1
    | error e => rfl

/-- The same samples are pericenters and apocenters, the same times can be asked for, and the constructor gives the same
warnings. -/
theorem C102_extrema (fuel : ℕ) (lib : Libs K C) (Clear : List C → Prop) (u u0 : Turn K C) (a : Call K C) (hl : LibTurnFree lib Clear u u0)
    (ha : TurnFreeCall lib.wave Clear a) :
    (run fuel lib (turnCall u u0 a)).map (·.map fun r => (r.built.warnings,
        r.meas.map fun m => (m.pericenters, m.apocenters, m.tmin, m.tmax)))
      = (run fuel lib a).map (·.map fun r => (r.built.warnings,
        r.meas.map fun m => (m.pericenters, m.apocenters, m.tmin, m.tmax))) := by
  have h := Turned.run_turn fuel hl ha
  revert h
  generalize run fuel lib a = x
  generalize run fuel lib (turnCall u u0 a) = y
  intro h
  cases h with
  | none => rfl
  | some h =>
    cases h with
    | error e => rfl
    | ok h =>
      obtain ⟨_, hw, c, hm⟩ := h
      refine congrArg (fun z => some (Except.ok z)) ?_
      dsimp only
      rw [hw, hm, Option.map_map]
      rfl

end

/-! ### The hypotheses are met -/

namespace TurnDemo

/-- The samples vanish nowhere or everywhere. -/
def Definite (zero : ℚ × ℚ) (l : List (ℚ × ℚ)) : Prop := (∀ x ∈ l, x ≠ zero) ∨ ∀ x ∈ l, x = zero

/-- A complex number is the pair of amplitude and phase; zero has phase 0. -/
def norm (z : ℚ × ℚ) : ℚ × ℚ := if z.1 = 0 then (0, 0) else z

/-- A mode in the coprecessing frame (here it is the frame of the source); modes with zeros are given no phase. -/
def copr (l : List (ℚ × ℚ)) : List (ℚ × ℚ) := if l.all (fun z => z.1 ≠ 0) then l else l.map fun z => (z.1, 0)

/-- The libraries of `RescaleDemo` with these complex numbers, a rotation that checks its input and an interpolation of
phases. -/
def lib : Libs ℚ (ℚ × ℚ) :=
  { RescaleDemo.lib with
    wave := { RescaleDemo.lib.wave with
      polar := fun a p => .ok ((a.zip p).map norm)
      rotate := fun t cols => if cols.all (fun l => l.length = t.length) then .ok (cols.map copr) else .error .valueError }
    fits := { RescaleDemo.lib.fits with
      cubic := fun _ p _ => match p with
        | [] => .error .valueError
        | x :: _ => .ok x } }

/-- Rotation by the angle `φ`. -/
def turn (φ : ℚ) : Turn ℚ (ℚ × ℚ) where
  num := fun k z => if z = (0, 0) then (0, 0) else (z.1, z.2 + k.2 * φ)
  angle := fun k => k.2 * φ

theorem same_nonzero (φ : ℚ) (k : LM) (l : List (ℚ × ℚ)) (h : ∀ z ∈ l, z ≠ (0, 0)) :
    SameUpToPhase lib.wave l (l.map ((turn φ).num k)) := by
  have e : l.map ((turn φ).num k) = l.map fun z => (z.1, z.2 + k.2 * φ) :=
    List.map_congr_left fun z hz => if_neg (h z hz)
  rw [e]
  refine ⟨?_, k.2 * φ, ?_⟩
  · show (l.map fun z => (z.1, z.2 + k.2 * φ)).map (·.1) = l.map (·.1)
    rw [List.map_map]
    rfl
  · show (l.map fun z => (z.1, z.2 + k.2 * φ)).map (·.2) = (l.map (·.2)).map (· + k.2 * φ)
    rw [List.map_map, List.map_map]
    rfl

theorem num_fst (φ : ℚ) (k : LM) (z : ℚ × ℚ) : ((turn φ).num k z).1 = z.1 := by
  show (if z = (0, 0) then ((0, 0) : ℚ × ℚ) else _).1 = _
  split
  · rename_i h; rw [h]
  · rfl

theorem copr_same (φ : ℚ) (k : LM) (l : List (ℚ × ℚ)) : SameUpToPhase lib.wave (copr l) (copr (l.map ((turn φ).num k))) := by
  have e : (l.map ((turn φ).num k)).all (fun z => decide (z.1 ≠ 0)) = l.all fun z => decide (z.1 ≠ 0) := by
    rw [List.all_map]
    congr 1
    funext z
    simp only [Function.comp, num_fst]
  unfold copr
  rw [e]
  split
  · rename_i h
    refine same_nonzero φ k l fun z hz h0 => ?_
    have := List.all_eq_true.mp h z hz
    rw [h0] at this
    simp at this
  · have e2 : (l.map ((turn φ).num k)).map (fun z => (z.1, (0 : ℚ))) = l.map fun z => (z.1, 0) := by
      rw [List.map_map]
      refine List.map_congr_left fun z _ => ?_
      simp only [Function.comp, num_fst]
    rw [e2]
    exact ⟨rfl, 0, by simp⟩

theorem num_zero (φ : ℚ) (k : LM) : (turn φ).num k (0, 0) = (0, 0) := by
  unfold turn
  simp

theorem wave_free (φ : ℚ) : WaveTurnFree lib.wave (Definite (0, 0)) (turn φ) := by
  refine ⟨fun k => num_zero φ k, ?_, ?_, ?_, ?_⟩
  · rintro k l (h | h)
    · exact same_nonzero φ k l h
    · have e : l.map ((turn φ).num k) = l := by
        conv_rhs => rw [← List.map_id l]
        exact List.map_congr_left fun z hz => by rw [h z hz]; exact num_zero φ k
      rw [e]
      exact ⟨rfl, 0, by simp⟩
  · intro k a p
    show Except.ok ((a.zip (p.map _)).map norm) = Except.ok (((a.zip p).map norm).map _)
    rw [List.zip_map_right, List.map_map, List.map_map]
    refine congrArg Except.ok (List.map_congr_left fun z _ => ?_)
    show norm (z.1, z.2 + k.2 * φ) = if norm z = (0, 0) then (0, 0) else ((norm z).1, (norm z).2 + k.2 * φ)
    unfold norm
    dsimp only
    by_cases hz : z.1 = 0
    · rw [if_pos hz, if_pos hz, if_pos rfl]
    · rw [if_neg hz, if_neg hz, if_neg (fun h => hz (congrArg Prod.fst h))]
  · intro t cols r h
    have h : (if cols.all (fun l => l.length = t.length) then Except.ok (cols.map copr) else .error Err.valueError) = Except.ok r := h
    split at h
    · rename_i hc
      have hc' : (turnColumns (turn φ) cols).all (fun l => decide (l.length = t.length)) = true := by
        rw [List.all_eq_true] at hc ⊢
        intro l hl
        unfold turnColumns at hl
        obtain ⟨i, hi, rfl⟩ := List.mem_mapIdx.mp hl
        rw [List.length_map]
        exact hc _ (List.getElem_mem hi)
      cases h
      refine ⟨(turnColumns (turn φ) cols).map copr, if_pos hc', ?_⟩
      rw [List.forall₂_map_left_iff, List.forall₂_map_right_iff]
      unfold turnColumns
      rw [List.forall₂_iff_get]
      refine ⟨by rw [List.length_mapIdx], fun i h1 h2 => ?_⟩
      simp only [List.get_eq_getElem, List.getElem_mapIdx]
      exact fun _ => copr_same φ _ _
    · cases h
  · intro t cols err h
    have h : (if cols.all (fun l => l.length = t.length) then Except.ok (cols.map copr) else .error Err.valueError)
      = (Except.error err : Py (List (List (ℚ × ℚ)))) := h
    split at h
    · cases h
    · rename_i hc
      have hc' : ¬ (turnColumns (turn φ) cols).all (fun l => decide (l.length = t.length)) = true := by
        intro hh
        apply hc
        rw [List.all_eq_true] at hh ⊢
        intro l hl
        obtain ⟨i, hi, rfl⟩ := List.mem_iff_getElem.mp hl
        have := hh (cols[i].map ((turn φ).num (2, (i : ℤ) - 2))) (by
          unfold turnColumns
          exact List.mem_mapIdx.mpr ⟨i, hi, rfl⟩)
        rw [List.length_map] at this
        exact this
      exact (if_neg hc').trans h

theorem lib_free (φ φ0 : ℚ) : LibTurnFree lib (Definite (0, 0)) (turn φ) (turn φ0) := by
  refine ⟨wave_free φ, wave_free φ0, ?_, RescaleDemo.libFree.fitsSamples, ?_⟩
  · intro t p c x
    cases p <;> rfl
  · exact RescaleDemo.libFree.peaksSamples

theorem rotate_length {t : List ℚ} {cols cols' : List (List (ℚ × ℚ))} (h : lib.wave.rotate t cols = .ok cols') :
    ∀ l ∈ cols', l.length = t.length := by
  have h : (if cols.all (fun l => l.length = t.length) then Except.ok (cols.map copr) else .error Err.valueError) = Except.ok cols' := h
  split at h
  · rename_i hc
    cases h
    intro l hl
    obtain ⟨x, hx, rfl⟩ := List.mem_map.mp hl
    have : (copr x).length = x.length := by unfold copr; split <;> simp
    rw [this]
    exact of_decide_eq_true (List.all_eq_true.mp hc x hx)
  · cases h

theorem samples {v : DataV ℚ (ℚ × ℚ)} (hp : ProperDicts v)
    (hr : ∀ key ∈ ["amplm", "phaselm", "omegalm"], ∀ t k l, array v "t" = some t → realMode v key k = some l →
      l.length = t.length)
    (hc : ∀ t k l, array v "t" = some t → complexMode v "hlm" k = some l → l.length = t.length) :
    OneSampleEach lib.wave v := by
  refine ⟨hp, hr, fun t k l h1 h2 => ?_, fun t cols cols' h l hl => ?_, fun a p h hh => ?_⟩
  · exact ⟨(List.length_map _).trans (hc t k l h1 h2), (List.length_map _).trans (hc t k l h1 h2)⟩
  · have := rotate_length h l hl
    exact ⟨((List.length_map _).trans this).le, ((List.length_map _).trans this).le⟩
  · have e : h = (a.zip p).map norm := (Except.ok.inj hh).symm
    subst e
    constructor
    · show (((a.zip p).map norm).map (·.1)).length ≤ _
      simp
    · show (((a.zip p).map norm).map (·.2)).length ≤ _
      simp

/-- A phase whose derivative grows and drops as the amplitude does. -/
def phasesH : List ℚ := (List.range 24).map fun i : ℕ => (RunDemo.omegas.take i).sum

/-- A small difference of the phases of the two modes. -/
def rippleH : List ℚ := (List.range 24).map fun i : ℕ => if i % 4 < 2 then 1 / 100 else -1 / 100

/-- Complex modes in the frame of the source; three of them vanish. -/
def dataH : DataV ℚ (ℚ × ℚ) :=
  [("t", .arr RunDemo.times),
    ("hlm", .modesC [((2, 2), (List.zipWith (· + ·) RunDemo.amps RunDemo.ripple).zip phasesH),
      ((2, 1), List.replicate 24 (0, 0)), ((2, 0), List.replicate 24 (0, 0)), ((2, -1), List.replicate 24 (0, 0)),
      ((2, -2), (List.zipWith (· - ·) RunDemo.amps RunDemo.ripple).zip
        (List.zipWith (fun r p => r - p) rippleH phasesH))])]

def callH : Call ℚ (ℚ × ℚ) := { RunDemo.call with dataDict := dataH, precessing := .isTrue, frame := "inertial" }

def callN : Call ℚ (ℚ × ℚ) := { RunDemo.call with dataDict := dataH }

theorem rotated {t : List ℚ} {cols cols' : List (List (ℚ × ℚ))} (h : lib.wave.rotate t cols = .ok cols') :
    ∀ l ∈ cols', (lib.wave.phase l).length = t.length := fun l hl => (List.length_map _).trans (rotate_length h l hl)

theorem samplesH : OneSampleEach lib.wave dataH := by
  refine samples ?_ ?_ ?_
  · apply DataDemo.proper_of_list
    intro p hp
    simp only [dataH, List.mem_cons, List.not_mem_nil, or_false] at hp
    rcases hp with rfl | rfl
    · exact ⟨fun d hd => (by cases hd), fun d hd => by cases hd⟩
    · exact ⟨fun d hd => (by cases hd), fun d hd => by cases hd; decide +kernel⟩
  · intro key hkey t k l _ h
    simp only [List.mem_cons, List.not_mem_nil, or_false] at hkey
    rcases hkey with rfl | rfl | rfl <;> cases h
  · intro t k l ht h
    have ht : some RunDemo.times = some t := ht
    cases ht
    unfold complexMode at h
    obtain ⟨e, he, h⟩ := Option.bind_eq_some_iff.mp h
    cases he
    obtain ⟨d, hd, h⟩ := Option.bind_eq_some_iff.mp h
    cases hd
    have := mem_of_get? h
    simp only [List.mem_cons, List.not_mem_nil, or_false, Prod.mk.injEq] at this
    rcases this with ⟨_, rfl⟩ | ⟨_, rfl⟩ | ⟨_, rfl⟩ | ⟨_, rfl⟩ | ⟨_, rfl⟩ <;> decide +kernel

theorem copr_definite {l : List (ℚ × ℚ)} (h : Definite (0, 0) l) (h' : l.all (fun z => decide (z.1 ≠ 0)) = true ∨ ∀ z ∈ l, z = (0, 0)) :
    Definite (0, 0) (copr l) := by
  unfold copr
  split
  · exact h
  · rename_i hn
    rcases h' with h' | h'
    · exact absurd h' hn
    · refine .inr fun z hz => ?_
      obtain ⟨y, hy, rfl⟩ := List.mem_map.mp hz
      rw [h' y hy]

/-- The modes in the coprecessing frame vanish nowhere or everywhere. -/
theorem transformedH {t : List ℚ} {H R : Dict LM (List (ℚ × ℚ))} (hg : Given lib.wave dataH "" (fun k => H.get? k))
    (hR : Coprecessing lib.wave t H R) {k : LM} {l : List (ℚ × ℚ)} (hl : R.get? k = some l) : Definite (0, 0) l := by
  rcases hg with ⟨c, hc, hH⟩ | ⟨hc, _⟩
  · obtain ⟨x1, x2, x3, x4, x5, cols, h1, h2, h3, h4, h5, h6, h7⟩ := hR
    cases hc
    have hH : ∀ k, H.get? k = _ := hH
    rw [hH] at h1 h2 h3 h4 h5
    cases h1
    cases h2
    cases h3
    cases h4
    cases h5
    rw [h7] at hl
    split at hl
    · have hm := List.mem_of_getElem? hl
      unfold lib at h6
      dsimp only at h6
      split at h6
      · cases h6
        obtain ⟨y, hy, rfl⟩ := List.mem_map.mp hm
        simp only [List.mem_cons, List.not_mem_nil, or_false] at hy
        have z : ∀ z ∈ List.replicate 24 ((0, 0) : ℚ × ℚ), z = (0, 0) := fun z hz => List.eq_of_mem_replicate hz
        rcases hy with rfl | rfl | rfl | rfl | rfl
        · exact copr_definite (.inl (by decide +kernel)) (.inl (by decide +kernel))
        · exact copr_definite (.inr z) (.inr z)
        · exact copr_definite (.inr z) (.inr z)
        · exact copr_definite (.inr z) (.inr z)
        · exact copr_definite (.inl (by decide +kernel)) (.inl (by decide +kernel))
      · cases h6
    · cases hl
  · cases hc

/-- Complex modes of a precessing system in the frame of the source, … -/
theorem freeH : TurnFreeCall lib.wave (Definite (0, 0)) callH := by
  refine ⟨samplesH, fun t cols cols' h => rotated h, fun h => ?_, fun _ tag htag t H R hg ht hR k l hl => ?_,
    fun _ => ⟨fun _ => rfl, fun h => ?_⟩⟩
  · exact absurd h (by decide)
  · simp only [List.mem_cons, List.not_mem_nil, or_false] at htag
    rcases htag with rfl | rfl
    · exact transformedH hg hR hl
    · cases ht
  · exact absurd h (by decide)

/-- … the same modes of a system that does not precess, … -/
theorem freeN : TurnFreeCall lib.wave (Definite (0, 0)) callN := by
  refine ⟨samplesH, fun t cols cols' h => rotated h, fun _ key hkey k l h => ?_, fun h => ?_, fun h => ?_⟩
  · simp only [List.mem_cons, List.not_mem_nil, or_false] at hkey
    rcases hkey with rfl | rfl
    · unfold complexMode at h
      obtain ⟨e, he, h⟩ := Option.bind_eq_some_iff.mp h
      cases he
      obtain ⟨d, hd, h⟩ := Option.bind_eq_some_iff.mp h
      cases hd
      have := mem_of_get? h
      simp only [List.mem_cons, List.not_mem_nil, or_false, Prod.mk.injEq] at this
      rcases this with ⟨_, rfl⟩ | ⟨_, rfl⟩ | ⟨_, rfl⟩ | ⟨_, rfl⟩ | ⟨_, rfl⟩
      · left
        show ∀ z ∈ _, z ≠ ((0, 0) : ℚ × ℚ)
        decide +kernel
      · exact .inr fun z hz => List.eq_of_mem_replicate hz
      · exact .inr fun z hz => List.eq_of_mem_replicate hz
      · exact .inr fun z hz => List.eq_of_mem_replicate hz
      · left
        show ∀ z ∈ _, z ≠ ((0, 0) : ℚ × ℚ)
        decide +kernel
    · cases h
  · exact absurd h (by decide)
  · exact absurd h (by decide)

/-- … and amplitudes, phases and frequencies of a system that precesses or not. -/
theorem freeR {a : Call ℚ (ℚ × ℚ)} (hs : OneSampleEach RescaleDemo.lib.wave a.dataDict) (hm : mustTransform a.precessing a.frame = false)
    (h1 : a.dataDict.get? "hlm" = none) (h2 : a.dataDict.get? "hlm_zeroecc" = none) : TurnFreeCall lib.wave (Definite (0, 0)) a := by
  refine ⟨samples hs.proper hs.real ?_, fun t cols cols' h => rotated h, fun _ key hkey k l h => ?_, fun h => ?_, fun h => ?_⟩
  · intro t k l _ h
    unfold complexMode at h
    rw [h1] at h
    cases h
  · unfold complexMode at h
    simp only [List.mem_cons, List.not_mem_nil, or_false] at hkey
    rcases hkey with rfl | rfl
    · rw [h1] at h; cases h
    · rw [h2] at h; cases h
  · rw [hm] at h; cases h
  · rw [hm] at h; cases h

example (φ φ0 : ℚ) : (run 60 lib (turnCall (turn φ) (turn φ0) callH)).map (·.map (·.ret)) = (run 60 lib callH).map (·.map (·.ret)) :=
  C102_rotation 60 lib _ _ _ callH (lib_free φ φ0) freeH

example (φ φ0 : ℚ) : (run 60 lib (turnCall (turn φ) (turn φ0) callN)).map (·.map (·.ret)) = (run 60 lib callN).map (·.map (·.ret)) :=
  C102_rotation 60 lib _ _ _ callN (lib_free φ φ0) freeN

example (φ φ0 : ℚ) : (run 60 lib (turnCall (turn φ) (turn φ0) RunDemo.callP)).map (·.map (·.ret))
    = (run 60 lib RunDemo.callP).map (·.map (·.ret)) :=
  C102_rotation 60 lib _ _ _ RunDemo.callP (lib_free φ φ0) (freeR RescaleDemo.dataP_samples rfl rfl rfl)

/-- The methods based on fits are included. -/
example (φ φ0 : ℚ) : (run 60 lib (turnCall (turn φ) (turn φ0) (RescaleDemo.fitsCall "FrequencyFits" true))).map (·.map (·.ret))
    = (run 60 lib (RescaleDemo.fitsCall "FrequencyFits" true)).map (·.map (·.ret)) :=
  C102_rotation 60 lib _ _ _ _ (lib_free φ φ0) (freeR RescaleDemo.data_samples rfl rfl rfl)

example (φ φ0 : ℚ) : (run 60 lib (turnCall (turn φ) (turn φ0) callH)).map (·.map fun r => (r.built.warnings,
      r.meas.map fun m => (m.pericenters, m.apocenters, m.tmin, m.tmax)))
    = (run 60 lib callH).map (·.map fun r => (r.built.warnings,
      r.meas.map fun m => (m.pericenters, m.apocenters, m.tmin, m.tmax))) :=
  C102_extrema 60 lib _ _ _ callH (lib_free φ φ0) freeH

/-- These calls succeed, and the rotation changes the data. -/
example : RunDemo.ecc (run 60 lib callH) = some (.ok (some (.array [202 / 2427, 202 / 2445]))) ∧
    RunDemo.ecc (run 60 lib callN) = some (.ok (some (.array [200 / 2427, 40 / 489]))) ∧
    RunDemo.ecc (run 60 lib RunDemo.callP) = some (.ok (some (.array [10 / 81, 25 / 204]))) ∧
    RunDemo.err (run 60 lib (RescaleDemo.fitsCall "FrequencyFits" true)) = some none ∧
    (complexMode (turnDict (turn (1 / 3)) (turn 0) dataH) "hlm" (2, 2)).map (List.head? ·) = some (some (401 / 100, 2 / 3)) := by
  decide +kernel

end TurnDemo

end GwEcc
