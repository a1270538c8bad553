import Verif.Props.Frame
import Verif.Props.DataUnits

/-!
# Concrete waveforms meeting the hypotheses of the theorems on C03, C19, C20, C48, C65

Complex samples are pairs (amplitude, phase), `pi` is 1, and the rotation doubles the amplitudes.
-/

namespace GwEcc.DataDemo

open Spec

/-- A small rotation library. -/
def waveLib : WaveLib ℚ (ℚ × ℚ) where
  pi := 1
  zero := (0, 0)
  abs := List.map (·.1)
  phase := List.map (·.2)
  polar := fun a p => .ok (List.zip a p)
  rotate := fun _ cols => .ok (cols.map (List.map fun z => (2 * z.1, z.2)))
  totalAmp := fun ls => match ls with
    | [] => .error .valueError
    | l :: _ => .ok l

theorem waveLib_polar : ∀ h, waveLib.polar (waveLib.abs h) (waveLib.phase h) = .ok h := by
  intro h
  unfold waveLib
  simp only [Except.ok.injEq]
  induction h with
  | nil => rfl
  | cons a h ih => simp [ih]

def times : List ℚ := (List.range 24).map fun i : ℕ => (i : ℚ)
def amps : List ℚ := (List.range 24).map fun i : ℕ => 500 - ((i : ℚ) - 20) ^ 2
def phases : List ℚ := (List.range 24).map fun i : ℕ => (i : ℚ)

/-- Amplitudes and phases of a nonprecessing system. -/
def ampPhase : DataV ℚ (ℚ × ℚ) :=
  [("t", .arr times), ("amplm", .modesR [((2, 2), amps), ((2, -2), amps)]),
    ("phaselm", .modesR [((2, 2), phases), ((2, -2), phases.map (- ·))])]

def allModes : Dict LM (List (ℚ × ℚ)) :=
  [((2, 2), amps.zip phases), ((2, -2), amps.zip (phases.map (- ·))), ((2, 0), amps.zip phases), ((2, 1), amps.zip phases),
    ((2, -1), amps.zip phases)]

/-- Complex modes in an inertial frame, with a quasicircular partner given by amplitudes and phases. -/
def inertial : DataV ℚ (ℚ × ℚ) :=
  [("t", .arr times), ("hlm", .modesC allModes), ("t_zeroecc", .arr times),
    ("amplm_zeroecc", .modesR (allModes.map fun p => (p.1, p.2.map (·.1)))),
    ("phaselm_zeroecc", .modesR (allModes.map fun p => (p.1, p.2.map (·.2))))]

/-- The same, but the eccentric modes are also given by amplitudes and phases. -/
def inertial' : DataV ℚ (ℚ × ℚ) :=
  [("t", .arr times), ("amplm", .modesR (allModes.map fun p => (p.1, p.2.map (·.1)))),
    ("phaselm", .modesR (allModes.map fun p => (p.1, p.2.map (·.2)))), ("t_zeroecc", .arr times),
    ("amplm_zeroecc", .modesR (allModes.map fun p => (p.1, p.2.map (·.1)))),
    ("phaselm_zeroecc", .modesR (allModes.map fun p => (p.1, p.2.map (·.2))))]

/-- What a run is looked at for: number of samples kept, third value of the (2,2) amplitude, eccentric and quasicircular,
width, cut. -/
def look (x : DataV ℚ (ℚ × ℚ) × Analysis ℚ) : Option ℕ × Option ℚ × Option ℚ × ℤ × Option ℕ :=
  ((Spec.array x.1 "t").map List.length, (realMode x.1 "amplm" (2, 2)).bind (·[2]?),
    (realMode x.1 "amplm_zeroecc" (2, 2)).bind (·[2]?), x.2.width, x.2.cut)

-- C03, C19: accepted; declaring the system precessing changes nothing
example : (processData waveLib .isFalse "inertial" ampPhase none).map look = .ok (some 24, some 176, none, 1, none) := by
  decide +kernel
example : (processData waveLib .isTrue "coprecessing" ampPhase none).map look = .ok (some 24, some 176, none, 1, none) := by
  decide +kernel
example : NonprecessingSymmetry waveLib ampPhase := by
  refine ⟨⟨amps, by decide +kernel, by decide +kernel⟩, ⟨phases, by decide +kernel, by decide +kernel⟩, ?_⟩
  intro h; exact absurd h (by decide +kernel)
-- C03: wrong shapes
example : (processData waveLib .isFalse "inertial" (ampPhase ++ [("hlm", .modesC allModes)]) none).map look =
    .error .exception := by decide +kernel
-- C20: two orbits excluded, and more than there are
example : (processData waveLib .isFalse "inertial" ampPhase (some 2)).map look = .ok (some 12, some 176, none, 1, some 12) := by
  decide +kernel
example : (processData waveLib .isFalse "inertial" ampPhase (some 3)).map look = .ok (some 8, some 176, none, 1, some 8) := by
  decide +kernel
example : (processData waveLib .isFalse "inertial" ampPhase (some 6)).map look = .error .exception := by decide +kernel
example : (processData waveLib .isFalse "inertial" ampPhase (some (-1))).map look = .error .valueError := by decide +kernel
-- C48: both waveforms rotated (amplitudes doubled) …
example : (processData waveLib .isTrue "inertial" inertial none).map look = .ok (some 24, some 352, some 352, 1, none) := by
  decide +kernel
-- … but not when both are given by amplitudes and phases: the quasicircular one is not rotated
example : (processData waveLib .isTrue "inertial" inertial' none).map look = .ok (some 24, some 352, some 176, 1, none) := by
  decide +kernel
-- … and neither is rotated when the flag is not the object `True`
example : (processData waveLib .truthy "inertial" inertial none).map look = .ok (some 24, some 176, some 176, 1, none) := by
  decide +kernel
-- C19: no (2,-2) mode
example : (processData waveLib .isTrue "coprecessing"
    [("t", .arr times), ("amplm", .modesR [((2, 2), amps)]), ("phaselm", .modesR [((2, 2), phases)])] none).map look =
    .error .exception := by decide +kernel

theorem proper_of_list {K C : Type} (v : DataV K C) (h : ∀ p ∈ v, (∀ d, p.2 = .modesR d → d.keys.Nodup) ∧
    (∀ d, p.2 = .modesC d → d.keys.Nodup)) : ProperDicts v := by
  intro key e he
  have : ∃ p ∈ v, p.2 = e := by
    clear h
    induction v with
    | nil => cases he
    | cons p v ih =>
      rw [Dict.get?_cons] at he
      split at he
      · cases he; exact ⟨p, by simp, rfl⟩
      · obtain ⟨q, hq, e⟩ := ih he
        exact ⟨q, by simp [hq], e⟩
  obtain ⟨p, hp, rfl⟩ := this
  exact h p hp

example : ProperDicts inertial' := by
  apply proper_of_list
  intro p hp
  simp only [inertial', List.mem_cons, List.not_mem_nil, or_false] at hp
  rcases hp with rfl | rfl | rfl | rfl | rfl | rfl <;>
    exact ⟨fun d hd => by cases hd <;> decide +kernel, fun d hd => by cases hd⟩

-- C65: another unit of time
example : (processData waveLib .isFalse "inertial"
    [("t", .arr (times.map fun x => 3 * x + 7)), ("amplm", .modesR [((2, 2), amps), ((2, -2), amps)]),
    ("phaselm", .modesR [((2, 2), phases), ((2, -2), phases.map (- ·))])] none).map (fun x => (x.2.width, x.2.tMerger)) =
    .ok (1, 67) := by decide +kernel

end GwEcc.DataDemo
