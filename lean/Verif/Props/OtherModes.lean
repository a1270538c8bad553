import Verif.Lemmas.OtherModesRun
import Verif.Props.WholeCall
import Verif.Props.DataDemo

/-!
# C105: the modes that matter
-/

set_option linter.unusedSectionVars false

namespace GwEcc

open Spec

section
variable {K C : Type} [Field K] [LinearOrder K] [IsStrictOrderedRing K] [FloorRing K]

/-- Two waveforms with the same times, the same (2, 2) modes (for precessing systems also the same (2, -2) modes) and the same time of
merger give the same reference points, eccentricities and mean anomalies, or the same failure, whatever their other modes are. -/
theorem C105_modes (fuel : ℕ) (lib : Libs K C) (a : Call K C) (v : DataV K C)
    (hf : ¬ (a.precessing = .isTrue ∧ a.frame = "inertial"))
    (hd : OthersDiffer (dominantModes a.precessing.truth) a.dataDict v)
    (hp : ProperDicts a.dataDict) (hp' : ProperDicts v) (hw : WellTyped lib.wave a.dataDict) (hw' : WellTyped lib.wave v)
    (hm : mergerTime lib.wave v "" = mergerTime lib.wave a.dataDict "")
    (hm0 : mergerTime lib.wave v "_zeroecc" = mergerTime lib.wave a.dataDict "_zeroecc") :
    (run fuel lib { a with dataDict := v }).map (·.map (·.ret)) = (run fuel lib a).map (·.map (·.ret)) := by
  have h := Others.run_dom fuel lib a v (by unfold mustTransform; simpa using fun h1 h2 => hf ⟨h1, h2⟩)
    ⟨hd, hp, hp', hw, hw', fun s hs => by
      simp only [List.mem_cons, List.not_mem_nil, or_false] at hs
      rcases hs with rfl | rfl
      · exact hm
      · exact hm0⟩
  revert h
  generalize run fuel lib a = x
  generalize run fuel lib { a with dataDict := v } = y
  intro h
  cases h with
  | none => rfl
  | some h =>
    cases h with
    | ok h => exact congrArg (fun z => some (Except.ok z)) h.1
    | error e => rfl

/-- Also what the measurement stores (extrema, allowed times, warnings) is the same. -/
theorem C105_stored (fuel : ℕ) (lib : Libs K C) (a : Call K C) (v : DataV K C)
    (hf : ¬ (a.precessing = .isTrue ∧ a.frame = "inertial"))
    (hd : OthersDiffer (dominantModes a.precessing.truth) a.dataDict v)
    (hp : ProperDicts a.dataDict) (hp' : ProperDicts v) (hw : WellTyped lib.wave a.dataDict) (hw' : WellTyped lib.wave v)
    (hm : mergerTime lib.wave v "" = mergerTime lib.wave a.dataDict "")
    (hm0 : mergerTime lib.wave v "_zeroecc" = mergerTime lib.wave a.dataDict "_zeroecc") :
    (run fuel lib { a with dataDict := v }).map (·.map fun r => (r.meas, r.built.warnings))
      = (run fuel lib a).map (·.map fun r => (r.meas, r.built.warnings)) := by
  have h := Others.run_dom fuel lib a v (by unfold mustTransform; simpa using fun h1 h2 => hf ⟨h1, h2⟩)
    ⟨hd, hp, hp', hw, hw', fun s hs => by
      simp only [List.mem_cons, List.not_mem_nil, or_false] at hs
      rcases hs with rfl | rfl
      · exact hm
      · exact hm0⟩
  revert h
  generalize run fuel lib a = x
  generalize run fuel lib { a with dataDict := v } = y
  intro h
  cases h with
  | none => rfl
  | some h =>
    cases h with
    | error e => rfl
    | ok h =>
      obtain ⟨_, h1, h2⟩ := h
      refine congrArg (fun z => some (Except.ok z)) ?_
      dsimp only
      rw [h1, h2]

end

/-! ### The hypotheses are met

The demonstration call with a library that adds amplitudes, and the waveform with a constant (3, 3) mode instead of the (2, -2) mode. -/

namespace OtherModesDemo

open RunDemo

def libS : Libs ℚ (ℚ × ℚ) :=
  { lib with wave := { lib.wave with totalAmp := fun ls => .ok (ls.foldl (List.zipWith (· + ·)) (List.replicate 24 0)) } }

def other (c : ℚ) : DataV ℚ (ℚ × ℚ) :=
  [("t", .arr times), ("amplm", .modesR [((3, 3), List.replicate 24 c), ((2, 2), amps)]),
    ("phaselm", .modesR [((3, 3), phases.map (3 / 2 * ·)), ((2, 2), phases)]),
    ("omegalm", .modesR [((3, 3), omegas.map (3 / 2 * ·)), ((2, 2), omegas)])]

theorem differ (c : ℚ) : OthersDiffer (dominantModes call.precessing.truth) call.dataDict (other c) where
  keys := rfl
  entries := by
    intro key e e' h h'
    have h : data.get? key = some e := h
    unfold data at h
    unfold other at h'
    simp only [Dict.get?_cons] at h h'
    split at h
    · rename_i hk; subst hk; rw [if_pos rfl] at h'; cases h; cases h'; rw [if_neg (by decide)]
    all_goals rename_i hk; rw [if_neg hk] at h'; clear hk
    split at h
    · rename_i hk; subst hk; rw [if_pos rfl] at h'; cases h; cases h'; rw [if_pos (by decide)]
      exact .real _ _ (by decide) fun k hk => by
        rw [show dominantModes call.precessing.truth = [(2, 2)] from rfl] at hk
        simp only [List.mem_cons, List.not_mem_nil, or_false] at hk; subst hk; rfl
    all_goals rename_i hk; rw [if_neg hk] at h'; clear hk
    split at h
    · rename_i hk; subst hk; rw [if_pos rfl] at h'; cases h; cases h'; rw [if_pos (by decide)]
      exact .real _ _ (by decide) fun k hk => by
        rw [show dominantModes call.precessing.truth = [(2, 2)] from rfl] at hk
        simp only [List.mem_cons, List.not_mem_nil, or_false] at hk; subst hk; rfl
    all_goals rename_i hk; rw [if_neg hk] at h'; clear hk
    split at h
    · rename_i hk; subst hk; rw [if_pos rfl] at h'; cases h; cases h'; rw [if_pos (by decide)]
      exact .real _ _ (by decide) fun k hk => by
        rw [show dominantModes call.precessing.truth = [(2, 2)] from rfl] at hk
        simp only [List.mem_cons, List.not_mem_nil, or_false] at hk; subst hk; rfl
    · cases h

theorem proper (c : ℚ) : ProperDicts (other c) := by
  apply DataDemo.proper_of_list
  intro p hp
  simp only [other, List.mem_cons, List.not_mem_nil, or_false] at hp
  rcases hp with rfl | rfl | rfl | rfl
  · exact ⟨fun d hd => (by cases hd), fun d hd => (by cases hd)⟩
  all_goals
    refine ⟨fun d hd => ?_, fun d hd => (by cases hd)⟩
    cases hd
    exact (by decide : [((3, 3) : LM), (2, 2)].Nodup)

theorem typed {v : DataV ℚ (ℚ × ℚ)} {a p w : Dict LM (List ℚ)}
    (hv : v = [("t", .arr times), ("amplm", .modesR a), ("phaselm", .modesR p), ("omegalm", .modesR w)])
    (ha : ∀ q ∈ a, q.2.length = 24) (hp : ∀ q ∈ p, q.2.length = 24) : WellTyped libS.wave v := by
  subst hv
  refine ⟨?_, ?_, ?_⟩
  · intro key hk e he
    simp only [List.mem_cons, List.not_mem_nil, or_false] at hk
    rcases hk with rfl | rfl <;> cases he
    exact ⟨_, rfl, by decide +kernel⟩
  · intro key hk e he
    simp only [List.mem_cons, List.not_mem_nil, or_false] at hk
    rcases hk with rfl | rfl | rfl | rfl <;> cases he
    · exact ⟨_, rfl, fun q hq => by rw [ha q hq]; decide⟩
    · exact ⟨_, rfl, fun q hq => by rw [hp q hq]; decide⟩
  · intro key hk e he
    simp only [List.mem_cons, List.not_mem_nil, or_false] at hk
    rcases hk with rfl | rfl <;> cases he

theorem len : amps.length = 24 ∧ phases.length = 24 ∧ (phases.map (- ·)).length = 24 ∧ (phases.map (3 / 2 * ·)).length = 24 := by
  decide +kernel

theorem typed_data : WellTyped libS.wave call.dataDict := by
  refine typed rfl ?_ ?_ <;> intro q hq <;> simp only [List.mem_cons, List.not_mem_nil, or_false] at hq <;> rcases hq with rfl | rfl
  · exact len.1
  · exact len.1
  · exact len.2.1
  · exact len.2.2.1

theorem typed_other (c : ℚ) : WellTyped libS.wave (other c) := by
  refine typed rfl ?_ ?_ <;> intro q hq <;> simp only [List.mem_cons, List.not_mem_nil, or_false] at hq <;> rcases hq with rfl | rfl
  · exact List.length_replicate
  · exact len.1
  · exact len.2.2.2
  · exact len.2.1

example : (run 60 libS { call with dataDict := other 5 }).map (·.map (·.ret)) = (run 60 libS call).map (·.map (·.ret)) ∧
    ecc (run 60 libS call) = some (.ok (some (.array [10 / 81, 25 / 204]))) ∧ (other 5).getItem "t" = call.dataDict.getItem "t" :=
  ⟨C105_modes 60 libS call (other 5) (by decide) (differ 5) data_proper (proper 5) typed_data (typed_other 5)
    (by decide +kernel) rfl, by decide +kernel, rfl⟩

end OtherModesDemo

end GwEcc
