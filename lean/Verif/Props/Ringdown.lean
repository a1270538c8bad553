import Verif.Lemmas.RingdownRun
import Verif.Props.PhaseOrigin

/-!
# C104: what follows the merger
-/

set_option linter.unusedSectionVars false

namespace GwEcc

open Spec

section
variable {K C : Type} [Field K] [LinearOrder K] [IsStrictOrderedRing K] [FloorRing K]

/-- A call that leaves out some orbits before the merger gives the same with the samples from the `n`-th on removed, when the merger is
over by then: the whole answer, or the same failure. -/
theorem C104_cut (fuel : ℕ) (lib : Libs K C) (a : Call K C) (n L : ℕ) (m : K) (hl : SampleBySample lib.wave)
    (hpi : 0 < lib.wave.pi) (hv : Regular lib.wave a.dataDict L) (ho : OverBy lib.wave a.dataDict a.precessing.truth n)
    (hm : a.numOrbits = some m) (hf : ¬ (a.precessing = .isTrue ∧ a.frame = "inertial")) :
    run fuel lib { a with dataDict := firstSamples n a.dataDict } = run fuel lib a :=
  Longer.run_take fuel hl hpi hv (by unfold mustTransform; simpa using fun h1 h2 => hf ⟨h1, h2⟩) ho hm

/-- Two waveforms that differ only after the merger give the same. -/
theorem C104_same (fuel : ℕ) (lib : Libs K C) (a : Call K C) (v : DataV K C) (n L L' : ℕ) (m : K) (hl : SampleBySample lib.wave)
    (hpi : 0 < lib.wave.pi) (hv : Regular lib.wave a.dataDict L) (hv' : Regular lib.wave v L')
    (ho : OverBy lib.wave a.dataDict a.precessing.truth n) (ho' : OverBy lib.wave v a.precessing.truth n)
    (hsame : firstSamples n v = firstSamples n a.dataDict)
    (hm : a.numOrbits = some m) (hf : ¬ (a.precessing = .isTrue ∧ a.frame = "inertial")) :
    run fuel lib { a with dataDict := v } = run fuel lib a := by
  have h1 := C104_cut fuel lib a n L m hl hpi hv ho hm hf
  have h2 := C104_cut fuel lib { a with dataDict := v } n L' m hl hpi hv' ho' hm hf
  dsimp only at h2
  rw [hsame] at h2
  rw [← h1, ← h2]

end

/-! ### The hypotheses are met -/

namespace RingdownDemo

open RunDemo

theorem bySample : SampleBySample lib.wave := by
  refine ⟨fun n l => List.map_take, fun n l => List.map_take, fun n L ls _ => ?_⟩
  cases ls <;> rfl

/-- The waveform of `RunDemo` with a ringdown. -/
def long (tail : List ℚ) : DataV ℚ (ℚ × ℚ) :=
  [("t", .arr ((List.range 28).map fun i : ℕ => (i : ℚ))),
    ("amplm", .modesR [((2, 2), amps ++ tail), ((2, -2), amps ++ tail)]),
    ("phaselm", .modesR [((2, 2), phases ++ [100, 104, 108, 110]), ((2, -2), phases.map (- ·) ++ [7, 8, 9, 10])]),
    ("omegalm", .modesR [((2, 2), omegas ++ tail), ((2, -2), omegas.map (- ·) ++ tail)])]

/-- The same as complex modes, without frequencies. -/
def longH (tail : List ℚ) : DataV ℚ (ℚ × ℚ) :=
  [("t", .arr ((List.range 28).map fun i : ℕ => (i : ℚ))),
    ("hlm", .modesC [((2, 2), (amps ++ tail).zip (phases ++ [100, 104, 108, 110]))])]

def tailA : List ℚ := [10, 6, 3, 1]
def tailB : List ℚ := [10, 6, -2, 5]

theorem regular {tail : List ℚ} (ht : tail.length = 4) : Regular lib.wave (long tail) 28 := by
  have h1 : (amps ++ tail).length = 28 := by rw [List.length_append, ht]; decide +kernel
  have h2 : (omegas ++ tail).length = 28 := by rw [List.length_append, ht]; decide +kernel
  have h3 : (omegas.map (- ·) ++ tail).length = 28 := by rw [List.length_append, ht]; decide +kernel
  refine ⟨?_, ?_, ?_, ?_⟩
  · apply DataDemo.proper_of_list
    intro p hp
    simp only [long, List.mem_cons, List.not_mem_nil, or_false] at hp
    rcases hp with rfl | rfl | rfl | rfl
    · exact ⟨fun d hd => (by cases hd), fun d hd => (by cases hd)⟩
    all_goals
      refine ⟨fun d hd => ?_, fun d hd => (by cases hd)⟩
      cases hd
      exact (by decide : [((2, 2) : LM), (2, -2)].Nodup)
  · intro e he
    cases he
    exact ⟨_, rfl, by decide +kernel⟩
  · intro key hkey e he
    simp only [List.mem_cons, List.not_mem_nil, or_false] at hkey
    rcases hkey with rfl | rfl | rfl <;> cases he <;> refine ⟨_, rfl, fun p hp => ?_⟩ <;>
      simp only [List.mem_cons, List.not_mem_nil, or_false] at hp <;> rcases hp with rfl | rfl
    · exact h1
    · exact h1
    · decide +kernel
    · decide +kernel
    · exact h2
    · exact h3
  · intro e he
    cases he

def longTimes : List ℚ := (List.range 28).map fun i : ℕ => (i : ℚ)
def longPhases : List ℚ := phases ++ [100, 104, 108, 110]

/-- The merger is over after 26 samples, … -/
theorem over {v : DataV ℚ (ℚ × ℚ)} {tail : List ℚ} (h1 : array v "t" = some longTimes) {A : List (List ℚ)}
    (h2 : amplitudes lib.wave v = some A) (h3 : A.head? = some (amps ++ tail)) (h4 : gwPhase lib.wave v false = some longPhases)
    (ht : tail = tailA ∨ tail = tailB) : OverBy lib.wave v false 26 := by
  have hT : ∀ T, lib.wave.totalAmp A = .ok T → T = amps ++ tail := by
    intro T hT
    cases A with
    | nil => cases h3
    | cons x A => cases h3; exact (Except.ok.inj hT).symm
  refine ⟨by decide, ?_, ?_, ?_⟩
  · intro t e
    cases h1.symm.trans e
    decide +kernel
  · intro t A' T e e2 e3
    cases h1.symm.trans e
    cases h2.symm.trans e2
    rw [hT T e3]
    rcases ht with rfl | rfl
    · refine ⟨by decide +kernel, 22, 15, by decide, by decide +kernel, by decide +kernel⟩
    · refine ⟨by decide +kernel, 22, 15, by decide, by decide +kernel, by decide +kernel⟩
  · intro t A' T tM fM e e2 e3 e4
    cases h1.symm.trans e
    cases h2.symm.trans e2
    rw [hT T e3] at e4
    have hp : ∀ tail, tail = tailA ∨ tail = tailB → (peakTime longTimes (amps ++ tail)).map (fun q => decide (q.1 ≤ 23)) = .ok true := by
      rintro _ (rfl | rfl) <;> decide +kernel
    have := hp tail ht
    rw [e4] at this
    have hle : tM ≤ 23 := by
      have := Except.ok.inj this
      exact of_decide_eq_true this
    refine ⟨23, by decide, ⟨23, by decide +kernel, hle⟩, ?_⟩
    intro φ hφ i j x y hi hj hx hy
    cases h4.symm.trans hφ
    have hmono : longPhases.Pairwise (· ≤ ·) := by decide +kernel
    obtain ⟨hi', rfl⟩ := List.getElem?_eq_some_iff.mp hx
    obtain ⟨hj', rfl⟩ := List.getElem?_eq_some_iff.mp hy
    exact List.pairwise_iff_getElem.mp hmono i j hi' hj' (by omega)

theorem overR {tail : List ℚ} (ht : tail = tailA ∨ tail = tailB) : OverBy lib.wave (long tail) false 26 :=
  over (tail := tail) rfl rfl rfl rfl ht

/-- … also when complex modes are given. -/
theorem overH : OverBy lib.wave (longH tailA) false 26 :=
  over (tail := tailA) rfl rfl (by decide +kernel) (by decide +kernel) (.inl rfl)

theorem regularH : Regular lib.wave (longH tailA) 28 := by
  refine ⟨?_, ?_, ?_, ?_⟩
  · apply DataDemo.proper_of_list
    intro p hp
    simp only [longH, List.mem_cons, List.not_mem_nil, or_false] at hp
    rcases hp with rfl | rfl
    · exact ⟨fun d hd => (by cases hd), fun d hd => (by cases hd)⟩
    · refine ⟨fun d hd => (by cases hd), fun d hd => ?_⟩
      cases hd
      exact (by decide : [((2, 2) : LM)].Nodup)
  · intro e he
    cases he
    exact ⟨_, rfl, by decide +kernel⟩
  · intro key hkey e he
    simp only [List.mem_cons, List.not_mem_nil, or_false] at hkey
    rcases hkey with rfl | rfl | rfl <;> cases he
  · intro e he
    cases he
    refine ⟨_, rfl, fun p hp => ?_⟩
    simp only [List.mem_cons, List.not_mem_nil, or_false] at hp
    subst hp
    decide +kernel

example : run 60 lib { call with dataDict := firstSamples 26 (long tailA) } = run 60 lib { call with dataDict := long tailA } :=
  C104_cut 60 lib { call with dataDict := long tailA } 26 28 1 bySample (by decide +kernel) (regular rfl) (overR (.inl rfl)) rfl
    (by decide)

example : run 60 lib { call with dataDict := firstSamples 26 (longH tailA) } = run 60 lib { call with dataDict := longH tailA } :=
  C104_cut 60 lib { call with dataDict := longH tailA } 26 28 1 bySample (by decide +kernel) regularH overH rfl (by decide)

/-- The two waveforms differ, the calls succeed. -/
example : run 60 lib { call with dataDict := long tailB } = run 60 lib { call with dataDict := long tailA } ∧
    long tailB ≠ long tailA ∧
    ecc (run 60 lib { call with dataDict := long tailA }) = some (.ok (some (.array [10 / 81, 25 / 204]))) := by
  refine ⟨C104_same 60 lib { call with dataDict := long tailA } (long tailB) 26 28 28 1 bySample (by decide +kernel) (regular rfl)
    (regular rfl) (overR (.inl rfl)) (overR (.inr rfl)) ?_ rfl (by decide), ?_, by decide +kernel⟩
  · show [_, _, _, _] = [_, _, _, _]
    refine congrArg₂ List.cons ?_ (congrArg₂ List.cons ?_ (congrArg₂ List.cons ?_ (congrArg₂ List.cons ?_ rfl)))
    · rfl
    · show (_, Entry.modesR [(_, List.take 26 _), (_, List.take 26 _)]) = (_, Entry.modesR [(_, List.take 26 _), (_, List.take 26 _)])
      rw [show (amps ++ tailB).take 26 = (amps ++ tailA).take 26 by decide +kernel]
    · rfl
    · show (_, Entry.modesR [(_, List.take 26 _), (_, List.take 26 _)]) = (_, Entry.modesR [(_, List.take 26 _), (_, List.take 26 _)])
      rw [show (omegas ++ tailB).take 26 = (omegas ++ tailA).take 26 by decide +kernel,
        show (omegas.map (- ·) ++ tailB).take 26 = (omegas.map (- ·) ++ tailA).take 26 by decide +kernel]
  · intro h
    have := congrArg (fun v : DataV ℚ (ℚ × ℚ) => (realMode v "amplm" (2, 2)).map fun l => l.getD 26 0) h
    exact absurd this (by decide +kernel)

example : ecc (run 60 lib { call with dataDict := longH tailA }) = some (.ok (some (.array [0, 0]))) := by decide +kernel

end RingdownDemo

end GwEcc
