import Verif.Model.LoadFiles
import Verif.Lemmas.ConstructOk

/-!
# C97: the loader of EOB files with both waveforms in one file
-/

set_option linter.unusedSectionVars false

namespace GwEcc.Load

variable {K C : Type} [Field K] [LinearOrder K] [IsStrictOrderedRing K] [FloorRing K]

private theorem getC_not_modes {v : DataV K C} {key : String} {e : Entry K C} (he : v.get? key = some e) (hnot : ∀ d, e ≠ .modesC d)
    (d : Dict LM (List C)) : getC v key ≠ .ok d := by
  intro h
  unfold getC at h
  obtain ⟨e', h1, h⟩ := bind_ok h
  have : e' = e := by
    unfold Dict.getItem at h1
    rw [he] at h1
    exact (Except.ok.inj h1).symm
  subst this
  cases e' with
  | modesC d => exact hnot d rfl
  | _ => cases h

private theorem processData_not_modes {lib : WaveLib K C} {pr : Flag} {frame : String} {v : DataV K C} {n : Option K} {e : Entry K C}
    {r : DataV K C × Analysis K} (he : v.get? "hlm" = some e) (hnot : ∀ d, e ≠ .modesC d) :
    processData lib pr frame v n ≠ .ok r := by
  intro h
  have hhas : v.has "hlm" = true := by unfold Dict.has; rw [he]; rfl
  unfold processData at h
  obtain ⟨_, hs, h⟩ := bind_ok h
  have hamp : v.has "amplm" = false := by
    unfold checkShape at hs
    cases ha : v.has "amplm" with
    | false => rfl
    | true => rw [hhas, ha] at hs; simp at hs
  split at h
  · obtain ⟨v', ht, _⟩ := bind_ok h
    unfold toCoprecessing at ht
    obtain ⟨v1, ht, _⟩ := bind_ok ht
    unfold transform at ht
    rw [show "hlm" ++ "" = "hlm" from rfl, if_pos hhas] at ht
    obtain ⟨m, hm, _⟩ := bind_ok ht
    unfold rotatedModes at hm
    obtain ⟨d, hd, _⟩ := bind_ok hm
    exact getC_not_modes he hnot d hd
  · simp only [pure_bind] at h
    obtain ⟨nd, hn, _⟩ := bind_ok h
    unfold newData at hn
    split at hn
    · obtain ⟨t, _, hn⟩ := bind_ok hn
      obtain ⟨nd', _, hn⟩ := bind_ok hn
      obtain ⟨apo, hapo, _⟩ := bind_ok hn
      unfold ampPhaseOmega at hapo
      obtain ⟨amp, hamp', _⟩ := bind_ok hapo
      unfold realModesDict at hamp'
      obtain ⟨d, hd, _⟩ := bind_ok hamp'
      unfold realModes at hd
      rw [show "amplm" ++ "" = "amplm" from rfl, show "hlm" ++ "" = "hlm" from rfl, hamp, if_neg (by simp), if_pos hhas] at hd
      obtain ⟨d', hd', _⟩ := bind_ok hd
      exact getC_not_modes he hnot d' hd'
    · cases hn

/-- Data whose entry under "hlm" is not a dictionary of modes: whatever the options, every call raises. -/
theorem C97_not_modes {fuel : ℕ} {lib : Libs K C} {a : Call K C} {e : Entry K C} (he : a.dataDict.get? "hlm" = some e)
    (hnot : ∀ d, e ≠ .modesC d) (ans : Answer K C) : run fuel lib a ≠ some (.ok ans) := by
  intro h
  obtain ⟨r⟩ := run_ok h
  have hload := r.h_load
  unfold loadWave at hload
  obtain ⟨_, _, hload⟩ := bind_ok hload
  obtain ⟨⟨nd, an⟩, hproc, _⟩ := bind_ok hload
  exact processData_not_modes he hnot hproc

/-- **C97, EOB files with both waveforms.**  The mode is the file's amplitude and phase as a complex number at each sample, of the
eccentric and of the circular waveform; the times of both are the times of the eccentric waveform, as they are in the file. -/
theorem C97_h22 {read : List Char → Py (H22File K)} {polar : K → K → C} {path : List Char} {w : H22Wave K C}
    (h : loadH22 read polar path = .ok w) :
    ∃ f, read path = .ok f ∧ w.t = f.t ∧ w.tZeroecc = f.t ∧ w.hlm.length = f.amp.length ∧ w.hlmZeroecc.length = f.ampNonecc.length ∧
      (∀ (i : ℕ) (x p : K), f.amp[i]? = some x → f.phase[i]? = some p → w.hlm[i]? = some (polar x p)) ∧
      ∀ (i : ℕ) (x p : K), f.ampNonecc[i]? = some x → f.phaseNonecc[i]? = some p → w.hlmZeroecc[i]? = some (polar x p) := by
  unfold loadH22 at h
  obtain ⟨f, hf, h⟩ := bind_ok h
  split at h
  · cases h
  next hl =>
    obtain ⟨h1, h2⟩ := not_or.mp hl
    cases h
    refine ⟨f, hf, rfl, rfl, ?_, ?_, fun i x p hx hp => ?_, fun i x p hx hp => ?_⟩
    · simp [not_not.mp h1]
    · simp [not_not.mp h2]
    · simp [List.getElem?_zipWith, hx, hp]
    · simp [List.getElem?_zipWith, hx, hp]

/-- **C97 fails** for these files: what the loader returns cannot be measured, whatever the file and the options of the call. -/
theorem C97_h22_violation {read : List Char → Py (H22File K)} {polar : K → K → C} {path : List Char} {w : H22Wave K C}
    (_h : loadH22 read polar path = .ok w) {fuel : ℕ} {lib : Libs K C} {a : Call K C} (ha : a.dataDict = w.dataDict)
    (ans : Answer K C) : run fuel lib a ≠ some (.ok ans) :=
  C97_not_modes (e := .other) (by rw [ha]; rfl) (fun d hd => by cases hd) ans

/-- A file that loads. -/
example : ∃ w, loadH22 (K := ℚ) (C := ℚ × ℚ) (fun _ => .ok ⟨[0, 1], [1, 2], [0, 3], [1, 1, 1], [0, 1, 2]⟩) (fun a p => (a, p))
    "eob.h5".toList = .ok w ∧ w.hlm = [(1, 0), (2, 3)] ∧ w.tZeroecc = [0, 1] ∧ w.hlmZeroecc = [(1, 0), (1, 1), (1, 2)] :=
  ⟨_, rfl, rfl, rfl, rfl⟩

end GwEcc.Load
