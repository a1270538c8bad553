import Verif.Props.Options
import Verif.Props.DataDict
import Verif.Lemmas.WholeCall
import Verif.Lemmas.RunDemo

/-!
# The width handed to the peak finder (C65)

What the width is, in samples, and that it is what the peak finder is called with when the user does not ask for another one.
-/

namespace GwEcc

open Spec

section
variable {K C : Type} [Field K] [LinearOrder K] [IsStrictOrderedRing K] [FloorRing K]

/-! ### The default -/

theorem peaks_width {d : Kwargs K} {w : ℤ} (hw : d.get? "width" = none) :
    PyRel SameDict (checkKwargs (some d) (peaksDefaults w)) (checkKwargs (some (d.set "width" (.int w))) (peaksDefaults w)) := by
  by_cases hk : ∀ k ∈ d.keys, k ∈ (peaksDefaults (K := K) w).keys
  · refine checkKwargs_rel ⟨hk, ?_, fun k => ?_⟩
    · intro k hk'
      dsimp only [Option.getD_some] at hk'
      by_cases e : k = "width"
      · subst e; simp [peaksDefaults, Dict.keys]
      · refine hk k ?_
        rw [← Dict.has_iff, Dict.has_iff_get?] at hk' ⊢
        rwa [Dict.get?_set, if_neg e] at hk'
    · rw [inForce_eq, inForce_eq]
      dsimp only [Option.getD_some]
      rw [Dict.get?_set]
      split
      · rename_i e
        subst e
        rw [hw]
        rfl
      · rfl
  · push Not at hk
    obtain ⟨k, h1, h2⟩ := hk
    rw [checkKwargs_unknown (k := k) (u := some d) h1 h2, checkKwargs_unknown (k := k) _ h2]
    · exact .error _
    · dsimp only [Option.getD_some]
      have e : k ≠ "width" := by
        rintro rfl
        exact h2 (by simp [peaksDefaults, Dict.keys])
      rw [← Dict.has_iff, Dict.has_iff_get?] at h1 ⊢
      rwa [Dict.get?_set, if_neg e]

/-- The options with the width spelled out. -/
theorem sameAt_width {c : MethodClass} {ex ex' : Extra K} {d : Kwargs K} {w : ℤ} (hw : d.get? "width" = none)
    (h : ∀ k, k ≠ "extrema_finding_kwargs" → ex.get? k = ex'.get? k)
    (he : ex.get? "extrema_finding_kwargs" = some (.dict d))
    (he' : ex'.get? "extrema_finding_kwargs" = some (.dict (d.set "width" (.int w)))) : SameAt (· = w) c ex ex' where
  leaf := by
    intro k hk
    refine Dict.getItem_congr (h k ?_)
    rintro rfl
    simp at hk
  general := subKwargs_congr (h _ (by decide)) _
  peaks := by
    rintro _ rfl
    unfold subKwargs Dict.getItem
    rw [he, he']
    exact peaks_width hw
  special := fun _ _ => subKwargs_congr (h _ (by decide)) _
  fits := fun _ => ⟨Dict.getItem_congr (h _ (by decide)), subKwargs_congr (h _ (by decide)) _⟩

theorem checkKwargs_width {c : MethodClass} {u u' : Option (Extra K)} {d : Kwargs K} {w : ℤ} (hw : d.get? "width" = none)
    (h : ∀ k, k ≠ "extrema_finding_kwargs" → (u.getD []).get? k = (u'.getD []).get? k)
    (he : inForce extraDefaults u "extrema_finding_kwargs" = some (.dict d))
    (he' : inForce extraDefaults u' "extrema_finding_kwargs" = some (.dict (d.set "width" (.int w)))) :
    PyRel (SameAt (· = w) c) (checkKwargs u extraDefaults) (checkKwargs u' extraDefaults) := by
  have hr := checkKwargs_rel_except (k0 := "extrema_finding_kwargs") (by simp [optionNames]) h
  cases h1 : checkKwargs u extraDefaults with
  | error e =>
    rw [h1] at hr
    cases h2 : checkKwargs u' extraDefaults with
    | error e' => rw [h2] at hr; cases hr; exact .error _
    | ok x => rw [h2] at hr; nomatch hr
  | ok x =>
    rw [h1] at hr
    cases h2 : checkKwargs u' extraDefaults with
    | error e' => rw [h2] at hr; nomatch hr
    | ok x' =>
      rw [h2] at hr
      have hs : ∀ k, k ≠ "extrema_finding_kwargs" → x.get? k = x'.get? k := by cases hr; assumption
      refine .ok (sameAt_width hw hs ?_ ?_)
      · rw [(checkKwargs_known h1).2, he]
      · rw [(checkKwargs_known h2).2, he']

/-- **C65.** The width computed from the waveform is the one the peak finder is called with, unless the user gives one:
asking for it explicitly gives the same answer, with whatever other options. -/
theorem C65_default {fuel : ℕ} {lib : Libs K C} {a : Call K C} {ans : Answer K C} (h : run fuel lib a = some (.ok ans))
    {d : Kwargs K} (hd : inForce extraDefaults a.extra "extrema_finding_kwargs" = some (.dict d))
    (hw : d.get? "width" = none) :
    run fuel lib { a with extra := some ((a.extra.getD []).set "extrema_finding_kwargs"
      (.dict (d.set "width" (.int ans.built.analysis.width)))) } = some (.ok ans) := by
  obtain ⟨r⟩ := run_ok h
  have han : ans.built.analysis = r.an := by
    obtain ⟨f⟩ := finish_ok r.h_finish
    exact congrArg Built.analysis f.eq
  rw [han]
  have hg : ∀ k, k ≠ "extrema_finding_kwargs" → (a.extra.getD []).get? k =
      ((a.extra.getD []).set "extrema_finding_kwargs" (.dict (d.set "width" (.int r.an.width)))).get? k := by
    intro k hk; rw [Dict.get?_set, if_neg hk]
  have hfo : filterOptions a.extra = filterOptions (some ((a.extra.getD []).set "extrema_finding_kwargs"
      (.dict (d.set "width" (.int r.an.width))))) := by
    unfold filterOptions
    dsimp only [Option.getD_some]
    rw [hg _ (by decide)]
  rw [← run_congr_width (W := (· = r.an.width)) fuel lib a _ ?_ ?_ ?_ ?_]
  · exact h
  · intro nd an w hl
    rw [r.h_load] at hl
    cases hl
    rfl
  · intro _
    rw [hfo]
    exact PyRel.refl (fun _ => SameDict.rfl') _
  · intro c' _ _ _ _
    refine checkKwargs_width hw hg hd ?_
    rw [inForce_eq]
    dsimp only [Option.getD_some]
    rw [Dict.get?_set, if_pos rfl]
    rfl
  · intro c' _ _ _ _ kw kw' h1 h2
    rw [hfo, h2] at h1
    cases h1
    refine checkKwargs_width hw ?_ ?_ ?_
    · intro k hk
      dsimp only [Option.getD_some]
      rw [Dict.get?_set, Dict.get?_set _ "filter_kwargs", hg k hk]
    · rw [inForce_eq] at hd ⊢
      dsimp only [Option.getD_some]
      rw [Dict.get?_set, if_neg (by decide)]
      exact hd
    · rw [inForce_eq]
      dsimp only [Option.getD_some]
      rw [Dict.get?_set, if_neg (by decide), Dict.get?_set, if_pos rfl]
      rfl

/-! ### Its value -/

theorem equal_steps_get {t : List K} {dt : K} (hs : ∀ i (h : i + 1 < t.length), t[i + 1] - t[i] = dt) :
    ∀ i (hi : i < t.length), t[i] = t[0] + i * dt
  | 0, _ => by simp
  | i + 1, hi => by
    have ih := equal_steps_get hs i (by omega)
    have := hs i hi
    rw [ih] at this
    push_cast
    linear_combination this

/-- **C65.** For equally spaced times and a phase that does not decrease, the width is a quarter of the number of samples in
the last orbit but one: between the samples at which the phase of the gravitational wave is nearest to eight and to four pi
before that at the merger. -/
theorem C65_value (lib : WaveLib K C) (pr : Flag) (frame : String) (v : DataV K C) (n : Option K) (nd : DataV K C)
    (r : Analysis K) (hpi : 0 ≤ lib.pi) (h : processData lib pr frame v n = .ok (nd, r)) :
    ∃ full r0 t amp phase omega merger pm before after, processData lib pr frame v none = .ok (full, r0) ∧
      Spec.array full "t" = some t ∧ gwQuantities pr.truth full "" = .ok (amp, phase, omega) ∧
      NearestSample t r.tMerger merger ∧ phase[merger]? = some pm ∧
      NearestSample phase (pm - 8 * lib.pi) before ∧ NearestSample phase (pm - 4 * lib.pi) after ∧
      ((∃ dt, ∀ i (h : i + 1 < t.length), t[i + 1] - t[i] = dt) → phase.Pairwise (· ≤ ·) →
        before ≤ after ∧ r.width = ((after - before) / 4 : ℕ)) := by
  have hnone : ∃ full r0, processData lib pr frame v none = .ok (full, r0) ∧ r0.width = r.width ∧ r0.tMerger = r.tMerger := by
    cases n with
    | none => exact ⟨nd, r, h, rfl, rfl⟩
    | some n =>
      obtain ⟨full, _, _, e, _⟩ := C20_cut_applies lib pr frame v nd r n h
      exact ⟨full, _, e, rfl, rfl⟩
  obtain ⟨full, r0, h0, hw, htm⟩ := hnone
  rw [← hw, ← htm]
  obtain ⟨v', full', h1, h2, h3, h4, h5⟩ := processData_ok h0
  obtain ⟨t, total, a, x, mi, amp, phase, omega, pm, om, p0, g1, g2, g3, g4, g5, g6, g7, g8, g9, g10, g11, g12, g13, g14⟩ :=
    (analyse_spec h4).parts
  have hf : full = full' := by
    rcases g14 with ⟨_, hc⟩ | ⟨m, idx, hm', _⟩
    · rcases h5 with ⟨_, rfl⟩ | ⟨idx, h5, _⟩
      · rfl
      · rw [hc] at h5; cases h5
    · cases hm'
  subst hf
  unfold peakWidth at g13
  obtain ⟨i2, e1, g13⟩ := bind_ok g13
  obtain ⟨t2, e2, g13⟩ := bind_ok g13
  obtain ⟨i1, e3, g13⟩ := bind_ok g13
  obtain ⟨t1, e4, g13⟩ := bind_ok g13
  obtain ⟨s1, e5, g13⟩ := bind_ok g13
  obtain ⟨s0, e6, g13⟩ := bind_ok g13
  split at g13
  · cases g13
  rename_i hne
  have g13 : _ = r0.width := Except.ok.inj g13
  obtain ⟨l2, rfl⟩ := pyGet_ok e2
  obtain ⟨l1, rfl⟩ := pyGet_ok e4
  obtain ⟨m1, rfl⟩ := pyGet_ok e5
  obtain ⟨m0, rfl⟩ := pyGet_ok e6
  have n2 := (indexBeforeMerger_ok e1).1
  have n1 := (indexBeforeMerger_ok e3).1
  refine ⟨full, r0, t, amp, phase, omega, mi, pm, i2, i1, h0, by unfold Spec.array; rw [g1]; rfl, g6, argmin_abs_nearest g5,
    pyGet_getElem? g8, ?_, ?_, ?_⟩
  · rwa [show pm - 8 * lib.pi = pm - 4 * lib.pi * 2 by ring]
  · rwa [show pm - 4 * lib.pi = pm - 4 * lib.pi * 1 by ring]
  · rintro ⟨dt, hs⟩ hph
    have hle : i2 ≤ i1 := NearestSample.mono hph (by linarith) n2 n1
    refine ⟨hle, ?_⟩
    rw [← g13]
    have hdt := hs 0 m1
    have hdt0 : dt ≠ 0 := by rw [← hdt]; exact hne
    have hq : (t[i1] - t[i2]) / (t[1] - t[0]) / 4 = (((i1 - i2 : ℕ) : K)) / 4 := by
      rw [hdt, equal_steps_get hs i1 l1, equal_steps_get hs i2 l2, Nat.cast_sub hle]
      field_simp
      ring
    rw [hq]
    unfold pyInt
    rw [if_pos (by positivity)]
    rw [Int.floor_eq_iff]
    generalize i1 - i2 = m
    have e := Nat.div_add_mod m 4
    have l := Nat.mod_lt m (show 4 > 0 by norm_num)
    have e' : (m : K) = 4 * ((m / 4 : ℕ) : K) + ((m % 4 : ℕ) : K) := by exact_mod_cast e.symm
    have l' : ((m % 4 : ℕ) : K) < 4 := by exact_mod_cast l
    have z : (0 : K) ≤ ((m % 4 : ℕ) : K) := Nat.cast_nonneg _
    rw [Int.cast_natCast, e']
    constructor
    · rw [le_div_iff₀ (by norm_num)]; linarith
    · rw [div_lt_iff₀ (by norm_num)]; linarith

end

end GwEcc

namespace GwEcc.RunDemo

/-! ### Cases that meet the hypotheses -/

/-- A peak finder that finds something only when it is given the width 0, which this short waveform has. -/
def libWidth : Libs ℚ (ℚ × ℚ) :=
  { lib with peaks := fun kw l => if kw "width" = some (.int 0) then .ok (maxima l) else .ok [] }

theorem callWidth_ecc : ecc (run 60 libWidth call) = some (.ok (some (.array [10 / 81, 25 / 204]))) := by decide +kernel

example : ecc (run 60 libWidth { call with extra := some [("extrema_finding_kwargs", .dict [("width", .int 0)])] }) =
    some (.ok (some (.array [10 / 81, 25 / 204]))) := by decide +kernel

example : ∃ ans, run 60 libWidth call = some (.ok ans) ∧ ans.built.analysis.width = 0 := by
  cases h : run 60 libWidth call with
  | none => have := callWidth_ecc; rw [h] at this; cases this
  | some r =>
    cases r with
    | error e => have := callWidth_ecc; rw [h] at this; cases this
    | ok ans =>
      refine ⟨ans, rfl, ?_⟩
      have e : (run 60 libWidth call).map (Except.map fun x => x.built.analysis.width) = some (.ok 0) := by decide +kernel
      rw [h] at e
      exact Except.ok.inj (Option.some.inj e)

example : Spec.inForce extraDefaults call.extra "extrema_finding_kwargs" = some (.dict []) := rfl

-- the times of the demonstration are equally spaced, its phase does not decrease, and it is accepted
example : (∃ nd r, processData lib.wave .isFalse "inertial" data (some 1) = .ok (nd, r) ∧ r.width = 0) ∧
    (∃ dt, ∀ i (h : i + 1 < times.length), times[i + 1] - times[i] = dt) ∧ phases.Pairwise (· ≤ ·) := by
  refine ⟨?_, ⟨1, fun i h => ?_⟩, by decide +kernel⟩
  · have e : (processData lib.wave .isFalse "inertial" data (some 1)).map (fun x => x.2.width) = .ok 0 := by decide +kernel
    cases h : processData lib.wave .isFalse "inertial" data (some 1) with
    | error _ => rw [h] at e; cases e
    | ok x =>
      rw [h] at e
      exact ⟨x.1, x.2, rfl, Except.ok.inj e⟩
  · simp [times]

end GwEcc.RunDemo
