import Verif.Model.FreqInterp
import Verif.Props.SplineCall
import Verif.Props.Numpy

/-!
# C122: the frequency of a complex mode by splines
-/

set_option linter.unusedSectionVars false

namespace GwEcc.Gen

open Polynomial Spec

/-- The samples of a complex mode with the given amplitudes and phases, `A e^{iφ}`. -/
noncomputable def rotating (m : List (ℝ × ℝ)) : List ℂ := m.map fun s => (s.1 : ℂ) * Complex.exp (Complex.I * s.2)

private theorem unwrap_rotating (m : List (ℝ × ℝ)) (h : WellSampled m) :
    ∃ c : ℝ, Compare.unwrap Real.pi ((rotating m).map Complex.arg) = m.map fun s => s.2 + c := by
  have hw : WellSampled (m.map fun s => (s.1, -s.2)) := by
    refine ⟨fun s hs => ?_, fun i s s' h1 h2 => ?_⟩
    · obtain ⟨s0, h0, rfl⟩ := List.mem_map.mp hs
      exact h.positive s0 h0
    · rw [List.getElem?_map, Option.map_eq_some_iff] at h1 h2
      obtain ⟨a, ha, rfl⟩ := h1
      obtain ⟨b, hb, rfl⟩ := h2
      have := h.steps i a b ha hb
      rw [← abs_neg]
      convert this using 2
      ring
  obtain ⟨_, k, hk⟩ := C118_recovers _ hw
  have hc : combine (m.map fun s => (s.1, -s.2)) = rotating m := by
    unfold combine rotating
    rw [List.map_map]
    apply List.map_congr_left
    intro s _
    simp
  rw [hc] at hk
  refine ⟨-(2 * Real.pi * k), ?_⟩
  have : (Compare.unwrap Real.pi ((rotating m).map Complex.arg)).map (- ·) = _ := hk
  have h2 := congrArg (List.map fun x : ℝ => -x) this
  rw [List.map_map, List.map_map, List.map_map] at h2
  have e1 : ((fun x : ℝ => -x) ∘ fun x => -x) = id := by funext x; simp
  rw [e1, List.map_id] at h2
  rw [h2]
  apply List.map_congr_left
  intro s _
  simp only [Function.comp]
  ring

private theorem fitSpline_ext (k : ℕ) (x y : List ℝ) : fitSpline k 0 x y = fitSpline k 2 x y := by
  simp [fitSpline]

private theorem deriv_ext {x y : List ℝ} {u : ℝ} (hu : Within x u) (hx : x.Pairwise (· < ·)) :
    scipyDeriv (.spline 3 0) x y u = scipyDeriv (.spline 3 2) x y u := by
  show (fitSpline 3 0 x y >>= _) = (fitSpline 3 2 x y >>= _)
  rw [fitSpline_ext]
  cases fitSpline 3 2 x y with
  | error e => rfl
  | ok s =>
    simp only [ok_bind]
    rw [splev_within hu, splev_within hu]

private theorem mapM_ok' {f : ℝ → Py ℝ} {g : ℝ → ℝ} : ∀ {l : List ℝ}, (∀ u ∈ l, f u = .ok (g u)) → l.mapM f = .ok (l.map g)
  | [], _ => rfl
  | a :: l, h => by
    rw [List.mapM_cons, h a (by simp), ok_bind, mapM_ok' fun u hu => h u (by simp [hu])]
    rfl

/-- For a mode `A e^{iφ}` whose phase changes by less than half a turn from sample to sample, at four or more increasing times: the
frequency is the derivative, at the samples, of the cubic spline through the phases (there is exactly one: `C115_exists`, `C115_values`). -/
theorem C122_spline {time : List ℝ} {m : List (ℝ × ℝ)} (hm : WellSampled m) (hx : time.Pairwise (· < ·))
    (hlen : m.length = time.length) (h4 : 4 ≤ time.length) {F : ℝ → ℝ} (hF : IsSpline 3 (Breaks 3 time) F)
    (hy : PassesThrough time (m.map (·.2)) F) : freqInterp time (rotating m) = .ok (time.map (deriv F)) := by
  obtain ⟨c, hc⟩ := unwrap_rotating m hm
  have hlen' : (m.map fun s => s.2 + c).length = time.length := by rw [List.length_map, hlen]
  have hF' : IsSpline 3 (Breaks 3 time) (fun u => F u + c) := by
    refine ⟨hF.smooth.add contDiff_const, fun a b hab => ?_⟩
    obtain ⟨P, hP, h⟩ := hF.pieces a b hab
    refine ⟨P + C c, (degree_add_le _ _).trans (max_le hP (degree_C_le.trans (by norm_num))), fun u h1 h2 => ?_⟩
    show F u + c = _
    rw [h u h1 h2]; simp
  have hy' : PassesThrough time (m.map fun s => s.2 + c) (fun u => F u + c) := by
    rintro ⟨a, b⟩ hp
    rw [List.mem_iff_getElem] at hp
    obtain ⟨i, hi, e⟩ := hp
    rw [List.getElem_zip, List.getElem_map] at e
    cases e
    have hi' : i < (time.zip (m.map (·.2))).length := by simpa using hi
    have := hy (time.zip (m.map (·.2)))[i] (List.getElem_mem hi')
    rw [List.getElem_zip, List.getElem_map] at this
    show F _ + c = _
    rw [this]
  unfold freqInterp
  simp only [hc]
  obtain ⟨s, hs, _⟩ := fitSpline_exists (k := 3) (ext := 0) hx hlen'.symm (by omega) (by omega) (by omega) (by omega)
  rw [hs, ok_bind]
  refine mapM_ok' fun u hu => ?_
  have hw := node_within hx hu
  rw [deriv_ext hw hx, C115_derivative hx hlen' (by omega) (by omega) (by omega) hF' hy' hw]
  congr 1
  simp

/-- If the phase is a polynomial of time of degree at most three, the frequency is exactly its derivative, at every sample. -/
theorem C122_exact {time : List ℝ} {A : List ℝ} {P : ℝ[X]} (hP : P.degree ≤ 3) (hx : time.Pairwise (· < ·))
    (hlen : A.length = time.length) (h4 : 4 ≤ time.length) (hm : WellSampled (A.zip (time.map P.eval))) :
    freqInterp time (rotating (A.zip (time.map P.eval))) = .ok (time.map (derivative P).eval) := by
  have hl : A.length ≤ (time.map P.eval).length := by rw [List.length_map]; omega
  have := C122_spline (F := P.eval) hm hx (by simp [hlen]) h4 ⟨by
      have := P.contDiff_aeval (𝕜 := ℝ) ((3 - 1 : ℕ) : WithTop ℕ∞)
      simpa [coe_aeval_eq_eval] using this, fun a b _ => ⟨P, hP, fun u _ _ => rfl⟩⟩ (by
      have e : (A.zip (time.map P.eval)).map (·.2) = time.map P.eval := List.map_snd_zip (by rw [List.length_map]; omega)
      rw [e]
      rintro ⟨a, b⟩ hp
      rw [List.mem_iff_getElem] at hp
      obtain ⟨i, hi, e⟩ := hp
      rw [List.getElem_zip, List.getElem_map] at e
      cases e
      rfl)
  rw [this]
  congr 1
  apply List.map_congr_left
  intro u _
  exact P.deriv

/-- Times that do not increase, fewer than four samples, and a mode of another length than the times raise. -/
theorem C122_rejected {time : List ℝ} {hlm : List ℂ}
    (h : ¬ time.Pairwise (· < ·) ∨ time.length < 4 ∨ hlm.length ≠ time.length) : ∃ e, freqInterp time hlm = .error e := by
  have hl : (Compare.unwrap Real.pi (hlm.map Complex.arg)).length = hlm.length := by
    rw [(Compare.C63_unwrap Real.pi_pos _).1, List.length_map]
  have : ∃ e, fitSpline 3 0 time (Compare.unwrap Real.pi (hlm.map Complex.arg)) = .error e := by
    unfold fitSpline
    by_cases h1 : time.Pairwise (· < ·)
    · rw [if_neg (not_not.mpr h1)]
      by_cases h2 : time.length = hlm.length
      · rw [if_neg (by rw [hl]; exact not_not.mpr h2), if_neg (by omega), if_neg (by omega), if_pos]
        · exact ⟨_, rfl⟩
        · rcases h with h | h | h
          · exact absurd h1 h
          · omega
          · exact absurd h2.symm h
      · rw [if_pos (by rw [hl]; exact h2)]
        exact ⟨_, rfl⟩
    · rw [if_pos h1]
      exact ⟨_, rfl⟩
  obtain ⟨e, he⟩ := this
  exact ⟨e, by unfold freqInterp; simp only [he]; rfl⟩

/-- The premises of `C122_exact`: a phase `t³/10`, sampled four times. -/
example : (C (1 / 10 : ℝ) * X ^ 3 : ℝ[X]).degree ≤ 3 ∧ ([0, 1, 2, 3] : List ℝ).Pairwise (· < ·) ∧
    WellSampled (([1, 1, 2, 2] : List ℝ).zip (([0, 1, 2, 3] : List ℝ).map (C (1 / 10 : ℝ) * X ^ 3 : ℝ[X]).eval)) := by
  have hpi := Real.pi_gt_three
  refine ⟨degree_C_mul_X_pow_le 3 _, by norm_num, ⟨by norm_num, ?_⟩⟩
  intro i s s' h1 h2
  match i with
  | 0 | 1 | 2 =>
    simp at h1 h2
    subst h1 h2
    norm_num
    linarith
  | n + 3 => simp at h2

end GwEcc.Gen
