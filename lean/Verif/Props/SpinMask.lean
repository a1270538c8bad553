import Verif.Spec.SpinFilter
import Verif.Lemmas.Py
import Mathlib.Analysis.SpecialFunctions.Trigonometric.Basic

/-!
# C42, C43: mask and frequencies of the filter of spin-induced oscillations
-/

set_option linter.unusedSectionVars false

namespace GwEcc.Filter

open GwEcc.Spec

/-- **C42.**  For a positive cutoff and a taper of positive width the mask is a number between 0 and 1, which is 1 below the
taper, 0 above it and 1/2 at the cutoff. -/
theorem C42_mask {fCut taper : ℝ} (hf : 0 < fCut) (ht : 0 < taper) (f : ℝ) :
    ∃ m, maskAt Real.pi Real.cos fCut taper f = some m ∧ 0 ≤ m ∧ m ≤ 1 ∧ (f < fCut * (1 - taper) → m = 1) ∧
      (fCut * (1 + taper) < f → m = 0) ∧ (f = fCut → m = 1 / 2) := by
  have hw : 0 < fCut * taper := mul_pos hf ht
  unfold maskAt
  dsimp only
  by_cases h1 : f > fCut * (1 + taper)
  · rw [if_pos h1]
    refine ⟨0, rfl, le_refl _, zero_le_one, fun h => ?_, fun _ => rfl, fun h => ?_⟩
    · nlinarith
    · nlinarith
  rw [if_neg h1]
  push Not at h1
  by_cases h2 : fCut * (1 - taper) ≤ f ∧ f ≤ fCut * (1 + taper)
  · have h3 : ¬ fCut * (1 + taper) - fCut * (1 - taper) = 0 := by intro h; nlinarith
    rw [if_pos h2, if_neg h3]
    have hc1 := Real.neg_one_le_cos (Real.pi * (f - fCut * (1 - taper)) / (fCut * (1 + taper) - fCut * (1 - taper)))
    have hc2 := Real.cos_le_one (Real.pi * (f - fCut * (1 - taper)) / (fCut * (1 + taper) - fCut * (1 - taper)))
    refine ⟨_, rfl, by linarith, by linarith, fun h => ?_, fun h => ?_, fun h => ?_⟩
    · exact absurd h2.1 (not_le.mpr h)
    · exact absurd h1 (not_le.mpr h)
    · subst h
      have : Real.pi * (f - f * (1 - taper)) / (f * (1 + taper) - f * (1 - taper)) = Real.pi / 2 := by
        have : f * taper ≠ 0 := hw.ne'
        rw [div_eq_div_iff (by intro h; nlinarith) two_ne_zero]
        ring
      rw [this, Real.cos_pi_div_two]
      ring
  · rw [if_neg h2]
    refine ⟨1, rfl, zero_le_one, le_refl _, fun _ => rfl, fun h => absurd h1 (not_le.mpr h), fun h => ?_⟩
    exfalso
    apply h2
    subst h
    exact ⟨by nlinarith, h1⟩

/-- **C42.**  The mask never increases with frequency. -/
theorem C42_antitone {fCut taper f g m m' : ℝ} (hf : 0 < fCut) (ht : 0 < taper) (hfg : f ≤ g)
    (hm : maskAt Real.pi Real.cos fCut taper f = some m) (hm' : maskAt Real.pi Real.cos fCut taper g = some m') : m' ≤ m := by
  obtain ⟨x, hx, x0, x1, xlo, xhi, _⟩ := C42_mask hf ht f
  obtain ⟨y, hy, y0, y1, ylo, yhi, _⟩ := C42_mask hf ht g
  rw [hm] at hx; cases hx
  rw [hm'] at hy; cases hy
  rcases lt_or_ge f (fCut * (1 - taper)) with h | h
  · rw [xlo h]; exact y1
  rcases lt_or_ge (fCut * (1 + taper)) g with h' | h'
  · rw [yhi h']; exact x0
  have hw : 0 < fCut * taper := mul_pos hf ht
  have hd : 0 < fCut * (1 + taper) - fCut * (1 - taper) := by nlinarith
  unfold maskAt at hm hm'
  dsimp only at hm hm'
  rw [if_neg (not_lt.mpr (le_trans hfg h')), if_pos ⟨h, le_trans hfg h'⟩, if_neg hd.ne'] at hm
  rw [if_neg (not_lt.mpr h'), if_pos ⟨le_trans h hfg, h'⟩, if_neg hd.ne'] at hm'
  obtain rfl := Option.some.inj hm
  obtain rfl := Option.some.inj hm'
  have : Real.cos (Real.pi * (g - fCut * (1 - taper)) / (fCut * (1 + taper) - fCut * (1 - taper))) ≤
      Real.cos (Real.pi * (f - fCut * (1 - taper)) / (fCut * (1 + taper) - fCut * (1 - taper))) := by
    apply Real.cos_le_cos_of_nonneg_of_le_pi
    · exact div_nonneg (mul_nonneg Real.pi_pos.le (by linarith)) hd.le
    · rw [div_le_iff₀ hd]
      exact mul_le_mul_of_nonneg_left (by linarith) Real.pi_pos.le
    · exact div_le_div_of_nonneg_right (mul_le_mul_of_nonneg_left (by linarith) Real.pi_pos.le) hd.le
  linarith

/-- **C42.**  No frequency component is amplified: each entry of the masked transform has at most the modulus of the entry of
the transform, and the same phase. -/
theorem C42_no_gain {fCut taper : ℝ} (hf : 0 < fCut) (ht : 0 < taper) (freqs : List ℝ) (fd : List ℂ) {mask : List ℝ}
    (hm : (lowpassMask Real.pi Real.cos fCut taper freqs).mapM id = some mask) :
    mask.length = freqs.length ∧
    ∀ (i : ℕ) (z m : ℂ), fd[i]? = some z → (List.zipWith (fun (z : ℂ) (m : ℝ) => z * m) fd mask)[i]? = some m →
      ‖m‖ ≤ ‖z‖ ∧ ∃ c : ℝ, 0 ≤ c ∧ c ≤ 1 ∧ m = c * z := by
  have key : ∀ (l : List ℝ) (r : List ℝ), (lowpassMask Real.pi Real.cos fCut taper l).mapM id = some r →
      r.length = l.length ∧ ∀ c ∈ r, 0 ≤ c ∧ c ≤ 1 := by
    intro l
    induction l with
    | nil => intro r h; cases h; simp
    | cons a l ih =>
      intro r h
      unfold lowpassMask at h ih
      rw [List.map_cons, List.mapM_cons] at h
      obtain ⟨x, hx, x0, x1, _⟩ := C42_mask hf ht a
      rw [hx] at h
      cases hr : (List.map (maskAt Real.pi Real.cos fCut taper) l).mapM id with
      | none => simp [hr] at h
      | some r' =>
        obtain ⟨h1, h2⟩ := ih r' hr
        simp only [id_eq, Option.bind_eq_bind, Option.bind_some, hr, Option.pure_def, Option.some.injEq] at h
        subst h
        refine ⟨by simp [h1], ?_⟩
        intro c hc
        rcases List.mem_cons.mp hc with rfl | hc
        · exact ⟨x0, x1⟩
        · exact h2 c hc
  obtain ⟨h1, h2⟩ := key freqs mask hm
  refine ⟨h1, fun i z m hz hzm => ?_⟩
  rw [List.getElem?_zipWith, hz] at hzm
  cases hc : mask[i]? with
  | none => simp [hc] at hzm
  | some c =>
    simp only [hc, Option.some.injEq] at hzm
    obtain ⟨c0, c1⟩ := h2 c (List.mem_of_getElem? hc)
    subst hzm
    refine ⟨?_, c, c0, c1, mul_comm _ _⟩
    rw [norm_mul, Complex.norm_real, Real.norm_of_nonneg c0]
    exact mul_le_of_le_one_right (norm_nonneg z) c1

/-- A cutoff and a taper as in the hypotheses. -/
example : (0 : ℝ) < 1 / 10 ∧ (0 : ℝ) < 1 / 5 := by norm_num

/-- **C42, violated at the boundary.**  A taper of zero width makes the mask undefined (nan) at the cutoff. -/
theorem C42_zero_width_violation (pi : ℝ) (cos : ℝ → ℝ) (fCut : ℝ) : maskAt pi cos fCut 0 fCut = none := by
  simp [maskAt]

section detect
variable {K : Type} [Field K] [LinearOrder K] [IsStrictOrderedRing K]

theorem pickBy_argmax {freqs spectrum : List K} {lo hi f : K} (h : pickBy argmax freqs spectrum lo hi = some f) :
    ∃ a, InWindow freqs spectrum lo hi f a ∧ ∀ g b, InWindow freqs spectrum lo hi g b → b ≤ a := by
  unfold pickBy at h
  dsimp only at h
  set sel := (freqs.zip spectrum).filter fun q => decide (lo ≤ q.1) && decide (q.1 ≤ hi) with hsel
  have hmem : ∀ q, q ∈ sel ↔ InWindow freqs spectrum lo hi q.1 q.2 := by
    intro q
    rw [hsel, List.mem_filter]
    simp [InWindow]
  split at h
  · rename_i i hi'
    obtain ⟨q, hq, rfl⟩ := Option.map_eq_some_iff.mp h
    refine ⟨q.2, (hmem q).mp (List.mem_of_getElem? hq), fun g b hg => ?_⟩
    have hgm := (hmem (g, b)).mpr hg
    have hbm : b ∈ sel.map Prod.snd := List.mem_map.mpr ⟨(g, b), hgm, rfl⟩
    obtain ⟨hlt, hmax, _⟩ := argmax_spec hi'
    obtain ⟨hq1, hq2⟩ := List.getElem?_eq_some_iff.mp hq
    obtain ⟨j, hj, rfl⟩ := List.getElem_of_mem hbm
    have := hmax j hj
    have e : (sel.map Prod.snd)[i] = q.2 := by rw [List.getElem_map, hq2]
    rw [e] at this
    exact this
  · cases h

theorem pickBy_argmin {freqs spectrum : List K} {lo hi f : K} (h : pickBy argmin freqs spectrum lo hi = some f) :
    ∃ a, InWindow freqs spectrum lo hi f a ∧ ∀ g b, InWindow freqs spectrum lo hi g b → a ≤ b := by
  unfold pickBy at h
  dsimp only at h
  set sel := (freqs.zip spectrum).filter fun q => decide (lo ≤ q.1) && decide (q.1 ≤ hi) with hsel
  have hmem : ∀ q, q ∈ sel ↔ InWindow freqs spectrum lo hi q.1 q.2 := by
    intro q
    rw [hsel, List.mem_filter]
    simp [InWindow]
  split at h
  · rename_i i hi'
    obtain ⟨q, hq, rfl⟩ := Option.map_eq_some_iff.mp h
    refine ⟨q.2, (hmem q).mp (List.mem_of_getElem? hq), fun g b hg => ?_⟩
    have hgm := (hmem (g, b)).mpr hg
    have hbm : b ∈ sel.map Prod.snd := List.mem_map.mpr ⟨(g, b), hgm, rfl⟩
    obtain ⟨hlt, hmax, _⟩ := argmin_spec hi'
    obtain ⟨hq1, hq2⟩ := List.getElem?_eq_some_iff.mp hq
    obtain ⟨j, hj, rfl⟩ := List.getElem_of_mem hbm
    have := hmax j hj
    have e : (sel.map Prod.snd)[i] = q.2 := by rw [List.getElem_map, hq2]
    rw [e] at this
    exact this
  · cases h

theorem pickBy_none {best : List K → Py ℕ} {freqs spectrum : List K} {lo hi : K}
    (hb : ∀ l : List K, l ≠ [] → ∃ i, best l = .ok i ∧ i < l.length) (h : pickBy best freqs spectrum lo hi = none) :
    ∀ g b, ¬ InWindow freqs spectrum lo hi g b := by
  unfold pickBy at h
  dsimp only at h
  set sel := (freqs.zip spectrum).filter fun q => decide (lo ≤ q.1) && decide (q.1 ≤ hi) with hsel
  intro g b hg
  have hm : (g, b) ∈ sel := by
    rw [hsel, List.mem_filter]
    simpa [InWindow] using hg
  obtain ⟨i, hi, hlt⟩ := hb (sel.map Prod.snd) (by
    intro hc
    rw [List.map_eq_nil_iff] at hc
    rw [hc] at hm; cases hm)
  rw [hi] at h
  simp only [Option.map_eq_none_iff, List.getElem?_eq_none_iff] at h
  rw [List.length_map] at hlt
  omega

/-- **C43.**  For a positive first estimate and windows ordered as the default ones, `0 < f_ecc <= f_cutoff <= f_spin` and
`f_spin` is in its window, whatever the spectrum. -/
theorem C43_order (freqs spectrum : List K) {guess sl sh el eh : K} (hg : 0 < guess) (hsl : 0 < sl) (hsl1 : sl ≤ 1)
    (hsh : 1 ≤ sh) (hel : 0 < el) (heh : eh ≤ 1) :
    let r := detect freqs spectrum guess sl sh el eh
    0 < r.2.1 ∧ r.2.1 ≤ r.1 ∧ r.1 ≤ r.2.2 ∧ sl * guess ≤ r.2.2 ∧ r.2.2 ≤ sh * guess := by
  intro r
  have hs : sl * guess ≤ r.2.2 ∧ r.2.2 ≤ sh * guess := by
    show sl * guess ≤ (pickBy argmax freqs spectrum (sl * guess) (sh * guess)).getD guess ∧ _ ≤ _
    cases h : pickBy argmax freqs spectrum (sl * guess) (sh * guess) with
    | none => exact ⟨by simp only [Option.getD_none]; nlinarith, by
        show (pickBy argmax freqs spectrum (sl * guess) (sh * guess)).getD guess ≤ _
        rw [h]; simp only [Option.getD_none]; nlinarith⟩
    | some f =>
      obtain ⟨a, ha, _⟩ := pickBy_argmax h
      exact ⟨ha.2.1, by
        show (pickBy argmax freqs spectrum (sl * guess) (sh * guess)).getD guess ≤ _
        rw [h]; exact ha.2.2⟩
  have hpos : 0 < r.2.2 := lt_of_lt_of_le (mul_pos hsl hg) hs.1
  have he : 0 < r.2.1 ∧ r.2.1 ≤ r.2.2 := by
    have hdef : r.2.1 = (pickBy argmax freqs spectrum (el * r.2.2) (eh * r.2.2)).getD (r.2.2 / (5 / 2)) := rfl
    rw [hdef]
    cases h : pickBy argmax freqs spectrum (el * r.2.2) (eh * r.2.2) with
    | none =>
      simp only [Option.getD_none]
      refine ⟨by positivity, ?_⟩
      rw [div_le_iff₀ (by norm_num)]
      linarith
    | some f =>
      obtain ⟨a, ha, _⟩ := pickBy_argmax h
      exact ⟨lt_of_lt_of_le (mul_pos hel hpos) ha.2.1, le_trans ha.2.2 (by nlinarith)⟩
  have hc : r.2.1 ≤ r.1 ∧ r.1 ≤ r.2.2 := by
    have hdef : r.1 = (pickBy argmin freqs spectrum r.2.1 r.2.2).getD (1 / 2 * (r.2.2 + r.2.1)) := rfl
    rw [hdef]
    cases h : pickBy argmin freqs spectrum r.2.1 r.2.2 with
    | none =>
      simp only [Option.getD_none]
      constructor <;> linarith [he.2]
    | some f =>
      obtain ⟨a, ha, _⟩ := pickBy_argmin h
      exact ha.2
  exact ⟨he.1, hc.1, hc.2, hs⟩

theorem argmax_total : ∀ l : List K, l ≠ [] → ∃ i, argmax l = .ok i ∧ i < l.length := by
  intro l hl
  cases l with
  | nil => exact absurd rfl hl
  | cons a l =>
    obtain ⟨h, _⟩ := argmax_spec (l := a :: l) (i := (argmaxP a l).1) rfl
    exact ⟨_, rfl, h⟩

theorem argmin_total : ∀ l : List K, l ≠ [] → ∃ i, argmin l = .ok i ∧ i < l.length := by
  intro l hl
  cases l with
  | nil => exact absurd rfl hl
  | cons a l =>
    obtain ⟨h, _⟩ := argmin_spec (l := a :: l) (i := (argminP a l).1) rfl
    exact ⟨_, rfl, h⟩

/-- **C43.**  What the frequencies mean: `f_spin` is a frequency where the spectrum is largest in the window around the first
estimate, `f_ecc` one where it is largest in the window below `f_spin`, `f_cutoff` one where it is smallest between the two;
the fallbacks are used only when a window contains no frequency of the grid. -/
theorem C43_peaks (freqs spectrum : List K) (guess sl sh el eh : K) :
    let r := detect freqs spectrum guess sl sh el eh
    ((∃ a, InWindow freqs spectrum (sl * guess) (sh * guess) r.2.2 a ∧
        ∀ g b, InWindow freqs spectrum (sl * guess) (sh * guess) g b → b ≤ a) ∨
      (r.2.2 = guess ∧ ∀ g b, ¬ InWindow freqs spectrum (sl * guess) (sh * guess) g b)) ∧
    ((∃ a, InWindow freqs spectrum (el * r.2.2) (eh * r.2.2) r.2.1 a ∧
        ∀ g b, InWindow freqs spectrum (el * r.2.2) (eh * r.2.2) g b → b ≤ a) ∨
      (r.2.1 = r.2.2 / (5 / 2) ∧ ∀ g b, ¬ InWindow freqs spectrum (el * r.2.2) (eh * r.2.2) g b)) ∧
    ((∃ a, InWindow freqs spectrum r.2.1 r.2.2 r.1 a ∧ ∀ g b, InWindow freqs spectrum r.2.1 r.2.2 g b → a ≤ b) ∨
      (r.1 = 1 / 2 * (r.2.2 + r.2.1) ∧ ∀ g b, ¬ InWindow freqs spectrum r.2.1 r.2.2 g b)) := by
  intro r
  have d1 : r.2.2 = (pickBy argmax freqs spectrum (sl * guess) (sh * guess)).getD guess := rfl
  have d2 : r.2.1 = (pickBy argmax freqs spectrum (el * r.2.2) (eh * r.2.2)).getD (r.2.2 / (5 / 2)) := rfl
  have d3 : r.1 = (pickBy argmin freqs spectrum r.2.1 r.2.2).getD (1 / 2 * (r.2.2 + r.2.1)) := rfl
  refine ⟨?_, ?_, ?_⟩
  · cases h : pickBy argmax freqs spectrum (sl * guess) (sh * guess) with
    | none => rw [h] at d1; exact .inr ⟨d1, pickBy_none argmax_total h⟩
    | some f => rw [h] at d1; rw [d1]; exact .inl (pickBy_argmax h)
  · cases h : pickBy argmax freqs spectrum (el * r.2.2) (eh * r.2.2) with
    | none => rw [h] at d2; exact .inr ⟨d2, pickBy_none argmax_total h⟩
    | some f => rw [h] at d2; rw [d2]; exact .inl (pickBy_argmax h)
  · cases h : pickBy argmin freqs spectrum r.2.1 r.2.2 with
    | none => rw [h] at d3; exact .inr ⟨d3, pickBy_none argmin_total h⟩
    | some f => rw [h] at d3; rw [d3]; exact .inl (pickBy_argmin h)

/-- A spectrum with peaks at 4 and 10, first estimate 11: the cutoff is the trough 6. -/
example : detect [0, 2, 4, 6, 8, 10, (12 : ℚ)] [0, 1, 5, 1, 2, 4, 1] 11 (3 / 4) (5 / 4) (1 / 4) (1 / 2) = (6, 4, 10) ∧
    (0 : ℚ) < 11 ∧ (0 : ℚ) < 3 / 4 ∧ (3 / 4 : ℚ) ≤ 1 ∧ (1 : ℚ) ≤ 5 / 4 ∧ (0 : ℚ) < 1 / 4 ∧ (1 / 2 : ℚ) ≤ 1 := by
  decide +kernel

/-- **C43, violated.**  The first estimate is the inverse of an extrapolated cubic interpolant and can be negative; then the
order of the frequencies is reversed, for every spectrum, and the mask removes every frequency of the grid. -/
theorem C43_negative_violation (freqs spectrum : List K) (hf : ∀ f ∈ freqs, 0 ≤ f) {guess sl sh el eh : K} (hg : guess < 0)
    (hsh : 0 < sh) (heh : 0 < eh) :
    let r := detect freqs spectrum guess sl sh el eh
    r.2.2 < r.1 ∧ r.1 < r.2.1 ∧ r.2.1 < 0 := by
  intro r
  have hnone : ∀ (best : List K → Py ℕ), best [] = .error .valueError → ∀ lo hi : K, hi < 0 →
      pickBy best freqs spectrum lo hi = none := by
    intro best hb lo hi hneg
    unfold pickBy
    dsimp only
    have : (freqs.zip spectrum).filter (fun q => decide (lo ≤ q.1) && decide (q.1 ≤ hi)) = [] := by
      rw [List.filter_eq_nil_iff]
      rintro ⟨f, a⟩ hq
      have := hf f (List.of_mem_zip hq).1
      simp only [Bool.and_eq_true, decide_eq_true_eq, not_and, not_le]
      intro _
      linarith
    rw [this, List.map_nil, hb]
  have d1 : r.2.2 = guess := by
    show (pickBy argmax freqs spectrum (sl * guess) (sh * guess)).getD guess = guess
    rw [hnone argmax rfl _ _ (mul_neg_of_pos_of_neg hsh hg)]; rfl
  have d2 : r.2.1 = guess / (5 / 2) := by
    show (pickBy argmax freqs spectrum (el * r.2.2) (eh * r.2.2)).getD (r.2.2 / (5 / 2)) = _
    rw [d1, hnone argmax rfl _ _ (mul_neg_of_pos_of_neg heh hg)]; rfl
  have d3 : r.1 = 1 / 2 * (guess + guess / (5 / 2)) := by
    show (pickBy argmin freqs spectrum r.2.1 r.2.2).getD (1 / 2 * (r.2.2 + r.2.1)) = _
    rw [d1, d2, hnone argmin rfl _ _ hg]; rfl
  have e : guess / (5 / 2) = 2 / 5 * guess := by ring
  rw [d1, d2, d3, e]
  refine ⟨by linarith, by linarith, by linarith⟩

example : detect [0, 2, 4, (6 : ℚ)] [0, 1, 5, 1] (-5) (3 / 4) (5 / 4) (1 / 4) (1 / 2) = (-7 / 2, -2, -5) := by decide +kernel

end detect

end GwEcc.Filter
