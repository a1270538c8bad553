import Verif.Lemmas.Utils

/-!
# Properties of the utility functions: C04, C05, C16, C17, C18, C35
-/

set_option linter.unusedSectionVars false

namespace GwEcc

/-! ## C18 Total amplitude -/

/-- The total amplitude does not depend on the order of the modes. -/
theorem C18_order (l₁ l₂ : List ℂ) (h : l₁.Perm l₂) : ampAllHlm l₁ = ampAllHlm l₂ := by
  rw [ampAllHlm_eq, ampAllHlm_eq, (h.map _).sum_eq]

theorem C18_order_amplm (l₁ l₂ : List ℝ) (h : l₁.Perm l₂) : ampAllAmplm l₁ = ampAllAmplm l₂ := by
  rw [ampAllAmplm_eq, ampAllAmplm_eq, (h.map _).sum_eq]

/-- It depends on the modes only through their amplitudes: supplying complex modes or their moduli gives
the same, and multiplying any mode by a phase factor changes nothing. -/
theorem C18_phases (l : List ℂ) (u : List ℂ) (hlen : u.length = l.length) (hu : ∀ z ∈ u, ‖z‖ = 1) :
    ampAllHlm (List.zipWith (· * ·) u l) = ampAllHlm l ∧ ampAllHlm l = ampAllAmplm (l.map norm) := by
  constructor
  · rw [ampAllHlm_eq, ampAllHlm_eq]
    congr 2
    induction l generalizing u with
    | nil => simp
    | cons h l ih =>
      cases u with
      | nil => simp at hlen
      | cons z u =>
        simp only [List.zipWith_cons_cons, List.map_cons, norm_mul]
        rw [hu z (by simp), one_mul, ih u (by simpa using hlen) (fun w hw => hu w (by simp [hw]))]
  · rw [ampAllHlm_eq, ampAllAmplm_eq, List.map_map]; rfl

example : ([Complex.I] : List ℂ).length = ([1 + Complex.I] : List ℂ).length ∧ ∀ z ∈ [Complex.I], ‖z‖ = 1 := by simp

/-- It is at least the amplitude of every single mode. -/
theorem C18_dominates (l : List ℂ) (h : ℂ) (hm : h ∈ l) : ‖h‖ ≤ ampAllHlm l := by
  rw [ampAllHlm_eq]
  apply Real.le_sqrt_of_sq_le
  exact List.single_le_sum (by intro x hx; obtain ⟨y, _, rfl⟩ := List.mem_map.mp hx; positivity) _
    (List.mem_map.mpr ⟨h, hm, rfl⟩)

/-- It vanishes only when every mode vanishes. -/
theorem C18_zero (l : List ℂ) : ampAllHlm l = 0 ↔ ∀ h ∈ l, h = 0 := by
  constructor
  · intro h0 h hm
    have := C18_dominates l h hm
    rw [h0] at this
    exact norm_le_zero_iff.mp this
  · intro hz
    rw [ampAllHlm_eq]
    have : l.map (fun h => ‖h‖ ^ 2) = l.map (fun _ => (0 : ℝ)) := by
      apply List.map_congr_left; intro h hm; rw [hz h hm]; simp
    rw [this]; simp

/-- It scales with the strain. -/
theorem C18_scale (l : List ℂ) (c : ℂ) : ampAllHlm (l.map (c * ·)) = ‖c‖ * ampAllHlm l := by
  rw [ampAllHlm_eq, ampAllHlm_eq, List.map_map]
  have : (l.map ((fun h : ℂ => ‖h‖ ^ 2) ∘ (c * ·))).sum = ‖c‖ ^ 2 * (l.map (fun h => ‖h‖ ^ 2)).sum := by
    rw [← List.sum_map_mul_left]
    congr 1
    apply List.map_congr_left; intro h _; simp only [Function.comp, norm_mul]; ring
  rw [this, Real.sqrt_mul (by positivity), Real.sqrt_sq (norm_nonneg _)]

/-! ## C16 Frequency from phase -/

/-- Fewer than five samples are an error, anything else is answered with as many values. -/
theorem C16_length {K : Type} [Field K] (y : List K) (dt : K) :
    (y.length < 5 → timeDeriv4 y dt = .error .valueError) ∧
      (5 ≤ y.length → ∃ r, timeDeriv4 y dt = .ok r ∧ r.length = y.length) := by
  unfold timeDeriv4
  refine ⟨fun h => by rw [if_pos h], fun h => ?_⟩
  rw [if_neg (by omega)]
  exact ⟨_, rfl, by simp⟩

open Polynomial in
/-- For samples of any polynomial of degree at most four on any uniform grid the computed derivative is the exact
derivative at every sample, edges included. -/
theorem C16_exact {K : Type} [Field K] [CharZero K] (p : K[X]) (hp : p.natDegree ≤ 4) (n : ℕ) (hn : 5 ≤ n)
    (t0 dt : K) (hdt : dt ≠ 0) :
    timeDeriv4 ((List.range n).map fun i : ℕ => p.eval (t0 + i * dt)) dt =
      .ok ((List.range n).map fun i : ℕ => (derivative p).eval (t0 + i * dt)) := by
  have hev : ∀ x : K, p.eval x = p.coeff 0 + p.coeff 1 * x + p.coeff 2 * x ^ 2 + p.coeff 3 * x ^ 3
      + p.coeff 4 * x ^ 4 := by
    intro x
    rw [eval_eq_sum_range' (n := 5) (by omega)]
    simp [Finset.sum_range_succ]
  have hdv : ∀ x : K, (derivative p).eval x = p.coeff 1 + 2 * p.coeff 2 * x + 3 * p.coeff 3 * x ^ 2
      + 4 * p.coeff 4 * x ^ 3 := by
    intro x
    rw [eval_eq_sum_range' (n := 5) (by have := natDegree_derivative_le p; omega)]
    have h5 : p.coeff 5 = 0 := coeff_eq_zero_of_natDegree_lt (by omega)
    simp only [Finset.sum_range_succ, coeff_derivative, Finset.range_zero, Finset.sum_empty]
    simp [h5]
    ring
  unfold timeDeriv4
  have hlen : ((List.range n).map fun i : ℕ => p.eval (t0 + i * dt)).length = n := by simp
  rw [hlen, if_neg (by omega)]
  simp only
  congr 1
  apply List.map_congr_left
  intro i hi
  have hi : i < n := by simpa using hi
  have hg : ∀ j : ℕ, j < n → ((List.range n).map fun i : ℕ => p.eval (t0 + i * dt)).getD j 0 =
      p.eval (t0 + j * dt) := by
    intro j hj; simp [List.getD_eq_getElem?_getD, List.getElem?_range hj]
  obtain ⟨m, rfl⟩ : ∃ m, n = m + 5 := ⟨n - 5, by omega⟩
  have e1 : m + 5 - 1 = m + 4 := rfl
  have e2 : m + 5 - 2 = m + 3 := rfl
  have e3 : m + 5 - 3 = m + 2 := rfl
  have e4 : m + 5 - 4 = m + 1 := rfl
  have e5 : m + 5 - 5 = m := rfl
  rw [e1, e2, e3, e4, e5]
  split_ifs with h1 h2 h3 h4
  · rw [hg m (by omega), hg (m+1) (by omega), hg (m+2) (by omega), hg (m+3) (by omega), hg (m+4) (by omega)]
    rw [hdv, div_eq_iff hdt]; simp only [hev]; subst h1; push_cast; field_simp; ring
  · rw [hg m (by omega), hg (m+1) (by omega), hg (m+2) (by omega), hg (m+3) (by omega), hg (m+4) (by omega)]
    rw [hdv, div_eq_iff hdt]; simp only [hev]; subst h2; push_cast; field_simp; ring
  · rw [hg 0 (by omega), hg 1 (by omega), hg 2 (by omega), hg 3 (by omega), hg 4 (by omega)]
    rw [hdv, div_eq_iff hdt]; simp only [hev]; subst h3; push_cast; field_simp; ring
  · rw [hg 0 (by omega), hg 1 (by omega), hg 2 (by omega), hg 3 (by omega), hg 4 (by omega)]
    rw [hdv, div_eq_iff hdt]; simp only [hev]; subst h4; push_cast; field_simp; ring
  · obtain ⟨j, rfl⟩ : ∃ j, i = j + 2 := ⟨i - 2, by omega⟩
    have f1 : j + 2 - 2 = j := rfl
    have f2 : j + 2 - 1 = j + 1 := rfl
    rw [f1, f2, hg j (by omega), hg (j+1) (by omega), hg (j+2+1) (by omega), hg (j+2+2) (by omega)]
    rw [hdv, div_eq_iff hdt]; simp only [hev]; push_cast; field_simp; ring

open Polynomial in
example : (X ^ 4 : ℚ[X]).natDegree ≤ 4 ∧ 5 ≤ 7 ∧ (1/10 : ℚ) ≠ 0 := by simp

/-- the i-th entry of the derivative, for a list given by a function -/
theorem timeDeriv4_linear {K : Type} [Field K] (y z : List K) (hl : z.length = y.length) (a b dt : K) (r s : List K)
    (hr : timeDeriv4 y dt = .ok r) (hs : timeDeriv4 z dt = .ok s) :
    timeDeriv4 (List.zipWith (fun u v => a * u + b * v) y z) dt =
      .ok (List.zipWith (fun u v => a * u + b * v) r s) := by
  unfold timeDeriv4 at *
  have hlen : (List.zipWith (fun u v => a * u + b * v) y z).length = y.length := by simp [hl]
  by_cases h5 : y.length < 5
  · rw [if_pos h5] at hr; simp at hr
  rw [if_neg h5] at hr
  rw [if_neg (by omega)] at hs
  rw [hlen, if_neg h5]
  simp only [Except.ok.injEq] at hr hs ⊢
  subst hr hs
  rw [hl]
  rw [List.zipWith_map, List.zipWith_self]
  apply List.map_congr_left
  intro i hi
  have hi : i < y.length := by simpa using hi
  have hg : ∀ j : ℕ, j < y.length → (List.zipWith (fun u v => a * u + b * v) y z).getD j 0 =
      a * y.getD j 0 + b * z.getD j 0 := by
    intro j hj
    rw [List.getD_eq_getElem _ _ (by omega), List.getD_eq_getElem _ _ hj, List.getD_eq_getElem _ _ (by omega)]
    simp
  split_ifs with h1 h2 h3 h4
  · rw [hg _ (by omega), hg _ (by omega), hg _ (by omega), hg _ (by omega), hg _ (by omega)]; ring
  · rw [hg _ (by omega), hg _ (by omega), hg _ (by omega), hg _ (by omega), hg _ (by omega)]; ring
  · rw [hg _ (by omega), hg _ (by omega), hg _ (by omega), hg _ (by omega), hg _ (by omega)]; ring
  · rw [hg _ (by omega), hg _ (by omega), hg _ (by omega), hg _ (by omega), hg _ (by omega)]; ring
  · rw [hg _ (by omega), hg _ (by omega), hg _ (by omega), hg _ (by omega)]; ring

/-- The computed frequency is linear in the phase. -/
theorem C16_linear {K : Type} [Field K] (y z : List K) (hl : z.length = y.length) (h5 : 5 ≤ y.length) (a b dt : K) :
    ∃ r s, timeDeriv4 y dt = .ok r ∧ timeDeriv4 z dt = .ok s ∧
      timeDeriv4 (List.zipWith (fun u v => a * u + b * v) y z) dt =
        .ok (List.zipWith (fun u v => a * u + b * v) r s) := by
  obtain ⟨r, hr, _⟩ := (C16_length y dt).2 h5
  obtain ⟨s, hs, _⟩ := (C16_length z dt).2 (by omega)
  exact ⟨r, s, hr, hs, timeDeriv4_linear y z hl a b dt r s hr hs⟩

/-- A constant phase offset does not change the frequency. -/
theorem C16_offset {K : Type} [Field K] [CharZero K] (y : List K) (c dt : K) :
    timeDeriv4 (y.map (· + c)) dt = timeDeriv4 y dt := by
  unfold timeDeriv4
  rw [List.length_map]
  split
  · rfl
  · rename_i h5
    simp only
    congr 1
    apply List.map_congr_left
    intro i hi
    have hi : i < y.length := by simpa using hi
    have hg : ∀ j : ℕ, j < y.length → (y.map (· + c)).getD j 0 = y.getD j 0 + c := by
      intro j hj
      rw [List.getD_eq_getElem _ _ (by simpa using hj), List.getD_eq_getElem _ _ hj]; simp
    congr 1
    split_ifs with h1 h2 h3 h4
    · rw [hg _ (by omega), hg _ (by omega), hg _ (by omega), hg _ (by omega), hg _ (by omega)]; field_simp; ring
    · rw [hg _ (by omega), hg _ (by omega), hg _ (by omega), hg _ (by omega), hg _ (by omega)]; field_simp; ring
    · rw [hg _ (by omega), hg _ (by omega), hg _ (by omega), hg _ (by omega), hg _ (by omega)]; field_simp; ring
    · rw [hg _ (by omega), hg _ (by omega), hg _ (by omega), hg _ (by omega), hg _ (by omega)]; field_simp; ring
    · rw [hg _ (by omega), hg _ (by omega), hg _ (by omega), hg _ (by omega)]; ring

/-! ## C17 Merger time -/

section C17

variable {K : Type} [Field K] [LinearOrder K] [IsStrictOrderedRing K]

/-- If the samples within four positions of the first maximum lie on a parabola `f0 + c (t - tp)²`, `c ≠ 0`, the
peak time is exactly `tp` and the peak value `f0`; times need only be strictly increasing and the maximum may
be anywhere in the array, its edges included. -/
theorem C17_exact (t func : List K) (hlen : func.length = t.length) (h5 : 5 ≤ t.length)
    (hmono : t.Pairwise (· < ·)) (tp f0 c : K) (hc : c ≠ 0) (m : ℕ) (hm : argmax func = .ok m)
    (hpar : ∀ j (h1 : j < t.length) (h2 : j < func.length), j ≤ m + 4 → m ≤ j + 4 →
      func[j] = f0 + c * (t[j] - tp) ^ 2) :
    peakTime t func = .ok (tp, f0) := by
  obtain ⟨hml, _⟩ := argmax_spec hm
  set i := max 2 (min (t.length - 3) m) with hi
  have hi2 : 2 ≤ i := le_max_left _ _
  have hi3 : i + 3 ≤ t.length := by omega
  have him : i ≤ m + 2 := by omega
  have hmi : m ≤ i + 2 := by omega
  have hlt := List.pairwise_iff_getElem.mp hmono
  set d := t[i] - tp with hd
  have hwin : (((t.take (i + 3)).drop (i - 2)).map (fun x => x - t.getD i 0)).zip
      ((func.take (i + 3)).drop (i - 2)) =
      [t[i-2] - t[i], t[i-1] - t[i], t[i] - t[i], t[i+1] - t[i], t[i+2] - t[i]].map
        (fun x => (x, (f0 + c * d ^ 2) + (2 * c * d) * x + c * x ^ 2)) := by
    rw [window5 t i hi2 hi3, window5 func i hi2 (by omega)]
    rw [hpar (i-2) (by omega) (by omega) (by omega) (by omega), hpar (i-1) (by omega) (by omega) (by omega) (by omega),
      hpar i (by omega) (by omega) (by omega) (by omega), hpar (i+1) (by omega) (by omega) (by omega) (by omega),
      hpar (i+2) (by omega) (by omega) (by omega) (by omega)]
    rw [List.getD_eq_getElem _ _ (by omega)]
    simp only [List.map_cons, List.map_nil, List.zip_cons_cons, List.zip_nil_right, List.cons.injEq, Prod.mk.injEq,
      true_and, and_true]
    refine ⟨?_, ?_, ?_, ?_, ?_⟩ <;> simp only [hd] <;> ring
  have hfit := quadFit_exact (t[i-2] - t[i]) (t[i-1] - t[i]) (t[i] - t[i]) (t[i+1] - t[i]) (t[i+2] - t[i])
    (f0 + c * d ^ 2) (2 * c * d) c
    (by have := hlt (i-2) (i-1) (by omega) (by omega) (by omega); linarith)
    (by have := hlt (i-1) i (by omega) (by omega) (by omega); linarith)
  unfold peakTime
  rw [hm]
  simp only [bind, Except.bind]
  rw [← hi, if_neg (by push Not; exact ⟨h5, hlen⟩), hwin, hfit]
  simp only [if_neg hc]
  rw [List.getD_eq_getElem _ _ (by omega)]
  congr 2
  · rw [hd]; field_simp; ring
  · field_simp; ring

/-- a parabola sampled on five points with its maximum at the first sample -/
example : peakTime ([0, 1, 2, 3, 4] : List ℚ) [0, -1, -4, -9, -16] = .ok (0, 0) :=
  C17_exact [0, 1, 2, 3, 4] [0, -1, -4, -9, -16] (by simp) (by simp) (by simp; norm_num) 0 0 (-1) (by norm_num) 0 (by decide +kernel)
    (by
      intro j h1 h2 _ _
      simp only [List.length_cons, List.length_nil] at h1
      interval_cases j <;> norm_num)

/-- Positive rescaling of the amplitude does not change the merger time (and scales the peak value); the
same error, if any, occurs. -/
theorem C17_amplitude_scale (t func : List K) (s : K) (hs : 0 < s) :
    peakTime t (func.map (s * ·)) = (peakTime t func).map (fun r => (r.1, s * r.2)) := by
  unfold peakTime
  rw [argmax_map (s * ·) (fun a b h => mul_lt_mul_of_pos_left h hs) func]
  cases argmax func with
  | error e => rfl
  | ok m =>
    simp only [bind, Except.bind, List.length_map]
    split
    · rfl
    · rw [← List.map_take, ← List.map_drop]
      have hz : ∀ (a b : List K), a.zip (b.map (s * ·)) = (a.zip b).map (fun p => (p.1, s * p.2)) := by
        intro a b
        rw [List.zip_map_right]
        apply List.map_congr_left; intro p _; rfl
      rw [hz, quadFit_scale_y]
      cases quadFit (((List.take (max 2 (min (t.length - 3) m) + 3) t).drop (max 2 (min (t.length - 3) m) - 2)).map
          (fun x => x - t.getD (max 2 (min (t.length - 3) m)) 0) |>.zip
          ((List.take (max 2 (min (t.length - 3) m) + 3) func).drop (max 2 (min (t.length - 3) m) - 2))) with
      | error e => rfl
      | ok cc =>
        obtain ⟨c0, c1, c2⟩ := cc
        simp only [Except.map]
        by_cases hc : c2 = 0
        · simp [hc]
        · rw [if_neg (mul_ne_zero hs.ne' hc), if_neg hc]
          simp only
          congr 2
          · rw [show 2 * (s * c2) = s * (2 * c2) by ring, mul_div_mul_left _ _ hs.ne']
          · field_simp

/-- Under a change of time unit and origin the merger time moves with the time axis and the peak value is unchanged. -/
theorem C17_time_affine (t func : List K) (k b : K) (hk : 0 < k) :
    peakTime (t.map (fun x => k * x + b)) func = (peakTime t func).map (fun r => (k * r.1 + b, r.2)) := by
  unfold peakTime
  cases argmax func with
  | error e => rfl
  | ok m =>
    simp only [bind, Except.bind, List.length_map]
    split
    · rfl
    · rename_i h5
      push Not at h5
      set i := max 2 (min (t.length - 3) m) with hi
      have hil : i < t.length := by omega
      have hti : (t.map (fun x => k * x + b)).getD i 0 = k * t.getD i 0 + b := by
        rw [List.getD_eq_getElem _ _ (by simpa using hil), List.getD_eq_getElem _ _ hil]; simp
      rw [hti, ← List.map_take, ← List.map_drop, List.map_map]
      have hx : ((fun x => x - (k * t.getD i 0 + b)) ∘ fun x => k * x + b) =
          (fun x => k * x) ∘ (fun x => x - t.getD i 0) := by
        funext x; simp only [Function.comp]; ring
      rw [hx, ← List.map_map]
      have hz : ∀ (a c : List K), (a.map (k * ·)).zip c = (a.zip c).map (fun p => (k * p.1, p.2)) := by
        intro a c
        rw [List.zip_map_left]
        apply List.map_congr_left; intro p _; rfl
      rw [hz, quadFit_scale_x _ k hk.ne']
      cases quadFit ((((List.take (i + 3) t).drop (i - 2)).map (fun x => x - t.getD i 0)).zip
          ((List.take (i + 3) func).drop (i - 2))) with
      | error e => rfl
      | ok cc =>
        obtain ⟨c0, c1, c2⟩ := cc
        simp only [Except.map]
        by_cases hc : c2 = 0
        · simp [hc]
        · have hc' : c2 / k ^ 2 ≠ 0 := div_ne_zero hc (pow_ne_zero _ hk.ne')
          rw [if_neg hc', if_neg hc]
          have hk' := hk.ne'
          simp only
          congr 2
          · field_simp; ring
          · field_simp

end C17

/-! ## C04 Option dictionaries -/

section C04

variable {κ V : Type} [DecidableEq κ]

/-- An option dictionary is rejected iff it has a key that is not documented. -/
theorem C04_rejects (user defaults : Dict κ V) :
    checkKwargs (some user) defaults = .error .valueError ↔ ∃ k ∈ user.keys, k ∉ defaults.keys := by
  unfold checkKwargs
  simp only [Option.getD_some]
  have h : user.keys.any (fun kw => !defaults.has kw) = true ↔ ∃ k ∈ user.keys, k ∉ defaults.keys := by
    rw [List.any_eq_true]
    constructor
    · rintro ⟨k, hk, hn⟩; exact ⟨k, hk, fun hc => by rw [(Dict.has_iff _ _).mpr hc] at hn; simp at hn⟩
    · rintro ⟨k, hk, hn⟩; exact ⟨k, hk, by rw [← Dict.has_iff] at hn; simpa using hn⟩
  by_cases hb : user.keys.any (fun kw => !defaults.has kw) = true
  · rw [if_pos hb]; simp only [true_iff]; exact h.mp hb
  · rw [if_neg hb]; rw [h] at hb
    constructor
    · intro hc; exact absurd hc (by simp)
    · intro hc; exact absurd hc hb

/-- When accepted: a value the user gave is kept, every other documented key has its default, and no other key
appears. -/
theorem C04_values (user defaults out : Dict κ V) (h : checkKwargs (some user) defaults = .ok out) :
    (∀ k v, user.get? k = some v → out.get? k = some v) ∧
      (∀ k, k ∉ user.keys → out.get? k = defaults.get? k) ∧
      (∀ k, k ∈ out.keys ↔ k ∈ defaults.keys) := by
  have hsub : ∀ k ∈ user.keys, k ∈ defaults.keys := by
    by_contra hc
    push Not at hc
    rw [(C04_rejects user defaults).mpr hc] at h
    simp at h
  unfold checkKwargs at h
  simp only [Option.getD_some] at h
  split at h
  · simp at h
  · simp only [Except.ok.injEq] at h
    subst h
    refine ⟨fun k v hk => ?_, fun k hk => ?_, fun k => ?_⟩
    · rw [fill_get?, hk]; rfl
    · rw [fill_get?, (Dict.get?_none_iff _ _).mpr hk]; rfl
    · rw [← not_iff_not, ← Dict.get?_none_iff, ← Dict.get?_none_iff, fill_get?]
      constructor
      · intro hh
        cases hu : user.get? k with
        | none => rw [hu] at hh; simpa using hh
        | some v => rw [hu] at hh; simp at hh
      · intro hh
        have : user.get? k = none := by
          rw [Dict.get?_none_iff]; intro hc
          exact (Dict.get?_none_iff _ _).mp hh (hsub k hc)
        rw [this, hh]; rfl

/-- Validating a validated dictionary again changes nothing; omitting the dictionary means using the defaults. -/
theorem C04_idempotent (user defaults out : Dict κ V) (h : checkKwargs (some user) defaults = .ok out) :
    checkKwargs (some out) defaults = .ok out ∧
      (∃ d, checkKwargs none defaults = .ok d ∧ ∀ k, d.get? k = defaults.get? k) := by
  have hk := (C04_values user defaults out h).2.2
  constructor
  · unfold checkKwargs
    simp only [Option.getD_some]
    have : ¬ (out.keys.any (fun kw => !defaults.has kw) = true) := by
      rw [List.any_eq_true]
      rintro ⟨k, hk1, hk2⟩
      rw [(Dict.has_iff _ _).mpr ((hk k).mp hk1)] at hk2
      simp at hk2
    rw [if_neg this, fill_id defaults out (fun k hkk => (Dict.has_iff _ _).mpr ((hk k).mpr hkk))]
  · refine ⟨_, by unfold checkKwargs; simp only [Option.getD_none, Dict.keys, List.map_nil, List.any_nil]; rfl, ?_⟩
    intro k
    rw [fill_get?]; rfl

/-- an accepted and a rejected dictionary -/
example : checkKwargs (some [("k", 5)]) [("w", 0), ("k", 3), ("ext", 2)] = .ok [("k", 5), ("w", 0), ("ext", 2)] ∧
    checkKwargs (some [("q", 5)]) [("w", 0), ("k", 3)] = .error .valueError := by decide

/-- `raise_exception_if_none` accepts exactly when every checked key is present with a value. -/
theorem C04_required (kwargs : Dict κ (Option V)) (keys : List κ) :
    raiseIfNone kwargs keys = .ok () ↔ ∀ k ∈ keys, ∃ v, kwargs.get? k = some (some v) := by
  induction keys with
  | nil => simp [raiseIfNone]
  | cons k ks ih =>
    unfold raiseIfNone Dict.getItem
    cases hk : kwargs.get? k with
    | none => simp [bind, Except.bind, hk]
    | some o =>
      cases o with
      | none => simp [bind, Except.bind, hk]
      | some v => simpa [bind, Except.bind, hk] using ih

/-- A required option whose value is `None` raises a plain `Exception`, wherever it is in the list. -/
theorem C04_required_error (kwargs : Dict κ (Option V)) (keys : List κ) (hall : ∀ k ∈ keys, ∃ o, kwargs.get? k = some o)
    (h : ∃ k ∈ keys, kwargs.get? k = some none) : raiseIfNone kwargs keys = .error .exception := by
  induction keys with
  | nil => simp at h
  | cons k ks ih =>
    unfold raiseIfNone Dict.getItem
    obtain ⟨o, ho⟩ := hall k List.mem_cons_self
    cases o with
    | none => simp [bind, Except.bind, ho]
    | some v =>
      have := ih (fun k' hk' => hall k' (List.mem_cons_of_mem _ hk')) (by
        obtain ⟨k', hk', hn⟩ := h
        rcases List.mem_cons.mp hk' with rfl | hk'
        · rw [ho] at hn; cases hn
        · exact ⟨k', hk', hn⟩)
      simpa [bind, Except.bind, ho] using this

/-- the second of two required options is `None` -/
example : raiseIfNone (V := ℤ) [("q", some 2), ("chi1", none), ("chi2", some 1)] ["q", "chi1"] = .error .exception :=
  C04_required_error _ _ (by
    intro k hk
    simp only [List.mem_cons, List.not_mem_nil, or_false] at hk
    rcases hk with rfl | rfl
    · exact ⟨some 2, rfl⟩
    · exact ⟨none, rfl⟩) ⟨"chi1", by decide, rfl⟩

end C04

/-! ## C05 debug_level -/

/-- Raises iff the level is 2 (or unknown), warns iff level 1 or level 0 and important, otherwise silent. -/
theorem C05_debug_level (level : ℤ) (important verbose : Bool) :
    (debugMessage level important verbose = .error .exception ↔ level = 2) ∧
    (debugMessage level important verbose = .error .valueError ↔ level ∉ ([-1, 0, 1, 2] : List ℤ)) ∧
    ((∃ b, debugMessage level important verbose = .ok (.warn b)) ↔ level = 1 ∨ (level = 0 ∧ important = true)) ∧
    (debugMessage level important verbose = .ok .silent ↔ level = -1 ∨ (level = 0 ∧ important = false)) := by
  have hcases : level = -1 ∨ level = 0 ∨ level = 1 ∨ level = 2 ∨
      (level ≠ -1 ∧ level ≠ 0 ∧ level ≠ 1 ∧ level ≠ 2) := by omega
  rcases hcases with rfl | rfl | rfl | rfl | h
  · simp [debugMessage]
  · cases important <;> simp [debugMessage]
  · simp [debugMessage]
  · simp [debugMessage]
  · have : debugMessage level important verbose = .error .valueError := by
      unfold debugMessage; rw [if_pos h]
    rw [this]
    obtain ⟨h1, h2, h3, h4⟩ := h
    simp [h1, h2, h3, h4]

/-! ## C35 Interpolation guard -/

section C35

variable {K : Type} [Field K] [LinearOrder K] [IsStrictOrderedRing K]

/-- `get_interpolant` succeeds iff the nodes are strictly increasing, the interpolator is known and, for splines,
there are at least two nodes. -/
theorem C35_accepts (oldX : List K) (allow : Bool) (ip : Interpolator) (kw : SplineKwargs) (given : Bool) :
    (∃ r, getInterpolant oldX allow ip kw given = .ok r) ↔
      oldX.Pairwise (· < ·) ∧ ip ≠ .other ∧ (ip = .spline → 2 ≤ oldX.length) := by
  unfold getInterpolant
  simp only [diff_pos_iff]
  by_cases hm : oldX.Pairwise (· < ·)
  · simp only [hm, not_true_eq_false, if_false, true_and]
    cases ip with
    | spline =>
      by_cases h2 : oldX.length ≥ 2
      · simp [h2]
      · simp [h2]
    | monotonicSpline => simp
    | other => simp
  · simp [hm]

/-- The spline built has order `min k (n - 1)` and is set to raise outside its nodes iff extrapolation was not
allowed (code 2 = raise); the order stored in the caller's options is unchanged. -/
theorem C35_spline_call (oldX : List K) (allow : Bool) (kw : SplineKwargs) (given : Bool)
    (call : InterpCall) (kw' : SplineKwargs) (warned : Bool)
    (h : getInterpolant oldX allow .spline kw given = .ok (call, kw', warned)) :
    (∃ ext, call = .spline (min kw.k (oldX.length - 1)) ext ∧ (ext = 2 ↔ allow = false)) ∧
      kw'.k = kw.k ∧ (warned = true ↔ oldX.length ≤ kw.k) := by
  unfold getInterpolant at h
  split at h
  · simp at h
  simp only at h
  split at h
  · rename_i h2
    simp only [Except.ok.injEq, Prod.mk.injEq, decide_eq_true_eq] at h
    obtain ⟨hc, hk, hw⟩ := h
    subst hw
    refine ⟨?_, ?_, by simp⟩
    · by_cases hle : oldX.length ≤ kw.k
      · simp only [hle, if_true] at hc
        rw [show min kw.k (oldX.length - 1) = oldX.length - 1 by omega]
        refine ⟨_, hc.symm, ?_⟩
        cases allow <;> simp <;> split <;> simp_all
      · simp only [hle, if_false] at hc
        rw [show min kw.k (oldX.length - 1) = kw.k by omega]
        refine ⟨_, hc.symm, ?_⟩
        cases allow <;> simp <;> split <;> simp_all
    · rw [← hk]; split <;> rfl
  · simp at h

/-- Interpolating without permission to extrapolate succeeds only with matching lengths, valid nodes, and every
query within the tolerance of the node range. -/
theorem C35_interpolate (tol : K) (eval : InterpCall → List K → List K → K → Py K) (newX oldX oldY out : List K)
    (ip : Interpolator) (kw : SplineKwargs) (given : Bool)
    (h : interpolate tol eval newX oldX oldY false ip kw given = .ok out) :
    oldY.length = oldX.length ∧ oldX.Pairwise (· < ·) ∧ out.length = newX.length ∧
      ∃ lo ∈ oldX, ∃ hi ∈ oldX, ∀ x ∈ newX, lo - tol ≤ x ∧ x ≤ hi + tol := by
  unfold interpolate at h
  split at h
  · simp at h
  rename_i hl
  push Not at hl
  simp only [Bool.false_eq_true, if_false, bind, Except.bind] at h
  cases h1 : npMin newX with
  | error e => simp [h1] at h
  | ok mn =>
  cases h2 : npMin oldX with
  | error e => simp [h1, h2] at h
  | ok mo =>
  cases h3 : npMax newX with
  | error e => simp [h1, h2, h3] at h
  | ok Mn =>
  cases h4 : npMax oldX with
  | error e => simp [h1, h2, h3, h4] at h
  | ok Mo =>
  simp only [h1, h2, h3, h4] at h
  split at h
  · simp at h
  rename_i hr
  push Not at hr
  split at h
  · simp at h
  rename_i r hg
  have hacc := (C35_accepts oldX false ip kw given).mp ⟨_, hg⟩
  refine ⟨hl, hacc.1, ?_, mo, (npMin_spec h2).1, Mo, (npMax_spec h4).1, fun x hx => ⟨?_, ?_⟩⟩
  · have hlen : ∀ (l out : List K), l.mapM (eval r.1 oldX oldY) = .ok out → out.length = l.length := by
      intro l
      induction l with
      | nil => intro out ho; simp [pure, Except.pure] at ho; simp [← ho]
      | cons a l ih =>
        intro out ho
        rw [List.mapM_cons] at ho
        simp only [bind, Except.bind] at ho
        split at ho
        · simp at ho
        split at ho
        · simp at ho
        rename_i v2 hv2
        simp only [pure, Except.pure, Except.ok.injEq] at ho
        rw [← ho]; simp [ih _ hv2]
    exact hlen newX out h
  · have := (npMin_spec h1).2 x hx; linarith [hr.1]
  · have := (npMax_spec h3).2 x hx; linarith [hr.2]

/-- A query further outside than the tolerance, or mismatched lengths, raise. -/
theorem C35_interpolate_raises (tol : K) (eval : InterpCall → List K → List K → K → Py K) (newX oldX oldY : List K)
    (ip : Interpolator) (kw : SplineKwargs) (given : Bool)
    (hbad : oldY.length ≠ oldX.length ∨ ¬ oldX.Pairwise (· < ·) ∨
      ∃ x ∈ newX, (∀ y ∈ oldX, x < y - tol) ∨ (∀ y ∈ oldX, y + tol < x)) :
    ∃ e, interpolate tol eval newX oldX oldY false ip kw given = .error e := by
  cases h : interpolate tol eval newX oldX oldY false ip kw given with
  | error e => exact ⟨e, rfl⟩
  | ok out =>
    exfalso
    obtain ⟨h1, h2, _, lo, hlo, hi, hhi, hx⟩ := C35_interpolate tol eval newX oldX oldY out ip kw given h
    rcases hbad with hb | hb | ⟨x, hxm, hb | hb⟩
    · exact hb h1
    · exact hb h2
    · have := hb lo hlo; have := (hx x hxm).1; linarith
    · have := hb hi hhi; have := (hx x hxm).2; linarith

example : interpolate (1/10000000000 : ℚ) (fun _ _ _ x => .ok x) [1, 2] [0, 1, 2] [0, 1, 2] false .spline {} false
    = .ok [1, 2] := by decide +kernel

example : getInterpolant ([0, 1, 2] : List ℚ) false .spline { k := 3, ext := 0 } true
    = .ok (.spline 2 2, { k := 3, ext := 0 }, true) := by decide +kernel

end C35

end GwEcc
