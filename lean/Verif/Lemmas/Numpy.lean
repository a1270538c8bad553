import Verif.Model.Numpy
import Verif.Spec.Numpy
import Verif.Spec.Ringdown
import Verif.Props.Compare

/-! Lemmas about amplitude and phase of complex modes. -/

namespace GwEcc

open Spec Compare

namespace Numpy

theorem phase_length (l : List ℂ) : (phase l).length = l.length := by
  unfold phase
  rw [List.length_map, (C63_unwrap Real.pi_pos _).1, List.length_map]

theorem abs_length (l : List ℂ) : (abs l).length = l.length := List.length_map _

/-- Each phase is the negative argument up to turns. -/
theorem phase_get {l : List ℂ} {i : ℕ} {z : ℂ} (h : l[i]? = some z) :
    ∃ (k : ℤ), (phase l)[i]? = some (-(Complex.arg z + 2 * Real.pi * k)) := by
  obtain ⟨_, _, hm, _⟩ := C63_unwrap Real.pi_pos (l.map Complex.arg)
  obtain ⟨y, k, h1, rfl⟩ := hm i (Complex.arg z) (by rw [List.getElem?_map, h]; rfl)
  refine ⟨k, ?_⟩
  unfold phase
  rw [List.getElem?_map, h1]
  rfl

theorem phase_step {l : List ℂ} {i : ℕ} {x y : ℝ} (hx : (phase l)[i]? = some x) (hy : (phase l)[i + 1]? = some y) :
    |y - x| ≤ Real.pi := by
  obtain ⟨_, _, _, hs⟩ := C63_unwrap Real.pi_pos (l.map Complex.arg)
  unfold phase at hx hy
  rw [List.getElem?_map] at hx hy
  obtain ⟨a, ha, rfl⟩ := Option.map_eq_some_iff.mp hx
  obtain ⟨b, hb, rfl⟩ := Option.map_eq_some_iff.mp hy
  have := hs i a b ha hb
  rw [abs_le] at this ⊢
  constructor <;> linarith [this.1, this.2]

theorem exp_turns (x : ℝ) (k : ℤ) :
    Complex.exp (-Complex.I * ((-(x + 2 * Real.pi * k) : ℝ) : ℂ)) = Complex.exp (x * Complex.I) := by
  have : -Complex.I * ((-(x + 2 * Real.pi * k) : ℝ) : ℂ) = x * Complex.I + k * (2 * Real.pi * Complex.I) := by
    push_cast; ring
  rw [this, Complex.exp_add, Complex.exp_int_mul_two_pi_mul_I, mul_one]

theorem sample_back {l : List ℂ} {i : ℕ} {z : ℂ} (h : l[i]? = some z) {p : ℝ} (hp : (phase l)[i]? = some p) :
    ((‖z‖ : ℝ) : ℂ) * Complex.exp (-Complex.I * p) = z := by
  obtain ⟨k, hk⟩ := phase_get h
  rw [hp] at hk
  cases hk
  rw [exp_turns]
  exact Complex.norm_mul_exp_arg_mul_I z

theorem combine_abs_phase (l : List ℂ) : combine ((abs l).zip (phase l)) = l := by
  unfold combine
  refine List.ext_getElem? fun i => ?_
  rw [List.getElem?_map]
  cases h : l[i]? with
  | none =>
    have : ((abs l).zip (phase l))[i]? = none := by
      rw [List.getElem?_eq_none_iff] at h ⊢
      rw [List.length_zip, abs_length, phase_length, min_self]
      exact h
    rw [this]
    rfl
  | some z =>
    obtain ⟨k, hk⟩ := phase_get h
    have ha : (abs l)[i]? = some ‖z‖ := by unfold abs; rw [List.getElem?_map, h]; rfl
    have : ((abs l).zip (phase l))[i]? = some (‖z‖, -(Complex.arg z + 2 * Real.pi * k)) := by
      rw [List.getElem?_zip_eq_some]
      exact ⟨ha, hk⟩
    rw [this]
    exact congrArg some (sample_back h hk)

theorem polar_eq {a p : List ℝ} (h : a.length = p.length) : polar a p = .ok (combine (a.zip p)) := by
  unfold polar combine
  rw [if_pos h]
  congr 1
  rw [List.zip_eq_zipWith, List.map_zipWith]

theorem combine_get {m : List (ℝ × ℝ)} {i : ℕ} {s : ℝ × ℝ} (h : m[i]? = some s) :
    (combine m)[i]? = some ((s.1 : ℂ) * Complex.exp (-Complex.I * s.2)) := by
  unfold combine
  rw [List.getElem?_map, h]
  rfl

theorem norm_sample {s : ℝ × ℝ} (h : 0 ≤ s.1) : ‖(s.1 : ℂ) * Complex.exp (-Complex.I * s.2)‖ = s.1 := by
  have : -Complex.I * (s.2 : ℂ) = ((-s.2 : ℝ) : ℂ) * Complex.I := by push_cast; ring
  rw [norm_mul, this, Complex.norm_exp_ofReal_mul_I, mul_one, Complex.norm_real, Real.norm_of_nonneg h]

theorem arg_sample {s : ℝ × ℝ} (h : 0 < s.1) : ∃ k : ℤ, Complex.arg ((s.1 : ℂ) * Complex.exp (-Complex.I * s.2)) = -s.2 + 2 * Real.pi * k := by
  have : -Complex.I * (s.2 : ℂ) = ((-s.2 : ℝ) : ℂ) * Complex.I := by push_cast; ring
  rw [this, Complex.arg_real_mul _ h, Complex.arg_exp_mul_I]
  refine ⟨-toIocDiv Real.two_pi_pos (-Real.pi) (-s.2), ?_⟩
  have := toIocMod_add_toIocDiv_zsmul Real.two_pi_pos (-Real.pi) (-s.2)
  rw [zsmul_eq_mul] at this
  push_cast
  linarith

/-- The phase at a sample is the given one up to turns. -/
theorem phase_combine {m : List (ℝ × ℝ)} {i : ℕ} {s : ℝ × ℝ} (h : m[i]? = some s) (hs : 0 < s.1) :
    ∃ k : ℤ, (phase (combine m))[i]? = some (s.2 + 2 * Real.pi * k) := by
  obtain ⟨k, hk⟩ := phase_get (combine_get h)
  obtain ⟨j, hj⟩ := arg_sample hs
  refine ⟨-j - k, ?_⟩
  rw [hk, hj]
  congr 1
  push_cast
  ring

theorem int_zero {x : ℝ} {k : ℤ} (h : x = 2 * Real.pi * k) (hx : |x| < 2 * Real.pi) : k = 0 := by
  have hp := Real.two_pi_pos
  rw [abs_lt] at hx
  have h1 : (-1 : ℝ) < k := by
    by_contra hc
    push Not at hc
    nlinarith [hx.1]
  have h2 : (k : ℝ) < 1 := by
    by_contra hc
    push Not at hc
    nlinarith [hx.2]
  have h1 : (-1 : ℤ) < k := by exact_mod_cast h1
  have h2 : k < (1 : ℤ) := by exact_mod_cast h2
  omega

/-- Well-sampled modes: the number of turns is the same at all samples. -/
theorem phase_const {m : List (ℝ × ℝ)} (h : WellSampled m) :
    ∃ k : ℤ, ∀ (i : ℕ) (s : ℝ × ℝ), m[i]? = some s → (phase (combine m))[i]? = some (s.2 + 2 * Real.pi * k) := by
  cases hm : m with
  | nil => exact ⟨0, fun i s hs => by simp at hs⟩
  | cons s0 rest =>
    have h0 : m[0]? = some s0 := by rw [hm]; rfl
    obtain ⟨k, hk⟩ := phase_combine h0 (h.positive _ (List.mem_of_getElem? h0))
    rw [← hm]
    refine ⟨k, fun i => ?_⟩
    induction i with
    | zero =>
      intro s hs
      rw [h0] at hs
      cases hs
      exact hk
    | succ i ih =>
      intro s hs
      have hi : i < m.length := by
        have := (List.getElem?_eq_some_iff.mp hs).1
        omega
      have hp := List.getElem?_eq_getElem hi
      have e1 := ih _ hp
      obtain ⟨j, e2⟩ := phase_combine hs (h.positive _ (List.mem_of_getElem? hs))
      have st := phase_step e1 e2
      have st' := h.steps i _ _ hp hs
      have : j - k = 0 := by
        refine int_zero (x := (s.2 + 2 * Real.pi * j) - (m[i].2 + 2 * Real.pi * k) - (s.2 - m[i].2)) (by push_cast; ring) ?_
        rw [abs_le] at st
        rw [abs_lt] at st' ⊢
        constructor <;> linarith [st.1, st.2, st'.1, st'.2]
      have : j = k := by omega
      rw [← this]
      exact e2

theorem list_shift {p q : List ℝ} {c : ℝ} (hl : p.length = q.length) (h : ∀ (i : ℕ) (x : ℝ), p[i]? = some x → q[i]? = some (x + c)) :
    q = p.map (· + c) := by
  refine List.ext_getElem? fun i => ?_
  rw [List.getElem?_map]
  cases hp : p[i]? with
  | none =>
    rw [List.getElem?_eq_none_iff] at hp
    rw [Option.map_none, List.getElem?_eq_none_iff, ← hl]
    exact hp
  | some x => exact h i x hp

end Numpy

end GwEcc
