import Verif.Lemmas.Measure
import Mathlib.Tactic.Ring
import Mathlib.Tactic.FieldSimp
import Mathlib.Tactic.Linarith
import Mathlib.Tactic.Positivity

set_option linter.unusedSectionVars false

namespace GwEcc

variable {K : Type} [Field K] [LinearOrder K] [IsStrictOrderedRing K]

/-- The nodes of the mean anomaly, counting orbits from `k`. -/
def anoNodes (pi : K) (l : List K) (k : K) : List (K × K) :=
  l.zip ((List.range l.length).map (fun i : ℕ => ((i : K) + k) * 2 * pi))

theorem anoNodes_cons (pi a : K) (l : List K) (k : K) :
    anoNodes pi (a :: l) k = (a, k * 2 * pi) :: anoNodes pi l (k + 1) := by
  unfold anoNodes
  rw [List.length_cons, List.range_succ_eq_map, List.map_cons, List.zip_cons_cons, List.map_map]
  congr 2
  · simp
  · congr 1
    funext i
    simp only [Function.comp, Nat.succ_eq_add_one]
    push_cast
    ring

theorem npInterp_orbit (pi : K) : ∀ (l : List K) (k x a b : K) (i : ℕ), l.Pairwise (· < ·) →
    l[i]? = some a → l[i + 1]? = some b → a ≤ x → x < b →
    npInterp x (anoNodes pi l k) = .ok (((i : K) + k) * 2 * pi + 2 * pi * ((x - a) / (b - a)))
  | [], _, _, _, _, i, _, h, _, _, _ => by simp at h
  | [_], _, _, _, _, i, _, _, h, _, _ => by simp at h
  | p :: q :: l, k, x, a, b, i, hs, ha, hb, hax, hxb => by
    rw [anoNodes_cons, anoNodes_cons]
    cases i with
    | zero =>
      simp only [List.getElem?_cons_zero, List.getElem?_cons_succ, Option.some.injEq, zero_add] at ha hb
      subst ha hb
      have hpq : p < q := (List.pairwise_cons.mp hs).1 q (by simp)
      unfold npInterp
      by_cases hx : x ≤ p
      · rw [if_pos hx]
        have : x = p := le_antisymm hx hax
        subst this
        simp
      · rw [if_neg hx, if_pos hxb]
        have : q - p ≠ 0 := sub_ne_zero.mpr hpq.ne'
        congr 1
        simp only [Nat.cast_zero]
        field_simp
        ring
    | succ i =>
      have hs' := (List.pairwise_cons.mp hs).2
      have ha' : (q :: l)[i]? = some a := by simpa using ha
      have hb' : (q :: l)[i + 1]? = some b := by simpa using hb
      have hqa : q ≤ a := by
        cases i with
        | zero => simp at ha'; exact ha'.le
        | succ i =>
          have : a ∈ l := List.mem_of_getElem? (by simpa using ha')
          exact ((List.pairwise_cons.mp hs').1 a this).le
      have hpq : p < q := (List.pairwise_cons.mp hs).1 q (by simp)
      have ih := npInterp_orbit pi (q :: l) (k + 1) x a b i hs' ha' hb' hax hxb
      rw [anoNodes_cons] at ih
      unfold npInterp
      rw [if_neg (not_le.mpr (lt_of_lt_of_le hpq (hqa.trans hax))), if_neg (not_lt.mpr (hqa.trans hax)), ih]
      congr 1
      push_cast
      ring

theorem npInterp_last (pi : K) : ∀ (l : List K) (k x : K), l.Pairwise (· < ·) → l.getLast? = some x →
    npInterp x (anoNodes pi l k) = .ok (((l.length - 1 : ℕ) + k) * 2 * pi)
  | [], _, _, _, h => by simp at h
  | [p], k, x, _, _ => by
    rw [anoNodes_cons]
    simp [anoNodes, npInterp]
  | p :: q :: l, k, x, hs, h => by
    have hs' := (List.pairwise_cons.mp hs).2
    have h' : (q :: l).getLast? = some x := by rw [← h, List.getLast?_cons_cons]
    have hqx : q ≤ x := by
      have hm : x ∈ q :: l := List.mem_of_getLast? h'
      rcases List.mem_cons.mp hm with rfl | hm
      · exact le_refl _
      · exact ((List.pairwise_cons.mp hs').1 x hm).le
    have hpq : p < q := (List.pairwise_cons.mp hs).1 q (by simp)
    have ih := npInterp_last pi (q :: l) (k + 1) x hs' h'
    rw [anoNodes_cons, anoNodes_cons]
    rw [anoNodes_cons] at ih
    unfold npInterp
    rw [if_neg (not_le.mpr (lt_of_lt_of_le hpq hqx)), if_neg (not_lt.mpr hqx), ih]
    congr 1
    simp only [List.length_cons, Nat.add_sub_cancel]
    push_cast
    ring

theorem pyMod_add_mul [FloorRing K] (n : ℕ) (θ P : K) (h0 : 0 ≤ θ) (h1 : θ < P) : pyMod ((n : K) * P + θ) P = θ := by
  have hP : 0 < P := lt_of_le_of_lt h0 h1
  unfold pyMod
  have : ⌊((n : K) * P + θ) / P⌋ = (n : ℤ) := by
    rw [Int.floor_eq_iff]
    constructor
    · rw [le_div_iff₀ hP]; push_cast; linarith
    · rw [div_lt_iff₀ hP]; push_cast; linarith
  rw [this]
  push_cast
  ring

/-- A time between the first and the last entry is in some orbit or is the last entry. -/
theorem orbit_or_last : ∀ (l : List K) (x : K), Spec.Within l x →
    (∃ a b, Spec.Orbit l x a b) ∨ l.getLast? = some x
  | [], x, h => by obtain ⟨f, _, h1, _⟩ := h; simp at h1
  | [p], x, h => by
    obtain ⟨f, l, h1, h2, h3, h4⟩ := h
    simp only [List.head?_cons, Option.some.injEq, List.getLast?_singleton] at h1 h2
    subst h1 h2
    right; simp [le_antisymm h3 h4]
  | p :: q :: l, x, h => by
    obtain ⟨f, la, h1, h2, h3, h4⟩ := h
    simp only [List.head?_cons, Option.some.injEq] at h1
    subst h1
    by_cases hx : x < q
    · left; exact ⟨p, q, h3, hx, 0, by simp, by simp⟩
    · have := orbit_or_last (q :: l) x ⟨q, la, rfl, by rw [← h2, List.getLast?_cons_cons], not_lt.mp hx, h4⟩
      rcases this with ⟨a, b, ha, hb, i, hi, hj⟩ | h
      · left; exact ⟨a, b, ha, hb, i + 1, by simpa using hi, by simpa using hj⟩
      · right; rw [List.getLast?_cons_cons]; exact h

end GwEcc
