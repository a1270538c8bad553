import Verif.Props.Stability
import Verif.Props.Continuity

/-!
# C123 (continued): the mean anomaly does not jump on the circle
-/

namespace GwEcc

open Spec

section
variable {K C : Type} [Field K] [LinearOrder K] [IsStrictOrderedRing K]

theorem within_shift {l : List K} {x d : K} : Within (l.map (· - d)) x ↔ Within l (x + d) := by
  unfold Within
  rw [List.head?_map, List.getLast?_map]
  constructor
  · rintro ⟨a, b, h1, h2, h3, h4⟩
    obtain ⟨a', e1, rfl⟩ := Option.map_eq_some_iff.1 h1
    obtain ⟨b', e2, rfl⟩ := Option.map_eq_some_iff.1 h2
    exact ⟨a', b', e1, e2, by linarith, by linarith⟩
  · rintro ⟨a, b, h1, h2, h3, h4⟩
    exact ⟨a - d, b - d, by rw [h1]; rfl, by rw [h2]; rfl, by linarith, by linarith⟩

theorem anomaly_shift {pi : K} {l : List K} {x d v : K} (h : IsMeanAnomaly pi l (x + d) v) :
    IsMeanAnomaly pi (l.map (· - d)) x v := by
  obtain ⟨h1, h2⟩ := h
  constructor
  · rintro a b ⟨o1, o2, i, o3, o4⟩
    rw [List.getElem?_map] at o3 o4
    obtain ⟨a', e1, rfl⟩ := Option.map_eq_some_iff.1 o3
    obtain ⟨b', e2, rfl⟩ := Option.map_eq_some_iff.1 o4
    rw [h1 a' b' ⟨by linarith, by linarith, i, e1, e2⟩]
    congr 2 <;> ring
  · intro hlast
    refine h2 ?_
    rw [List.getLast?_map] at hlast
    obtain ⟨b, e, hb⟩ := Option.map_eq_some_iff.1 hlast
    rw [e]
    congr 1
    linarith

/-- The mean anomaly at two times differs on the circle by at most the share of the shortest orbit that lies between them. -/
theorem C123_anomaly {pi : K} (hpi : 0 < pi) {l : List K} (hs : l.Pairwise (· < ·)) {T : K} (hT : 0 < T)
    (hgap : ∀ i a b, l[i]? = some a → l[i + 1]? = some b → T ≤ b - a) {x x' v v' : K} (hx : Within l x) (hx' : Within l x')
    (hv : IsMeanAnomaly pi l x v) (hv' : IsMeanAnomaly pi l x' v') :
    ∃ k : ℤ, |v - v' - 2 * pi * k| ≤ 2 * pi * (|x - x'| / T) := by
  have e : x' = x + (x' - x) := by ring
  rw [e] at hx' hv'
  refine C88_mean_anomaly hpi hs (l' := l.map (· - (x' - x))) (δ := |x - x'|) ?_ ?_ hT ?_ hx (within_shift.2 hx') hv (anomaly_shift hv')
  · rw [List.pairwise_map]
    exact hs.imp fun h => by linarith
  · rw [List.forall₂_map_right_iff, List.forall₂_same]
    intro a _
    rw [sub_sub_cancel, abs_sub_comm]
  · intro i a b h1 h2
    rw [List.getElem?_map] at h1 h2
    obtain ⟨a', e1, rfl⟩ := Option.map_eq_some_iff.1 h1
    obtain ⟨b', e2, rfl⟩ := Option.map_eq_some_iff.1 h2
    have := hgap i a' b' e1 e2
    linarith

/-- Whole calls: between any two times returned, the mean anomaly changes on the circle by at most their distance in units of
the shortest orbit.  An example in `Props/StabilityCall` meets these premises. -/
theorem C123_anomaly_call [FloorRing K] {fuel : ℕ} {lib : Libs K C} {a : Call K C} {ans : Answer K C} {asked : Val K}
    (hrun : run fuel lib a = some (.ok ans)) (hpi : 0 < lib.wave.pi) (hpr : a.precessing = .isFalse)
    (hasked : a.trefIn = some asked) (hdict : ProperDicts a.dataDict)
    (harrays : ∀ t A φ w, Dominant lib.wave a.dataDict t A φ w → ProperArrays t A φ w) (hpeaks : PeakFinder lib)
    (hmethod : a.method ≠ "AmplitudeFits" ∧ a.method ≠ "FrequencyFits")
    (hzero : (a.extra.getD []).get? "return_zero_if_small_ecc_failure" = none) :
    ∃ t A φ w p q fP fA va vr, Apsides lib a ans.built.analysis.width t A φ w p q fP fA ∧
      ans.ret.get? "mean_anomaly" = some va ∧ ans.ret.get? "tref_out" = some vr ∧ va.atleast1d.length = vr.atleast1d.length ∧
      ∀ T, 0 < T → (∀ i a b, (valuesAt t p)[i]? = some a → (valuesAt t p)[i + 1]? = some b → T ≤ b - a) →
        ∀ (i j : ℕ) (x x' v v' : K), vr.atleast1d[i]? = some x → vr.atleast1d[j]? = some x' → va.atleast1d[i]? = some v →
          va.atleast1d[j]? = some v' → ∃ k : ℤ, |v - v' - 2 * lib.wave.pi * k| ≤ 2 * lib.wave.pi * (|x - x'| / T) := by
  classical
  obtain ⟨t, A, φ, w, p, q, fP, fA, ve, va, vr, hA, _, g2, g3, _, _, _, _, hkeep, _, hv⟩ :=
    C89_times hrun hpi hpr hasked hdict harrays hpeaks hmethod hzero
  have hin : ∀ x ∈ vr.atleast1d, Within (valuesAt t p) x := by
    intro x hx
    have := hkeep (fun x => decide (Within (valuesAt t p) x ∧ Within (valuesAt t q) x)) (by simp)
    rw [this, List.mem_filter] at hx
    exact (of_decide_eq_true hx.2).1
  have hs : (valuesAt t p).Pairwise (· < ·) :=
    valuesAt_increasing (harrays t A φ w hA.data).1 hA.pericenters
  refine ⟨t, A, φ, w, p, q, fP, fA, va, vr, hA, g2, g3, hv.length_eq.symm, ?_⟩
  intro T hT hgap i j x x' v v' h1 h2 h3 h4
  have key : ∀ {i : ℕ} {x v : K}, vr.atleast1d[i]? = some x → va.atleast1d[i]? = some v →
      IsMeanAnomaly lib.wave.pi (valuesAt t p) x v := by
    intro i x v h h'
    obtain ⟨hi, rfl⟩ := List.getElem?_eq_some_iff.1 h
    obtain ⟨hi', rfl⟩ := List.getElem?_eq_some_iff.1 h'
    exact (List.forall₂_iff_get.1 hv).2 i hi hi'
  exact C123_anomaly hpi hs hT hgap (hin x (List.mem_of_getElem? h1)) (hin x' (List.mem_of_getElem? h2)) (key h1 h3) (key h2 h4)

/-- The premises of `C123_anomaly`, across a pericenter: just before it the mean anomaly is almost `2 π`, just after almost
zero. -/
example : ([0, 10, 20] : List ℚ).Pairwise (· < ·) ∧ Within ([0, 10, 20] : List ℚ) (99 / 10) ∧ Within ([0, 10, 20] : List ℚ) (101 / 10) ∧
    (∀ i a b, ([0, 10, 20] : List ℚ)[i]? = some a → ([0, 10, 20] : List ℚ)[i + 1]? = some b → 10 ≤ b - a) := by
  refine ⟨by decide +kernel, ⟨0, 20, rfl, rfl, by norm_num, by norm_num⟩, ⟨0, 20, rfl, rfl, by norm_num, by norm_num⟩, ?_⟩
  intro i a b h1 h2
  match i with
  | 0 => simp at h1 h2; rw [← h1, ← h2]; norm_num
  | 1 => simp at h1 h2; rw [← h1, ← h2]; norm_num
  | 2 => simp at h2
  | i + 3 => simp at h1

end

end GwEcc
