import Verif.Model.Trend
import Verif.Model.Construct
import Verif.Props.Fourier
import Verif.Lemmas.Process
import Verif.Props.DataDict

/-!
# Lemmas about the fit of the secular trend
-/

set_option linter.unusedSectionVars false

namespace GwEcc

section peak
variable {K : Type} [Field K] [LinearOrder K] [IsStrictOrderedRing K]

/-- The five equally spaced samples around the clipped position of the maximum determine the peak time. -/
theorem peakTime_five {t f : List K} {tm x : K} (h : peakTime t f = .ok (tm, x)) {c d v0 v1 v2 v3 v4 : K} {i : ℕ} (hd : 0 < d)
    (hi : argmax f = .ok i)
    (ht : (t.take (max 2 (min (t.length - 3) i) + 3)).drop (max 2 (min (t.length - 3) i) - 2) =
      [c - 2 * d, c - d, c, c + d, c + 2 * d])
    (hf : (f.take (max 2 (min (t.length - 3) i) + 3)).drop (max 2 (min (t.length - 3) i) - 2) = [v0, v1, v2, v3, v4]) :
    (2 * v0 - v1 - 2 * v2 - v3 + 2 * v4) * (tm - c) = -(7 / 10) * d * (-2 * v0 - v1 + v3 + 2 * v4) ∧
      (2 * v0 - v1 - 2 * v2 - v3 + 2 * v4) ≠ 0 := by
  unfold peakTime at h
  rw [hi] at h
  rw [ok_bind] at h
  set j := max 2 (min (t.length - 3) i) with hj
  split at h
  · cases h
  have hti : t.getD j 0 = c := by
    have := congrArg (fun l => l[2]?) ht
    simp only [List.getElem?_drop, List.getElem?_cons_succ, List.getElem?_cons_zero] at this
    rw [List.getElem?_take_of_lt (by omega), show j - 2 + 2 = j by omega] at this
    rw [List.getD_eq_getElem?_getD, this]
    rfl
  dsimp only at h
  rw [hti, ht, hf] at h
  obtain ⟨⟨c0, c1, c2⟩, hq, h⟩ := bind_ok h
  dsimp only at h
  split at h
  · cases h
  next hc2 =>
  have h1 := Except.ok.inj h
  have htm : c - c1 / (2 * c2) = tm := congrArg Prod.fst h1
  unfold quadFit quadCoefs at hq
  simp only [List.map_cons, List.map_nil, List.zip_cons_cons, List.zip_nil_right, List.sum_cons, List.sum_nil] at hq
  split at hq
  · cases hq
  next hdet =>
  have hq := Except.ok.inj hq
  simp only [Prod.mk.injEq] at hq
  obtain ⟨-, e1, e2⟩ := hq
  have hd0 : d ≠ 0 := ne_of_gt hd
  have e1' : c1 = (-2 * v0 - v1 + v3 + 2 * v4) / (10 * d) := by
    rw [← e1]
    have : (10 : K) * d ≠ 0 := by positivity
    rw [div_eq_div_iff hdet this]
    ring
  have e2' : c2 = (2 * v0 - v1 - 2 * v2 - v3 + 2 * v4) / (14 * d ^ 2) := by
    rw [← e2]
    have : (14 : K) * d ^ 2 ≠ 0 := by positivity
    rw [div_eq_div_iff hdet this]
    ring
  have hne : (2 * v0 - v1 - 2 * v2 - v3 + 2 * v4) ≠ 0 := by
    intro h0
    rw [h0, zero_div] at e2'
    exact hc2 e2'
  refine ⟨?_, hne⟩
  rw [← htm, e1', e2']
  field_simp
  ring

/-- The total amplitude has its maximum at the middle one of five equally spaced samples and is concave there (a merger), or
it grows, ever faster, until the last sample (a waveform without merger). -/
def Spec.MergerOrGrowth (t f : List K) : Prop :=
  ∃ (pre post pre' post' : List K) (c d v0 v1 v2 v3 v4 : K), 0 < d ∧
    t = pre ++ [c - 2 * d, c - d, c, c + d, c + 2 * d] ++ post ∧ f = pre' ++ [v0, v1, v2, v3, v4] ++ post' ∧
    pre'.length = pre.length ∧ post'.length = post.length ∧
    ((∀ y ∈ pre' ++ [v0, v1], y < v2) ∧ (∀ y ∈ [v3, v4] ++ post', y ≤ v2) ∧ v0 + v2 ≤ 2 * v1 ∧ v2 + v4 ≤ 2 * v3 ∨
      post = [] ∧ (∀ y ∈ pre' ++ [v0, v1, v2, v3], y < v4) ∧ v0 ≤ v1 ∧ v1 ≤ v2 ∧ 2 * v1 ≤ v0 + v2 ∧ 2 * v2 ≤ v1 + v3 ∧
        2 * v3 ≤ v2 + v4)

theorem argmax_at {l : List K} {i k : ℕ} (h : argmax l = .ok i) (hk : k < l.length)
    (h1 : ∀ j (hj : j < l.length), j < k → l[j] < l[k]) (h2 : ∀ j (hj : j < l.length), k < j → l[j] ≤ l[k]) : i = k := by
  obtain ⟨hi, a1, a2⟩ := argmax_spec h
  rcases lt_trichotomy i k with hlt | he | hgt
  · exact absurd (a1 k hk) (not_le.mpr (h1 i hi hlt))
  · exact he
  · exact absurd (h2 i hi hgt) (not_le.mpr (a2 k hk hgt))

/-- Then the merger time the code finds is not after the last sample. -/
theorem peakTime_inside {t f : List K} {tm x : K} (hs : Spec.MergerOrGrowth t f) (h : peakTime t f = .ok (tm, x)) :
    ∃ y ∈ t, tm ≤ y := by
  obtain ⟨pre, post, pre', post', c, d, v0, v1, v2, v3, v4, hd, ht, hf, hl, hl', hcase⟩ := hs
  obtain ⟨i, hi, -⟩ := bind_ok (show (argmax f).bind _ = _ from h)
  have hidx : ∀ k, max 2 (min (t.length - 3) k) = pre.length + 2 →
      (t.take (max 2 (min (t.length - 3) k) + 3)).drop (max 2 (min (t.length - 3) k) - 2) =
        [c - 2 * d, c - d, c, c + d, c + 2 * d] ∧
      (f.take (max 2 (min (t.length - 3) k) + 3)).drop (max 2 (min (t.length - 3) k) - 2) = [v0, v1, v2, v3, v4] := by
    intro k hk
    rw [hk]
    constructor
    · rw [ht, List.take_append_of_le_length (by simp), List.drop_take, show pre.length + 2 - 2 = pre.length by omega,
        List.drop_left, show pre.length + 2 + 3 - pre.length = 5 by omega]
      rfl
    · rw [hf, ← hl, List.take_append_of_le_length (by simp), List.drop_take, show pre'.length + 2 - 2 = pre'.length by omega,
        List.drop_left, show pre'.length + 2 + 3 - pre'.length = 5 by omega]
      rfl
  have htl : t.length = pre.length + 5 + post.length := by rw [ht]; simp; omega
  have hfl : f.length = pre.length + 5 + post.length := by rw [hf]; simp; omega
  have hget : ∀ n (hn : n < f.length), f[n] ∈ f := fun n hn => List.getElem_mem hn
  have hmem : c + 2 * d ∈ t := by rw [ht]; simp
  rcases hcase with ⟨b1, b2, b3, b4⟩ | ⟨hpost, b1, b2, b3, b4, b5, b6⟩
  · have hi2 : i = pre.length + 2 := by
      have hv : f[pre.length + 2]'(by omega) = v2 := by
        simp only [hf]
        rw [List.getElem_append_left (by simp; omega), List.getElem_append_right (by omega)]
        simp [hl]
      refine argmax_at hi (by omega) (fun j hj hlt => ?_) (fun j hj hgt => ?_)
      · rw [hv]
        refine b1 _ ?_
        have : f = (pre' ++ [v0, v1]) ++ ([v2, v3, v4] ++ post') := by rw [hf]; simp
        simp only [this]
        rw [List.getElem_append_left (by simp; omega)]
        exact List.getElem_mem _
      · rw [hv]
        refine b2 _ ?_
        have : f = (pre' ++ [v0, v1, v2]) ++ ([v3, v4] ++ post') := by rw [hf]; simp
        simp only [this]
        rw [List.getElem_append_right (by simp; omega)]
        exact List.getElem_mem _
    have hclip : max 2 (min (t.length - 3) i) = pre.length + 2 := by omega
    obtain ⟨e1, e2⟩ := hidx i hclip
    obtain ⟨q1, q2⟩ := peakTime_five h hd hi e1 e2
    have c1 := b1 v1 (by simp)
    have c2 := b2 v3 (by simp)
    refine ⟨c + 2 * d, hmem, ?_⟩
    have hS : 2 * v0 - v1 - 2 * v2 - v3 + 2 * v4 < 0 := by linarith
    by_contra hlt
    push Not at hlt
    have : (2 * v0 - v1 - 2 * v2 - v3 + 2 * v4) * (tm - c) < (2 * v0 - v1 - 2 * v2 - v3 + 2 * v4) * (2 * d) :=
      mul_lt_mul_of_neg_left (by linarith) hS
    rw [q1] at this
    have h3 : -(7 / 10) * (-2 * v0 - v1 + v3 + 2 * v4) < (2 * v0 - v1 - 2 * v2 - v3 + 2 * v4) * 2 := by
      have : d * (-(7 / 10) * (-2 * v0 - v1 + v3 + 2 * v4)) < d * ((2 * v0 - v1 - 2 * v2 - v3 + 2 * v4) * 2) := by linarith
      exact lt_of_mul_lt_mul_left this hd.le
    linarith
  · have hi2 : i = pre.length + 4 := by
      have hp' : post' = [] := List.length_eq_zero_iff.mp (by rw [hl', hpost]; rfl)
      have hv : f[pre.length + 4]'(by omega) = v4 := by
        simp only [hf]
        rw [List.getElem_append_left (by simp; omega), List.getElem_append_right (by omega)]
        simp [hl]
      refine argmax_at hi (by omega) (fun j hj hlt => ?_) (fun j hj hgt => ?_)
      · rw [hv]
        refine b1 _ ?_
        have : f = (pre' ++ [v0, v1, v2, v3]) ++ [v4] := by rw [hf, hp']; simp
        simp only [this]
        rw [List.getElem_append_left (by simp; omega)]
        exact List.getElem_mem _
      · rw [hpost] at hfl
        simp at hfl
        omega
    have hclip : max 2 (min (t.length - 3) i) = pre.length + 2 := by
      rw [hpost] at htl
      simp at htl
      omega
    obtain ⟨e1, e2⟩ := hidx i hclip
    obtain ⟨q1, q2⟩ := peakTime_five h hd hi e1 e2
    have c1 := b1 v3 (by simp)
    refine ⟨c + 2 * d, hmem, ?_⟩
    have hS : 0 < 2 * v0 - v1 - 2 * v2 - v3 + 2 * v4 := lt_of_le_of_ne (by linarith) (Ne.symm q2)
    by_contra hlt
    push Not at hlt
    have h0 : 0 < (2 * v0 - v1 - 2 * v2 - v3 + 2 * v4) * (tm - c) := mul_pos hS (by linarith)
    rw [q1] at h0
    have : 0 ≤ d * (-2 * v0 - v1 + v3 + 2 * v4) := mul_nonneg hd.le (by linarith)
    linarith

end peak

section trend
open GwEcc.Filter
variable {K : Type} [Field K] [LinearOrder K] [IsStrictOrderedRing K] [FloorRing K]

theorem trendResiduals_none {pow : K → K → Option K} {t x : List K} {q : K × K × K} {y : K} (hl : t.length = x.length)
    (hy : y ∈ t) (h : pow (q.1 - y) q.2.2 = none) : trendResiduals pow t x q = none := by
  unfold trendResiduals
  cases hm : ((t.zip x).map fun s => (pnModel pow s.1 q.1 q.2.1 q.2.2).map fun m => s.2 - m).mapM id with
  | none => rfl
  | some r =>
    have := mapM_id_some hm
    obtain ⟨n, hn, rfl⟩ := List.mem_iff_getElem.mp hy
    have hz : n < (t.zip x).length := by rw [List.length_zip]; omega
    have e := congrArg (fun l => l[n]?) this
    simp only [List.getElem?_map, List.getElem?_eq_getElem hz, Option.map_some, List.getElem_zip, pnModel, h,
      Option.map_none] at e
    cases hr : r[n]? with
    | none => rw [hr] at e; cases e
    | some v => rw [hr] at e; cases e

/-- A sample at or after the merger makes the fit raise. -/
theorem trendFit_late {pow : K → K → Option K} {iterate : (K × K × K → Option (List K)) → K × K × K → Py (K × K × K)}
    (hpow : ∀ b ≤ 0, ∀ k : Kind, pow b k.power = none) {t x : List K} {k : Kind} {tM y : K} (hy : y ∈ t) (hM : tM ≤ y) :
    trendFit pow iterate t x k tM = .error .valueError := by
  unfold trendFit
  split
  · next h =>
    unfold leastSquares
    rw [trendResiduals_none h.1 hy (hpow _ (by linarith) k)]
    rfl
  · rfl

theorem checkRequirement_late {lib : FilterLib K} {thr tM : K} {k : Kind} {t d d' : List K}
    (h : lib.fit t d k tM = .error .valueError) : checkRequirement lib thr tM k t d d' = .error .valueError := by
  unfold checkRequirement
  dsimp only
  unfold npZip
  split
  · rw [ok_bind, h]; rfl
  · rfl

theorem filterKind_late {fuel : ℕ} {lib : FilterLib K} {cfg : FilterCfg K} {tM : K} {m : CoprModes K} {k : Kind}
    (h : ∀ d k, lib.fit m.t d k tM = .error .valueError) : filterKind fuel lib cfg tM m k = some (.error .valueError) := by
  unfold filterKind makeFilter
  unfold original npZip
  split
  · next e heq =>
    split at heq
    · rw [ok_bind] at heq
      dsimp only at heq
      rw [checkRequirement_late (h _ _)] at heq
      cases heq; rfl
    · cases heq; rfl
  all_goals
    next heq =>
    exfalso
    split at heq
    · rw [ok_bind] at heq
      dsimp only at heq
      rw [checkRequirement_late (h _ _)] at heq
      cases heq
    · cases heq

end trend

end GwEcc
